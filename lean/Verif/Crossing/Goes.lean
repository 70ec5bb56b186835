import Verif.Crossing.Legs
import Verif.Crossing.Two

/-! # When the search answers, with samples that are only nearly even -/

namespace Verif.Crossing

variable {K : Type} [Field K] [LinearOrder K] [IsStrictOrderedRing K] [FloorRing K] {P : Type}

/-- `C` is a set of stretches that can be sampled without an error from end to end, into stretches of the same set that have their share of the length to
one per cent, and with at most one crossing if the ends differ. -/
structure Goes (E : Earth K P) (C : P → P → Prop) : Prop where
  nonempty : ∀ a b n, E.samples a b n ≠ []
  sampled : ∀ a b (n : Nat), C a b → 3 ≤ n → 30 * (n : K) ≤ E.dist a b → E.raises a b n = false ∧ (E.samples a b n).head? = some a ∧
    (E.samples a b n).getLast? = some b
  step : ∀ a b (n : Nat), C a b → 3 ≤ n → 30 * (n : K) ≤ E.dist a b → ∀ y z, Neighbours (E.samples a b n) y z → C y z ∧ E.dist a b ≤ 1.01 * (n * E.dist y z)
  once : ∀ a b (n : Nat), C a b → 3 ≤ n → 30 * (n : K) ≤ E.dist a b → E.inside a ≠ E.inside b → (flips E.inside (E.samples a b n)).length ≤ 1

/-- A stretch of at least 380 m is cut into steps of at least 94 m. -/
theorem fine_steps' {d : K} (h : 380 ≤ d) : ∃ n : Nat, pointsFor d 926 = .ok n ∧ 94 * (n : K) ≤ d := by
  have key : ∀ β : K, 141 ≤ β → 2 * β ≤ d → pointsFor d 926 = pointsFor d β → ∃ n : Nat, pointsFor d 926 = .ok n ∧ 94 * (n : K) ≤ d := by
    intro β hβ h2 he
    obtain ⟨h1, h3, -⟩ := spacing (by linarith) h2
    refine ⟨_, he.trans (pointsFor_ge (by linarith) h2), ?_⟩
    have hm : (((⌊d / β⌋ + 1).toNat : Nat) : K) * 141 ≤ ((⌊d / β⌋ + 1).toNat : Nat) * β :=
      mul_le_mul_of_nonneg_left hβ (by positivity)
    linarith
  by_cases h1 : 2 * 926 ≤ d
  · exact key 926 (by norm_num) h1 rfl
  have e1 := pointsFor_halve (d := d) (β := 926) (by norm_num) (not_le.1 h1)
  by_cases h2 : 2 * (926 / 2) ≤ d
  · exact key _ (by norm_num) h2 e1
  have e2 := e1.trans (pointsFor_halve (by norm_num) (not_le.1 h2))
  by_cases h3 : 2 * (926 / 2 / 2) ≤ d
  · exact key _ (by norm_num) h3 e2
  have e3 := e2.trans (pointsFor_halve (by norm_num) (not_le.1 h3))
  have h4 : 2 * (926 / 2 / 2 / 2) ≤ d := by linarith
  obtain ⟨q1, q2, -⟩ := spacing (d := d) (β := 926 / 2 / 2 / 2) (by norm_num) h4
  refine ⟨_, e3.trans (pointsFor_ge (by norm_num) h4), ?_⟩
  have hlt : (((⌊d / (926 / 2 / 2 / 2)⌋ + 1).toNat : Nat) : K) < 5 := by
    have := not_le.1 h3
    by_contra hc
    have := not_lt.1 hc
    linarith
  have hle : (⌊d / (926 / 2 / 2 / 2)⌋ + 1).toNat ≤ 4 := by
    have : (⌊d / (926 / 2 / 2 / 2)⌋ + 1).toNat < 5 := by exact_mod_cast hlt
    omega
  have hle' : (((⌊d / (926 / 2 / 2 / 2)⌋ + 1).toNat : Nat) : K) ≤ 4 := by exact_mod_cast hle
  linarith

variable {E : Earth K P} {C : P → P → Prop}

theorem Goes.single (G : Goes E C) {a b : P} {n : Nat} (h : C a b) (hn : 3 ≤ n) (hd : 30 * (n : K) ≤ E.dist a b) (hne : E.inside a ≠ E.inside b) :
    ∃ c, flips E.inside (E.samples a b n) = [c] ∧ (c.kind = .enter ↔ E.inside a = false) := by
  have h1 := G.once a b n h hn hd hne
  obtain ⟨-, e1, e2⟩ := G.sampled a b n h hn hd
  cases hs : E.samples a b n with
  | nil => exact absurd hs (G.nonempty a b n)
  | cons x xs =>
    rw [hs] at h1 e1 e2
    have hal := c45_alternate E.inside x xs
    rw [List.getLast?_eq_some_getLast (by simp)] at e2
    simp only [List.head?_cons, Option.some.injEq] at e1
    subst e1
    rw [Option.some.inj e2] at hal
    cases hf : flips E.inside (x :: xs) with
    | nil => rw [hf] at hal; exact absurd hal hne
    | cons c cs =>
      rw [hf] at h1 hal
      cases cs with
      | cons c' cs => simp at h1
      | nil =>
        refine ⟨c, rfl, ?_⟩
        have hm : c ∈ flips E.inside (x :: xs) := by rw [hf]; simp
        obtain ⟨y, -, -, hk⟩ := c45_neighbours _ _ _ hm
        simp only [List.map_cons, List.map_nil] at hal
        rcases hk with ⟨k1, -, -⟩ | ⟨k1, -, -⟩
        · rw [k1] at hal ⊢
          simp only [Consistent] at hal
          simp [hal.1]
        · rw [k1] at hal ⊢
          simp only [Consistent] at hal
          simp [hal.1]

/-- One level of `_split_down`. -/
theorem Goes.level (G : Goes E C) {a b : P} (h : C a b) (hne : E.inside a ≠ E.inside b) {between : K} (d : Nat) (hd : d ≠ 0) (hb : 0 < between) {n : Nat}
    (hn : pointsFor (E.dist a b) (between / d) = .ok n) (hlong : 30 * (n : K) ≤ E.dist a b) (split : Option (Cond P)) (levels : List Nat) :
    ∃ c y, splitDown E a b between split (d :: levels) = splitDown E c.b y (between / d) (some c) levels ∧ C c.b y ∧ c.e = some y ∧ (c.kind = .enter ∨ c.kind = .exit) ∧
      (c.kind = .enter ↔ E.inside a = false) ∧ E.inside c.b = E.inside a ∧ E.inside y = E.inside b ∧
      E.dist a b ≤ 1.01 * (n * E.dist c.b y) ∧ Neighbours (E.samples a b n) c.b y := by
  have hdpos : (0 : K) < d := by exact_mod_cast Nat.pos_of_ne_zero hd
  have hb' : 0 < between / d := div_pos hb hdpos
  have n3 := (pointsFor_spec _ _ hb' _ hn).1
  obtain ⟨hq, -, -⟩ := G.sampled a b n h n3 hlong
  obtain ⟨first, last, h1, h2, h3⟩ := c45_crossing_list E G.nonempty a b (between / d) (ne_of_gt hb') n hn hq
  obtain ⟨c, hc, hkind⟩ := G.single h n3 hlong hne
  obtain ⟨y, hy, hnb, hk⟩ := c45_neighbours E.inside (E.samples a b n) c (by rw [hc]; exact List.mem_cons_self ..)
  obtain ⟨s1, s2⟩ := G.step a b n h n3 hlong _ _ hnb
  refine ⟨c, y, ?_, s1, hy, hk.imp (·.1) (·.1), hkind, ?_, ?_, s2, hnb⟩
  · simp only [splitDown, if_neg hd, h3, expected, hc, List.cons_append, List.nil_append]
    have hkind : ¬ (c.kind ≠ .exit ∧ c.kind ≠ .enter) := by
      rintro ⟨k1, k2⟩
      exact hk.elim (fun h => k2 h.1) (fun h => k1 h.1)
    rw [if_neg hkind, hy]
  · rcases hk with ⟨k1, k2, k3⟩ | ⟨k1, k2, k3⟩
    · rw [k2, hkind.1 k1]
    · have : E.inside a ≠ false := fun e => by rw [hkind.2 e] at k1; cases k1
      rw [k2, Bool.of_not_eq_false this]
  · rcases hk with ⟨k1, k2, k3⟩ | ⟨k1, k2, k3⟩
    · rw [hkind.1 k1] at hne
      rw [k3]; revert hne; cases E.inside b <;> simp
    · have : E.inside a ≠ false := fun e => by rw [hkind.2 e] at k1; cases k1
      rw [Bool.of_not_eq_false this] at hne
      rw [k3]; revert hne; cases E.inside b <;> simp

/-- Neighbours of a sampling with steps of less than 46.3 m. -/
def Short (E : Earth K P) (C : P → P → Prop) (y z : P) : Prop :=
  ∃ p q, ∃ n : Nat, C p q ∧ 3 ≤ n ∧ 30 * (n : K) ≤ E.dist p q ∧ E.dist p q < 46.3 * n ∧ Neighbours (E.samples p q n) y z

theorem Goes.split (G : Goes E C) {a b : P} (h : C a b) (hne : E.inside a ≠ E.inside b) (hl : 380 ≤ E.dist a b) :
    ∃ c y, splitDown E a b 9260 none [10, 20] = .ok c ∧ C c.b y ∧ c.e = some y ∧ (c.kind = .enter ∨ c.kind = .exit) ∧ (c.kind = .enter ↔ E.inside a = false) ∧
      E.inside c.b = E.inside a ∧ E.inside y = E.inside b ∧ Short E C c.b y := by
  obtain ⟨n, hn, hs⟩ := fine_steps' hl
  have hn' : pointsFor (E.dist a b) (9260 / ((10 : Nat) : K)) = .ok n := by
    have : (9260 : K) / ((10 : Nat) : K) = 926 := by norm_num
    rw [this]; exact hn
  have hn0 : (0 : K) < n := by
    have := (pointsFor_spec _ _ (by norm_num) _ hn).1
    exact_mod_cast (by omega : 0 < n)
  obtain ⟨c, y, h1, hC, -, -, k1, k2, k3, hd, -⟩ := G.level h hne 10 (by decide) (by norm_num) hn' (by linarith) none [20]
  have hlong : 92.6 ≤ E.dist c.b y := by
    by_contra hcon
    have := not_le.1 hcon
    have h2 : 94 * (n : K) ≤ 1.01 * (n * E.dist c.b y) := hs.trans hd
    have h3 : (n : K) * E.dist c.b y < n * 92.6 := mul_lt_mul_of_pos_left this hn0
    norm_num at h2 h3
    linarith
  have h46 : (0 : K) < 46.3 := by norm_num
  have h92 : 2 * (46.3 : K) ≤ E.dist c.b y := by norm_num at hlong ⊢; linarith
  have hn2 : pointsFor (E.dist c.b y) (9260 / ((10 : Nat) : K) / ((20 : Nat) : K)) = .ok (⌊E.dist c.b y / 46.3⌋ + 1).toNat := by
    have : (9260 : K) / ((10 : Nat) : K) / ((20 : Nat) : K) = 46.3 := by norm_num
    rw [this]
    exact pointsFor_ge h46 h92
  obtain ⟨-, q2, q3⟩ := spacing h46 h92
  have h30 : 30 * (((⌊E.dist c.b y / 46.3⌋ + 1).toNat : Nat) : K) ≤ E.dist c.b y := by
    norm_num at q2 h92 ⊢
    linarith
  obtain ⟨c2, y2, h4, hC2, e2, kk, k4, k5, k6, -, hnb⟩ := G.level hC (by rw [k2, k3]; exact hne) 20 (by decide) (by norm_num) hn2 h30 (some c) []
  refine ⟨c2, y2, ?_, hC2, e2, kk, by rw [k4, k2], k5.trans k2, k6.trans k3, c.b, y, _, hC, (pointsFor_spec _ _ h46 _ (pointsFor_ge h46 h92)).1, h30, by rw [mul_comm]; exact q3, hnb⟩
  rw [h1, h4]
  simp [splitDown]

/-- What is reported, and where. -/
def Reported (E : Earth K P) (C : P → P → Prop) (a b : P) (m : Cond P) : Prop :=
  E.inside m.b = true ∧ ((m.kind = .startInside ∧ m.b = a) ∨ (m.kind = .endInside ∧ m.b = b) ∨
    (m.kind = .enter ∧ ∃ y, C y m.b ∧ E.inside y = false ∧ Short E C y m.b) ∨ (m.kind = .exit ∧ ∃ y, C m.b y ∧ E.inside y = false ∧ Short E C m.b y))

/-- Legs of at least 1157.5 m are searched without an error. -/
theorem Goes.answers (G : Goes E C) {a b : P} (h : C a b) (hL : 1157.5 ≤ E.dist a b) :
    ∃ l, intersections E a b 9260 [10, 20] = .ok l ∧ ∀ m ∈ l, Reported E C a b m := by
  obtain ⟨n, hn, hn0, hs⟩ := rough_steps hL
  have hnpos : (0 : K) < n := by exact_mod_cast hn0
  have n3 := (pointsFor_spec _ _ (by norm_num) _ hn).1
  have h30 : 30 * (n : K) ≤ E.dist a b := by linarith
  obtain ⟨hq, e1, e2⟩ := G.sampled a b n h n3 h30
  obtain ⟨first, last, h1, h2, h3⟩ := c45_crossing_list E G.nonempty a b 9260 (by norm_num) n hn hq
  have htail : (expected E.inside (E.samples a b n) first last).tail.dropLast = flips E.inside (E.samples a b n) := by
    simp [expected]
  have hall : ∀ cs : List (Cond P), (∀ c ∈ cs, c ∈ flips E.inside (E.samples a b n)) →
      ∃ mid, refine E 9260 [10, 20] cs = .ok mid ∧ ∀ m ∈ mid, Reported E C a b m := by
    intro cs
    induction cs with
    | nil => intro _; exact ⟨[], rfl, by simp⟩
    | cons c cs ih =>
      intro hmem
      obtain ⟨mid, hmid, hm⟩ := ih fun c hc => hmem c (List.mem_cons_of_mem _ hc)
      obtain ⟨y, hy, hnb, hk⟩ := c45_neighbours _ _ _ (hmem c (List.mem_cons_self ..))
      have hne : E.inside c.b ≠ E.inside y := by
        rcases hk with ⟨-, b2, b3⟩ | ⟨-, b2, b3⟩ <;> rw [b2, b3] <;> decide
      obtain ⟨hC, hst⟩ := G.step a b n h n3 h30 _ _ hnb
      have hd : 380 ≤ E.dist c.b y := by
        by_contra hcon
        have := not_le.1 hcon
        have h2 : 385 * (n : K) ≤ 1.01 * (n * E.dist c.b y) := hs.trans hst
        have h3 : (n : K) * E.dist c.b y < n * 380 := mul_lt_mul_of_pos_left this hnpos
        norm_num at h2
        linarith
      obtain ⟨new, z, q1, q2, q3, qq, q4, q5, q6, q7⟩ := G.split hC hne hd
      have hkind : new.kind = c.kind := by
        rcases hk with ⟨k1, k2, -⟩ | ⟨k1, k2, -⟩
        · rw [k1, q4.2 k2]
        · rcases qq with qq | qq
          · rw [q4.1 qq] at k2; cases k2
          · rw [k1, qq]
      simp only [refine, hy, q1, hkind, ne_eq, not_true_eq_false, if_false, hmid]
      by_cases hx : c.kind = .exit
      · simp only [if_pos hx]
        refine ⟨_, rfl, fun m hm' => ?_⟩
        rcases List.mem_cons.1 hm' with rfl | hm'
        · rcases hk with ⟨k1, -, -⟩ | ⟨-, k2, k3⟩
          · rw [hx] at k1; cases k1
          · exact ⟨q5.trans k2, .inr (.inr (.inr ⟨hx, z, q2, q6.trans k3, q7⟩))⟩
        · exact hm m hm'
      · simp only [if_neg hx, q3]
        refine ⟨_, rfl, fun m hm' => ?_⟩
        rcases List.mem_cons.1 hm' with rfl | hm'
        · rcases hk with ⟨k1, k2, k3⟩ | ⟨k1, -, -⟩
          · exact ⟨q6.trans k3, .inr (.inr (.inl ⟨k1, _, q2, q5.trans k2, q7⟩))⟩
          · exact absurd k1 hx
        · exact hm m hm'
  obtain ⟨mid, hmid, hm⟩ := hall _ fun c hc => hc
  have hhead : (expected E.inside (E.samples a b n) first last).head? = some ⟨if E.inside first then .startInside else .startOut, first, none⟩ := by
    simp [expected]
  have hlast : (expected E.inside (E.samples a b n) first last).getLast? = some ⟨if E.inside last then .endInside else .endOut, last, none⟩ := by
    unfold expected; rw [List.getLast?_append]; rfl
  obtain rfl : first = a := by rw [h1] at e1; exact Option.some.inj e1
  obtain rfl : last = b := by rw [h2] at e2; exact Option.some.inj e2
  unfold intersections
  rw [h3]
  simp only [htail, hmid, hhead, hlast]
  refine ⟨_, rfl, fun m hmem => ?_⟩
  rcases List.mem_append.1 hmem with hmem | hmem
  · rcases List.mem_append.1 hmem with hmem | hmem
    · cases hh : E.inside first
      · simp [hh] at hmem
      · simp only [hh, if_true, List.mem_singleton] at hmem; subst hmem; exact ⟨hh, .inl ⟨rfl, rfl⟩⟩
    · exact hm m hmem
  · cases hh : E.inside last
    · simp [hh] at hmem
    · simp only [hh, if_true, List.mem_singleton] at hmem; subst hmem; exact ⟨hh, .inr (.inl ⟨rfl, rfl⟩)⟩

/-- If one end is in range and the other is not, exactly that and one crossing are reported. -/
theorem Goes.differ (G : Goes E C) {a b : P} (h : C a b) (hL : 1157.5 ≤ E.dist a b) (hne : E.inside a ≠ E.inside b) {l : List (Cond P)}
    (hl : intersections E a b 9260 [10, 20] = .ok l) : l.map (·.kind) = if E.inside a then [.startInside, .exit] else [.enter, .endInside] := by
  obtain ⟨n, hn, hn0, hs⟩ := rough_steps hL
  have n3 := (pointsFor_spec _ _ (by norm_num) _ hn).1
  have hnpos : (0 : K) < n := by exact_mod_cast hn0
  have h30 : 30 * (n : K) ≤ E.dist a b := by linarith
  obtain ⟨-, e1, e2⟩ := G.sampled a b n h n3 h30
  obtain ⟨c, hc, hkind⟩ := G.single h n3 h30 hne
  obtain ⟨y, hy, hnb, hk⟩ := c45_neighbours E.inside (E.samples a b n) c (by rw [hc]; exact List.mem_cons_self ..)
  obtain ⟨n', first, last, mid, p1, -, p2, p3, p4, p5⟩ := intersections_two G.nonempty hl
  obtain rfl : n' = n := by rw [hn] at p1; exact (Except.ok.inj p1).symm
  obtain rfl : first = a := by rw [e1] at p2; exact (Option.some.inj p2).symm
  obtain rfl : last = b := by rw [e2] at p3; exact (Option.some.inj p3).symm
  rw [hc] at p5
  cases p5 with
  | cons hf ht =>
    cases ht
    obtain ⟨_, _, _, _, _, _, hmk, _⟩ := hf
    rw [p4]
    cases ha : E.inside first <;> cases hb : E.inside last
    · rw [ha, hb] at hne; exact absurd rfl hne
    · simp [hmk, hkind.2 ha]
    · have : c.kind = .exit := by
        rcases hk with ⟨k1, -, -⟩ | ⟨k1, -, -⟩
        · have := hkind.1 k1; rw [ha] at this; cases this
        · exact k1
      simp [hmk, this]
    · rw [ha, hb] at hne; exact absurd rfl hne

end Verif.Crossing
