import Verif.Crossing.Refine

/-! # C56: which legs can be searched -/

namespace Verif.Crossing

variable {K : Type} [Field K] [LinearOrder K] [IsStrictOrderedRing K] [FloorRing K] {P : Type}

theorem two_le_floor {d β : K} (hβ : 0 < β) : (⌊d / β⌋ + 1).toNat ≤ 2 ↔ d < 2 * β := by
  have h : (2 : Int) ≤ ⌊d / β⌋ ↔ 2 * β ≤ d := by
    rw [Int.le_floor, le_div_iff₀ hβ]; norm_num
  constructor
  · intro hn
    by_contra hc
    have := h.2 (not_lt.1 hc)
    omega
  · intro hd
    by_contra hc
    have : (2 : Int) ≤ ⌊d / β⌋ := by omega
    exact absurd (h.1 this) (not_le.2 hd)

theorem pointsFor_ge {d β : K} (hβ : 0 < β) (h : 2 * β ≤ d) : pointsFor d β = .ok (⌊d / β⌋ + 1).toNat := by
  rw [pointsFor]
  rw [if_neg (fun hc => absurd ((two_le_floor hβ).1 hc) (not_lt.2 h))]

theorem pointsFor_halve {d β : K} (hβ : 200 ≤ β) (h : d < 2 * β) : pointsFor d β = pointsFor d (β / 2) := by
  rw [pointsFor]
  rw [if_pos ((two_le_floor (by linarith)).2 h), if_neg (by linarith)]

theorem pointsFor_fail {d β : K} (h0 : 0 < β) (hβ : β < 200) (h : d < 2 * β) : pointsFor d β = .error .tooSmall := by
  rw [pointsFor]
  rw [if_pos ((two_le_floor h0).2 h), if_pos (by linarith)]

/-- **Which legs can be sampled.** Exactly those at least twice as long as one of the spacings tried, which are `between` and its
halves that are at least 100. -/
theorem c56_sampled_iff (dist between : K) (hb : 0 < between) :
    (∃ n, pointsFor dist between = .ok n) ↔ ∃ k : Nat, (k = 0 ∨ 100 ≤ between / 2 ^ k) ∧ 2 * (between / 2 ^ k) ≤ dist := by
  fun_induction pointsFor dist between with
  | case1 between points hp hs =>
    have hd := (two_le_floor hb).1 hp
    constructor
    · rintro ⟨n, hn⟩; cases hn
    · rintro ⟨k, hk, h2⟩
      cases k with
      | zero => simp at h2; linarith
      | succ k =>
        rcases hk with hk | hk
        · cases hk
        · have h1 : between / 2 ^ (k + 1) ≤ between / 2 := by
            rw [pow_succ', ← div_div]
            exact div_le_self (by linarith) (one_le_pow₀ (by norm_num))
          linarith
  | case2 between points hp hs ih =>
    have hd := (two_le_floor hb).1 hp
    rw [ih (by linarith)]
    constructor
    · rintro ⟨k, hk, h2⟩
      refine ⟨k + 1, .inr ?_, ?_⟩
      · rw [pow_succ', ← div_div]
        rcases hk with rfl | hk
        · simpa using not_lt.1 hs
        · exact hk
      · rw [pow_succ', ← div_div]; exact h2
    · rintro ⟨k, hk, h2⟩
      cases k with
      | zero => simp at h2; linarith
      | succ k =>
        rcases hk with hk | hk
        · cases hk
        · rw [pow_succ', ← div_div] at hk h2
          exact ⟨k, .inr hk, h2⟩
  | case3 between points hp =>
    have hd : 2 * between ≤ dist := not_lt.1 fun hc => hp ((two_le_floor hb).2 hc)
    exact ⟨fun _ => ⟨0, .inl rfl, by simpa using hd⟩, fun _ => ⟨_, rfl⟩⟩

/-- **C56 is violated: a leg shorter than 289.375 m cannot be searched**, wherever the sensor is. -/
theorem c56_short_legs_fail (E : Earth K P) (start finish : P) (levels : List Nat) (h : E.dist start finish < 289.375) :
    intersections E start finish 9260 levels = .error .tooSmall := by
  have hp : pointsFor (E.dist start finish) 9260 = .error .tooSmall := by
    rw [pointsFor_halve (by norm_num) (by linarith), pointsFor_halve (by norm_num) (by linarith),
      pointsFor_halve (by norm_num) (by linarith), pointsFor_halve (by norm_num) (by linarith),
      pointsFor_halve (by norm_num) (by linarith), pointsFor_halve (by norm_num) (by linarith),
      pointsFor_fail (by norm_num) (by norm_num) (by linarith)]
  simp [intersections, findCrossings, preprocess, hp]

/-- The spacing found is not much smaller than asked for. -/
theorem spacing {d β : K} (hβ : 0 < β) (h : 2 * β ≤ d) :
    let n := (⌊d / β⌋ + 1).toNat
    0 < n ∧ (n : K) * β ≤ d + β ∧ d < n * β := by
  have h2 : (2 : Int) ≤ ⌊d / β⌋ := by rw [Int.le_floor, le_div_iff₀ hβ]; norm_num; exact h
  have hn : (((⌊d / β⌋ + 1).toNat : Nat) : K) = (⌊d / β⌋ : K) + 1 := by
    have : (((⌊d / β⌋ + 1).toNat : Nat) : Int) = ⌊d / β⌋ + 1 := Int.toNat_of_nonneg (by omega)
    exact_mod_cast this
  have h3 : (⌊d / β⌋ : K) ≤ d / β := Int.floor_le _
  have h4 : d / β < (⌊d / β⌋ : K) + 1 := Int.lt_floor_add_one _
  rw [le_div_iff₀ hβ] at h3
  rw [div_lt_iff₀ hβ] at h4
  refine ⟨by omega, ?_, ?_⟩
  · rw [hn]; linarith
  · rw [hn]; exact h4

/-- The sampling of a leg of at least 1157.5 m has steps of at least 385 m. -/
theorem rough_steps {L : K} (h : 1157.5 ≤ L) : ∃ n : Nat, pointsFor L 9260 = .ok n ∧ 0 < n ∧ 385 * (n : K) ≤ L := by
  have key : ∀ β : K, 578.75 ≤ β → 2 * β ≤ L → pointsFor L 9260 = pointsFor L β → ∃ n : Nat, pointsFor L 9260 = .ok n ∧ 0 < n ∧ 385 * (n : K) ≤ L := by
    intro β hβ h2 he
    obtain ⟨h1, h3, -⟩ := spacing (by linarith) h2
    refine ⟨_, he.trans (pointsFor_ge (by linarith) h2), h1, ?_⟩
    have hm : (((⌊L / β⌋ + 1).toNat : Nat) : K) * 578.75 ≤ ((⌊L / β⌋ + 1).toNat : Nat) * β :=
      mul_le_mul_of_nonneg_left hβ (by positivity)
    linarith
  by_cases h1 : 2 * 9260 ≤ L
  · exact key 9260 (by norm_num) h1 rfl
  have e1 := pointsFor_halve (d := L) (β := 9260) (by norm_num) (not_le.1 h1)
  by_cases h2 : 2 * (9260 / 2) ≤ L
  · exact key _ (by norm_num) h2 e1
  have e2 := e1.trans (pointsFor_halve (by norm_num) (not_le.1 h2))
  by_cases h3 : 2 * (9260 / 2 / 2) ≤ L
  · exact key _ (by norm_num) h3 e2
  have e3 := e2.trans (pointsFor_halve (by norm_num) (not_le.1 h3))
  by_cases h4 : 2 * (9260 / 2 / 2 / 2) ≤ L
  · exact key _ (by norm_num) h4 e3
  have e4 := e3.trans (pointsFor_halve (by norm_num) (not_le.1 h4))
  exact key _ (by norm_num) (by norm_num; linarith) e4

/-- A stretch of at least 385 m is cut into steps of at least 92.6 m. -/
theorem fine_steps {d : K} (h : 385 ≤ d) : ∃ n : Nat, pointsFor d 926 = .ok n ∧ 0 < n ∧ 92.6 * (n : K) ≤ d := by
  have key : ∀ β : K, 138.9 ≤ β → 2 * β ≤ d → pointsFor d 926 = pointsFor d β → ∃ n : Nat, pointsFor d 926 = .ok n ∧ 0 < n ∧ 92.6 * (n : K) ≤ d := by
    intro β hβ h2 he
    obtain ⟨h1, h3, -⟩ := spacing (by linarith) h2
    refine ⟨_, he.trans (pointsFor_ge (by linarith) h2), h1, ?_⟩
    have hm : (((⌊d / β⌋ + 1).toNat : Nat) : K) * 138.9 ≤ ((⌊d / β⌋ + 1).toNat : Nat) * β :=
      mul_le_mul_of_nonneg_left hβ (by positivity)
    linarith
  by_cases h1 : 2 * 926 ≤ d
  · exact key 926 (by norm_num) h1 rfl
  have e1 := pointsFor_halve (d := d) (β := 926) (by norm_num) (not_le.1 h1)
  by_cases h2 : 2 * (926 / 2) ≤ d
  · exact key _ (by norm_num) h2 e1
  have e2 := e1.trans (pointsFor_halve (by norm_num) (not_le.1 h2))
  by_cases h3 : 2 * (926 / 2 / 2) ≤ d
  · exact key _ (by norm_num) h3 e2
  have e3 := e2.trans (pointsFor_halve (by norm_num) (not_le.1 h3))
  have h4 : 2 * (926 / 2 / 2 / 2) ≤ d := by linarith
  obtain ⟨q1, q2, -⟩ := spacing (d := d) (β := 926 / 2 / 2 / 2) (by norm_num) h4
  refine ⟨_, e3.trans (pointsFor_ge (by norm_num) h4), q1, ?_⟩
  have hlt : (((⌊d / (926 / 2 / 2 / 2)⌋ + 1).toNat : Nat) : K) < 5 := by
    have := not_le.1 h3
    by_contra hc
    have := not_lt.1 hc
    linarith
  have hle : (⌊d / (926 / 2 / 2 / 2)⌋ + 1).toNat ≤ 4 := by
    have : (⌊d / (926 / 2 / 2 / 2)⌋ + 1).toNat < 5 := by exact_mod_cast hlt
    omega
  have hle' : (((⌊d / (926 / 2 / 2 / 2)⌋ + 1).toNat : Nat) : K) ≤ 4 := by exact_mod_cast hle
  linarith

/-- A stretch whose ends differ in status is crossed once by every sampling (as for a great circle and a sphere). -/
def OneCrossing (E : Earth K P) : Prop :=
  ∀ a b n, 0 < n → E.inside a ≠ E.inside b → (flips E.inside (E.samples a b n)).length ≤ 1

theorem one_flip {E : Earth K P} (hx : ExactEnds E) (ho : OneCrossing E) {a b : P} (h : E.inside a ≠ E.inside b) (n : Nat) (hn : 0 < n) :
    ∃ c, flips E.inside (E.samples a b n) = [c] := by
  have h1 := ho a b n hn h
  cases hf : flips E.inside (E.samples a b n) with
  | nil =>
    have e1 := hx.head a b n hn
    have e2 := hx.last a b n hn
    cases hs : E.samples a b n with
    | nil => exact absurd hs (hx.nonempty a b n)
    | cons x xs =>
      rw [hs] at hf e1 e2
      have hal := c45_alternate E.inside x xs
      rw [hf] at hal
      rw [List.getLast?_eq_some_getLast (by simp)] at e2
      simp only [List.head?_cons, Option.some.injEq] at e1
      subst e1
      rw [Option.some.inj e2] at hal
      exact absurd hal h
  | cons c cs =>
    rw [hf] at h1
    cases cs with
    | nil => exact ⟨c, rfl⟩
    | cons c' cs => simp at h1

/-- One level of `_split_down`. -/
theorem splitDown_level {E : Earth K P} (hx : ExactEnds E) (hev : Even E) (ho : OneCrossing E) {b e : P} (hne : E.inside b ≠ E.inside e)
    {between : K} (d : Nat) (hd : d ≠ 0) (hb : 0 < between) {n : Nat} (hn : pointsFor (E.dist b e) (between / d) = .ok n) (split : Option (Cond P))
    (levels : List Nat) : ∃ c y, splitDown E b e between split (d :: levels) = splitDown E c.b y (between / d) (some c) levels ∧
      E.inside c.b ≠ E.inside y ∧ (0 < n → E.dist c.b y * n = E.dist b e) := by
  have hdpos : (0 : K) < d := by exact_mod_cast Nat.pos_of_ne_zero hd
  have hb' : 0 < between / d := div_pos hb hdpos
  obtain ⟨first, last, h1, h2, h3⟩ := c45_crossing_list E hx.nonempty b e (between / d) (ne_of_gt hb') n hn (hx.quiet _ _ _)
  obtain ⟨c, hc⟩ := one_flip hx ho hne n (by have := (pointsFor_spec _ _ hb' _ hn).1; omega)
  obtain ⟨y, hy, hnb, hk⟩ := c45_neighbours E.inside (E.samples b e n) c (by rw [hc]; exact List.mem_cons_self ..)
  refine ⟨c, y, ?_, ?_, fun h0 => hev b e n h0 _ _ hnb⟩
  · simp only [splitDown, if_neg hd, h3, expected, hc, List.cons_append, List.nil_append]
    have hkind : ¬ (c.kind ≠ .exit ∧ c.kind ≠ .enter) := by
      rintro ⟨k1, k2⟩
      exact hk.elim (fun h => k2 h.1) (fun h => k1 h.1)
    rw [if_neg hkind, hy]
  · rcases hk with ⟨-, b2, b3⟩ | ⟨-, b2, b3⟩ <;> rw [b2, b3] <;> decide

theorem splitDown_long {E : Earth K P} (hx : ExactEnds E) (hev : Even E) (ho : OneCrossing E) {b e : P} (hne : E.inside b ≠ E.inside e)
    (hl : 385 ≤ E.dist b e) : splitDown E b e 9260 none [10, 20] ≠ .error .tooSmall ∧ splitDown E b e 9260 none [10, 20] ≠ .error .twoCrossings := by
  obtain ⟨n, hn, hn0, hs⟩ := fine_steps hl
  have hn' : pointsFor (E.dist b e) (9260 / ((10 : Nat) : K)) = .ok n := by
    have : (9260 : K) / ((10 : Nat) : K) = 926 := by norm_num
    rw [this]; exact hn
  obtain ⟨c, y, h1, h2, h3⟩ := splitDown_level hx hev ho hne 10 (by decide) (by norm_num) hn' none [20]
  have h3 := h3 hn0
  have hc : 92.6 ≤ E.dist c.b y := by
    have hpos : (0 : K) < n := by exact_mod_cast hn0
    by_contra hcon
    have := not_le.1 hcon
    nlinarith
  have hn2 : pointsFor (E.dist c.b y) (9260 / ((10 : Nat) : K) / ((20 : Nat) : K)) = .ok (⌊E.dist c.b y / 46.3⌋ + 1).toNat := by
    have : (9260 : K) / ((10 : Nat) : K) / ((20 : Nat) : K) = 46.3 := by norm_num
    rw [this]
    exact pointsFor_ge (by norm_num) (by linarith)
  obtain ⟨c2, y2, h4, -, -⟩ := splitDown_level hx hev ho h2 20 (by decide) (by norm_num) hn2 (some c) []
  rw [h1, h4]
  simp [splitDown]

/-- **C56, the part that holds.** With the standard spacing, every leg of at least 1157.5 m can be searched. Missing: shorter legs
(false below 694.5 m for legs with a crossing and below 289.375 m for all legs; in between it depends on the length). -/
theorem c56_long_legs_partial (E : Earth K P) (hx : ExactEnds E) (hev : Even E) (ho : OneCrossing E) (start finish : P)
    (hL : 1157.5 ≤ E.dist start finish) : ∃ l, intersections E start finish 9260 [10, 20] = .ok l := by
  cases hres : intersections E start finish 9260 [10, 20] with
  | ok l => exact ⟨l, rfl⟩
  | error err =>
    exfalso
    obtain ⟨n, hn, hn0, hs⟩ := rough_steps hL
    have hnpos : (0 : K) < n := by exact_mod_cast hn0
    obtain ⟨first, last, h1, h2, h3⟩ := c45_crossing_list E hx.nonempty start finish 9260 (by norm_num) n hn (hx.quiet _ _ _)
    have herr := c45_errors E hx start finish 9260 (by norm_num) [10, 20] (by simp) (by simp) err hres
    unfold intersections at hres
    rw [h3] at hres
    have htail : (expected E.inside (E.samples start finish n) first last).tail.dropLast = flips E.inside (E.samples start finish n) := by
      simp [expected]
    simp only [htail] at hres
    have hall : ∀ cs : List (Cond P), (∀ c ∈ cs, c ∈ flips E.inside (E.samples start finish n)) →
        refine E 9260 [10, 20] cs ≠ .error .tooSmall ∧ refine E 9260 [10, 20] cs ≠ .error .twoCrossings := by
      intro cs
      induction cs with
      | nil => intro _; simp [refine]
      | cons c cs ih =>
        intro hmem
        have ih := ih fun c hc => hmem c (List.mem_cons_of_mem _ hc)
        obtain ⟨y, hy, hnb, hk⟩ := c45_neighbours _ _ _ (hmem c (List.mem_cons_self ..))
        have hne : E.inside c.b ≠ E.inside y := by
          rcases hk with ⟨-, b2, b3⟩ | ⟨-, b2, b3⟩ <;> rw [b2, b3] <;> decide
        have hd : 385 ≤ E.dist c.b y := by
          have := hev start finish n hn0 _ _ hnb
          by_contra hcon
          have := not_le.1 hcon
          nlinarith
        obtain ⟨s1, s2⟩ := splitDown_long hx hev ho hne hd
        simp only [refine, hy]
        cases hsd : splitDown E c.b y 9260 none [10, 20] with
        | error e' =>
          simp only
          rw [hsd] at s1 s2
          exact ⟨fun h => s1 (by cases h; rfl), fun h => s2 (by cases h; rfl)⟩
        | ok new =>
          simp only
          split
          · simp
          · split
            · simp
            · cases hr : refine E 9260 [10, 20] cs with
              | error e' => rw [hr] at ih; exact ⟨fun h => ih.1 (by cases h; rfl), fun h => ih.2 (by cases h; rfl)⟩
              | ok r => simp
    have := hall _ (fun c hc => hc)
    split at hres
    · rename_i e he
      cases hres
      rw [he] at this
      rcases herr with rfl | rfl
      · exact this.1 rfl
      · exact this.2 rfl
    · cases hres

/-- **C56 is violated: a leg of less than 694.5 m that crosses the range cannot be searched.** -/
theorem c56_short_crossings_fail (E : Earth K P) (hx : ExactEnds E) (hev : Even E) (start finish : P) (hL : E.dist start finish < 694.5)
    (hne : E.inside start ≠ E.inside finish) : intersections E start finish 9260 [10, 20] = .error .tooSmall := by
  by_cases hs : E.dist start finish < 289.375
  · exact c56_short_legs_fail E start finish _ hs
  have hs := not_lt.1 hs
  -- the rough steps are too small for the first refinement
  have hsteps : ∃ n : Nat, pointsFor (E.dist start finish) 9260 = .ok n ∧ 0 < n ∧ E.dist start finish < 231.5 * (n : K) := by
    generalize E.dist start finish = L at hL hs
    have e1 := (((pointsFor_halve (d := L) (β := 9260) (by norm_num) (by linarith)).trans (pointsFor_halve (by norm_num) (by linarith))).trans
      (pointsFor_halve (by norm_num) (by linarith))).trans ((pointsFor_halve (by norm_num) (by linarith)).trans (pointsFor_halve (by norm_num) (by linarith)))
    by_cases h2 : 2 * (9260 / 2 / 2 / 2 / 2 / 2) ≤ L
    · obtain ⟨q1, q2, q3⟩ := spacing (d := L) (β := 9260 / 2 / 2 / 2 / 2 / 2) (by norm_num) h2
      refine ⟨_, e1.trans (pointsFor_ge (by norm_num) h2), q1, ?_⟩
      have hge : 3 ≤ (⌊L / (9260 / 2 / 2 / 2 / 2 / 2)⌋ + 1).toNat := by
        by_contra hc
        exact absurd ((two_le_floor (by norm_num)).1 (by omega : (⌊L / (9260 / 2 / 2 / 2 / 2 / 2)⌋ + 1).toNat ≤ 2)) (not_lt.2 h2)
      have hge' : (3 : K) ≤ ((⌊L / (9260 / 2 / 2 / 2 / 2 / 2)⌋ + 1).toNat : Nat) := by exact_mod_cast hge
      linarith
    · have h3 : 2 * (9260 / 2 / 2 / 2 / 2 / 2 / 2) ≤ L := by linarith
      obtain ⟨q1, q2, q3⟩ := spacing (d := L) (β := 9260 / 2 / 2 / 2 / 2 / 2 / 2) (by norm_num) h3
      refine ⟨_, (e1.trans (pointsFor_halve (by norm_num) (not_le.1 h2))).trans (pointsFor_ge (by norm_num) h3), q1, ?_⟩
      refine lt_of_lt_of_le q3 ?_
      have : (0 : K) ≤ ((⌊L / (9260 / 2 / 2 / 2 / 2 / 2 / 2)⌋ + 1).toNat : Nat) := by positivity
      linarith
  obtain ⟨n, hn, hn0, hlt⟩ := hsteps
  have hnpos : (0 : K) < n := by exact_mod_cast hn0
  obtain ⟨first, last, h1, h2, h3⟩ := c45_crossing_list E hx.nonempty start finish 9260 (by norm_num) n hn (hx.quiet _ _ _)
  have hf : flips E.inside (E.samples start finish n) ≠ [] := by
    intro hf
    have e1 := hx.head start finish n hn0
    have e2 := hx.last start finish n hn0
    cases hsm : E.samples start finish n with
    | nil => exact absurd hsm (hx.nonempty start finish n)
    | cons x xs =>
      rw [hsm] at hf e1 e2
      have hal := c45_alternate E.inside x xs
      rw [hf] at hal
      rw [List.getLast?_eq_some_getLast (by simp)] at e2
      simp only [List.head?_cons, Option.some.injEq] at e1
      subst e1
      rw [Option.some.inj e2] at hal
      exact hne hal
  obtain ⟨c, cs, hcs⟩ := List.exists_cons_of_ne_nil hf
  obtain ⟨y, hy, hnb, hk⟩ := c45_neighbours E.inside (E.samples start finish n) c (by rw [hcs]; exact List.mem_cons_self ..)
  have hd : E.dist c.b y < 231.5 := by
    have := hev start finish n hn0 _ _ hnb
    by_contra hcon
    have := not_lt.1 hcon
    nlinarith
  have hp : pointsFor (E.dist c.b y) 926 = .error .tooSmall := by
    rw [pointsFor_halve (by norm_num) (by linarith), pointsFor_halve (by norm_num) (by linarith),
      pointsFor_halve (by norm_num) (by linarith), pointsFor_fail (by norm_num) (by norm_num) (by linarith)]
  have hsd : splitDown E c.b y 9260 none [10, 20] = .error .tooSmall := by
    have hp' : pointsFor (E.dist c.b y) (9260 / ((10 : Nat) : K)) = .error .tooSmall := by
      have : (9260 : K) / ((10 : Nat) : K) = 926 := by norm_num
      rw [this]; exact hp
    have hz : (9260 : K) / ((10 : Nat) : K) ≠ 0 := by norm_num
    simp only [splitDown, findCrossings, preprocess, hp', if_neg hz]
    rfl
  have htail : (expected E.inside (E.samples start finish n) first last).tail.dropLast = c :: cs := by
    rw [← hcs]; simp [expected]
  simp only [intersections, h3, htail, refine, hy, hsd]

/-! ### A coast -/

/-- A straight path that is seen from 1000 on. -/
def coast : Earth Rat Rat where
  dist a b := |b - a|
  samples a b n := (List.range (n + 1)).map fun i : Nat => a + (b - a) * i / n
  inside x := decide (1000 ≤ x)
  raises _ _ _ := false

theorem coast_ends : ExactEnds coast where
  quiet _ _ _ := rfl
  nonempty a b n := by simp [coast]
  length a b n _ := by simp [coast]
  head a b n hn := by simp [coast, List.range_succ_eq_map]
  last a b n hn := by
    have hnr : (n : Rat) ≠ 0 := by exact_mod_cast hn.ne'
    have : a + (b - a) * n / n = b := by field_simp; ring
    simp [coast, List.range_succ, this]

theorem coast_even : Even coast := by
  rintro a b n hn x y ⟨p, q, h⟩
  have hnr : (n : Rat) ≠ 0 := by exact_mod_cast hn.ne'
  have hx : (coast.samples a b n)[p.length]? = some x := by rw [h]; simp
  have hy : (coast.samples a b n)[p.length + 1]? = some y := by rw [h]; simp
  simp only [coast, List.getElem?_map, Option.map_eq_some_iff] at hx hy
  obtain ⟨i, hi, rfl⟩ := hx
  obtain ⟨j, hj, rfl⟩ := hy
  obtain ⟨_, hi⟩ := List.getElem?_eq_some_iff.1 hi
  obtain ⟨_, hj⟩ := List.getElem?_eq_some_iff.1 hj
  simp only [List.getElem_range] at hi hj
  subst hi; subst hj
  have hp : (0 : Rat) < n := by exact_mod_cast hn
  have e : a + (b - a) * ((p.length + 1 : Nat) : Rat) / n - (a + (b - a) * (p.length : Rat) / n) = (b - a) / n := by
    push_cast
    field_simp
    ring
  simp only [coast, e, abs_div, abs_of_pos hp]
  field_simp

theorem flips_cons (f : P → Bool) (x y : P) (l : List P) : flips f (x :: y :: l) = (flip f x y).toList ++ flips f (y :: l) := by
  simp only [flips, List.tail_cons, List.zip_cons_cons, List.filterMap_cons]
  cases flip f x y <;> simp

theorem flips_const (f : P → Bool) (v : Bool) : ∀ l : List P, (∀ z ∈ l, f z = v) → flips f l = []
  | [] | [_] => fun _ => by simp [flips]
  | x :: y :: l => by
    intro h
    have h0 := flips_const f v (y :: l) fun z hz => h z (List.mem_cons_of_mem _ hz)
    have h1 := h x (by simp)
    have h2 := h y (by simp)
    rw [flips_cons, h0, flip, h1, h2]
    cases v <;> rfl

/-- Once `v`, always `v`: at most one flip. -/
theorem flips_mono (f : P → Bool) (v : Bool) : ∀ l : List P, l.Pairwise (fun x y => f x = v → f y = v) → (flips f l).length ≤ 1
  | [] | [_] => fun _ => by simp [flips]
  | x :: y :: l => by
    intro h
    have ih := flips_mono f v (y :: l) (List.pairwise_cons.1 h).2
    rw [flips_cons]
    by_cases hxy : f x = f y
    · have : flip f x y = none := by unfold flip; rw [hxy]; cases f y <;> rfl
      rw [this]; exact ih
    · have hy : f y = v := by
        by_cases hx : f x = v
        · exact (List.pairwise_cons.1 h).1 y (List.mem_cons_self ..) hx
        · revert hx hxy; cases f x <;> cases f y <;> cases v <;> simp
      have hall : ∀ z ∈ y :: l, f z = v := by
        intro z hz
        rcases List.mem_cons.1 hz with rfl | hz
        · exact hy
        · exact (List.pairwise_cons.1 (List.pairwise_cons.1 h).2).1 z hz hy
      rw [flips_const f v _ hall, List.append_nil]
      cases flip f x y <;> simp

theorem coast_one : OneCrossing coast := by
  intro a b n hn _
  have hp : (0 : Rat) < n := by exact_mod_cast hn
  rcases le_total a b with hab | hab
  · apply flips_mono _ true
    simp only [coast, List.pairwise_map, decide_eq_true_eq]
    refine List.pairwise_lt_range.imp ?_
    intro i j hij h
    have hij' : (i : Rat) ≤ j := by exact_mod_cast hij.le
    have : (b - a) * i / n ≤ (b - a) * j / n :=
      div_le_div_of_nonneg_right (mul_le_mul_of_nonneg_left hij' (by linarith)) hp.le
    linarith
  · apply flips_mono _ false
    simp only [coast, List.pairwise_map, decide_eq_false_iff_not, not_le]
    refine List.pairwise_lt_range.imp ?_
    intro i j hij h
    have hij' : (i : Rat) ≤ j := by exact_mod_cast hij.le
    have : (b - a) * j / n ≤ (b - a) * i / n :=
      div_le_div_of_nonneg_right (mul_le_mul_of_nonpos_left hij' (by linarith)) hp.le
    linarith

example : ∃ l, intersections coast 0 5000 9260 [10, 20] = .ok l :=
  c56_long_legs_partial coast coast_ends coast_even coast_one 0 5000 (by norm_num [coast])

example : intersections coast 700 1300 9260 [10, 20] = .error .tooSmall :=
  c56_short_crossings_fail coast coast_ends coast_even 700 1300 (by norm_num [coast]) (by decide +kernel)

example : intersections coast 0 200 9260 [10, 20] = .error .tooSmall := c56_short_legs_fail coast 0 200 _ (by norm_num [coast])

/-- The hypotheses of `c45_locations` and `c45_errors` are met, with a crossing found and without. -/
example : ∃ l, intersections coast 0 5000 9260 [10, 20] = .ok l ∧ l.map (·.kind) = [.enter, .endInside] := by
  obtain ⟨l, hl⟩ := c56_long_legs_partial coast coast_ends coast_even coast_one 0 5000 (by norm_num [coast])
  obtain ⟨n, first, last, mid, hn, h1, h2, h3, h4, -⟩ := c45_locations coast coast_ends.nonempty coast_even 0 5000 9260 (by norm_num) [10, 20] (by simp) l hl
  refine ⟨l, hl, ?_⟩
  have h0 : 0 < n := by have := (pointsFor_spec _ _ (by norm_num) _ hn).1; omega
  rw [coast_ends.head _ _ _ h0] at h1
  rw [coast_ends.last _ _ _ h0] at h2
  cases h1; cases h2
  obtain ⟨c, hc⟩ := one_flip coast_ends coast_one (a := 0) (b := 5000) (by decide +kernel) n h0
  have hk : c.kind = .enter := by
    rcases single_kind coast_ends h0 hc with ⟨-, -, h⟩ | ⟨h, -, -⟩
    · exact h
    · exact absurd h (by decide +kernel)
  rw [h3, if_neg (by decide +kernel), if_pos (by decide +kernel)]
  simp [h4, hc, hk]

example : ∃ err, intersections coast 0 200 9260 [10, 20] = .error err ∧ (err = .tooSmall ∨ err = .twoCrossings) :=
  ⟨_, c56_short_legs_fail coast 0 200 _ (by norm_num [coast]), c45_errors coast coast_ends 0 200 9260 (by norm_num) [10, 20] (by simp) (by simp) _
    (c56_short_legs_fail coast 0 200 _ (by norm_num [coast]))⟩

end Verif.Crossing
