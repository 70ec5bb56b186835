import Verif.Crossing.Props

/-! # C45: the refined locations -/

namespace Verif.Crossing

variable {K : Type} [Field K] [LinearOrder K] [IsStrictOrderedRing K] [FloorRing K] {P : Type}

theorem find_ok {E : Earth K P} (hE : ∀ a b n, E.samples a b n ≠ []) {a b : P} {between : K} {data : List (Cond P)}
    (h : findCrossings E a b between = .ok data) :
    ∃ n first last, pointsFor (E.dist a b) between = .ok n ∧ E.raises a b n = false ∧ (E.samples a b n).head? = some first ∧
      (E.samples a b n).getLast? = some last ∧ data = expected E.inside (E.samples a b n) first last := by
  by_cases hb : between = 0
  · simp [findCrossings, preprocess, hb] at h
  · cases hn : pointsFor (E.dist a b) between with
    | error e => simp [findCrossings, preprocess, hb, hn] at h
    | ok n =>
      cases hr : E.raises a b n with
      | true => simp [findCrossings, preprocess, hb, hn, hr] at h
      | false =>
        obtain ⟨first, last, h1, h2, h3⟩ := c45_crossing_list E hE a b between hb n hn hr
        rw [h3] at h
        exact ⟨n, first, last, rfl, hr, h1, h2, (Except.ok.inj h).symm⟩

/-- Two neighbours of different status in some sampling with spacing below `δ`. -/
def Bracket (E : Earth K P) (c : Cond P) (δ : K) : Prop :=
  ∃ y a b, ∃ n : Nat, c.e = some y ∧ Neighbours (E.samples a b n) c.b y ∧ 0 < n ∧ E.dist a b < δ * n ∧
    ((c.kind = .enter ∧ E.inside c.b = false ∧ E.inside y = true) ∨ (c.kind = .exit ∧ E.inside c.b = true ∧ E.inside y = false))

theorem splitDown_spec {E : Earth K P} (hE : ∀ a b n, E.samples a b n ≠ []) (levels : List Nat) {b e : P} {between : K} (hb : 0 < between)
    {split : Option (Cond P)} {c : Cond P} (h : splitDown E b e between split levels = .ok c) :
    (levels = [] ∧ split = some c) ∨ Bracket E c (between / (levels.prod : Nat)) := by
  induction levels generalizing b e between split with
  | nil =>
    cases split with
    | none => cases h
    | some c' => simp only [splitDown, Except.ok.injEq] at h; exact .inl ⟨rfl, by rw [h]⟩
  | cons d levels ih =>
    right
    simp only [splitDown] at h
    split at h
    · cases h
    · rename_i hd
      have hdpos : (0 : K) < d := by exact_mod_cast Nat.pos_of_ne_zero hd
      have hb' : 0 < between / d := div_pos hb hdpos
      split at h
      · cases h
      · rename_i data hdata
        obtain ⟨n, first, last, hn, hr, h1, h2, h3⟩ := find_ok hE hdata
        split at h
        · rename_i c1 c2 c3
          split at h
          · cases h
          · split at h
            · cases h
            · rename_i e' he'
              have hmem : c2 ∈ flips E.inside (E.samples b e n) := by
                simp only [expected, List.cons_append, List.cons.injEq] at h3
                cases hf : flips E.inside (E.samples b e n) with
                | nil => rw [hf] at h3; simp at h3
                | cons f fs =>
                  rw [hf] at h3
                  simp only [List.cons_append, List.cons.injEq] at h3
                  rw [h3.2.1]; exact List.mem_cons_self ..
              obtain ⟨y, hy1, hy2, hy3⟩ := c45_neighbours _ _ _ hmem
              obtain ⟨p1, p2⟩ := pointsFor_spec _ _ hb' _ hn
              have hbr : Bracket E c2 (between / d) := ⟨y, b, e, n, hy1, hy2, by omega, p2, hy3⟩
              rcases ih hb' h with ⟨hl, hc⟩ | hr
              · cases hc
                rw [hl]; simpa using hbr
              · rw [List.prod_cons, Nat.cast_mul, ← div_div]; exact hr
        · cases h

/-- **C45, refinement.** Each crossing found becomes one location of the same kind, in the same order; the location is within the
range, and the path is out of range one step before an entry and one step after an exit, the steps being those of a sampling
closer than `between` divided by all the levels. -/
theorem refine_spec {E : Earth K P} (hE : ∀ a b n, E.samples a b n ≠ []) {between : K} (hb : 0 < between) {levels : List Nat} (hl : levels ≠ [])
    (cs mid : List (Cond P)) (h : refine E between levels cs = .ok mid) (hk : ∀ c ∈ cs, c.kind = .enter ∨ c.kind = .exit) :
    mid.map (·.kind) = cs.map (·.kind) ∧ ∀ m ∈ mid, m.e = none ∧ E.inside m.b = true ∧
      ∃ y a b, ∃ n : Nat, E.inside y = false ∧ 0 < n ∧ E.dist a b < between / (levels.prod : Nat) * n ∧
        ((m.kind = .enter ∧ Neighbours (E.samples a b n) y m.b) ∨ (m.kind = .exit ∧ Neighbours (E.samples a b n) m.b y)) := by
  induction cs generalizing mid with
  | nil => simp only [refine, Except.ok.injEq] at h; subst h; simp
  | cons c cs ih =>
    simp only [refine] at h
    split at h
    · cases h
    · rename_i e he
      split at h
      · cases h
      · rename_i new hnew
        split at h
        · cases h
        · rename_i hkind
          have hkind : new.kind = c.kind := not_not.1 hkind
          split at h
          · cases h
          · rename_i u hu
            split at h
            · cases h
            · rename_i r hr
              simp only [Except.ok.injEq] at h
              subst h
              obtain ⟨h1, h2⟩ := ih r hr (fun c hc => hk c (List.mem_cons_of_mem _ hc))
              refine ⟨by simp [h1], fun m hm => ?_⟩
              rcases List.mem_cons.1 hm with rfl | hm
              · rcases splitDown_spec hE levels hb hnew with ⟨hx, -⟩ | ⟨y, a, b, n, hy, hnb, hn0, hlt, hcase⟩
                · exact absurd hx hl
                · rcases hcase with ⟨k1, k2, k3⟩ | ⟨k1, k2, k3⟩
                  · have hc : c.kind = .enter := by rw [← hkind]; exact k1
                    rw [hc] at hu
                    simp only [reduceCtorEq, if_false] at hu
                    rw [hy] at hu
                    cases hu
                    exact ⟨rfl, k3, new.b, a, b, n, k2, hn0, hlt, .inl ⟨hc, hnb⟩⟩
                  · have hc : c.kind = .exit := by rw [← hkind]; exact k1
                    rw [hc] at hu
                    simp only [if_true, Option.some.injEq] at hu
                    subst hu
                    exact ⟨rfl, k2, y, a, b, n, k3, hn0, hlt, .inr ⟨hc, hnb⟩⟩
              · exact h2 m hm

/-- **C45, what is reported.** If the search returns, the result is: the start, if it is in range; one location for each flip of
the rough sampling, of the same kind and in order; the end, if it is in range. Every location is in range, and (for evenly spaced
samples) less than `between / product of levels` along the path away from a point out of range: behind it on an entry, ahead of it
on an exit. -/
theorem c45_locations (E : Earth K P) (hE : ∀ a b n, E.samples a b n ≠ []) (hev : Even E) (start finish : P) (between : K) (hb : 0 < between)
    (levels : List Nat) (hl : levels ≠ []) (l : List (Cond P)) (h : intersections E start finish between levels = .ok l) :
    ∃ n first last mid, pointsFor (E.dist start finish) between = .ok n ∧ (E.samples start finish n).head? = some first ∧
      (E.samples start finish n).getLast? = some last ∧
      l = (if E.inside first then [⟨.startInside, first, none⟩] else []) ++ mid ++ (if E.inside last then [⟨.endInside, last, none⟩] else []) ∧
      mid.map (·.kind) = (flips E.inside (E.samples start finish n)).map (·.kind) ∧
      ∀ m ∈ mid, m.e = none ∧ E.inside m.b = true ∧ ∃ y, E.inside y = false ∧
        ((m.kind = .enter ∧ E.dist y m.b < between / (levels.prod : Nat)) ∨ (m.kind = .exit ∧ E.dist m.b y < between / (levels.prod : Nat))) := by
  unfold intersections at h
  split at h
  · cases h
  · rename_i rough hrough
    obtain ⟨n, first, last, hn, hr, h1, h2, h3⟩ := find_ok hE hrough
    split at h
    · cases h
    · rename_i mid hmid
      have htail : rough.tail.dropLast = flips E.inside (E.samples start finish n) := by
        rw [h3]; simp [expected]
      have hhead : rough.head? = some ⟨if E.inside first then .startInside else .startOut, first, none⟩ := by
        rw [h3]; simp [expected]
      have hlast : rough.getLast? = some ⟨if E.inside last then .endInside else .endOut, last, none⟩ := by
        rw [h3]; unfold expected; rw [List.getLast?_append]; rfl
      rw [htail] at hmid
      obtain ⟨k1, k2⟩ := refine_spec hE hb hl _ _ hmid (fun c hc => by
        obtain ⟨y, -, -, hy⟩ := c45_neighbours _ _ _ hc
        exact hy.elim (fun h => .inl h.1) (fun h => .inr h.1))
      refine ⟨n, first, last, mid, hn, h1, h2, ?_, k1, fun m hm => ?_⟩
      · simp only [hhead, hlast, Except.ok.injEq] at h
        rw [← h]
        cases E.inside first <;> cases E.inside last <;> rfl
      · obtain ⟨q1, q2, y, a, b, n', hy, hn0, hlt, hc⟩ := k2 m hm
        have hn' : (0 : K) < n' := by exact_mod_cast hn0
        refine ⟨q1, q2, y, hy, ?_⟩
        rcases hc with ⟨hk, hnb⟩ | ⟨hk, hnb⟩
        · refine .inl ⟨hk, ?_⟩
          have := hev a b n' hn0 _ _ hnb
          by_contra hcon
          have hcon := not_lt.1 hcon
          nlinarith
        · refine .inr ⟨hk, ?_⟩
          have := hev a b n' hn0 _ _ hnb
          by_contra hcon
          have hcon := not_lt.1 hcon
          nlinarith

/-! ### Which errors are possible -/

theorem find_err {E : Earth K P} (hE : ExactEnds E) {a b : P} {between : K} (hb : between ≠ 0) {e : Err}
    (h : findCrossings E a b between = .error e) : pointsFor (E.dist a b) between = .error e := by
  cases hn : pointsFor (E.dist a b) between with
  | error e' => simp [findCrossings, preprocess, hb, hn] at h; rw [h]
  | ok n =>
    obtain ⟨first, last, h1, h2, h3⟩ := c45_crossing_list E hE.nonempty a b between hb n hn (hE.quiet _ _ _)
    rw [h3] at h; cases h

theorem pointsFor_err (dist between : K) {e : Err} (h : pointsFor dist between = .error e) : e = .tooSmall := by
  fun_induction pointsFor dist between with
  | case1 => simpa using h.symm
  | case2 _ _ _ _ ih => exact ih h
  | case3 => cases h

/-- The kind that leads from `a` to `b`. -/
theorem single_kind {E : Earth K P} (hx : ExactEnds E) {a b : P} {n : Nat} (hn : 0 < n) {c : Cond P} (h : flips E.inside (E.samples a b n) = [c]) :
    (E.inside a = false ∧ E.inside b = true ∧ c.kind = .enter) ∨ (E.inside a = true ∧ E.inside b = false ∧ c.kind = .exit) := by
  have h1 := hx.head a b n hn
  have h2 := hx.last a b n hn
  cases hs : E.samples a b n with
  | nil => exact absurd hs (hx.nonempty a b n)
  | cons x xs =>
    rw [hs] at h h1 h2
    simp only [List.head?_cons, Option.some.injEq] at h1
    subst h1
    have hal := c45_alternate E.inside x xs
    rw [List.getLast?_eq_some_getLast (by simp)] at h2
    rw [Option.some.inj h2, h] at hal
    simp only [List.map_cons, List.map_nil] at hal
    cases hk : c.kind <;> rw [hk] at hal <;> simp only [Consistent] at hal
    · exact .inl ⟨hal.1, hal.2.symm, rfl⟩
    · exact .inr ⟨hal.1, hal.2.symm, rfl⟩

theorem splitDown_errors {E : Earth K P} (hx : ExactEnds E) (levels : List Nat) (hpos : ∀ d ∈ levels, d ≠ 0) {b e : P} {between : K} (hb : 0 < between)
    {split : Option (Cond P)} (hs : levels ≠ [] ∨ ∃ c, split = some c ∧ c.kind = (if E.inside b then .exit else .enter))
    (hne : E.inside b ≠ E.inside e) :
    splitDown E b e between split levels = .error .tooSmall ∨ splitDown E b e between split levels = .error .twoCrossings ∨
      ∃ c, splitDown E b e between split levels = .ok c ∧ c.kind = (if E.inside b then .exit else .enter) := by
  induction levels generalizing b e between split with
  | nil =>
    rcases hs with hs | ⟨c, rfl, hc⟩
    · exact absurd rfl hs
    · exact .inr (.inr ⟨c, rfl, hc⟩)
  | cons d levels ih =>
    have hd := hpos d (List.mem_cons_self ..)
    have hdpos : (0 : K) < d := by exact_mod_cast Nat.pos_of_ne_zero hd
    have hb' : 0 < between / d := div_pos hb hdpos
    simp only [splitDown, if_neg hd]
    cases hf : findCrossings E b e (between / d) with
    | error err =>
      left
      rw [pointsFor_err _ _ (find_err hx (ne_of_gt hb') hf)]
    | ok data =>
      obtain ⟨n, first, last, hn, hr, h1, h2, h3⟩ := find_ok hx.nonempty hf
      simp only
      cases hfl : flips E.inside (E.samples b e n) with
      | nil => right; left; rw [h3]; simp [expected, hfl]
      | cons c cs =>
        cases cs with
        | cons c' cs =>
          right; left; rw [h3]
          simp only [expected, hfl, List.cons_append]
          cases cs <;> rfl
        | nil =>
          rw [h3]
          simp only [expected, hfl, List.cons_append, List.nil_append]
          obtain ⟨y, hy, -, hk⟩ := c45_neighbours E.inside (E.samples b e n) c (by rw [hfl]; exact List.mem_cons_self ..)
          have hks := single_kind hx (by have := (pointsFor_spec _ _ hb' _ hn).1; omega) hfl
          have hkind : ¬ (c.kind ≠ .exit ∧ c.kind ≠ .enter) := by
            rintro ⟨k1, k2⟩
            exact hk.elim (fun h => k2 h.1) (fun h => k1 h.1)
          rw [if_neg hkind, hy]
          simp only
          have hin : E.inside c.b = E.inside b := by
            rcases hks with ⟨a1, a2, a3⟩ | ⟨a1, a2, a3⟩ <;> rcases hk with ⟨b1, b2, b3⟩ | ⟨b1, b2, b3⟩
            · rw [a1, b2]
            · rw [a3] at b1; cases b1
            · rw [a3] at b1; cases b1
            · rw [a1, b2]
          have hcy : E.inside c.b ≠ E.inside y := by
            rcases hk with ⟨b1, b2, b3⟩ | ⟨b1, b2, b3⟩ <;> rw [b2, b3] <;> decide
          have hck : c.kind = (if E.inside b then .exit else .enter) := by
            rcases hks with ⟨a1, a2, a3⟩ | ⟨a1, a2, a3⟩ <;> rw [a1, a3] <;> rfl
          have := ih (fun d hd => hpos d (List.mem_cons_of_mem _ hd)) (b := c.b) (e := y) hb' (split := some c)
            (.inr ⟨c, rfl, by rw [hin]; exact hck⟩) hcy
          rw [hin] at this
          exact this

theorem refine_errors {E : Earth K P} (hx : ExactEnds E) {between : K} (hb : 0 < between) {levels : List Nat} (hl : levels ≠ [])
    (hpos : ∀ d ∈ levels, d ≠ 0) (cs : List (Cond P))
    (hk : ∀ c ∈ cs, ∃ y, c.e = some y ∧ ((c.kind = .enter ∧ E.inside c.b = false ∧ E.inside y = true) ∨ (c.kind = .exit ∧ E.inside c.b = true ∧ E.inside y = false)))
    {err : Err} (h : refine E between levels cs = .error err) : err = .tooSmall ∨ err = .twoCrossings := by
  induction cs with
  | nil => cases h
  | cons c cs ih =>
    obtain ⟨y, hy, hc⟩ := hk c (List.mem_cons_self ..)
    simp only [refine, hy] at h
    have hne : E.inside c.b ≠ E.inside y := by
      rcases hc with ⟨-, b2, b3⟩ | ⟨-, b2, b3⟩ <;> rw [b2, b3] <;> decide
    rcases splitDown_errors hx levels hpos hb (split := none) (.inl hl) hne with hs | hs | ⟨new, hs, hkn⟩
    · rw [hs] at h; cases h; exact .inl rfl
    · rw [hs] at h; cases h; exact .inr rfl
    · have hkc : new.kind = c.kind := by
        rcases hc with ⟨b1, b2, -⟩ | ⟨b1, b2, -⟩ <;> rw [hkn, b1, b2] <;> rfl
      rw [hs] at h
      simp only [hkc, ne_eq, not_true_eq_false, if_false] at h
      obtain ⟨y', -, -, -, hy', -⟩ := (splitDown_spec hx.nonempty levels hb hs).resolve_left (fun h => hl h.1)
      have hu : ∃ u, (if c.kind = .exit then some new.b else new.e) = some u := by
        split
        · exact ⟨_, rfl⟩
        · exact ⟨_, hy'⟩
      obtain ⟨u, hu⟩ := hu
      simp only [hu] at h
      cases hr : refine E between levels cs with
      | error e' =>
        rw [hr] at h
        cases h
        exact ih (fun c hc => hk c (List.mem_cons_of_mem _ hc)) hr
      | ok r => rw [hr] at h; cases h

/-- **C45, errors.** With samplings that begin and end where they should, the search fails only because a segment is too small or
because a segment between two samples is crossed more than once: no assertion fails, and refining never gives another direction. -/
theorem c45_errors (E : Earth K P) (hx : ExactEnds E) (start finish : P) (between : K) (hb : 0 < between) (levels : List Nat) (hl : levels ≠ [])
    (hpos : ∀ d ∈ levels, d ≠ 0) (err : Err) (h : intersections E start finish between levels = .error err) :
    err = .tooSmall ∨ err = .twoCrossings := by
  unfold intersections at h
  split at h
  · rename_i e he
    cases h
    exact .inl (pointsFor_err _ _ (find_err hx (ne_of_gt hb) he))
  · rename_i rough hrough
    obtain ⟨n, first, last, hn, hr, h1, h2, h3⟩ := find_ok hx.nonempty hrough
    have htail : rough.tail.dropLast = flips E.inside (E.samples start finish n) := by
      rw [h3]; simp [expected]
    split at h
    · rename_i e he
      cases h
      rw [htail] at he
      exact refine_errors hx hb hl hpos _ (fun c hc => by
        obtain ⟨y, h1, -, h3⟩ := c45_neighbours _ _ _ hc
        exact ⟨y, h1, h3⟩) he
    · cases h

/-! ### A line -/

/-- A straight path of integers, sampled evenly, seen between 1000 and 5000. -/
def line : Earth Rat Rat where
  dist a b := b - a
  samples a b n := (List.range (n + 1)).map fun i : Nat => a + (b - a) * i / n
  inside x := decide (1000 ≤ x ∧ x ≤ 5000)
  raises _ _ _ := false

example : (intersections line 0 9260 9260 [10, 20]).toOption.map (fun l => l.map fun c => (c.kind, decide (1000 ≤ c.b ∧ c.b < 1047 ∨ 4953 < c.b ∧ c.b ≤ 5000)))
    = some [(.enter, true), (.exit, true)] := by decide +kernel

end Verif.Crossing
