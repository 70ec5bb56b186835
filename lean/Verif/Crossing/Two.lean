import Verif.Crossing.Refine

/-! # The search with the levels of `subdivide_intersection`, step by step -/

namespace Verif.Crossing

variable {K : Type} [Field K] [LinearOrder K] [IsStrictOrderedRing K] [FloorRing K] {P : Type}

/-- One level: some sampling was made, and two neighbours of it with different status go on. -/
theorem split_one {E : Earth K P} (hE : ∀ a b n, E.samples a b n ≠ []) {b e : P} {between : K} {split : Option (Cond P)} {c : Cond P} {d : Nat} {levels : List Nat}
    (h : splitDown E b e between split (d :: levels) = .ok c) :
    ∃ n x y c', pointsFor (E.dist b e) (between / d) = .ok n ∧ E.raises b e n = false ∧ Neighbours (E.samples b e n) x y ∧ flip E.inside x y = some c' ∧
      splitDown E x y (between / d) (some c') levels = .ok c := by
  simp only [splitDown] at h
  split at h
  · cases h
  · split at h
    · cases h
    · rename_i data hdata
      obtain ⟨n, first, last, hn, hr, h1, h2, h3⟩ := find_ok hE hdata
      split at h
      · rename_i c1 c2 c3
        split at h
        · cases h
        · split at h
          · cases h
          · rename_i e' he'
            have hmem : c2 ∈ flips E.inside (E.samples b e n) := by
              simp only [expected, List.cons_append, List.cons.injEq] at h3
              cases hf : flips E.inside (E.samples b e n) with
              | nil => rw [hf] at h3; simp at h3
              | cons f fs =>
                rw [hf] at h3
                simp only [List.cons_append, List.cons.injEq] at h3
                rw [h3.2.1]; simp
            obtain ⟨y, hy, hnb, hs⟩ := c45_neighbours _ _ _ hmem
            rw [he'] at hy
            cases hy
            refine ⟨n, c2.b, e', c2, hn, hr, hnb, ?_, h⟩
            obtain ⟨ck, cb, ce⟩ := c2
            simp only at he' hs ⊢
            rcases hs with ⟨k1, k2, k3⟩ | ⟨k1, k2, k3⟩ <;> simp [flip, k1, k2, k3, he']
      · cases h

/-- Both levels: what `_split_down` (intersections.py 146-202) did with the levels 10 and 20. -/
theorem split_two {E : Earth K P} (hE : ∀ a b n, E.samples a b n ≠ []) {b e : P} {split : Option (Cond P)} {c : Cond P}
    (h : splitDown E b e 9260 split [10, 20] = .ok c) :
    ∃ n₁ x y, ∃ n₂ z, pointsFor (E.dist b e) 926 = .ok n₁ ∧ E.raises b e n₁ = false ∧ Neighbours (E.samples b e n₁) x y ∧
      pointsFor (E.dist x y) 46.3 = .ok n₂ ∧ E.raises x y n₂ = false ∧ Neighbours (E.samples x y n₂) c.b z ∧ flip E.inside c.b z = some c := by
  obtain ⟨n₁, x, y, c', p1, r1, q1, -, h⟩ := split_one hE h
  obtain ⟨n₂, x', z, c'', p2, r2, q2, f2, h⟩ := split_one hE h
  simp only [splitDown, Except.ok.injEq] at h
  subst h
  have e1 : (9260 : K) / ((10 : Nat) : K) = 926 := by norm_num
  have e2 : (9260 : K) / ((10 : Nat) : K) / ((20 : Nat) : K) = 46.3 := by norm_num
  rw [e1] at p1
  rw [e2] at p2
  have hx : x' = c''.b := by
    unfold flip at f2
    split at f2 <;> simp at f2 <;> rw [← f2]
  subst hx
  exact ⟨n₁, x, y, n₂, z, p1, r1, q1, p2, r2, q2, f2⟩

/-- What is reported for one crossing of the rough sampling. -/
def Found (E : Earth K P) (c m : Cond P) : Prop :=
  ∃ e new, c.e = some e ∧ m.e = none ∧ splitDown E c.b e 9260 none [10, 20] = .ok new ∧ new.kind = c.kind ∧ m.kind = c.kind ∧
    (if c.kind = .exit then some new.b else new.e) = some m.b

theorem refine_two {E : Earth K P} {cs mid : List (Cond P)} (h : refine E 9260 [10, 20] cs = .ok mid) : List.Forall₂ (Found E) cs mid := by
  induction cs generalizing mid with
  | nil => simp only [refine, Except.ok.injEq] at h; subst h; exact .nil
  | cons c cs ih =>
    simp only [refine] at h
    split at h
    · cases h
    · rename_i e he
      split at h
      · cases h
      · rename_i new hnew
        split at h
        · cases h
        · rename_i hkind
          split at h
          · cases h
          · rename_i u hu
            split at h
            · cases h
            · rename_i r hr
              simp only [Except.ok.injEq] at h
              subst h
              exact .cons ⟨e, new, he, rfl, hnew, not_not.1 hkind, rfl, hu⟩ (ih hr)

/-- The whole search. -/
theorem intersections_two {E : Earth K P} (hE : ∀ a b n, E.samples a b n ≠ []) {start finish : P} {l : List (Cond P)}
    (h : intersections E start finish 9260 [10, 20] = .ok l) :
    ∃ n first last mid, pointsFor (E.dist start finish) 9260 = .ok n ∧ E.raises start finish n = false ∧ (E.samples start finish n).head? = some first ∧
      (E.samples start finish n).getLast? = some last ∧
      l = (if E.inside first then [⟨.startInside, first, none⟩] else []) ++ mid ++ (if E.inside last then [⟨.endInside, last, none⟩] else []) ∧
      List.Forall₂ (Found E) (flips E.inside (E.samples start finish n)) mid := by
  unfold intersections at h
  split at h
  · cases h
  · rename_i rough hrough
    obtain ⟨n, first, last, hn, hr, h1, h2, h3⟩ := find_ok hE hrough
    split at h
    · cases h
    · rename_i mid hmid
      have htail : rough.tail.dropLast = flips E.inside (E.samples start finish n) := by
        rw [h3]; simp [expected]
      have hhead : rough.head? = some ⟨if E.inside first then .startInside else .startOut, first, none⟩ := by
        rw [h3]; simp [expected]
      have hlast : rough.getLast? = some ⟨if E.inside last then .endInside else .endOut, last, none⟩ := by
        rw [h3]; unfold expected; rw [List.getLast?_append]; rfl
      rw [htail] at hmid
      refine ⟨n, first, last, mid, hn, hr, h1, h2, ?_, refine_two hmid⟩
      simp only [hhead, hlast, Except.ok.injEq] at h
      rw [← h]
      cases E.inside first <;> cases E.inside last <;> rfl

/-- Samples are made only for legs of some length. -/
theorem pointsFor_long {d β : K} {n : Nat} (hβ : 40 ≤ β) (h : pointsFor d β = .ok n) : 80 ≤ d ∧ 3 ≤ n := by
  fun_induction pointsFor d β with
  | case1 => cases h
  | case2 β points h1 h2 ih =>
    exact ih (by linarith [not_lt.1 h2]) h
  | case3 β points h1 =>
    simp only [Except.ok.injEq] at h
    subst h
    refine ⟨?_, by omega⟩
    have h3 : 2 ≤ ⌊d / β⌋ := by
      have : 2 < (⌊d / β⌋ + 1).toNat := not_le.1 h1
      omega
    have h4 : ((2 : ℤ) : K) ≤ d / β := Int.le_floor.1 h3
    have hp : 0 < β := by linarith
    rw [le_div_iff₀ hp] at h4
    push_cast at h4
    linarith

end Verif.Crossing
