import Verif.Crossing.Spec

/-! # C45 -/

namespace Verif.Crossing

variable {K : Type} [Field K] [LinearOrder K] [IsStrictOrderedRing K] [FloorRing K] {P : Type}

/-! ### The number of samples -/

/-- More than two points, closer together than asked for. -/
theorem pointsFor_spec (dist between : K) (hb : 0 < between) (n : Nat) (h : pointsFor dist between = .ok n) :
    3 ≤ n ∧ dist < between * n := by
  fun_induction pointsFor dist between with
  | case1 => cases h
  | case2 between points hp hs ih =>
    have hb2 : 0 < between / 2 := by linarith
    obtain ⟨h1, h2⟩ := ih hb2 h
    refine ⟨h1, lt_of_lt_of_le h2 ?_⟩
    have : (0 : K) ≤ n := by positivity
    nlinarith
  | case3 between points hp =>
    simp only [Except.ok.injEq] at h
    subst h
    refine ⟨by omega, ?_⟩
    have h1 : dist / between < ⌊dist / between⌋ + 1 := Int.lt_floor_add_one _
    have h2 : (0 : Int) ≤ ⌊dist / between⌋ + 1 := by omega
    have h3 : ((points : Nat) : K) = ((⌊dist / between⌋ + 1 : Int) : K) := by
      show (((⌊dist / between⌋ + 1).toNat : Nat) : K) = _
      exact_mod_cast Int.toNat_of_nonneg h2
    rw [h3]
    push_cast
    rw [div_lt_iff₀ hb] at h1
    linarith

/-! ### The loop -/

/-- The variables after the samples `done`. -/
structure LoopInv (E : Earth K P) (first : P) (done : List P) (v : Vars P) : Prop where
  acc : v.acc = ⟨if E.inside first then .startInside else .startOut, first, none⟩ :: flips E.inside done
  last : ∃ x, done.getLast? = some x ∧ v.isIn = some (E.inside x) ∧
    (if E.inside x then v.lastIn = some (done.length - 1) ∧ (∀ j, v.lastOut = some j → j + 1 < done.length)
      else v.lastOut = some (done.length - 1) ∧ ∀ j, v.lastIn = some j → j + 1 < done.length)

theorem flips_append_one (inside : P → Bool) (l : List P) (x y : P) (h : l.getLast? = some x) :
    flips inside (l ++ [y]) = flips inside l ++ (flip inside x y).toList := by
  induction l with
  | nil => cases h
  | cons a l ih =>
    cases l with
    | nil =>
      simp at h; subst h
      simp only [flips, List.cons_append, List.nil_append, List.tail_cons, List.zip_cons_cons, List.filterMap_cons]
      cases flip inside a y <;> simp
    | cons b l =>
      have h' : (b :: l).getLast? = some x := by simpa using h
      have := ih h'
      simp only [flips, List.cons_append, List.tail_cons, List.zip_cons_cons, List.filterMap_cons] at this ⊢
      cases hf : flip inside a b with
      | none => simp only; simpa using this
      | some c => simp only [List.cons_append]; rw [List.cons.injEq]; exact ⟨rfl, by simpa using this⟩

theorem body_inv (E : Earth K P) (first : P) (done : List P) (x : P) (rest : List P) (v : Vars P) (hd : done ≠ []) (h : LoopInv E first done v) :
    ∃ v', body E (done ++ x :: rest) v done.length x = .ok v' ∧ LoopInv E first (done ++ [x]) v' := by
  obtain ⟨y, hy, hisin, hl⟩ := h.last
  have hlen : 0 < done.length := List.length_pos_iff.2 hd
  have hget : (done ++ x :: rest)[done.length - 1]? = some y := by
    rw [List.getElem?_append_left (by omega)]
    rwa [List.getLast?_eq_getElem?] at hy
  have hj : done.length - 1 + 1 = done.length := by omega
  have hfl := flips_append_one E.inside done y x hy
  have hlast : (done ++ [x]).getLast? = some x := by simp
  have hlen2 : (done ++ [x]).length - 1 = done.length := by simp
  unfold body
  cases hx : E.inside x <;> cases hyi : E.inside y
  · -- out, out
    simp only [hyi, Bool.false_eq_true, ↓reduceIte] at hl
    have h0 : done.length ≠ 0 := by omega
    simp only [h0, ↓reduceIte, Bool.false_eq_true, false_and, hl.1, ne_eq, not_true_eq_false, and_false]
    refine ⟨_, rfl, ?_, x, hlast, by rw [hx], ?_⟩
    · simp only [h.acc, hfl, flip, hx, hyi, Option.toList_none, List.append_nil]
    · rw [hx, if_neg (by decide), hlen2]
      refine ⟨rfl, fun j hj' => ?_⟩
      have := hl.2 j hj'
      simp; omega
  · -- out, was in
    simp only [hyi, ↓reduceIte] at hl
    have h0 : done.length ≠ 0 := by omega
    have hne : v.lastOut ≠ some (done.length - 1) := by
      intro hh
      have := hl.2 _ hh
      omega
    simp only [h0, ↓reduceIte, Bool.false_eq_true, false_and, true_and, if_pos hne, crossing, hl.1, hget, hj]
    refine ⟨_, rfl, ?_, x, hlast, by rw [hx], ?_⟩
    · simp only [h.acc, hfl, flip, hx, hyi, Option.toList_some, List.cons_append]
    · rw [hx, if_neg (by decide), hlen2]
      refine ⟨rfl, fun j hj' => ?_⟩
      simp only [hl.1, Option.some.injEq] at hj'
      simp; omega
  · -- in, was out
    simp only [hyi, Bool.false_eq_true, ↓reduceIte] at hl
    have h0 : done.length ≠ 0 := by omega
    have hne : v.lastIn ≠ some (done.length - 1) := by
      intro hh
      have := hl.2 _ hh
      omega
    simp only [h0, ↓reduceIte, true_and, if_pos hne, crossing, hl.1, hget, hj]
    refine ⟨_, rfl, ?_, x, hlast, by rw [hx], ?_⟩
    · simp only [h.acc, hfl, flip, hx, hyi, Option.toList_some, List.cons_append]
    · rw [hx, if_pos rfl, hlen2]
      refine ⟨rfl, fun j hj' => ?_⟩
      simp only [hl.1, Option.some.injEq] at hj'
      simp; omega
  · -- in, in
    simp only [hyi, ↓reduceIte] at hl
    have h0 : done.length ≠ 0 := by omega
    simp only [h0, ↓reduceIte, hl.1, ne_eq, not_true_eq_false, and_false, Bool.true_eq_false, false_and]
    refine ⟨_, rfl, ?_, x, hlast, by rw [hx], ?_⟩
    · simp only [h.acc, hfl, flip, hx, hyi, Option.toList_none, List.append_nil]
    · rw [hx, if_pos rfl, hlen2]
      refine ⟨rfl, fun j hj' => ?_⟩
      have := hl.2 j hj'
      simp; omega

theorem loop_inv (E : Earth K P) (first : P) (rest done : List P) (v : Vars P) (hd : done ≠ []) (h : LoopInv E first done v) :
    ∃ v', loop E (done ++ rest) rest done.length v = .ok v' ∧ LoopInv E first (done ++ rest) v' := by
  induction rest generalizing done v with
  | nil => exact ⟨v, rfl, by simpa using h⟩
  | cons x rest ih =>
    obtain ⟨v1, h1, h2⟩ := body_inv E first done x rest v hd h
    obtain ⟨v2, h3, h4⟩ := ih (done ++ [x]) v1 (by simp) h2
    refine ⟨v2, ?_, by simpa using h4⟩
    simp only [loop, h1]
    simpa using h3

/-- **C45, sampled path.** For every path of at least one sample the loop succeeds: no assertion fails, and the list is the start
condition, one `ENTER` or `EXIT` for each pair of neighbouring samples with different status, in order, and the end condition. -/
theorem c45_loop (E : Earth K P) (x : P) (xs : List P) :
    ∃ v, loop E (x :: xs) (x :: xs) 0 ⟨none, none, [], none⟩ = .ok v ∧
      close (x :: xs) v = .ok (expected E.inside (x :: xs) x ((x :: xs).getLast (by simp))) := by
  have h1 : ∃ v1, body E (x :: xs) ⟨none, none, [], none⟩ 0 x = .ok v1 ∧ LoopInv E x [x] v1 := by
    unfold body
    cases hx : E.inside x
    · exact ⟨_, rfl, by simp [flips, hx], x, rfl, by rw [hx], by simp [hx]⟩
    · exact ⟨_, rfl, by simp [flips, hx], x, rfl, by rw [hx], by simp [hx]⟩
  obtain ⟨v1, h1, h2⟩ := h1
  obtain ⟨v2, h3, h4⟩ := loop_inv E x xs [x] v1 (by simp) h2
  refine ⟨v2, by simp only [loop, h1]; exact h3, ?_⟩
  obtain ⟨y, hy, hi, -⟩ := h4.last
  have hy' : (x :: xs).getLast? = some y := by simpa using hy
  have hl : (x :: xs).getLast (by simp) = y := by
    rw [List.getLast?_eq_some_getLast (by simp)] at hy'
    exact Option.some.inj hy'
  simp only [close, hi, hy', h4.acc, expected, hl]
  rfl

/-- **C45.** Whenever samples can be made, the crossing list is exactly the expected one. -/
theorem c45_crossing_list (E : Earth K P) (hE : ∀ a b n, E.samples a b n ≠ []) (start finish : P) (between : K) (hb : between ≠ 0) (n : Nat)
    (hn : pointsFor (E.dist start finish) between = .ok n) (hr : E.raises start finish n = false) :
    ∃ first last, (E.samples start finish n).head? = some first ∧ (E.samples start finish n).getLast? = some last ∧
      findCrossings E start finish between = .ok (expected E.inside (E.samples start finish n) first last) := by
  unfold findCrossings preprocess
  rw [if_neg hb, hn]
  simp only [hr, Bool.false_eq_true, if_false]
  cases hs : E.samples start finish n with
  | nil => exact absurd hs (hE _ _ _)
  | cons x xs =>
    obtain ⟨v, h1, h2⟩ := c45_loop E x xs
    refine ⟨x, (x :: xs).getLast (by simp), rfl, List.getLast?_eq_some_getLast _, ?_⟩
    rw [h1]
    exact h2

/-- **C45, counting.** There are as many crossings as neighbours of different status. -/
theorem c45_count (inside : P → Bool) (path : List P) :
    (flips inside path).length = (path.zip path.tail).countP fun q => inside q.1 != inside q.2 := by
  unfold flips
  generalize path.zip path.tail = l
  induction l with
  | nil => rfl
  | cons q l ih =>
    have hf : (flip inside q.1 q.2).isSome = (inside q.1 != inside q.2) := by
      unfold flip; cases inside q.1 <;> cases inside q.2 <;> rfl
    rw [List.filterMap_cons, List.countP_cons, ← hf]
    cases flip inside q.1 q.2 <;> simp [ih]

/-- **C45, alternation.** The kinds of a path's crossings lead from the status of its first to that of its last sample. -/
theorem c45_alternate (inside : P → Bool) (x : P) (xs : List P) :
    Consistent (inside x) ((flips inside (x :: xs)).map (·.kind)) (inside ((x :: xs).getLast (by simp))) := by
  induction xs generalizing x with
  | nil => simp [flips, Consistent]
  | cons y ys ih =>
    have := ih y
    have hl : (x :: y :: ys).getLast (by simp) = (y :: ys).getLast (by simp) := by simp
    rw [hl]
    simp only [flips, List.tail_cons, List.zip_cons_cons, List.filterMap_cons, flip] at this ⊢
    cases h1 : inside x <;> cases h2 : inside y <;> simp only [h1, h2] at this ⊢
    · exact this
    · exact ⟨rfl, this⟩
    · exact ⟨rfl, this⟩
    · exact this

/-- Each crossing names neighbouring samples of different status. -/
theorem c45_neighbours (inside : P → Bool) (path : List P) (c : Cond P) (h : c ∈ flips inside path) :
    ∃ b, c.e = some b ∧ Neighbours path c.b b ∧
      ((c.kind = .enter ∧ inside c.b = false ∧ inside b = true) ∨ (c.kind = .exit ∧ inside c.b = true ∧ inside b = false)) := by
  induction path with
  | nil => cases h
  | cons x xs ih =>
    cases xs with
    | nil => cases h
    | cons y ys =>
      simp only [flips, List.tail_cons, List.zip_cons_cons, List.filterMap_cons] at h
      have hrest : c ∈ flips inside (y :: ys) → ∃ b, c.e = some b ∧ Neighbours (x :: y :: ys) c.b b ∧
          ((c.kind = .enter ∧ inside c.b = false ∧ inside b = true) ∨ (c.kind = .exit ∧ inside c.b = true ∧ inside b = false)) := by
        intro h
        obtain ⟨b, h1, ⟨p, q, hpq⟩, h3⟩ := ih h
        exact ⟨b, h1, ⟨x :: p, q, by rw [hpq]; rfl⟩, h3⟩
      cases hf : flip inside x y with
      | none => rw [hf] at h; exact hrest h
      | some c0 =>
        rw [hf] at h
        rcases List.mem_cons.1 h with rfl | h
        · unfold flip at hf
          cases h1 : inside x <;> cases h2 : inside y <;> simp only [h1, h2] at hf
          · cases hf
          · cases hf; exact ⟨y, rfl, ⟨[], ys, rfl⟩, .inl ⟨rfl, h1, h2⟩⟩
          · cases hf; exact ⟨y, rfl, ⟨[], ys, rfl⟩, .inr ⟨rfl, h1, h2⟩⟩
          · cases hf
        · exact hrest h

end Verif.Crossing
