import Verif.Path.Lemmas

namespace Verif.Path

variable {P Q : Type}

/-- The legs from locations with `ok` are straight in the sense of `d`, seen through `π`. -/
structure Straight (K : Kind P) (d : Q → Q → ℝ) (π : P → Q) (ok : P → Prop) : Prop where
  dist : ∀ w a, K.dist w a = d (π a) (π w)
  nonneg : ∀ a b, 0 ≤ d a b
  self : ∀ a, d a a = 0
  triangle : ∀ a b c, d a c ≤ d a b + d b c
  start : ∀ a w f, ok a → 0 ≤ f → f ≤ 1 → d (π a) (π (K.move a w f)) = f * d (π a) (π w)
  finish : ∀ a w f, ok a → 0 ≤ f → f ≤ 1 → d (π (K.move a w f)) (π w) = (1 - f) * d (π a) (π w)
  beyond : ∀ a w f, ok a → 1 ≤ f → d (π (K.move a w f)) (π w) ≤ (f - 1) * d (π a) (π w)

theorem ok_last {ok : P → Prop} {p : P} (hp : ok p) {pre : List P} (h : ∀ w ∈ pre, ok w) : ok (pre.getLastD p) := by
  induction pre generalizing p with
  | nil => exact hp
  | cons a pre ih =>
    rw [List.getLastD_cons]
    exact ih (h a (List.mem_cons_self ..)) fun w hw => h w (List.mem_cons_of_mem _ hw)

theorem Straight.len {K : Kind P} {d : Q → Q → ℝ} {π : P → Q} {ok : P → Prop} (h : Straight K d π ok) (p : P) (as : List P) : K.len p as = pathLen d (π p) (as.map π) := by
  rw [pathLen_map]
  unfold Kind.len
  congr 1
  funext a b
  exact h.dist b a

/-- The leg on which time `e` falls. -/
theorem first_leg (K : Kind P) (hd : ∀ a b, 0 ≤ K.dist a b) (v : ℝ) (hv : 0 < v) (e : ℝ) (he : 0 < e) (p : P) (ws : List P) (h : e ≤ K.len p ws / v) :
    ∃ pre w post, ws = pre ++ w :: post ∧ e ≤ K.len p (pre ++ [w]) / v ∧ K.len p pre / v < e ∧ ∀ q r, q ≠ [] → pre = q ++ r → K.len p q / v < e := by
  induction ws generalizing p e with
  | nil => simp [Kind.len, pathLen] at h; linarith
  | cons w ws ih =>
    by_cases h1 : e ≤ K.dist w p / v
    · refine ⟨[], w, ws, rfl, by simpa [Kind.len, pathLen] using h1, by simpa [Kind.len, pathLen] using he, ?_⟩
      intro q r hq hc
      simp at hc; exact absurd hc.1 hq
    · have h1 := not_le.1 h1
      simp only [Kind.len, pathLen, add_div] at h
      obtain ⟨pre, w', post, g1, g2, g3, g4⟩ := ih (e - K.dist w p / v) (by linarith) w (by simp only [Kind.len]; linarith)
      refine ⟨w :: pre, w', post, by rw [g1]; rfl, ?_, ?_, ?_⟩
      · simp only [List.cons_append, Kind.len, pathLen, add_div] at g2 ⊢; linarith
      · simp only [Kind.len, pathLen, add_div] at g3 ⊢; linarith
      · intro q r hq hc
        cases q with
        | nil => exact absurd rfl hq
        | cons a q =>
          simp only [List.cons_append, List.cons.injEq] at hc
          obtain ⟨rfl, hc⟩ := hc
          by_cases hq' : q = []
          · subst hq'; simpa [Kind.len, pathLen] using h1
          · have := g4 q r hq' hc
            simp only [Kind.len, pathLen, add_div] at this ⊢; linarith

theorem len_snoc (K : Kind P) (p : P) (pre : List P) (w : P) : K.len p (pre ++ [w]) = K.len p pre + K.dist w (pre.getLastD p) := by
  simp only [Kind.len, pathLen_append, pathLen, add_zero]

/-- The point a fraction of a leg along is the point of the polyline at that length. -/
theorem at_move {K : Kind P} {d : Q → Q → ℝ} {π : P → Q} {ok : P → Prop} (h : Straight K d π ok) (v : ℝ) (hv : 0 < v) (e : ℝ) (p : P) (pre : List P) (w : P) (post : List P)
    (hok : ok (pre.getLastD p))
    (h1 : e ≤ K.len p (pre ++ [w]) / v) (h2 : K.len p pre / v < e) :
    At d (π p) ((pre ++ w :: post).map π) (v * e)
      (π (K.move (pre.getLastD p) w ((e - K.len p pre / v) / (K.dist w (pre.getLastD p) / v)))) ∧ K.dist w (pre.getLastD p) / v ≠ 0 := by
  rw [len_snoc, add_div] at h1
  have hpos : 0 < K.dist w (pre.getLastD p) / v := by linarith
  have hD : 0 < K.dist w (pre.getLastD p) := by
    by_contra hc
    have := div_nonpos_of_nonpos_of_nonneg (not_lt.1 hc) hv.le
    linarith
  have hf0 : 0 ≤ (e - K.len p pre / v) / (K.dist w (pre.getLastD p) / v) := div_nonneg (by linarith) hpos.le
  have hf1 : (e - K.len p pre / v) / (K.dist w (pre.getLastD p) / v) ≤ 1 := (div_le_one hpos).2 (by linarith)
  have hmul : (e - K.len p pre / v) / (K.dist w (pre.getLastD p) / v) * K.dist w (pre.getLastD p) = v * e - K.len p pre := by
    field_simp
  refine ⟨⟨pre.map π, π w, post.map π, π (pre.getLastD p), by simp, (getLastD_map π p pre).symm, ?_, ?_, ?_, ?_⟩, hpos.ne'⟩
  · rw [← h.len]
    rw [div_lt_iff₀ hv] at h2; linarith
  · rw [← h.len, ← h.dist]
    have : e * v ≤ K.len p pre + K.dist w (pre.getLastD p) := by
      rw [← add_div, le_div_iff₀ hv] at h1; exact h1
    linarith
  · rw [h.start _ _ _ hok hf0 hf1, ← h.dist, hmul, h.len]
  · rw [h.finish _ _ _ hok hf0 hf1, h.start _ _ _ hok hf0 hf1]; ring

/-! ### The Euclidean distance -/

theorem euclid_eq_dist (a b : ℝ × ℝ × ℝ) :
    euclid a b = dist (!₂[a.1, a.2.1, a.2.2] : EuclideanSpace ℝ (Fin 3)) !₂[b.1, b.2.1, b.2.2] := by
  rw [EuclideanSpace.dist_eq]
  simp [Fin.sum_univ_three, Real.dist_eq, euclid]

theorem euclid_nonneg (a b : ℝ × ℝ × ℝ) : 0 ≤ euclid a b := Real.sqrt_nonneg _

theorem euclid_comm (a b : ℝ × ℝ × ℝ) : euclid a b = euclid b a := by rw [euclid_eq_dist, euclid_eq_dist, dist_comm]

theorem euclid_triangle (a b c : ℝ × ℝ × ℝ) : euclid a c ≤ euclid a b + euclid b c := by
  rw [euclid_eq_dist, euclid_eq_dist, euclid_eq_dist]; exact dist_triangle _ _ _

theorem euclid_self (a : ℝ × ℝ × ℝ) : euclid a a = 0 := by rw [euclid_eq_dist, dist_self]

theorem euclid_eq_zero {a b : ℝ × ℝ × ℝ} (h : euclid a b = 0) : a = b := by
  unfold euclid at h
  rw [Real.sqrt_eq_zero (by positivity)] at h
  have h1 := sq_nonneg (a.1 - b.1)
  have h2 := sq_nonneg (a.2.1 - b.2.1)
  have h3 := sq_nonneg (a.2.2 - b.2.2)
  have e1 : (a.1 - b.1) ^ 2 = 0 := by linarith
  have e2 : (a.2.1 - b.2.1) ^ 2 = 0 := by linarith
  have e3 : (a.2.2 - b.2.2) ^ 2 = 0 := by linarith
  rw [sq_eq_zero_iff, sub_eq_zero] at e1 e2 e3
  exact Prod.ext e1 (Prod.ext e2 e3)

theorem sqrt_scale (f S : ℝ) (hf : 0 ≤ f) : √(f ^ 2 * S) = f * √S := by
  rw [Real.sqrt_mul (sq_nonneg f), Real.sqrt_sq hf]

/-- The place meant by a location, in distance units: the height may be given in altitude units, of which one is `k` distance
units. -/
def Loc.place (k : ℝ) : Loc → ℝ × ℝ × ℝ
  | ⟨x, y, z, false⟩ => (x, y, z)
  | ⟨x, y, z, true⟩ => (x, y, k * z)

theorem Loc.arr_eq (k : ℝ) (l : Loc) : l.arr k = l.place k := by
  obtain ⟨x, y, z, b⟩ := l
  cases b <;> simp [Loc.arr, Loc.place, mul_comm]

theorem Loc.move_place (k : ℝ) (a w : Loc) (f : ℝ) : (Loc.move k a w f).place k =
    ((a.place k).1 + f * ((w.place k).1 - (a.place k).1), (a.place k).2.1 + f * ((w.place k).2.1 - (a.place k).2.1),
      (a.place k).2.2 + f * ((w.place k).2.2 - (a.place k).2.2)) := by
  simp only [Loc.move, Loc.arr_eq]
  rfl

theorem Loc.sub_eq (k : ℝ) (w a : Loc) : Loc.sub k w a = euclid (a.place k) (w.place k) := by
  rw [euclid_comm, Loc.sub, Loc.arr_eq, Loc.arr_eq]; rfl

theorem move_start (k : ℝ) (a w : Loc) (f : ℝ) (hf : 0 ≤ f) : euclid (a.place k) ((Loc.move k a w f).place k) = f * euclid (a.place k) (w.place k) := by
  rw [euclid, euclid, ← sqrt_scale f _ hf]
  congr 1
  rw [Loc.move_place]; ring

theorem move_finish (k : ℝ) (a w : Loc) (f : ℝ) (hf : f ≤ 1) : euclid ((Loc.move k a w f).place k) (w.place k) = (1 - f) * euclid (a.place k) (w.place k) := by
  rw [euclid, euclid, ← sqrt_scale (1 - f) _ (by linarith)]
  congr 1
  rw [Loc.move_place]; ring

theorem move_beyond (k : ℝ) (a w : Loc) (f : ℝ) (hf : 1 ≤ f) : euclid ((Loc.move k a w f).place k) (w.place k) = (f - 1) * euclid (a.place k) (w.place k) := by
  rw [euclid, euclid, ← sqrt_scale (f - 1) _ (by linarith)]
  congr 1
  rw [Loc.move_place]; ring

theorem cartesian_straight (k : ℝ) : Straight (cartesian k) euclid (Loc.place k) fun _ => True :=
  ⟨fun w a => Loc.sub_eq k w a, euclid_nonneg, euclid_self, euclid_triangle, fun a w f _ h0 _ => move_start k a w f h0,
    fun a w f _ _ h1 => move_finish k a w f h1, fun a w f _ h1 => (move_beyond k a w f h1).le⟩

/-! ### Points of a polyline -/

theorem At.dist_le {d : Q → Q → ℝ} (self : ∀ a, d a a = 0) (tri : ∀ a b c, d a c ≤ d a b + d b c) {p : Q} {ws : List Q} {s : ℝ} {X : Q} (h : At d p ws s X) : d p X ≤ s := by
  obtain ⟨pre, w, post, a, -, rfl, -, -, h3, -⟩ := h
  have key : ∀ (q : List Q) (p : Q), d p (q.getLastD p) ≤ pathLen d p q := by
    intro q
    induction q with
    | nil => intro p; simp [pathLen, self]
    | cons b q ih =>
      intro p
      have := ih b
      have := tri p b (q.getLastD b)
      rw [List.getLastD_cons]
      simp only [pathLen]; linarith
  have := key pre p
  have := tri p (pre.getLastD p) X
  linarith

/-- A point of the rest of the path is a point of the path. -/
theorem At.later {d : Q → Q → ℝ} {p : Q} {pre post : List Q} {w : Q} {s : ℝ} {X : Q} (h : At d w post s X) :
    At d p (pre ++ w :: post) (pathLen d p (pre ++ [w]) + s) X := by
  obtain ⟨pre', w', post', a, rfl, rfl, h1, h2, h3, h4⟩ := h
  have hl : (pre ++ w :: pre').getLastD p = pre'.getLastD w := by simp [List.getLastD_eq_getLast?, List.getLast?_cons]
  have hlen : pathLen d p (pre ++ w :: pre') = pathLen d p (pre ++ [w]) + pathLen d w pre' := by
    simp only [pathLen_append, pathLen]; ring
  refine ⟨pre ++ w :: pre', w', post', pre'.getLastD w, by simp, hl.symm, ?_, ?_, ?_, h4⟩
  · rw [hlen]; linarith
  · rw [hlen]; linarith
  · rw [hlen, h3]; ring

/-- Every length up to the total is that of a point. -/
theorem at_exists {K : Kind P} {d : Q → Q → ℝ} {π : P → Q} {ok : P → Prop} (hS : Straight K d π ok) (p : P) (ws : List P) (hp : ok p) (hws : ∀ w ∈ ws, ok w)
    (s : ℝ) (h0 : 0 < s) (h1 : s ≤ pathLen d (π p) (ws.map π)) : ∃ X, At d (π p) (ws.map π) s X := by
  obtain ⟨pre, w, post, g1, g2, g3, -⟩ := first_leg K (fun a b => by rw [hS.dist]; exact hS.nonneg _ _) 1 one_pos s h0 p ws (by rw [hS.len]; simpa using h1)
  have := (at_move hS 1 one_pos s p pre w post (ok_last hp fun x hx => hws x (by rw [g1]; simp [hx])) g2 g3).1
  rw [← g1, one_mul] at this
  exact ⟨_, this⟩

end Verif.Path
