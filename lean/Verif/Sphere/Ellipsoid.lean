import Verif.Sphere.Props

/-! # C44 for ellipsoids: `ray_intersection` with one radius per axis -/

namespace Verif.Sphere

open Verif.Path

/-- After the time `s` at speed `v` from `p` straight towards `f`, and beyond, one is at `X`. -/
def Reached (p f : V) (v s : ℝ) (X : V) : Prop :=
  (∃ l : ℝ, 0 ≤ l ∧ X = (p.1 + l * (f.1 - p.1), p.2.1 + l * (f.2.1 - p.2.1), p.2.2 + l * (f.2.2 - p.2.2))) ∧ euclid p X = v * s

/-- At most 1 in the ellipsoid, 1 on its surface. -/
noncomputable def level (c r X : V) : ℝ := ((X.1 - c.1) / r.1) ^ 2 + ((X.2.1 - c.2.1) / r.2.1) ^ 2 + ((X.2.2 - c.2.2) / r.2.2) ^ 2

section
variable (p f c r : V)

/-- The coefficients computed by `ray_intersection`. -/
noncomputable def ea : ℝ := norm (scaled (sub f p) r) ^ 2
noncomputable def eb : ℝ := 2 * dot (sub (scaled p r) (scaled c r)) (scaled (sub f p) r)
noncomputable def ec : ℝ := norm (sub (scaled p r) (scaled c r)) ^ 2 - 1

theorem level_along (t : ℝ) : level c r (along p (sub f p) t) - 1 = ea p f r * t ^ 2 + eb p f c r * t + ec p c r := by
  rw [ea, eb, ec, norm_sq, norm_sq]
  simp only [level, scaled, dot, along, sub]
  ring

theorem ea_pos (hpf : p ≠ f) (h1 : r.1 ≠ 0) (h2 : r.2.1 ≠ 0) (h3 : r.2.2 ≠ 0) : 0 < ea p f r := by
  rw [ea, norm_sq]
  simp only [scaled, sub]
  have : p.1 ≠ f.1 ∨ p.2.1 ≠ f.2.1 ∨ p.2.2 ≠ f.2.2 := by
    by_contra h
    push Not at h
    exact hpf (Prod.ext h.1 (Prod.ext h.2.1 h.2.2))
  have pos : ∀ x y q : ℝ, x ≠ y → q ≠ 0 → 0 < ((y - x) * (1 / q)) ^ 2 := by
    intro x y q hx hq
    have : (y - x) * (1 / q) ≠ 0 := mul_ne_zero (sub_ne_zero.2 (Ne.symm hx)) (one_div_ne_zero hq)
    positivity
  rcases this with h | h | h
  · have := pos _ _ _ h h1
    positivity
  · have := pos _ _ _ h h2
    positivity
  · have := pos _ _ _ h h3
    positivity

theorem reached_iff (hpf : p ≠ f) {v : ℝ} (hv : 0 < v) (s : ℝ) (X : V) :
    Reached p f v s X ↔ 0 ≤ s ∧ X = along p (sub f p) (s * (v / euclid p f)) := by
  have hD : 0 < euclid p f := lt_of_le_of_ne (euclid_nonneg _ _) fun hc => hpf (euclid_eq_zero hc.symm)
  have dist : ∀ l : ℝ, 0 ≤ l → euclid p (along p (sub f p) l) = l * euclid p f := by
    intro l hl
    rw [← norm_along p f l hl, norm, euclid]
    congr 1
    simp only [sub]
    ring
  constructor
  · rintro ⟨⟨l, hl, rfl⟩, h⟩
    have e : (p.1 + l * (f.1 - p.1), p.2.1 + l * (f.2.1 - p.2.1), p.2.2 + l * (f.2.2 - p.2.2)) = along p (sub f p) l := rfl
    rw [e, dist l hl] at h
    have hs : l = s * (v / euclid p f) := by
      field_simp
      linarith
    refine ⟨?_, by rw [e, hs]⟩
    have : 0 ≤ v * s := by rw [← h]; positivity
    by_contra hc
    have := mul_neg_of_pos_of_neg hv (not_le.1 hc)
    linarith
  · rintro ⟨hs, rfl⟩
    have hl : 0 ≤ s * (v / euclid p f) := by positivity
    refine ⟨⟨_, hl, rfl⟩, ?_⟩
    rw [dist _ hl]
    field_simp

theorem ray_ellipsoid (h1 : r.1 ≠ 0) (h2 : r.2.1 ≠ 0) (h3 : r.2.2 ≠ 0) {v : ℝ} (hv : 0 < v) (rs : List ℝ)
    (hrs : roots (ea p f r) (eb p f c r) (ec p c r) = some rs) :
    ray p f c r v = some (((rs.filter (0 ≤ ·)).insertionSort (· ≤ ·)).map (along p (sub f p)),
      ((rs.filter (0 ≤ ·)).insertionSort (· ≤ ·)).map fun t => t * (euclid p f / v)) := by
  have hr' : ¬ (r.1 = 0 ∨ r.2.1 = 0 ∨ r.2.2 = 0) := by simp [h1, h2, h3]
  unfold ea eb ec at hrs
  simp only [ray, if_neg hr', hrs]
  rw [if_neg (by rintro ⟨-, h⟩; exact hv.ne' h)]
  congr 2
  refine List.map_congr_left fun t ht => ?_
  have ht0 : 0 ≤ t := by
    have := (List.mem_insertionSort (· ≤ ·)).1 ht
    simpa using (List.mem_filter.1 this).2
  rw [norm_along p f t ht0]; ring

/-- **C44, ellipsoids.** `ray_intersection` returns without exception exactly the moments, in order, in which somebody going straight on from the
start is on the surface of the ellipsoid, with the places reached then; from inside there is one such moment, when the ellipsoid is left for
ever; from outside there are none, and one never gets inside, or two, and one is inside exactly between them. -/
theorem c44_ellipsoid (hpf : p ≠ f) (h1 : r.1 ≠ 0) (h2 : r.2.1 ≠ 0) (h3 : r.2.2 ≠ 0) {v : ℝ} (hv : 0 < v) :
    ∃ places times, ray p f c r v = some (places, times) ∧ times.Pairwise (· ≤ ·) ∧ List.Forall₂ (Reached p f v) times places ∧
      (∀ s X, Reached p f v s X → (level c r X = 1 ↔ s ∈ times)) ∧
      (level c r p < 1 → ∃ t, times = [t] ∧ ∀ s X, Reached p f v s X → (level c r X ≤ 1 ↔ s ≤ t)) ∧
      (1 < level c r p → (times = [] ∧ ∀ s X, Reached p f v s X → 1 < level c r X) ∨
        ∃ t1 t2, times = [t1, t2] ∧ ∀ s X, Reached p f v s X → (level c r X ≤ 1 ↔ t1 ≤ s ∧ s ≤ t2)) := by
  have hD : 0 < euclid p f := lt_of_le_of_ne (euclid_nonneg _ _) fun hc => hpf (euclid_eq_zero hc.symm)
  have ha := ea_pos p f r hpf h1 h2 h3
  have lev := level_along p f c r
  have lev0 : level c r p - 1 = ec p c r := by
    have := lev 0
    rw [along_zero] at this
    linarith
  set k := euclid p f / v with hk
  have hk0 : 0 < k := by positivity
  have inv : v / euclid p f = k⁻¹ := by rw [hk, inv_div]
  have reach : ∀ s X, Reached p f v s X ↔ 0 ≤ s ∧ X = along p (sub f p) (s * k⁻¹) := by
    intro s X
    rw [reached_iff p f hpf hv, inv]
  have back : ∀ t : ℝ, t * k * k⁻¹ = t := fun t => by field_simp
  by_cases hd : eb p f c r ^ 2 - 4 * ea p f r * ec p c r < 0
  · -- the line misses the ellipsoid
    have hr : roots (ea p f r) (eb p f c r) (ec p c r) = some [] := by simp only [roots, if_pos hd]
    have miss : ∀ s X, Reached p f v s X → 1 < level c r X := by
      intro s X h
      rw [((reach s X).1 h).2]
      have := quad_pos _ _ _ (s * k⁻¹) ha hd
      rw [← lev] at this
      linarith
    refine ⟨[], [], by simpa using ray_ellipsoid p f c r h1 h2 h3 hv [] hr, List.Pairwise.nil, List.Forall₂.nil, ?_, ?_, ?_⟩
    · intro s X h
      have := miss s X h
      exact ⟨fun e => by linarith, fun e => by cases e⟩
    · intro h
      have := quad_pos _ _ _ 0 ha hd
      nlinarith
    · exact fun _ => .inl ⟨rfl, miss⟩
  · have hd' := not_lt.1 hd
    have fac := fun t => factor (ea p f r) (eb p f c r) (ec p c r) t ha.ne' hd'
    have h12 : (-eb p f c r - √(eb p f c r ^ 2 - 4 * ea p f r * ec p c r)) / (2 * ea p f r) ≤
        (-eb p f c r + √(eb p f c r ^ 2 - 4 * ea p f r * ec p c r)) / (2 * ea p f r) := by
      have := Real.sqrt_nonneg (eb p f c r ^ 2 - 4 * ea p f r * ec p c r)
      gcongr
      linarith
    have hr : roots (ea p f r) (eb p f c r) (ec p c r) =
        some [(-eb p f c r + √(eb p f c r ^ 2 - 4 * ea p f r * ec p c r)) / (2 * ea p f r),
          (-eb p f c r - √(eb p f c r ^ 2 - 4 * ea p f r * ec p c r)) / (2 * ea p f r)] := by
      simp only [roots, if_neg hd]
      rw [if_neg (by positivity)]
    generalize (-eb p f c r + √(eb p f c r ^ 2 - 4 * ea p f r * ec p c r)) / (2 * ea p f r) = r1 at *
    generalize (-eb p f c r - √(eb p f c r ^ 2 - 4 * ea p f r * ec p c r)) / (2 * ea p f r) = r2 at *
    have hray := ray_ellipsoid p f c r h1 h2 h3 hv _ hr
    rw [← hk] at hray
    have lev' : ∀ t, level c r (along p (sub f p) t) - 1 = ea p f r * (t - r1) * (t - r2) := fun t => (lev t).trans (fac t)
    have c0 : ec p c r = ea p f r * (r1 * r2) := by
      have := fac 0
      linarith
    have le1 : ∀ s X, Reached p f v s X → (level c r X ≤ 1 ↔ r2 * k ≤ s ∧ s ≤ r1 * k) := by
      intro s X h
      rw [((reach s X).1 h).2, ← sub_nonpos, lev', quad_le _ _ _ _ ha h12, ← div_eq_mul_inv, le_div_iff₀ hk0, div_le_iff₀ hk0]
    have eq1 : ∀ s X, Reached p f v s X → (level c r X = 1 ↔ s = r1 * k ∨ s = r2 * k) := by
      intro s X h
      rw [((reach s X).1 h).2, ← sub_eq_zero, lev', mul_eq_zero, mul_eq_zero, sub_eq_zero, sub_eq_zero, ← div_eq_mul_inv, div_eq_iff hk0.ne',
        div_eq_iff hk0.ne']
      simp [ha.ne']
    have at' : ∀ t, 0 ≤ t → Reached p f v (t * k) (along p (sub f p) t) := fun t ht =>
      (reach _ _).2 ⟨by positivity, by rw [back]⟩
    by_cases g2 : 0 ≤ r2
    · have g1 : 0 ≤ r1 := le_trans g2 h12
      have sorted : ([r1, r2].filter (0 ≤ ·)).insertionSort (· ≤ ·) = [r2, r1] := by
        simp only [List.filter_cons, g1, g2, decide_true, if_true, List.filter_nil, List.insertionSort, List.orderedInsert, List.foldr]
        by_cases e : r1 ≤ r2
        · have : r1 = r2 := le_antisymm e h12
          subst this
          simp
        · simp [e]
      rw [sorted] at hray
      refine ⟨_, _, hray, ?_, ?_, ?_, ?_, ?_⟩
      · have : r2 * k ≤ r1 * k := by gcongr
        simpa using this
      · exact .cons (at' r2 g2) (.cons (at' r1 g1) .nil)
      · intro s X h
        rw [eq1 s X h]
        simp [or_comm]
      · intro h
        have : 0 ≤ ea p f r * (r1 * r2) := by positivity
        linarith
      · intro _
        exact .inr ⟨r2 * k, r1 * k, rfl, le1⟩
    · have g2' := not_le.1 g2
      by_cases g1 : 0 ≤ r1
      · have sorted : ([r1, r2].filter (0 ≤ ·)).insertionSort (· ≤ ·) = [r1] := by
          simp [List.filter_cons, g1, g2]
        rw [sorted] at hray
        refine ⟨_, _, hray, ?_, ?_, ?_, ?_, ?_⟩
        · simp
        · exact .cons (at' r1 g1) .nil
        · intro s X h
          rw [eq1 s X h]
          have hs := ((reach s X).1 h).1
          have : r2 * k < 0 := mul_neg_of_neg_of_pos g2' hk0
          have : s ≠ r2 * k := by intro e; linarith
          simp [this]
        · intro _
          refine ⟨r1 * k, rfl, fun s X h => ?_⟩
          rw [le1 s X h]
          have hs := ((reach s X).1 h).1
          have : r2 * k < 0 := mul_neg_of_neg_of_pos g2' hk0
          exact ⟨fun h => h.2, fun h => ⟨by linarith, h⟩⟩
        · intro h
          have : ea p f r * (r1 * r2) ≤ 0 := mul_nonpos_of_nonneg_of_nonpos ha.le (mul_nonpos_of_nonneg_of_nonpos g1 g2'.le)
          linarith
      · have g1' := not_le.1 g1
        have sorted : ([r1, r2].filter (0 ≤ ·)).insertionSort (· ≤ ·) = [] := by
          simp [List.filter_cons, g1, g2]
        rw [sorted] at hray
        have n1 : r1 * k < 0 := mul_neg_of_neg_of_pos g1' hk0
        have n2 : r2 * k < 0 := mul_neg_of_neg_of_pos g2' hk0
        refine ⟨_, _, hray, ?_, ?_, ?_, ?_, ?_⟩
        · simp
        · exact .nil
        · intro s X h
          rw [eq1 s X h]
          have hs := ((reach s X).1 h).1
          constructor
          · rintro (e | e) <;> linarith
          · intro e
            cases e
        · intro h
          have : 0 < ea p f r * (r1 * r2) := mul_pos ha (mul_pos_of_neg_of_neg g1' g2')
          linarith
        · intro _
          refine .inl ⟨rfl, fun s X h => ?_⟩
          have hs := ((reach s X).1 h).1
          by_contra hc
          have := ((le1 s X h).1 (not_lt.1 hc)).2
          linarith

end

/-- An ellipsoid of radii 1, 2 and 3, passed at speed 2 from 4 to the left: inside from 3/2 to 5/2. -/
example : level (0, 0, 0) (1, 2, 3) (-4, 0, 0) > 1 ∧ Reached (-4, 0, 0) (4, 0, 0) 2 2 (0, 0, 0) ∧ level (0, 0, 0) (1, 2, 3) (0, 0, 0) ≤ 1 := by
  refine ⟨by norm_num [level], ⟨⟨1 / 2, by norm_num, by norm_num⟩, ?_⟩, by norm_num [level]⟩
  rw [euclid, show (2 : ℝ) * 2 = √(4 ^ 2) from by rw [Real.sqrt_sq (by norm_num)]; norm_num]
  norm_num

/-- So there are two times. -/
example : ∃ places t1 t2, ray (-4, 0, 0) (4, 0, 0) (0, 0, 0) (1, 2, 3) 2 = some (places, [t1, t2]) ∧ t1 ≤ 2 ∧ 2 ≤ t2 := by
  obtain ⟨places, times, h, _, _, _, _, out⟩ := c44_ellipsoid (-4, 0, 0) (4, 0, 0) (0, 0, 0) (1, 2, 3) (by simp; norm_num) (by norm_num) (by norm_num)
    (by norm_num) (v := 2) (by norm_num)
  have here : Reached (-4, 0, 0) (4, 0, 0) 2 2 (0, 0, 0) := by
    refine ⟨⟨1 / 2, by norm_num, by norm_num⟩, ?_⟩
    rw [euclid, show (2 : ℝ) * 2 = √(4 ^ 2) from by rw [Real.sqrt_sq (by norm_num)]; norm_num]
    norm_num
  rcases out (by norm_num [level]) with ⟨_, no⟩ | ⟨t1, t2, rfl, yes⟩
  · have := no 2 _ here
    norm_num [level] at this
  · exact ⟨places, t1, t2, h, (yes 2 _ here).1 (by norm_num [level])⟩

end Verif.Sphere
