import Verif.Sphere.Model
import Verif.Path.Geometry
import Mathlib.Analysis.Convex.StrictConvexBetween
import Mathlib.Analysis.Convex.Uniform
import Mathlib.Analysis.InnerProductSpace.Convex

namespace Verif.Sphere

open Verif.Path

/-! ### The quadratic -/

theorem factor (a b c t : ℝ) (ha : a ≠ 0) (hd : 0 ≤ b ^ 2 - 4 * a * c) :
    a * t ^ 2 + b * t + c = a * (t - (-b + √(b ^ 2 - 4 * a * c)) / (2 * a)) * (t - (-b - √(b ^ 2 - 4 * a * c)) / (2 * a)) := by
  have hs := Real.sq_sqrt hd
  generalize √(b ^ 2 - 4 * a * c) = s at hs
  have hc : c = (b ^ 2 - s ^ 2) / (4 * a) := by rw [hs]; field_simp; ring
  rw [hc]; field_simp; ring

theorem quad_pos (a b c t : ℝ) (ha : 0 < a) (hd : b ^ 2 - 4 * a * c < 0) : 0 < a * t ^ 2 + b * t + c := by
  have h : 0 < 4 * a * (a * t ^ 2 + b * t + c) := by nlinarith [sq_nonneg (2 * a * t + b)]
  by_contra hc
  have := mul_nonpos_of_nonneg_of_nonpos (by linarith : 0 ≤ 4 * a) (not_lt.1 hc)
  linarith

theorem quad_le (a r1 r2 t : ℝ) (ha : 0 < a) (h12 : r2 ≤ r1) : a * (t - r1) * (t - r2) ≤ 0 ↔ r2 ≤ t ∧ t ≤ r1 := by
  rw [mul_assoc, mul_nonpos_iff]
  constructor
  · rintro (⟨-, h⟩ | ⟨h, -⟩)
    · rcases mul_nonpos_iff.1 h with ⟨g1, g2⟩ | ⟨g1, g2⟩
      · exact ⟨by linarith, by linarith⟩
      · exact ⟨by linarith, by linarith⟩
    · linarith
  · rintro ⟨h1, h2⟩
    exact .inl ⟨ha.le, mul_nonpos_of_nonpos_of_nonneg (by linarith) (by linarith)⟩

/-! ### The point on a segment -/

/-- The point of the segment at length `s`. -/
theorem at_segment (p f : V) (hpf : p ≠ f) (s : ℝ) (X : V) (h : At euclid p [f] s X) : X = along p (sub f p) (s / euclid p f) := by
  obtain ⟨pre, w, post, a, h0, rfl, h1, h2, h3, h4⟩ := h
  have hpre : pre = [] := by
    cases pre with
    | nil => rfl
    | cons x l => simp at h0
  subst hpre
  simp only [List.nil_append, List.cons.injEq] at h0
  obtain ⟨rfl, -⟩ := h0
  simp only [List.getLastD_nil, pathLen, sub_zero] at h1 h2 h3 h4
  have hD : 0 < euclid p f := lt_of_le_of_ne (euclid_nonneg _ _) fun hc => hpf (euclid_eq_zero hc.symm)
  have hw : euclid p X + euclid X f = euclid p f := by rw [h4]; ring
  simp only [euclid_eq_dist] at hw
  rw [dist_add_dist_eq_iff] at hw
  obtain ⟨t, ⟨ht0, ht1⟩, ht⟩ := hw
  have hX : X = along p (sub f p) t := by
    have e := fun i => congrArg (fun v : EuclideanSpace ℝ (Fin 3) => v i) ht
    have e0 := e 0
    have e1 := e 1
    have e2 := e 2
    simp [AffineMap.lineMap_apply] at e0 e1 e2
    refine Prod.ext ?_ (Prod.ext ?_ ?_) <;> simp only [along, sub] <;> linarith
  have hdist : euclid p X = t * euclid p f := by
    rw [hX, euclid, euclid, ← sqrt_scale t _ ht0]
    congr 1
    simp only [along, sub]; ring
  have : t = s / euclid p f := by
    rw [h3] at hdist
    rw [hdist]; field_simp
  rw [← this]; exact hX

theorem segment_at (p f : V) (hpf : p ≠ f) (s : ℝ) (h0 : 0 ≤ s) (h1 : s ≤ euclid p f) : At euclid p [f] s (along p (sub f p) (s / euclid p f)) := by
  have hD : 0 < euclid p f := lt_of_le_of_ne (euclid_nonneg _ _) fun hc => hpf (euclid_eq_zero hc.symm)
  have ht0 : 0 ≤ s / euclid p f := div_nonneg h0 hD.le
  have ht1 : s / euclid p f ≤ 1 := (div_le_one hD).2 h1
  have hd : euclid p (along p (sub f p) (s / euclid p f)) = s := by
    have : euclid p (along p (sub f p) (s / euclid p f)) = (s / euclid p f) * euclid p f := by
      generalize s / euclid p f = t at ht0
      rw [euclid, euclid, ← sqrt_scale t _ ht0]
      congr 1
      simp only [along, sub]; ring
    rw [this]; field_simp
  have he : euclid (along p (sub f p) (s / euclid p f)) f = euclid p f - s := by
    have : euclid (along p (sub f p) (s / euclid p f)) f = (1 - s / euclid p f) * euclid p f := by
      generalize s / euclid p f = t at ht1
      rw [euclid, euclid, ← sqrt_scale (1 - t) _ (by linarith)]
      congr 1
      simp only [along, sub]; ring
    rw [this]; field_simp
  exact ⟨[], f, [], p, rfl, rfl, h0, by simpa [pathLen] using h1, by simpa [pathLen] using hd, by rw [he, hd]⟩

/-! ### Inside the sphere -/

/-- The coefficients computed by `ray_intersection`. -/
noncomputable def qa (p f : V) (r : ℝ) : ℝ := norm (scaled (sub f p) (r, r, r)) ^ 2
noncomputable def qb (p f c : V) (r : ℝ) : ℝ := 2 * dot (sub (scaled p (r, r, r)) (scaled c (r, r, r))) (scaled (sub f p) (r, r, r))
noncomputable def qc (p c : V) (r : ℝ) : ℝ := norm (sub (scaled p (r, r, r)) (scaled c (r, r, r))) ^ 2 - 1

theorem norm_sq (a : V) : norm a ^ 2 = a.1 ^ 2 + a.2.1 ^ 2 + a.2.2 ^ 2 := Real.sq_sqrt (by positivity)

theorem euclid_sq (a b : V) : euclid a b ^ 2 = (a.1 - b.1) ^ 2 + (a.2.1 - b.2.1) ^ 2 + (a.2.2 - b.2.2) ^ 2 := Real.sq_sqrt (by positivity)

theorem quad_eq (p f c : V) (r : ℝ) (hr : 0 < r) (t : ℝ) :
    qa p f r * t ^ 2 + qb p f c r * t + qc p c r = (euclid (along p (sub f p) t) c ^ 2 - r ^ 2) / r ^ 2 := by
  rw [qa, qb, qc, norm_sq, norm_sq, euclid_sq]
  simp only [scaled, dot, along, sub]
  field_simp
  ring

theorem inside_iff (p f c : V) (r : ℝ) (hr : 0 < r) (t : ℝ) :
    euclid (along p (sub f p) t) c ≤ r ↔ qa p f r * t ^ 2 + qb p f c r * t + qc p c r ≤ 0 := by
  rw [quad_eq p f c r hr, div_nonpos_iff]
  have hpos : 0 < r ^ 2 := by positivity
  constructor
  · intro h
    refine .inr ⟨?_, hpos.le⟩
    have := pow_le_pow_left₀ (euclid_nonneg (along p (sub f p) t) c) h 2
    linarith
  · rintro (⟨-, h⟩ | ⟨h, -⟩)
    · linarith
    · by_contra hc
      have hc := not_le.1 hc
      have := pow_lt_pow_left₀ hc hr.le (by norm_num : 2 ≠ 0)
      linarith

theorem on_iff (p f c : V) (r : ℝ) (hr : 0 < r) (t : ℝ) :
    euclid (along p (sub f p) t) c = r ↔ qa p f r * t ^ 2 + qb p f c r * t + qc p c r = 0 := by
  rw [quad_eq p f c r hr, div_eq_zero_iff]
  have hpos : r ^ 2 ≠ 0 := by positivity
  constructor
  · intro h; left; rw [h, sub_self]
  · rintro (h | h)
    · have : euclid (along p (sub f p) t) c ^ 2 = r ^ 2 := by linarith
      exact (pow_left_inj₀ (euclid_nonneg _ _) hr.le (by norm_num)).1 this
    · exact absurd h hpos

theorem qa_pos (p f : V) (hpf : p ≠ f) (r : ℝ) (hr : 0 < r) : 0 < qa p f r := by
  rw [qa, norm_sq]
  have hD : 0 < euclid p f := lt_of_le_of_ne (euclid_nonneg _ _) fun hc => hpf (euclid_eq_zero hc.symm)
  have h2 : 0 < euclid p f ^ 2 := by positivity
  rw [euclid_sq] at h2
  have : (scaled (sub f p) (r, r, r)).1 ^ 2 + (scaled (sub f p) (r, r, r)).2.1 ^ 2 + (scaled (sub f p) (r, r, r)).2.2 ^ 2 =
      ((p.1 - f.1) ^ 2 + (p.2.1 - f.2.1) ^ 2 + (p.2.2 - f.2.2) ^ 2) / r ^ 2 := by
    simp only [scaled, sub]; field_simp; ring
  rw [this]; positivity

theorem along_zero (p v : V) : along p v 0 = p := by simp [along]

theorem along_one (p f : V) : along p (sub f p) 1 = f := by simp [along, sub]

theorem norm_along (p f : V) (t : ℝ) (ht : 0 ≤ t) : norm (sub (along p (sub f p) t) p) = t * euclid p f := by
  rw [norm, euclid, ← sqrt_scale t _ ht]
  congr 1
  simp only [along, sub]; ring

/-- What `ray_intersection` gives. -/
theorem ray_eq (p f c : V) (hpf : p ≠ f) (r : ℝ) (hr : 0 < r) (v : ℝ) (hv : 0 < v) (rs : List ℝ) (hrs : roots (qa p f r) (qb p f c r) (qc p c r) = some rs) :
    ray p f c (r, r, r) v = some (((rs.filter (0 ≤ ·)).insertionSort (· ≤ ·)).map (along p (sub f p)),
      ((rs.filter (0 ≤ ·)).insertionSort (· ≤ ·)).map fun t => t * (euclid p f / v)) := by
  have hr' : ¬ (r = 0 ∨ r = 0 ∨ r = 0) := by simp [hr.ne']
  unfold qa qb qc at hrs
  simp only [ray, if_neg hr', hrs]
  rw [if_neg (by rintro ⟨-, h⟩; exact hv.ne' h)]
  congr 2
  refine List.map_congr_left fun t ht => ?_
  have ht0 : 0 ≤ t := by
    have := (List.mem_insertionSort (· ≤ ·)).1 ht
    simpa using (List.mem_filter.1 this).2
  rw [norm_along p f t ht0]; ring

end Verif.Sphere
