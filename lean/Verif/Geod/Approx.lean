import Verif.Geod.Curve
import Verif.Geod.Series
import Mathlib.Analysis.Calculus.MeanValue

/-!
# The series against the geodesics
-/

namespace Verif.Geod

open Real
open Verif.Wgs

variable {cu su ca sa x1 : ℝ}

/-- `x1` is the angle from the point where the great circle crosses the equator. -/
structure Node (cu su ca sa x1 : ℝ) : Prop where
  s : su = √(1 - (cu * sa) ^ 2) * sin x1
  c : cu * ca = √(1 - (cu * sa) ^ 2) * cos x1

theorem Ang.q_bd (A : Ang cu su ca sa) : 0 ≤ 1 - (cu * sa) ^ 2 ∧ 1 - (cu * sa) ^ 2 ≤ 1 := by
  have h1 := A.u
  have h2 := A.az
  have h3 : su ^ 2 + (cu * ca) ^ 2 = 1 - (cu * sa) ^ 2 := by linear_combination h1 + cu ^ 2 * h2
  exact ⟨by rw [← h3]; positivity, by nlinarith [sq_nonneg (cu * sa)]⟩

theorem Ang.sin_bd (A : Ang cu su ca sa) : |cu * sa| ≤ 1 := by
  have := A.q_bd.1
  rw [abs_le_one_iff_mul_self_le_one]; nlinarith

theorem Node.g3 (N : Node cu su ca sa x1) (t : ℝ) : g3 cu su ca t = √(1 - (cu * sa) ^ 2) * sin (x1 + t) := by
  unfold Geod.g3
  rw [N.c, sin_add]
  nth_rw 1 [N.s]
  ring

theorem sin_half (x1 t : ℝ) : sin (x1 + t) ^ 2 = (1 - cos (2 * x1 + 2 * t)) / 2 := by
  rw [show 2 * x1 + 2 * t = 2 * (x1 + t) by ring, cos_two_mul]
  have := sin_sq_add_cos_sq (x1 + t)
  linarith

theorem Node.g3_sq (N : Node cu su ca sa x1) (A : Ang cu su ca sa) (t : ℝ) :
    Geod.g3 cu su ca t ^ 2 = (1 - (cu * sa) ^ 2) * ((1 - cos (2 * x1 + 2 * t)) / 2) := by
  rw [N.g3, mul_pow, sq_sqrt A.q_bd.1, sin_half]

theorem uSq_bd {q : ℝ} (h0 : 0 ≤ q) (h1 : q ≤ 1) : 0 ≤ uSq q ∧ uSq q ≤ 674 / 100000 := by
  have hb := b_pos
  have hE : a ^ 2 - b ^ 2 = a ^ 2 * e2 := by rw [b_sq]; ring
  have ha := a_pos
  have he := e2_pos
  unfold uSq
  rw [hE]
  refine ⟨by positivity, ?_⟩
  rw [div_le_iff₀ (by positivity), b_sq]
  have he' : e2 ≤ 674 / 100000 * (1 - e2) := by unfold e2 f; norm_num
  have : q * (a ^ 2 * e2) ≤ 1 * (a ^ 2 * e2) := mul_le_mul_of_nonneg_right h1 (by positivity)
  nlinarith [mul_le_mul_of_nonneg_left he' (sq_nonneg a)]

theorem speed_eq (N : Node cu su ca sa x1) (A : Ang cu su ca sa) (t : ℝ) :
    a * w cu su ca t = b * √(1 + uSq (1 - (cu * sa) ^ 2) * ((1 - cos (2 * x1 + 2 * t)) / 2)) := by
  have hb := b_pos
  have ha := a_pos
  have hE : a ^ 2 - b ^ 2 = a ^ 2 * e2 := by rw [b_sq]; ring
  have hg := N.g3_sq A t
  have hw := A.w_sq t
  have hw0 := A.w_pos t
  set c := cos (2 * x1 + 2 * t)
  set q := 1 - (cu * sa) ^ 2
  have hc : c ≤ 1 := cos_le_one _
  have hy := uSq_bd A.q_bd.1 A.q_bd.2
  have hz : 0 ≤ 1 + uSq q * ((1 - c) / 2) := by
    have : 0 ≤ uSq q * ((1 - c) / 2) := mul_nonneg hy.1 (by linarith)
    linarith
  have key : (a * w cu su ca t) ^ 2 = (b * √(1 + uSq q * ((1 - c) / 2))) ^ 2 := by
    rw [mul_pow, mul_pow, hw, sq_sqrt hz, hg]
    have hu : b ^ 2 * uSq q = q * (a ^ 2 * e2) := by
      unfold uSq; rw [hE]; exact mul_div_cancel₀ _ (by positivity)
    rw [mul_add, ← mul_assoc, hu, mul_one, b_sq]
    ring
  exact (pow_left_inj₀ (by positivity) (by positivity) two_ne_zero).mp key

theorem deltaSigma_eq (B x1 t : ℝ) : deltaSigma B (sin t) (cos t) (cos (2 * x1 + t)) =
    B / 2 * (sin (2 * x1 + 2 * t) - sin (2 * x1)) + B ^ 2 / 16 * (sin (2 * (2 * x1 + 2 * t)) - sin (2 * (2 * x1)))
      + B ^ 3 / 48 * (sin (3 * (2 * x1 + 2 * t)) - sin (3 * (2 * x1))) := by
  obtain ⟨m, hm⟩ : ∃ m, m = 2 * x1 + t := ⟨_, rfl⟩
  have e1 : 2 * x1 + 2 * t = m + t := by rw [hm]; ring
  have e2 : 2 * x1 = m - t := by rw [hm]; ring
  rw [e1, ← hm, e2]
  unfold deltaSigma
  have i1 : sin (m + t) - sin (m - t) = 2 * cos m * sin t := by rw [sin_add, sin_sub]; ring
  have i2 : sin (2 * (m + t)) - sin (2 * (m - t)) = 2 * (2 * cos m ^ 2 - 1) * (2 * sin t * cos t) := by
    rw [show 2 * (m + t) = 2 * m + 2 * t by ring, show 2 * (m - t) = 2 * m - 2 * t by ring, sin_add, sin_sub, ← cos_two_mul, ← sin_two_mul]; ring
  have i3 : sin (3 * (m + t)) - sin (3 * (m - t)) = 2 * (4 * cos m ^ 3 - 3 * cos m) * (3 * sin t - 4 * sin t ^ 3) := by
    rw [show 3 * (m + t) = 3 * m + 3 * t by ring, show 3 * (m - t) = 3 * m - 3 * t by ring, sin_add, sin_sub, ← cos_three_mul, ← sin_three_mul]; ring
  rw [i1, i2, i3]
  ring

theorem hasDeriv_sinX (k x1 t : ℝ) : HasDerivAt (fun t => sin (k * (2 * x1 + 2 * t)) - sin (k * (2 * x1))) (2 * k * cos (k * (2 * x1 + 2 * t))) t := by
  have h : HasDerivAt (fun t => k * (2 * x1 + 2 * t)) (k * 2) t := by
    have := (((hasDerivAt_id t).const_mul 2).const_add (2 * x1)).const_mul k
    refine this.congr_deriv ?_
    simp
  exact ((h.sin).sub_const _).congr_deriv (by ring)

theorem mean_value {F F' : ℝ → ℝ} {C T : ℝ} (h : ∀ t, HasDerivAt F (F' t) t) (hb : ∀ t, |F' t| ≤ C) (h0 : F 0 = 0) : |F T| ≤ C * |T| := by
  have := Convex.norm_image_sub_le_of_norm_hasDerivWithin_le (f := F) (f' := F') (C := C) (s := Set.univ) (x := 0) (y := T)
    (fun x _ => (h x).hasDerivWithinAt) (fun x _ => hb x) convex_univ trivial trivial
  simpa [h0] using this

/-- The length of the geodesic. -/
theorem len_bd (N : Node cu su ca sa x1) (A : Ang cu su ca sa) (T : ℝ) :
    |b * bigA (uSq (1 - (cu * sa) ^ 2)) * (T - deltaSigma (bigB (uSq (1 - (cu * sa) ^ 2))) (sin T) (cos T) (cos (2 * x1 + T))) -
      length (fun t => a * w cu su ca t) T| ≤ b * 5e-12 * |T| := by
  have hy := uSq_bd A.q_bd.1 A.q_bd.2
  have hs := speed_eq N A
  set y := uSq (1 - (cu * sa) ^ 2)
  have hcont : Continuous (fun t => a * w cu su ca t) := continuous_const.mul A.cont_w
  refine mean_value (F := fun T => b * bigA y * (T - deltaSigma (bigB y) (sin T) (cos T) (cos (2 * x1 + T))) - length (fun t => a * w cu su ca t) T)
    (F' := fun t => b * bigA y * (1 - (bigB y * cos (2 * x1 + 2 * t) + bigB y ^ 2 / 4 * cos (2 * (2 * x1 + 2 * t)) + bigB y ^ 3 / 8 * cos (3 * (2 * x1 + 2 * t)))) - a * w cu su ca t)
    ?_ ?_ ?_
  · intro t
    have hl : HasDerivAt (length (fun t => a * w cu su ca t)) (a * w cu su ca t) t :=
      intervalIntegral.integral_hasDerivAt_right (hcont.intervalIntegrable 0 t) (hcont.stronglyMeasurableAtFilter _ _) hcont.continuousAt
    have hd : HasDerivAt (fun T => deltaSigma (bigB y) (sin T) (cos T) (cos (2 * x1 + T)))
        (bigB y * cos (2 * x1 + 2 * t) + bigB y ^ 2 / 4 * cos (2 * (2 * x1 + 2 * t)) + bigB y ^ 3 / 8 * cos (3 * (2 * x1 + 2 * t))) t := by
      have h1 := hasDeriv_sinX 1 x1 t
      simp only [one_mul] at h1
      have := ((h1.const_mul (bigB y / 2)).add ((hasDeriv_sinX 2 x1 t).const_mul (bigB y ^ 2 / 16))).add ((hasDeriv_sinX 3 x1 t).const_mul (bigB y ^ 3 / 48))
      refine (this.congr_deriv (by ring)).congr_of_eventuallyEq (Filter.Eventually.of_forall fun T => ?_)
      exact deltaSigma_eq _ _ _
    exact (((hasDerivAt_id t).sub hd).const_mul (b * bigA y)).sub hl
  · intro t
    have hb := b_pos
    have := speed_bd hy.1 hy.2 (abs_cos_le_one (2 * x1 + 2 * t))
    rw [hs t, cos_two_mul (2 * x1 + 2 * t), cos_three_mul]
    set c := cos (2 * x1 + 2 * t)
    rw [show b * bigA y * (1 - (bigB y * c + bigB y ^ 2 / 4 * (2 * c ^ 2 - 1) + bigB y ^ 3 / 8 * (4 * c ^ 3 - 3 * c))) - b * √(1 + y * ((1 - c) / 2)) =
      b * (bigA y * (1 - bigB y * c - bigB y ^ 2 / 4 * (2 * c ^ 2 - 1) - bigB y ^ 3 / 8 * (4 * c ^ 3 - 3 * c)) - √(1 + y * ((1 - c) / 2))) by ring,
      abs_mul, abs_of_pos hb]
    exact mul_le_mul_of_nonneg_left this hb.le
  · simp [deltaSigma, length]

/-- The correction of the longitude as it should be. -/
noncomputable def corr (q x1 T : ℝ) : ℝ :=
  (1 - bigC q) * f * (T + bigC q * sin T * (cos (2 * x1 + T) + bigC q * cos T * (-1 + 2 * cos (2 * x1 + T) ^ 2)))

theorem corr_eq (q x1 T : ℝ) : corr q x1 T = (1 - bigC q) * f * (T + bigC q / 2 * (sin (2 * x1 + 2 * T) - sin (2 * x1))
    + bigC q ^ 2 / 4 * (sin (2 * (2 * x1 + 2 * T)) - sin (2 * (2 * x1)))) := by
  obtain ⟨m, hm⟩ : ∃ m, m = 2 * x1 + T := ⟨_, rfl⟩
  have e1 : 2 * x1 + 2 * T = m + T := by rw [hm]; ring
  have e2 : 2 * x1 = m - T := by rw [hm]; ring
  unfold corr
  rw [e1, ← hm, e2]
  have i1 : sin (m + T) - sin (m - T) = 2 * cos m * sin T := by rw [sin_add, sin_sub]; ring
  have i2 : sin (2 * (m + T)) - sin (2 * (m - T)) = 2 * (2 * cos m ^ 2 - 1) * (2 * sin T * cos T) := by
    rw [show 2 * (m + T) = 2 * m + 2 * T by ring, show 2 * (m - T) = 2 * m - 2 * T by ring, sin_add, sin_sub, ← cos_two_mul, ← sin_two_mul]; ring
  rw [i1, i2]
  ring

/-- The turning of the geodesic. -/
theorem delta_bd (N : Node cu su ca sa x1) (A : Ang cu su ca sa) (T : ℝ) :
    |cu * sa * corr (1 - (cu * sa) ^ 2) x1 T - delta cu su ca sa T| ≤ 4e-11 * |T| := by
  obtain ⟨hq0, hq1⟩ := A.q_bd
  have hg := N.g3_sq A
  have hS := A.sin_bd
  set q := 1 - (cu * sa) ^ 2
  refine mean_value (F := fun T => cu * sa * corr q x1 T - delta cu su ca sa T)
    (F' := fun t => cu * sa * ((1 - bigC q) * f * (1 + bigC q * cos (2 * x1 + 2 * t) + bigC q ^ 2 * cos (2 * (2 * x1 + 2 * t)))) - turn cu su ca sa t) ?_ ?_ ?_
  · intro t
    have hd : HasDerivAt (corr q x1) ((1 - bigC q) * f * (1 + bigC q * cos (2 * x1 + 2 * t) + bigC q ^ 2 * cos (2 * (2 * x1 + 2 * t)))) t := by
      have h1 := hasDeriv_sinX 1 x1 t
      simp only [one_mul] at h1
      have := ((((hasDerivAt_id t).add (h1.const_mul (bigC q / 2))).add ((hasDeriv_sinX 2 x1 t).const_mul (bigC q ^ 2 / 4))).const_mul ((1 - bigC q) * f))
      refine (this.congr_deriv (by ring)).congr_of_eventuallyEq (Filter.Eventually.of_forall fun T => ?_)
      exact corr_eq _ _ _
    exact (hd.const_mul (cu * sa)).sub (A.hasDeriv_delta t)
  · intro t
    have hc := cos_le_one (2 * x1 + 2 * t)
    have hc' := neg_one_le_cos (2 * x1 + 2 * t)
    have hgt := hg t
    rw [cos_two_mul (2 * x1 + 2 * t)]
    unfold turn w
    rw [hgt]
    set c := cos (2 * x1 + 2 * t)
    have := turn_bd hq0 hq1 (s := (1 - c) / 2) (by linarith) (by linarith)
    rw [show 1 - 2 * ((1 - c) / 2) = c by ring] at this
    rw [mul_div_right_comm, show e2 / (1 + √(1 - e2 * (1 - q * ((1 - c) / 2)))) * (cu * sa) = cu * sa * (e2 / (1 + √(1 - e2 * (1 - q * ((1 - c) / 2))))) by ring,
      ← mul_sub, abs_mul]
    calc _ ≤ 1 * 4e-11 := mul_le_mul hS this (abs_nonneg _) (by norm_num)
      _ = _ := one_mul _
  · simp [corr, delta]

end Verif.Geod
