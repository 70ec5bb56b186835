import Verif.Geod.InvProps
import Mathlib.Analysis.SpecialFunctions.Trigonometric.Bounds

/-! # The lines found by the inverse problem do not go the long way round -/

namespace Verif.Geod

open Verif.Globe (E3 LL radians)
open Verif.Wgs (a b f e2 a_pos b_pos f_pos)
open Real

variable {cu su ca sa : ℝ}

theorem Ang.cu_le (A : Ang cu su ca sa) : |cu| ≤ 1 := abs_le_of_sq_le_sq (by have := A.u; nlinarith [sq_nonneg su]) zero_le_one
theorem Ang.sa_le (A : Ang cu su ca sa) : |sa| ≤ 1 := abs_le_of_sq_le_sq (by have := A.az; nlinarith [sq_nonneg ca]) zero_le_one

theorem Ang.delta_le (A : Ang cu su ca sa) {T : ℝ} (hT : 0 ≤ T) : |delta cu su ca sa T| ≤ e2 * T := by
  have he := Verif.Wgs.e2_pos
  have h : ∀ t ∈ Set.uIoc (0 : ℝ) T, ‖turn cu su ca sa t‖ ≤ e2 := fun t _ => by
    have hw := A.w_pos t
    unfold turn
    rw [Real.norm_eq_abs, abs_div, abs_of_pos (by positivity : 0 < 1 + w cu su ca t), div_le_iff₀ (by positivity), abs_mul, abs_mul, abs_of_pos he]
    have h1 := mul_le_mul A.cu_le A.sa_le (abs_nonneg _) zero_le_one
    have h2 := mul_le_mul_of_nonneg_left h1 he.le
    nlinarith
  have := intervalIntegral.norm_integral_le_of_norm_le_const h
  rw [sub_zero, abs_of_nonneg hT] at this
  exact this

theorem short_num {c e T x y : ℝ} (h0 : 0 ≤ e) (he : e ≤ 0.0067) (hc : c ≤ 1 - 2 / π ^ 2 * T ^ 2) (hπ : (0.4 : ℝ) ≤ 4 / π ^ 2) (hx : x ≤ (e * T) ^ 2 / 2)
    (hy : y ≤ T * (e * T)) : (0.61 * T) ^ 2 ≤ 2 - 2 * (c + x + y) := by
  have s1 : 2 / π ^ 2 * T ^ 2 = (4 / π ^ 2) * T ^ 2 / 2 := by ring
  have s2 := mul_le_mul_of_nonneg_right hπ (sq_nonneg T)
  have s3 := mul_le_mul_of_nonneg_right he (sq_nonneg T)
  have s5 : e ^ 2 ≤ 0.0067 := by nlinarith
  have s4 := mul_le_mul_of_nonneg_right s5 (sq_nonneg T)
  have e1 : T * (e * T) = e * T ^ 2 := by ring
  have e2 : (e * T) ^ 2 = e ^ 2 * T ^ 2 := by ring
  have e3 : (0.61 * T) ^ 2 = 0.3721 * T ^ 2 := by ring
  have := sq_nonneg T
  rw [s1] at hc
  rw [e1] at hy
  rw [e2] at hx
  rw [e3]
  linarith

/-- The chord of a line is at least as long as `0.61` polar radii for each radian of the auxiliary sphere. -/
theorem Ang.chord_ge (A : Ang cu su ca sa) (l : ℝ) {T : ℝ} (h0 : 0 ≤ T) (h1 : T ≤ π) :
    b * (0.61 * T) ≤ dist (gam cu su ca sa l T) (gam cu su ca sa l 0) := by
  have hb := b_pos
  have hba : b ≤ a := by unfold b; have := f_pos; have := a_pos; nlinarith
  have he := Verif.Wgs.e2_pos
  have he' : e2 ≤ 0.0067 := by unfold e2 f; norm_num
  set δ := delta cu su ca sa T with hδ
  have hδ1 := A.delta_le h0
  rw [← hδ] at hδ1
  have z1 : g1 cu su ca 0 = cu := by unfold g1; simp
  have z2 : g2 sa 0 = 0 := by unfold g2; simp
  have z3 : g3 cu su ca 0 = su := by unfold g3; simp
  have z4 : delta cu su ca sa 0 = 0 := by unfold delta; simp
  have hc := cos_le_one_sub_mul_cos_sq (x := T) (by rw [abs_of_nonneg h0]; exact h1)
  have hπ : (0.4 : ℝ) ≤ 4 / π ^ 2 := by
    rw [le_div_iff₀ (by positivity)]
    have := pi_lt_d2
    have := pi_pos
    nlinarith
  set G1 := g1 cu su ca T with hG1
  set G2 := g2 sa T with hG2
  set G3 := g3 cu su ca T with hG3
  have hdot : su * G3 + cu * G1 = cos T := by
    rw [hG3, hG1]; unfold g3 g1
    linear_combination (cos T) * A.u
  have hone := A.one T
  rw [← hG1, ← hG2, ← hG3] at hone
  have hG1' : |cu * G1| ≤ 1 := by
    rw [abs_mul]
    have : |G1| ≤ 1 := abs_le_of_sq_le_sq (by nlinarith [sq_nonneg G2, sq_nonneg G3]) zero_le_one
    exact mul_le_one₀ A.cu_le (abs_nonneg _) this
  have hG2' : |cu * G2| ≤ T := by
    rw [hG2]; unfold g2
    rw [abs_mul, abs_mul]
    have h2 := abs_sin_le_abs (x := T)
    rw [abs_of_nonneg h0] at h2
    have h3 := mul_le_mul A.sa_le h2 (abs_nonneg _) zero_le_one
    have h4 := mul_le_mul A.cu_le h3 (by positivity) zero_le_one
    linarith
  have hcosδ : |cos δ - 1| ≤ (e2 * T) ^ 2 / 2 := by
    have h5 := one_sub_sq_div_two_le_cos (x := δ)
    have h6 := cos_le_one δ
    have h7 : δ ^ 2 ≤ (e2 * T) ^ 2 := by rw [← sq_abs]; exact pow_le_pow_left₀ (abs_nonneg _) hδ1 2
    rw [abs_le]; constructor <;> nlinarith
  have hsinδ : |sin δ| ≤ e2 * T := abs_sin_le_abs.trans hδ1
  have q1 : cu * G1 * (cos δ - 1) ≤ (e2 * T) ^ 2 / 2 := by
    have := mul_le_mul hG1' hcosδ (abs_nonneg _) zero_le_one
    rw [← abs_mul] at this
    have := le_abs_self (cu * G1 * (cos δ - 1))
    linarith
  have q2 : cu * G2 * sin δ ≤ T * (e2 * T) := by
    have := mul_le_mul hG2' hsinδ (abs_nonneg _) h0
    rw [← abs_mul] at this
    exact (le_abs_self _).trans this
  have key : (b * (0.61 * T)) ^ 2 ≤ dist (gam cu su ca sa l T) (gam cu su ca sa l 0) ^ 2 := by
    rw [EuclideanSpace.dist_eq, sq_sqrt (by positivity), Fin.sum_univ_three]
    unfold gam
    simp only [z1, z2, z3, z4, ← hδ, ← hG1, ← hG2, ← hG3, Real.dist_eq, sq_abs]
    simp only [sub_zero, zero_mul, add_zero, Matrix.cons_val_zero, Matrix.cons_val_one, Matrix.cons_val]
    have e1 : (a * (G1 * cos (l - δ) - G2 * sin (l - δ)) - a * (cu * cos l)) ^ 2 + (a * (G1 * sin (l - δ) + G2 * cos (l - δ)) - a * (cu * sin l)) ^ 2 + (b * G3 - b * su) ^ 2
        = (a ^ 2 - b ^ 2) * ((G1 * cos (l - δ) - G2 * sin (l - δ) - cu * cos l) ^ 2 + (G1 * sin (l - δ) + G2 * cos (l - δ) - cu * sin l) ^ 2)
          + b ^ 2 * ((G1 * cos (l - δ) - G2 * sin (l - δ) - cu * cos l) ^ 2 + (G1 * sin (l - δ) + G2 * cos (l - δ) - cu * sin l) ^ 2 + (G3 - su) ^ 2) := by ring
    have e2' : (G1 * cos (l - δ) - G2 * sin (l - δ) - cu * cos l) ^ 2 + (G1 * sin (l - δ) + G2 * cos (l - δ) - cu * sin l) ^ 2 + (G3 - su) ^ 2
        = 2 - 2 * (cos T + cu * G1 * (cos δ - 1) + cu * G2 * sin δ) := by
      have t1 : cos (l - δ) ^ 2 + sin (l - δ) ^ 2 = 1 := by rw [add_comm]; exact sin_sq_add_cos_sq _
      have t2 : cos (l - δ) * cos l + sin (l - δ) * sin l = cos δ := by rw [← cos_sub]; rw [show l - δ - l = -δ by ring, cos_neg]
      have t3 : cos (l - δ) * sin l - sin (l - δ) * cos l = sin δ := by
        have := sin_sub l (l - δ)
        rw [show l - (l - δ) = δ by ring] at this
        linarith
      have t4 := sin_sq_add_cos_sq l
      have t5 := A.u
      linear_combination (G1 ^ 2 + G2 ^ 2) * t1 + cu ^ 2 * t4 + hone + t5 - 2 * cu * G1 * t2 - 2 * cu * G2 * t3 - 2 * hdot
    rw [e1, e2']
    have p1 : 0 ≤ (a ^ 2 - b ^ 2) * ((G1 * cos (l - δ) - G2 * sin (l - δ) - cu * cos l) ^ 2 + (G1 * sin (l - δ) + G2 * cos (l - δ) - cu * sin l) ^ 2) := by
      have : b ^ 2 ≤ a ^ 2 := by gcongr
      have : 0 ≤ a ^ 2 - b ^ 2 := by linarith
      positivity
    have p2 := short_num he.le he' hc hπ q1 q2
    have p3 := mul_le_mul_of_nonneg_left p2 (sq_nonneg b)
    rw [mul_pow]
    linarith
  exact abs_le_of_sq_le_sq key dist_nonneg |> (le_abs_self _).trans

end Verif.Geod
