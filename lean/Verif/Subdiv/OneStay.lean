import Verif.Subdiv.Missed
import Mathlib.Analysis.Calculus.LocalExtr.Basic

/-! # C72: on a level leg a mover is in range for one stretch around the place nearest to the sensor -/

namespace Verif.Subdiv

open Verif.Path Verif.Globe Real

/-- **C72, one stretch.** On the great circle of a leg, at an altitude `h`, let `ψ₀` be a place nearest to the sensor, in its range. Within half a turn from there a mover is in range
exactly up to some angle `w` before and after it. -/
theorem c72_one_stretch {ka r h : ℝ} {p f c : Geo} (hs : sin (angleOf p f) ≠ 0) (hh : 0 < R + h) (hc : 0 < R + c.alt * ka) (ψ₀ : ℝ)
    (hnear : ∀ ψ, dist (travel p f ψ₀) (spot c) ≤ dist (travel p f ψ) (spot c)) (hin : InRange r (inSpace ka c) (travel p f ψ₀) h) :
    ∃ w, 0 ≤ w ∧ w ≤ π ∧ ∀ ψ, |ψ - ψ₀| ≤ π → (InRange r (inSpace ka c) (travel p f ψ) h ↔ ψ₀ - w ≤ ψ ∧ ψ ≤ ψ₀ + w) := by
  have hr : 0 ≤ r := dist_nonneg.trans hin
  set x := spot p
  set u := dir p f
  have hx : inner ℝ x x = 1 := spot_norm p
  have hu : inner ℝ u u = 1 := dir_norm p f
  have hxu : inner ℝ x u = 0 := spot_dir p f
  set P := inner ℝ x (spot c)
  set Q := inner ℝ u (spot c)
  have hinner : ∀ ψ, inner ℝ (travel p f ψ) (spot c) = P * cos ψ + Q * sin ψ := by
    intro ψ
    rw [travel_arc hs]
    simp only [arc, inner_add_left, inner_smul_left]
    simp [P, Q, x, u, mul_comm]
  have hn : ∀ ψ, ‖travel p f ψ‖ = 1 := fun ψ => by rw [travel_arc hs]; exact arc_norm hx hu hxu ψ
  have hcn : ‖spot c‖ = 1 := place_norm _
  have hd : ∀ ψ, dist (travel p f ψ) (spot c) ^ 2 = 2 - 2 * (P * cos ψ + Q * sin ψ) := by
    intro ψ
    rw [dist_eq_norm, norm_sub_sq_real, hn, hcn, hinner]; ring
  have hD : ∀ ψ, dist ((R + h) • travel p f ψ) (inSpace ka c) ^ 2 = (R + h) ^ 2 + (R + c.alt * ka) ^ 2 - 2 * ((R + h) * (R + c.alt * ka)) * (P * cos ψ + Q * sin ψ) := by
    intro ψ
    unfold inSpace
    rw [dist_eq_norm, norm_sub_sq_real, norm_smul, norm_smul, hn, hcn, inner_smul_left, inner_smul_right, hinner, norm_of_nonneg hh.le, norm_of_nonneg hc.le]
    simp only [conj_trivial]
    ring
  -- nearest: the inner product is largest
  have hmax : ∀ ψ, P * cos ψ + Q * sin ψ ≤ P * cos ψ₀ + Q * sin ψ₀ := by
    intro ψ
    have := pow_le_pow_left₀ dist_nonneg (hnear ψ) 2
    rw [hd, hd] at this
    linarith
  have hder : -P * sin ψ₀ + Q * cos ψ₀ = 0 := by
    have h1 : HasDerivAt (fun ψ => P * cos ψ + Q * sin ψ) (P * -sin ψ₀ + Q * cos ψ₀) ψ₀ := ((hasDerivAt_cos ψ₀).const_mul P).add ((hasDerivAt_sin ψ₀).const_mul Q)
    have h2 : IsLocalMax (fun ψ => P * cos ψ + Q * sin ψ) ψ₀ := Filter.Eventually.of_forall hmax
    have := h2.hasDerivAt_eq_zero h1
    linarith
  set ρ := P * cos ψ₀ + Q * sin ψ₀ with hρ
  have hcos : ∀ ψ, P * cos ψ + Q * sin ψ = ρ * cos (ψ - ψ₀) := by
    intro ψ
    have e1 : cos ψ = cos (ψ - ψ₀) * cos ψ₀ - sin (ψ - ψ₀) * sin ψ₀ := by rw [← cos_add]; congr 1; ring
    have e2 : sin ψ = sin (ψ - ψ₀) * cos ψ₀ + cos (ψ - ψ₀) * sin ψ₀ := by rw [← sin_add]; congr 1; ring
    rw [e1, e2, hρ]
    linear_combination sin (ψ - ψ₀) * hder
  have hρ0 : 0 ≤ ρ := by
    have := hmax (ψ₀ + π)
    rw [cos_add_pi, sin_add_pi] at this
    linarith
  set K := ((R + h) ^ 2 + (R + c.alt * ka) ^ 2 - r ^ 2) / (2 * ((R + h) * (R + c.alt * ka))) with hK
  have hab : 0 < 2 * ((R + h) * (R + c.alt * ka)) := by positivity
  have hiff : ∀ ψ, InRange r (inSpace ka c) (travel p f ψ) h ↔ K ≤ ρ * cos (ψ - ψ₀) := by
    intro ψ
    unfold InRange
    rw [← sq_le_sq₀ dist_nonneg hr, hD, hcos, hK, div_le_iff₀ hab]
    constructor <;> intro hq <;> linarith
  have hK1 : K ≤ ρ := by
    have := (hiff ψ₀).1 hin
    rwa [sub_self, cos_zero, mul_one] at this
  by_cases hall : K ≤ -ρ
  · refine ⟨π, pi_pos.le, le_rfl, fun ψ hψ => ?_⟩
    have hb := abs_le.1 hψ
    rw [hiff]
    refine ⟨fun _ => ⟨by linarith [hb.1], by linarith [hb.2]⟩, fun _ => hall.trans ?_⟩
    nlinarith [neg_one_le_cos (ψ - ψ₀)]
  · have hρp : 0 < ρ := by
      rcases hρ0.eq_or_lt with h0 | h0
      · rw [← h0] at hall hK1; simp at hall; linarith
      · exact h0
    have hk1 : -1 ≤ K / ρ := by rw [le_div_iff₀ hρp]; linarith [not_le.1 hall]
    have hk2 : K / ρ ≤ 1 := by rw [div_le_one hρp]; exact hK1
    refine ⟨arccos (K / ρ), arccos_nonneg _, arccos_le_pi _, fun ψ hψ => ?_⟩
    rw [hiff, mul_comm, ← div_le_iff₀ hρp, ← cos_abs (ψ - ψ₀)]
    conv_lhs => rw [← cos_arccos hk1 hk2]
    rw [strictAntiOn_cos.le_iff_ge ⟨arccos_nonneg _, arccos_le_pi _⟩ ⟨abs_nonneg _, hψ⟩, abs_le]
    constructor <;> rintro ⟨h1, h2⟩ <;> constructor <;> linarith

/-- Over the middle of the degree along the equator. -/
example : ∃ w, 0 ≤ w ∧ w ≤ π ∧ ∀ ψ, |ψ - π / 360| ≤ π → (InRange 1000 (inSpace 1 (eq (1 / 2))) (travel (eq 0) (eq 1) ψ) 0 ↔ π / 360 - w ≤ ψ ∧ ψ ≤ π / 360 + w) := by
  have hpi := pi_pos
  have e0 : (1 : ℝ) / 2 = π / 360 * 180 / π := by field_simp; norm_num
  have he : travel (eq 0) (eq 1) (π / 360) = spot (eq (1 / 2)) := by
    rw [degree_travel, spot_eq]
    congr 2
    · congr 1; ring
    · congr 2; ring
  refine c72_one_stretch ?_ (by rw [add_zero]; exact R_pos) (by simpa [eq] using R_pos) (π / 360) (fun ψ => by rw [he, dist_self]; exact dist_nonneg) ?_
  · rw [angle_eq 0 1 (by norm_num) (by norm_num)]
    exact (sin_pos_of_pos_of_lt_pi (by linarith) (by linarith)).ne'
  · rw [e0, degree_range]
    norm_num

end Verif.Subdiv
