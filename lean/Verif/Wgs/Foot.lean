import Verif.Wgs.Core
import Verif.Wgs.Spec

/-!
# The code finds the foot
-/

namespace Verif.Wgs

open Real Verif.Globe

theorem f_pos : 0 < f := by unfold f; norm_num
theorem f_lt : f < 1 / 298 := by unfold f; norm_num
theorem a_pos : 0 < a := by unfold a; norm_num
theorem b_pos : 0 < b := mul_pos a_pos (by have := f_lt; linarith)
theorem e2_pos : 0 < e2 := mul_pos f_pos (by have := f_lt; linarith)
theorem one_sub_e2 : 1 - e2 = (1 - f) ^ 2 := by unfold e2; ring
theorem e2_lt : e2 < 1 / 149 := by
  have h := f_pos; have h' := f_lt
  unfold e2
  nlinarith
theorem b_sq : b ^ 2 = a ^ 2 * (1 - e2) := by rw [one_sub_e2]; unfold b; ring
theorem ep2_eq : ep2 * (1 - e2) = e2 := by
  rw [one_sub_e2]; unfold ep2
  exact div_mul_cancel₀ _ (pow_ne_zero 2 (by have := f_lt; linarith))

/-- The values of the numbers of the code, in one place. -/
theorem ro_unfold {r Z G F c s P Q rad : ℝ} (hF : F = 54 * b ^ 2 * Z ^ 2) (hG : G = r ^ 2 + (1 - e2) * Z ^ 2 - e2 * (a ^ 2 - b ^ 2)) (hG0 : 0 < G)
    (hc : c = e2 * e2 * F * r ^ 2 / (G * G * G)) (hs : s = (1 + c + √(c * c + 2 * c)) ^ (1 / 3 : ℝ))
    (hP : P = F / (3 * (s + 1 / s + 1) ^ 2 * G * G)) (hQ : Q = √(1 + 2 * e2 * e2 * P))
    (hrad : rad = a * a / 2 * (1 + 1 / Q) - (1 - e2) * P * Z ^ 2 / (Q * (1 + Q)) - P * r ^ 2 / 2)
    (c0 : 0 ≤ c) (s0 : 0 < s) (P0 : 0 ≤ P) (Q1 : 1 ≤ Q) (rad0 : 0 ≤ rad) :
    ro r Z = .ok (-(e2 * P * r) / (1 + Q) + √rad) := by
  have he := e2_pos
  have n1 : ¬ c * c + 2 * c < 0 := not_lt.mpr (by positivity)
  have n2 : ¬ 1 + c + √(c * c + 2 * c) < 0 := not_lt.mpr (by positivity)
  have n3 : ¬ 1 + 2 * e2 * e2 * P < 0 := not_lt.mpr (by positivity)
  have n4 : Q ≠ 0 := by linarith
  unfold ro
  simp only
  rw [← hF, ← hG, if_neg (by positivity), ← hc, if_neg n1, if_neg n2, ← hs, if_neg s0.ne', ← hP, if_neg n3, ← hQ, if_neg n4, ← hrad,
    if_neg (not_lt.mpr rad0)]

theorem G_eq (r Z : ℝ) : r ^ 2 + (1 - e2) * Z ^ 2 - e2 * (a ^ 2 - b ^ 2) = r ^ 2 + (1 - e2) * Z ^ 2 - a ^ 2 * e2 ^ 2 := by
  rw [b_sq]; ring

theorem Y_nonneg (Z : ℝ) : 0 ≤ (1 - e2) * Z ^ 2 := mul_nonneg (by have := e2_lt; linarith) (sq_nonneg Z)

/-- Off the axis. -/
theorem ro_eq {r Z t : ℝ} (hr : 0 < r) (ht : 0 < t) (ht' : e2 * t < r) (hfar : 4 * (a * e2) ^ 2 < 4 * r ^ 2 + (1 - e2) * Z ^ 2)
    (hf : Foot e2 a r ((1 - e2) * Z ^ 2) t) : ro r Z = .ok t := by
  have he := e2_pos
  have hY := Y_nonneg Z
  have hG0 : 0 < r ^ 2 + (1 - e2) * Z ^ 2 - e2 * (a ^ 2 - b ^ 2) := by
    rw [G_eq]; nlinarith [hfar, hY]
  obtain ⟨c0, s0, P0, Q1, Q2, hcub⟩ := cubic (A := a) he (sq_nonneg r) hY (F := 54 * b ^ 2 * Z ^ 2) (by rw [b_sq]; ring) (G_eq r Z) hG0 rfl rfl rfl rfl
  obtain ⟨r0, hroot⟩ := root_foot he hr hY ht ht' a_pos.ne' Q1 hfar hf hcub _ rfl
  generalize hF : 54 * b ^ 2 * Z ^ 2 = F at *
  generalize hG : r ^ 2 + (1 - e2) * Z ^ 2 - e2 * (a ^ 2 - b ^ 2) = G at *
  generalize hc : e2 * e2 * F * r ^ 2 / (G * G * G) = c at *
  generalize hs : (1 + c + √(c * c + 2 * c)) ^ (1 / 3 : ℝ) = s at *
  generalize hP : F / (3 * (s + 1 / s + 1) ^ 2 * G * G) = P at *
  generalize hQ : √(1 + 2 * e2 * e2 * P) = Q at *
  have hPQ : P = (Q ^ 2 - 1) / (2 * e2 ^ 2) := by rw [Q2]; field_simp; ring
  have hQ0 : Q ≠ 0 := by linarith
  have hQ1 : 1 + Q ≠ 0 := by linarith
  have hrad : a ^ 2 * (1 + Q) / (2 * Q) - (1 - e2) * Z ^ 2 * (Q - 1) / (2 * e2 ^ 2 * Q) - (Q ^ 2 - 1) * r ^ 2 / (4 * e2 ^ 2) =
      a * a / 2 * (1 + 1 / Q) - (1 - e2) * P * Z ^ 2 / (Q * (1 + Q)) - P * r ^ 2 / 2 := by
    rw [hPQ]; field_simp; ring
  rw [hrad] at r0 hroot
  rw [ro_unfold hF.symm hG.symm hG0 hc.symm hs.symm hP.symm hQ.symm rfl c0 s0 P0 Q1 r0, hroot, hPQ]
  congr 1
  field_simp
  ring

/-- On the axis. -/
theorem ro_axis {Z : ℝ} (hfar : (a * e2) ^ 2 < (1 - e2) * Z ^ 2) : ro 0 Z = .ok 0 := by
  have he := e2_pos
  have hY := Y_nonneg Z
  have hG0 : 0 < (0 : ℝ) ^ 2 + (1 - e2) * Z ^ 2 - e2 * (a ^ 2 - b ^ 2) := by
    rw [G_eq]; nlinarith [hfar, hY]
  obtain ⟨c0, s0, P0, Q1, Q2, hcub⟩ := cubic (A := a) he (sq_nonneg (0 : ℝ)) hY (F := 54 * b ^ 2 * Z ^ 2) (by rw [b_sq]; ring) (G_eq 0 Z) hG0 rfl rfl rfl rfl
  generalize hF : 54 * b ^ 2 * Z ^ 2 = F at *
  generalize hG : (0 : ℝ) ^ 2 + (1 - e2) * Z ^ 2 - e2 * (a ^ 2 - b ^ 2) = G at *
  generalize hc : e2 * e2 * F * 0 ^ 2 / (G * G * G) = c at *
  generalize hs : (1 + c + √(c * c + 2 * c)) ^ (1 / 3 : ℝ) = s at *
  generalize hP : F / (3 * (s + 1 / s + 1) ^ 2 * G * G) = P at *
  generalize hQ : √(1 + 2 * e2 * e2 * P) = Q at *
  have hPQ : P = (Q ^ 2 - 1) / (2 * e2 ^ 2) := by rw [Q2]; field_simp; ring
  have hQ0 : Q ≠ 0 := by linarith
  have hQ1 : 1 + Q ≠ 0 := by linarith
  set Y := (1 - e2) * Z ^ 2 with hYd
  have hd : 0 < Y - a ^ 2 * e2 ^ 2 := by nlinarith
  have hlin : Q * (Y - a ^ 2 * e2 ^ 2) = Y + a ^ 2 * e2 ^ 2 := by
    have h2 : (Q * (Y - a ^ 2 * e2 ^ 2)) ^ 2 = (Y + a ^ 2 * e2 ^ 2) ^ 2 := by linear_combination hcub
    exact (pow_left_inj₀ (mul_nonneg (by linarith) hd.le) (by positivity) two_ne_zero).mp h2
  have hrad : a * a / 2 * (1 + 1 / Q) - (1 - e2) * P * Z ^ 2 / (Q * (1 + Q)) - P * 0 ^ 2 / 2 = 0 := by
    rw [hPQ]
    have : (1 - e2) * ((Q ^ 2 - 1) / (2 * e2 ^ 2)) * Z ^ 2 = Y * ((Q ^ 2 - 1) / (2 * e2 ^ 2)) := by rw [hYd]; ring
    rw [this]
    field_simp
    linear_combination (-2 * (1 + Q)) * hlin
  rw [ro_unfold hF.symm hG.symm hG0 hc.symm hs.symm hP.symm hQ.symm rfl c0 s0 P0 Q1 (by rw [hrad]), hrad]
  simp

/-- The radius of curvature `N` of the code. -/
noncomputable def curv (φ : ℝ) : ℝ := a / √(1 - e2 * sin φ ^ 2)

theorem w_pos (φ : ℝ) : 0 < 1 - e2 * sin φ ^ 2 := by
  have := e2_pos; have := e2_lt; have := sin_sq_le_one φ; have := sq_nonneg (sin φ)
  nlinarith

theorem curv_sq (φ : ℝ) : curv φ ^ 2 * (1 - e2 * sin φ ^ 2) = a ^ 2 := by
  unfold curv
  rw [div_pow, sq_sqrt (w_pos φ).le]
  exact div_mul_cancel₀ _ (w_pos φ).ne'

theorem curv_ge (φ : ℝ) : a ≤ curv φ := by
  unfold curv
  have hw : √(1 - e2 * sin φ ^ 2) ≤ 1 := by
    rw [sqrt_le_one]
    have := e2_pos; have := sq_nonneg (sin φ)
    nlinarith
  rw [le_div_iff₀ (sqrt_pos.mpr (w_pos φ))]
  have := a_pos
  nlinarith

/-- What is computed after `ro`. -/
theorem after_ro {x : Pos} {φ h : ℝ} (hφ : -(π / 2) ≤ φ ∧ φ ≤ π / 2) (hU : 0 < curv φ * (1 - e2) + h)
    (hr : √(x.1 ^ 2 + x.2.1 ^ 2) = (curv φ + h) * cos φ) (hz : x.2.2 = (curv φ * (1 - e2) + h) * sin φ)
    (hro : ro ((curv φ + h) * cos φ) ((curv φ * (1 - e2) + h) * sin φ) = .ok (curv φ * cos φ)) :
    ecef2lla x = .ok ((degrees φ, degrees (atan2 x.2.1 x.1)), h) := by
  have ha := a_pos
  have hw := w_pos φ
  have hw' := sqrt_pos.mpr hw
  have hsq := sq_sqrt hw.le
  set U := curv φ * (1 - e2) + h with hUd
  have hd : (curv φ + h) * cos φ - e2 * (curv φ * cos φ) = U * cos φ := by rw [hUd]; ring
  have hU1 : √((U * cos φ) ^ 2 + (U * sin φ) ^ 2) = U := by
    have : (U * cos φ) ^ 2 + (U * sin φ) ^ 2 = U ^ 2 := by linear_combination U ^ 2 * sin_sq_add_cos_sq φ
    rw [this, sqrt_sq hU.le]
  have hV : √((U * cos φ) ^ 2 + (1 - e2) * (U * sin φ) ^ 2) = U * √(1 - e2 * sin φ ^ 2) := by
    have : (U * cos φ) ^ 2 + (1 - e2) * (U * sin φ) ^ 2 = U ^ 2 * (1 - e2 * sin φ ^ 2) := by
      linear_combination U ^ 2 * sin_sq_add_cos_sq φ
    rw [this, sqrt_mul (sq_nonneg _), sqrt_sq hU.le]
  have hN : curv φ * √(1 - e2 * sin φ ^ 2) = a := div_mul_cancel₀ _ hw'.ne'
  have hM : curv φ + h = U + e2 * curv φ := by rw [hUd]; ring
  have hMpos : 0 < curv φ + h := by
    rw [hM]
    have := mul_pos e2_pos (lt_of_lt_of_le a_pos (curv_ge φ))
    linarith
  unfold ecef2lla
  simp only
  rw [hr, hz, hro]
  simp only
  rw [hd, hU1, hV, if_neg (by positivity)]
  have hzo : b ^ 2 * (U * sin φ) / (a * (U * √(1 - e2 * sin φ ^ 2))) = (1 - e2) * curv φ * sin φ := by
    rw [div_eq_iff (by positivity), b_sq]
    linear_combination (-(a * (1 - e2) * sin φ * U)) * hN
  have hh : U * (1 - b ^ 2 / (a * (U * √(1 - e2 * sin φ ^ 2)))) = h := by
    have : b ^ 2 / (a * (U * √(1 - e2 * sin φ ^ 2))) = (1 - e2) * curv φ / U := by
      rw [div_eq_div_iff (by positivity) hU.ne', b_sq]
      linear_combination (-(a * (1 - e2) * U)) * hN
    rw [this]
    field_simp
    rw [hUd]; ring
  rw [hzo, hh]
  have hy : U * sin φ + ep2 * ((1 - e2) * curv φ * sin φ) = (curv φ + h) * sin φ := by
    rw [hM]
    linear_combination curv φ * sin φ * ep2_eq
  rw [hy, atan2_polar hMpos (by have := pi_pos; linarith [hφ.1]) (by have := pi_pos; linarith [hφ.2])]

/-- The foot of the point at `h` above latitude `φ`. -/
theorem foot_of {φ h : ℝ} (hφ : 0 < cos φ) (hU : 0 < curv φ * (1 - e2) + h)
    (hfar : 4 * (a * e2) ^ 2 < 4 * ((curv φ + h) * cos φ) ^ 2 + (1 - e2) * ((curv φ * (1 - e2) + h) * sin φ) ^ 2) :
    ro ((curv φ + h) * cos φ) ((curv φ * (1 - e2) + h) * sin φ) = .ok (curv φ * cos φ) := by
  have hc := lt_of_lt_of_le a_pos (curv_ge φ)
  have hM : 0 < curv φ + h := by
    have := mul_pos e2_pos hc
    nlinarith
  refine ro_eq (mul_pos hM hφ) (mul_pos hc hφ) ?_ hfar ?_
  · have : 0 < (curv φ * (1 - e2) + h) * cos φ := mul_pos hU hφ
    nlinarith
  · unfold Foot
    have hd : (curv φ + h) * cos φ - e2 * (curv φ * cos φ) = (curv φ * (1 - e2) + h) * cos φ := by ring
    rw [hd]
    linear_combination (cos φ ^ 2 * (curv φ * (1 - e2) + h) ^ 2) * curv_sq φ +
      (curv φ ^ 2 * cos φ ^ 2 * (curv φ * (1 - e2) + h) ^ 2) * sin_sq_add_cos_sq φ

end Verif.Wgs
