import Verif.Wgs.Foot
import Mathlib.Topology.Order.IntermediateValue
import Mathlib.Topology.MetricSpace.HausdorffDistance

/-!
# C70: cartesian coordinates on the WGS84 ellipsoid
-/

namespace Verif.Wgs

open Real Verif.Globe

local notation "⟪" x ", " y "⟫" => inner ℝ x y

theorem lla_eq (p : LL) (h : ℝ) : lla2ecef p h = ((curv (radians p.1) + h) * cos (radians p.1) * cos (radians p.2),
    (curv (radians p.1) + h) * cos (radians p.1) * sin (radians p.2), (curv (radians p.1) * (1 - e2) + h) * sin (radians p.1)) := by
  rw [one_sub_e2]; rfl

/-- **C70**: the altitude is measured along the vertical: the unit vector of the latitude and the longitude. -/
theorem c70_vertical (p : LL) (h : ℝ) : vec (lla2ecef p h) = vec (lla2ecef p 0) + h • place p := by
  rw [lla_eq, lla_eq]
  unfold vec place
  simp only [rad_eq]
  apply ext3 <;> simp <;> ring

/-- **C70**: altitude zero is the surface. -/
theorem c70_surface (p : LL) : vec (lla2ecef p 0) ∈ Ellipsoid := by
  rw [lla_eq]
  have ha : equatorial = a := rfl
  have hb : polar = b := by unfold polar b a f; ring
  show _ / _ + _ / _ + _ / _ = 1
  rw [ha, hb, b_sq]
  simp only [vec, add_zero]
  have hcs := sin_sq_add_cos_sq (radians p.2)
  have hcs' := sin_sq_add_cos_sq (radians p.1)
  have hN := curv_sq (radians p.1)
  have ha0 := a_pos.ne'
  have he : (1 - e2) ≠ 0 := by have := e2_lt; linarith
  simp only [PiLp.toLp_apply, Matrix.cons_val_zero, Matrix.cons_val_one, Matrix.cons_val]
  field_simp
  linear_combination (curv (radians p.1) ^ 2 * cos (radians p.1) ^ 2 ) * hcs + hN + (curv (radians p.1) ^ 2) * hcs'

theorem place_foot (p : LL) : ⟪place p, vec (lla2ecef p 0)⟫ = a * √(1 - e2 * sin (radians p.1) ^ 2) := by
  rw [lla_eq]
  unfold place vec
  rw [inner3]
  simp only [← rad_eq, add_zero]
  have hw := w_pos (radians p.1)
  have hN : curv (radians p.1) * √(1 - e2 * sin (radians p.1) ^ 2) = a := div_mul_cancel₀ _ (sqrt_pos.mpr hw).ne'
  have hsq := sq_sqrt hw.le
  rw [← hN]
  linear_combination (curv (radians p.1) * cos (radians p.1) ^ 2) * sin_sq_add_cos_sq (radians p.2) +
    curv (radians p.1) * sin_sq_add_cos_sq (radians p.1) - curv (radians p.1) * hsq

/-- **C70**: the vertical is perpendicular to the surface: the tangent plane at the foot has the whole earth on one side. -/
theorem c70_normal (p : LL) (y : E3) (hy : y ∈ Ellipsoid) : ⟪place p, y⟫ ≤ ⟪place p, vec (lla2ecef p 0)⟫ := by
  rw [place_foot]
  have hw := w_pos (radians p.1)
  have ha := a_pos
  have hb := b_pos
  have hy' : (y 0) ^ 2 / a ^ 2 + (y 1) ^ 2 / a ^ 2 + (y 2) ^ 2 / b ^ 2 = 1 := by
    have hb : polar = b := by unfold polar b a f; ring
    rw [← hb]; exact hy
  obtain ⟨u0, h0⟩ : ∃ u, y 0 = a * u := ⟨y 0 / a, by field_simp⟩
  obtain ⟨u1, h1⟩ : ∃ u, y 1 = a * u := ⟨y 1 / a, by field_simp⟩
  obtain ⟨u2, h2⟩ : ∃ u, y 2 = b * u := ⟨y 2 / b, by field_simp⟩
  rw [h0, h1, h2] at hy'
  have hu : u0 ^ 2 + u1 ^ 2 + u2 ^ 2 = 1 := by
    rw [← hy']; field_simp
  have hin : ⟪place p, y⟫ = cos (radians p.1) * cos (radians p.2) * (a * u0) + cos (radians p.1) * sin (radians p.2) * (a * u1) +
      sin (radians p.1) * (b * u2) := by
    have : y = !₂[a * u0, a * u1, b * u2] := ext3 h0 h1 h2
    rw [this]
    unfold place
    rw [inner3]
    simp only [← rad_eq]
  rw [hin]
  refine le_of_abs_le (abs_le_of_sq_le_sq ?_ (mul_nonneg ha.le (sqrt_nonneg _)))
  rw [mul_pow a, sq_sqrt hw.le]
  set c := cos (radians p.1)
  set s := sin (radians p.1)
  set c' := cos (radians p.2)
  set s' := sin (radians p.2)
  have k1 : s ^ 2 + c ^ 2 = 1 := sin_sq_add_cos_sq _
  have k2 : s' ^ 2 + c' ^ 2 = 1 := sin_sq_add_cos_sq _
  have hnorm : (a * c * c') ^ 2 + (a * c * s') ^ 2 + (b * s) ^ 2 = a ^ 2 * (1 - e2 * s ^ 2) := by
    rw [mul_pow b, b_sq]
    linear_combination (a ^ 2 * c ^ 2) * k2 + a ^ 2 * k1
  rw [← hnorm]
  have cs : (c * c' * (a * u0) + c * s' * (a * u1) + s * (b * u2)) ^ 2 ≤
      ((a * c * c') ^ 2 + (a * c * s') ^ 2 + (b * s) ^ 2) * (u0 ^ 2 + u1 ^ 2 + u2 ^ 2) := by
    nlinarith [sq_nonneg ((a * c * c') * u1 - (a * c * s') * u0), sq_nonneg ((a * c * c') * u2 - (b * s) * u0),
      sq_nonneg ((a * c * s') * u2 - (b * s) * u1)]
  rw [hu, mul_one] at cs
  exact cs

/-- **C70**: above the surface, the altitude is the distance from the surface. -/
theorem c70_altitude (p : LL) (h : ℝ) (h0 : 0 ≤ h) : Metric.infDist (vec (lla2ecef p h)) Ellipsoid = h := by
  apply le_antisymm
  · refine le_trans (Metric.infDist_le_dist_of_mem (c70_surface p)) ?_
    rw [c70_vertical, dist_eq_norm, add_sub_cancel_left, norm_smul, place_norm, mul_one, norm_eq_abs, abs_of_nonneg h0]
  · refine (Metric.le_infDist ⟨_, c70_surface p⟩).mpr ?_
    intro y hy
    have hn := c70_normal p y hy
    have h1 : h ≤ ⟪place p, vec (lla2ecef p h) - y⟫ := by
      rw [c70_vertical, inner_sub_right, inner_add_right, inner_smul_right, place_inner_self]
      linarith
    have h2 := real_inner_le_norm (place p) (vec (lla2ecef p h) - y)
    rw [place_norm, one_mul] at h2
    rw [dist_eq_norm]
    linarith

example : Metric.infDist (vec (lla2ecef (33.7, -84.4) 300)) Ellipsoid = 300 ∧ ⟪place (90, 0), vec (lla2ecef (90, 0) 0)⟫ = b := by
  refine ⟨c70_altitude _ 300 (by norm_num), ?_⟩
  rw [place_foot]
  have : radians (90, (0 : ℝ)).1 = π / 2 := by unfold radians; ring
  rw [this, sin_pi_div_two, one_pow, mul_one, one_sub_e2, sqrt_sq (by have := f_lt; linarith)]
  rfl

/-! ### there and back -/

theorem lon_back {M l : ℝ} (hM : 0 < M) (h0 : -180 < l) (h1 : l ≤ 180) : degrees (atan2 (M * sin (radians l)) (M * cos (radians l))) = l := by
  have hp := pi_pos
  rw [atan2_polar hM, deg_rad]
  · unfold radians; nlinarith
  · unfold radians; nlinarith

theorem r_eq {M l : ℝ} (hM : 0 ≤ M) : √((M * cos l) ^ 2 + (M * sin l) ^ 2) = M := by
  have : (M * cos l) ^ 2 + (M * sin l) ^ 2 = M ^ 2 := by linear_combination M ^ 2 * sin_sq_add_cos_sq l
  rw [this, sqrt_sq hM]

theorem lat_range {p : LL} (h : -90 ≤ p.1 ∧ p.1 ≤ 90) : -(π / 2) ≤ radians p.1 ∧ radians p.1 ≤ π / 2 := by
  have hp := pi_pos
  unfold radians
  constructor <;> nlinarith [h.1, h.2]

/-- Far enough from the centre. -/
def Far (r Z : ℝ) : Prop := 4 * (a * e2) ^ 2 < 4 * r ^ 2 + (1 - e2) * Z ^ 2

/-- There and back, with the exact condition. -/
theorem back_core {p : LL} {h : ℝ} (hp : -90 ≤ p.1 ∧ p.1 ≤ 90) (hU : 0 < curv (radians p.1) * (1 - e2) + h)
    (hfar : Far ((curv (radians p.1) + h) * cos (radians p.1)) ((curv (radians p.1) * (1 - e2) + h) * sin (radians p.1))) :
    ecef2lla (lla2ecef p h) = .ok ((p.1, degrees (atan2 (lla2ecef p h).2.1 (lla2ecef p h).1)), h) := by
  have hφ := lat_range hp
  have hM : 0 < curv (radians p.1) + h := by
    have := mul_pos e2_pos (lt_of_lt_of_le a_pos (curv_ge (radians p.1)))
    nlinarith
  have hc : 0 ≤ cos (radians p.1) := cos_nonneg_of_mem_Icc ⟨by linarith [hφ.1], hφ.2⟩
  have key := after_ro (x := lla2ecef p h) hφ hU (by rw [lla_eq]; exact r_eq (mul_nonneg hM.le hc)) (by rw [lla_eq])
  rw [deg_rad] at key
  apply key
  rcases hc.eq_or_lt with hc | hc
  · rw [← hc, mul_zero, mul_zero]
    apply ro_axis
    unfold Far at hfar
    rw [← hc] at hfar
    have := sq_nonneg (a * e2)
    linarith
  · exact foot_of hc hU hfar

theorem far_of_height {φ h : ℝ} (hh : -6200000 ≤ h) : 0 < curv φ * (1 - e2) + h ∧ Far ((curv φ + h) * cos φ) ((curv φ * (1 - e2) + h) * sin φ) := by
  have h1 := curv_ge φ
  have h2 := e2_lt
  have h3 := e2_pos
  have ha : a = 6378137 := rfl
  have hU : 135000 ≤ curv φ * (1 - e2) + h := by
    have : a * (1 - e2) ≤ curv φ * (1 - e2) := mul_le_mul_of_nonneg_right h1 (by linarith)
    rw [ha] at this
    linarith
  have hM : curv φ * (1 - e2) + h ≤ curv φ + h := by
    have : 0 ≤ curv φ * e2 := mul_nonneg (le_trans a_pos.le h1) h3.le
    linarith
  refine ⟨by linarith, ?_⟩
  unfold Far
  set U := curv φ * (1 - e2) + h
  have hr : (U * cos φ) ^ 2 ≤ ((curv φ + h) * cos φ) ^ 2 := by
    rw [mul_pow, mul_pow]
    exact mul_le_mul_of_nonneg_right (pow_le_pow_left₀ (by linarith) hM 2) (sq_nonneg _)
  have hUU : (135000 : ℝ) ^ 2 ≤ U ^ 2 := pow_le_pow_left₀ (by norm_num) hU 2
  have hcs := sin_sq_add_cos_sq φ
  have hlow : (1 - e2) * U ^ 2 ≤ 4 * (U * cos φ) ^ 2 + (1 - e2) * (U * sin φ) ^ 2 := by
    have : 0 ≤ (3 + e2) * (U * cos φ) ^ 2 := by positivity
    have e : U ^ 2 = (U * cos φ) ^ 2 + (U * sin φ) ^ 2 := by linear_combination (-U ^ 2) * hcs
    rw [e]; nlinarith
  have hnum : 4 * (a * e2) ^ 2 < (1 - e2) * (135000 : ℝ) ^ 2 := by
    have : (a * e2) ^ 2 ≤ (a * (1 / 149)) ^ 2 := pow_le_pow_left₀ (mul_nonneg a_pos.le h3.le) (mul_le_mul_of_nonneg_left h2.le a_pos.le) 2
    rw [ha] at this ⊢
    nlinarith
  have : (1 - e2) * (135000 : ℝ) ^ 2 ≤ (1 - e2) * U ^ 2 := mul_le_mul_of_nonneg_left hUU (by linarith)
  linarith

/-- **C70**: latitude, longitude and altitude come back from the cartesian coordinates, for every altitude down to 6200 km below the
surface. -/
theorem c70_back (p : LL) (h : ℝ) (hp : -90 < p.1 ∧ p.1 < 90) (hl : -180 < p.2 ∧ p.2 ≤ 180) (hh : -6200000 ≤ h) :
    ecef2lla (lla2ecef p h) = .ok (p, h) := by
  obtain ⟨hU, hfar⟩ := far_of_height (φ := radians p.1) hh
  rw [back_core ⟨hp.1.le, hp.2.le⟩ hU hfar]
  have hc : 0 < cos (radians p.1) := OffPole.cos_pos hp
  have hM : 0 < curv (radians p.1) + h := by
    have := mul_pos e2_pos (lt_of_lt_of_le a_pos (curv_ge (radians p.1)))
    nlinarith
  congr 2
  refine Prod.ext rfl ?_
  show degrees _ = p.2
  rw [lla_eq]
  exact lon_back (mul_pos hM hc) hl.1 hl.2

/-- **C70**: at the poles too, but with longitude zero. -/
theorem c70_back_pole (p : LL) (h : ℝ) (hp : p.1 = 90 ∨ p.1 = -90) (hh : -6200000 ≤ h) :
    ecef2lla (lla2ecef p h) = .ok ((p.1, 0), h) := by
  obtain ⟨hU, hfar⟩ := far_of_height (φ := radians p.1) hh
  rw [back_core (by rcases hp with h | h <;> rw [h] <;> norm_num) hU hfar]
  have hc : cos (radians p.1) = 0 := by
    rcases hp with h | h
    · rw [h, show radians 90 = π / 2 by unfold radians; ring, cos_pi_div_two]
    · rw [h, show radians (-90) = -(π / 2) by unfold radians; ring, cos_neg, cos_pi_div_two]
  congr 2
  refine Prod.ext rfl ?_
  show degrees _ = 0
  rw [lla_eq, hc]
  simp [atan2, degrees, Complex.arg]

example : ecef2lla (lla2ecef (33.7, -84.4) 300) = .ok ((33.7, -84.4), 300) ∧ ecef2lla (lla2ecef (90, 17) (-1000)) = .ok ((90, 0), -1000) :=
  ⟨c70_back _ _ ⟨by norm_num, by norm_num⟩ ⟨by norm_num, by norm_num⟩ (by norm_num), c70_back_pole (90, 17) _ (Or.inl rfl) (by norm_num)⟩

/-- Every position off the axis has a latitude and a height: there is a vertical through it. -/
theorem vertical_exists {r Z : ℝ} (hr : 0 < r) (hfar : 90000 ^ 2 ≤ r ^ 2 + Z ^ 2) :
    ∃ φ h, -(π / 2) ≤ φ ∧ φ ≤ π / 2 ∧ 0 < curv φ * (1 - e2) + h ∧ r = (curv φ + h) * cos φ ∧ Z = (curv φ * (1 - e2) + h) * sin φ := by
  have hp := pi_pos
  have hcont : Continuous (fun φ : ℝ => r * sin φ - Z * cos φ - e2 * curv φ * sin φ * cos φ) := by
    have hc : Continuous curv := by
      unfold curv
      refine continuous_const.div (by fun_prop) ?_
      intro φ
      exact (sqrt_pos.mpr (w_pos φ)).ne'
    fun_prop
  have solve : ∀ φ, 0 < cos φ → r * sin φ - Z * cos φ - e2 * curv φ * sin φ * cos φ = 0 →
      r = (curv φ + (r / cos φ - curv φ)) * cos φ ∧ Z = (curv φ * (1 - e2) + (r / cos φ - curv φ)) * sin φ := by
    intro φ hc hg
    have h1 : r = (curv φ + (r / cos φ - curv φ)) * cos φ := by field_simp; ring
    refine ⟨h1, ?_⟩
    apply mul_right_cancel₀ hc.ne'
    have h2 : r / cos φ * cos φ = r := div_mul_cancel₀ _ hc.ne'
    linear_combination (-1) * hg - sin φ * h2
  rcases lt_trichotomy Z 0 with hZ | hZ | hZ
  · obtain ⟨φ, hφ, hg⟩ := intermediate_value_Icc (a := -(π / 2)) (b := 0) (by linarith) hcont.continuousOn
      (show (0 : ℝ) ∈ _ from ⟨by simp [hr.le], by simp [hZ.le]⟩)
    have hne : φ ≠ -(π / 2) := by
      rintro rfl
      simp at hg
      exact hr.ne' hg
    have hc : 0 < cos φ := cos_pos_of_mem_Ioo ⟨lt_of_le_of_ne hφ.1 (Ne.symm hne), by linarith [hφ.2]⟩
    obtain ⟨h1, h2⟩ := solve φ hc hg
    refine ⟨φ, _, hφ.1, by linarith [hφ.2], ?_, h1, h2⟩
    have hs : sin φ ≤ 0 := sin_nonpos_of_nonpos_of_neg_pi_le hφ.2 (by linarith [hφ.1])
    by_contra hn
    have := mul_nonneg_of_nonpos_of_nonpos (not_lt.mp hn) hs
    rw [← h2] at this
    linarith
  · subst hZ
    refine ⟨0, r - curv 0, by linarith, by linarith, ?_, by simp, by simp⟩
    have h0 : curv 0 = a := by unfold curv; simp
    rw [h0]
    have h1 : a * e2 < 90000 := by
      have := mul_lt_mul_of_pos_left e2_lt a_pos
      rw [show a = 6378137 from rfl] at this ⊢
      linarith
    have h2 : 90000 ≤ r := by
      refine le_of_sq_le_sq ?_ hr.le
      simpa using hfar
    linarith
  · obtain ⟨φ, hφ, hg⟩ := intermediate_value_Icc (a := 0) (b := π / 2) (by linarith) hcont.continuousOn
      (show (0 : ℝ) ∈ _ from ⟨by simp [hZ.le], by simp [hr.le]⟩)
    have hne : φ ≠ π / 2 := by
      rintro rfl
      simp at hg
      exact hr.ne' hg
    have hc : 0 < cos φ := cos_pos_of_mem_Ioo ⟨by linarith [hφ.1], lt_of_le_of_ne hφ.2 hne⟩
    obtain ⟨h1, h2⟩ := solve φ hc hg
    refine ⟨φ, _, by linarith [hφ.1], hφ.2, ?_, h1, h2⟩
    have hs : 0 ≤ sin φ := sin_nonneg_of_nonneg_of_le_pi hφ.1 (by linarith [hφ.2])
    by_contra hn
    have := mul_nonpos_of_nonpos_of_nonneg (not_lt.mp hn) hs
    rw [← h2] at this
    linarith

theorem far_of_norm {r Z : ℝ} (h : 90000 ^ 2 ≤ r ^ 2 + Z ^ 2) : Far r Z := by
  unfold Far
  have h2 := e2_lt
  have h3 := e2_pos
  have h4 : (a * e2) ^ 2 ≤ (a * (1 / 149)) ^ 2 := pow_le_pow_left₀ (mul_nonneg a_pos.le h3.le) (mul_le_mul_of_nonneg_left h2.le a_pos.le) 2
  rw [show a = 6378137 from rfl] at h4 ⊢
  have h5 : (1 - e2) * (r ^ 2 + Z ^ 2) ≤ 4 * r ^ 2 + (1 - e2) * Z ^ 2 := by nlinarith [sq_nonneg r]
  have h6 : (1 - e2) * 90000 ^ 2 ≤ (1 - e2) * (r ^ 2 + Z ^ 2) := mul_le_mul_of_nonneg_left h (by linarith)
  nlinarith

/-- **C70**: every position more than 90 km from the centre of the earth has a latitude, a longitude and an altitude, the code
finds them, and they give the position back. -/
theorem c70_forth (x : Pos) (hx : 90000 ≤ ‖vec x‖) : ∃ p h, ecef2lla x = .ok (p, h) ∧ lla2ecef p h = x ∧
    -90 ≤ p.1 ∧ p.1 ≤ 90 ∧ -180 < p.2 ∧ p.2 ≤ 180 := by
  have hp := pi_pos
  set r := √(x.1 ^ 2 + x.2.1 ^ 2) with hrdef
  have hr0 : 0 ≤ r := sqrt_nonneg _
  have hrsq : r ^ 2 = x.1 ^ 2 + x.2.1 ^ 2 := sq_sqrt (by positivity)
  have hn : 90000 ^ 2 ≤ r ^ 2 + x.2.2 ^ 2 := by
    rw [hrsq]
    have := pow_le_pow_left₀ (by norm_num) hx 2
    rwa [vec_norm, sq_sqrt (by positivity)] at this
  have hcs := atan2_cos_sin x.2.1 x.1
  rw [← hrdef] at hcs
  obtain ⟨φ, h, h1, h2, hU, er, ez⟩ : ∃ φ h, -(π / 2) ≤ φ ∧ φ ≤ π / 2 ∧ 0 < curv φ * (1 - e2) + h ∧ r = (curv φ + h) * cos φ ∧
      x.2.2 = (curv φ * (1 - e2) + h) * sin φ := by
    rcases hr0.eq_or_lt with h0 | h0
    · rw [← h0] at hn ⊢
      have hz : 0 < |x.2.2| := by
        apply abs_pos.mpr
        rintro h
        rw [h] at hn
        norm_num at hn
      rcases lt_or_ge x.2.2 0 with h | h
      · exact ⟨-(π / 2), |x.2.2| - curv (-(π / 2)) * (1 - e2), by linarith, by linarith, by linarith, by simp, by
          simp [abs_of_neg h]⟩
      · exact ⟨π / 2, |x.2.2| - curv (π / 2) * (1 - e2), by linarith, by linarith, by linarith, by simp, by
          simp [abs_of_nonneg h]⟩
    · exact vertical_exists h0 hn
  have hlat : -90 ≤ degrees φ ∧ degrees φ ≤ 90 := by
    unfold degrees
    constructor
    · rw [ge_iff_le.symm, ge_iff_le, ← sub_nonneg]
      have : φ * (180 / π) - -90 = (φ + π / 2) * (180 / π) := by field_simp; ring
      first | rw [this] | skip
      exact mul_nonneg (by linarith) (by positivity)
    · rw [← sub_nonneg]
      have : 90 - φ * (180 / π) = (π / 2 - φ) * (180 / π) := by field_simp; ring
      first | rw [this] | skip
      exact mul_nonneg (by linarith) (by positivity)
  have hll : lla2ecef (degrees φ, degrees (atan2 x.2.1 x.1)) h = x := by
    rw [lla_eq]
    simp only [rad_deg]
    rw [← er, ← ez, hcs.1, hcs.2]
  refine ⟨(degrees φ, degrees (atan2 x.2.1 x.1)), h, ?_, hll, hlat.1, hlat.2, ?_⟩
  · have := back_core (p := (degrees φ, degrees (atan2 x.2.1 x.1))) (h := h) hlat (by simpa only [rad_deg] using hU) (by
      simp only [rad_deg]
      rw [← er, ← ez]
      exact far_of_norm hn)
    rw [hll] at this
    exact this
  · have hlo := Complex.neg_pi_lt_arg ⟨x.1, x.2.1⟩
    have hhi := Complex.arg_le_pi ⟨x.1, x.2.1⟩
    change -180 < degrees (Complex.arg _) ∧ degrees (Complex.arg _) ≤ 180
    generalize Complex.arg _ = θ at hlo hhi
    have e : θ = radians (degrees θ) := (rad_deg θ).symm
    unfold radians at e
    constructor <;> nlinarith

example : (90000 : ℝ) ≤ ‖vec (1000000, -2000000, 3)‖ := by
  rw [vec_norm]
  apply le_sqrt_of_sq_le
  norm_num

/-- **C70** fails near the centre of the earth: the centre itself is given an altitude that does not lead back to it. -/
theorem c70_centre : ∃ p h, ecef2lla (0, 0, 0) = .ok (p, h) ∧ lla2ecef p h ≠ (0, 0, 0) := by
  have h3 := e2_pos
  have ha := a_pos
  have hE : a ^ 2 - b ^ 2 = a ^ 2 * e2 := by rw [b_sq]; ring
  have hro : ro 0 0 = .ok a := by
    have hG : (0 : ℝ) ^ 2 + (1 - e2) * 0 ^ 2 - e2 * (a ^ 2 - b ^ 2) ≠ 0 := by
      rw [hE]
      have : 0 < e2 * (a ^ 2 * e2) := by positivity
      simp only [ne_eq, OfNat.ofNat_ne_zero, not_false_eq_true, zero_pow, mul_zero, add_zero, zero_sub, neg_eq_zero]
      exact this.ne'
    have h2 : a * a / 2 * (1 + 1) = a ^ 2 := by ring
    simp only [ro]
    rw [if_neg (mul_ne_zero (mul_ne_zero hG hG) hG)]
    simp [h2, sq_nonneg, sqrt_sq ha.le, not_lt.mpr]
  have hV : a * (e2 * a) ≠ 0 := by positivity
  refine ⟨(0, 0), a * (2 * e2 - 1), ?_, ?_⟩
  · simp only [ecef2lla]
    have e1 : √((0 : ℝ) ^ 2 + 0 ^ 2) = 0 := by simp
    have e3 : √((0 - e2 * a) ^ 2 + (0 : ℝ) ^ 2) = e2 * a := by
      rw [show (0 - e2 * a) ^ 2 + (0 : ℝ) ^ 2 = (e2 * a) ^ 2 by ring, sqrt_sq (by positivity)]
    have e4 : √((0 - e2 * a) ^ 2 + (1 - e2) * (0 : ℝ) ^ 2) = e2 * a := by
      rw [show (0 - e2 * a) ^ 2 + (1 - e2) * (0 : ℝ) ^ 2 = (e2 * a) ^ 2 by ring, sqrt_sq (by positivity)]
    rw [e1, hro]
    simp only
    rw [e3, e4, if_neg hV]
    have e5 : e2 * a * (1 - b ^ 2 / (a * (e2 * a))) = a * (2 * e2 - 1) := by
      rw [b_sq]; field_simp; ring
    have e6 : (0 : ℝ) + ep2 * (b ^ 2 * 0 / (a * (e2 * a))) = 0 := by ring
    have e7 : degrees (atan2 0 0) = 0 := by simp [atan2, degrees, Complex.arg]
    rw [e5, e6, e7]
  · rw [lla_eq]
    intro h
    have := congrArg Prod.fst h
    have h0 : curv 0 = a := by unfold curv; simp
    simp [radians, h0] at this
    nlinarith

end Verif.Wgs
