import Verif.Geod.Approx

/-!
# Where a geodesic starts
-/

namespace Verif.Geod

open Real
open Verif.Wgs
open Verif.Globe (LL E3 radians degrees atan2 vec heading north east ext3 rad_eq place)

/-- Latitudes are between the poles. -/
def Lat (p : LL) : Prop := -90 ≤ p.1 ∧ p.1 ≤ 90

/-- The place on the ellipsoid, at altitude zero (C70 says which). -/
noncomputable def ground (p : LL) : E3 := vec (lla2ecef p 0)

noncomputable def om (φ : ℝ) : ℝ := √(1 - e2 * sin φ ^ 2)

theorem om_pos (φ : ℝ) : 0 < om φ := sqrt_pos.mpr (Wgs.w_pos φ)
theorem om_sq (φ : ℝ) : om φ ^ 2 = 1 - e2 * sin φ ^ 2 := sq_sqrt (Wgs.w_pos φ).le
theorem one_sub_f_pos : 0 < 1 - f := by have := f_lt; linarith

theorem tan_red {φ : ℝ} (hc : 0 < cos φ) : √(1 + ((1 - f) * tan φ) ^ 2) * cos φ = om φ := by
  have h : (√(1 + ((1 - f) * tan φ) ^ 2) * cos φ) ^ 2 = om φ ^ 2 := by
    rw [mul_pow, sq_sqrt (by positivity), om_sq, tan_eq_sin_div_cos]
    field_simp
    have h1 := sin_sq_add_cos_sq φ
    have h2 := one_sub_e2
    linear_combination h1 - sin φ ^ 2 * h2
  exact (pow_left_inj₀ (by positivity) (om_pos φ).le two_ne_zero).mp h

theorem cos_lat {p : LL} (hp : Lat p) : 0 ≤ cos (radians p.1) := by
  have := Wgs.lat_range hp
  exact cos_nonneg_of_mem_Icc ⟨this.1, this.2⟩

theorem om_pole {φ : ℝ} (hc : cos φ = 0) : om φ = 1 - f := by
  have h1 := sin_sq_add_cos_sq φ
  rw [hc] at h1
  have : om φ ^ 2 = (1 - f) ^ 2 := by rw [om_sq, ← one_sub_e2]; linear_combination (-e2) * h1
  exact (pow_left_inj₀ (om_pos φ).le one_sub_f_pos.le two_ne_zero).mp this

theorem red_cos {p : LL} (hp : Lat p) : cos (reduced p.1) = cos (radians p.1) / om (radians p.1) := by
  unfold reduced
  rcases (cos_lat hp).eq_or_lt with h | h
  · rw [if_pos h.symm, ← h]; simp
  · rw [if_neg h.ne', cos_arctan, ← tan_red h]
    field_simp

theorem red_sin {p : LL} (hp : Lat p) : sin (reduced p.1) = (1 - f) * sin (radians p.1) / om (radians p.1) := by
  unfold reduced
  rcases (cos_lat hp).eq_or_lt with h | h
  · rw [if_pos h.symm, om_pole h.symm]; have := one_sub_f_pos; field_simp
  · rw [if_neg h.ne', sin_arctan, ← tan_red h, tan_eq_sin_div_cos]
    field_simp

theorem ground_eq {p : LL} (hp : Lat p) : ground p = !₂[a * cos (reduced p.1) * cos (radians p.2), a * cos (reduced p.1) * sin (radians p.2), b * sin (reduced p.1)] := by
  unfold ground vec
  rw [lla_eq, red_cos hp, red_sin hp]
  have h := om_pos (radians p.1)
  have hc : curv (radians p.1) = a / om (radians p.1) := rfl
  have hb : b = a * (1 - f) := rfl
  rw [hc, one_sub_e2, hb]
  refine ext3 ?_ ?_ ?_ <;> simp <;> field_simp <;> simp

theorem start_sin (lat α : ℝ) (hp : Lat (lat, 0)) : (start lat α).1 = sin (reduced lat) ∧ (start lat α).2.1 = cos (reduced lat) := by
  unfold start reduced
  simp only
  by_cases h : cos (radians lat) = 0
  · rw [if_pos h, if_pos h]; exact ⟨rfl, h.symm⟩
  · rw [if_neg h, if_neg h, sin_arctan, cos_arctan]
    exact ⟨by simp only; ring, rfl⟩

theorem w_zero {p : LL} (hp : Lat p) (ca : ℝ) : w (cos (reduced p.1)) (sin (reduced p.1)) ca 0 = (1 - f) / om (radians p.1) := by
  unfold w g3
  have h := om_pos (radians p.1)
  have hs := sin_sq_add_cos_sq (reduced p.1)
  have hf := one_sub_f_pos
  have key : 1 - e2 * (1 - (sin (reduced p.1) * cos 0 + cos (reduced p.1) * ca * sin 0) ^ 2) = ((1 - f) / om (radians p.1)) ^ 2 := by
    have e : (1 : ℝ) - (sin (reduced p.1) * cos 0 + cos (reduced p.1) * ca * sin 0) ^ 2 = cos (reduced p.1) ^ 2 := by
      simp; linarith
    rw [e, red_cos hp]
    have ho := om_sq (radians p.1)
    have h1 := sin_sq_add_cos_sq (radians p.1)
    have h2 := one_sub_e2
    field_simp
    linear_combination ho - e2 * h1 + h2
  rw [key, sqrt_sq (by positivity)]

theorem ang (u β : ℝ) : Ang (cos u) (sin u) (cos β) (sin β) := ⟨by linarith [sin_sq_add_cos_sq u], by linarith [sin_sq_add_cos_sq β]⟩

theorem gam_zero {p : LL} (hp : Lat p) (ca sa : ℝ) : gam (cos (reduced p.1)) (sin (reduced p.1)) ca sa (radians p.2) 0 = ground p := by
  rw [ground_eq hp]
  unfold gam g1 g2 g3 delta
  refine ext3 ?_ ?_ ?_ <;> simp [mul_assoc]

theorem tang_zero {p : LL} (hp : Lat p) (β : ℝ) :
    tang (cos (reduced p.1)) (sin (reduced p.1)) (cos (radians β)) (sin (radians β)) (radians p.2) 0 = heading p β := by
  have h := om_pos (radians p.1)
  have hf := one_sub_f_pos
  have hw := w_zero hp (cos (radians β))
  have hτ : turn (cos (reduced p.1)) (sin (reduced p.1)) (cos (radians β)) (sin (radians β)) 0 * cos (reduced p.1) =
      sin (radians β) * (1 - (1 - f) / om (radians p.1)) := by
    unfold turn
    rw [hw, red_cos hp]
    have ho := om_sq (radians p.1)
    have h1 := sin_sq_add_cos_sq (radians p.1)
    have h2 := one_sub_e2
    have : 0 < 1 + (1 - f) / om (radians p.1) := by positivity
    have h3 : (1 + (1 - f) / om (radians p.1)) = (om (radians p.1) + (1 - f)) / om (radians p.1) := by field_simp
    have h4 : 0 < om (radians p.1) + (1 - f) := by positivity
    rw [h3]
    field_simp
    linear_combination sin (radians β) * (-ho + e2 * h1 - h2)
  unfold heading north east
  simp only [← rad_eq]
  unfold tang h1 h2 h3
  rw [hw]
  unfold d1 d2 d3 g1 g2 delta
  simp only [intervalIntegral.integral_same, sub_zero, sin_zero, cos_zero, mul_zero, mul_one, zero_sub, add_zero, zero_add]
  rw [hτ]
  have hs := red_sin hp
  have hc := red_cos hp
  refine ext3 ?_ ?_ ?_ <;> simp <;> rw [← sub_eq_zero] <;> (try rw [hs]) <;> (try rw [hc]) <;> field_simp <;> ring

/-- The geodesic that leaves a place in a given direction, and its speed. -/
noncomputable def line (p : LL) (β T : ℝ) : E3 :=
  gam (cos (reduced p.1)) (sin (reduced p.1)) (cos (radians β)) (sin (radians β)) (radians p.2) T

noncomputable def lineSpeed (p : LL) (β t : ℝ) : ℝ := a * w (cos (reduced p.1)) (sin (reduced p.1)) (cos (radians β)) t

/-- The geodesic of the auxiliary sphere leads where it leads. -/
theorem leads {p : LL} (hp : Lat p) (β T : ℝ) : Leads (ground p) (heading p β)
    (length (fun t => a * w (cos (reduced p.1)) (sin (reduced p.1)) (cos (radians β)) t) T)
    (gam (cos (reduced p.1)) (sin (reduced p.1)) (cos (radians β)) (sin (radians β)) (radians p.2) T) :=
  ⟨_, _, _, (ang _ _).geodesic, gam_zero hp _ _, tang_zero hp β, T, rfl, rfl⟩

end Verif.Geod
