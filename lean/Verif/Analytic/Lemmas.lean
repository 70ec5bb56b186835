import Verif.Analytic.Model
import Verif.Globe.Motion

/-! # The great-circle formulas against unit vectors -/

namespace Verif.Analytic

open Real InnerProductGeometry Verif.Globe Verif.Path

local notation "⟪" x ", " y "⟫" => inner ℝ x y

theorem rad_lat (g : Geo) : (toRadians g).lat = radians g.ll.1 ∧ (toRadians g).lon = radians g.ll.2 := by
  unfold toRadians Geo.ll
  cases g.rad
  · simp
  · simp only [if_true, rad_eq]
    have := pi_pos.ne'
    constructor <;> field_simp

theorem toRadians_idem (g : Geo) : toRadians (toRadians g) = toRadians g := by
  unfold toRadians
  cases h : g.rad <;> simp [h]

theorem rad_ll (g : Geo) : (toRadians g).ll = g.ll := by
  obtain ⟨h1, h2⟩ := rad_lat g
  have hr : (toRadians g).rad = true := by unfold toRadians; cases h : g.rad <;> simp [h]
  have : (toRadians g).ll = (degrees (toRadians g).lat, degrees (toRadians g).lon) := by
    unfold Geo.ll degrees; rw [hr]; simp [mul_div_assoc]
  rw [this, h1, h2, deg_rad, deg_rad]

theorem distRad_eq (a b : Geo) : getDistRad a b = central a.ll b.ll := by
  unfold getDistRad
  simp only []
  rw [(rad_lat a).1, (rad_lat a).2, (rad_lat b).1, (rad_lat b).2]
  have h := hav_eq a.ll b.ll
  unfold hav at h
  have e1 : sin ((radians a.ll.1 - radians b.ll.1) / 2) ^ 2 = sin (0.5 * (radians b.ll.1 - radians a.ll.1)) ^ 2 := by
    rw [show 0.5 * (radians b.ll.1 - radians a.ll.1) = -((radians a.ll.1 - radians b.ll.1) / 2) by norm_num; ring, sin_neg, neg_sq]
  have e2 : sin ((radians a.ll.2 - radians b.ll.2) / 2) ^ 2 = sin (0.5 * (radians b.ll.2 - radians a.ll.2)) ^ 2 := by
    rw [show 0.5 * (radians b.ll.2 - radians a.ll.2) = -((radians a.ll.2 - radians b.ll.2) / 2) by norm_num; ring, sin_neg, neg_sq]
  have c0 := central_nonneg a.ll b.ll
  have c1 := central_le a.ll b.ll
  rw [e1, e2, h, sqrt_sq (sin_nonneg_of_nonneg_of_le_pi (by linarith) (by linarith)), arcsin_sin (by linarith [pi_pos]) (by linarith)]
  ring

theorem course_idem (a b : Geo) : getCourseRad (toRadians a) (toRadians b) = getCourseRad a b := by
  unfold getCourseRad; simp only [toRadians_idem]

theorem pos_idem (a b : Geo) (d : ℝ) : getPos (toRadians a) (toRadians b) d = getPos a b d := by
  unfold getPos; simp only [toRadians_idem]

/-- A latitude. -/
def Lat (p : LL) : Prop := -90 ≤ p.1 ∧ p.1 ≤ 90

theorem OffPole.lat {p : LL} (h : OffPole p) : Lat p := ⟨h.1.le, h.2.le⟩

theorem Lat.cos_nonneg {p : LL} (h : Lat p) : 0 ≤ cos (radians p.1) := by
  have hpi := pi_pos
  rw [rad_eq]
  exact cos_nonneg_of_neg_pi_div_two_le_of_le (by nlinarith [h.1]) (by nlinarith [h.2])

/-- The course is the bearing, counted the other way round. -/
theorem course_spec (a b : Geo) (ha : OffPole a.ll) (hb : Lat b.ll) (h0 : 0 < central a.ll b.ll) (h1 : central a.ll b.ll < π) :
    ∃ tc, getCourseRad a b = .ok tc ∧ cos tc = cos (radians (bearing a.ll b.ll)) ∧ sin tc = -sin (radians (bearing a.ll b.ll)) := by
  have hc := ha.cos_pos
  have hs := sin_pos_of_pos_of_lt_pi h0 h1
  obtain ⟨b1, b2⟩ := bearing_spec a.ll b.ll
  have hcl := cos_central a.ll b.ll
  rw [place_inner] at hcl
  have hN : ⟪north a.ll, place b.ll⟫ = cos (radians a.ll.1) * sin (radians b.ll.1) - sin (radians a.ll.1) * cos (radians b.ll.1) * cos (radians b.ll.2 - radians a.ll.2) := by
    unfold north place; rw [inner3]; simp only [rad_eq, cos_sub]; ring
  have hE : ⟪east a.ll, place b.ll⟫ = sin (radians b.ll.2 - radians a.ll.2) * cos (radians b.ll.1) := by
    unfold east place; rw [inner3]; simp only [rad_eq, sin_sub]; ring
  rw [hN] at b1
  rw [hE] at b2
  have hx : (sin (radians b.ll.1) - sin (radians a.ll.1) * cos (central a.ll b.ll)) / (sin (central a.ll b.ll) * cos (radians a.ll.1)) = cos (radians (bearing a.ll b.ll)) := by
    rw [div_eq_iff (by positivity)]
    have h := sin_sq_add_cos_sq (radians a.ll.1)
    have e : cos (central a.ll b.ll) = sin (radians a.ll.1) * sin (radians b.ll.1) + cos (radians a.ll.1) * cos (radians b.ll.1) * cos (radians b.ll.2 - radians a.ll.2) := by
      rw [hcl]; try ring
    rw [e]
    linear_combination (-sin (radians b.ll.1)) * h - cos (radians a.ll.1) * b1
  unfold getCourseRad
  simp only [toRadians_idem, distRad_eq, rad_ll]
  simp only [(rad_lat a).1, (rad_lat a).2, (rad_lat b).1, (rad_lat b).2]
  rw [if_neg (by positivity), hx, if_neg (by have := abs_cos_le_one (radians (bearing a.ll b.ll)); linarith)]
  generalize radians (bearing a.ll b.ll) = β at *
  have hsin : sin (arccos (cos β)) = |sin β| := by
    rw [sin_arccos, ← sqrt_sq_eq_abs]; congr 1; have := sin_sq_add_cos_sq β; linarith
  have hcos : cos (arccos (cos β)) = cos β := cos_arccos (neg_one_le_cos β) (cos_le_one β)
  have hbn := hb.cos_nonneg
  split
  · rename_i hneg
    refine ⟨_, rfl, hcos, ?_⟩
    have : sin β ≤ 0 := by
      by_contra hp; push Not at hp
      have := mul_pos hs hp
      nlinarith
    rw [hsin, abs_of_nonpos this]
  · rename_i hneg; push Not at hneg
    refine ⟨_, rfl, by rw [cos_two_pi_sub, hcos], ?_⟩
    have : 0 ≤ sin β := by
      by_contra hp; push Not at hp
      have := mul_neg_of_pos_of_neg hs hp
      nlinarith [mul_nonneg hneg hbn]
    rw [sin_two_pi_sub, hsin, abs_of_nonneg this]

theorem atan2_neg (y x : ℝ) : cos (atan2 (-y) x) = cos (atan2 y x) ∧ sin (atan2 (-y) x) = -sin (atan2 y x) := by
  obtain ⟨h1, h2⟩ := atan2_cos_sin y x
  obtain ⟨h3, h4⟩ := atan2_cos_sin (-y) x
  rw [neg_sq] at h3 h4
  by_cases hz : √(x ^ 2 + y ^ 2) = 0
  · rw [hz] at h1 h2
    have hx : x = 0 := by linarith
    have hy : y = 0 := by linarith
    rw [hx, hy, neg_zero, show atan2 0 0 = 0 by unfold atan2; exact Complex.arg_zero]; simp
  · constructor
    · exact mul_left_cancel₀ hz (h3.trans h1.symm)
    · apply mul_left_cancel₀ hz; rw [h4, mul_neg, h2]

theorem pmod_turn (z : ℝ) : cos (pmod (z + π) (2 * π) - π) = cos z ∧ sin (pmod (z + π) (2 * π) - π) = sin z := by
  unfold pmod
  rw [show z + π - 2 * π * (⌊(z + π) / (2 * π)⌋ : ℝ) - π = z - (⌊(z + π) / (2 * π)⌋ : ℤ) * (2 * π) by ring, cos_sub_int_mul_two_pi, sin_sub_int_mul_two_pi]
  exact ⟨rfl, rfl⟩

/-- `get_pos_from_points_and_distance` is the point of the great circle. -/
theorem pos_spec (a b : Geo) (ha : OffPole a.ll) (hb : Lat b.ll) (h0 : 0 < central a.ll b.ll) (h1 : central a.ll b.ll < π) (s : ℝ) :
    ∃ x, getPos a b s = .ok x ∧ place (degrees x.1, degrees x.2) = arc (place a.ll) (heading a.ll (bearing a.ll b.ll)) s := by
  obtain ⟨tc, g1, g2, g3⟩ := course_spec a b ha hb h0 h1
  have hR := R_pos
  have hp := c60_destination_partial R a.ll ha (bearing a.ll b.ll) s
  rw [mul_div_cancel_right₀ _ hR.ne'] at hp
  unfold getPos
  simp only [course_idem, g1]
  refine ⟨_, rfl, ?_⟩
  rw [← hp]
  simp only [(rad_lat a).1, (rad_lat a).2, g2, g3]
  unfold pointFrom place
  simp only [mul_div_cancel_right₀ _ hR.ne', ← rad_eq, rad_deg, sinLat]
  set lat := arcsin (sin (radians a.ll.1) * cos s + cos (radians a.ll.1) * sin s * cos (radians (bearing a.ll b.ll))) with hlat
  obtain ⟨m1, m2⟩ := pmod_turn (radians a.ll.2 - atan2 (-sin (radians (bearing a.ll b.ll)) * sin s * cos (radians a.ll.1)) (cos s - sin (radians a.ll.1) * sin lat))
  obtain ⟨n1, n2⟩ := atan2_neg (sin (radians (bearing a.ll b.ll)) * sin s * cos (radians a.ll.1)) (cos s - sin (radians a.ll.1) * sin lat)
  rw [m1, m2]
  rw [show -sin (radians (bearing a.ll b.ll)) * sin s * cos (radians a.ll.1) = -(sin (radians (bearing a.ll b.ll)) * sin s * cos (radians a.ll.1)) by ring]
  rw [cos_sub, sin_sub, n1, n2, cos_add, sin_add]
  apply ext3
  · show cos lat * _ = cos lat * _; ring
  · show cos lat * _ = cos lat * _; ring
  · rfl

/-! ### The window of the leg inside the range -/

/-- The cosine of the distance from the sensor, along the leg. -/
noncomputable def seen (p q x : LL) (s : ℝ) : ℝ :=
  cos (central p x) * cos s + sin (central p x) * cos (radians (bearing p x) - radians (bearing p q)) * sin s

theorem seen_wave (p q x : LL) (s : ℝ) :
    seen p q x s = √(cos (central p x) ^ 2 + (sin (central p x) * cos (radians (bearing p x) - radians (bearing p q))) ^ 2) *
      cos (s - atan2 (sin (central p x) * cos (radians (bearing p x) - radians (bearing p q))) (cos (central p x))) := by
  obtain ⟨h1, h2⟩ := atan2_cos_sin (sin (central p x) * cos (radians (bearing p x) - radians (bearing p q))) (cos (central p x))
  unfold seen
  generalize sin (central p x) * cos (radians (bearing p x) - radians (bearing p q)) = A at *
  generalize cos (central p x) = B at *
  rw [cos_sub]
  linear_combination (-cos s) * h1 - sin s * h2

theorem amplitude_le (p q x : LL) : cos (central p x) ^ 2 + (sin (central p x) * cos (radians (bearing p x) - radians (bearing p q))) ^ 2 ≤ 1 := by
  have h := sin_sq_add_cos_sq (central p x)
  have h2 := cos_sq_le_one (radians (bearing p x) - radians (bearing p q))
  nlinarith [sq_nonneg (sin (central p x))]

theorem atan2_range (y x : ℝ) : -π < atan2 y x ∧ atan2 y x ≤ π := ⟨Complex.neg_pi_lt_arg _, Complex.arg_le_pi _⟩

/-- Comparing cosines over more than half a turn. -/
theorem cos_window {u δ : ℝ} (h0 : 0 ≤ δ) (h1 : δ ≤ π) (hl : -π ≤ u) (hr : u < 2 * π - δ) :
    (cos δ ≤ cos u ↔ -δ ≤ u ∧ u ≤ δ) ∧ (cos δ < cos u ↔ -δ < u ∧ u < δ) := by
  by_cases hu : u ≤ π
  · have hab : |u| ≤ π := abs_le.2 ⟨hl, hu⟩
    rw [← cos_abs u]
    constructor
    · rw [strictAntiOn_cos.le_iff_ge ⟨h0, h1⟩ ⟨abs_nonneg u, hab⟩, abs_le]
    · rw [strictAntiOn_cos.lt_iff_gt ⟨h0, h1⟩ ⟨abs_nonneg u, hab⟩, abs_lt]
  · push Not at hu
    have hlt : cos u < cos δ := by
      rw [← cos_two_pi_sub u]
      exact strictAntiOn_cos ⟨h0, h1⟩ ⟨by linarith, by linarith⟩ (by linarith)
    exact ⟨⟨fun h => absurd h (not_le.2 hlt), fun h => by linarith [h.2]⟩, ⟨fun h => absurd h (not_lt.2 hlt.le), fun h => by linarith [h.2]⟩⟩

end Verif.Analytic
