import Verif.Globe.Props

/-!
# C62: the point of a great circle closest to a point
-/

namespace Verif.Globe

open Real InnerProductGeometry

local notation "⟪" x ", " y "⟫" => inner ℝ x y

/-- The direction to the left of the way is `heading` turned by a quarter. -/
theorem heading_turn (p : LL) (β γ : ℝ) : heading p γ = cos (radians γ - radians β) • heading p β + sin (radians γ - radians β) • heading p (β + 90) := by
  have h := sin_sq_add_cos_sq (radians β)
  unfold heading
  rw [show (β + 90) * π / 180 = radians β + π / 2 by rw [rad_eq]; ring, cos_add_pi_div_two, sin_add_pi_div_two, ← rad_eq, ← rad_eq, cos_sub, sin_sub]
  simp only [smul_add, smul_smul]
  have e1 : cos (radians γ) = (cos (radians γ) * cos (radians β) + sin (radians γ) * sin (radians β)) * cos (radians β) +
      (sin (radians γ) * cos (radians β) - cos (radians γ) * sin (radians β)) * -sin (radians β) := by linear_combination (-cos (radians γ)) * h
  have e2 : sin (radians γ) = (cos (radians γ) * cos (radians β) + sin (radians γ) * sin (radians β)) * sin (radians β) +
      (sin (radians γ) * cos (radians β) - cos (radians γ) * sin (radians β)) * cos (radians β) := by linear_combination (-sin (radians γ)) * h
  conv_lhs => rw [e1, e2]
  module

/-- The point seen along and across the way. -/
theorem across (p q x : LL) : place x = cos (central p x) • place p +
    (sin (central p x) * cos (radians (bearing p x) - radians (bearing p q))) • heading p (bearing p q) +
      (sin (central p x) * sin (radians (bearing p x) - radians (bearing p q))) • heading p (bearing p q + 90) := by
  conv_lhs => rw [target_eq p x]
  unfold arc
  rw [heading_turn p (bearing p q) (bearing p x), smul_add, smul_smul, smul_smul, add_assoc]

theorem side_heading (p : LL) (β : ℝ) : ⟪heading p β, heading p (β + 90)⟫ = 0 := by
  rw [heading_heading, show (β - (β + 90)) * π / 180 = -(π / 2) by ring, cos_neg, cos_pi_div_two]

/-- The angle to a point of the circle. -/
theorem track_inner (p q x : LL) (t : ℝ) : ⟪place x, arc (place p) (heading p (bearing p q)) t⟫ =
    cos (central p x) * cos t + sin (central p x) * cos (radians (bearing p x) - radians (bearing p q)) * sin t := by
  rw [across p q x]
  unfold arc
  simp only [inner_add_left, inner_add_right, inner_smul_left, inner_smul_right, place_inner_self, heading_norm, heading_place, real_inner_comm (place p) (heading p _),
    real_inner_comm (heading p (bearing p q)) (heading p (bearing p q + 90)), side_heading]
  simp; ring

/-- A unit vector in the plane of the way is a point of the arc. -/
theorem on_circle_arc (p q : LL) (h0 : 0 < central p q) (h1 : central p q < π) (y : LL) :
    OnCircle p q y ↔ ∃ t, place y = arc (place p) (heading p (bearing p q)) t := by
  have hs := sin_pos_of_pos_of_lt_pi h0 h1
  have hq := target_eq p q
  unfold OnCircle
  constructor
  · intro hm
    obtain ⟨a, b, hab⟩ := Submodule.mem_span_pair.1 hm
    have hy : place y = (a + b * cos (central p q)) • place p + (b * sin (central p q)) • heading p (bearing p q) := by
      rw [← hab, hq]; unfold arc; module
    generalize a + b * cos (central p q) = c at hy
    generalize b * sin (central p q) = s at hy
    have hn := place_inner_self y
    rw [hy] at hn
    simp only [inner_add_left, inner_add_right, inner_smul_left, inner_smul_right, place_inner_self, heading_norm, heading_place, real_inner_comm (place p) (heading p _)] at hn
    have hn : c ^ 2 + s ^ 2 = 1 := by simp at hn; linear_combination hn
    obtain ⟨k1, k2⟩ := atan2_cos_sin s c
    rw [hn, sqrt_one, one_mul] at k1
    rw [hn, sqrt_one, one_mul] at k2
    exact ⟨atan2 s c, by unfold arc; rw [k1, k2, hy]⟩
  · rintro ⟨t, ht⟩
    refine Submodule.mem_span_pair.2 ⟨cos t - sin t / sin (central p q) * cos (central p q), sin t / sin (central p q), ?_⟩
    conv_lhs => rw [hq]
    rw [ht]; unfold arc
    have e : sin t / sin (central p q) * sin (central p q) = sin t := div_mul_cancel₀ _ hs.ne'
    have : sin t • heading p (bearing p q) = (sin t / sin (central p q) * sin (central p q)) • heading p (bearing p q) := by rw [e]
    rw [this]; module

/-- Every unit vector is the place of a latitude and a longitude. -/
theorem place_surj (v : E3) (h : ‖v‖ = 1) : ∃ y : LL, place y = v := by
  obtain ⟨a, b, c, rfl⟩ : ∃ a b c, v = !₂[a, b, c] := ⟨v 0, v 1, v 2, ext3 rfl rfl rfl⟩
  refine ⟨_, atan2_place a b c ?_⟩
  have := real_inner_self_eq_norm_sq (!₂[a, b, c] : E3)
  rw [h, inner3] at this
  linear_combination this

theorem circle_point (p q : LL) (t : ℝ) : ∃ y : LL, place y = arc (place p) (heading p (bearing p q)) t :=
  place_surj _ (arc_norm (place_inner_self p) (heading_norm p _) (heading_place p _) t)

/-- The components along and across the way. -/
theorem track_cos (δ θ : ℝ) : cos (arcsin (sin δ * sin θ)) = √(cos δ ^ 2 + (sin δ * cos θ) ^ 2) := by
  rw [cos_arcsin]
  congr 1
  have h1 := sin_sq_add_cos_sq δ
  have h2 := sin_sq_add_cos_sq θ
  linear_combination (-sin δ ^ 2) * h2 - h1 

theorem cos_central_arc (p q x y : LL) (t : ℝ) (hy : place y = arc (place p) (heading p (bearing p q)) t) :
    cos (central x y) = cos (central p x) * cos t + sin (central p x) * cos (radians (bearing p x) - radians (bearing p q)) * sin t := by
  rw [cos_central, hy, track_inner]

theorem delta_eq (p x : LL) : distance 1 p x / R = central p x := by
  rw [distance_eq]; have := R_pos.ne'; field_simp

theorem abs_arcsin_le (s : ℝ) : |arcsin s| ≤ π / 2 := abs_le.2 ⟨neg_pi_div_two_le_arcsin s, arcsin_le_pi_div_two s⟩

/-- **C62**: `cross_track_distance` is the least distance from the point to a point of the great circle through origin and destination. -/
theorem c62_cross_track_distance (k : ℝ) (hk : 0 < k) (p q x : LL) (h0 : 0 < distance 1 p q) (h1 : distance 1 p q < π * R) :
    IsLeast {d | ∃ y, OnCircle p q y ∧ d = distance k x y} (crossTrackDistance k p q x) := by
  have hR := R_pos
  have hpi := pi_pos
  have c0 : 0 < central p q := by rw [← delta_eq]; positivity
  have c1 : central p q < π := by rw [← delta_eq]; exact (div_lt_iff₀ hR).2 h1
  have hval : crossTrackDistance k p q x = R * |arcsin (sin (central p x) * sin (radians (bearing p x) - radians (bearing p q)))| / k := by
    unfold crossTrackDistance
    simp only [delta_eq]
    rw [abs_mul, abs_of_pos hR, mul_comm]
  have hc := track_cos (central p x) (radians (bearing p x) - radians (bearing p q))
  have hab := abs_arcsin_le (sin (central p x) * sin (radians (bearing p x) - radians (bearing p q)))
  have ha0 := abs_nonneg (arcsin (sin (central p x) * sin (radians (bearing p x) - radians (bearing p q))))
  rw [← cos_abs] at hc
  rw [hval]
  generalize |arcsin (sin (central p x) * sin (radians (bearing p x) - radians (bearing p q)))| = A at *
  constructor
  · obtain ⟨y, hy⟩ := circle_point p q (atan2 (sin (central p x) * cos (radians (bearing p x) - radians (bearing p q))) (cos (central p x)))
    refine ⟨y, (on_circle_arc p q c0 c1 y).2 ⟨_, hy⟩, ?_⟩
    have hcy := cos_central_arc p q x y _ hy
    obtain ⟨k1, k2⟩ := atan2_cos_sin (sin (central p x) * cos (radians (bearing p x) - radians (bearing p q))) (cos (central p x))
    rw [← hc] at k1 k2
    have he : cos (central x y) = cos A := by
      rw [hcy]
      generalize atan2 (sin (central p x) * cos (radians (bearing p x) - radians (bearing p q))) (cos (central p x)) = t at k1 k2
      conv_lhs => rw [← k1]
      rw [← k2]
      linear_combination cos A * sin_sq_add_cos_sq t
    have := injOn_cos ⟨central_nonneg x y, central_le x y⟩ ⟨ha0, by linarith⟩ he
    rw [distance_eq, this]
  · rintro d ⟨y, hy, rfl⟩
    obtain ⟨t, ht⟩ := (on_circle_arc p q c0 c1 y).1 hy
    have hcy := cos_central_arc p q x y _ ht
    have hle : cos (central x y) ≤ cos A := by
      rw [hcy, hc]
      apply le_sqrt_of_sq_le
      have := sin_sq_add_cos_sq t
      generalize cos (central p x) = a
      generalize sin (central p x) * cos (radians (bearing p x) - radians (bearing p q)) = b
      nlinarith [sq_nonneg (a * sin t - b * cos t)]
    have : A ≤ central x y := by
      by_contra hc'
      have := strictAntiOn_cos ⟨central_nonneg x y, central_le x y⟩ ⟨ha0, by linarith⟩ (not_le.1 hc')
      linarith
    rw [distance_eq]
    exact div_le_div_of_nonneg_right (mul_le_mul_of_nonneg_left this hR.le) hk.le

/-- The point lies ahead of the origin, seen along the way to the destination. -/
def Ahead (p q x : LL) : Prop := 0 ≤ ⟪heading p (bearing p q), place x⟫

theorem ahead_iff (p q x : LL) : ⟪heading p (bearing p q), place x⟫ = sin (central p x) * cos (radians (bearing p x) - radians (bearing p q)) := by
  have := track_inner p q x (π / 2)
  unfold arc at this
  rw [cos_pi_div_two, sin_pi_div_two, zero_smul, one_smul, zero_add, mul_zero, zero_add, mul_one] at this
  rw [real_inner_comm]; exact this

/-- **C62** when the point is ahead of the origin, the origin is off the poles and the point is not a quarter of the globe away from the whole circle:
`cross_track_point` is a point of the great circle at the least distance from the point. -/
theorem c62_cross_track_point_partial (p q x : LL) (hp : OffPole p) (h0 : 0 < distance 1 p q) (h1 : distance 1 p q < π * R)
    (hx : Ahead p q x) (hd : crossTrackDistance 1 p q x < π / 2 * R) :
    ∃ y, crossTrackPoint p q x = .ok y ∧ OnCircle p q y ∧ distance 1 x y = crossTrackDistance 1 p q x := by
  have hR := R_pos
  have hpi := pi_pos
  have c0 : 0 < central p q := by rw [← delta_eq]; positivity
  have c1 : central p q < π := by rw [← delta_eq]; exact (div_lt_iff₀ hR).2 h1
  unfold Ahead at hx
  rw [ahead_iff] at hx
  have hval : crossTrackDistance 1 p q x = R * |arcsin (sin (central p x) * sin (radians (bearing p x) - radians (bearing p q)))| := by
    unfold crossTrackDistance
    simp only [delta_eq]
    rw [abs_mul, abs_of_pos hR, mul_comm, div_one]
  rw [hval] at hd
  have hc := track_cos (central p x) (radians (bearing p x) - radians (bearing p q))
  have ha0 := abs_nonneg (arcsin (sin (central p x) * sin (radians (bearing p x) - radians (bearing p q))))
  have hA : |arcsin (sin (central p x) * sin (radians (bearing p x) - radians (bearing p q)))| < π / 2 := by nlinarith
  unfold crossTrackPoint
  simp only [delta_eq]
  have hpos : 0 < cos (arcsin (sin (central p x) * sin (radians (bearing p x) - radians (bearing p q)))) := by
    rw [← cos_abs]; exact cos_pos_of_mem_Ioo ⟨by linarith, hA⟩
  rw [← cos_abs] at hc hpos
  rw [hval, if_neg (by rw [← cos_abs]; exact hpos.ne'), ← cos_abs (arcsin _)]
  generalize |arcsin (sin (central p x) * sin (radians (bearing p x) - radians (bearing p q)))| = A at *
  have hsq : cos A ^ 2 = cos (central p x) ^ 2 + (sin (central p x) * cos (radians (bearing p x) - radians (bearing p q))) ^ 2 := by
    rw [hc]; exact sq_sqrt (by positivity)
  have hle : |cos (central p x) / cos A| ≤ 1 := by
    rw [abs_div, abs_of_pos hpos, div_le_one hpos]
    apply abs_le_of_sq_le_sq _ hpos.le
    nlinarith [sq_nonneg (sin (central p x) * cos (radians (bearing p x) - radians (bearing p q)))]
  rw [if_neg (not_lt.2 hle)]
  have hpl := c60_destination_partial 1 p hp (bearing p q) (arccos (cos (central p x) / cos A) * R)
  rw [show arccos (cos (central p x) / cos A) * R * 1 / R = arccos (cos (central p x) / cos A) by field_simp] at hpl
  refine ⟨_, rfl, ?_, ?_⟩
  · rw [deg_rad]; exact (on_circle_arc p q c0 c1 _).2 ⟨_, hpl⟩
  · rw [deg_rad]
    have hcy := cos_central_arc p q x _ _ hpl
    have hl := abs_le.1 hle
    rw [cos_arccos hl.1 hl.2, sin_arccos] at hcy
    have hb : cos A * √(1 - (cos (central p x) / cos A) ^ 2) = sin (central p x) * cos (radians (bearing p x) - radians (bearing p q)) := by
      rw [← sqrt_sq hx, ← sqrt_sq hpos.le, ← sqrt_mul (sq_nonneg _), sqrt_sq hpos.le]
      congr 1
      field_simp
      linarith
    have he : cos (central x (pointFrom 1 p (bearing p q) (arccos (cos (central p x) / cos A) * R))) = cos A := by
      rw [hcy, ← hb]
      have hs2 : √(1 - (cos (central p x) / cos A) ^ 2) ^ 2 = 1 - (cos (central p x) / cos A) ^ 2 := by
        apply sq_sqrt
        rw [sub_nonneg, sq_le_one_iff_abs_le_one]; exact hle
      have hr : cos (central p x) = cos A * (cos (central p x) / cos A) := by field_simp
      generalize √(1 - (cos (central p x) / cos A) ^ 2) = r at hs2
      generalize cos (central p x) / cos A = w at *
      rw [hr]
      linear_combination cos A * hs2
    have := injOn_cos ⟨central_nonneg x _, central_le x _⟩ ⟨ha0, by linarith⟩ he
    rw [distance_eq, this, div_one]

/-- **C62 is violated when the point is behind the origin**: `acos` forgets the sign of the distance along the way, and the result is farther from the
point than the closest point of the circle. -/
theorem c62_behind (p q x : LL) (hp : OffPole p) (h0 : 0 < distance 1 p q) (h1 : distance 1 p q < π * R)
    (hx : ¬ Ahead p q x) (hd : crossTrackDistance 1 p q x < π / 2 * R) :
    ∃ y, crossTrackPoint p q x = .ok y ∧ OnCircle p q y ∧ crossTrackDistance 1 p q x < distance 1 x y := by
  have hR := R_pos
  have hpi := pi_pos
  have c0 : 0 < central p q := by rw [← delta_eq]; positivity
  have c1 : central p q < π := by rw [← delta_eq]; exact (div_lt_iff₀ hR).2 h1
  unfold Ahead at hx
  rw [ahead_iff, not_le] at hx
  have hval : crossTrackDistance 1 p q x = R * |arcsin (sin (central p x) * sin (radians (bearing p x) - radians (bearing p q)))| := by
    unfold crossTrackDistance
    simp only [delta_eq]
    rw [abs_mul, abs_of_pos hR, mul_comm, div_one]
  rw [hval] at hd
  have hc := track_cos (central p x) (radians (bearing p x) - radians (bearing p q))
  have ha0 := abs_nonneg (arcsin (sin (central p x) * sin (radians (bearing p x) - radians (bearing p q))))
  have hA : |arcsin (sin (central p x) * sin (radians (bearing p x) - radians (bearing p q)))| < π / 2 := by nlinarith
  unfold crossTrackPoint
  simp only [delta_eq]
  have hpos : 0 < cos (arcsin (sin (central p x) * sin (radians (bearing p x) - radians (bearing p q)))) := by
    rw [← cos_abs]; exact cos_pos_of_mem_Ioo ⟨by linarith, hA⟩
  rw [← cos_abs] at hc hpos
  rw [hval, if_neg (by rw [← cos_abs]; exact hpos.ne'), ← cos_abs (arcsin _)]
  generalize |arcsin (sin (central p x) * sin (radians (bearing p x) - radians (bearing p q)))| = A at *
  have hsq : cos A ^ 2 = cos (central p x) ^ 2 + (sin (central p x) * cos (radians (bearing p x) - radians (bearing p q))) ^ 2 := by
    rw [hc]; exact sq_sqrt (by positivity)
  have hle : |cos (central p x) / cos A| ≤ 1 := by
    rw [abs_div, abs_of_pos hpos, div_le_one hpos]
    apply abs_le_of_sq_le_sq _ hpos.le
    nlinarith [sq_nonneg (sin (central p x) * cos (radians (bearing p x) - radians (bearing p q)))]
  rw [if_neg (not_lt.2 hle)]
  have hpl := c60_destination_partial 1 p hp (bearing p q) (arccos (cos (central p x) / cos A) * R)
  rw [show arccos (cos (central p x) / cos A) * R * 1 / R = arccos (cos (central p x) / cos A) by field_simp] at hpl
  refine ⟨_, rfl, ?_, ?_⟩
  · rw [deg_rad]; exact (on_circle_arc p q c0 c1 _).2 ⟨_, hpl⟩
  · rw [deg_rad]
    have hcy := cos_central_arc p q x _ _ hpl
    have hl := abs_le.1 hle
    rw [cos_arccos hl.1 hl.2, sin_arccos] at hcy
    have hlt : cos (central x (pointFrom 1 p (bearing p q) (arccos (cos (central p x) / cos A) * R))) < cos A := by
      rw [hcy]
      have hr : cos (central p x) = cos A * (cos (central p x) / cos A) := by field_simp
      have hr0 := sqrt_nonneg (1 - (cos (central p x) / cos A) ^ 2)
      have hw : cos A * (cos (central p x) / cos A) ^ 2 < cos A := by
        have : (cos (central p x) / cos A) ^ 2 < 1 := by
          rw [div_pow, div_lt_one (by positivity), hsq]
          nlinarith [sq_pos_of_neg hx]
        nlinarith
      generalize √(1 - (cos (central p x) / cos A) ^ 2) = r at *
      generalize cos (central p x) / cos A = w at *
      rw [hr]
      nlinarith [mul_nonneg (neg_nonneg.2 hx.le) hr0]
    have : A < central x (pointFrom 1 p (bearing p q) (arccos (cos (central p x) / cos A) * R)) := by
      by_contra hc'
      have := strictAntiOn_cos.antitoneOn ⟨central_nonneg x _, central_le x _⟩ ⟨ha0, by linarith⟩ (not_lt.1 hc')
      linarith
    rw [distance_eq, div_one]
    exact mul_lt_mul_of_pos_left this hR

/-! ### A way along the equator -/

theorem equator_place (l : ℝ) : place (0, l) = !₂[cos (l * π / 180), sin (l * π / 180), 0] := by
  unfold place; simp

theorem quarter : central (0, 0) (0, 90) = π / 2 := by
  unfold central
  rw [← inner_eq_zero_iff_angle_eq_pi_div_two]
  unfold place; rw [inner3]
  have : (90 : ℝ) * π / 180 = π / 2 := by ring
  simp [this]

theorem quarter_distance : distance 1 (0, 0) (0, 90) = R * (π / 2) := by rw [distance_eq, quarter, div_one]

theorem quarter_heading : heading (0, 0) (bearing (0, 0) (0, 90)) = place (0, 90) := by
  have := target_eq (0, 0) (0, 90)
  rw [quarter] at this
  unfold arc at this
  rw [cos_pi_div_two, sin_pi_div_two, zero_smul, one_smul, zero_add] at this
  exact this.symm

theorem quarter_hyps : 0 < distance 1 (0, 0) (0, 90) ∧ distance 1 (0, 0) (0, 90) < π * R := by
  have := R_pos; have := pi_pos
  rw [quarter_distance]
  constructor
  · positivity
  · nlinarith

/-- A point ahead: (45, 45). -/
example : Ahead (0, 0) (0, 90) (45, 45) ∧ crossTrackDistance 1 (0, 0) (0, 90) (45, 45) < π / 2 * R := by
  have hR := R_pos
  have h90 : (90 : ℝ) * π / 180 = π / 2 := by ring
  have h45 : (45 : ℝ) * π / 180 = π / 4 := by ring
  have hin : ⟪place (0, 90), place (45, 45)⟫ = 1 / 2 := by
    unfold place; rw [inner3]; simp only [h90, h45, cos_pi_div_two, sin_pi_div_two, cos_pi_div_four, sin_pi_div_four]
    have := sq_sqrt (show (0 : ℝ) ≤ 2 by norm_num)
    simp; linear_combination (1 / 4) * this
  refine ⟨by unfold Ahead; rw [quarter_heading, hin]; norm_num, ?_⟩
  have hl := (c62_cross_track_distance 1 one_pos (0, 0) (0, 90) (45, 45) quarter_hyps.1 quarter_hyps.2).2
    ⟨(0, 90), Submodule.subset_span (by simp), rfl⟩
  refine lt_of_le_of_lt hl ?_
  rw [distance_eq, div_one, mul_comm]
  apply mul_lt_mul_of_pos_right _ hR
  by_contra hc
  have h1 := cos_nonpos_of_pi_div_two_le_of_le (not_lt.1 hc) (by linarith [central_le (45, 45) (0, 90), pi_pos])
  rw [cos_central, real_inner_comm, hin] at h1
  norm_num at h1

/-- A point behind: for (0, -90), which is on the circle, the result is at the other end of the globe. -/
example : ¬ Ahead (0, 0) (0, 90) (0, -90) ∧ crossTrackDistance 1 (0, 0) (0, 90) (0, -90) < π / 2 * R := by
  have hR := R_pos
  have hpi := pi_pos
  have h90 : (90 : ℝ) * π / 180 = π / 2 := by ring
  have h90' : (-90 : ℝ) * π / 180 = -(π / 2) := by ring
  have hm : place (0, -90) = (-1 : ℝ) • place (0, 90) := by
    rw [equator_place, equator_place, h90, h90']; apply ext3 <;> simp
  refine ⟨?_, ?_⟩
  · unfold Ahead; rw [quarter_heading, hm, inner_smul_right, place_inner_self]; norm_num
  have hl := (c62_cross_track_distance 1 one_pos (0, 0) (0, 90) (0, -90) quarter_hyps.1 quarter_hyps.2).2
    ⟨(0, -90), by unfold OnCircle; rw [hm]; exact Submodule.smul_mem _ _ (Submodule.subset_span (by simp)), rfl⟩
  rw [((c60_metric 1 one_pos).2.2.1 _ _).2 rfl] at hl
  have : 0 < π / 2 * R := by positivity
  linarith

end Verif.Globe
