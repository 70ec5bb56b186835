import Verif.Globe.Lemmas

/-!
# C60: distance, bearing and destination of the spherical earth model
-/

namespace Verif.Globe

open Real InnerProductGeometry

local notation "⟪" x ", " y "⟫" => inner ℝ x y

theorem R_pos : 0 < R := by unfold R; norm_num

/-- **C60**: `distance` is the length of the great-circle arc between the two places. -/
theorem c60_distance (k : ℝ) (p q : LL) : distance k p q = R * angle (place p) (place q) / k := distance_eq k p q

theorem eq_of_angle_zero (p q : LL) (h : angle (place p) (place q) = 0) : place p = place q := by
  obtain ⟨-, r, hr, he⟩ := angle_eq_zero_iff.1 h
  have := place_norm q
  rw [he, norm_smul, place_norm, mul_one, norm_eq_abs, abs_of_pos hr] at this
  rw [he, this, one_smul]

/-- **C60**: `distance` is a metric on places, bounded by half of the circumference. -/
theorem c60_metric (k : ℝ) (hk : 0 < k) :
    (∀ p q, distance k p q = distance k q p) ∧ (∀ p q, 0 ≤ distance k p q ∧ distance k p q * k ≤ π * R) ∧
      (∀ p q, distance k p q = 0 ↔ place p = place q) ∧ ∀ p q r, distance k p r ≤ distance k p q + distance k q r := by
  have hR := R_pos
  refine ⟨fun p q => ?_, fun p q => ⟨?_, ?_⟩, fun p q => ⟨fun h => ?_, fun h => ?_⟩, fun p q r => ?_⟩
  · rw [c60_distance, c60_distance, angle_comm]
  · rw [c60_distance]; have := angle_nonneg (place p) (place q); positivity
  · rw [c60_distance, div_mul_cancel₀ _ hk.ne']; nlinarith [angle_le_pi (place p) (place q)]
  · rw [c60_distance] at h
    have h1 : R * angle (place p) (place q) = 0 := by
      rcases div_eq_zero_iff.1 h with h | h
      · exact h
      · exact absurd h hk.ne'
    exact eq_of_angle_zero p q (by rcases mul_eq_zero.1 h1 with h | h; exact absurd h hR.ne'; exact h)
  · rw [c60_distance, h, angle_self (place_ne q)]; simp
  · rw [c60_distance, c60_distance, c60_distance, ← add_div, ← mul_add]
    exact div_le_div_of_nonneg_right (mul_le_mul_of_nonneg_left (angle_le_angle_add_angle _ _ _) hR.le) hk.le

example : distance 1 (0, 0) (0, 90) = R * (π / 2) := by
  rw [c60_distance, div_one]
  congr 1
  rw [← inner_eq_zero_iff_angle_eq_pi_div_two]
  unfold place; rw [inner3]
  have : (90 : ℝ) * π / 180 = π / 2 := by ring
  simp [this]

/-- Two points are the same place exactly if the latitudes agree and the longitudes agree up to full turns, or at a pole. -/
theorem c60_same_place (p q : LL) (hp : -90 ≤ p.1 ∧ p.1 ≤ 90) (hq : -90 ≤ q.1 ∧ q.1 ≤ 90) :
    place p = place q ↔ p.1 = q.1 ∧ (p.1 = 90 ∨ p.1 = -90 ∨ ∃ n : ℤ, q.2 - p.2 = 360 * n) := by
  have hpi := pi_pos
  constructor
  · intro h
    have h2 : sin (p.1 * π / 180) = sin (q.1 * π / 180) := by have := congrArg (fun v : E3 => v 2) h; simpa [place] using this
    have h1 : p.1 = q.1 := by
      have := injOn_sin (show p.1 * π / 180 ∈ Set.Icc (-(π / 2)) (π / 2) by constructor <;> nlinarith)
        (show q.1 * π / 180 ∈ Set.Icc (-(π / 2)) (π / 2) by constructor <;> nlinarith) h2
      have : p.1 * π = q.1 * π := by linarith
      exact mul_right_cancel₀ hpi.ne' this
    refine ⟨h1, ?_⟩
    by_cases ha : p.1 = 90
    · exact .inl ha
    by_cases hb : p.1 = -90
    · exact .inr (.inl hb)
    refine .inr (.inr ?_)
    have hc : 0 < cos (p.1 * π / 180) := by
      rw [← rad_eq]
      exact OffPole.cos_pos ⟨lt_of_le_of_ne hp.1 (Ne.symm hb), lt_of_le_of_ne hp.2 ha⟩
    have hx : cos (p.2 * π / 180) = cos (q.2 * π / 180) := by
      have := congrArg (fun v : E3 => v 0) h; simp only [place, ← h1] at this
      exact mul_left_cancel₀ hc.ne' (by simpa using this)
    have hy : sin (p.2 * π / 180) = sin (q.2 * π / 180) := by
      have := congrArg (fun v : E3 => v 1) h; simp only [place, ← h1] at this
      exact mul_left_cancel₀ hc.ne' (by simpa using this)
    have he : cos (q.2 * π / 180 - p.2 * π / 180) = 1 := by
      rw [cos_sub, ← hx, ← hy]; nlinarith [sin_sq_add_cos_sq (p.2 * π / 180)]
    obtain ⟨n, hn⟩ := (cos_eq_one_iff _).1 he
    exact ⟨n, by have : (q.2 - p.2) * π = 360 * n * π := by linarith
                 exact mul_right_cancel₀ hpi.ne' this⟩
  · rintro ⟨h1, h2⟩
    rcases h2 with h2 | h2 | ⟨n, h2⟩
    · have e : (90 : ℝ) * π / 180 = π / 2 := by ring
      unfold place; rw [← h1, h2, e]; simp
    · have e : (-90 : ℝ) * π / 180 = -(π / 2) := by ring
      unfold place; rw [← h1, h2, e]; simp
    · have e : q.2 * π / 180 = p.2 * π / 180 + n * (2 * π) := by
        have : q.2 = p.2 + 360 * n := by linarith
        rw [this]; ring
      unfold place; rw [← h1, e, cos_add_int_mul_two_pi, sin_add_int_mul_two_pi]

/-- `bearing` is in [0, 360). -/
theorem c60_bearing_range (p q : LL) : 0 ≤ bearing p q ∧ bearing p q < 360 := by
  unfold bearing bearingRad pmod
  simp only []
  generalize degrees _ = x
  have h1 := Int.floor_le (x / 360)
  have h2 := Int.lt_floor_add_one (x / 360)
  constructor
  · have := (le_div_iff₀ (by norm_num : (0 : ℝ) < 360)).1 h1; linarith
  · have := (div_lt_iff₀ (by norm_num : (0 : ℝ) < 360)).1 h2; linarith

/-- **C60**: `bearing` and `distance` describe the target as seen from the start: it is on the great circle that leaves the start in the
direction `bearing`, clockwise from north, at `distance`. This holds at the poles too. -/
theorem c60_target (k : ℝ) (hk : 0 < k) (p q : LL) : place q = arc (place p) (heading p (bearing p q)) (distance k p q * k / R) := by
  have : distance k p q * k / R = central p q := by
    rw [distance_eq]; have := R_pos.ne'; field_simp
  rw [this]; exact target_eq p q

/-- **C60** for starts off the poles: `point_from_bearing_dist` goes the given distance along the great circle of the given bearing. -/
theorem c60_destination_partial (k : ℝ) (p : LL) (hp : OffPole p) (β d : ℝ) :
    place (pointFrom k p β d) = arc (place p) (heading p β) (d * k / R) := pointFrom_place k p hp.cos_pos β d

/-- `asin` is called inside its domain, so `point_from_bearing_dist` does not raise. -/
theorem c60_asin_domain (k : ℝ) (p : LL) (β d : ℝ) : |sinLat (radians p.1) (d * k / R) (radians β)| ≤ 1 := sinLat_le p _ β

theorem arc_central (p : LL) (β t : ℝ) (h0 : 0 ≤ t) (h1 : t ≤ π) : angle (place p) (arc (place p) (heading p β) t) = t := by
  have := arc_angle (place_inner_self p) (heading_norm p β) (heading_place p β) 0 t h0 (by linarith)
  rwa [arc_zero, sub_zero] at this

/-- **C60** for starts off the poles: the distance to the destination is the distance asked for. -/
theorem c60_destination_distance_partial (k : ℝ) (hk : 0 < k) (p : LL) (hp : OffPole p) (β d : ℝ) (h0 : 0 ≤ d) (h1 : d * k ≤ π * R) :
    distance k p (pointFrom k p β d) = d := by
  have hR := R_pos
  rw [c60_distance, c60_destination_partial k p hp, arc_central p β _ (by positivity) ((div_le_iff₀ hR).2 h1)]
  field_simp

theorem bearing_unique (p q : LL) (h0 : 0 < central p q) (h1 : central p q < π) (β : ℝ) (h : place q = arc (place p) (heading p β) (central p q)) :
    bearing p q = pmod β 360 := by
  have hs := sin_pos_of_pos_of_lt_pi h0 h1
  obtain ⟨hc, hsn⟩ := bearing_spec p q
  have hn : ⟪north p, place q⟫ = sin (central p q) * cos (radians β) := by
    rw [h]; unfold arc heading
    simp only [inner_add_right, inner_smul_right, north_north, north_east, real_inner_comm (place p) (north p), north_place, rad_eq]; simp
  have he : ⟪east p, place q⟫ = sin (central p q) * sin (radians β) := by
    rw [h]; unfold arc heading
    simp only [inner_add_right, inner_smul_right, east_east, real_inner_comm (north p) (east p), north_east, real_inner_comm (place p) (east p), east_place, rad_eq]; simp
  have hcc := mul_left_cancel₀ hs.ne' (hc.trans hn)
  have hss := mul_left_cancel₀ hs.ne' (hsn.trans he)
  have h1 : cos (radians (bearing p q) - radians β) = 1 := by
    rw [cos_sub, hcc, hss]; nlinarith [sin_sq_add_cos_sq (radians β)]
  obtain ⟨n, hn⟩ := (cos_eq_one_iff _).1 h1
  have hb : β = bearing p q - 360 * n := by
    have : (bearing p q - β) * π = 360 * n * π := by simp only [rad_eq] at hn; linarith
    have := mul_right_cancel₀ pi_pos.ne' this
    linarith
  obtain ⟨r0, r1⟩ := c60_bearing_range p q
  have hf : ⌊β / 360⌋ = -n := by
    rw [Int.floor_eq_iff]
    constructor
    · rw [le_div_iff₀ (by norm_num)]; push_cast; linarith
    · rw [div_lt_iff₀ (by norm_num)]; push_cast; linarith
  unfold pmod
  rw [hf, hb]; push_cast; ring

/-- **C60** for starts off the poles: the bearing of the destination is the bearing asked for. -/
theorem c60_destination_bearing_partial (k : ℝ) (p : LL) (hp : OffPole p) (β d : ℝ) (h0 : 0 < d * k) (h1 : d * k < π * R) :
    bearing p (pointFrom k p β d) = pmod β 360 := by
  have hR := R_pos
  have hd := c60_destination_partial k p hp β d
  have hc : central p (pointFrom k p β d) = d * k / R := by
    unfold central; rw [hd, arc_central p β _ (by positivity) ((div_le_iff₀ hR).2 h1.le)]
  refine bearing_unique p _ (by rw [hc]; positivity) (by rw [hc]; exact (div_lt_iff₀ hR).2 h1) β (by rw [hc]; exact hd)

/-- **C60** for starts off the poles: going `distance` along `bearing` leads to the target. -/
theorem c60_reach_partial (k : ℝ) (hk : 0 < k) (p q : LL) (hp : OffPole p) : place (pointFrom k p (bearing p q) (distance k p q)) = place q := by
  rw [c60_destination_partial k p hp, ← c60_target k hk p q]

/-- **C60** for starts off the poles: going a part of the distance along the bearing to a target leads to a place at that part of the distance, with the
rest of the distance left. -/
theorem c60_part_partial (k : ℝ) (hk : 0 < k) (p q : LL) (hp : OffPole p) (f : ℝ) (h0 : 0 ≤ f) (h1 : f ≤ 1) :
    distance k p (pointFrom k p (bearing p q) (f * distance k p q)) = f * distance k p q ∧
      distance k (pointFrom k p (bearing p q) (f * distance k p q)) q = (1 - f) * distance k p q := by
  have hR := R_pos
  obtain ⟨-, hb, -, -⟩ := c60_metric k hk
  obtain ⟨b0, b1⟩ := hb p q
  refine ⟨c60_destination_distance_partial k hk p hp _ _ (by positivity) (by nlinarith [mul_nonneg b0 hk.le]), ?_⟩
  have e : distance k p q * k / R = central p q := by rw [distance_eq]; field_simp
  have e' : f * distance k p q * k / R = f * central p q := by rw [← e]; ring
  rw [c60_distance, c60_destination_partial k p hp, c60_target k hk p q, e, e',
    arc_angle (place_inner_self p) (heading_norm p _) (heading_place p _) _ _ (by nlinarith [central_nonneg p q])
      (by nlinarith [central_nonneg p q, central_le p q]), distance_eq]
  ring

example : place (pointFrom 1 (0, 0) 90 (R * (π / 2))) = place (0, 90) := by
  have h := c60_destination_partial 1 (0, 0) ⟨by norm_num, by norm_num⟩ 90 (R * (π / 2))
  have hR := R_pos.ne'
  rw [h, show R * (π / 2) * 1 / R = π / 2 by field_simp]
  unfold arc heading place east north
  have : (90 : ℝ) * π / 180 = π / 2 := by ring
  apply ext3 <;> simp [this]

/-! ### At the poles -/

theorem pole_point (k : ℝ) (p : LL) (hp : p.1 = 90 ∨ p.1 = -90) (β d : ℝ) :
    pointFrom k p β d = (degrees (arcsin (sin (radians p.1) * cos (d * k / R))), p.2) := by
  have hc : cos (radians p.1) = 0 := by
    rcases hp with hp | hp <;> rw [hp, rad_eq]
    · rw [show (90 : ℝ) * π / 180 = π / 2 by ring, cos_pi_div_two]
    · rw [show (-90 : ℝ) * π / 180 = -(π / 2) by ring, cos_neg, cos_pi_div_two]
  have hs : sin (radians p.1) ^ 2 = 1 := by have := sin_sq_add_cos_sq (radians p.1); rw [hc] at this; linarith
  have hle := abs_le.1 (sinLat_le p (d * k / R) β)
  unfold pointFrom
  simp only []
  rw [sin_arcsin hle.1 hle.2]
  unfold sinLat
  rw [hc]
  have e : cos (d * k / R) - sin (radians p.1) * (sin (radians p.1) * cos (d * k / R) + 0 * sin (d * k / R) * cos (radians β)) = 0 := by
    linear_combination (-cos (d * k / R)) * hs
  rw [e, mul_zero, show atan2 0 0 = 0 by unfold atan2; exact Complex.arg_zero, add_zero, deg_rad, zero_mul, zero_mul, add_zero]

/-- **C60 is violated at the poles**: the bearing is ignored, every destination is on the meridian of the start. -/
theorem c60_pole_ignores_bearing (k : ℝ) (p : LL) (hp : p.1 = 90 ∨ p.1 = -90) (β d : ℝ) :
    (pointFrom k p β d).2 = p.2 ∧ ∀ β', pointFrom k p β' d = pointFrom k p β d :=
  ⟨by rw [pole_point k p hp], fun β' => by rw [pole_point k p hp, pole_point k p hp]⟩

/-- **C60 is violated at the poles**: going the distance along the bearing to a target arrives at its latitude, but on the meridian of the start. -/
theorem c60_pole_misses (k : ℝ) (hk : 0 < k) (p q : LL) (hp : p.1 = 90 ∨ p.1 = -90) (hq : -90 ≤ q.1 ∧ q.1 ≤ 90) :
    pointFrom k p (bearing p q) (distance k p q) = (q.1, p.2) := by
  have hpi := pi_pos
  have hR := R_pos.ne'
  rw [pole_point k p hp, show distance k p q * k / R = central p q by rw [distance_eq]; field_simp, cos_central, place_inner]
  have hc : cos (radians p.1) = 0 ∧ sin (radians p.1) * sin (radians p.1) = 1 := by
    rcases hp with hp | hp <;> rw [hp, rad_eq]
    · rw [show (90 : ℝ) * π / 180 = π / 2 by ring]; simp
    · rw [show (-90 : ℝ) * π / 180 = -(π / 2) by ring]; simp
  rw [hc.1, zero_mul, zero_mul, zero_add, ← mul_assoc, hc.2, one_mul, arcsin_sin (by rw [rad_eq]; nlinarith) (by rw [rad_eq]; nlinarith), deg_rad]

/-- For instance, on the way from the north pole to (0, 90) one ends at (0, 0), a quarter of the globe away. -/
theorem c60_pole_example : pointFrom 1 (90, 0) (bearing (90, 0) (0, 90)) (distance 1 (90, 0) (0, 90)) = (0, 0) ∧ place (0, 0) ≠ place (0, 90) := by
  refine ⟨c60_pole_misses 1 one_pos (90, 0) (0, 90) (.inl rfl) ⟨by norm_num, by norm_num⟩, fun h => ?_⟩
  have h := ((c60_same_place (0, 0) (0, 90) ⟨by norm_num, by norm_num⟩ ⟨by norm_num, by norm_num⟩).1 h).2
  rcases h with h | h | ⟨n, h⟩
  · norm_num at h
  · norm_num at h
  · have h : (90 : ℝ) = 360 * n := by simpa using h
    have h1 : (0 : ℝ) < n := by linarith
    have h2 : (n : ℝ) < 1 := by linarith
    have h1 : (0 : ℤ) < n := by exact_mod_cast h1
    have h2 : n < (1 : ℤ) := by exact_mod_cast h2
    omega

/-! ### `point_along` -/

theorem atan2_place (x y z : ℝ) (h : x ^ 2 + y ^ 2 + z ^ 2 = 1) : place (degrees (atan2 z (√(x ^ 2 + y ^ 2))), degrees (atan2 y x)) = !₂[x, y, z] := by
  have h1 := atan2_cos_sin z (√(x ^ 2 + y ^ 2))
  have h2 := atan2_cos_sin y x
  rw [sq_sqrt (by positivity), h, sqrt_one, one_mul, one_mul] at h1
  unfold place
  simp only [← rad_eq, rad_deg]
  rw [h1.1, h1.2, h2.1, h2.2]

/-- **C60**: `point_along` gives the place at the given part of the way, for points that are neither the same nor opposite. -/
theorem c60_point_along_partial (p q : LL) (h0 : 0 < distance 1 p q) (h1 : distance 1 p q < π * R) (f : ℝ) :
    ∃ x, pointAlong p q f = .ok x ∧ place x = arc (place p) (heading p (bearing p q)) (f * distance 1 p q / R) := by
  have hR := R_pos
  have e : distance 1 p q / R = central p q := by rw [distance_eq]; field_simp
  have c0 : 0 < central p q := by rw [← e]; positivity
  have c1 : central p q < π := by rw [← e]; exact (div_lt_iff₀ hR).2 h1
  have hs := sin_pos_of_pos_of_lt_pi c0 c1
  have hq := target_eq p q
  have hv : ∀ a b : ℝ, a * sin (central p q) = sin ((1 - f) * central p q) → b * sin (central p q) = sin (f * central p q) →
      a • place p + b • place q = arc (place p) (heading p (bearing p q)) (f * central p q) := by
    intro a b ha hb
    rw [hq]
    unfold arc
    have hb' : b * sin (central p q) = sin (f * central p q) := hb
    have ha' : a + b * cos (central p q) = cos (f * central p q) := by
      apply mul_right_cancel₀ hs.ne'
      rw [show (1 - f) * central p q = central p q - f * central p q by ring, sin_sub] at ha
      linear_combination ha + cos (central p q) * hb
    rw [smul_add, smul_smul, smul_smul, hb', ← add_assoc, ← add_smul, ha']
  have hn := arc_norm (place_inner_self p) (heading_norm p (bearing p q)) (heading_place p (bearing p q)) (f * central p q)
  unfold pointAlong pointAlongRad
  rw [e, if_neg hs.ne']
  have key := hv (sin ((1 - f) * central p q) / sin (central p q)) (sin (f * central p q) / sin (central p q))
    (div_mul_cancel₀ _ hs.ne') (div_mul_cancel₀ _ hs.ne')
  rw [show f * distance 1 p q / R = f * central p q by rw [← e]; ring]
  refine ⟨_, rfl, ?_⟩
  rw [← key] at hn ⊢
  generalize sin ((1 - f) * central p q) / sin (central p q) = a at *
  generalize sin (f * central p q) / sin (central p q) = b at *
  have hvec : a • place p + b • place q = !₂[a * cos (radians p.1) * cos (radians p.2) + b * cos (radians q.1) * cos (radians q.2),
      a * cos (radians p.1) * sin (radians p.2) + b * cos (radians q.1) * sin (radians q.2), a * sin (radians p.1) + b * sin (radians q.1)] := by
    unfold place; simp only [← rad_eq]; apply ext3 <;> simp <;> ring
  rw [hvec] at hn ⊢
  apply atan2_place
  have := real_inner_self_eq_norm_sq (!₂[a * cos (radians p.1) * cos (radians p.2) + b * cos (radians q.1) * cos (radians q.2),
      a * cos (radians p.1) * sin (radians p.2) + b * cos (radians q.1) * sin (radians q.2), a * sin (radians p.1) + b * sin (radians q.1)] : E3)
  rw [hn, inner3] at this
  linear_combination this

/-- **C60**: the two ways of going a part of the way agree, off the poles. -/
theorem c60_ways_agree_partial (p q : LL) (hp : OffPole p) (h0 : 0 < distance 1 p q) (h1 : distance 1 p q < π * R) (f : ℝ) :
    ∃ x, pointAlong p q f = .ok x ∧ place x = place (pointFrom 1 p (bearing p q) (f * distance 1 p q)) := by
  obtain ⟨x, hx, hx'⟩ := c60_point_along_partial p q h0 h1 f
  exact ⟨x, hx, by rw [hx', c60_destination_partial 1 p hp, mul_one]⟩

/-- **C60 is violated**: `point_along` between equal places raises. (For opposite places too, but there floating-point numbers keep `sin(π)` off zero.) -/
theorem c60_point_along_same (p q : LL) (h : place p = place q) (f : ℝ) : pointAlong p q f = .error .zeroDivision := by
  have e : distance 1 p q = 0 := ((c60_metric 1 one_pos).2.2.1 p q).2 h
  unfold pointAlong pointAlongRad
  rw [e, zero_div, if_pos sin_zero]

example : pointAlong (10, 20) (10, 380) (1 / 2) = .error .zeroDivision :=
  c60_point_along_same _ _ ((c60_same_place (10, 20) (10, 380) ⟨by norm_num, by norm_num⟩ ⟨by norm_num, by norm_num⟩).2
    ⟨rfl, .inr (.inr ⟨1, by norm_num⟩)⟩) _

/-- The longitude of a destination is not brought back to [-180, 180]: 20 degrees east of (0, 170) is (0, 190). -/
theorem c60_longitude_past_180 : pointFrom 1 (0, 170) 90 (R * radians 20) = (0, 190) := by
  have hR := R_pos.ne'
  have hpi := pi_pos
  unfold pointFrom sinLat
  simp only []
  rw [show R * radians 20 * 1 / R = radians 20 by field_simp, show radians 0 = 0 by unfold radians; ring,
    show radians 90 = π / 2 by unfold radians; ring, sin_zero, cos_zero, cos_pi_div_two, sin_pi_div_two, mul_zero, zero_mul, add_zero,
    arcsin_zero, sin_zero, zero_mul, sub_zero, mul_one]
  have := atan2_polar one_pos (θ := radians 20) (by rw [rad_eq]; nlinarith) (by rw [rad_eq]; nlinarith)
  rw [one_mul, one_mul] at this
  rw [one_mul, this]
  refine Prod.ext ?_ ?_
  · simp [degrees]
  · show degrees (radians 170 + radians 20) = 190
    rw [show radians 170 + radians 20 = radians 190 by unfold radians; ring, deg_rad]

end Verif.Globe
