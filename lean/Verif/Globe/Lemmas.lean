import Verif.Globe.Spec

namespace Verif.Globe

open Real InnerProductGeometry

local notation "⟪" x ", " y "⟫" => inner ℝ x y

theorem rad_eq (x : ℝ) : radians x = x * π / 180 := by unfold radians; ring

theorem rad_deg (x : ℝ) : radians (degrees x) = x := by
  unfold radians degrees; have := pi_pos.ne'; field_simp

theorem deg_rad (x : ℝ) : degrees (radians x) = x := by
  unfold radians degrees; have := pi_pos.ne'; field_simp

theorem inner3 (a b c x y z : ℝ) : ⟪(!₂[a, b, c] : E3), (!₂[x, y, z] : E3)⟫ = a * x + b * y + c * z := by
  simp [PiLp.inner_apply, Fin.sum_univ_three]; ring

theorem ext3 {x y : E3} (h0 : x 0 = y 0) (h1 : x 1 = y 1) (h2 : x 2 = y 2) : x = y := by
  ext i; fin_cases i <;> assumption

theorem place_inner (p q : LL) : ⟪place p, place q⟫ =
    cos (radians p.1) * cos (radians q.1) * cos (radians q.2 - radians p.2) + sin (radians p.1) * sin (radians q.1) := by
  unfold place; rw [inner3]; simp only [rad_eq, cos_sub]; ring

theorem place_norm (p : LL) : ‖place p‖ = 1 := by
  have h : ⟪place p, place p⟫ = 1 := by
    rw [place_inner, sub_self, cos_zero]; nlinarith [sin_sq_add_cos_sq (radians p.1)]
  rw [real_inner_self_eq_norm_sq] at h
  nlinarith [norm_nonneg (place p)]

theorem place_ne (p : LL) : place p ≠ 0 := fun h => by have := place_norm p; rw [h, norm_zero] at this; exact zero_ne_one this

theorem cos_central (p q : LL) : cos (central p q) = ⟪place p, place q⟫ := by
  unfold central; rw [cos_angle, place_norm, place_norm]; simp

theorem central_nonneg (p q : LL) : 0 ≤ central p q := angle_nonneg _ _
theorem central_le (p q : LL) : central p q ≤ π := angle_le_pi _ _

theorem hav_eq (p q : LL) : hav (radians p.1) (radians p.2) (radians q.1) (radians q.2) = sin (central p q / 2) ^ 2 := by
  have h1 : sin (central p q / 2) ^ 2 = (1 - cos (central p q)) / 2 := by
    have := cos_sq (central p q / 2)
    rw [show 2 * (central p q / 2) = central p q by ring] at this
    have := sin_sq_add_cos_sq (central p q / 2)
    linarith
  have half : ∀ x : ℝ, sin (0.5 * x) ^ 2 = (1 - cos x) / 2 := by
    intro x
    have := cos_sq (0.5 * x)
    rw [show 2 * (0.5 * x) = x by ring] at this
    have := sin_sq_add_cos_sq (0.5 * x)
    linarith
  rw [h1, cos_central, place_inner]
  unfold hav
  rw [half, half, cos_sub (radians q.1)]
  ring

theorem atan2_polar {r θ : ℝ} (hr : 0 < r) (h : -π < θ) (h' : θ ≤ π) : atan2 (r * sin θ) (r * cos θ) = θ := by
  unfold atan2
  have := Complex.arg_mul_cos_add_sin_mul_I hr ⟨h, h'⟩
  refine Eq.trans (congrArg Complex.arg ?_) this
  apply Complex.ext
  · simp [Complex.cos_ofReal_re]
  · simp [Complex.sin_ofReal_re, Complex.cos_ofReal_im]

/-- The components of a complex number from its argument. -/
theorem atan2_cos_sin (y x : ℝ) : √(x ^ 2 + y ^ 2) * cos (atan2 y x) = x ∧ √(x ^ 2 + y ^ 2) * sin (atan2 y x) = y := by
  have hn : ‖(⟨x, y⟩ : ℂ)‖ = √(x ^ 2 + y ^ 2) := by
    rw [Complex.norm_def, Complex.normSq_mk]; congr 1; ring
  by_cases h0 : (⟨x, y⟩ : ℂ) = 0
  · have hx : x = 0 := congrArg Complex.re h0
    have hy : y = 0 := congrArg Complex.im h0
    subst hx hy; simp
  · have h1 : ‖(⟨x, y⟩ : ℂ)‖ ≠ 0 := norm_ne_zero_iff.2 h0
    unfold atan2
    rw [Complex.cos_arg h0, Complex.sin_arg, ← hn]
    constructor <;> field_simp

theorem distance_eq (k : ℝ) (p q : LL) : distance k p q = R * central p q / k := by
  unfold distance
  simp only [hav_eq]
  have h0 := central_nonneg p q
  have h1 := central_le p q
  have hs : 0 ≤ sin (central p q / 2) := sin_nonneg_of_nonneg_of_le_pi (by linarith) (by linarith)
  have hc : 0 ≤ cos (central p q / 2) := cos_nonneg_of_neg_pi_div_two_le_of_le (by linarith) (by linarith)
  have e1 : √(sin (central p q / 2) ^ 2) = sin (central p q / 2) := sqrt_sq hs
  have e2 : √(1 - sin (central p q / 2) ^ 2) = cos (central p q / 2) := by
    rw [show 1 - sin (central p q / 2) ^ 2 = cos (central p q / 2) ^ 2 by have := sin_sq_add_cos_sq (central p q / 2); linarith]
    exact sqrt_sq hc
  rw [e1, e2]
  have := atan2_polar one_pos (θ := central p q / 2) (by have := pi_pos; linarith) (by have := pi_pos; linarith)
  rw [one_mul, one_mul] at this
  rw [this]; ring

/-! ### The frame at a point -/

theorem north_place (p : LL) : ⟪place p, north p⟫ = 0 := by unfold place north; rw [inner3]; linear_combination (-cos (p.1 * π / 180) * sin (p.1 * π / 180)) * sin_sq_add_cos_sq (p.2 * π / 180)
theorem east_place (p : LL) : ⟪place p, east p⟫ = 0 := by unfold place east; rw [inner3]; ring
theorem north_east (p : LL) : ⟪north p, east p⟫ = 0 := by unfold east north; rw [inner3]; ring
theorem north_north (p : LL) : ⟪north p, north p⟫ = 1 := by
  unfold north; rw [inner3]
  have h1 := sin_sq_add_cos_sq (p.2 * π / 180)
  have h2 := sin_sq_add_cos_sq (p.1 * π / 180)
  linear_combination (sin (p.1 * π / 180)) ^ 2 * h1 + h2
theorem east_east (p : LL) : ⟪east p, east p⟫ = 1 := by
  unfold east; rw [inner3]
  have h1 := sin_sq_add_cos_sq (p.2 * π / 180)
  linear_combination h1

theorem heading_place (p : LL) (β : ℝ) : ⟪place p, heading p β⟫ = 0 := by
  unfold heading; rw [inner_add_right, inner_smul_right, inner_smul_right, north_place, east_place]; ring

theorem heading_heading (p : LL) (β γ : ℝ) : ⟪heading p β, heading p γ⟫ = cos ((β - γ) * π / 180) := by
  unfold heading
  simp only [inner_add_right, inner_add_left, inner_smul_right, inner_smul_left, north_north, east_east, north_east, real_inner_comm (north p) (east p)]
  rw [show (β - γ) * π / 180 = β * π / 180 - γ * π / 180 by ring, cos_sub]
  simp; ring

theorem heading_norm (p : LL) (β : ℝ) : ⟪heading p β, heading p β⟫ = 1 := by rw [heading_heading]; simp

/-- Every vector in the frame. -/
theorem frame (p : LL) (v : E3) : v = ⟪place p, v⟫ • place p + ⟪north p, v⟫ • north p + ⟪east p, v⟫ • east p := by
  have h1 := sin_sq_add_cos_sq (p.2 * π / 180)
  have h2 := sin_sq_add_cos_sq (p.1 * π / 180)
  obtain ⟨a, b, c, rfl⟩ : ∃ a b c, v = !₂[a, b, c] := ⟨v 0, v 1, v 2, ext3 rfl rfl rfl⟩
  unfold place north east
  rw [inner3, inner3, inner3]
  generalize sin (p.2 * π / 180) = sl at *
  generalize cos (p.2 * π / 180) = cl at *
  generalize sin (p.1 * π / 180) = sf at *
  generalize cos (p.1 * π / 180) = cf at *
  apply ext3
  · simp; linear_combination (-a * cl ^ 2 - b * cl * sl) * h2 - a * h1
  · simp; linear_combination (-a * sl * cl - b * sl ^ 2) * h2 - b * h1
  · simp; linear_combination (-c) * h2

theorem arc_inner {x u : E3} (hx : ⟪x, x⟫ = 1) (hu : ⟪u, u⟫ = 1) (hxu : ⟪x, u⟫ = 0) (s t : ℝ) : ⟪arc x u s, arc x u t⟫ = cos (s - t) := by
  unfold arc
  have hux : ⟪u, x⟫ = 0 := by rw [real_inner_comm]; exact hxu
  simp only [inner_add_right, inner_add_left, inner_smul_right, inner_smul_left, hx, hu, hxu, hux]
  rw [cos_sub]; simp; ring

theorem arc_norm {x u : E3} (hx : ⟪x, x⟫ = 1) (hu : ⟪u, u⟫ = 1) (hxu : ⟪x, u⟫ = 0) (s : ℝ) : ‖arc x u s‖ = 1 := by
  have h := arc_inner hx hu hxu s s
  rw [sub_self, cos_zero, real_inner_self_eq_norm_sq] at h
  nlinarith [norm_nonneg (arc x u s)]

theorem arc_angle {x u : E3} (hx : ⟪x, x⟫ = 1) (hu : ⟪u, u⟫ = 1) (hxu : ⟪x, u⟫ = 0) (s t : ℝ) (h0 : s ≤ t) (h1 : t - s ≤ π) :
    angle (arc x u s) (arc x u t) = t - s := by
  unfold angle
  rw [arc_inner hx hu hxu, arc_norm hx hu hxu, arc_norm hx hu hxu, show s - t = -(t - s) by ring, cos_neg, mul_one, div_one]
  exact arccos_cos (by linarith) h1

theorem place_inner_self (p : LL) : ⟪place p, place p⟫ = 1 := by rw [real_inner_self_eq_norm_sq, place_norm]; norm_num

theorem arc_zero (x u : E3) : arc x u 0 = x := by simp [arc]

/-! ### Bearings -/

theorem radians_pmod (x : ℝ) : ∃ n : ℤ, radians (pmod (degrees x) 360) = x - n * (2 * π) := by
  refine ⟨⌊degrees x / 360⌋, ?_⟩
  have : radians (pmod (degrees x) 360) = radians (degrees x) - ⌊degrees x / 360⌋ * (2 * π) := by unfold pmod radians; ring
  rw [this, rad_deg]

/-- The bearing gives the components of the target in the frame. -/
theorem bearing_spec (p q : LL) : sin (central p q) * cos (radians (bearing p q)) = ⟪north p, place q⟫ ∧
    sin (central p q) * sin (radians (bearing p q)) = ⟪east p, place q⟫ := by
  have hC : ⟪north p, place q⟫ = cos (radians p.1) * sin (radians q.1) - sin (radians p.1) * cos (radians q.1) * cos (radians q.2 - radians p.2) := by
    unfold north place; rw [inner3]; simp only [rad_eq, cos_sub]; ring
  have hS : ⟪east p, place q⟫ = sin (radians q.2 - radians p.2) * cos (radians q.1) := by
    unfold east place; rw [inner3]; simp only [rad_eq, sin_sub]; ring
  have hn : ⟪north p, place q⟫ ^ 2 + ⟪east p, place q⟫ ^ 2 = sin (central p q) ^ 2 := by
    have h := congrArg (fun v => ⟪v, place q⟫) (frame p (place q))
    simp only [inner_add_left, inner_smul_left, place_inner_self] at h
    have h2 := sin_sq_add_cos_sq (central p q)
    rw [cos_central] at h2
    simp at h
    nlinarith
  have hs : 0 ≤ sin (central p q) := sin_nonneg_of_nonneg_of_le_pi (central_nonneg p q) (central_le p q)
  have hsq : √(⟪north p, place q⟫ ^ 2 + ⟪east p, place q⟫ ^ 2) = sin (central p q) := by rw [hn]; exact sqrt_sq hs
  have ha := atan2_cos_sin ⟪east p, place q⟫ ⟪north p, place q⟫
  rw [hsq] at ha
  have hb : bearing p q = pmod (degrees (atan2 ⟪east p, place q⟫ ⟪north p, place q⟫)) 360 := by
    unfold bearing bearingRad; rw [hC, hS]
  obtain ⟨n, hn⟩ := radians_pmod (atan2 ⟪east p, place q⟫ ⟪north p, place q⟫)
  rw [hb, hn, cos_sub_int_mul_two_pi, sin_sub_int_mul_two_pi]
  exact ha

/-- The target seen from the start. -/
theorem target_eq (p q : LL) : place q = arc (place p) (heading p (bearing p q)) (central p q) := by
  obtain ⟨h1, h2⟩ := bearing_spec p q
  conv_lhs => rw [frame p (place q)]
  unfold arc heading
  rw [← rad_eq, cos_central, smul_add, smul_smul, smul_smul, h1, h2, add_assoc]

/-! ### Going along a bearing -/

theorem sinLat_eq (p : LL) (δ β : ℝ) : sinLat (radians p.1) δ (radians β) = (arc (place p) (heading p β) δ) 2 := by
  unfold arc heading place north east sinLat
  simp [rad_eq]; ring

theorem coord_le (v : E3) (h : ‖v‖ = 1) (i : Fin 3) : |v i| ≤ 1 := by
  have := PiLp.norm_apply_le v i
  rw [h] at this; exact this

/-- The argument of `asin` is never outside its domain. -/
theorem sinLat_le (p : LL) (δ β : ℝ) : |sinLat (radians p.1) δ (radians β)| ≤ 1 := by
  rw [sinLat_eq]
  exact coord_le _ (arc_norm (place_inner_self p) (heading_norm p β) (heading_place p β) δ) 2

theorem pointFrom_place (k : ℝ) (p : LL) (hp : 0 < cos (radians p.1)) (β d : ℝ) :
    place (pointFrom k p β d) = arc (place p) (heading p β) (d * k / R) := by
  have hle := abs_le.1 (sinLat_le p (d * k / R) β)
  have hsin : sin (arcsin (sinLat (radians p.1) (d * k / R) (radians β))) = sinLat (radians p.1) (d * k / R) (radians β) := sin_arcsin hle.1 hle.2
  have hcos : cos (arcsin (sinLat (radians p.1) (d * k / R) (radians β))) = √(1 - sinLat (radians p.1) (d * k / R) (radians β) ^ 2) := cos_arcsin _
  have hpl : ∀ lat lon : ℝ, place (degrees lat, degrees lon) = !₂[cos lat * cos lon, cos lat * sin lon, sin lat] := by
    intro lat lon; unfold place; simp only [← rad_eq, rad_deg]
  unfold pointFrom
  simp only []
  rw [hpl, hsin, hcos]
  -- the horizontal components
  have key : ∀ sf cf sd cd sb cb : ℝ, sf ^ 2 + cf ^ 2 = 1 → sd ^ 2 + cd ^ 2 = 1 → sb ^ 2 + cb ^ 2 = 1 → 0 < cf →
      ∃ η, √(1 - (sf * cd + cf * sd * cb) ^ 2) * cos η = cd * cf - sd * cb * sf ∧ √(1 - (sf * cd + cf * sd * cb) ^ 2) * sin η = sd * sb ∧
        η = atan2 (sb * sd * cf) (cd - sf * (sf * cd + cf * sd * cb)) := by
    intro sf cf sd cd sb cb h1 h2 h3 hcf
    refine ⟨_, ?_, ?_, rfl⟩ <;>
    · have ha := atan2_cos_sin (sb * sd * cf) (cd - sf * (sf * cd + cf * sd * cb))
      have e : √((cd - sf * (sf * cd + cf * sd * cb)) ^ 2 + (sb * sd * cf) ^ 2) = cf * √(1 - (sf * cd + cf * sd * cb) ^ 2) := by
        have e1 : (cd - sf * (sf * cd + cf * sd * cb)) ^ 2 + (sb * sd * cf) ^ 2 = cf ^ 2 * (1 - (sf * cd + cf * sd * cb) ^ 2) := by
          have q1 : sf ^ 2 = 1 - cf ^ 2 := by linarith
          have q2 : sb ^ 2 = 1 - cb ^ 2 := by linarith
          have q3 : cd ^ 2 = 1 - sd ^ 2 := by linarith
          have a1 : cd - sf * (sf * cd + cf * sd * cb) = cf * (cd * cf - sf * sd * cb) := by linear_combination (-cd) * q1
          rw [a1]
          have a2 : (cd * cf - sf * sd * cb) ^ 2 + (sb * sd) ^ 2 = 1 - (sf * cd + cf * sd * cb) ^ 2 := by
            linear_combination (cd ^ 2 + sd ^ 2 * cb ^ 2) * h1 + sd ^ 2 * h3 + h2
          linear_combination cf ^ 2 * a2
        rw [e1, sqrt_mul (sq_nonneg _), sqrt_sq hcf.le]
      rw [e] at ha
      obtain ⟨ha1, ha2⟩ := ha
      apply mul_left_cancel₀ hcf.ne'
      first
        | (rw [← mul_assoc, ha1]; linear_combination (-cd) * h1)
        | (rw [← mul_assoc, ha2]; ring)
  obtain ⟨η, k1, k2, k3⟩ := key (sin (radians p.1)) (cos (radians p.1)) (sin (d * k / R)) (cos (d * k / R)) (sin (radians β)) (cos (radians β))
    (sin_sq_add_cos_sq _) (sin_sq_add_cos_sq _) (sin_sq_add_cos_sq _) hp
  have hs : sinLat (radians p.1) (d * k / R) (radians β) = sin (radians p.1) * cos (d * k / R) + cos (radians p.1) * sin (d * k / R) * cos (radians β) := rfl
  rw [hs, ← k3, cos_add, sin_add]
  unfold arc heading place north east
  simp only [← rad_eq]
  apply ext3
  · simp; linear_combination cos (radians p.2) * k1 - sin (radians p.2) * k2
  · simp; linear_combination sin (radians p.2) * k1 + cos (radians p.2) * k2
  · simp; ring

theorem OffPole.cos_pos {p : LL} (h : OffPole p) : 0 < cos (radians p.1) := by
  obtain ⟨h1, h2⟩ := h
  apply cos_pos_of_mem_Ioo
  have := pi_pos
  rw [rad_eq]
  constructor <;> nlinarith

end Verif.Globe
