import Verif.Globe.Track
import Mathlib.Analysis.SpecialFunctions.Trigonometric.Bounds

/-!
# C61: sampled paths, circles and cartesian coordinates
-/

namespace Verif.Globe

open Real InnerProductGeometry

local notation "⟪" x ", " y "⟫" => inner ℝ x y

/-! ### Circles -/

/-- **C61** for centers off the poles: the points of `geo_circle` are at the radius from the center, at equally spaced bearings, and the circle is closed. -/
theorem c61_circle_partial (k : ℝ) (hk : 0 < k) (c : LL) (hc : OffPole c) (r : ℝ) (h0 : 0 < r) (h1 : r * k < π * R) (n : ℕ) (hn : 0 < n) :
    ∃ l, geoCircle k c r n = .ok l ∧ l.length = n + 1 ∧
      (∀ (i : ℕ) x, l[i]? = some x → distance k c x = r ∧ bearing c x = pmod (360 * i / n) 360) ∧
        ∀ x y, l[0]? = some x → l[n]? = some y → place x = place y := by
  unfold geoCircle
  rw [if_neg hn.ne']
  have hget : ∀ (i : ℕ) x, ((List.range (n + 1)).map fun (i : ℕ) => pointFrom k c ((i : ℝ) / n * 360) r)[i]? = some x → x = pointFrom k c ((i : ℝ) / n * 360) r := by
    intro i x hx
    simp only [List.getElem?_map, Option.map_eq_some_iff] at hx
    obtain ⟨j, hj, rfl⟩ := hx
    obtain ⟨hl, hj⟩ := List.getElem?_eq_some_iff.1 hj
    rw [List.getElem_range] at hj
    rw [hj]
  refine ⟨_, rfl, by simp, ?_, ?_⟩
  · intro i x hx
    rw [hget i x hx]
    refine ⟨c60_destination_distance_partial k hk c hc _ r h0.le h1.le, ?_⟩
    rw [c60_destination_bearing_partial k c hc _ r (by positivity) h1]
    congr 1; ring
  · intro x y hx hy
    have hn' : (n : ℝ) ≠ 0 := by exact_mod_cast hn.ne'
    rw [hget 0 x hx, hget n y hy, c60_destination_partial k c hc, c60_destination_partial k c hc, div_self hn']
    unfold heading
    rw [show (1 * 360 : ℝ) * π / 180 = 0 + 2 * π by ring, cos_add_two_pi, sin_add_two_pi]
    simp

/-- **C61 is violated at the poles**: all points of the circle coincide. -/
theorem c61_circle_pole (k : ℝ) (c : LL) (hc : c.1 = 90 ∨ c.1 = -90) (r : ℝ) (n : ℕ) (l : List LL) (hl : geoCircle k c r n = .ok l) :
    ∀ x ∈ l, ∀ y ∈ l, x = y := by
  unfold geoCircle at hl
  split at hl
  · cases hl
  · simp only [Except.ok.injEq] at hl
    subst hl
    intro x hx y hy
    simp only [List.mem_map] at hx hy
    obtain ⟨i, -, rfl⟩ := hx
    obtain ⟨j, -, rfl⟩ := hy
    exact (c60_pole_ignores_bearing k c hc _ r).2 _

example : ∃ l, geoCircle 1 (33.7, -84.4) 1000 20 = .ok l ∧ l.length = 21 := by
  obtain ⟨l, h1, h2, -⟩ := c61_circle_partial 1 one_pos (33.7, -84.4) ⟨by norm_num, by norm_num⟩ 1000 (by norm_num)
    (by have := two_le_pi; unfold R; nlinarith) 20 (by norm_num)
  exact ⟨l, h1, h2⟩

/-! ### Cartesian coordinates -/

/-- The vector of a triple. -/
noncomputable def vec (x : Pos) : E3 := !₂[x.1, x.2.1, x.2.2]

/-- **C61**: `lla2ecef` is the vector of the place, as long as radius and altitude together. -/
theorem c61_lla2ecef (p : LL) (ht : ℝ) : vec (lla2ecef p ht) = (R + ht) • place p := by
  unfold vec lla2ecef place
  simp only [rad_eq]
  apply ext3 <;> simp <;> ring

theorem vec_norm (x : Pos) : ‖vec x‖ = √(x.1 ^ 2 + x.2.1 ^ 2 + x.2.2 ^ 2) := by
  rw [← sqrt_sq (norm_nonneg (vec x)), ← real_inner_self_eq_norm_sq]
  unfold vec; rw [inner3]; congr 1; ring

theorem vec_inj {x y : Pos} (h : vec x = vec y) : x = y := by
  have h0 := congrArg (fun v : E3 => v 0) h
  have h1 := congrArg (fun v : E3 => v 1) h
  have h2 := congrArg (fun v : E3 => v 2) h
  simp [vec] at h0 h1 h2
  exact Prod.ext h0 (Prod.ext h1 h2)

/-- The angles of `ecef2lla` give the direction of the vector. -/
theorem c61_ecef_direction (x : Pos) : ‖vec x‖ • place (ecef2lla x).1 = vec x := by
  have h1 := atan2_cos_sin x.2.2 (√(x.1 ^ 2 + x.2.1 ^ 2))
  have h2 := atan2_cos_sin x.2.1 x.1
  rw [sq_sqrt (by positivity), ← vec_norm] at h1
  obtain ⟨h1, h3⟩ := h1
  obtain ⟨h2, h4⟩ := h2
  unfold place ecef2lla
  simp only [← rad_eq, rad_deg]
  conv_rhs => unfold vec
  apply ext3
  · show ‖vec x‖ * (cos (atan2 x.2.2 (√(x.1 ^ 2 + x.2.1 ^ 2))) * cos (atan2 x.2.1 x.1)) = x.1
    rw [← mul_assoc, h1, h2]
  · show ‖vec x‖ * (cos (atan2 x.2.2 (√(x.1 ^ 2 + x.2.1 ^ 2))) * sin (atan2 x.2.1 x.1)) = x.2.1
    rw [← mul_assoc, h1, h4]
  · exact h3

/-- Away from the axis by more than a metre or so. -/
def OffAxis (x : Pos) : Prop := 1 ≤ |x.1| ∨ 1 ≤ |x.2.1|

theorem ecef_height (x : Pos) (h : OffAxis x) : (ecef2lla x).2 = ‖vec x‖ - R := by
  have hn : ¬ (|x.1| < 1 ∧ |x.2.1| < 1) := by rintro ⟨a, b⟩; rcases h with h | h <;> linarith
  have hp : 0 < √(x.1 ^ 2 + x.2.1 ^ 2) := by
    apply sqrt_pos.2
    rcases h with h | h
    · have : x.1 ≠ 0 := fun hc => by rw [hc, abs_zero] at h; linarith
      positivity
    · have : x.2.1 ≠ 0 := fun hc => by rw [hc, abs_zero] at h; linarith
      positivity
  have h1 := (atan2_cos_sin x.2.2 (√(x.1 ^ 2 + x.2.1 ^ 2))).1
  rw [sq_sqrt (by positivity), ← vec_norm] at h1
  unfold ecef2lla
  simp only [if_neg hn]
  congr 1
  have hne : cos (atan2 x.2.2 (√(x.1 ^ 2 + x.2.1 ^ 2))) ≠ 0 := by
    intro hc; rw [hc, mul_zero] at h1; linarith
  rw [div_eq_iff hne, h1]

/-- **C61**: from cartesian coordinates to latitude, longitude and altitude and back, away from the axis. -/
theorem c61_ecef_back_partial (x : Pos) (h : OffAxis x) : lla2ecef (ecef2lla x).1 (ecef2lla x).2 = x := by
  apply vec_inj
  rw [c61_lla2ecef, ecef_height x h, show R + (‖vec x‖ - R) = ‖vec x‖ by ring, c61_ecef_direction]

/-- Near the axis only the altitude is replaced, with an error below `1 / |z|` metres. -/
theorem c61_ecef_near_axis (x : Pos) (h : ¬ OffAxis x) (hz : x.2.2 ≠ 0) :
    (ecef2lla x).2 ≤ ‖vec x‖ - R ∧ ‖vec x‖ - R ≤ (ecef2lla x).2 + 1 / |x.2.2| := by
  unfold OffAxis at h
  push Not at h
  have hz' : 0 < |x.2.2| := abs_pos.2 hz
  have he : (ecef2lla x).2 = |x.2.2| - R := by unfold ecef2lla; simp only [if_pos h]
  have h1 : x.1 ^ 2 < 1 := by rw [← sq_abs]; nlinarith [abs_nonneg x.1, h.1]
  have h2 : x.2.1 ^ 2 < 1 := by rw [← sq_abs]; nlinarith [abs_nonneg x.2.1, h.2]
  rw [he, vec_norm]
  constructor
  · have : |x.2.2| ≤ √(x.1 ^ 2 + x.2.1 ^ 2 + x.2.2 ^ 2) := by apply le_sqrt_of_sq_le; rw [sq_abs]; nlinarith [sq_nonneg x.1, sq_nonneg x.2.1]
    linarith
  · have : √(x.1 ^ 2 + x.2.1 ^ 2 + x.2.2 ^ 2) ≤ |x.2.2| + 1 / |x.2.2| := by
      apply sqrt_le_iff.2 ⟨by positivity, ?_⟩
      have e : (|x.2.2| + 1 / |x.2.2|) ^ 2 = x.2.2 ^ 2 + 2 + (1 / |x.2.2|) ^ 2 := by
        rw [add_sq, sq_abs]; field_simp
      rw [e]; nlinarith [sq_nonneg (1 / |x.2.2|)]
    linarith

/-- **C61**: from latitude, longitude and altitude to cartesian coordinates and back, away from the axis. -/
theorem c61_lla_back_partial (p : LL) (ht : ℝ) (hp : OffPole p) (hl : -180 < p.2 ∧ p.2 ≤ 180) (hh : -R < ht) (ha : OffAxis (lla2ecef p ht)) :
    ecef2lla (lla2ecef p ht) = (p, ht) := by
  have hpi := pi_pos
  have hr : 0 < R + ht := by linarith
  have hc := hp.cos_pos
  have e1 : atan2 (lla2ecef p ht).2.1 (lla2ecef p ht).1 = radians p.2 := by
    have : lla2ecef p ht = (((R + ht) * cos (radians p.1)) * cos (radians p.2), ((R + ht) * cos (radians p.1)) * sin (radians p.2), (R + ht) * sin (radians p.1)) := by
      unfold lla2ecef; simp only []; rw [mul_right_comm]
    rw [this]
    exact atan2_polar (by positivity) (by rw [rad_eq]; nlinarith) (by rw [rad_eq]; nlinarith)
  have e2 : √((lla2ecef p ht).1 ^ 2 + (lla2ecef p ht).2.1 ^ 2) = (R + ht) * cos (radians p.1) := by
    rw [← sqrt_sq (show 0 ≤ (R + ht) * cos (radians p.1) by positivity)]
    congr 1
    unfold lla2ecef; simp only []
    linear_combination ((R + ht) * cos (radians p.1)) ^ 2 * sin_sq_add_cos_sq (radians p.2)
  have e3 : atan2 (lla2ecef p ht).2.2 (√((lla2ecef p ht).1 ^ 2 + (lla2ecef p ht).2.1 ^ 2)) = radians p.1 := by
    rw [e2]
    exact atan2_polar hr (by rw [rad_eq]; nlinarith [hp.1]) (by rw [rad_eq]; nlinarith [hp.2])
  have e4 : (ecef2lla (lla2ecef p ht)).2 = ht := by
    rw [ecef_height _ ha, c61_lla2ecef, norm_smul, place_norm, norm_eq_abs, abs_of_pos hr]; ring
  refine Prod.ext (Prod.ext ?_ ?_) e4
  · show degrees (atan2 (lla2ecef p ht).2.2 (√((lla2ecef p ht).1 ^ 2 + (lla2ecef p ht).2.1 ^ 2))) = p.1
    rw [e3, deg_rad]
  · show degrees (atan2 (lla2ecef p ht).2.1 (lla2ecef p ht).1) = p.2
    rw [e1, deg_rad]

example : OffAxis (lla2ecef (0, 0) 1000) := by
  left
  have : lla2ecef (0, 0) 1000 = (R + 1000, 0, 0) := by unfold lla2ecef radians; simp
  rw [this]
  show (1 : ℝ) ≤ |R + 1000|
  unfold R; norm_num

/-! ### Sampled paths -/

theorem vec_ll2cart (p : LL) : vec (ll2cart p 1) = place p := by
  unfold vec ll2cart place; simp only [rad_eq]; apply ext3 <;> simp <;> ring

theorem vec_combine (t : ℝ) (v w : Pos) : vec (combine t v w) = arc (vec v) (vec w) t := by
  unfold vec combine arc; apply ext3 <;> simp

theorem vec_second (α β : ℝ) (v w : Pos) : vec (second α β v w) = α • vec v + β • vec w := by
  unfold vec second; apply ext3 <;> simp

theorem vdot_eq (v w : Pos) : vdot v w = ⟪vec v, vec w⟫ := by unfold vec; rw [inner3]; rfl

theorem half_angle {δ : ℝ} (h0 : 0 < δ) (h1 : δ < π) (x y a w : ℝ) (hy : y ≠ 0) (hy' : y = a + (a * cos δ + w * sin δ)) (hx : x = w - (w * cos δ - a * sin δ)) :
    2 * arctan (x / y) = δ := by
  have hc : 0 < cos (δ / 2) := cos_pos_of_mem_Ioo ⟨by linarith, by linarith⟩
  have e1 : sin δ = 2 * sin (δ / 2) * cos (δ / 2) := by rw [← sin_two_mul]; congr 1; ring
  have e2 : cos δ = 2 * cos (δ / 2) ^ 2 - 1 := by rw [← cos_two_mul]; congr 1; ring
  have : x / y = tan (δ / 2) := by
    rw [tan_eq_sin_div_cos, div_eq_div_iff hy hc.ne', hx, hy', e1, e2]
    linear_combination (-2 * w * cos (δ / 2)) * sin_sq_add_cos_sq (δ / 2)
  rw [this, arctan_tan (by linarith) (by linarith)]; ring

/-- The solution for the angle. -/
theorem solve_spec (p q : LL) (h0 : 0 < central p q) (h1 : central p q < π) (hx : (place p) 0 + (place q) 0 ≠ 0) :
    ∃ t W, solve p q = .ok (t, ll2cart p 1, W) ∧ vec W = heading p (bearing p q) ∧ (t = central p q ∨ Close (combine t (ll2cart p 1) W) (ll2cart q 1)) ∧
      (-π < t ∧ t < π) ∧ (place p) 0 * cos t + (heading p (bearing p q)) 0 * sin t = (place q) 0 ∧
        ((heading p (bearing p q)) 0 * cos (central p q) - (place p) 0 * sin (central p q) ≤ 0 → t = central p q) := by
  have hs := sin_pos_of_pos_of_lt_pi h0 h1
  have hsc := sin_sq_add_cos_sq (central p q)
  have hq := target_eq p q
  have ha : (place p) 0 = (ll2cart p 1).1 := by rw [← vec_ll2cart]; rfl
  have hb : (place q) 0 = (ll2cart q 1).1 := by rw [← vec_ll2cart]; rfl
  have hd : vdot (ll2cart p 1) (ll2cart q 1) = cos (central p q) := by rw [vdot_eq, vec_ll2cart, vec_ll2cart, cos_central]
  have hprod : (cos (central p q) - 1) * (cos (central p q) + 1) = -sin (central p q) ^ 2 := by linear_combination hsc
  have hcom : √(-1 / ((cos (central p q) - 1) * (cos (central p q) + 1))) = 1 / sin (central p q) := by
    rw [hprod, neg_div_neg_eq, ← one_div_pow, sqrt_sq (by positivity)]
  unfold solve
  simp only []
  rw [hd, hcom, ← ha, ← hb, if_neg (by rw [hprod]; have := hs.ne'; simp [this]), if_neg (by rw [hprod, neg_div_neg_eq]; exact not_lt.2 (by positivity))]
  have hW : vec (second (-cos (central p q) * (1 / sin (central p q))) (1 / sin (central p q)) (ll2cart p 1) (ll2cart q 1)) = heading p (bearing p q) := by
    rw [vec_second, vec_ll2cart, vec_ll2cart]
    conv_lhs => rw [hq]
    unfold arc
    rw [smul_add, smul_smul, smul_smul, ← add_assoc, ← add_smul, show 1 / sin (central p q) * sin (central p q) = 1 by field_simp,
      show -cos (central p q) * (1 / sin (central p q)) + 1 / sin (central p q) * cos (central p q) = 0 by ring, zero_smul, one_smul, zero_add]
  have hlead : (place p) 0 * (-cos (central p q) * (1 / sin (central p q))) + 1 / sin (central p q) * (place q) 0 = (heading p (bearing p q)) 0 := by
    rw [← hW]; unfold vec second
    rw [ha, hb]
    simp; ring
  have hd' : (place q) 0 = (place p) 0 * cos (central p q) + (heading p (bearing p q)) 0 * sin (central p q) := by
    conv_lhs => rw [hq]
    unfold arc; simp; ring
  generalize hWW : second (-cos (central p q) * (1 / sin (central p q))) (1 / sin (central p q)) (ll2cart p 1) (ll2cart q 1) = W at hW ⊢
  have hin : (place p) 0 ^ 2 * (-cos (central p q) * (1 / sin (central p q))) ^ 2 + (place p) 0 ^ 2 +
      2 * (place p) 0 * (-cos (central p q) * (1 / sin (central p q))) * (1 / sin (central p q)) * (place q) 0 +
        (1 / sin (central p q)) ^ 2 * (place q) 0 ^ 2 - (place q) 0 ^ 2 =
      ((heading p (bearing p q)) 0 * cos (central p q) - (place p) 0 * sin (central p q)) ^ 2 := by
    have : (place p) 0 ^ 2 * (-cos (central p q) * (1 / sin (central p q))) ^ 2 + (place p) 0 ^ 2 +
      2 * (place p) 0 * (-cos (central p q) * (1 / sin (central p q))) * (1 / sin (central p q)) * (place q) 0 +
        (1 / sin (central p q)) ^ 2 * (place q) 0 ^ 2 - (place q) 0 ^ 2 =
        ((place p) 0 * (-cos (central p q) * (1 / sin (central p q))) + 1 / sin (central p q) * (place q) 0) ^ 2 + (place p) 0 ^ 2 - (place q) 0 ^ 2 := by ring
    rw [this, hlead, hd']
    linear_combination (-(heading p (bearing p q)) 0 ^ 2 - (place p) 0 ^ 2) * hsc + 2 * (heading p (bearing p q)) 0 ^ 2 * 0 
  rw [hlead, hin, if_neg (not_lt.2 (sq_nonneg _)), if_neg hx, sqrt_sq_eq_abs]
  have hrange : ∀ z : ℝ, -π < 2 * arctan z ∧ 2 * arctan z < π := fun z => ⟨by linarith [neg_pi_div_two_lt_arctan z], by linarith [arctan_lt_pi_div_two z]⟩
  have hroot : ∀ z : ℝ, ((place p) 0 + (place q) 0) * z ^ 2 - 2 * (heading p (bearing p q)) 0 * z = (place p) 0 - (place q) 0 →
      (place p) 0 * cos (2 * arctan z) + (heading p (bearing p q)) 0 * sin (2 * arctan z) = (place q) 0 := by
    intro z hz
    have h1 : 0 < 1 + z ^ 2 := by positivity
    have e1 : cos (2 * arctan z) = (1 - z ^ 2) / (1 + z ^ 2) := by
      rw [cos_two_mul, cos_sq_arctan]; field_simp; ring
    have e2 : sin (2 * arctan z) = 2 * z / (1 + z ^ 2) := by
      have : cos (arctan z) ^ 2 = 1 / (1 + z ^ 2) := cos_sq_arctan z
      have hsin : sin (arctan z) = z * cos (arctan z) := by
        have := tan_arctan z
        rw [tan_eq_sin_div_cos, div_eq_iff (cos_arctan_pos z).ne'] at this
        exact this
      rw [sin_two_mul, hsin, show 2 * (z * cos (arctan z)) * cos (arctan z) = 2 * z * cos (arctan z) ^ 2 by ring, this]
      ring
    rw [e1, e2]
    field_simp
    linear_combination -hz
  have hq2 : ∀ X : ℝ, X ^ 2 = ((heading p (bearing p q)) 0 * cos (central p q) - (place p) 0 * sin (central p q)) ^ 2 →
      (place p) 0 * cos (2 * arctan (((heading p (bearing p q)) 0 + X) / ((place p) 0 + (place q) 0))) +
        (heading p (bearing p q)) 0 * sin (2 * arctan (((heading p (bearing p q)) 0 + X) / ((place p) 0 + (place q) 0))) = (place q) 0 := by
    intro X hX
    apply hroot
    have hX' : X ^ 2 = (heading p (bearing p q)) 0 ^ 2 + (place p) 0 ^ 2 - (place q) 0 ^ 2 := by
      rw [hX, hd']; linear_combination ((heading p (bearing p q)) 0 ^ 2 + (place p) 0 ^ 2) * hsc
    field_simp
    linear_combination hX'
  have hexact : (heading p (bearing p q)) 0 * cos (central p q) - (place p) 0 * sin (central p q) ≤ 0 →
      2 * arctan (((heading p (bearing p q)) 0 + |(heading p (bearing p q)) 0 * cos (central p q) - (place p) 0 * sin (central p q)|) /
        ((place p) 0 + (place q) 0)) = central p q := by
    intro hX
    rw [abs_of_nonpos hX]
    exact half_angle h0 h1 _ _ ((place p) 0) ((heading p (bearing p q)) 0) hx (by rw [hd']) (by ring)
  split
  · rename_i hc
    exact ⟨_, W, rfl, hW, .inr hc, hrange _, hq2 _ (sq_abs _), hexact⟩
  · rename_i hc
    refine ⟨_, W, rfl, hW, .inl ?_, hrange _, by rw [sub_eq_add_neg]; exact hq2 _ (by rw [neg_sq, sq_abs]), fun hX => ?_⟩
    rotate_left
    · exfalso
      apply hc
      rw [hexact hX]
      have : combine (central p q) (ll2cart p 1) W = ll2cart q 1 := by
        apply vec_inj; rw [vec_combine, hW, vec_ll2cart, vec_ll2cart, ← hq]
      rw [this]; unfold Close; simp
    have hcl : ∀ t, t = central p q → Close (combine t (ll2cart p 1) W) (ll2cart q 1) := by
      rintro t rfl
      have : combine (central p q) (ll2cart p 1) W = ll2cart q 1 := by
        apply vec_inj; rw [vec_combine, hW, vec_ll2cart, vec_ll2cart, ← hq]
      rw [this]; unfold Close; simp
    rcases le_total 0 ((heading p (bearing p q)) 0 * cos (central p q) - (place p) 0 * sin (central p q)) with hX | hX
    · rw [abs_of_nonneg hX]
      exact half_angle h0 h1 _ _ ((place p) 0) ((heading p (bearing p q)) 0) hx (by rw [hd']) rfl
    · rw [abs_of_nonpos hX] at hc
      exfalso
      apply hc
      apply hcl
      exact half_angle h0 h1 _ _ ((place p) 0) ((heading p (bearing p q)) 0) hx (by rw [hd']) (by ring)

/-- The angle is right up to `4·10⁻⁸`, unless the ends are almost opposite. -/
theorem close_angle (p q : LL) (t : ℝ) (W : Pos) (hW : vec W = heading p (bearing p q)) (h0 : 0 < central p q) (h1 : central p q ≤ π - 1 / 10 ^ 7)
    (ht : -π < t) (ht' : t < π) (h : Close (combine t (ll2cart p 1) W) (ll2cart q 1)) : |t - central p q| ≤ 4 / 10 ^ 8 := by
  have hpi := pi_pos
  have hpl := pi_le_four
  have hi : ⟪place q, vec (combine t (ll2cart p 1) W)⟫ = cos (t - central p q) := by
    rw [vec_combine, hW, vec_ll2cart]
    conv_lhs => rw [target_eq p q]
    rw [arc_inner (place_inner_self p) (heading_norm p _) (heading_place p _), ← cos_neg]; congr 1; ring
  have hn : ‖vec (combine t (ll2cart p 1) W)‖ = 1 := by
    rw [vec_combine, hW, vec_ll2cart]; exact arc_norm (place_inner_self p) (heading_norm p _) (heading_place p _) t
  -- the squared distance
  have hsq : ‖vec (combine t (ll2cart p 1) W) - place q‖ ^ 2 = 2 - 2 * cos (t - central p q) := by
    rw [norm_sub_sq_real, hn, place_norm, real_inner_comm, hi]; ring
  have hle : ‖vec (combine t (ll2cart p 1) W) - place q‖ ^ 2 ≤ 3 * (1 / 10 ^ 8) ^ 2 := by
    rw [← vec_ll2cart q, ← real_inner_self_eq_norm_sq]
    generalize combine t (ll2cart p 1) W = c at h
    have e : vec c - vec (ll2cart q 1) = !₂[c.1 - (ll2cart q 1).1, c.2.1 - (ll2cart q 1).2.1, c.2.2 - (ll2cart q 1).2.2] := by
      unfold vec; apply ext3 <;> simp
    rw [e, inner3]
    obtain ⟨a1, a2, a3⟩ := h
    have b1 := sq_le_sq' (abs_le.1 a1).1 (abs_le.1 a1).2
    have b2 := sq_le_sq' (abs_le.1 a2).1 (abs_le.1 a2).2
    have b3 := sq_le_sq' (abs_le.1 a3).1 (abs_le.1 a3).2
    linarith
  have hsin : |sin ((t - central p q) / 2)| ≤ 87 / 100 / 10 ^ 8 := by
    have hc : cos (t - central p q) = 1 - 2 * sin ((t - central p q) / 2) ^ 2 := by
      have e1 := cos_sq' ((t - central p q) / 2)
      have e2 := cos_two_mul ((t - central p q) / 2)
      rw [show 2 * ((t - central p q) / 2) = t - central p q by ring] at e2
      linarith
    apply abs_le_of_sq_le_sq _ (by norm_num)
    rw [hc] at hsq
    nlinarith
  have hlow : ∀ x, 0 ≤ x → x ≤ π / 2 → 1 / 2 * x ≤ sin x := by
    intro x hx hx'
    have := mul_le_sin hx hx'
    have h2 : 1 / 2 ≤ 2 / π := by rw [le_div_iff₀ hpi]; linarith
    nlinarith
  have hsin := abs_le.1 hsin
  rw [abs_le]
  rcases le_total 0 ((t - central p q) / 2) with hy | hy
  · have := hlow _ hy (by linarith)
    constructor <;> linarith
  · by_cases hy2 : -(π / 2) ≤ (t - central p q) / 2
    · have := hlow (-((t - central p q) / 2)) (by linarith) (by linarith)
      rw [sin_neg] at this
      constructor <;> linarith
    · have hy2 := not_le.1 hy2
      have := hlow (π + (t - central p q) / 2) (by linarith) (by linarith)
      rw [add_comm, sin_add_pi] at this
      exfalso; linarith

theorem unit_lla (x : Pos) (h : ‖vec x‖ = 1) : place (ecef2lla x).1 = vec x := by
  have := c61_ecef_direction x
  rwa [h, one_smul] at this

theorem linspace_spec (p q : LL) (n : ℕ) (hn : 2 ≤ n) (h0 : 0 < central p q) (h1 : central p q < π) (hx : (place p) 0 + (place q) 0 ≠ 0) :
    ∃ t W l, geoLinspace p q n = .ok l ∧ l.length = n + 1 ∧ vec W = heading p (bearing p q) ∧
      (t = central p q ∨ Close (combine t (ll2cart p 1) W) (ll2cart q 1)) ∧ -π < t ∧ t < π ∧
        (∀ (i : ℕ) y, l[i]? = some y → place y = arc (place p) (heading p (bearing p q)) (t * (i / n))) ∧
        (place p) 0 * cos t + (heading p (bearing p q)) 0 * sin t = (place q) 0 ∧
        ((heading p (bearing p q)) 0 * cos (central p q) - (place p) 0 * sin (central p q) ≤ 0 → t = central p q) := by
  obtain ⟨t, W, hs, hW, hc, ⟨r0, r1⟩, hroot, hexact⟩ := solve_spec p q h0 h1 hx
  refine ⟨t, W, (List.range (n + 1)).map fun (i : ℕ) => (ecef2lla (combine (t / n * i) (ll2cart p 1) W)).1, ?_, ?_, hW, hc, r0, r1, ?_, hroot, hexact⟩
  · unfold geoLinspace linspaceUnit
    rw [if_neg (by omega), hs]
    simp only [Except.map, List.map_map]
    rfl
  · simp
  · intro i y hy
    simp only [List.getElem?_map, Option.map_eq_some_iff] at hy
    obtain ⟨j, hj, rfl⟩ := hy
    obtain ⟨hl, hj⟩ := List.getElem?_eq_some_iff.1 hj
    rw [List.getElem_range] at hj
    subst hj
    have e : vec (combine (t / n * i) (ll2cart p 1) W) = arc (place p) (heading p (bearing p q)) (t * (i / n)) := by
      rw [vec_combine, vec_ll2cart, hW]; congr 1; ring
    rw [unit_lla _ (by rw [e]; exact arc_norm (place_inner_self p) (heading_norm p _) (heading_place p _) _), e]

/-- Where the first cartesian coordinate does not increase towards the end, or increases at a rate of at least `10⁻⁷`, the angle is right. -/
theorem linspace_exact (p q : LL) (n : ℕ) (hn : 2 ≤ n) (h0 : 0 < central p q) (h1 : central p q ≤ π - 1 / 10 ^ 7) (hx : (place p) 0 + (place q) 0 ≠ 0)
    (hm : (heading p (bearing p q)) 0 * cos (central p q) - (place p) 0 * sin (central p q) ≤ 0 ∨
      1 / 10 ^ 7 ≤ (heading p (bearing p q)) 0 * cos (central p q) - (place p) 0 * sin (central p q)) :
    ∃ l, geoLinspace p q n = .ok l ∧ l.length = n + 1 ∧
      ∀ (i : ℕ) y, l[i]? = some y → place y = arc (place p) (heading p (bearing p q)) (central p q * (i / n)) := by
  have h7 : (0 : ℝ) < 1 / 10 ^ 7 := by norm_num
  obtain ⟨t, W, l, g1, g2, g3, g4, g5, g6, g7, g8, g9⟩ := linspace_spec p q n hn h0 (by linarith) hx
  suffices ht : t = central p q by subst ht; exact ⟨l, g1, g2, g7⟩
  rcases hm with hm | hm
  · exact g9 hm
  rcases g4 with g4 | g4
  · exact g4
  by_contra hne
  have hcl := abs_le.1 (close_angle p q t W g3 h0 h1 g5 g6 g4)
  set a := (place p) 0 with ha
  set w := (heading p (bearing p q)) 0 with hw
  set δ := central p q with hδ
  have hd : a * cos δ + w * sin δ = (place q) 0 := by
    conv_rhs => rw [target_eq p q]
    unfold arc; simp [ha, hw, hδ]; ring
  -- the slope vanishes in between
  have hder : ∀ ξ, HasDerivAt (fun ξ => a * cos ξ + w * sin ξ) (w * cos ξ - a * sin ξ) ξ := by
    intro ξ
    have := ((hasDerivAt_cos ξ).const_mul a).add ((hasDerivAt_sin ξ).const_mul w)
    exact this.congr_deriv (by ring)
  have hder2 : ∀ ξ, HasDerivAt (fun ξ => w * cos ξ - a * sin ξ) (-(a * cos ξ + w * sin ξ)) ξ := by
    intro ξ
    have := ((hasDerivAt_cos ξ).const_mul w).sub ((hasDerivAt_sin ξ).const_mul a)
    exact this.congr_deriv (by ring)
  have hrolle : ∃ ξ, |ξ - δ| ≤ 4 / 10 ^ 8 ∧ w * cos ξ - a * sin ξ = 0 := by
    rcases lt_or_gt_of_ne hne with hlt | hlt
    · obtain ⟨ξ, h1, h2⟩ := exists_hasDerivAt_eq_zero hlt (fun y _ => (hder y).continuousAt.continuousWithinAt) (g8.trans hd.symm) fun y _ => hder y
      exact ⟨ξ, abs_le.2 ⟨by linarith [h1.1], by linarith [h1.2]⟩, h2⟩
    · obtain ⟨ξ, h1, h2⟩ := exists_hasDerivAt_eq_zero hlt (fun y _ => (hder y).continuousAt.continuousWithinAt) (hd.trans g8.symm) fun y _ => hder y
      exact ⟨ξ, abs_le.2 ⟨by linarith [h1.1], by linarith [h1.2]⟩, h2⟩
  obtain ⟨ξ, h2, h3⟩ := hrolle
  have hbound : ∀ y, ‖-(a * cos y + w * sin y)‖ ≤ 1 := by
    intro y
    have hb := arc_norm (place_inner_self p) (heading_norm p (bearing p q)) (heading_place p (bearing p q)) y
    have hc := PiLp.norm_apply_le (arc (place p) (heading p (bearing p q)) y) 0
    rw [hb] at hc
    rw [norm_neg]
    have he : (arc (place p) (heading p (bearing p q)) y) 0 = a * cos y + w * sin y := by unfold arc; simp [ha, hw]; ring
    rwa [he] at hc
  have hmvt := Convex.norm_image_sub_le_of_norm_hasDerivWithin_le (s := Set.univ) (fun y _ => (hder2 y).hasDerivWithinAt) (fun y _ => hbound y) convex_univ
    (Set.mem_univ ξ) (Set.mem_univ δ)
  rw [h3, sub_zero, one_mul, norm_eq_abs, norm_eq_abs, abs_sub_comm δ] at hmvt
  have := le_abs_self (w * cos δ - a * sin δ)
  norm_num at h2 hm
  linarith

/-- **C61**: the points of `geo_linspace` are equally spaced on the great circle from start to end. The whole angle `t` is right up to `4·10⁻⁸` (a quarter of a
metre), from the tolerance with which the code accepts its first solution. Missing: ends that are equal, or opposite up to `10⁻⁷`, and ends whose first
cartesian coordinates cancel. -/
theorem c61_linspace_partial (p q : LL) (n : ℕ) (hn : 2 ≤ n) (h0 : 0 < distance 1 p q) (h1 : distance 1 p q ≤ (π - 1 / 10 ^ 7) * R)
    (hx : (place p) 0 + (place q) 0 ≠ 0) :
    ∃ t l, geoLinspace p q n = .ok l ∧ l.length = n + 1 ∧ |t - distance 1 p q / R| ≤ 4 / 10 ^ 8 ∧
      (∀ (i : ℕ) y, l[i]? = some y → place y = arc (place p) (heading p (bearing p q)) (t * (i / n))) ∧
        ∀ y, l[0]? = some y → place y = place p := by
  have hR := R_pos
  rw [delta_eq]
  have c0 : 0 < central p q := by rw [← delta_eq]; positivity
  have c1 : central p q ≤ π - 1 / 10 ^ 7 := by rw [← delta_eq]; exact (div_le_iff₀ hR).2 h1
  have h7 : (0 : ℝ) < 1 / 10 ^ 7 := by norm_num
  obtain ⟨t, W, l, g1, g2, g3, g4, g5, g6, g7, -⟩ := linspace_spec p q n hn c0 (by linarith) hx
  refine ⟨t, l, g1, g2, ?_, g7, fun y hy => ?_⟩
  · rcases g4 with rfl | g4
    · rw [sub_self, abs_zero]; norm_num
    · exact close_angle p q t W g3 c0 c1 g5 g6 g4
  · rw [g7 0 y hy]; simp [arc]

/-- The last point of `geo_linspace` is the end, up to `10⁻⁸` in every coordinate of the unit sphere. -/
theorem c61_linspace_end_partial (p q : LL) (n : ℕ) (hn : 2 ≤ n) (h0 : 0 < distance 1 p q) (h1 : distance 1 p q < π * R)
    (hx : (place p) 0 + (place q) 0 ≠ 0) :
    ∃ l, geoLinspace p q n = .ok l ∧ l.length = n + 1 ∧ ∀ y, l[n]? = some y → ∀ i : Fin 3, |(place y) i - (place q) i| ≤ 1 / 10 ^ 8 := by
  have hR := R_pos
  have hn' : (n : ℝ) ≠ 0 := by have : n ≠ 0 := by omega
                               exact_mod_cast this
  have c0 : 0 < central p q := by rw [← delta_eq]; positivity
  have c1 : central p q < π := by rw [← delta_eq]; exact (div_lt_iff₀ hR).2 h1
  obtain ⟨t, W, l, g1, g2, g3, g4, g5, g6, g7, -⟩ := linspace_spec p q n hn c0 c1 hx
  refine ⟨l, g1, g2, fun y hy => ?_⟩
  have e := g7 n y hy
  rw [div_self hn', mul_one] at e
  rcases g4 with rfl | g4
  · rw [e, ← target_eq]; intro i; rw [sub_self, abs_zero]; norm_num
  · have e' : place y = vec (combine t (ll2cart p 1) W) := by rw [vec_combine, g3, vec_ll2cart, e]
    rw [e', ← vec_ll2cart q]
    obtain ⟨a1, a2, a3⟩ := g4
    intro i
    fin_cases i
    · exact a1
    · exact a2
    · exact a3

/-- **C61 is violated when the first coordinates cancel** (two points of a parallel on opposite sides of the meridian of 90 degrees, for instance):
with exact numbers the code divides by zero, with floating-point numbers by a rounding error. -/
theorem c61_linspace_cancels (p q : LL) (n : ℕ) (hx : (place p) 0 + (place q) 0 = 0) : ∃ e, geoLinspace p q n = .error e := by
  have ha : (place p) 0 = (ll2cart p 1).1 := by rw [← vec_ll2cart]; rfl
  have hb : (place q) 0 = (ll2cart q 1).1 := by rw [← vec_ll2cart]; rfl
  have : ∃ e, solve p q = .error e := by
    unfold solve
    simp only []
    split
    · exact ⟨_, rfl⟩
    split
    · exact ⟨_, rfl⟩
    split
    · exact ⟨_, rfl⟩
    rw [← ha, ← hb, if_pos hx]
    exact ⟨_, rfl⟩
  obtain ⟨e, he⟩ := this
  unfold geoLinspace linspaceUnit
  split
  · exact ⟨_, rfl⟩
  · rw [he]; exact ⟨_, rfl⟩

/-- For instance from (0, 45) to (0, 135). -/
example (n : ℕ) : ∃ e, geoLinspace (0, 45) (0, 135) n = .error e := by
  apply c61_linspace_cancels
  rw [equator_place, equator_place, show (135 : ℝ) * π / 180 = π - 45 * π / 180 by ring]
  simp

/-- **C61 is violated for equal places**: no path. -/
theorem c61_linspace_same (p q : LL) (h : place p = place q) (n : ℕ) : ∃ e, geoLinspace p q n = .error e := by
  have hd : vdot (ll2cart p 1) (ll2cart q 1) = 1 := by rw [vdot_eq, vec_ll2cart, vec_ll2cart, h, place_inner_self]
  unfold geoLinspace linspaceUnit
  split
  · exact ⟨_, rfl⟩
  · unfold solve; simp only []; rw [hd, if_pos (by norm_num)]; exact ⟨_, rfl⟩

/-- **C61 is violated**: `ecef_linspace` never gives a path. -/
theorem c61_ecef_linspace (p q : LL) (a b : ℝ) (n : ℕ) : ∃ e, ecefLinspace p q a b n = .error e := by
  unfold ecefLinspace
  cases hl : geoLinspace p q n with
  | error e => exact ⟨e, rfl⟩
  | ok l =>
    have hlen : 3 ≤ l.length := by
      unfold geoLinspace linspaceUnit at hl
      split at hl
      · cases hl
      · cases hs : solve p q with
        | error e => rw [hs] at hl; cases hl
        | ok r =>
          rw [hs] at hl
          simp only [Except.map, Except.ok.injEq] at hl
          rw [← hl]; simp; omega
    have : unpackTwo l = .error .value := by
      match l, hlen with
      | _ :: _ :: _ :: _, _ => rfl
    simp only [this]
    exact ⟨_, rfl⟩

/-- **C61**: `ecef_and_geo_linspace` gives the points of `geo_linspace` with equally spaced altitudes, and their cartesian coordinates. -/
theorem c61_ecef_and_geo (p q : LL) (a b : ℝ) (n : ℕ) (l : List LL) (hl : geoLinspace p q n = .ok l) :
    ∃ xs lla, ecefAndGeoLinspace p q a b n = .ok (xs, lla) ∧ xs.length = n + 1 ∧ lla.length = n + 1 ∧
      ∀ (i : ℕ) x r, xs[i]? = some x → lla[i]? = some r → l[i]? = some r.1 ∧ r.2 = a + (b - a) * i / n ∧ vec x = (R + r.2) • place r.1 := by
  have hlen : l.length = n + 1 := by
    unfold geoLinspace linspaceUnit at hl
    split at hl
    · cases hl
    · cases hs : solve p q with
      | error e => rw [hs] at hl; cases hl
      | ok r =>
        rw [hs] at hl
        simp only [Except.map, Except.ok.injEq] at hl
        rw [← hl]; simp
  unfold ecefAndGeoLinspace
  rw [hl]
  refine ⟨_, _, rfl, by simp [hlen], by simp [hlen], ?_⟩
  intro i x r hx hr
  rw [List.getElem?_map, hr] at hx
  simp only [Option.map_some, Option.some.injEq] at hx
  rw [List.getElem?_zip_eq_some] at hr
  obtain ⟨h1, h2⟩ := hr
  simp only [List.getElem?_map, Option.map_eq_some_iff] at h2
  obtain ⟨j, hj, h2⟩ := h2
  obtain ⟨hl', hj⟩ := List.getElem?_eq_some_iff.1 hj
  rw [List.getElem_range] at hj
  subst hj
  exact ⟨h1, h2.symm, by rw [← hx, c61_lla2ecef]⟩

/-- A path meeting the hypotheses: a quarter of the equator. -/
example (n : ℕ) (hn : 2 ≤ n) : ∃ l, geoLinspace (0, 0) (0, 90) n = .ok l ∧ l.length = n + 1 := by
  have hR := R_pos
  obtain ⟨t, l, h1, h2, -⟩ := c61_linspace_partial (0, 0) (0, 90) n hn quarter_hyps.1
    (by rw [quarter_distance]; have := two_le_pi; nlinarith)
    (by rw [equator_place, equator_place, show (90 : ℝ) * π / 180 = π / 2 by ring]; simp)
  exact ⟨l, h1, h2⟩

end Verif.Globe
