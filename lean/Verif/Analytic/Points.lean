import Verif.Analytic.Lemmas

/-! # The part of a leg inside a range -/

namespace Verif.Analytic

open Real InnerProductGeometry Verif.Globe Verif.Path

local notation "⟪" x ", " y "⟫" => inner ℝ x y

/-- The along-track component of the sensor. -/
noncomputable def along (p q x : LL) : ℝ := sin (central p x) * cos (radians (bearing p x) - radians (bearing p q))

open Classical in
/-- `get_great_circle_points` when the courses exist. -/
theorem points_unfold (a b d : Geo) (ρ : ℝ) (ha : OffPole a.ll) (hb : Lat b.ll) (hd : Lat d.ll) (hab0 : 0 < central a.ll b.ll) (hab1 : central a.ll b.ll < π)
    (had0 : 0 < central a.ll d.ll) (had1 : central a.ll d.ll < π) :
    ∀ r atd dp, r = √(cos (central a.ll d.ll) ^ 2 + along a.ll b.ll d.ll ^ 2) → atd = atan2 (along a.ll b.ll d.ll) (cos (central a.ll d.ll)) → dp = arccos (cos ρ / r) →
    ∃ x1 x2, place (degrees x1.1, degrees x1.2) = arc (place a.ll) (heading a.ll (bearing a.ll b.ll)) (atd - dp) ∧
      place (degrees x2.1, degrees x2.2) = arc (place a.ll) (heading a.ll (bearing a.ll b.ll)) (atd + dp) ∧
      getPoints a b d ρ = if cos ρ ^ 2 > r ^ 2 then .ok none else if r = 0 then .error .zeroDivision else if dp = 0 then .ok none
        else if central a.ll b.ll < atd - dp ∨ atd + dp < 0 then .ok none else .ok (some ((x1, x2), (atd - dp, atd + dp))) := by
  intro r atd dp er eatd edp
  obtain ⟨t1, c1, c1c, c1s⟩ := course_spec a d ha hd had0 had1
  obtain ⟨t2, c2, c2c, c2s⟩ := course_spec a b ha hb hab0 hab1
  have hα : cos (t1 - t2) = cos (radians (bearing a.ll d.ll) - radians (bearing a.ll b.ll)) := by
    rw [cos_sub, cos_sub, c1c, c2c, c1s, c2s]; ring
  obtain ⟨x1, g1, g2⟩ := pos_spec a b ha hb hab0 hab1 (atd - dp)
  obtain ⟨x2, g3, g4⟩ := pos_spec a b ha hb hab0 hab1 (atd + dp)
  refine ⟨x1, x2, g2, g4, ?_⟩
  unfold getPoints
  simp only [course_idem, c1, c2, distRad_eq, rad_ll, hα, pos_idem]
  have esq : cos (central a.ll d.ll) ^ 2 + sin (central a.ll d.ll) ^ 2 * cos (radians (bearing a.ll d.ll) - radians (bearing a.ll b.ll)) ^ 2 =
      cos (central a.ll d.ll) ^ 2 + along a.ll b.ll d.ll ^ 2 := by unfold along; ring
  have ea : sin (central a.ll d.ll) * cos (radians (bearing a.ll d.ll) - radians (bearing a.ll b.ll)) = along a.ll b.ll d.ll := rfl
  rw [esq, ea, ← er, ← eatd, ← edp, g1, g3]

/-- `get_great_circle_points`: where the leg is inside the range. -/
theorem points_spec (a b d : Geo) (ρ : ℝ) (ha : OffPole a.ll) (hb : Lat b.ll) (hd : Lat d.ll) (hab0 : 0 < central a.ll b.ll) (hab1 : central a.ll b.ll < π)
    (had0 : 0 < central a.ll d.ll) (had1 : central a.ll d.ll < π) (hρ0 : 0 < ρ) (hρ1 : ρ < π / 2) (hL : central a.ll b.ll + ρ ≤ π) :
    (getPoints a b d ρ = .ok none ∧ ∀ s, 0 ≤ s → s ≤ central a.ll b.ll → seen a.ll b.ll d.ll s ≤ cos ρ) ∨
    ∃ x1 x2 d1 d2, getPoints a b d ρ = .ok (some ((x1, x2), (d1, d2))) ∧ d1 < d2 ∧ d1 ≤ central a.ll b.ll ∧ 0 ≤ d2 ∧
      place (degrees x1.1, degrees x1.2) = arc (place a.ll) (heading a.ll (bearing a.ll b.ll)) d1 ∧
      place (degrees x2.1, degrees x2.2) = arc (place a.ll) (heading a.ll (bearing a.ll b.ll)) d2 ∧
      ∀ s, 0 ≤ s → s ≤ central a.ll b.ll → (cos ρ ≤ seen a.ll b.ll d.ll s ↔ d1 ≤ s ∧ s ≤ d2) ∧ (cos ρ < seen a.ll b.ll d.ll s ↔ d1 < s ∧ s < d2) := by
  have hcρ : 0 < cos ρ := cos_pos_of_mem_Ioo ⟨by linarith, hρ1⟩
  have hwave := seen_wave a.ll b.ll d.ll
  have hamp := amplitude_le a.ll b.ll d.ll
  have ea : sin (central a.ll d.ll) * cos (radians (bearing a.ll d.ll) - radians (bearing a.ll b.ll)) = along a.ll b.ll d.ll := rfl
  rw [ea] at hamp
  simp only [ea] at hwave
  obtain ⟨x1, x2, k1, k2, hpts⟩ := points_unfold a b d ρ ha hb hd hab0 hab1 had0 had1 _ _ _ rfl rfl rfl
  rw [hpts]
  clear hpts ea
  generalize along a.ll b.ll d.ll = A at *
  generalize cos (central a.ll d.ll) = B at *
  have hr0 : 0 ≤ √(B ^ 2 + A ^ 2) := sqrt_nonneg _
  have hr1 : √(B ^ 2 + A ^ 2) ≤ 1 := by rw [show (1 : ℝ) = √1 by simp]; exact sqrt_le_sqrt hamp
  obtain ⟨at0, at1⟩ := atan2_range A B
  generalize √(B ^ 2 + A ^ 2) = r at *
  generalize atan2 A B = atd at *
  split
  · rename_i hgt
    refine .inl ⟨rfl, fun s _ _ => ?_⟩
    have : r < cos ρ := by nlinarith
    rw [hwave]
    nlinarith [cos_le_one (s - atd)]
  rename_i hgt
  push Not at hgt
  have hrc : cos ρ ≤ r := by nlinarith
  have hrpos : 0 < r := lt_of_lt_of_le hcρ hrc
  rw [if_neg hrpos.ne']
  have hq1 : cos ρ / r ≤ 1 := (div_le_one hrpos).2 hrc
  have hq0 : cos ρ ≤ cos ρ / r := by rw [le_div_iff₀ hrpos]; nlinarith
  have hcd : cos (arccos (cos ρ / r)) = cos ρ / r := cos_arccos (by linarith) hq1
  have hd0 := arccos_nonneg (cos ρ / r)
  have hdρ : arccos (cos ρ / r) ≤ ρ := by
    have := arccos_le_arccos hq0
    rwa [arccos_cos hρ0.le (by linarith)] at this
  have hwin : ∀ s, 0 ≤ s → s ≤ central a.ll b.ll → (cos ρ ≤ seen a.ll b.ll d.ll s ↔ atd - arccos (cos ρ / r) ≤ s ∧ s ≤ atd + arccos (cos ρ / r)) ∧
      (cos ρ < seen a.ll b.ll d.ll s ↔ atd - arccos (cos ρ / r) < s ∧ s < atd + arccos (cos ρ / r)) := by
    intro s h0 h1
    obtain ⟨w1, w2⟩ := cos_window hd0 (by linarith) (u := s - atd) (by linarith) (by linarith)
    rw [hcd, div_le_iff₀ hrpos] at w1
    rw [hcd, div_lt_iff₀ hrpos] at w2
    rw [hwave, mul_comm r, w1, w2]
    exact ⟨⟨fun h => ⟨by linarith [h.1], by linarith [h.2]⟩, fun h => ⟨by linarith [h.1], by linarith [h.2]⟩⟩,
      ⟨fun h => ⟨by linarith [h.1], by linarith [h.2]⟩, fun h => ⟨by linarith [h.1], by linarith [h.2]⟩⟩⟩
  generalize arccos (cos ρ / r) = dp at *
  have never : (¬ ∃ s, 0 ≤ s ∧ s ≤ central a.ll b.ll ∧ atd - dp < s ∧ s < atd + dp) → ∀ s, 0 ≤ s → s ≤ central a.ll b.ll → seen a.ll b.ll d.ll s ≤ cos ρ := by
    intro h s h0 h1
    by_contra hc
    push Not at hc
    exact h ⟨s, h0, h1, (hwin s h0 h1).2.1 hc⟩
  split
  · rename_i hz
    exact .inl ⟨rfl, never (by rintro ⟨s, -, -, h1, h2⟩; rw [hz] at h1 h2; linarith)⟩
  rename_i hz
  have hdpos : 0 < dp := lt_of_le_of_ne hd0 (Ne.symm hz)
  split
  · rename_i ho
    refine .inl ⟨rfl, never ?_⟩
    rintro ⟨s, h0, h1, h2, h3⟩
    rcases ho with ho | ho <;> linarith
  rename_i ho
  push Not at ho
  exact .inr ⟨x1, x2, _, _, rfl, by linarith, ho.1, ho.2, k1, k2, hwin⟩

/-- Where the mover is on a leg, by distances and by the arc. -/
theorem at_leg (k : ℝ) (hk : 0 < k) (p q : LL) (h0 : 0 < central p q) (h1 : central p q < π) (s : ℝ) (y : LL) :
    At (arcLen k) p [q] s y ↔ (0 ≤ s ∧ s ≤ arcLen k p q) ∧ place y = arc (place p) (heading p (bearing p q)) (s * k / R) := by
  have hR := R_pos
  have hlen : arcLen k p q = R * central p q / k := rfl
  have hone : At (arcLen k) p [q] s y ↔ (0 ≤ s ∧ s ≤ arcLen k p q) ∧ arcLen k p y = s ∧ arcLen k y q = arcLen k p q - s := by
    constructor
    · rintro ⟨pre, w, post, a, e1, rfl, e3, e4, e5, e6⟩
      match pre, e1 with
      | [], e1 =>
        simp only [List.nil_append, List.cons.injEq] at e1
        obtain ⟨rfl, -⟩ := e1
        simp only [pathLen, List.getLastD_nil, sub_zero, zero_add] at e3 e4 e5 e6
        exact ⟨⟨e3, e4⟩, e5, by rw [e6, e5]⟩
      | _ :: _, e1 => simp at e1
    · rintro ⟨⟨e1, e2⟩, e3, e4⟩
      exact ⟨[], q, [], p, rfl, rfl, by simpa [pathLen] using e1, by simpa [pathLen] using e2, by simpa [pathLen] using e3, by simp [e3, e4]⟩
  rw [hone]
  have hc : ∀ u v : LL, ∀ t, arcLen k u v = t ↔ central u v = t * k / R := by
    intro u v t
    show R * central u v / k = t ↔ _
    rw [div_eq_iff hk.ne', eq_div_iff hR.ne', mul_comm R]
  refine and_congr_right fun ⟨s0, s1⟩ => ?_
  have hsL : s * k / R ≤ central p q := by
    rw [hlen, le_div_iff₀ hk] at s1
    rw [div_le_iff₀ hR]; linarith
  have hs0 : 0 ≤ s * k / R := by positivity
  rw [hc, hc]
  have e2 : (arcLen k p q - s) * k / R = central p q - s * k / R := by rw [hlen]; field_simp
  rw [e2]
  generalize s * k / R = t at *
  constructor
  · rintro ⟨g1, g2⟩
    have hy := target_eq p y
    rw [g1] at hy
    have hcos := cos_central_arc p q y q (central p q) (target_eq p q)
    rw [g1, g2, show central p q - t = t - (t - (central p q - t)) by ring, show t - (t - (central p q - t)) = central p q - t by ring, cos_sub] at hcos
    rcases hs0.eq_or_lt with hz | hz
    · rw [hy, ← hz, arc_zero, arc_zero]
    · have hst : 0 < sin t := sin_pos_of_pos_of_lt_pi hz (by linarith)
      have hsL := sin_pos_of_pos_of_lt_pi h0 h1
      have hone : cos (radians (bearing p y) - radians (bearing p q)) = 1 := by
        have : sin t * sin (central p q) * (1 - cos (radians (bearing p y) - radians (bearing p q))) = 0 := by linear_combination hcos
        have h2 : sin t * sin (central p q) ≠ 0 := by positivity
        have := (mul_eq_zero.1 this).resolve_left h2
        linarith
      have hz : sin (radians (bearing p y) - radians (bearing p q)) = 0 := by
        have := sin_sq_add_cos_sq (radians (bearing p y) - radians (bearing p q))
        rw [hone] at this
        have : sin (radians (bearing p y) - radians (bearing p q)) ^ 2 = 0 := by linarith
        exact pow_eq_zero_iff (two_ne_zero) |>.1 this
      rw [hy, heading_turn p (bearing p q) (bearing p y), hone, hz, one_smul, zero_smul, add_zero]
  · intro hy
    have h1' := arc_angle (place_inner_self p) (heading_norm p (bearing p q)) (heading_place p (bearing p q))
    constructor
    · unfold central; rw [hy]; exact arc_central p _ t hs0 (by linarith)
    · have e : central y q = angle (arc (place p) (heading p (bearing p q)) t) (arc (place p) (heading p (bearing p q)) (central p q)) := by
        unfold central; rw [hy]; conv_lhs => rw [target_eq p q]
        rfl
      rw [e, h1' t (central p q) hsL (by linarith)]

theorem seen_dist (p q x y : LL) (t : ℝ) (hy : place y = arc (place p) (heading p (bearing p q)) t) : cos (central y x) = seen p q x t := by
  have := cos_central_arc p q x y t hy
  rw [seen, ← this]
  unfold central; rw [angle_comm]

theorem range_iff (p q x y : LL) (t ρ : ℝ) (h0 : 0 ≤ ρ) (h1 : ρ ≤ π) (hy : place y = arc (place p) (heading p (bearing p q)) t) :
    (central y x ≤ ρ ↔ cos ρ ≤ seen p q x t) ∧ (central y x < ρ ↔ cos ρ < seen p q x t) := by
  rw [← seen_dist p q x y t hy]
  exact ⟨(strictAntiOn_cos.le_iff_ge ⟨h0, h1⟩ ⟨central_nonneg y x, central_le y x⟩).symm, (strictAntiOn_cos.lt_iff_gt ⟨h0, h1⟩ ⟨central_nonneg y x, central_le y x⟩).symm⟩

end Verif.Analytic
