import Verif.Analytic.Points

/-!
# What `analytical_intersection` returns for fair legs

The mover is where `Path.At` puts it: at the length `s` from the start and the rest of the leg from the finish, lengths being those of great-circle arcs.
-/

namespace Verif.Analytic

open Real InnerProductGeometry Verif.Globe Verif.Path

/-- The radius on the ground, for a mover at the average altitude. -/
noncomputable def ground (c : ℝ) (start finish : Geo) (radius : ℝ) : ℝ := √(radius ^ 2 - ((start.alt + finish.alt) / 2 * c) ^ 2)

/-- The legs and sensors for which the formulas hold: the start is not at a pole, the leg has a length, the sensor is neither at the start nor opposite to it,
its range is less than a quarter of the globe, leg and range together are at most half of it. -/
structure Fair (k : ℝ) (p q x : LL) (r : ℝ) : Prop where
  start : OffPole p
  finish : Lat q
  sensor : Lat x
  moves : 0 < arcLen k p q
  away : 0 < arcLen k p x
  opposite : arcLen k p x * k < π * R
  pos : 0 < r
  quarter : r * k < π / 2 * R
  short : (arcLen k p q + r) * k ≤ π * R

theorem arcLen_mul (k : ℝ) (hk : 0 < k) (p q : LL) : arcLen k p q * k = R * central p q := by unfold arcLen; rw [div_mul_cancel₀ _ hk.ne']; rfl

theorem central_eq (k : ℝ) (hk : 0 < k) (p q : LL) : central p q = arcLen k p q * k / R := by rw [arcLen_mul k hk]; have := R_pos.ne'; field_simp

theorem arcLen_comm (k : ℝ) (p q : LL) : arcLen k p q = arcLen k q p := by unfold arcLen; rw [angle_comm]

theorem arcLen_le_iff (k : ℝ) (hk : 0 < k) (p q : LL) (r : ℝ) : (arcLen k p q ≤ r ↔ central p q ≤ r * k / R) ∧ (arcLen k p q < r ↔ central p q < r * k / R) := by
  have hR := R_pos
  rw [central_eq k hk]
  constructor
  · rw [div_le_div_iff_of_pos_right hR, mul_le_mul_iff_left₀ hk]
  · rw [div_lt_div_iff_of_pos_right hR, mul_lt_mul_iff_left₀ hk]

theorem points_idem (a b d : Geo) (ρ : ℝ) : getPoints (toRadians a) (toRadians b) (toRadians d) ρ = getPoints a b d ρ := by
  unfold getPoints; simp only [toRadians_idem]

theorem crossingAt_ll (p : ℝ × ℝ) (alt : ℝ) : (crossingAt p alt).ll = (degrees p.1, degrees p.2) ∧ (crossingAt p alt).alt = alt := by
  unfold crossingAt Geo.toDegrees Geo.ll degrees; simp

/-- What `analytical_intersection` returns for fair legs. -/
theorem core (k c : ℝ) (hk : 0 < k) (start finish sensor : Geo) (v radius : ℝ) (hv : 0 < v) (hr : ((start.alt + finish.alt) / 2 * c) ^ 2 ≤ radius ^ 2)
    (hF : Fair k start.ll finish.ll sensor.ll (ground c start finish radius)) :
    (intersection k c start finish v sensor radius = .ok ⟨[], -1⟩ ∧
      ∀ s Y, At (arcLen k) start.ll [finish.ll] s Y → ground c start finish radius ≤ arcLen k Y sensor.ll) ∨
    ∃ e1 e2 s1 s2, intersection k c start finish v sensor radius = .ok ⟨[e1, e2], arcLen k start.ll finish.ll / v⟩ ∧
      s1 < s2 ∧ s1 ≤ arcLen k start.ll finish.ll ∧ 0 ≤ s2 ∧
      (∀ s Y, At (arcLen k) start.ll [finish.ll] s Y →
        (arcLen k Y sensor.ll ≤ ground c start finish radius ↔ s1 ≤ s ∧ s ≤ s2) ∧ (arcLen k Y sensor.ll < ground c start finish radius ↔ s1 < s ∧ s < s2)) ∧
      (arcLen k start.ll sensor.ll < ground c start finish radius ∧ e1 = (.startInside, start, 0) ∨
        ground c start finish radius ≤ arcLen k start.ll sensor.ll ∧ e1.1 = .enter ∧
          place e1.2.1.ll = arc (place start.ll) (heading start.ll (bearing start.ll finish.ll)) (s1 * k / R) ∧
          e1.2.1.alt = start.alt + (finish.alt - start.alt) * (s1 / arcLen k start.ll finish.ll) / central start.ll finish.ll ∧
          e1.2.2 = s1 * (1 + (start.alt + e1.2.1.alt) / 2 * c * k / R) / v) ∧
      (arcLen k finish.ll sensor.ll < ground c start finish radius ∧ e2 = (.endInside, finish, arcLen k start.ll finish.ll / v) ∨
        ground c start finish radius ≤ arcLen k finish.ll sensor.ll ∧ e2.1 = .exit ∧
          place e2.2.1.ll = arc (place start.ll) (heading start.ll (bearing start.ll finish.ll)) (s2 * k / R) ∧
          e2.2.1.alt = start.alt + (finish.alt - start.alt) * (s2 / arcLen k start.ll finish.ll) / central start.ll finish.ll ∧
          e2.2.2 = s2 * (1 + (start.alt + e2.2.1.alt) / 2 * c * k / R) / v) := by
  have hR := R_pos
  have hpi := pi_pos
  have hL := central_eq k hk start.ll finish.ll
  have hB := central_eq k hk start.ll sensor.ll
  have m := hF.moves
  have aw := hF.away
  have po := hF.pos
  have hL0 : 0 < central start.ll finish.ll := by rw [hL]; positivity
  have hB0 : 0 < central start.ll sensor.ll := by rw [hB]; positivity
  have hB1 : central start.ll sensor.ll < π := by rw [hB, div_lt_iff₀ hR]; exact hF.opposite
  have hρ0 : 0 < ground c start finish radius * k / R := by positivity
  have hρ1 : ground c start finish radius * k / R < π / 2 := by rw [div_lt_iff₀ hR]; exact hF.quarter
  have hLρ : central start.ll finish.ll + ground c start finish radius * k / R ≤ π := by
    rw [hL, ← add_div, div_le_iff₀ hR, ← add_mul]; exact hF.short
  have hL1 : central start.ll finish.ll < π := by linarith
  have hpts := points_spec start finish sensor (ground c start finish radius * k / R) hF.start hF.finish hF.sensor hL0 hL1 hB0 hB1 hρ0 hρ1 hLρ
  have hat := at_leg k hk start.ll finish.ll hL0 hL1
  have hsc : ∀ s, s ≤ arcLen k start.ll finish.ll → s * k / R ≤ central start.ll finish.ll := by
    intro s hs; rw [hL]; gcongr
  have hri : ∀ s Y, At (arcLen k) start.ll [finish.ll] s Y →
      (arcLen k Y sensor.ll ≤ ground c start finish radius ↔ cos (ground c start finish radius * k / R) ≤ seen start.ll finish.ll sensor.ll (s * k / R)) ∧
      (arcLen k Y sensor.ll < ground c start finish radius ↔ cos (ground c start finish radius * k / R) < seen start.ll finish.ll sensor.ll (s * k / R)) := by
    intro s Y hY
    obtain ⟨i1, i2⟩ := arcLen_le_iff k hk Y sensor.ll (ground c start finish radius)
    obtain ⟨j1, j2⟩ := range_iff start.ll finish.ll sensor.ll Y (s * k / R) (ground c start finish radius * k / R) hρ0.le (by linarith) ((hat s Y).1 hY).2
    exact ⟨i1.trans j1, i2.trans j2⟩
  have hρ : √(radius ^ 2 - ((start.alt + finish.alt) / 2 * c) ^ 2) / (R / k) = ground c start finish radius * k / R := by unfold ground; field_simp
  have hint : ∀ res, getPoints start finish sensor (ground c start finish radius * k / R) = .ok res →
      intersection k c start finish v sensor radius =
        match res with
        | none => .ok ⟨[], -1⟩
        | some ((p1, p2), (d1, d2)) =>
            .ok ⟨[if central sensor.ll start.ll < ground c start finish radius * k / R then (Kind.startInside, start, 0)
              else (Kind.enter, crossingAt p1 (start.alt + d1 / central start.ll finish.ll * ((finish.alt - start.alt) / central start.ll finish.ll)),
                d1 * (R / k + 1 / 2 * (start.alt + (start.alt + d1 / central start.ll finish.ll * ((finish.alt - start.alt) / central start.ll finish.ll))) * c) / v),
              if central sensor.ll finish.ll < ground c start finish radius * k / R then (Kind.endInside, finish, central start.ll finish.ll * (R / k) / v)
              else (Kind.exit, crossingAt p2 (start.alt + d2 / central start.ll finish.ll * ((finish.alt - start.alt) / central start.ll finish.ll)),
                d2 * (R / k + 1 / 2 * (start.alt + (start.alt + d2 / central start.ll finish.ll * ((finish.alt - start.alt) / central start.ll finish.ll))) * c) / v)],
              central start.ll finish.ll * (R / k) / v⟩ := by
    intro res hres
    unfold intersection
    simp only []
    rw [if_neg (by linarith), hρ, points_idem, hres]
    simp only [distRad_eq, rad_ll, if_neg hv.ne']
    cases res with
    | none => rfl
    | some x =>
      obtain ⟨⟨p1, p2⟩, ⟨d1, d2⟩⟩ := x
      simp only [if_neg hL0.ne']
  have hpt : central start.ll finish.ll * (R / k) / v = arcLen k start.ll finish.ll / v := by rw [hL]; field_simp
  rcases hpts with ⟨g1, g2⟩ | ⟨x1, x2, d1, d2, g1, g2, g3, g4, g5, g6, g7⟩
  · refine .inl ⟨hint none g1, fun s Y hY => ?_⟩
    by_contra hc
    push Not at hc
    have h1 := ((hat s Y).1 hY).1
    have := g2 (s * k / R) (by have := h1.1; positivity) (hsc s h1.2)
    have := ((hri s Y hY).2).1 hc
    linarith
  · refine .inr ⟨_, _, d1 * R / k, d2 * R / k, (hint _ g1).trans (by rw [hpt]), by gcongr, ?_, by positivity, ?_, ?_, ?_⟩
    · rw [hL] at g3; rw [div_le_iff₀ hk]; rw [le_div_iff₀ hR] at g3; exact g3
    · intro s Y hY
      have h1 := ((hat s Y).1 hY).1
      obtain ⟨w1, w2⟩ := g7 (s * k / R) (by have := h1.1; positivity) (hsc s h1.2)
      obtain ⟨u1, u2⟩ := hri s Y hY
      refine ⟨u1.trans (w1.trans ?_), u2.trans (w2.trans ?_)⟩
      · rw [div_le_iff₀ hk, le_div_iff₀ hk, le_div_iff₀ hR, div_le_iff₀ hR]
      · rw [div_lt_iff₀ hk, lt_div_iff₀ hk, lt_div_iff₀ hR, div_lt_iff₀ hR]
    · have hi := (arcLen_le_iff k hk sensor.ll start.ll (ground c start finish radius)).2
      rw [arcLen_comm k start.ll sensor.ll]
      by_cases h : arcLen k sensor.ll start.ll < ground c start finish radius
      · left
        refine ⟨h, ?_⟩
        rw [if_pos (hi.1 h)]
      · right
        rw [if_neg (fun hc => h (hi.2 hc))]
        refine ⟨not_lt.1 h, rfl, ?_, ?_, ?_⟩
        · simp only [(crossingAt_ll _ _).1]; rw [g5]; congr 1; field_simp
        · simp only [(crossingAt_ll _ _).2]; rw [hL]; field_simp
        · simp only [(crossingAt_ll _ _).2]; field_simp
    · have hi := (arcLen_le_iff k hk sensor.ll finish.ll (ground c start finish radius)).2
      rw [arcLen_comm k finish.ll sensor.ll]
      by_cases h : arcLen k sensor.ll finish.ll < ground c start finish radius
      · left
        refine ⟨h, ?_⟩
        rw [if_pos (hi.1 h)]
      · right
        rw [if_neg (fun hc => h (hi.2 hc))]
        refine ⟨not_lt.1 h, rfl, ?_, ?_, ?_⟩
        · simp only [(crossingAt_ll _ _).1]; rw [g6]; congr 1; field_simp
        · simp only [(crossingAt_ll _ _).2]; rw [hL]; field_simp
        · simp only [(crossingAt_ll _ _).2]; field_simp

end Verif.Analytic
