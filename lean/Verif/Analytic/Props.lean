import Verif.Analytic.Core

/-!
# C63: the analytical crossing of a great-circle leg and a sensor's range

The mover is where `Path.At` puts it: at the length `s` from the start and the rest of the leg from the finish, lengths being those of great-circle arcs.
-/

namespace Verif.Analytic

open Real InnerProductGeometry Verif.Globe Verif.Path

theorem ground_zero (c : ℝ) (start finish : Geo) (r : ℝ) (h1 : start.alt = 0) (h2 : finish.alt = 0) (hr : 0 < r) : ground c start finish r = r := by
  unfold ground; rw [h1, h2]; simp only [add_zero, zero_div, zero_mul]; rw [zero_pow two_ne_zero, sub_zero, sqrt_sq hr.le]

/-- Being on a fair leg, by arcs. -/
theorem Fair.at_iff {k : ℝ} (hk : 0 < k) {p q x : LL} {r : ℝ} (hF : Fair k p q x r) (s : ℝ) (y : LL) :
    At (arcLen k) p [q] s y ↔ (0 ≤ s ∧ s ≤ arcLen k p q) ∧ place y = arc (place p) (heading p (bearing p q)) (s * k / R) := by
  have hR := R_pos
  have hL := central_eq k hk p q
  have m := hF.moves
  have po := hF.pos
  have sh := hF.short
  refine at_leg k hk p q (by rw [hL]; positivity) ?_ s y
  rw [hL, div_lt_iff₀ hR]; nlinarith

theorem Fair.at_start {k : ℝ} (hk : 0 < k) {p q x : LL} {r : ℝ} (hF : Fair k p q x r) : At (arcLen k) p [q] 0 p := by
  rw [hF.at_iff hk]; exact ⟨⟨le_rfl, hF.moves.le⟩, by rw [zero_mul, zero_div, arc_zero]⟩

theorem Fair.at_finish {k : ℝ} (hk : 0 < k) {p q x : LL} {r : ℝ} (hF : Fair k p q x r) : At (arcLen k) p [q] (arcLen k p q) q := by
  rw [hF.at_iff hk, ← central_eq k hk]; exact ⟨⟨hF.moves.le, le_rfl⟩, target_eq p q⟩

/-- **C63, at altitude zero**: for legs and sensors that are fair, `analytical_intersection` reports nothing only if the mover never comes inside the range;
otherwise it reports exactly the times between which the mover is in range, the places where it is then, and whether it crosses there or starts or ends inside.
Missing: other altitudes, unfair legs, and legs that start or end exactly on the boundary without coming inside. -/
theorem c63_exact_partial (k c : ℝ) (hk : 0 < k) (start finish sensor : Geo) (v r : ℝ) (hv : 0 < v) (ha1 : start.alt = 0) (ha2 : finish.alt = 0)
    (hF : Fair k start.ll finish.ll sensor.ll r)
    (htouch : arcLen k start.ll sensor.ll = r ∨ arcLen k finish.ll sensor.ll = r → ∃ s Y, At (arcLen k) start.ll [finish.ll] s Y ∧ arcLen k Y sensor.ll < r) :
    ∃ res, intersection k c start finish v sensor r = .ok res ∧
      (res.crossings = [] ∧ (∀ s Y, At (arcLen k) start.ll [finish.ll] s Y → r ≤ arcLen k Y sensor.ll) ∨
      ∃ k1 X1 t1 k2 X2 t2, res.crossings = [(k1, X1, t1), (k2, X2, t2)] ∧ res.pathTime = arcLen k start.ll finish.ll / v ∧
        0 ≤ t1 ∧ t1 < t2 ∧ t2 ≤ arcLen k start.ll finish.ll / v ∧
        At (arcLen k) start.ll [finish.ll] (v * t1) X1.ll ∧ At (arcLen k) start.ll [finish.ll] (v * t2) X2.ll ∧ X1.alt = 0 ∧ X2.alt = 0 ∧
        (∀ t Y, At (arcLen k) start.ll [finish.ll] (v * t) Y → (arcLen k Y sensor.ll ≤ r ↔ t1 ≤ t ∧ t ≤ t2)) ∧
        (k1 = .startInside ∧ t1 = 0 ∧ arcLen k start.ll sensor.ll < r ∨ k1 = .enter ∧ arcLen k X1.ll sensor.ll = r) ∧
        (k2 = .endInside ∧ t2 = arcLen k start.ll finish.ll / v ∧ arcLen k finish.ll sensor.ll < r ∨ k2 = .exit ∧ arcLen k X2.ll sensor.ll = r)) := by
  have hg := ground_zero c start finish r ha1 ha2 hF.pos
  have hcore := core k c hk start finish sensor v r hv (by rw [ha1, ha2]; simp only [add_zero, zero_div, zero_mul]; rw [zero_pow two_ne_zero]; positivity) (by rw [hg]; exact hF)
  rw [hg] at hcore
  rcases hcore with ⟨h1, h2⟩ | ⟨e1, e2, s1, s2, h1, h12, hs1, hs2, hwin, he1, he2⟩
  · exact ⟨_, h1, .inl ⟨rfl, h2⟩⟩
  obtain ⟨k1, X1, t1⟩ := e1
  obtain ⟨k2, X2, t2⟩ := e2
  refine ⟨_, h1, .inr ⟨k1, X1, t1, k2, X2, t2, rfl, rfl, ?_⟩⟩
  have hA := hF.at_iff hk
  obtain ⟨b1, b2⟩ := hwin 0 _ (hF.at_start hk)
  obtain ⟨f1, f2⟩ := hwin _ _ (hF.at_finish hk)
  have m := hF.moves
  have hfirst : 0 ≤ t1 ∧ v * t1 < s2 ∧ v * t1 ≤ arcLen k start.ll finish.ll ∧ At (arcLen k) start.ll [finish.ll] (v * t1) X1.ll ∧ X1.alt = 0 ∧ (∀ s, 0 ≤ s → (s1 ≤ s ↔ v * t1 ≤ s)) ∧
      (k1 = .startInside ∧ t1 = 0 ∧ arcLen k start.ll sensor.ll < r ∨ k1 = .enter ∧ t1 = s1 / v ∧ arcLen k X1.ll sensor.ll = r) := by
    rcases he1 with ⟨g1, g2⟩ | ⟨g1, g2, g3, g4, g5⟩
    · simp only [Prod.mk.injEq] at g2
      obtain ⟨rfl, rfl, rfl⟩ := g2
      have := b2.1 g1
      rw [mul_zero]
      exact ⟨le_rfl, this.2, m.le, hF.at_start hk, ha1, fun s hs => ⟨fun _ => hs, fun _ => by linarith [this.1]⟩, .inl ⟨rfl, rfl, g1⟩⟩
    · simp only [ha1, ha2, sub_zero, zero_mul, zero_div, add_zero] at g2 g3 g4 g5
      rw [g4] at g5
      simp only [zero_div, zero_mul, add_zero, mul_one] at g5
      have h0 : 0 ≤ s1 := by
        by_contra hc
        push Not at hc
        have hle : arcLen k start.ll sensor.ll ≤ r := b1.2 ⟨hc.le, hs2⟩
        obtain ⟨s, Y, hY, hin⟩ := htouch (.inl (le_antisymm hle g1))
        have q1 := ((hwin s Y hY).2.1 hin)
        have q2 := ((hA s Y).1 hY).1.1
        exact absurd (b2.2 ⟨hc, by linarith⟩) (not_lt.2 g1)
      have hvt : v * t1 = s1 := by rw [g5]; field_simp
      rw [hvt]
      have hat : At (arcLen k) start.ll [finish.ll] s1 X1.ll := (hA _ _).2 ⟨⟨h0, hs1⟩, g3⟩
      obtain ⟨w1, w2⟩ := hwin _ _ hat
      refine ⟨by rw [g5]; positivity, h12, hs1, hat, g4, fun s _ => Iff.rfl, .inr ⟨g2, g5, le_antisymm (w1.2 ⟨le_rfl, h12.le⟩) ?_⟩⟩
      by_contra hc
      push Not at hc
      exact lt_irrefl _ (w2.1 hc).1
  obtain ⟨p1, p2, p3, p4, p5, p6, p7⟩ := hfirst
  have hlast : v * t1 < v * t2 ∧ t2 ≤ arcLen k start.ll finish.ll / v ∧ At (arcLen k) start.ll [finish.ll] (v * t2) X2.ll ∧ X2.alt = 0 ∧
      (∀ s, s ≤ arcLen k start.ll finish.ll → (s ≤ s2 ↔ s ≤ v * t2)) ∧
      (k2 = .endInside ∧ t2 = arcLen k start.ll finish.ll / v ∧ arcLen k finish.ll sensor.ll < r ∨ k2 = .exit ∧ arcLen k X2.ll sensor.ll = r) := by
    rcases he2 with ⟨g1, g2⟩ | ⟨g1, g2, g3, g4, g5⟩
    · simp only [Prod.mk.injEq] at g2
      obtain ⟨rfl, rfl, rfl⟩ := g2
      have := f2.1 g1
      have hvt : v * (arcLen k start.ll X2.ll / v) = arcLen k start.ll X2.ll := by field_simp
      rw [hvt]
      refine ⟨?_, le_rfl, hF.at_finish hk, ha2, fun s hs => ⟨fun _ => hs, fun _ => by linarith [this.2]⟩, .inl ⟨rfl, rfl, g1⟩⟩
      rcases lt_or_eq_of_le p3 with h | h
      · exact h
      · exact absurd ((p6 _ m.le).2 p3) (by
          rcases p7 with ⟨-, q, -⟩ | ⟨-, q, -⟩
          · rw [q, mul_zero] at h; linarith
          · have : v * t1 = s1 := by rw [q]; field_simp
            linarith [(f2.1 g1).1])
    · simp only [ha1, ha2, sub_zero, zero_mul, zero_div, add_zero] at g2 g3 g4 g5
      rw [g4] at g5
      simp only [zero_div, zero_mul, add_zero, mul_one] at g5
      have h0 : s2 ≤ arcLen k start.ll finish.ll := by
        by_contra hc
        push Not at hc
        have hle : arcLen k finish.ll sensor.ll ≤ r := f1.2 ⟨hs1, hc.le⟩
        obtain ⟨s, Y, hY, hin⟩ := htouch (.inr (le_antisymm hle g1))
        have q1 := ((hwin s Y hY).2.1 hin)
        have q2 := ((hA s Y).1 hY).1.2
        exact absurd (f2.2 ⟨by linarith, hc⟩) (not_lt.2 g1)
      have hvt : v * t2 = s2 := by rw [g5]; field_simp
      rw [hvt]
      have hat : At (arcLen k) start.ll [finish.ll] s2 X2.ll := (hA _ _).2 ⟨⟨hs2, h0⟩, g3⟩
      obtain ⟨w1, w2⟩ := hwin _ _ hat
      refine ⟨p2, by rw [g5]; gcongr, hat, g4, fun s _ => Iff.rfl, .inr ⟨g2, le_antisymm (w1.2 ⟨h12.le, le_rfl⟩) ?_⟩⟩
      by_contra hc
      push Not at hc
      exact lt_irrefl _ (w2.1 hc).2
  obtain ⟨l1, l2, l3, l4, l5, l6⟩ := hlast
  refine ⟨p1, lt_of_mul_lt_mul_left l1 hv.le, l2, p4, l3, p5, l4, fun t Y hY => ?_, ?_, l6⟩
  · have hb := ((hA _ Y).1 hY).1
    rw [(hwin _ Y hY).1, p6 _ hb.1, l5 _ hb.2, mul_le_mul_iff_right₀ hv, mul_le_mul_iff_right₀ hv]
  · rcases p7 with h | ⟨h, -, h'⟩
    · exact .inl h
    · exact .inr ⟨h, h'⟩

/-- **C63 is violated above the ground**: on a leg at the height `h` the places reported are those where the mover crosses the range reduced for the height, at
the length `s`, but the times are longer than the `s / v` that the mover takes by the factor `1 + h / R`: ENTER and EXIT come late. The altitudes reported on a
climb change by `1 / central` times what they should. -/
theorem c63_altitude (k c : ℝ) (hk : 0 < k) (start finish sensor : Geo) (v r : ℝ) (hv : 0 < v) (hr : ((start.alt + finish.alt) / 2 * c) ^ 2 ≤ r ^ 2)
    (hF : Fair k start.ll finish.ll sensor.ll (ground c start finish r)) (res : Res) (hres : intersection k c start finish v sensor r = .ok res)
    (kind : Kind) (X : Geo) (t : ℝ) (hm : (kind, X, t) ∈ res.crossings) (hkind : kind = .enter ∨ kind = .exit) :
    ∃ s, place X.ll = arc (place start.ll) (heading start.ll (bearing start.ll finish.ll)) (s * k / R) ∧
      X.alt - start.alt = (finish.alt - start.alt) * (s / arcLen k start.ll finish.ll) / central start.ll finish.ll ∧
      t = s / v * (1 + (start.alt + X.alt) / 2 * c * k / R) ∧
      (start.alt = finish.alt → 0 < s → 0 < start.alt * c → X.alt = start.alt ∧ s / v < t) ∧
      (start.alt < finish.alt → central start.ll finish.ll < s / arcLen k start.ll finish.ll → finish.alt < X.alt) := by
  have hR := R_pos
  have m := hF.moves
  have hL0 : 0 < central start.ll finish.ll := by rw [central_eq k hk]; positivity
  have fin : ∀ s, X.alt = start.alt + (finish.alt - start.alt) * (s / arcLen k start.ll finish.ll) / central start.ll finish.ll →
      t = s * (1 + (start.alt + X.alt) / 2 * c * k / R) / v →
      X.alt - start.alt = (finish.alt - start.alt) * (s / arcLen k start.ll finish.ll) / central start.ll finish.ll ∧
      t = s / v * (1 + (start.alt + X.alt) / 2 * c * k / R) ∧ (start.alt = finish.alt → 0 < s → 0 < start.alt * c → X.alt = start.alt ∧ s / v < t) ∧
      (start.alt < finish.alt → central start.ll finish.ll < s / arcLen k start.ll finish.ll → finish.alt < X.alt) := by
    intro s h1 h2
    refine ⟨by rw [h1]; ring, by rw [h2]; ring, fun he hs hpos => ?_, fun he hlt => ?_⟩
    · have hX : X.alt = start.alt := by rw [h1, he]; ring
      refine ⟨hX, ?_⟩
      have hp : 0 < start.alt * c * k / R := by positivity
      rw [h2, hX, show (start.alt + start.alt) / 2 * c * k / R = start.alt * c * k / R by ring]
      gcongr
      nlinarith
    · rw [h1]
      have : 1 < s / arcLen k start.ll finish.ll / central start.ll finish.ll := (one_lt_div hL0).2 hlt
      have := mul_lt_mul_of_pos_left this (sub_pos.2 he)
      rw [mul_div_assoc]; linarith
  rcases core k c hk start finish sensor v r hv hr hF with ⟨h1, -⟩ | ⟨e1, e2, s1, s2, h1, -, -, -, -, he1, he2⟩
  · rw [h1] at hres; cases hres; simp at hm
  · rw [h1] at hres
    cases hres
    simp only [List.mem_cons, List.not_mem_nil, or_false] at hm
    rcases hm with rfl | rfl
    · rcases he1 with ⟨-, g⟩ | ⟨-, -, g3, g4, g5⟩
      · simp only [Prod.mk.injEq] at g; rw [g.1] at hkind; simp at hkind
      · exact ⟨s1, g3, fin s1 g4 g5⟩
    · rcases he2 with ⟨-, g⟩ | ⟨-, -, g3, g4, g5⟩
      · simp only [Prod.mk.injEq] at g; rw [g.1] at hkind; simp at hkind
      · exact ⟨s2, g3, fin s2 g4 g5⟩

theorem course_error (a b : Geo) (h : cos (radians a.ll.1) = 0 ∨ central a.ll b.ll = 0) : getCourseRad a b = .error .zeroDivision := by
  unfold getCourseRad
  simp only [distRad_eq, rad_ll, (rad_lat a).1]
  rw [if_pos]
  rcases h with h | h <;> rw [h]
  · ring
  · rw [sin_zero]; ring

/-- **C63 is violated by raising**: at a sensor that stands where the leg starts, for a leg that starts at a pole, and for one that goes nowhere, the function
divides by zero; where the mover flies higher than the sensor's radius, it takes the root of a negative number. -/
theorem c63_raises (k c : ℝ) (start finish sensor : Geo) (v r : ℝ) :
    (r ^ 2 < ((start.alt + finish.alt) / 2 * c) ^ 2 → intersection k c start finish v sensor r = .error .value) ∧
    (((start.alt + finish.alt) / 2 * c) ^ 2 ≤ r ^ 2 → place start.ll = place sensor.ll ∨ start.ll.1 = 90 ∨ start.ll.1 = -90 → intersection k c start finish v sensor r = .error .zeroDivision) ∧
    (((start.alt + finish.alt) / 2 * c) ^ 2 ≤ r ^ 2 → place start.ll = place finish.ll → ∃ e, intersection k c start finish v sensor r = .error e) := by
  have pole : start.ll.1 = 90 ∨ start.ll.1 = -90 → cos (radians start.ll.1) = 0 := by
    rintro (h | h) <;> rw [h, rad_eq]
    · rw [show (90 : ℝ) * π / 180 = π / 2 by ring, cos_pi_div_two]
    · rw [show (-90 : ℝ) * π / 180 = -(π / 2) by ring, cos_neg, cos_pi_div_two]
  have same : ∀ y : LL, place start.ll = place y → central start.ll y = 0 := fun y h => by unfold central; rw [h, angle_self (place_ne _)]
  refine ⟨fun h => ?_, fun h h' => ?_, fun h h' => ?_⟩
  · unfold intersection; simp only []; rw [if_pos (by linarith)]
  · unfold intersection; simp only []
    rw [if_neg (by linarith), points_idem]
    unfold getPoints
    simp only [course_idem]
    rw [course_error start sensor (by rcases h' with h' | h'; exacts [.inr (same _ h'), .inl (pole h')])]
  · unfold intersection; simp only []
    rw [if_neg (by linarith), points_idem]
    unfold getPoints
    simp only [course_idem]
    rw [course_error start finish (.inr (same _ h'))]
    cases getCourseRad start sensor <;> exact ⟨_, rfl⟩

/-- Running the function once its points are known. -/
theorem run_points (k c : ℝ) (hk : 0 < k) (start finish sensor : Geo) (v r : ℝ) (hv : 0 < v) (ha1 : start.alt = 0) (ha2 : finish.alt = 0) (hr : 0 < r)
    (hL : 0 < central start.ll finish.ll) :
    (getPoints start finish sensor (r * k / R) = .ok none → intersection k c start finish v sensor r = .ok ⟨[], -1⟩) ∧
    ∀ p1 p2 d1 d2, getPoints start finish sensor (r * k / R) = .ok (some ((p1, p2), (d1, d2))) → ¬ arcLen k start.ll sensor.ll < r →
      ∃ X e, intersection k c start finish v sensor r = .ok ⟨[(.enter, X, d1 * (R / k) / v), e], arcLen k start.ll finish.ll / v⟩ := by
  have hR := R_pos
  have hρ : √(r ^ 2 - ((start.alt + finish.alt) / 2 * c) ^ 2) / (R / k) = r * k / R := by
    have := ground_zero c start finish r ha1 ha2 hr
    unfold ground at this; rw [this]; field_simp
  have hh : ¬ (r ^ 2 - ((start.alt + finish.alt) / 2 * c) ^ 2 < 0) := by
    rw [ha1, ha2]; simp only [add_zero, zero_div, zero_mul]; rw [zero_pow two_ne_zero]; push Not; rw [sub_zero]; positivity
  refine ⟨fun h => ?_, fun p1 p2 d1 d2 h hn => ?_⟩
  · unfold intersection; simp only []
    rw [if_neg hh, hρ, points_idem, h]
    simp only [if_neg hv.ne']
  · have hi := (arcLen_le_iff k hk sensor.ll start.ll r).2
    rw [arcLen_comm] at hn
    have hpt : central start.ll finish.ll * (R / k) / v = arcLen k start.ll finish.ll / v := by rw [central_eq k hk]; field_simp
    rw [← hpt]
    unfold intersection; simp only []
    rw [if_neg hh, hρ, points_idem, h]
    simp only [if_neg hv.ne', distRad_eq, rad_ll, if_neg hL.ne', if_neg (fun hc => hn (hi.2 hc)), ha1, ha2, sub_zero, zero_div, mul_zero, add_zero, zero_mul]
    exact ⟨_, _, rfl⟩

/-- **C63 is violated at the boundary**: a mover that starts exactly at the range of the sensor and goes away from it is reported to enter, before it starts. -/
theorem c63_leaving (k c : ℝ) (hk : 0 < k) (start finish sensor : Geo) (v r : ℝ) (hv : 0 < v) (ha1 : start.alt = 0) (ha2 : finish.alt = 0)
    (hF : Fair k start.ll finish.ll sensor.ll r) (hb : arcLen k start.ll sensor.ll = r) (hgo : cos (radians (bearing start.ll sensor.ll) - radians (bearing start.ll finish.ll)) < 0) :
    ∃ X t e pt, intersection k c start finish v sensor r = .ok ⟨[(.enter, X, t), e], pt⟩ ∧ t < 0 := by
  have hR := R_pos
  have hpi := pi_pos
  have m := hF.moves
  have po := hF.pos
  have sh := hF.short
  have hL0 : 0 < central start.ll finish.ll := by rw [central_eq k hk]; positivity
  have hL1 : central start.ll finish.ll < π := by rw [central_eq k hk, div_lt_iff₀ hR]; nlinarith
  have hB : central start.ll sensor.ll = r * k / R := by rw [central_eq k hk, hb]
  have hρ0 : 0 < r * k / R := by positivity
  have hρ1 : r * k / R < π / 2 := by rw [div_lt_iff₀ hR]; exact hF.quarter
  have hcρ : 0 < cos (r * k / R) := cos_pos_of_mem_Ioo ⟨by linarith, hρ1⟩
  have hsρ : 0 < sin (r * k / R) := sin_pos_of_pos_of_lt_pi hρ0 (by linarith)
  obtain ⟨x1, x2, -, -, hpts⟩ := points_unfold start finish sensor (r * k / R) hF.start hF.finish hF.sensor hL0 hL1 (by rw [hB]; exact hρ0) (by rw [hB]; linarith) _ _ _ rfl rfl rfl
  have hA : along start.ll finish.ll sensor.ll < 0 := by unfold along; rw [hB]; exact mul_neg_of_pos_of_neg hsρ hgo
  rw [hB] at hpts
  obtain ⟨t1, t2⟩ := atan2_cos_sin (along start.ll finish.ll sensor.ll) (cos (r * k / R))
  obtain ⟨q1, q2⟩ := atan2_range (along start.ll finish.ll sensor.ll) (cos (r * k / R))
  generalize hAe : along start.ll finish.ll sensor.ll = A at *
  have hr0 : cos (r * k / R) < √(cos (r * k / R) ^ 2 + A ^ 2) := by
    apply lt_sqrt_of_sq_lt; nlinarith
  have hrs : √(cos (r * k / R) ^ 2 + A ^ 2) ^ 2 = cos (r * k / R) ^ 2 + A ^ 2 := sq_sqrt (by positivity)
  generalize √(cos (r * k / R) ^ 2 + A ^ 2) = ρ at *
  have hρpos : 0 < ρ := by linarith
  have hneg : atan2 A (cos (r * k / R)) < 0 := by
    by_contra hc
    push Not at hc
    have := sin_nonneg_of_nonneg_of_le_pi hc q2
    nlinarith
  have hdp : arccos (cos (r * k / R) / ρ) = -atan2 A (cos (r * k / R)) := by
    rw [show cos (r * k / R) / ρ = cos (-atan2 A (cos (r * k / R))) by rw [cos_neg, div_eq_iff hρpos.ne']; linarith, arccos_cos (by linarith) (by linarith)]
  rw [hdp, if_neg (by rw [hrs]; nlinarith), if_neg hρpos.ne', if_neg (by linarith), if_neg (by push Not; constructor <;> linarith)] at hpts
  obtain ⟨X, e, he⟩ := (run_points k c hk start finish sensor v r hv ha1 ha2 po hL0).2 _ _ _ _ hpts (by rw [hb]; exact lt_irrefl _)
  refine ⟨X, _, e, _, he, ?_⟩
  apply div_neg_of_neg_of_pos _ hv
  apply mul_neg_of_neg_of_pos _ (by positivity)
  linarith

theorem equator_turn (l m : ℝ) (hl0 : 0 < l) (hl1 : l < 180) (hm0 : 0 < m) (hm1 : m < 180) :
    cos (radians (bearing (0, 0) (0, -m)) - radians (bearing (0, 0) (0, l))) = -1 := by
  have hpi := pi_pos
  obtain ⟨a1, a2⟩ := bearing_spec (0, 0) (0, -m)
  obtain ⟨b1, b2⟩ := bearing_spec (0, 0) (0, l)
  have c1 : central (0, 0) (0, -m) = m * π / 180 := by
    have := equator_central (-m) 0 (by linarith) (by linarith)
    unfold central at this ⊢; rw [angle_comm, this]; ring
  have c2 : central (0, 0) (0, l) = l * π / 180 := by rw [equator_central 0 l hl0.le (by linarith)]; ring
  have s1 : 0 < sin (m * π / 180) := sin_pos_of_pos_of_lt_pi (by positivity) (by rw [div_lt_iff₀ (by norm_num)]; nlinarith)
  have s2 : 0 < sin (l * π / 180) := sin_pos_of_pos_of_lt_pi (by positivity) (by rw [div_lt_iff₀ (by norm_num)]; nlinarith)
  rw [c1] at a1 a2
  rw [c2] at b1 b2
  rw [equator_place] at a1 a2 b1 b2
  unfold north at a1 b1
  unfold east at a2 b2
  rw [inner3] at a1 a2 b1 b2
  have z : (0 : ℝ) * π / 180 = 0 := by ring
  have e : -m * π / 180 = -(m * π / 180) := by ring
  simp only [z, e, sin_zero, cos_zero, sin_neg, cos_neg] at a1 a2 b1 b2
  rw [cos_sub]
  have a1' : cos (radians (bearing (0, 0) (0, -m))) = 0 := by
    rcases mul_eq_zero.1 (show sin (m * π / 180) * cos (radians (bearing (0, 0) (0, -m))) = 0 by rw [a1]; ring) with h | h
    · exact absurd h s1.ne'
    · exact h
  have a2' : sin (radians (bearing (0, 0) (0, -m))) = -1 := mul_left_cancel₀ s1.ne' (by rw [a2]; ring)
  have b2' : sin (radians (bearing (0, 0) (0, l))) = 1 := mul_left_cancel₀ s2.ne' (by rw [b2]; ring)
  rw [a1', a2', b2']; ring

/-- **C63 is violated on long legs**: from (0, 0) along the equator to (0, 179), with a sensor at (0, -179) that sees 3 degrees far: the mover ends inside, and
nothing is reported. -/
theorem c63_long (c v : ℝ) (hv : 0 < v) :
    arcLen 1 (0, 179) (0, -179) < R * (3 * π / 180) ∧
    intersection 1 c ⟨0, 0, 0, false⟩ ⟨0, 179, 0, false⟩ v ⟨0, -179, 0, false⟩ (R * (3 * π / 180)) = .ok ⟨[], -1⟩ := by
  have hR := R_pos
  have hpi := pi_pos
  have e0 : (⟨0, 0, 0, false⟩ : Geo).ll = (0, 0) := by simp [Geo.ll]
  have e1 : (⟨0, 179, 0, false⟩ : Geo).ll = (0, 179) := by simp [Geo.ll]
  have e2 : (⟨0, -179, 0, false⟩ : Geo).ll = (0, -179) := by simp [Geo.ll]
  have c1 : central (0, 0) (0, -179) = 179 * π / 180 := by
    have := equator_central (-179) 0 (by norm_num) (by norm_num)
    unfold central at this ⊢; rw [angle_comm, this]; ring
  have c2 : central (0, 0) (0, 179) = 179 * π / 180 := by rw [equator_central 0 179 (by norm_num) (by norm_num)]; ring
  have c3 : central (0, 179) (0, -179) = 2 * π / 180 := by
    have hp : place (0, -179) = place (0, 181) := by
      rw [equator_place, equator_place, show (181 : ℝ) * π / 180 = -179 * π / 180 + 2 * π by ring, cos_add_two_pi, sin_add_two_pi]
    have := equator_central 179 181 (by norm_num) (by norm_num)
    unfold central at this ⊢; rw [hp, this]; ring
  have hturn := equator_turn 179 179 (by norm_num) (by norm_num) (by norm_num) (by norm_num)
  refine ⟨?_, ?_⟩
  · show R * central (0, 179) (0, -179) / 1 < _
    rw [c3, div_one]; gcongr; norm_num
  · refine (run_points 1 c one_pos _ _ _ v _ hv rfl rfl (by positivity) (by rw [e0, e1, c2]; positivity)).1 ?_
    obtain ⟨x1, x2, -, -, hpts⟩ := points_unfold ⟨0, 0, 0, false⟩ ⟨0, 179, 0, false⟩ ⟨0, -179, 0, false⟩ (R * (3 * π / 180) * 1 / R) (by rw [e0]; simp [OffPole]) (by rw [e1]; norm_num [Lat])
      (by rw [e2]; norm_num [Lat]) (by rw [e0, e1, c2]; positivity) (by rw [e0, e1, c2]; linarith) (by rw [e0, e2, c1]; positivity) (by rw [e0, e2, c1]; linarith) _ _ _ rfl rfl rfl
    rw [hpts]
    have hρ : R * (3 * π / 180) * 1 / R = 3 * π / 180 := by field_simp
    have hal : along (0, 0) (0, 179) (0, -179) = sin (-(179 * π / 180)) := by unfold along; rw [hturn, c1, sin_neg]; ring
    have hr : √(cos (179 * π / 180) ^ 2 + sin (-(179 * π / 180)) ^ 2) = 1 := by rw [sin_neg, neg_sq, cos_sq_add_sin_sq, sqrt_one]
    have hatd : atan2 (sin (-(179 * π / 180))) (cos (179 * π / 180)) = -(179 * π / 180) := by
      have := atan2_polar (r := 1) (θ := -(179 * π / 180)) one_pos (by linarith) (by linarith)
      rwa [one_mul, one_mul, cos_neg] at this
    have hdp : arccos (cos (3 * π / 180) / 1) = 3 * π / 180 := by rw [div_one, arccos_cos (by positivity) (by linarith)]
    rw [e0, e1, e2, hρ, c1, c2, hal, hr, hatd, hdp, if_neg (by push Not; nlinarith [cos_sq_le_one (3 * π / 180)]), if_neg one_ne_zero, if_neg (by positivity), if_pos (.inr (by linarith))]

/-! ### Along the equator, from (0, 0) to (0, 90), with a sensor at (0, 45) that sees 10 degrees far -/

def east0 : Geo := ⟨0, 0, 0, false⟩
def east90 : Geo := ⟨0, 90, 0, false⟩
def east45 : Geo := ⟨0, 45, 0, false⟩

theorem east_len (a b : ℝ) (h0 : a ≤ b) (h1 : b - a ≤ 180) : arcLen 1 (0, a) (0, b) = R * ((b - a) * π / 180) := by
  unfold arcLen; rw [div_one]; congr 1; exact equator_central a b h0 h1

theorem east_at (a : ℝ) (h0 : 0 ≤ a) (h1 : a ≤ 90) : At (arcLen 1) (0, 0) [(0, 90)] (R * (a * π / 180)) (0, a) := by
  have hR := R_pos
  have hpi := pi_pos
  refine ⟨[], (0, 90), [], (0, 0), rfl, rfl, ?_, ?_, ?_, ?_⟩
  · show 0 ≤ _; positivity
  · show _ ≤ 0 + _; rw [east_len 0 90 (by norm_num) (by norm_num)]; nlinarith [mul_pos hR hpi]
  · show _ = _ - 0; rw [east_len 0 a h0 (by linarith)]; ring
  · rw [east_len 0 90 (by norm_num) (by norm_num), east_len a 90 h1 (by linarith), east_len 0 a h0 (by linarith)]; ring

theorem fair_east : Fair 1 (0, 0) (0, 90) (0, 45) (R * (10 * π / 180)) := by
  have hR := R_pos
  have hpi := pi_pos
  constructor
  · simp [OffPole]
  · norm_num [Lat]
  · norm_num [Lat]
  · rw [east_len 0 90 (by norm_num) (by norm_num)]; norm_num; positivity
  · rw [east_len 0 45 (by norm_num) (by norm_num)]; norm_num; positivity
  · rw [east_len 0 45 (by norm_num) (by norm_num)]; nlinarith [mul_pos hR hpi]
  · positivity
  · nlinarith [mul_pos hR hpi]
  · rw [east_len 0 90 (by norm_num) (by norm_num)]; nlinarith [mul_pos hR hpi]

/-- The mover enters at 35 degrees and leaves at 55. -/
example : ∃ X1 X2, intersection 1 1 east0 east90 R east45 (R * (10 * π / 180)) = .ok ⟨[(.enter, X1, 35 * π / 180), (.exit, X2, 55 * π / 180)], π / 2⟩ := by
  have hR := R_pos
  have hpi := pi_pos
  have hF := fair_east
  have e0 : east0.ll = (0, 0) := by simp [east0, Geo.ll]
  have e1 : east90.ll = (0, 90) := by simp [east90, Geo.ll]
  have e2 : east45.ll = (0, 45) := by simp [east45, Geo.ll]
  have far : ∀ a, (a = 0 ∨ a = 90) → arcLen 1 (0, a) (0, 45) = R * (45 * π / 180) := by
    rintro a (rfl | rfl)
    · rw [east_len 0 45 (by norm_num) (by norm_num)]; ring
    · rw [arcLen_comm, east_len 45 90 (by norm_num) (by norm_num)]; ring
  obtain ⟨res, h1, h2⟩ := c63_exact_partial 1 1 one_pos east0 east90 east45 R (R * (10 * π / 180)) hR rfl rfl (by rw [e0, e1, e2]; exact hF)
    (by rw [e0, e1, e2, far 0 (.inl rfl), far 90 (.inr rfl)]; intro h; rcases h with h | h <;> nlinarith [mul_pos hR hpi])
  rw [e0, e1, e2] at h2
  rcases h2 with ⟨-, h3⟩ | ⟨k1, X1, t1, k2, X2, t2, h3, h4, g0, g1, g2, -, -, -, -, g3, g4, g5⟩
  · have := h3 _ _ (east_at 45 (by norm_num) (by norm_num))
    rw [east_len 45 45 le_rfl (by norm_num)] at this
    nlinarith [mul_pos hR hpi]
  have hpt : arcLen 1 (0, 0) (0, 90) / R = π / 2 := by rw [east_len 0 90 (by norm_num) (by norm_num)]; field_simp; norm_num
  rw [hpt] at h4 g2
  have key : ∀ a, 0 ≤ a → a ≤ 90 → (|a - 45| ≤ 10 ↔ t1 ≤ a * π / 180 ∧ a * π / 180 ≤ t2) := by
    intro a h0 h1
    rw [← g3 _ _ (east_at a h0 h1), abs_le]
    rcases le_total a 45 with h | h
    · rw [east_len a 45 h (by linarith), mul_le_mul_iff_right₀ hR, div_le_div_iff_of_pos_right (by norm_num), mul_le_mul_iff_left₀ hpi]
      exact ⟨fun q => by linarith [q.1], fun q => ⟨by linarith, by linarith⟩⟩
    · rw [arcLen_comm, east_len 45 a h (by linarith), mul_le_mul_iff_right₀ hR, div_le_div_iff_of_pos_right (by norm_num), mul_le_mul_iff_left₀ hpi]
      exact ⟨fun q => by linarith [q.2], fun q => ⟨by linarith, by linarith⟩⟩
  have back : ∀ t, t = (t * 180 / π) * π / 180 := fun t => by field_simp
  have rng : ∀ t, 0 ≤ t → t ≤ π / 2 → 0 ≤ t * 180 / π ∧ t * 180 / π ≤ 90 := fun t h0 h1 => ⟨by positivity, by rw [div_le_iff₀ hpi]; linarith⟩
  have k35 := (key 35 (by norm_num) (by norm_num)).1 (by norm_num [abs_le])
  have k55 := (key 55 (by norm_num) (by norm_num)).1 (by norm_num [abs_le])
  obtain ⟨r1, r2⟩ := rng t1 g0 (by linarith)
  obtain ⟨r3, r4⟩ := rng t2 (by linarith) g2
  have a1 := (key _ r1 r2).2 (by rw [← back]; exact ⟨le_rfl, g1.le⟩)
  have a2 := (key _ r3 r4).2 (by rw [← back]; exact ⟨g1.le, le_rfl⟩)
  rw [abs_le] at a1 a2
  have l1 : t1 = 35 * π / 180 := by
    apply le_antisymm k35.1
    have := a1.1
    rw [le_sub_iff_add_le, le_div_iff₀ hpi] at this
    linarith
  have l2 : t2 = 55 * π / 180 := by
    refine le_antisymm ?_ k55.2
    have := a2.2
    rw [sub_le_iff_le_add, div_le_iff₀ hpi] at this
    linarith
  have hk1 : k1 = .enter := by
    rcases g4 with ⟨-, -, h⟩ | ⟨h, -⟩
    · rw [far 0 (.inl rfl)] at h; nlinarith [mul_pos hR hpi]
    · exact h
  have hk2 : k2 = .exit := by
    rcases g5 with ⟨-, -, h⟩ | ⟨h, -⟩
    · rw [far 90 (.inr rfl)] at h; nlinarith [mul_pos hR hpi]
    · exact h
  refine ⟨X1, X2, h1.trans ?_⟩
  obtain ⟨cs, pt⟩ := res
  simp only at h3 h4
  rw [h3, h4, l1, l2, hk1, hk2]

/-- Above the same leg at the altitude 1000, with a sensor whose range on the ground is again 10 degrees: a crossing is reported too late. -/
example : ∃ res X t s, intersection 1 1 ⟨0, 0, 1000, false⟩ ⟨0, 90, 1000, false⟩ R east45 (√((R * (10 * π / 180)) ^ 2 + 1000 ^ 2)) = .ok res ∧
    (Kind.exit, X, t) ∈ res.crossings ∧ place X.ll = arc (place (0, 0)) (heading (0, 0) (bearing (0, 0) (0, 90))) (s * 1 / R) ∧ s / R < t := by
  have hR := R_pos
  have hpi := pi_pos
  have e0 : (⟨0, 0, 1000, false⟩ : Geo).ll = (0, 0) := by simp [Geo.ll]
  have e1 : (⟨0, 90, 1000, false⟩ : Geo).ll = (0, 90) := by simp [Geo.ll]
  have e2 : east45.ll = (0, 45) := by simp [east45, Geo.ll]
  have hsq : √((R * (10 * π / 180)) ^ 2 + 1000 ^ 2) ^ 2 = (R * (10 * π / 180)) ^ 2 + 1000 ^ 2 := sq_sqrt (by positivity)
  have hg : ground 1 ⟨0, 0, 1000, false⟩ ⟨0, 90, 1000, false⟩ (√((R * (10 * π / 180)) ^ 2 + 1000 ^ 2)) = R * (10 * π / 180) := by
    unfold ground; rw [hsq]
    show √((R * (10 * π / 180)) ^ 2 + 1000 ^ 2 - ((1000 + 1000) / 2 * 1) ^ 2) = _
    rw [show (R * (10 * π / 180)) ^ 2 + 1000 ^ 2 - ((1000 + 1000) / 2 * 1) ^ 2 = (R * (10 * π / 180)) ^ 2 by ring, sqrt_sq (by positivity)]
  have hr : (((⟨0, 0, 1000, false⟩ : Geo).alt + (⟨0, 90, 1000, false⟩ : Geo).alt) / 2 * 1) ^ 2 ≤ √((R * (10 * π / 180)) ^ 2 + 1000 ^ 2) ^ 2 := by
    rw [hsq]; norm_num; positivity
  have hF : Fair 1 (⟨0, 0, 1000, false⟩ : Geo).ll (⟨0, 90, 1000, false⟩ : Geo).ll east45.ll (ground 1 ⟨0, 0, 1000, false⟩ ⟨0, 90, 1000, false⟩ (√((R * (10 * π / 180)) ^ 2 + 1000 ^ 2))) := by
    rw [e0, e1, e2, hg]; exact fair_east
  have h45 : arcLen 1 (0, 45) (0, 45) < R * (10 * π / 180) := by rw [east_len 45 45 le_rfl (by norm_num)]; nlinarith [mul_pos hR hpi]
  have h90 : ¬ arcLen 1 (0, 90) (0, 45) < R * (10 * π / 180) := by rw [arcLen_comm, east_len 45 90 (by norm_num) (by norm_num)]; nlinarith [mul_pos hR hpi]
  rcases core 1 1 one_pos _ _ _ R _ hR hr hF with ⟨-, h⟩ | ⟨e, e', s1, s2, h1, -, -, hs2, hwin, -, ⟨q, -⟩ | ⟨-, q1, q2, q3, q4⟩⟩
  · rw [e0, e1, e2, hg] at h; exact absurd h45 (not_lt.2 (h _ _ (east_at 45 (by norm_num) (by norm_num))))
  · rw [e1, e2, hg] at q; exact absurd q h90
  · obtain ⟨kd, X, t⟩ := e'
    simp only at q1
    subst q1
    have hm : (Kind.exit, X, t) ∈ [e, (Kind.exit, X, t)] := by simp
    rw [e0, e1, e2, hg] at hwin
    have hs : 0 < s2 := by
      have := ((hwin _ _ (east_at 45 (by norm_num) (by norm_num))).2.1 h45).2
      have : 0 < R * (45 * π / 180) := by positivity
      linarith
    obtain ⟨s, g1, -, g2, g3, -⟩ := c63_altitude 1 1 one_pos _ _ _ R _ hR hr hF _ h1 _ X t hm (.inr rfl)
    rw [e0, e1] at g1
    refine ⟨_, X, t, s, h1, hm, g1, (g3 rfl ?_ (by norm_num)).2⟩
    by_contra hc
    push Not at hc
    have ht : t ≤ 0 := by
      rw [g2]
      have hX : X.alt = 1000 := by rw [q3]; norm_num
      rw [hX]
      apply mul_nonpos_of_nonpos_of_nonneg (div_nonpos_of_nonpos_of_nonneg hc hR.le)
      positivity
    have : 0 < t := by
      have hX : X.alt = 1000 := by rw [q3]; norm_num
      simp only [hX] at q4
      rw [q4]; positivity
    linarith

/-- Leaving from the range's boundary: the sensor is 10 degrees behind. -/
example : ∃ X t e pt, intersection 1 1 east0 east90 R ⟨0, -10, 0, false⟩ (R * (10 * π / 180)) = .ok ⟨[(.enter, X, t), e], pt⟩ ∧ t < 0 := by
  have hR := R_pos
  have hpi := pi_pos
  have e0 : east0.ll = (0, 0) := by simp [east0, Geo.ll]
  have e1 : east90.ll = (0, 90) := by simp [east90, Geo.ll]
  have e2 : (⟨0, -10, 0, false⟩ : Geo).ll = (0, -10) := by simp [Geo.ll]
  have hd : arcLen 1 (0, 0) (0, -10) = R * (10 * π / 180) := by rw [arcLen_comm, east_len (-10) 0 (by norm_num) (by norm_num)]; ring
  apply c63_leaving 1 1 one_pos east0 east90 _ R _ hR rfl rfl
  · rw [e0, e1, e2]
    obtain ⟨f1, f2, f3, f4, f5, f6, f7, f8, f9⟩ := fair_east
    exact ⟨f1, f2, by norm_num [Lat], f4, by rw [hd]; exact f7, by rw [hd]; nlinarith [mul_pos hR hpi], f7, f8, f9⟩
  · rw [e0, e2, hd]
  · rw [e0, e1, e2, equator_turn 90 10 (by norm_num) (by norm_num) (by norm_num) (by norm_num)]; norm_num

end Verif.Analytic
