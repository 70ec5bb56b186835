import Verif.Subdiv.Props
import Mathlib.Analysis.Real.Pi.Bounds

/-! # C72: what the sampling notices and what it misses -/

namespace Verif.Subdiv

open Verif.Globe Verif.Path Verif.Crossing Real InnerProductGeometry

theorem kindsOf_nil {st : ℕ → Bool} {n : ℕ} (h : kindsOf st n = []) : ∀ i ≤ n, st i = false := by
  unfold kindsOf at h
  simp only [List.append_eq_nil_iff] at h
  obtain ⟨⟨h0, h1⟩, -⟩ := h
  have h0 : st 0 = false := by
    cases h2 : st 0 with
    | false => rfl
    | true => rw [h2] at h0; simp at h0
  intro i
  induction i with
  | zero => exact fun _ => h0
  | succ i ih =>
    intro hi
    have h2 := List.filterMap_eq_nil_iff.1 h1 i (List.mem_range.2 (by omega))
    split at h2
    · rename_i h3; rw [← h3]; exact ih (by omega)
    · cases h2

/-- **C72, long stays are noticed.** A mover in range during 9261 m of its leg, at whatever altitude of the leg, does not get the answer "Bad". -/
theorem c72_noticed {k ka v r : ℝ} {s f c : Geo} {ans : Answer} (hC : angleOf s f ≤ π - 1 / 10 ^ 6) (h : subdivide k ka s f v c r = .ok ans) (θ : ℝ) (h0 : 0 ≤ θ)
    (h1 : R * θ + 9261 ≤ R * angleOf s f)
    (hin : ∀ ψ, θ ≤ ψ → R * ψ ≤ R * θ + 9261 → ∀ a ∈ Set.uIcc (s.alt * ka) (f.alt * ka), InRange (r * k) (inSpace ka c) (travel s f ψ) a) : ans.kinds ≠ [] ∧ ans ≠ .bad := by
  have hR : R = 6378137 := rfl
  have hRp := R_pos
  obtain ⟨n, t, st, n3, hlt, ht, ht0, hst, hk⟩ := c72_kinds hC h
  have key : ans.kinds ≠ [] := by
    intro hnil
    rw [hk] at hnil
    have hall := kindsOf_nil hnil
    have hn : (3 : ℝ) ≤ n := by exact_mod_cast n3
    have hn0 : (0 : ℝ) < n := by linarith
    have htt := abs_le.1 ht
    have hstep : R * (t / n) ≤ 9260.1 := by
      have e1 : R * t ≤ 9260 * n + 0.26 := by
        rw [hR] at hlt ⊢
        norm_num at htt ⊢
        linarith
      rw [← mul_div_assoc, div_le_iff₀ hn0]
      linarith
    have hθt : θ ≤ t := by
      rw [hR] at h1
      norm_num at htt
      linarith
    -- the first sample from `θ` on
    have hi0 : 0 ≤ θ * n / t := by positivity
    have hle : θ * n / t ≤ (⌈θ * n / t⌉₊ : ℝ) := Nat.le_ceil _
    have hlt' : (⌈θ * n / t⌉₊ : ℝ) < θ * n / t + 1 := Nat.ceil_lt_add_one hi0
    have hi : ⌈θ * n / t⌉₊ ≤ n := by
      apply Nat.ceil_le.2
      rw [div_le_iff₀ ht0]
      nlinarith
    generalize ⌈θ * n / t⌉₊ = i at hle hlt' hi
    have e2 : θ ≤ t * (i / n) := by
      rw [div_le_iff₀ ht0] at hle
      rw [← mul_div_assoc, le_div_iff₀ hn0]
      linarith
    have e3 : R * (t * (i / n)) ≤ R * θ + 9261 := by
      have e4 : t * (i / n) ≤ θ + t / n := by
        have : t * (i : ℝ) ≤ θ * n + t := by
          have := mul_lt_mul_of_pos_left hlt' ht0
          rw [mul_add, mul_div_cancel₀ _ ht0.ne'] at this
          linarith
        rw [← mul_div_assoc, div_le_iff₀ hn0, add_mul, div_mul_cancel₀ _ hn0.ne']
        exact this
      have := mul_le_mul_of_nonneg_left e4 hRp.le
      rw [mul_add] at this
      linarith
    have e5 : s.alt * ka + (f.alt * ka - s.alt * ka) * i / n ∈ Set.uIcc (s.alt * ka) (f.alt * ka) := by
      have f0 : (0 : ℝ) ≤ i / n := by positivity
      have f1 : (i : ℝ) / n ≤ 1 := (div_le_one hn0).2 (by exact_mod_cast hi)
      rw [mul_div_assoc]
      rcases le_total (s.alt * ka) (f.alt * ka) with hab | hab
      · rw [Set.uIcc_of_le hab]; constructor <;> nlinarith
      · rw [Set.uIcc_of_ge hab]; constructor <;> nlinarith
    have e6 := (hst i hi).2 (hin _ e2 e3 _ e5)
    rw [hall i hi] at e6
    cases e6
  exact ⟨key, fun e => key (by rw [e]; rfl)⟩

theorem travel_continuous (s f : Geo) : Continuous (travel s f) := by
  unfold travel
  fun_prop

/-- **C72, the boundary itself.** On a level leg, less than 46.4 m of travel before a reported ENTER and after a reported EXIT the mover is at
exactly the radius of the sensor. -/
theorem c72_level {k ka v r : ℝ} {s f c : Geo} {l : List Hit} {pt : ℝ} (hk : 0 < k) (hka : 0 < ka) (hv : 0 < v) (hC : angleOf s f ≤ π - 1 / 10 ^ 6)
    (hlevel : s.alt = f.alt) (h : subdivide k ka s f v c r = .ok (.hits l pt)) (x : Hit) (hx : x ∈ l) :
    (x.kind = .enter → ∃ T, 0 ≤ T ∧ T ≤ x.time ∧ v * k * (x.time - T) ≤ 46.4 ∧ dist ((R + s.alt * ka) • travel s f (v * k * T / R)) (inSpace ka c) = r * k) ∧
    (x.kind = .exit → ∃ T, x.time ≤ T ∧ v * k * (T - x.time) ≤ 46.4 ∧ dist ((R + s.alt * ka) • travel s f (v * k * T / R)) (inSpace ka c) = r * k) := by
  have hRp := R_pos
  obtain ⟨-, -, hr⟩ := c72_hits hk hka hv hC h
  have hr := hr x hx
  have hkv : 0 < v * k := by positivity
  have hcont : Continuous fun T : ℝ => dist ((R + s.alt * ka) • travel s f (v * k * T / R)) (inSpace ka c) := by
    have := travel_continuous s f
    fun_prop
  have halt : ∀ a ∈ Set.uIcc (s.alt * ka) (f.alt * ka), a = s.alt * ka := by
    intro a ha; rw [← hlevel, Set.uIcc_self] at ha; exact ha
  have hin : dist ((R + s.alt * ka) • travel s f (v * k * x.time / R)) (inSpace ka c) ≤ r * k := by
    have := hr.inRange
    rw [halt _ hr.height] at this
    exact this
  constructor
  · intro hkind
    obtain ⟨T, a, h0, h1, h2, h3, h4⟩ := hr.enter hkind
    rw [halt a h3] at h4
    have h5 := not_le.1 h4
    obtain ⟨T', ⟨g1, g2⟩, g3⟩ := intermediate_value_Icc' h1.le hcont.continuousOn ⟨hin, h5.le⟩
    refine ⟨T', by linarith, g2, ?_, g3⟩
    have : v * k * (x.time - T') ≤ v * k * (x.time - T) := mul_le_mul_of_nonneg_left (by linarith) hkv.le
    linarith
  · intro hkind
    obtain ⟨T, a, h1, h2, -, h3, h4⟩ := hr.exit hkind
    rw [halt a h3] at h4
    have h5 := not_le.1 h4
    obtain ⟨T', ⟨g1, g2⟩, g3⟩ := intermediate_value_Icc h1.le hcont.continuousOn ⟨hin, h5.le⟩
    refine ⟨T', g1, ?_, g3⟩
    have : v * k * (T' - x.time) ≤ v * k * (T - x.time) := mul_le_mul_of_nonneg_left (by linarith) hkv.le
    linarith

/-! ### A leg along the equator -/

/-- On the equator, `d` degrees east. -/
noncomputable def eq (d : ℝ) : Geo := ⟨0, d, 0, false⟩

theorem spot_eq (d : ℝ) : spot (eq d) = !₂[cos (d * π / 180), sin (d * π / 180), 0] := by
  unfold spot eq place Geo.toDegrees
  simp

theorem angle_eq (a b : ℝ) (h0 : a ≤ b) (h1 : b - a ≤ 180) : angleOf (eq a) (eq b) = (b - a) * π / 180 := by
  have hpi := pi_pos
  unfold angleOf angle
  have e := place_inner (eq a |>.toDegrees.lat, eq a |>.toDegrees.lon) (eq b |>.toDegrees.lat, eq b |>.toDegrees.lon)
  have e' : inner ℝ (spot (eq a)) (spot (eq b)) = cos ((b - a) * π / 180) := by
    refine e.trans ?_
    simp [eq, Geo.toDegrees, radians]
    congr 1
    ring
  have n1 : ‖spot (eq a)‖ = 1 := place_norm _
  have n2 : ‖spot (eq b)‖ = 1 := place_norm _
  rw [e', n1, n2, mul_one, div_one, arccos_cos]
  · have : 0 ≤ b - a := by linarith
    positivity
  · nlinarith

/-- A leg whose samples are all in range, or all out of range. -/
theorem uniform {k ka v r : ℝ} {s f c : Geo} (hv : v ≠ 0) (hC : angleOf s f ≤ π - 1 / 10 ^ 6) (hx : spot s 0 + spot f 0 ≠ 0) (n : ℕ)
    (hp : pointsFor (R * angleOf s f) 9260 = .ok n) (b : Bool)
    (hb : ∀ t i : ℝ, |t - angleOf s f| ≤ 4 / 10 ^ 8 → 0 ≤ i → i ≤ n → (∃ j : ℕ, i = j) →
      (InRange (r * k) (inSpace ka c) (travel s f (t * (i / n))) (s.alt * ka + (f.alt * ka - s.alt * ka) * i / n) ↔ b = true)) :
    ∃ x y, subdivide k ka s f v c r = .ok (if b then .hits [x, y] (R * angleOf s f / k / v) else .bad) ∧ x.kind = .startInside ∧ y.kind = .endInside := by
  have hRp := R_pos
  have hd : (globe (toTuple ka c) (r * k)).dist (toTuple ka s) (toTuple ka f) = R * angleOf s f := by
    show distance 1 _ _ = _
    rw [distance_eq, div_one]; rfl
  obtain ⟨h80, h3⟩ := pointsFor_long (by norm_num) hp
  have hpos : 1 / 10 ^ 5 ≤ angleOf s f := by
    rw [show R = 6378137 from rfl] at h80
    norm_num at h80 ⊢
    linarith
  have hr : (globe (toTuple ka c) (r * k)).raises (toTuple ka s) (toTuple ka f) n = false := by
    have hd1 : distance 1 (toTuple ka s).1 (toTuple ka f).1 = R * angleOf s f := hd
    obtain ⟨t, l, g1, -⟩ := c61_linspace_partial (toTuple ka s).1 (toTuple ka f).1 n (by omega) (by rw [hd1]; linarith)
      (by rw [hd1, mul_comm]; exact mul_le_mul_of_nonneg_right (by norm_num at hC ⊢; linarith) hRp.le) hx
    obtain ⟨xs, lla, g2, -⟩ := c61_ecef_and_geo _ _ (toTuple ka s).2 (toTuple ka f).2 n l g1
    unfold globe
    simp only [g2]
  rw [← hd] at hp
  obtain ⟨n3, -, -, t, ht, ht0, hlen, hs⟩ := rough hC hp hr
  set E := globe (toTuple ka c) (r * k) with hE
  have hsin : sin (angleOf s f) ≠ 0 := (sin_pos_of_pos_of_lt_pi (by norm_num at hpos; linarith) (by norm_num at hC; linarith)).ne'
  have hall : ∀ y ∈ E.samples (toTuple ka s) (toTuple ka f) n, E.inside y = b := by
    intro y hy
    obtain ⟨i, hi, hy⟩ := List.getElem_of_mem hy
    have hy' := List.getElem?_eq_some_iff.2 ⟨hi, hy⟩
    obtain ⟨g1, g2⟩ := hs i y hy'
    rw [hlen] at hi
    have h := hb t i ht (by positivity) (by exact_mod_cast (by omega : i ≤ n)) ⟨i, rfl⟩
    rw [travel_arc hsin, ← g1, ← g2] at h
    have h' := globe_inside (toTuple ka c) (r * k) y
    have : InRange (r * k) ((R + (toTuple ka c).2) • place (toTuple ka c).1) (place y.1) y.2 ↔ InRange (r * k) (inSpace ka c) (place y.1) y.2 := by
      rw [toTuple_alt]; rfl
    rw [this, h, ← hE] at h'
    exact Bool.eq_iff_iff.2 h'
  obtain ⟨first, last, q1, q2, q3⟩ := c45_crossing_list E (globe_nonempty _ _) (toTuple ka s) (toTuple ka f) 9260 (by norm_num) n hp hr
  have hf := hall first (List.mem_of_mem_head? q1)
  have hl := hall last (List.mem_of_getLast? q2)
  have hflips : flips E.inside (E.samples (toTuple ka s) (toTuple ka f) n) = [] := by
    unfold flips
    rw [List.filterMap_eq_nil_iff]
    intro q hq
    have g1 := hall q.1 (List.of_mem_zip hq).1
    have g2 := hall q.2 (List.mem_of_mem_tail (List.of_mem_zip hq).2)
    unfold Crossing.flip
    rw [g1, g2]
    cases b <;> rfl
  rw [expected, hflips, hf, hl] at q3
  refine ⟨hit k ka v s ⟨.startInside, first, none⟩, hit k ka v s ⟨.endInside, last, none⟩, ?_, rfl, rfl⟩
  have hpt : Geo.sub (spherical k) f s / v = R * angleOf s f / k / v := by
    rw [sub_eq]; unfold angleOf; rw [angle_comm]
  unfold subdivide intersections
  rw [← hE, if_neg hv, q3, hpt]
  cases b <;> simp [refine]

theorem degree_points : pointsFor (R * angleOf (eq 0) (eq 1)) 9260 = .ok 13 := by
  have h1 := pi_gt_d4
  have h2 := pi_lt_d4
  rw [angle_eq 0 1 (by norm_num) (by norm_num), show R = 6378137 from rfl]
  have h3 : ⌊(6378137 : ℝ) * ((1 - 0) * π / 180) / 9260⌋ = 12 := by
    rw [Int.floor_eq_iff]
    norm_num at h1 h2 ⊢
    constructor <;> linarith
  rw [sub_zero, one_mul] at h3
  unfold pointsFor
  simp [h3]

theorem degree_travel (θ : ℝ) : travel (eq 0) (eq 1) θ = !₂[cos θ, sin θ, 0] := by
  have hpi := pi_pos
  have h := angle_eq 0 1 (by norm_num) (by norm_num)
  have hs : sin (π / 180) ≠ 0 := (sin_pos_of_pos_of_lt_pi (by positivity) (by linarith)).ne'
  unfold travel
  rw [h, spot_eq, spot_eq]
  ext i
  fin_cases i <;> simp <;> field_simp

theorem degree_dist (a b : ℝ) : dist (!₂[cos a, sin a, 0] : E3) !₂[cos b, sin b, 0] = 2 * |sin ((a - b) / 2)| := by
  rw [EuclideanSpace.dist_eq, Fin.sum_univ_three]
  simp only [dist_eq_norm, norm_eq_abs, sq_abs]
  have e : (cos a - cos b) ^ 2 + (sin a - sin b) ^ 2 + (0 - 0) ^ 2 = (2 * |sin ((a - b) / 2)|) ^ 2 := by
    have h1 := sin_sq_eq_half_sub ((a - b) / 2)
    rw [mul_pow, sq_abs, h1, show 2 * ((a - b) / 2) = a - b by ring, cos_sub]
    nlinarith [sin_sq_add_cos_sq a, sin_sq_add_cos_sq b]
  have e0 := Real.sqrt_sq (show 0 ≤ 2 * |sin ((a - b) / 2)| by positivity)
  rw [← e] at e0
  simpa using e0

theorem degree_range (α r θ : ℝ) : InRange r (inSpace 1 (eq (α * 180 / π))) (travel (eq 0) (eq 1) θ) 0 ↔ R * (2 * |sin ((θ - α) / 2)|) ≤ r := by
  have hpi := pi_pos.ne'
  have hRp := R_pos
  unfold InRange inSpace
  have e : (eq (α * 180 / π)).alt = 0 := rfl
  rw [e, zero_mul, degree_travel, spot_eq, dist_smul₀, add_zero, norm_of_nonneg hRp.le, show α * 180 / π * π / 180 = α by field_simp, degree_dist]

/-- **C72 is violated between the samples.** On the leg along the equator from longitude 0° to 1° the mover passes exactly over a sensor at 1/26° with
a radius of 1000 m and is in its range for 2000 m; the answer is "Bad", with a travel time of zero. -/
theorem c72_missed (v : ℝ) (hv : v ≠ 0) :
    subdivide 1 1 (eq 0) (eq 1) v (eq (1 / 26)) 1000 = .ok .bad ∧ travel (eq 0) (eq 1) (π / 4680) = spot (eq (1 / 26)) ∧
      ∀ ψ, |R * ψ - R * (π / 4680)| ≤ 1000 → InRange 1000 (inSpace 1 (eq (1 / 26))) (travel (eq 0) (eq 1) ψ) 0 := by
  have hpi := pi_pos
  have hpi3 := pi_gt_three
  have hpi4 := pi_lt_four
  have hR : R = 6378137 := rfl
  have hRp := R_pos
  have e0 : (1 : ℝ) / 26 = π / 4680 * 180 / π := by field_simp; norm_num
  have hang := angle_eq 0 1 (by norm_num) (by norm_num)
  refine ⟨?_, ?_, fun ψ hψ => ?_⟩
  · obtain ⟨x, y, h, -⟩ := uniform (k := 1) (ka := 1) (v := v) (r := 1000) (s := eq 0) (f := eq 1) (c := eq (1 / 26)) hv (by rw [hang]; norm_num; linarith) (by
      rw [spot_eq, spot_eq]
      have : 0 < cos (1 * π / 180) := cos_pos_of_mem_Ioo ⟨by linarith, by linarith⟩
      simp at this ⊢
      linarith) 13 degree_points false (by
      intro t i ht h0 h1 ⟨j, hj⟩
      have e1 : (eq 0).alt * 1 + ((eq 1).alt * 1 - (eq 0).alt * 1) * i / ((13 : ℕ) : ℝ) = 0 := by simp [eq]
      rw [e1, mul_one, e0, degree_range]
      simp only [Bool.false_eq_true, iff_false, not_le]
      rw [hang] at ht
      have ht' := abs_le.1 ht
      have hj13 : j ≤ 13 := by rw [hj] at h1; exact_mod_cast h1
      -- the nearest samples are half a step away
      have hfar : 6 / 10 ^ 4 ≤ |t * (i / ((13 : ℕ) : ℝ)) - π / 4680| ∧ |t * (i / ((13 : ℕ) : ℝ)) - π / 4680| ≤ 1 := by
        rw [hj]
        have hj' : (j : ℝ) ≤ 13 := by exact_mod_cast hj13
        have hj0 : (0 : ℝ) ≤ j := by positivity
        push_cast
        constructor
        · rcases Nat.eq_zero_or_pos j with rfl | hpos
          · simp only [Nat.cast_zero, zero_div, mul_zero, zero_sub, abs_neg]
            rw [abs_of_pos (by positivity)]
            norm_num
            linarith
          · have hj1 : (1 : ℝ) ≤ j := by exact_mod_cast hpos
            refine le_trans ?_ (le_abs_self _)
            have : t * (1 / 13) ≤ t * (j / 13) := by
              apply mul_le_mul_of_nonneg_left _ (by norm_num at ht'; linarith)
              linarith
            norm_num at ht' this ⊢
            linarith
        · have a1 : 0 ≤ t * (j / 13) := mul_nonneg (by norm_num at ht'; linarith) (by positivity)
          have a2 : t * (j / 13) ≤ t * 1 := mul_le_mul_of_nonneg_left (by linarith) (by norm_num at ht'; linarith)
          rw [abs_le]
          norm_num at ht'
          constructor <;> linarith
      have hs : 2 / π * (|t * (i / ((13 : ℕ) : ℝ)) - π / 4680| / 2) ≤ |sin ((t * (i / ((13 : ℕ) : ℝ)) - π / 4680) / 2)| := by
        have := mul_le_sin (x := |t * (i / ((13 : ℕ) : ℝ)) - π / 4680| / 2) (by positivity) (by linarith)
        refine this.trans ?_
        rcases abs_cases (t * (i / ((13 : ℕ) : ℝ)) - π / 4680) with ⟨q, -⟩ | ⟨q, -⟩ <;> rw [q]
        · exact le_abs_self _
        · rw [neg_div, sin_neg]; exact neg_le_abs _
      have hq : (1 : ℝ) / 4 ≤ 1 / π := one_div_le_one_div_of_le hpi hpi4.le
      have hs' : 2 * (1 / 4) * (6 / 10 ^ 4 / 2) ≤ |sin ((t * (i / ((13 : ℕ) : ℝ)) - π / 4680) / 2)| := by
        refine le_trans ?_ hs
        have : 2 / π = 2 * (1 / π) := by ring
        rw [this]
        gcongr
        exact hfar.1
      have := mul_le_mul_of_nonneg_left hs' (show 0 ≤ R * 2 by positivity)
      rw [hR] at this ⊢
      norm_num at this ⊢
      linarith)
    simpa using h
  · rw [degree_travel, spot_eq]
    rw [show (1 : ℝ) / 26 * π / 180 = π / 4680 by ring]
  · rw [e0, degree_range]
    have h1 : |sin ((ψ - π / 4680) / 2)| ≤ |ψ - π / 4680| / 2 := by
      refine abs_sin_le_abs.trans ?_
      rw [abs_div, abs_two]
    rw [← mul_sub, abs_mul, abs_of_pos hRp] at hψ
    have := mul_le_mul_of_nonneg_left h1 (show 0 ≤ R * 2 by positivity)
    linarith

/-- The same leg with a sensor that covers it: START_INSIDE and END_INSIDE, as `c72_kinds`, `c72_hits` and `c72_noticed` suppose. -/
theorem covered : ∃ x y, subdivide 1 1 (eq 0) (eq 1) 250 (eq (1 / 2)) (10 ^ 6) = .ok (.hits [x, y] (R * (π / 180) / 250)) ∧
    x.kind = .startInside ∧ y.kind = .endInside := by
  have hpi := pi_pos
  have hpi3 := pi_gt_three
  have hpi4 := pi_lt_four
  have hR : R = 6378137 := rfl
  have e0 : (1 : ℝ) / 2 = π / 360 * 180 / π := by field_simp; norm_num
  have hang := angle_eq 0 1 (by norm_num) (by norm_num)
  obtain ⟨x, y, h, hx, hy⟩ := uniform (k := 1) (ka := 1) (v := 250) (r := 10 ^ 6) (s := eq 0) (f := eq 1) (c := eq (1 / 2)) (by norm_num) (by rw [hang]; norm_num; linarith) (by
      rw [spot_eq, spot_eq]
      have : 0 < cos (1 * π / 180) := cos_pos_of_mem_Ioo ⟨by linarith, by linarith⟩
      simp at this ⊢
      linarith) 13 degree_points true (by
      intro t i ht h0 h1 _
      have e1 : (eq 0).alt * 1 + ((eq 1).alt * 1 - (eq 0).alt * 1) * i / ((13 : ℕ) : ℝ) = 0 := by simp [eq]
      rw [e1, mul_one, e0, degree_range]
      simp only [iff_true]
      rw [hang] at ht
      have ht' := abs_le.1 ht
      have hsin : |sin ((t * (i / ((13 : ℕ) : ℝ)) - π / 360) / 2)| ≤ 7 / 100 := by
        refine abs_sin_le_abs.trans ?_
        push_cast at h1 ⊢
        have a0 : 0 ≤ t := by norm_num at ht'; linarith
        have a1 : 0 ≤ t * (i / 13) := mul_nonneg a0 (by positivity)
        have a2 : t * (i / 13) ≤ t * 1 := mul_le_mul_of_nonneg_left (by linarith) a0
        rw [abs_le]
        norm_num at ht'
        constructor <;> linarith
      rw [hR]
      norm_num at hsin ⊢
      linarith)
  refine ⟨x, y, ?_, hx, hy⟩
  rw [h, hang]
  norm_num

example : ∃ l pt, subdivide 1 1 (eq 0) (eq 1) 250 (eq (1 / 2)) (10 ^ 6) = .ok (.hits l pt) ∧ ∀ x ∈ l, Right 1 1 250 (10 ^ 6) (eq 0) (eq 1) (eq (1 / 2)) pt x := by
  obtain ⟨x, y, h, -⟩ := covered
  have hpi3 := pi_gt_three
  exact ⟨_, _, h, (c72_hits one_pos one_pos (by norm_num) (by rw [angle_eq 0 1 (by norm_num) (by norm_num)]; norm_num; linarith) h).2.2⟩

end Verif.Subdiv
