import Verif.Geod.DirProps
import Verif.Geod.Equator
import Mathlib.Analysis.SpecialFunctions.Trigonometric.Bounds

/-!
# C71, a distance of nothing, lines and circles
-/

namespace Verif.Geod

open Real
open Verif.Wgs
open Verif.Globe (LL E3 Pos Err radians degrees atan2 pmod vec heading ext3 rad_eq rad_deg atan2_cos_sin atan2_polar radians_pmod unpackTwo)

theorem rad45 : radians 45 = π / 4 := by unfold radians; ring

/-- Going nowhere to the north east from the origin. -/
theorem zero_value {k tol : ℝ} {n : ℕ} (ht : 0 < tol) (hn : n ≠ 0) :
    pointFrom k tol n (0, 0) 45 0 = .ok (0, degrees (-((1 - bigC (1 / 2)) * f * bigC (1 / 2) * (1 + bigC (1 / 2)) / 2))) := by
  obtain ⟨m, rfl⟩ := Nat.exists_eq_succ_of_ne_zero hn
  have hst : start 0 (radians 45) = (0, 1, 0) := by
    unfold start
    have h := atan2_polar (r := cos (radians 45)) (θ := 0) (by rw [rad45, cos_pi_div_four]; positivity) (neg_lt_zero.mpr pi_pos) pi_pos.le
    simp only [sin_zero, cos_zero, mul_zero, mul_one] at h
    have h0 : radians 0 = 0 := by simp [radians]
    simp [h0, h]
  have hS : sin (radians 45) ^ 2 = 1 / 2 := by rw [rad45, sin_pi_div_four, div_pow, sq_sqrt (by norm_num)]; norm_num
  have hf := one_sub_f_pos
  have hlat : atan2 0 ((1 - f) * 1) = 0 := by
    have h := atan2_polar (r := (1 - f) * 1) (θ := 0) (by linarith) (neg_lt_zero.mpr pi_pos) pi_pos.le
    simpa using h
  have hlon : atan2 0 1 = 0 := by
    have h := atan2_polar (r := 1) (θ := 0) one_pos (neg_lt_zero.mpr pi_pos) pi_pos.le
    simpa using h
  unfold pointFrom
  have hloop : ∀ B, dirLoop 0 B 0 tol (m + 1) 0 = .ok (0, 0) := fun B => by
    have hd : deltaSigma B (sin 0) (cos 0) (cos (2 * 0 + 0)) = 0 := by simp [deltaSigma]
    unfold dirLoop
    rw [hd]
    simp [ht]
  simp only [hst, zero_mul, zero_div, hloop]
  unfold arrive
  have hq : 1 - (1 * sin (radians 45)) ^ 2 = 1 / 2 := by rw [one_mul, hS]; norm_num
  have hx : √((1 * sin (radians 45)) ^ 2 + (0 * sin 0 - 1 * cos 0 * cos (radians 45)) ^ 2) = 1 := by
    have : (1 * sin (radians 45)) ^ 2 + (0 * sin 0 - 1 * cos 0 * cos (radians 45)) ^ 2 = 1 := by
      rw [cos_zero]; linear_combination sin_sq_add_cos_sq (radians 45)
    rw [this, sqrt_one]
  simp only [hq, hx]
  have h1 : (0 : ℝ) * cos 0 + 1 * sin 0 * cos (radians 45) = 0 := by simp
  have h2 : sin 0 * sin (radians 45) = 0 := by simp
  have h3 : 1 * cos 0 - 0 * sin 0 * cos (radians 45) = 1 := by simp
  simp only [h1, h2, h3, hlat, hlon]
  congr 2
  · simp [degrees]
  · congr 1
    have h0 : radians 0 = 0 := by simp [radians]
    rw [h0]
    simp only [mul_zero, add_zero, cos_zero]
    linear_combination (-(1 - bigC (1 / 2)) * f * bigC (1 / 2) * (1 + bigC (1 / 2))) * hS

theorem zero_shift : 6.9e-7 ≤ (1 - bigC (1 / 2)) * f * bigC (1 / 2) * (1 + bigC (1 / 2)) / 2 ∧
    (1 - bigC (1 / 2)) * f * bigC (1 / 2) * (1 + bigC (1 / 2)) / 2 ≤ 7.1e-7 := by
  unfold bigC f
  norm_num

/-- **C71, the bug.** Asked for the place no distance away to the north east, `point_from_bearing_dist` gives one more than four metres away. -/
theorem c71_zero (k : ℝ) {tol : ℝ} {n : ℕ} (ht : 0 < tol) (hn : n ≠ 0) :
    ∃ r, pointFrom k tol n (0, 0) 45 0 = .ok r ∧ r.2 < 0 ∧ 4 ≤ dist (ground (0, 0)) (ground r) := by
  refine ⟨_, zero_value ht hn, ?_, ?_⟩
  · have := zero_shift.1
    have hπ := pi_pos
    simp only [degrees]
    have h : 0 < (1 - bigC (1 / 2)) * f * bigC (1 / 2) * (1 + bigC (1 / 2)) / 2 := lt_of_lt_of_le (by norm_num) this
    have : 0 < (1 - bigC (1 / 2)) * f * bigC (1 / 2) * (1 + bigC (1 / 2)) / 2 * (180 / π) := by positivity
    linarith
  · obtain ⟨h1, h2⟩ := zero_shift
    set x := (1 - bigC (1 / 2)) * f * bigC (1 / 2) * (1 + bigC (1 / 2)) / 2
    rw [ground_eq (p := (0, 0)) ⟨by norm_num, by norm_num⟩, ground_eq (p := (0, degrees (-x))) ⟨by norm_num, by norm_num⟩]
    simp only [reduced_zero, rad_deg]
    have h0 : radians 0 = 0 := by simp [radians]
    rw [h0]
    have hsin : 6.5e-7 ≤ sin x := by
      have h3 : 0 < x := lt_of_lt_of_le (by norm_num) h1
      have h := sin_gt_sub_cube h3
      have h4 : x ^ 3 ≤ 1 ^ 2 * x * 1e-7 := by
        have h5 : x ^ 2 ≤ 1e-7 := by norm_num at h2 ⊢; nlinarith
        nlinarith
      norm_num at h1 h2 h4 h ⊢
      linarith
    have ha : a = 6378137 := rfl
    have hcoord : ∀ v u : E3, |v 1 - u 1| ≤ dist v u := fun v u => by
      rw [EuclideanSpace.dist_eq]
      apply abs_le_sqrt
      rw [Fin.sum_univ_three]
      simp only [Real.dist_eq, sq_abs]
      nlinarith [sq_nonneg (v 0 - u 0), sq_nonneg (v 2 - u 2)]
    refine le_trans ?_ (hcoord _ _)
    simp only [cos_zero, sin_zero, mul_zero, mul_one, sin_neg]
    show 4 ≤ |0 - a * -sin x|
    rw [zero_sub, mul_neg, neg_neg, ha, abs_of_nonneg (by norm_num at hsin ⊢; linarith)]
    norm_num at hsin ⊢
    linarith

/-! ### Lines and circles -/

theorem mapM_get {α : Type} (g : ℕ → Except Globe.Err α) : ∀ (l : List ℕ) (r : List α), l.mapM g = .ok r → r.length = l.length ∧
    ∀ i (h : i < l.length) (h' : i < r.length), g l[i] = .ok r[i] := by
  intro l
  induction l with
  | nil => intro r h; cases h; simp
  | cons x l ih =>
    intro r h
    rw [List.mapM_cons] at h
    cases hx : g x with
    | error e => rw [hx] at h; cases h
    | ok v =>
      rw [hx] at h
      cases hl : l.mapM g with
      | error e => rw [hl] at h; cases h
      | ok w =>
        rw [hl] at h
        cases h
        obtain ⟨h1, h2⟩ := ih w hl
        refine ⟨by simp [h1], ?_⟩
        intro i h h'
        cases i with
        | zero => simpa using hx
        | succ i => simpa using h2 i (by simpa using h) (by simpa using h')

theorem mapM_ok {α : Type} (g : ℕ → Except Globe.Err α) (l : List ℕ) (h : ∀ i ∈ l, ∃ v, g i = .ok v) : ∃ r, l.mapM g = .ok r := by
  induction l with
  | nil => exact ⟨[], rfl⟩
  | cons x l ih =>
    obtain ⟨v, hv⟩ := h x (by simp)
    obtain ⟨r, hr⟩ := ih (fun i hi => h i (by simp [hi]))
    exact ⟨v :: r, by rw [List.mapM_cons, hv, hr]; rfl⟩

/-- **C71.** `geo_linspace` gives one place more than asked for; the first and the last are the places given, exactly; the others are
destinations in the direction of the last at equal steps, and so as good as destinations are (`c71_direct`). -/
theorem c71_linspace {p q : LL} {n : ℕ} {l : List LL} (h : geoLinspace p q n = .ok l) :
    l.length = n + 1 ∧ l[0]? = some p ∧ l[n]? = some q ∧ ∃ d β, distBearing 1000 1e-12 200 p q = .ok (d, β) ∧
      ∀ i, 0 < i → i < n → ∃ r, l[i]? = some r ∧ pointFrom 1000 1e-12 200 p β (d * i / n) = .ok r := by
  unfold geoLinspace at h
  by_cases hn : n < 2
  · rw [if_pos hn] at h; cases h
  rw [if_neg hn] at h
  cases hd : distBearing 1000 1e-12 200 p q with
  | error e => rw [hd] at h; cases h
  | ok w =>
    obtain ⟨d, β⟩ := w
    rw [hd] at h
    simp only at h
    obtain ⟨h1, h2⟩ := mapM_get _ _ _ h
    have hlen : l.length = n + 1 := by rw [h1, List.length_range]
    have hget : ∀ i, i < n + 1 → ∃ r, l[i]? = some r ∧
        (if i = 0 then Except.ok p else if i = n then Except.ok q else pointFrom 1000 1e-12 200 p β (d * ((i : ℝ) / n))) = .ok r := fun i hi => by
      have := h2 i (by rw [List.length_range]; exact hi) (by rw [hlen]; exact hi)
      rw [List.getElem_range] at this
      exact ⟨l[i], List.getElem?_eq_getElem (by rw [hlen]; exact hi), this⟩
    refine ⟨hlen, ?_, ?_, d, β, rfl, ?_⟩
    · obtain ⟨r, hr, hv⟩ := hget 0 (by omega)
      rw [if_pos rfl] at hv; cases hv; exact hr
    · obtain ⟨r, hr, hv⟩ := hget n (by omega)
      rw [if_neg (by omega), if_pos rfl] at hv; cases hv; exact hr
    · intro i hi hi'
      obtain ⟨r, hr, hv⟩ := hget i (by omega)
      rw [if_neg (by omega), if_neg (by omega), ← mul_div_assoc] at hv
      exact ⟨r, hr, hv⟩

/-- **C71.** `geo_linspace` fails only for fewer than two steps or when there is no distance. -/
theorem c71_linspace_ok {p q : LL} {n : ℕ} (hp : Lat p) (hn : 2 ≤ n) {d β : ℝ} (h : distBearing 1000 1e-12 200 p q = .ok (d, β)) :
    ∃ l, geoLinspace p q n = .ok l := by
  unfold geoLinspace
  rw [if_neg (by omega), h]
  simp only
  apply mapM_ok
  intro i _
  split
  · exact ⟨_, rfl⟩
  · split
    · exact ⟨_, rfl⟩
    · obtain ⟨r, hr, -⟩ := c71_found le_rfl (by norm_num : 5 ≤ 200) 1000 hp β (d * ((i : ℝ) / n))
      exact ⟨r, hr⟩

theorem pointFrom_full (k tol : ℝ) (n : ℕ) (p : LL) (d : ℝ) : pointFrom k tol n p 360 d = pointFrom k tol n p 0 d := by
  have h : radians 360 = 0 + 2 * π := by unfold radians; ring
  have h0 : radians 0 = 0 := by simp [radians]
  have hs : sin (radians 360) = sin (radians 0) := by rw [h, h0, sin_add_two_pi]
  have hc : cos (radians 360) = cos (radians 0) := by rw [h, h0, cos_add_two_pi]
  unfold pointFrom start arrive
  simp only [hs, hc]

/-- **C71.** `geo_circle` gives one place more than asked for, each a destination from the centre with the next bearing, and ends where it
began. -/
theorem c71_circle (k : ℝ) {c : LL} (hc : Lat c) (radius : ℝ) {n : ℕ} (hn : n ≠ 0) : ∃ l, geoCircle k c radius n = .ok l ∧ l.length = n + 1 ∧
    (∀ i, i ≤ n → ∃ r, l[i]? = some r ∧ pointFrom k 1e-12 200 c (360 * i / n) radius = .ok r) ∧ l[0]? = l[n]? := by
  have hex : ∃ l, geoCircle k c radius n = .ok l := by
    unfold geoCircle
    rw [if_neg hn]
    apply mapM_ok
    intro i _
    obtain ⟨r, hr, -⟩ := c71_found le_rfl (by norm_num : 5 ≤ 200) k hc ((i : ℝ) / n * 360) radius
    exact ⟨r, hr⟩
  obtain ⟨l, hl⟩ := hex
  refine ⟨l, hl, ?_⟩
  unfold geoCircle at hl
  rw [if_neg hn] at hl
  obtain ⟨h1, h2⟩ := mapM_get _ _ _ hl
  have hlen : l.length = n + 1 := by rw [h1, List.length_range]
  have hget : ∀ i, i ≤ n → ∃ r, l[i]? = some r ∧ pointFrom k 1e-12 200 c (360 * i / n) radius = .ok r := fun i hi => by
    have := h2 i (by rw [List.length_range]; omega) (by rw [hlen]; omega)
    rw [List.getElem_range] at this
    refine ⟨l[i], List.getElem?_eq_getElem (by rw [hlen]; omega), ?_⟩
    rw [← this]
    congr 1
    ring
  refine ⟨hlen, hget, ?_⟩
  obtain ⟨r, hr, hv⟩ := hget 0 (by omega)
  obtain ⟨r', hr', hv'⟩ := hget n le_rfl
  have hn' : (n : ℝ) ≠ 0 := Nat.cast_ne_zero.mpr hn
  rw [mul_div_cancel_right₀ _ hn', pointFrom_full] at hv'
  rw [Nat.cast_zero, mul_zero, zero_div, hv'] at hv
  cases hv
  rw [hr, hr']

/-- **C71, where it fails.** `ecef_linspace` never returns. -/
theorem c71_ecef_linspace (p q : LL) (s e : ℝ) (n : ℕ) : ∃ err, ecefLinspace p q s e n = .error err := by
  unfold ecefLinspace
  cases h : geoLinspace p q n with
  | error err => exact ⟨err, rfl⟩
  | ok l =>
    have hn : 2 ≤ n := by
      by_contra h'
      unfold geoLinspace at h
      rw [if_pos (by omega)] at h
      cases h
    obtain ⟨h1, -⟩ := c71_linspace h
    simp only
    match l, h1 with
    | [], h1 => simp at h1
    | [_], h1 => simp at h1; omega
    | [_, _], h1 => simp at h1; omega
    | _ :: _ :: _ :: _, _ => exact ⟨_, rfl⟩

/-- **C71.** `ecef_and_geo_linspace` gives the places of `geo_linspace`, with altitudes at equal steps, and their cartesian coordinates. -/
theorem c71_ecef_and_geo {p q : LL} {s e : ℝ} {n : ℕ} {xs : List Pos} {gs : List (LL × ℝ)} (h : ecefAndGeoLinspace p q s e n = .ok (xs, gs)) :
    geoLinspace p q n = .ok (gs.map Prod.fst) ∧ gs.length = n + 1 ∧ (∀ (i : ℕ) (g : LL × ℝ), gs[i]? = some g → g.2 = s + (e - s) * i / n) ∧
      xs.length = n + 1 ∧ ∀ (i : ℕ) (g : LL × ℝ), gs[i]? = some g → xs[i]? = some (lla2ecef g.1 g.2) := by
  unfold ecefAndGeoLinspace at h
  cases hl : geoLinspace p q n with
  | error err => rw [hl] at h; cases h
  | ok l =>
    rw [hl] at h
    simp only at h
    injection h with h
    injection h with h1 h2
    obtain ⟨hlen, -⟩ := c71_linspace hl
    subst h2
    subst h1
    refine ⟨?_, ?_, ?_, ?_, ?_⟩
    · rw [List.map_fst_zip]; simp [hlen]
    · simp [hlen]
    · intro i g hg
      rw [List.getElem?_zip_eq_some] at hg
      have := hg.2
      rw [List.getElem?_map] at this
      cases hi : (List.range (n + 1))[i]? with
      | none => rw [hi] at this; cases this
      | some j =>
        rw [hi] at this
        have hj : j = i := by
          rw [List.getElem?_range] at hi
          · cases hi; rfl
          · by_contra hc
            rw [List.getElem?_eq_none (by simpa using hc)] at hi
            cases hi
        simp only [Option.map_some, Option.some.injEq] at this
        rw [← this, hj]
    · simp [hlen]
    · intro i g hg
      rw [List.getElem?_map, hg]; rfl

/-! ### The hypotheses can be met -/

example : ∃ d s y, distBearing 1852 1e-12 200 (10, 20) (30, 20) = .ok (d, 0) ∧ Leads (ground (10, 20)) (heading (10, 20) 0) s y ∧
    |d * 1852 - s| ≤ 0.00011 ∧ dist y (ground (30, 20)) ≤ 0.00081 + a * 1e-12 := by
  have hp : Lat (10, 20) := ⟨by norm_num, by norm_num⟩
  have hq : Lat (30, 20) := ⟨by norm_num, by norm_num⟩
  obtain ⟨⟨d, hd⟩, -⟩ := c71_north (k := 1852) (tol := 1e-12) (n := 200) (by norm_num) (by norm_num) hp hq rfl (by norm_num) (by norm_num)
  obtain ⟨s, y, h1, -, -, h2, h3⟩ := c71_inverse (by norm_num) (by norm_num) hp hq hd
  exact ⟨d, s, y, hd, h1, h2, h3⟩

example : ∃ l, geoLinspace (0, 10) (0, 50) 4 = .ok l ∧ l.length = 5 ∧ l[0]? = some (0, 10) ∧ l[4]? = some (0, 50) := by
  obtain ⟨d, hd, -⟩ := c71_equator (k := 1000) (tol := 1e-12) (n := 200) (p := (0, 10)) (q := (0, 50)) (by norm_num) le_rfl (by norm_num) rfl rfl
    (by norm_num) (by unfold f; norm_num)
  obtain ⟨l, hl⟩ := c71_linspace_ok (n := 4) ⟨by norm_num, by norm_num⟩ (by norm_num) hd
  obtain ⟨h1, h2, h3, -⟩ := c71_linspace hl
  exact ⟨l, hl, h1, h2, h3⟩

example : ∃ r s y, pointFrom 1852 1e-12 200 (33, -84) 0 100 = .ok r ∧ Leads (ground (33, -84)) (heading (33, -84) 0) s y ∧
    dist y (ground r) ≤ 1e-6 + 5e-11 * |(100 : ℝ) * 1852| + 22000 * 1e-12 := by
  have hp : Lat (33, -84) := ⟨by norm_num, by norm_num⟩
  obtain ⟨r, hr, -⟩ := c71_found (tol := 1e-12) (n := 200) le_rfl (by norm_num) 1852 hp 0 100
  obtain ⟨s, y, h1, -, -, -, h2⟩ := c71_direct_partial hp (by norm_num) hr (Or.inl (by simp [radians]))
  exact ⟨r, s, y, hr, h1, h2⟩

end Verif.Geod
