import Verif.Subdiv.WgsModel
import Verif.Subdiv.Sphere
import Verif.Geod.Bend
import Verif.Geod.Short

/-! # Samples of legs on the ellipsoid -/

namespace Verif.Subdiv.Wgs84

open Verif.Path Verif.Geod Real
open Verif.Globe (LL E3 radians)
open Verif.Wgs (a b f a_pos b_pos f_pos)

/-- `x` is, to within `ε` metres, at length `s` of the line `γ`. -/
def Near (γ : ℝ → E3) (v : ℝ → ℝ) (s ε : ℝ) (x : E3) : Prop := ∃ t, length v t = s ∧ dist (γ t) x ≤ ε

/-- A line on the ellipsoid that is as long as one likes, in both directions. -/
structure Line (γ : ℝ → E3) (v : ℝ → ℝ) : Prop where
  geodesic : ∃ T, Geodesic γ T v
  all : ∀ s, ∃ t, length v t = s

theorem length_zero (v : ℝ → ℝ) : length v 0 = 0 := by unfold length; simp

theorem Line.start {γ v} (_ : Line γ v) : Near γ v 0 0 (γ 0) := ⟨0, length_zero v, by simp⟩

theorem Line.chord {γ v} (L : Line γ v) (s t : ℝ) : dist (γ s) (γ t) ≤ |length v s - length v t| := by
  obtain ⟨T, G⟩ := L.geodesic
  exact G.chord s t

/-- Near another point of the line. -/
theorem Near.shift {γ v} (L : Line γ v) {s s' ε δ : ℝ} {x : E3} (h : Near γ v s ε x) (hs : |s' - s| ≤ δ) : Near γ v s' (ε + δ) x := by
  obtain ⟨t, rfl, h⟩ := h
  obtain ⟨t', rfl⟩ := L.all s'
  refine ⟨t', rfl, ?_⟩
  have := L.chord t' t
  have := dist_triangle (γ t') (γ t) x
  linarith

theorem Near.mono {γ v} {s ε ε' : ℝ} {x : E3} (h : Near γ v s ε x) (he : ε ≤ ε') : Near γ v s ε' x := by
  obtain ⟨t, h1, h2⟩ := h
  exact ⟨t, h1, h2.trans he⟩

theorem Near.dist {γ v} (L : Line γ v) {s s' ε ε' : ℝ} {x x' : E3} (h : Near γ v s ε x) (h' : Near γ v s' ε' x') : dist x x' ≤ ε + |s - s'| + ε' := by
  obtain ⟨t, rfl, h⟩ := h
  obtain ⟨t', rfl, h'⟩ := h'
  have h1 := L.chord t t'
  have h2 := dist_triangle x (γ t) x'
  have h3 := dist_triangle (γ t) (γ t') x'
  rw [dist_comm x (γ t)] at h2
  linarith

theorem Line.mono {γ v} (L : Line γ v) {s t : ℝ} (h : length v s ≤ length v t) : s ≤ t := by
  obtain ⟨T, G⟩ := L.geodesic
  by_contra hc
  have h1 := length_sub G t s
  have h2 := intervalIntegral.intervalIntegral_pos_of_pos (G.cont.intervalIntegrable t s) G.pos (not_le.1 hc)
  linarith

/-- Between two places near a line. -/
theorem Near.between {γ v} (L : Line γ v) {s s' ε : ℝ} {x y : E3} (hx : Near γ v s ε x) (hy : Near γ v s' ε y) (hs : s ≤ s') {l : ℝ} (h0 : 0 ≤ l) (h1 : l ≤ 1) :
    Near γ v (s + l * (s' - s)) (ε + bendMax * (s' - s) ^ 2 / 8) (x + l • (y - x)) := by
  obtain ⟨t, rfl, hx⟩ := hx
  obtain ⟨t', rfl, hy⟩ := hy
  obtain ⟨u, hu⟩ := L.all (length v t + l * (length v t' - length v t))
  refine ⟨u, hu, ?_⟩
  obtain ⟨T, G⟩ := L.geodesic
  have h2 : t ≤ u := L.mono (by rw [hu]; nlinarith)
  have h3 : u ≤ t' := L.mono (by rw [hu]; nlinarith)
  have h4 := G.sagitta h2 h3 l hu
  have h5 : Dist.dist (γ t + l • (γ t' - γ t)) (x + l • (y - x)) ≤ ε := by
    rw [dist_eq_norm] at hx hy ⊢
    have e : γ t + l • (γ t' - γ t) - (x + l • (y - x)) = (1 - l) • (γ t - x) + l • (γ t' - y) := by module
    rw [e]
    refine (norm_add_le _ _).trans ?_
    rw [norm_smul, norm_smul, Real.norm_eq_abs, Real.norm_eq_abs, abs_of_nonneg h0, abs_of_nonneg (by linarith : 0 ≤ 1 - l)]
    nlinarith
  have := dist_triangle (γ u) (γ t + l • (γ t' - γ t)) (x + l • (y - x))
  linarith

/-- A place near a line between two places is near every line near both. -/
theorem Near.over {γ v γ' v'} (L : Line γ v) (L' : Line γ' v') {s s' ε ε' D : ℝ} {x y z : E3} (hx : Near γ v s ε x) (hy : Near γ v s' ε y) (hs : s ≤ s') (hD : 0 ≤ D)
    (h0' : γ' 0 = x) (hy' : Near γ' v' D 0.001 y) {l : ℝ} (h0 : 0 ≤ l) (h1 : l ≤ 1) (hz : Near γ' v' (D * l) ε' z) :
    Near γ v (s + l * (s' - s)) (ε + ε' + 0.001 + bendMax * D ^ 2 / 8 + bendMax * (s' - s) ^ 2 / 8) z := by
  obtain ⟨t, ht, h2⟩ := hx.between L hy hs h0 h1
  have hx' : Near γ' v' 0 0.001 x := by rw [← h0']; exact L'.start.mono (by norm_num)
  obtain ⟨t', ht', h3⟩ := hx'.between L' hy' hD h0 h1
  obtain ⟨t'', ht'', h4⟩ := hz
  have h5 := L'.chord t' t''
  rw [ht', ht'', zero_add, sub_zero, mul_comm D, sub_self, abs_zero] at h5
  rw [sub_zero] at h3
  refine ⟨t, ht, ?_⟩
  have h6 := dist_triangle (γ t) (x + l • (y - x)) z
  have h7 := dist_triangle (x + l • (y - x)) (γ' t') z
  have h8 := dist_triangle (γ' t') (γ' t'') z
  rw [dist_comm (x + l • (y - x)) (γ' t')] at h7
  linarith

theorem speed_ge (p : LL) (β t : ℝ) : b ≤ lineSpeed p β t := by
  have A := ang (reduced p.1) (radians β)
  have hw : 1 - f ≤ w (cos (reduced p.1)) (sin (reduced p.1)) (cos (radians β)) t := by
    apply le_sqrt_of_sq_le
    have := A.g3_le t
    have e : (1 - f) ^ 2 = 1 - Verif.Wgs.e2 := by unfold Verif.Wgs.e2; ring
    have := Verif.Wgs.e2_pos
    rw [e]
    nlinarith [sq_nonneg (g3 (cos (reduced p.1)) (sin (reduced p.1)) (cos (radians β)) t)]
  have := mul_le_mul_of_nonneg_left hw a_pos.le
  unfold lineSpeed
  have e : b = a * (1 - f) := rfl
  rw [e]; exact this

theorem line_line {p : LL} (β : ℝ) : Line (line p β) (lineSpeed p β) := by
  have G : Geodesic (line p β) _ (lineSpeed p β) := (ang _ _).geodesic
  refine ⟨⟨_, G⟩, fun s => ?_⟩
  have hc : Continuous (length (lineSpeed p β)) := continuous_iff_continuousAt.2 fun x =>
    (intervalIntegral.integral_hasDerivAt_right (G.cont.intervalIntegrable _ _) (G.cont.stronglyMeasurableAtFilter _ _) G.cont.continuousAt).continuousAt
  have hb := b_pos
  have hge : ∀ x y, x ≤ y → b * (y - x) ≤ length (lineSpeed p β) y - length (lineSpeed p β) x := fun x y hxy => by
    rw [length_sub G]
    have h1 : ∫ _ in x..y, b = b * (y - x) := by simp [mul_comm]
    rw [← h1]
    exact intervalIntegral.integral_mono_on hxy (by simp) (G.cont.intervalIntegrable _ _) fun t _ => speed_ge p β t
  have h0 : 0 ≤ |s| / b := by positivity
  have h1 := hge 0 (|s| / b) h0
  have h2 := hge (-(|s| / b)) 0 (by linarith)
  rw [length_zero] at h1 h2
  have e : b * (|s| / b) = |s| := by field_simp
  have hs := abs_le.1 (le_refl |s|)
  obtain ⟨t, -, ht⟩ := intermediate_value_Icc (a := -(|s| / b)) (b := |s| / b) (by linarith) hc.continuousOn (show s ∈ _ from ⟨by nlinarith, by nlinarith⟩)
  exact ⟨t, ht⟩

/-- The same with another unit. -/
theorem distBearing_scale {k l : ℝ} (hk : k ≠ 0) (hl : l ≠ 0) {tol : ℝ} {n : ℕ} {p q : LL} {d β : ℝ} (h : distBearing k tol n p q = .ok (d, β)) :
    distBearing l tol n p q = .ok (d * k / l, β) := by
  unfold distBearing at h ⊢
  split at h
  · rename_i he
    rw [if_pos he]
    injection h with h
    injection h with h1 h2
    subst h1 h2
    simp
  · rename_i he
    rw [if_neg he]
    dsimp only at h ⊢
    split at h
    · cases h
    · rename_i it hit
      injection h with h
      unfold finish at h ⊢
      dsimp only at h ⊢
      injection h with h1 h2
      subst h1 h2
      congr 2
      field_simp

/-- A leg: the line it is on, where the end is, and where the places at given lengths are. -/
theorem leg84 {p q : LL} (hp : Lat p) (hq : Lat q) {D β : ℝ} (h : distBearing 1 1e-12 200 p q = .ok (D, β)) :
    ∃ γ v, Line γ v ∧ γ 0 = ground p ∧ 0 ≤ D ∧ D ≤ 20037510 ∧ D ≤ 1.7 * dist (ground p) (ground q) + 0.01 ∧ Near γ v D 0.001 (ground q) ∧
      ∀ s, 0 ≤ s → s ≤ D → ∀ r, pointFrom 1000 1e-12 200 p β (s / 1000) = .ok r → Lat r ∧ Near γ v s 14.01 (ground r) := by
  obtain ⟨T, hT0, hTπ, hD, h1, h2⟩ := inverse_core one_pos (by norm_num) hp hq h
  have L := line_line (p := p) β
  have ha : a = 6378137 := rfl
  have hap := a_pos
  have hDle : D ≤ 20037510 := by
    have := (length_bd (ang (reduced p.1) (radians β)) hT0).2
    have h3 : T * a ≤ 3.1415927 * a := mul_le_mul_of_nonneg_right (hTπ.trans pi_lt_d20.le |>.trans (by norm_num)) hap.le
    have h4 := (abs_le.1 h1).2
    have h5 : length (lineSpeed p β) T ≤ T * a := this
    rw [ha] at h3 h5
    norm_num at h3 h4 ⊢
    linarith
  have hshort : D ≤ 1.7 * dist (ground p) (ground q) + 0.01 := by
    have e0 : gam (cos (reduced p.1)) (sin (reduced p.1)) (cos (radians β)) (sin (radians β)) (radians p.2) 0 = ground p := gam_zero hp _ _
    have h3 := (ang (reduced p.1) (radians β)).chord_ge (radians p.2) hT0 hTπ
    rw [e0] at h3
    have h4 := dist_triangle (line p β T) (ground q) (ground p)
    rw [dist_comm (ground q) (ground p)] at h4
    have h5 : length (lineSpeed p β) T ≤ T * a := (length_bd (ang (reduced p.1) (radians β)) hT0).2
    have h6 := (abs_le.1 h1).2
    have h7 : b * (0.61 * T) ≤ dist (line p β T) (ground p) := h3
    have hb : (6356752 : ℝ) ≤ b := by unfold b a f; norm_num
    have h8 : 6356752 * (0.61 * T) ≤ b * (0.61 * T) := mul_le_mul_of_nonneg_right hb (by positivity)
    rw [ha] at h5 h2
    norm_num at h2 h6 h8 h7 ⊢
    linarith
  refine ⟨_, _, L, gam_zero hp _ _, hD, hDle, hshort, ?_, fun s hs hsD r hr => ?_⟩
  · have h3 : Near (line p β) (lineSpeed p β) (length (lineSpeed p β) T) 0.00082 (ground q) := ⟨T, rfl, h2.trans (by rw [ha]; norm_num)⟩
    refine (h3.shift L (δ := 0.00011) ?_).mono (by norm_num)
    rw [mul_one] at h1
    exact h1
  · obtain ⟨s', y, σ, x1, new, ⟨rfl, rfl⟩, hL, -, h3, hσ, hn, hd⟩ := direct_core hp (by norm_num) hr
    refine ⟨hL, ?_⟩
    have e : s / 1000 * 1000 = s := by ring
    rw [e, abs_of_nonneg hs] at h3 hσ
    have hb := bug_bd (ang (reduced p.1) (radians β)).sin_bd x1 σ new
    have hsh := share hs (by norm_num) hσ
    have hf := f_pos
    have h1 := mul_le_mul_of_nonneg_left hb hap.le
    have h4 : a * (Verif.Wgs.f * |new - σ| + Verif.Wgs.f ^ 2 * 0.1936) ≤ 21500 * 1e-12 + 13.9 := by
      have haf : a * Verif.Wgs.f ≤ 21500 := by unfold a Verif.Wgs.f; norm_num
      have haf2 : a * (Verif.Wgs.f ^ 2 * 0.1936) ≤ 13.9 := by unfold a Verif.Wgs.f; norm_num
      have : a * Verif.Wgs.f * |new - σ| ≤ 21500 * 1e-12 := mul_le_mul haf hn.le (abs_nonneg _) (by norm_num)
      linarith
    have h5 : Near (line p β) (lineSpeed p β) (length (lineSpeed p β) σ) 14.0015 (ground r) := ⟨σ, rfl, hd.trans (by
      norm_num at hsh h4 h1 ⊢
      linarith)⟩
    refine (h5.shift L (δ := 0.001) ?_).mono (by norm_num)
    rw [abs_sub_comm]
    refine h3.trans ?_
    norm_num
    linarith

/-- What a sampling that does not raise gives. -/
theorem samples84 {c : Lla} {r : ℝ} {x y : Lla} {n : ℕ} (hx : Lat x.1) (hy : Lat y.1) (hr : (ellipsoid c r).raises x y n = false) :
    2 ≤ n ∧ ∃ D, (ellipsoid c r).dist x y = D ∧ 0 ≤ D ∧ D ≤ 20037510 ∧ D ≤ 1.7 * dist (ground x.1) (ground y.1) + 0.01 ∧
      ((ellipsoid c r).samples x y n).length = n + 1 ∧ ∃ γ v, Line γ v ∧ γ 0 = ground x.1 ∧
      Near γ v D 0.001 (ground y.1) ∧ ((ellipsoid c r).samples x y n)[0]? = some x ∧ ((ellipsoid c r).samples x y n)[n]? = some y ∧
      ∀ (i : ℕ) z, ((ellipsoid c r).samples x y n)[i]? = some z → i ≤ n ∧ Lat z.1 ∧ Near γ v (D * i / n) 14.01 (ground z.1) ∧ z.2 = x.2 + (y.2 - x.2) * i / n := by
  unfold ellipsoid at hr ⊢
  dsimp only at hr ⊢
  cases hs : ecefAndGeoLinspace x.1 y.1 x.2 y.2 n with
  | error e => rw [hs] at hr; cases hr
  | ok w =>
    obtain ⟨xs, gs⟩ := w
    obtain ⟨h1, h2, h3, -, -⟩ := c71_ecef_and_geo hs
    have hn2 : 2 ≤ n := by
      by_contra hc
      unfold geoLinspace at h1
      rw [if_pos (by omega)] at h1
      cases h1
    obtain ⟨k1, k2, k3, d, β, hd, k4⟩ := c71_linspace h1
    have hd1 := distBearing_scale (by norm_num) one_ne_zero hd
    obtain ⟨γ, v, L, g0, D0, D1, D2, gD, gs'⟩ := leg84 hx hy hd1
    have hn0 : (0 : ℝ) < n := by exact_mod_cast (by omega : 0 < n)
    have e0 : gs[0]? = some x := by
      have hl : 0 < gs.length := by omega
      have h4 := h3 0 gs[0] (List.getElem?_eq_getElem hl)
      have h5 : gs[0].1 = x.1 := by
        rw [List.getElem?_map, List.getElem?_eq_getElem hl] at k2
        simpa using k2
      rw [List.getElem?_eq_getElem hl]
      congr 1
      refine Prod.ext h5 ?_
      rw [h4]; simp
    have en : gs[n]? = some y := by
      have hl : n < gs.length := by omega
      have h4 := h3 n gs[n] (List.getElem?_eq_getElem hl)
      have h5 : gs[n].1 = y.1 := by
        rw [List.getElem?_map, List.getElem?_eq_getElem hl] at k3
        simpa using k3
      rw [List.getElem?_eq_getElem hl]
      congr 1
      refine Prod.ext h5 ?_
      rw [h4]; field_simp; ring
    refine ⟨hn2, d * 1000 / 1, (wgs84_dist hd1).1, D0, D1, D2, h2, γ, v, L, g0, gD, e0, en, fun i z hz => ?_⟩
    dsimp only at hz
    have hi : i ≤ n := by
      have := (List.getElem?_eq_some_iff.1 hz).1
      omega
    have hz2 := h3 i z hz
    refine ⟨hi, ?_⟩
    by_cases hi0 : i = 0
    · subst hi0
      rw [e0] at hz
      cases hz
      refine ⟨hx, ?_, hz2⟩
      rw [Nat.cast_zero, mul_zero, zero_div, ← g0]
      exact L.start.mono (by norm_num)
    · by_cases hin : i = n
      · subst hin
        rw [en] at hz
        cases hz
        refine ⟨hy, ?_, hz2⟩
        rw [mul_div_assoc, div_self hn0.ne', mul_one]
        exact gD.mono (by norm_num)
      · obtain ⟨q, hq, hpt⟩ := k4 i (by omega) (by omega)
        rw [List.getElem?_map, hz] at hq
        simp only [Option.map_some, Option.some.injEq] at hq
        subst hq
        have hi' : (i : ℝ) / n ≤ 1 := (div_le_one hn0).2 (by exact_mod_cast hi)
        have hi0' : 0 ≤ (i : ℝ) / n := by positivity
        obtain ⟨m1, m2⟩ := gs' (d * 1000 / 1 * i / n) (by rw [mul_div_assoc]; positivity) (by rw [mul_div_assoc]; nlinarith) z.1 (by
          rw [← hpt]; congr 1; ring)
        exact ⟨m1, m2, hz2⟩

end Verif.Subdiv.Wgs84
