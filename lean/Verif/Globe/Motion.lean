import Verif.Globe.Track
import Verif.Path.Props

/-!
# C18 on the spherical earth

`GeodeticLocationChangingState` with `Spherical` as the stage model: the functions of the earth model fit together for starts off the poles, so that
the theorems about waypoint motion apply.
-/

namespace Verif.Globe

open Real InnerProductGeometry Verif.Path

/-- The functions that the state calls (states.py 749-753, 873-878); `distance_and_bearing` (spherical.py 307-326) is the pair of the first two. -/
noncomputable def spherical (k : ℝ) : Earth := ⟨fun p q => (distanceAndBearing k p q).1, fun p q => (distanceAndBearing k p q).2, pointFrom k⟩

/-- The length of the great-circle arc between two points, in units of `k` metres. -/
noncomputable def arcLen (k : ℝ) (p q : LL) : ℝ := R * angle (place p) (place q) / k

theorem spherical_dist (k : ℝ) : (spherical k).dist = arcLen k := by funext p q; exact c60_distance k p q

theorem arc_angle_le {x u : E3} (hx : inner ℝ x x = 1) (hu : inner ℝ u u = 1) (hxu : inner ℝ x u = 0) (s t : ℝ) (h : s ≤ t) : angle (arc x u s) (arc x u t) ≤ t - s := by
  by_cases h1 : t - s ≤ π
  · exact (arc_angle hx hu hxu s t h h1).le
  · exact (angle_le_pi _ _).trans (le_of_not_ge h1)

theorem spherical_fits (k : ℝ) (hk : 0 < k) : (spherical k).Fits OffPole := by
  obtain ⟨m1, m2, m3, m4⟩ := c60_metric k hk
  have hR := R_pos
  refine ⟨fun a b => (m2 a b).1, fun a => (m3 a a).2 rfl, m1, m4, fun a b f ho h0 h1 => (c60_part_partial k hk a b ho f h0 h1).1,
    fun a b f ho h0 h1 => (c60_part_partial k hk a b ho f h0 h1).2, fun a b f ho h1 => ?_⟩
  show distance k (pointFrom k a (bearing a b) (f * distance k a b)) b ≤ (f - 1) * distance k a b
  have e : distance k a b * k / R = central a b := by rw [distance_eq]; field_simp
  have e' : f * distance k a b * k / R = f * central a b := by rw [← e]; ring
  rw [c60_distance, c60_destination_partial k a ho, c60_target k hk a b, e, e', distance_eq, angle_comm]
  have := arc_angle_le (place_inner_self a) (heading_norm a (bearing a b)) (heading_place a (bearing a b)) (central a b) (f * central a b) (by nlinarith [central_nonneg a b])
  rw [show (f - 1) * (R * central a b / k) = R * (f * central a b - central a b) / k by ring]
  gcongr

/-- **C18 on the spherical earth**, off the poles and in degrees: the location read is the point of the great-circle path at path length `v * e`, the altitude
changes in proportion to the length covered of the leg. Missing: the `10⁻⁴` time units after reaching a waypoint. -/
theorem c18_spherical_partial (k : ℝ) (hk : 0 < k) (σ₀ : St Geo) (hl : σ₀.locked = false) (v : ℝ) (hv : 0 < v) (ws : List Geo)
    (hdeg : σ₀.value.rad = false) (hdegs : ∀ w ∈ ws, w.rad = false) (hok : OffPole σ₀.value.ll) (hoks : ∀ w ∈ ws, OffPole w.ll) (os : List (Op Geo))
    (ho : ∀ o ∈ os, o.During) (e : ℝ) (he : e = (under (geodetic (spherical k)) σ₀ v ws os).now - σ₀.now) (hpos : 0 < e)
    (hend : v * e ≤ pathLen (arcLen k) σ₀.value.ll (ws.map Geo.ll))
    (hclear : ∀ pre post, ws = pre ++ post → pre ≠ [] →
      ¬ (pathLen (arcLen k) σ₀.value.ll (pre.map Geo.ll) / v < e ∧ e ≤ pathLen (arcLen k) σ₀.value.ll (pre.map Geo.ll) / v + 1 / 10 ^ 4)) :
    ∃ X, (step (geodetic (spherical k)) (under (geodetic (spherical k)) σ₀ v ws os) .read).2 = .loc X ∧ At (arcLen k) σ₀.value.ll (ws.map Geo.ll) (v * e) X.ll ∧
      ∃ pre w post, ws = pre ++ w :: post ∧ pathLen (arcLen k) σ₀.value.ll (pre.map Geo.ll) ≤ v * e ∧ v * e ≤ pathLen (arcLen k) σ₀.value.ll ((pre ++ [w]).map Geo.ll) ∧
        (X.alt - (pre.getLastD σ₀.value).alt) * arcLen k (pre.getLastD σ₀.value).ll w.ll =
          (w.alt - (pre.getLastD σ₀.value).alt) * (v * e - pathLen (arcLen k) σ₀.value.ll (pre.map Geo.ll)) := by
  rw [← spherical_dist] at *
  exact c18_geodetic_partial (spherical k) OffPole (spherical_fits k hk) σ₀ hl v hv ws hdeg hdegs hok hoks os ho e he hpos hend hclear

/-- **C18 on the spherical earth, always within the slack.** -/
theorem c18_spherical_close_partial (k : ℝ) (hk : 0 < k) (σ₀ : St Geo) (hl : σ₀.locked = false) (v : ℝ) (hv : 0 < v) (w₁ : Geo) (ws : List Geo)
    (hdeg : σ₀.value.rad = false) (hdegs : ∀ w ∈ w₁ :: ws, w.rad = false)
    (hok : OffPole σ₀.value.ll) (hoks : ∀ w ∈ w₁ :: ws, OffPole w.ll) (hfirst : place σ₀.value.ll ≠ place w₁.ll) (os : List (Op Geo)) (ho : ∀ o ∈ os, o.During) (e : ℝ)
    (he : e = (under (geodetic (spherical k)) σ₀ v (w₁ :: ws) os).now - σ₀.now) (hpos : 0 < e) (hend : v * e ≤ pathLen (arcLen k) σ₀.value.ll ((w₁ :: ws).map Geo.ll)) :
    ∃ X Y, (step (geodetic (spherical k)) (under (geodetic (spherical k)) σ₀ v (w₁ :: ws) os) .read).2 = .loc X ∧
      At (arcLen k) σ₀.value.ll ((w₁ :: ws).map Geo.ll) (v * e) Y ∧ arcLen k X.ll Y ≤ 2 * v * (1 / 10 ^ 4) := by
  obtain ⟨-, m2, m3, -⟩ := c60_metric k hk
  rw [← spherical_dist] at *
  exact c18_geodetic_close_partial (spherical k) OffPole (spherical_fits k hk) σ₀ hl v hv w₁ ws hdeg hdegs hok hoks
    (lt_of_le_of_ne (m2 _ _).1 fun hc => hfirst ((m3 _ _).1 hc.symm)) os ho e he hpos hend

/-- **C18 on the spherical earth, the travel time**: an actor that travels for the time given by `waypoint_time_and_dist` is at its last waypoint. -/
theorem c18_spherical_travel_time_partial (k : ℝ) (hk : 0 < k) (σ₀ : St Geo) (hl : σ₀.locked = false) (v : ℝ) (hv : 0 < v) (pre : List Geo) (w : Geo)
    (hdeg : σ₀.value.rad = false) (hdegs : ∀ x ∈ pre ++ [w], x.rad = false)
    (hok : OffPole (pre.getLastD σ₀.value).ll) (hleg : v * (1 / 10 ^ 4) < arcLen k (pre.getLastD σ₀.value).ll w.ll) (os : List (Op Geo)) (ho : ∀ o ∈ os, o.During)
    (he : (under (geodetic (spherical k)) σ₀ v (pre ++ [w]) os).now = σ₀.now + (timeAndDist (Geo.sub (spherical k)) σ₀.value (pre ++ [w]) v).1) :
    (∃ X, (step (geodetic (spherical k)) (under (geodetic (spherical k)) σ₀ v (pre ++ [w]) os) .read).2 = .loc X ∧ place X.ll = place w.ll) ∧
      (timeAndDist (Geo.sub (spherical k)) σ₀.value (pre ++ [w]) v).2 = pathLen (arcLen k) σ₀.value.ll ((pre ++ [w]).map Geo.ll) := by
  obtain ⟨-, -, m3, -⟩ := c60_metric k hk
  rw [← spherical_dist] at *
  obtain ⟨⟨X, h1, h2⟩, h3⟩ := c18_geodetic_travel_time_partial (spherical k) OffPole (spherical_fits k hk) σ₀ hl v hv pre w hdeg hdegs hok hleg os ho he
  exact ⟨⟨X, h1, (m3 _ _).1 h2⟩, h3⟩

/-- Reading the location on the first leg. -/
theorem first_read (K : Kind P) (σ₀ : St P) (hl : σ₀.locked = false) (v : ℝ) (hv : 0 < v) (w : P) (ws : List P) (os : List (Op P)) (ho : ∀ o ∈ os, o.During)
    (hd : 0 < K.dist w σ₀.value) (ht : 0 ≤ K.tol) (e : ℝ) (he : e = (under K σ₀ v (w :: ws) os).now - σ₀.now) (hpos : 0 < e) (hend : v * e ≤ K.dist w σ₀.value) :
    (step K (under K σ₀ v (w :: ws) os) .read).2 = .loc (K.move σ₀.value w (v * e / K.dist w σ₀.value)) := by
  rw [read_eq K σ₀ hl v hv (w :: ws) os ho]
  have hle : e ≤ K.dist w σ₀.value / v := by rw [le_div_iff₀ hv]; linarith
  have := onPath_eq (K := K) (t0 := σ₀.now) (v := v) (p := σ₀.value) (σ := under K σ₀ v (w :: ws) os) (by linarith)
    ⟨σ₀.now, v, w :: ws, some (legs K v σ₀.value (w :: ws))⟩ [] w ws
    (by simp only [List.nil_append, Kind.len, pathLen, add_zero]; rw [← he]; linarith)
    (by intro q r hq hc; simp at hc; exact absurd hc.1 hq) (by simp only [List.getLastD_nil]; positivity)
  simp only [List.nil_append, List.getLastD_nil, Kind.len, pathLen, zero_div, sub_zero, ← he] at this
  rw [this, div_div_eq_mul_div, mul_comm v e]

/-- **C18 is violated at the poles**: an actor that starts at a pole moves along the meridian of its own longitude, whatever its first waypoint, and on
arrival has the longitude of the start. -/
theorem c18_pole (k : ℝ) (hk : 0 < k) (σ₀ : St Geo) (hl : σ₀.locked = false) (v : ℝ) (hv : 0 < v) (w : Geo) (ws : List Geo)
    (hpole : σ₀.value.lat = 90 ∨ σ₀.value.lat = -90) (hdeg : σ₀.value.rad = false) (hw : -90 < w.lat ∧ w.lat < 90) (hdegw : w.rad = false) (os : List (Op Geo)) (ho : ∀ o ∈ os, o.During)
    (e : ℝ) (he : e = (under (geodetic (spherical k)) σ₀ v (w :: ws) os).now - σ₀.now) (hpos : 0 < e) (hend : v * e ≤ arcLen k σ₀.value.ll w.ll) :
    ∃ X, (step (geodetic (spherical k)) (under (geodetic (spherical k)) σ₀ v (w :: ws) os) .read).2 = .loc X ∧ X.lon = σ₀.value.lon ∧
      (v * e = arcLen k σ₀.value.ll w.ll → X.lat = w.lat) := by
  obtain ⟨-, m2, m3, -⟩ := c60_metric k hk
  have hdist : (geodetic (spherical k)).dist w σ₀.value = arcLen k σ₀.value.ll w.ll := by
    rw [← spherical_dist, ← Geo.raw_eq hdeg, ← Geo.raw_eq hdegw]; rfl
  have hlt := mul_pos hv hpos
  have hd : 0 < arcLen k σ₀.value.ll w.ll := by linarith
  refine ⟨_, first_read (geodetic (spherical k)) σ₀ hl v hv w ws os ho (by rw [hdist]; exact hd) (by show (0 : ℝ) ≤ 1 / 10 ^ 4; positivity) e he hpos (by rw [hdist]; exact hend), ?_, ?_⟩
  · exact (c60_pole_ignores_bearing k (σ₀.value.lat, σ₀.value.lon) hpole _ _).1
  · intro hv
    rw [hdist, hv, div_self hd.ne']
    show (pointFrom k (σ₀.value.lat, σ₀.value.lon) (bearing (σ₀.value.lat, σ₀.value.lon) (w.lat, w.lon)) (1 * distance k (σ₀.value.lat, σ₀.value.lon) (w.lat, w.lon))).1 = w.lat
    rw [one_mul, c60_pole_misses k hk (σ₀.value.lat, σ₀.value.lon) (w.lat, w.lon) hpole ⟨hw.1.le, hw.2.le⟩]

/-- Along the equator. -/
theorem equator_central (a b : ℝ) (h0 : a ≤ b) (h1 : b - a ≤ 180) : central (0, a) (0, b) = (b - a) * π / 180 := by
  have hpi := pi_pos
  unfold central angle
  rw [place_norm, place_norm, mul_one, div_one, equator_place, equator_place, inner3]
  have : cos (a * π / 180) * cos (b * π / 180) + sin (a * π / 180) * sin (b * π / 180) + 0 * 0 = cos ((b - a) * π / 180) := by
    rw [show (b - a) * π / 180 = b * π / 180 - a * π / 180 by ring, cos_sub]; ring
  rw [this, arccos_cos (by have : 0 ≤ b - a := by linarith
                           positivity) (by nlinarith)]

/-- **C18 is violated for locations in radians**: their numbers are taken for degrees. An actor at (0, 0) with the waypoint (0, π/2) in radians, a quarter of
the globe away, cannot be read any more at the time that `waypoint_time_and_dist` gives for the way. -/
theorem c18_radians (σ₀ : St Geo) (hl : σ₀.locked = false) (hσ : σ₀.value = ⟨0, 0, 0, true⟩) (os : List (Op Geo)) (ho : ∀ o ∈ os, o.During)
    (he : (under (geodetic (spherical 1)) σ₀ 1 [⟨0, π / 2, 0, true⟩] os).now = σ₀.now + (timeAndDist (Geo.sub (spherical 1)) σ₀.value [⟨0, π / 2, 0, true⟩] 1).1) :
    (timeAndDist (Geo.sub (spherical 1)) σ₀.value [⟨0, π / 2, 0, true⟩] 1).2 = R * (π / 2) ∧
      (step (geodetic (spherical 1)) (under (geodetic (spherical 1)) σ₀ 1 [⟨0, π / 2, 0, true⟩] os) .read).2 = .error := by
  have hpi := pi_pos
  have h2 := two_le_pi
  have h4 := pi_le_four
  have e1 : (timeAndDist (Geo.sub (spherical 1)) σ₀.value [⟨0, π / 2, 0, true⟩] 1).2 = R * (π / 2) := by
    simp only [timeAndDist, distLoop, zero_add, Geo.sub, Geo.toDegrees_eq, hσ, Geo.ll, spherical, distanceAndBearing, if_true]
    rw [(c60_metric 1 one_pos).1, distance_eq, show π / 2 * 180 / π = 90 by field_simp; norm_num, show (0 : ℝ) * 180 / π = 0 by ring, quarter, div_one]
  refine ⟨e1, c18_past_end _ (fun a b => ((c60_metric 1 one_pos).2.1 _ _).1) σ₀ hl 1 one_pos (by show (0 : ℝ) ≤ 1 / 10 ^ 4; positivity) _ os ho ?_⟩
  have e2 : (timeAndDist (Geo.sub (spherical 1)) σ₀.value [⟨0, π / 2, 0, true⟩] 1).1 = R * (π / 2) := by rw [← e1]; simp [timeAndDist]
  rw [he, e2, hσ]
  show (distance 1 (0, 0) (0, π / 2) + 0) / 1 + 1 / 10 ^ 4 < _
  rw [distance_eq, equator_central 0 (π / 2) (by positivity) (by linarith)]
  have : π * π ≤ 16 := by nlinarith
  unfold R
  nlinarith

/-! ### Along the equator, from (0, 0) to (0, 90) -/

noncomputable def quay : St Geo := ⟨0, ⟨0, 0, 0, false⟩, none, false⟩
def port : Geo := ⟨0, 90, 100, false⟩

theorem sail_now (K : Kind Geo) (σ : St Geo) (hl : σ.locked = false) (h0 : σ.now = 0) (v : ℝ) (hv : 0 < v) (ws : List Geo) (t : ℝ) (ht : 0 ≤ t) : (under K σ v ws [.advance t]).now = t := by
  have h := (activate_moving K σ hl v hv ws).2.2.2
  simp only [under, exec]
  rw [step_advance _ _ _ (by rw [h, h0]; exact ht)]

theorem port_len : arcLen 1 quay.value.ll port.ll = R * (π / 2) := by
  simp only [arcLen, quay, port, Geo.ll, Bool.false_eq_true, if_false, div_one]
  congr 1; exact quarter

example : ∃ X, (step (geodetic (spherical 1)) (under (geodetic (spherical 1)) quay R [port] [.advance 1]) .read).2 = .loc X ∧
    arcLen 1 (0, 0) X.ll = R ∧ arcLen 1 X.ll (0, 90) = R * (π / 2) - R ∧ X.alt = 100 * (2 / π) := by
  have hR := R_pos
  have hpi := pi_pos
  have h2 := two_le_pi
  have hl : pathLen (arcLen 1) quay.value.ll ([port].map Geo.ll) = R * (π / 2) := by simp only [List.map_cons, List.map_nil, pathLen, add_zero, port_len]
  obtain ⟨X, h1, h3, pre, w, post, h4, -, -, h5⟩ := c18_spherical_partial 1 one_pos quay rfl R hR [port] rfl (by simp [port]) (by simp [quay, Geo.ll, OffPole]) (by simp [port, Geo.ll, OffPole])
    [.advance 1] (by simp [Op.During]) 1 (by rw [sail_now _ quay rfl rfl R hR _ 1 zero_le_one]; simp [quay]) one_pos (by rw [hl]; nlinarith) (by
      intro pre post h hne
      match pre, h, hne with
      | [a], h, _ =>
        simp only [List.singleton_append, List.cons.injEq] at h
        rw [← h.1, hl, mul_div_cancel_left₀ _ hR.ne']
        intro hc; linarith [hc.1]
      | a :: b :: l, h, _ => simp at h)
  obtain ⟨pre', w', post', a, g1, g2, -, -, g3, g4⟩ := h3
  have hp : pre' = [] ∧ w' = (0, 90) := by
    match pre', g1 with
    | [], g1 => simp only [List.map_cons, List.map_nil, List.nil_append, List.cons.injEq] at g1; exact ⟨rfl, by rw [← g1.1]; simp [port, Geo.ll]⟩
    | _ :: _, g1 => simp at g1
  obtain ⟨rfl, rfl⟩ := hp
  have hp2 : pre = [] ∧ w = port := by
    match pre, h4 with
    | [], h4 => simp only [List.nil_append, List.cons.injEq] at h4; exact ⟨rfl, h4.1.symm⟩
    | _ :: _, h4 => simp at h4
  obtain ⟨rfl, rfl⟩ := hp2
  have e0 : quay.value.ll = (0, 0) := by simp [quay, Geo.ll]
  have e1 : port.ll = (0, 90) := by simp [port, Geo.ll]
  simp only [List.getLastD_nil, e0] at g2
  rw [g2] at g3 g4
  simp only [pathLen, mul_one, sub_zero] at g3
  refine ⟨X, h1, g3, ?_, ?_⟩
  · rw [g4, g3, ← port_len, e0, e1]
  · simp only [List.getLastD_nil, port_len, List.map_nil, pathLen, sub_zero, mul_one] at h5
    have : (X.alt - 0) * (R * (π / 2)) = (100 - 0) * R := h5
    have : X.alt * (π / 2) = 100 := by
      apply mul_right_cancel₀ hR.ne'; linarith
    field_simp; linarith

example : ∃ X, (step (geodetic (spherical 1)) (under (geodetic (spherical 1)) ⟨0, ⟨90, 0, 0, false⟩, none, false⟩ R (port :: []) [.advance (π / 2)]) .read).2 = .loc X ∧ X.lon = 0 ∧ X.lat = 0 := by
  have hR := R_pos
  have hpi := pi_pos
  have hq : R * (π / 2) = arcLen 1 (90, 0) (0, 90) := by
    unfold arcLen; rw [div_one]; congr 1
    rw [eq_comm, ← inner_eq_zero_iff_angle_eq_pi_div_two, place_inner]
    have : radians 90 = π / 2 := by unfold radians; ring
    rw [this, cos_pi_div_two, show radians 0 = 0 by unfold radians; ring]; simp
  have e0 : (⟨90, 0, 0, false⟩ : Geo).ll = (90, 0) := by simp [Geo.ll]
  have e1 : port.ll = (0, 90) := by simp [port, Geo.ll]
  obtain ⟨X, h1, h2, h3⟩ := c18_pole 1 one_pos ⟨0, ⟨90, 0, 0, false⟩, none, false⟩ rfl R hR port [] (.inl rfl) rfl (by simp [port]) rfl [.advance (π / 2)] (by simp [Op.During]) (π / 2)
    (by rw [sail_now _ _ rfl rfl R hR _ _ (by positivity)]; simp) (by positivity) (by rw [e0, e1, hq])
  exact ⟨X, h1, h2, by simpa [port] using h3 (by rw [e0, e1, hq])⟩

end Verif.Globe
