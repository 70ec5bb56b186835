import Verif.Geod.Contract
import Verif.Geod.Lines
import Verif.Path.Props

/-!
# C18 on the WGS84 ellipsoid

`GeodeticLocationChangingState` with `WGS84` as the stage model. The functions of this earth model do not fit together exactly
(`c71_direct`), so that the theorems say how far the locations read are from the straight lines of the ellipsoid.
-/

namespace Verif.Geod

open Real
open Verif.Path
open Verif.Wgs
open Verif.Globe (LL E3 Err radians degrees atan2 pmod heading ext3 rad_deg atan2_polar atan2_cos_sin)

/-- The functions that the state calls (states.py 749-753, 873-878), with the default tolerance and number of iterations (wgs84.py 77-78,
164-165). Where `distance_and_bearing` raises, so does the state; zero stands for that, and the theorems are about movements all of whose legs have a
distance. A place from a bearing and a distance is always found (`c71_found`). -/
noncomputable def wgs84 (k : ℝ) : Earth where
  dist p q := match distBearing k 1e-12 200 p q with | .ok r => r.1 | .error _ => 0
  bearing p q := match distBearing k 1e-12 200 p q with | .ok r => r.2 | .error _ => 0
  point p β d := match pointFrom k 1e-12 200 p β d with | .ok r => r | .error _ => p

/-- There is a straight line on the ellipsoid from `p` that passes `q` after the length `D`, and `x` after the length `s`: both to within a millimetre and
`5e-12` of the length, but `x` only to within `ε` metres sideways. -/
def Towards (p q : E3) (D s : ℝ) (x : E3) (ε : ℝ) : Prop :=
  ∃ γ T v, Geodesic γ T v ∧ γ 0 = p ∧ (∃ t, |length v t - D| ≤ 0.00011 ∧ dist (γ t) q ≤ 0.00082) ∧
    ∃ t, |length v t - s| ≤ 1e-5 + 5e-12 * s ∧ dist (γ t) x ≤ ε

/-! ### Straight lines -/

theorem length_sub {γ T : ℝ → E3} {v : ℝ → ℝ} (G : Geodesic γ T v) (s t : ℝ) : length v t - length v s = ∫ x in s..t, v x := by
  unfold length
  rw [intervalIntegral.integral_interval_sub_left] <;> exact G.cont.intervalIntegrable _ _

/-- Two points of a line are not farther apart than along the line. -/
theorem Geodesic.chord {γ T : ℝ → E3} {v : ℝ → ℝ} (G : Geodesic γ T v) (s t : ℝ) : dist (γ s) (γ t) ≤ |length v s - length v t| := by
  have main : ∀ s t : ℝ, s ≤ t → dist (γ s) (γ t) ≤ |length v s - length v t| := fun s t h => by
    have hT : Continuous T := continuous_iff_continuousAt.2 fun x => by
      obtain ⟨κ, h⟩ := G.straight x
      exact h.continuousAt
    have h1 := intervalIntegral.integral_eq_sub_of_hasDerivAt (a := s) (b := t) (fun x _ => G.vel x) ((G.cont.smul hT).intervalIntegrable _ _)
    rw [dist_comm, dist_eq_norm, ← h1, abs_sub_comm, length_sub G]
    refine (intervalIntegral.norm_integral_le_integral_norm h).trans ?_
    have e : (fun x => ‖v x • T x‖) = v := by
      funext x
      rw [norm_smul, G.unit, mul_one, Real.norm_eq_abs, abs_of_pos (G.pos x)]
    rw [e]
    exact le_abs_self _
  rcases le_total s t with h | h
  · exact main s t h
  · rw [dist_comm, abs_sub_comm]; exact main t s h

/-- What is found at the end of a leg is near the target. -/
theorem Towards.end {p q x : E3} {D ε : ℝ} (h : Towards p q D D x ε) : dist x q ≤ ε + 0.00094 + 5e-12 * D := by
  obtain ⟨γ, T, v, G, -, ⟨t, h1, h2⟩, u, h3, h4⟩ := h
  have h5 := G.chord u t
  have h6 : |length v u - length v t| ≤ 0.00012 + 5e-12 * D := by
    rw [abs_le] at h1 h3 ⊢
    norm_num at h1 h3 ⊢
    constructor <;> linarith [h1.1, h1.2, h3.1, h3.2]
  have h7 := dist_triangle x (γ u) q
  have h8 := dist_triangle (γ u) (γ t) q
  rw [dist_comm x (γ u)] at h7
  norm_num at h2 h6 ⊢
  linarith

/-- One leg. -/
theorem leg {k : ℝ} (hk : 0 < k) {p q : LL} (hp : Lat p) (hq : Lat q) {d β : ℝ} (h : distBearing k 1e-12 200 p q = .ok (d, β)) {s : ℝ} (hs : 0 ≤ s) :
    ∃ r, pointFrom k 1e-12 200 p β s = .ok r ∧ Lat r ∧ Towards (ground p) (ground q) (d * k) (s * k) (ground r) (14.0001 + 5e-11 * (s * k)) := by
  obtain ⟨r, hr, hL⟩ := c71_found (tol := 1e-12) (n := 200) le_rfl (by norm_num) k hp β s
  obtain ⟨T, -, -, -, h1, h2⟩ := inverse_core hk (by norm_num) hp hq h
  obtain ⟨s', y, σ, x1, new, ⟨rfl, rfl⟩, -, -, h3, hσ, hn, hd⟩ := direct_core hp (by norm_num) hr
  have hsk : 0 ≤ s * k := mul_nonneg hs hk.le
  have ha := a_pos
  rw [abs_of_nonneg hsk] at h3 hσ
  refine ⟨r, hr, hL, line p β, _, lineSpeed p β, (ang _ _).geodesic, gam_zero hp _ _, ⟨T, ?_, ?_⟩, σ, ?_, hd.trans ?_⟩
  · rw [abs_sub_comm]; exact h1
  · refine h2.trans ?_
    have : a = 6378137 := rfl
    rw [this]; norm_num
  · refine h3.trans ?_
    norm_num
    linarith
  · have hb := bug_bd (ang (reduced p.1) (radians β)).sin_bd x1 σ new
    have hsh := share hsk (by norm_num) hσ
    have hf := f_pos
    have h1 := mul_le_mul_of_nonneg_left hb ha.le
    have h3 : a * (f * |new - σ| + f ^ 2 * 0.1936) ≤ 21500 * 1e-12 + 13.9 := by
      have haf : a * f ≤ 21500 := by unfold a f; norm_num
      have haf2 : a * (f ^ 2 * 0.1936) ≤ 13.9 := by unfold a f; norm_num
      have : a * f * |new - σ| ≤ 21500 * 1e-12 := mul_le_mul haf hn.le (abs_nonneg _) (by norm_num)
      linarith
    norm_num at hsh h3 h1 ⊢
    linarith

/-! ### Legs of a movement -/

variable {P : Type}

/-- During a movement, the location read is on one of the legs, or not more than the slack beyond. -/
theorem on_leg (K : Kind P) (ht : 0 ≤ K.tol) (σ₀ : St P) (hl : σ₀.locked = false) (v : ℝ) (hv : 0 < v) (w₁ : P) (ws : List P) (hfirst : 0 < K.dist w₁ σ₀.value)
    (os : List (Op P)) (ho : ∀ o ∈ os, o.During) (e : ℝ) (he : e = (under K σ₀ v (w₁ :: ws) os).now - σ₀.now) (hpos : 0 < e)
    (hend : v * e ≤ K.len σ₀.value (w₁ :: ws)) :
    ∃ pre w post, w₁ :: ws = pre ++ w :: post ∧ 0 < K.dist w (pre.getLastD σ₀.value) ∧ K.len σ₀.value pre < v * e ∧
      v * e ≤ K.len σ₀.value (pre ++ [w]) + v * K.tol ∧ (step K (under K σ₀ v (w₁ :: ws) os) .read).2 =
        .loc (K.move (pre.getLastD σ₀.value) w ((v * e - K.len σ₀.value pre) / K.dist w (pre.getLastD σ₀.value))) := by
  have hend'' : e ≤ K.len σ₀.value (w₁ :: ws) / v := by rw [le_div_iff₀ hv]; linarith
  cases hg : getIndex K.tol e ((legs K v σ₀.value (w₁ :: ws)).map (·.time)) 0 0 with
  | none =>
    rcases getIndex_none _ _ _ _ _ _ _ hg with h | h
    · cases h
    · linarith
  | some r =>
    obtain ⟨j, b⟩ := r
    obtain ⟨pre, w, post, g1, -, -, g4, g5⟩ := getIndex_split _ _ _ _ _ _ _ _ _ hg
    simp only [zero_add] at g4 g5
    have hsnoc := len_snoc K σ₀.value pre w
    have hlegpos : 0 < K.dist w (pre.getLastD σ₀.value) := by
      by_cases hp : pre = []
      · subst hp
        simp only [List.nil_append, List.cons.injEq] at g1
        rw [← g1.1]
        exact hfirst
      · have := g5 pre [] hp (by simp)
        rw [hsnoc, add_div] at g4
        by_contra hc
        have := div_nonpos_of_nonpos_of_nonneg (not_lt.1 hc) hv.le
        linarith
    have hread : (step K (under K σ₀ v (w₁ :: ws) os) .read).2 =
        .loc (K.move (pre.getLastD σ₀.value) w ((e - K.len σ₀.value pre / v) / (K.dist w (pre.getLastD σ₀.value) / v))) := by
      rw [read_eq K σ₀ hl v hv _ os ho]
      conv_lhs => rw [show legs K v σ₀.value (w₁ :: ws) = legs K v σ₀.value (pre ++ w :: post) from by rw [g1]]
      rw [he] at g4 g5 hpos ⊢
      exact onPath_eq (by linarith) _ pre w post g4 g5 (div_ne_zero hlegpos.ne' hv.ne')
    have hf : (e - K.len σ₀.value pre / v) / (K.dist w (pre.getLastD σ₀.value) / v) = (v * e - K.len σ₀.value pre) / K.dist w (pre.getLastD σ₀.value) := by
      field_simp
    rw [hf] at hread
    refine ⟨pre, w, post, g1, hlegpos, ?_, ?_, hread⟩
    · by_cases hp : pre = []
      · subst hp; simp only [Kind.len, pathLen]; positivity
      · have := g5 pre [] hp (by simp)
        have h2 : K.len σ₀.value pre / v < e := by linarith
        rw [div_lt_iff₀ hv] at h2; linarith
    · have : e - K.tol ≤ K.len σ₀.value (pre ++ [w]) / v := by linarith
      rw [le_div_iff₀ hv] at this; linarith

/-- When the path to a waypoint has been covered, the location read is the end of the leg to it. -/
theorem at_end (K : Kind P) (hd : ∀ a b, 0 ≤ K.dist a b) (hslack : 0 ≤ K.tol) (σ₀ : St P) (hl : σ₀.locked = false) (v : ℝ) (hv : 0 < v)
    (pre : List P) (w : P) (post : List P) (hleg : v * K.tol < K.dist w (pre.getLastD σ₀.value)) (os : List (Op P)) (ho : ∀ o ∈ os, o.During)
    (he : v * ((under K σ₀ v (pre ++ w :: post) os).now - σ₀.now) = K.len σ₀.value (pre ++ [w])) :
    (step K (under K σ₀ v (pre ++ w :: post) os) .read).2 = .loc (K.move (pre.getLastD σ₀.value) w 1) := by
  have hd1 : ∀ a b, 0 ≤ (fun a b => K.dist b a) a b := fun a b => hd b a
  have he : (under K σ₀ v (pre ++ w :: post) os).now - σ₀.now = K.len σ₀.value (pre ++ [w]) / v := by rw [← he]; field_simp
  rw [len_snoc, add_div] at he
  have hdv : K.tol < K.dist w (pre.getLastD σ₀.value) / v := by rw [lt_div_iff₀ hv]; linarith
  have hn : ∀ q : List P, 0 ≤ K.len σ₀.value q / v := fun q => div_nonneg (pathLen_nonneg _ hd1 _ _) hv.le
  have hread := onPath_eq (K := K) (t0 := σ₀.now) (v := v) (p := σ₀.value) (σ := under K σ₀ v (pre ++ w :: post) os)
    (by have := hn pre; linarith) ⟨σ₀.now, v, pre ++ w :: post, some (legs K v σ₀.value (pre ++ w :: post))⟩ pre w post
    (by rw [he, len_snoc, add_div]; linarith)
    (by
      intro q r hq hc
      rw [he]
      have : K.len σ₀.value q / v ≤ K.len σ₀.value pre / v := by
        refine div_le_div_of_nonneg_right ?_ hv.le
        rw [hc]; exact pathLen_prefix _ hd1 _ _ _
      linarith)
    (by linarith)
  refine (read_eq K σ₀ hl v hv _ os ho).trans (hread.trans ?_)
  rw [he, add_sub_cancel_left, div_self (by linarith)]

theorem wgs84_dist {k : ℝ} {p q : LL} {d β : ℝ} (h : distBearing k 1e-12 200 p q = .ok (d, β)) : (wgs84 k).dist p q = d ∧ (wgs84 k).bearing p q = β := by
  simp [wgs84, h]

theorem wgs84_nonneg {k : ℝ} (hk : 0 < k) (p q : LL) : 0 ≤ (wgs84 k).dist p q := by
  cases h : distBearing k 1e-12 200 p q with
  | error e => simp [wgs84, h]
  | ok r => obtain ⟨d, β⟩ := r; rw [(wgs84_dist h).1]; exact distBearing_nonneg hk h

theorem wgs84_len (k : ℝ) {p : Geo} (hp : p.rad = false) {ws : List Geo} (h : ∀ w ∈ ws, w.rad = false) :
    (geodetic (wgs84 k)).len p ws = pathLen (wgs84 k).dist p.ll (ws.map Geo.ll) := by
  rw [← Geo.raw_eq hp, ← raw_map h, pathLen_map]
  rfl

/-- The place found on a leg. -/
theorem wgs84_move {k : ℝ} (hk : 0 < k) {g w : Geo} (hg : g.rad = false) (hw : w.rad = false) (hgl : Lat g.ll) (hwl : Lat w.ll)
    (h : ∃ d β, distBearing k 1e-12 200 g.ll w.ll = .ok (d, β)) {t : ℝ} (ht : 0 ≤ t) :
    Lat ((geodetic (wgs84 k)).move g w t).ll ∧ Towards (ground g.ll) (ground w.ll) ((wgs84 k).dist g.ll w.ll * k) (t * (wgs84 k).dist g.ll w.ll * k)
      (ground ((geodetic (wgs84 k)).move g w t).ll) (14.0001 + 5e-11 * (t * (wgs84 k).dist g.ll w.ll * k)) := by
  obtain ⟨d, β, h⟩ := h
  obtain ⟨r, h1, h2, h3⟩ := leg hk hgl hwl h (s := t * d) (mul_nonneg ht (distBearing_nonneg hk h))
  have e : ((geodetic (wgs84 k)).move g w t).ll = r := by
    rw [Geo.ll, if_neg (by simp [geodetic])]
    show ((wgs84 k).point g.raw ((wgs84 k).bearing g.raw w.raw) (t * (wgs84 k).dist g.raw w.raw)) = r
    rw [Geo.raw_eq hg, Geo.raw_eq hw, (wgs84_dist h).1, (wgs84_dist h).2]
    simp [wgs84, h1]
  rw [e, (wgs84_dist h).1]
  exact ⟨h2, h3⟩

/-- **C18 on the WGS84 ellipsoid**, in degrees: at every time of a movement the location read is, to within fourteen metres, on the straight line of
the ellipsoid from the place before to the waypoint, at the length that the speed gives, and its altitude changes in proportion to that
length. Missing: legs without an answer (near opposite places, `c71_antipodal`); the slack of `10⁻⁴` time units after a waypoint, during which the
actor goes on straight ahead. The fourteen metres are the code's own mistake (`c18_wgs84_jump`). -/
theorem c18_wgs84_partial {k : ℝ} (hk : 0 < k) (σ₀ : St Geo) (hl : σ₀.locked = false) (v : ℝ) (hv : 0 < v) (w₁ : Geo) (ws : List Geo)
    (hdeg : σ₀.value.rad = false) (hdegs : ∀ w ∈ w₁ :: ws, w.rad = false) (hlat : Lat σ₀.value.ll) (hlats : ∀ w ∈ w₁ :: ws, Lat w.ll)
    (hans : ∀ pre w post, w₁ :: ws = pre ++ w :: post → ∃ d β, distBearing k 1e-12 200 (pre.getLastD σ₀.value).ll w.ll = .ok (d, β))
    (hfirst : 0 < (wgs84 k).dist σ₀.value.ll w₁.ll) (os : List (Op Geo)) (ho : ∀ o ∈ os, o.During) (e : ℝ)
    (he : e = (under (geodetic (wgs84 k)) σ₀ v (w₁ :: ws) os).now - σ₀.now) (hpos : 0 < e)
    (hend : v * e ≤ pathLen (wgs84 k).dist σ₀.value.ll ((w₁ :: ws).map Geo.ll)) :
    ∃ X pre w post s, (step (geodetic (wgs84 k)) (under (geodetic (wgs84 k)) σ₀ v (w₁ :: ws) os) .read).2 = .loc X ∧ w₁ :: ws = pre ++ w :: post ∧
      s = v * e - pathLen (wgs84 k).dist σ₀.value.ll (pre.map Geo.ll) ∧ 0 < s ∧ s ≤ (wgs84 k).dist (pre.getLastD σ₀.value).ll w.ll + v / 10 ^ 4 ∧
      Lat X.ll ∧ Towards (ground (pre.getLastD σ₀.value).ll) (ground w.ll) ((wgs84 k).dist (pre.getLastD σ₀.value).ll w.ll * k) (s * k) (ground X.ll)
        (14.0001 + 5e-11 * (s * k)) ∧
      (X.alt - (pre.getLastD σ₀.value).alt) * (wgs84 k).dist (pre.getLastD σ₀.value).ll w.ll = (w.alt - (pre.getLastD σ₀.value).alt) * s := by
  have hK : ∀ {g w : Geo}, g.rad = false → w.rad = false → (geodetic (wgs84 k)).dist w g = (wgs84 k).dist g.ll w.ll := fun hg hw => by
    rw [← Geo.raw_eq hg, ← Geo.raw_eq hw]; rfl
  obtain ⟨pre, w, post, h1, h2, h3, h4, h5⟩ := on_leg (geodetic (wgs84 k)) (by show (0 : ℝ) ≤ 1 / 10 ^ 4; positivity) σ₀ hl v hv w₁ ws
    (by rw [hK hdeg (hdegs w₁ (by simp))]; exact hfirst) os ho e he hpos (by rw [wgs84_len k hdeg hdegs]; exact hend)
  have hpre : ∀ x ∈ pre, x.rad = false := fun x hx => hdegs x (by rw [h1]; simp [hx])
  have hw : w.rad = false := hdegs w (by rw [h1]; simp)
  have hlast : (pre.getLastD σ₀.value).rad = false := ok_last (ok := fun g : Geo => g.rad = false) hdeg hpre
  have hlastL : Lat (pre.getLastD σ₀.value).ll := ok_last (ok := fun g : Geo => Lat g.ll) hlat fun x hx => hlats x (by rw [h1]; simp [hx])
  rw [len_snoc] at h4
  rw [hK hlast hw] at h2 h4 h5
  rw [wgs84_len k hdeg hpre] at h3 h4 h5
  set D := (wgs84 k).dist (pre.getLastD σ₀.value).ll w.ll with hD
  set s := v * e - pathLen (wgs84 k).dist σ₀.value.ll (pre.map Geo.ll) with hs
  have hs0 : 0 < s := by linarith
  have ht : s / D * D = s := div_mul_cancel₀ _ h2.ne'
  obtain ⟨g1, g2⟩ := wgs84_move hk hlast hw hlastL (hlats w (by rw [h1]; simp)) (hans pre w post h1) (t := s / D) (div_nonneg hs0.le h2.le)
  rw [← hD, ht] at g2
  refine ⟨_, pre, w, post, s, h5, h1, rfl, hs0, ?_, g1, g2, ?_⟩
  · have : v * (geodetic (wgs84 k)).tol = v / 10 ^ 4 := by show v * (1 / 10 ^ 4) = _; ring
    rw [this] at h4
    linarith
  · show ((pre.getLastD σ₀.value).alt + (w.alt - (pre.getLastD σ₀.value).alt) * (s / D) - (pre.getLastD σ₀.value).alt) * D = _
    linear_combination (w.alt - (pre.getLastD σ₀.value).alt) * ht

/-- **C18 on the WGS84 ellipsoid, arrival**: when the path to a waypoint has been covered, the actor is within fifteen metres of it, at its altitude. -/
theorem c18_wgs84_arrival_partial {k : ℝ} (hk : 0 < k) (σ₀ : St Geo) (hl : σ₀.locked = false) (v : ℝ) (hv : 0 < v) (pre : List Geo) (w : Geo) (post : List Geo)
    (hdeg : σ₀.value.rad = false) (hdegs : ∀ x ∈ pre ++ [w], x.rad = false) (hlat : Lat (pre.getLastD σ₀.value).ll) (hlatw : Lat w.ll)
    (hans : ∃ d β, distBearing k 1e-12 200 (pre.getLastD σ₀.value).ll w.ll = .ok (d, β))
    (hleg : v / 10 ^ 4 < (wgs84 k).dist (pre.getLastD σ₀.value).ll w.ll) (os : List (Op Geo)) (ho : ∀ o ∈ os, o.During)
    (he : v * ((under (geodetic (wgs84 k)) σ₀ v (pre ++ w :: post) os).now - σ₀.now) = pathLen (wgs84 k).dist σ₀.value.ll ((pre ++ [w]).map Geo.ll)) :
    ∃ X, (step (geodetic (wgs84 k)) (under (geodetic (wgs84 k)) σ₀ v (pre ++ w :: post) os) .read).2 = .loc X ∧ dist (ground X.ll) (ground w.ll) ≤ 14.01 ∧
      X.alt = w.alt := by
  have hK : ∀ {g w : Geo}, g.rad = false → w.rad = false → (geodetic (wgs84 k)).dist w g = (wgs84 k).dist g.ll w.ll := fun hg hw => by
    rw [← Geo.raw_eq hg, ← Geo.raw_eq hw]; rfl
  have hw : w.rad = false := hdegs w (by simp)
  have hlast : (pre.getLastD σ₀.value).rad = false := ok_last (ok := fun g : Geo => g.rad = false) hdeg fun x hx => hdegs x (by simp [hx])
  refine ⟨_, at_end (geodetic (wgs84 k)) (fun a b => wgs84_nonneg hk _ _) (by show (0 : ℝ) ≤ 1 / 10 ^ 4; positivity) σ₀ hl v hv pre w post
    (by rw [hK hlast hw]; show v * (1 / 10 ^ 4) < _; linarith) os ho (by rw [wgs84_len k hdeg hdegs]; exact he), ?_, ?_⟩
  · obtain ⟨-, h⟩ := wgs84_move hk hlast hw hlat hlatw hans zero_le_one
    rw [one_mul] at h
    have h1 := h.end
    obtain ⟨d, β, hans⟩ := hans
    obtain ⟨s, y, -, -, h2, h3, -⟩ := c71_inverse hk (by norm_num) hlat hlatw hans
    rw [(wgs84_dist hans).1] at h1
    have ha : a = 6378137 := rfl
    have hπ := pi_lt_d4
    have h4 : d * k ≤ 20100000 := by
      have := (abs_le.1 h3).2
      rw [ha] at h2
      norm_num at this
      linarith
    norm_num at h1 ⊢
    linarith
  · show (pre.getLastD σ₀.value).alt + (w.alt - (pre.getLastD σ₀.value).alt) * 1 = w.alt
    ring

/-! ### The jump -/

/-- How far east a destination is. -/
theorem arrive_east {cu su ca sa : ℝ} (A : Ang cu su ca sa) {α : ℝ} (hca : cos α = ca) (hsa : sin α = sa) (lat x1 σ new : ℝ) :
    ground (arrive (lat, 0) su cu x1 α σ new) 1 = a * (g2 sa σ * cos (cu * sa * bug (cu * sa) (1 - (cu * sa) ^ 2) x1 σ new) -
      g1 cu su ca σ * sin (cu * sa * bug (cu * sa) (1 - (cu * sa) ^ 2) x1 σ new)) := by
  have hz : su * cos σ + cu * sin σ * ca = g3 cu su ca σ := by unfold g3; ring
  have hρ : √((cu * sa) ^ 2 + (su * sin σ - cu * cos σ * ca) ^ 2) = √(1 - g3 cu su ca σ ^ 2) := by
    congr 1
    have := A.d3_sq σ
    have e : (su * sin σ - cu * cos σ * ca) ^ 2 = d3 cu su ca σ ^ 2 := by unfold d3; ring
    rw [e, this]; ring
  have hx : cu * cos σ - su * sin σ * ca = g1 cu su ca σ := by unfold g1; ring
  have hy : sin σ * sa = g2 sa σ := by unfold g2; ring
  have h1 := A.one σ
  have hlam := atan2_cos_sin (g2 sa σ) (g1 cu su ca σ)
  rw [show g1 cu su ca σ ^ 2 + g2 sa σ ^ 2 = 1 - g3 cu su ca σ ^ 2 by linarith] at hlam
  set ρ := √(1 - g3 cu su ca σ ^ 2) with hρd
  have hρ0 : 0 ≤ ρ := sqrt_nonneg _
  have hρsq : ρ ^ 2 = 1 - g3 cu su ca σ ^ 2 := sq_sqrt (by have := A.g3_le σ; linarith)
  set lam := atan2 (g2 sa σ) (g1 cu su ca σ) with hlamd
  set K := cu * sa * bug (cu * sa) (1 - (cu * sa) ^ 2) x1 σ new with hK
  have hP : arrive (lat, 0) su cu x1 α σ new = (degrees (atan2 (g3 cu su ca σ) ((1 - f) * ρ)), degrees (lam - K)) := by
    unfold arrive
    have h0 : radians 0 = 0 := by simp [radians]
    simp only [hca, hsa, hz, hρ, hx, hy, ← hlamd, h0, zero_add, hK]
    unfold bug
    congr 2
    ring
  rw [hP]
  obtain ⟨hL, hc, hs⟩ := dest_lat (z := g3 cu su ca σ) (ρ := ρ) (by linarith) hρ0 (degrees (lam - K))
  rw [ground_eq hL]
  simp only [hc, hs, rad_deg]
  show a * ρ * sin (lam - K) = _
  rw [sin_sub]
  linear_combination a * cos K * hlam.2 - a * sin K * hlam.1

/-- The wrong shift, for directions near the north east. -/
theorem shift_bd {S T new : ℝ} (h0 : 0 < S) (h1 : 0.49 ≤ S ^ 2) (h2 : S ^ 2 ≤ 0.51) (hT : 0 ≤ T) (hT' : T ≤ 1e-10) (hn : 0 ≤ new) (hn' : new ≤ 2e-10) :
    6.56e-7 ≤ S * bug S (1 - S ^ 2) 0 T new ∧ S * bug S (1 - S ^ 2) 0 T new ≤ 8e-7 := by
  have hcos : 0.9999 ≤ cos T := by
    have := one_sub_sq_div_two_le_cos (x := T)
    norm_num at hT' ⊢
    nlinarith
  have hcos1 := cos_le_one T
  have hSle : S ≤ 1 := by norm_num at h2; nlinarith
  have hC : 0.0004 ≤ bigC (1 - S ^ 2) ∧ bigC (1 - S ^ 2) ≤ 0.00044 := by
    unfold bigC f
    norm_num at h1 h2 ⊢
    constructor <;> nlinarith
  unfold bug
  simp only [mul_zero, zero_add]
  set c := bigC (1 - S ^ 2)
  have e : S * ((1 - c) * f * (new + c * S * (cos T + c * cos T * (-1 + 2 * cos T ^ 2)))) =
      (1 - c) * f * (S * new + c * S ^ 2 * (cos T * (1 + c * (2 * cos T ^ 2 - 1)))) := by ring
  rw [e]
  have hf : 0.003352 ≤ f ∧ f ≤ 0.003353 := by unfold f; norm_num
  obtain ⟨c1, c2⟩ := hC
  obtain ⟨f1, f2⟩ := hf
  have p1 : 0.9999 ≤ cos T * (1 + c * (2 * cos T ^ 2 - 1)) := by
    have : 0 ≤ c * (2 * cos T ^ 2 - 1) := mul_nonneg (by norm_num at c1; linarith) (by norm_num at hcos; nlinarith)
    norm_num at hcos ⊢
    nlinarith
  have p2 : cos T * (1 + c * (2 * cos T ^ 2 - 1)) ≤ 1.001 := by
    have h3 : 2 * cos T ^ 2 - 1 ≤ 1 := by nlinarith [neg_one_le_cos T]
    have : c * (2 * cos T ^ 2 - 1) ≤ 0.00044 * 1 := by
      have h4 : 0 ≤ 2 * cos T ^ 2 - 1 := by norm_num at hcos; nlinarith
      exact mul_le_mul c2 h3 h4 (by norm_num)
    have h5 : 0 ≤ 1 + c * (2 * cos T ^ 2 - 1) := by
      have h4 : 0 ≤ 2 * cos T ^ 2 - 1 := by norm_num at hcos; nlinarith
      have : 0 ≤ c * (2 * cos T ^ 2 - 1) := mul_nonneg (by norm_num at c1; linarith) h4
      linarith
    have := mul_le_mul hcos1 (show 1 + c * (2 * cos T ^ 2 - 1) ≤ 1.001 by norm_num at this ⊢; linarith) h5 zero_le_one
    linarith
  set P := cos T * (1 + c * (2 * cos T ^ 2 - 1))
  have q1 : 0.000196 * 0.9999 ≤ c * S ^ 2 * P := by
    have h : 0.0004 * 0.49 ≤ c * S ^ 2 := mul_le_mul c1 h1 (by norm_num) (by norm_num at c1; linarith)
    refine mul_le_mul ?_ p1 (by norm_num) (by norm_num at h; linarith)
    norm_num at h ⊢; linarith
  have q2 : c * S ^ 2 * P ≤ 0.00044 * 0.51 * 1.001 := by
    have h : c * S ^ 2 ≤ 0.00044 * 0.51 := mul_le_mul c2 h2 (sq_nonneg _) (by norm_num)
    exact mul_le_mul h p2 (by norm_num at p1; linarith) (by norm_num)
  have q3 : 0 ≤ S * new := mul_nonneg h0.le hn
  have q4 : S * new ≤ 1 * 2e-10 := mul_le_mul hSle hn' hn zero_le_one
  have r1 : 0.9995 * 0.003352 ≤ (1 - c) * f := mul_le_mul (by norm_num at c2 ⊢; linarith) f1 (by norm_num) (by norm_num at c2; linarith)
  have r2 : (1 - c) * f ≤ 1 * 0.003353 := mul_le_mul (by norm_num at c1; linarith) f2 (by norm_num at f1; linarith) zero_le_one
  constructor
  · have := mul_le_mul r1 (show 0.00019598 ≤ S * new + c * S ^ 2 * P by norm_num at q1 ⊢; linarith) (by norm_num) (by norm_num at r1; linarith)
    refine le_trans ?_ this
    norm_num
  · have := mul_le_mul r2 (show S * new + c * S ^ 2 * P ≤ 0.000226 by norm_num at q2 q4 ⊢; linarith) (by norm_num at q1; linarith) (by norm_num)
    refine this.trans ?_
    norm_num

theorem near_half {x g m : ℝ} (h : x * g = (1 - x) * m) (h0 : 0 ≤ x) (g1 : 0.993 ≤ g) (g2 : g ≤ 0.994) (m1 : 0.9998 ≤ m) (m2 : m ≤ 1) :
    0.49 ≤ x ∧ x ≤ 0.51 := by
  have a1 := mul_le_mul_of_nonneg_left g1 h0
  have a2 := mul_le_mul_of_nonneg_left g2 h0
  have a3 := mul_le_mul_of_nonneg_left m1 h0
  have a4 := mul_le_mul_of_nonneg_left m2 h0
  have e : (1 - x) * m = m - x * m := by ring
  rw [e] at h
  norm_num at *
  constructor <;> linarith

/-- The way from the origin to 45 degrees north and 90 degrees east starts near the north east. -/
theorem toward_far {k : ℝ} {d β : ℝ} (h : distBearing k 1e-12 200 (0, 0) (45, 90) = .ok (d, β)) :
    0 < cos (radians β) ∧ 0 < sin (radians β) ∧ 0.49 ≤ sin (radians β) ^ 2 ∧ sin (radians β) ^ 2 ≤ 0.51 := by
  unfold distBearing at h
  rw [if_neg (by norm_num)] at h
  simp only at h
  have hL : radians (90 - 0) = π / 2 := by unfold radians; ring
  rw [hL, reduced_zero] at h
  set u := reduced 45 with hu
  have hq : Lat (45, 90) := ⟨by norm_num, by norm_num⟩
  have hc45 : cos (radians 45) = √2 / 2 := by rw [rad45, cos_pi_div_four]
  have hs45 : sin (radians 45) = √2 / 2 := by rw [rad45, sin_pi_div_four]
  have hsu : sin u = (1 - f) * cos u := by
    have e1 := red_cos hq
    have e2 := red_sin hq
    simp only at e1 e2
    rw [hu, e1, e2, hc45, hs45]; ring
  have hcu : 0 < cos u := by
    have e1 := red_cos hq
    simp only at e1
    rw [hu, e1, hc45]; exact div_pos (by positivity) (om_pos _)
  cases hl : invLoop 0 u (π / 2) 1e-12 200 (π / 2) with
  | error e => rw [hl] at h; cases h
  | ok it =>
    rw [hl] at h
    simp only at h
    injection h with h
    obtain ⟨l, hs, hc⟩ := invLoop_step hl
    obtain ⟨ca, sa, x1, σ, G⟩ := invStep_good hs
    unfold finish at h
    simp only at h
    injection h with h1 h2
    have haz := azimuth G
    rw [h2] at haz
    rw [haz.1, haz.2]
    have hk1 : kk 0 u l ^ 2 < 1 := by
      have hK : kk 0 u l = cos σ := G.cosS
      rw [hK]; have := sin_sq_add_cos_sq σ; have := G.pos; nlinarith
    obtain ⟨it', hit', hnext, -⟩ := step_phi hk1 (π / 2)
    rw [hit'] at hs
    injection hs with hs
    rw [hs] at hnext
    have hP := (Phi_bds hk1).1
    rw [hnext] at hc
    have hll : |l - π / 2| ≤ 0.011 := by
      rw [abs_lt] at hc
      rw [abs_le] at hP ⊢
      norm_num at hc hP ⊢
      constructor <;> linarith [hc.1, hc.2, hP.1, hP.2]
    have hsl : 0.9999 ≤ sin l := by
      rw [← cos_sub_pi_div_two]
      have h3 := one_sub_sq_div_two_le_cos (x := l - π / 2)
      have h4 : (l - π / 2) ^ 2 ≤ 0.011 ^ 2 := by rw [← sq_abs]; exact pow_le_pow_left₀ (abs_nonneg _) hll 2
      norm_num at h4 ⊢
      linarith
    have heast := G.east
    have hnorth := G.north
    rw [sin_zero, cos_zero, zero_mul, zero_mul, sub_zero, one_mul] at hnorth
    have hpos := G.pos
    have hf : 0.003352 ≤ f ∧ f ≤ 0.003353 := by unfold f; norm_num
    have hca : 0 < ca := by
      have : 0 < sin σ * ca := by rw [← hnorth, hsu]; exact mul_pos one_sub_f_pos hcu
      exact pos_of_mul_pos_right this hpos.le
    have hsa : 0 < sa := by
      have : 0 < sin σ * sa := by rw [← heast]; exact mul_pos hcu (by norm_num at hsl; linarith)
      exact pos_of_mul_pos_right this hpos.le
    have hr : sa * (1 - f) = ca * sin l := by
      have e : sin σ * (sa * (1 - f)) = sin σ * (ca * sin l) := by
        rw [← mul_assoc, ← heast, ← mul_assoc, ← hnorth, hsu]; ring
      exact mul_left_cancel₀ hpos.ne' e
    have haz1 : ca ^ 2 + sa ^ 2 = 1 := by have := G.A.az; linarith
    have hsq : sa ^ 2 * (1 - f) ^ 2 = (1 - sa ^ 2) * sin l ^ 2 := by
      have : (sa * (1 - f)) ^ 2 = (ca * sin l) ^ 2 := by rw [hr]
      have hca2 : ca ^ 2 = 1 - sa ^ 2 := by linarith
      rw [mul_pow, mul_pow, hca2] at this
      exact this
    have hl2 : 0.9998 ≤ sin l ^ 2 ∧ sin l ^ 2 ≤ 1 := by
      have := sin_sq_le_one l
      exact ⟨by norm_num at hsl ⊢; nlinarith, this⟩
    have hf2 : 0.993 ≤ (1 - f) ^ 2 ∧ (1 - f) ^ 2 ≤ 0.994 := by unfold f; norm_num
    exact ⟨hca, hsa, near_half hsq (sq_nonneg _) hf2.1 hf2.2 hl2.1 hl2.2⟩

/-- Distances from the origin to a place a quarter turn away are found. -/
theorem far_found (k : ℝ) : ∃ d β, distBearing k 1e-12 200 (0, 0) (45, 90) = .ok (d, β) := by
  have hp : Lat (0, 0) := ⟨by norm_num, by norm_num⟩
  have hq : Lat (45, 90) := ⟨by norm_num, by norm_num⟩
  have e1 : ground (0, 0) 0 = a := by rw [ground_eq hp]; simp [radians, show reduced 0 = 0 by simp [reduced, radians]]
  have e2 : ground (45, 90) 0 = 0 := by
    have : radians 90 = π / 2 := by unfold radians; ring
    rw [ground_eq hq]; simp [this]
  refine c71_answers le_rfl (by norm_num) hp hq (fun h => ?_) ?_
  · have := congrArg (fun v : E3 => v 0) h
    simp only [e1, e2] at this
    exact a_pos.ne' this
  · have h := PiLp.norm_apply_le (ground (0, 0) - -ground (45, 90)) 0
    rw [PiLp.sub_apply, PiLp.neg_apply, e1, e2] at h
    rw [dist_eq_norm]
    refine le_trans ?_ h
    rw [norm_eq_abs]; unfold a; norm_num

/-- Going less than half a millimetre to the north east from the origin, one is put more than four metres to the west. -/
theorem small_step {k : ℝ} {β s : ℝ} (hs : 0 ≤ s * k) (hs' : s * k ≤ 0.0005) (hca : 0 < cos (radians β)) (h0 : 0 < sin (radians β))
    (h1 : 0.49 ≤ sin (radians β) ^ 2) (h2 : sin (radians β) ^ 2 ≤ 0.51) :
    ∃ r, pointFrom k 1e-12 200 (0, 0) β s = .ok r ∧ ground r 1 ≤ -4 := by
  have hst : start 0 (radians β) = (0, 1, 0) := by
    unfold start
    have h := atan2_polar (r := cos (radians β)) (θ := 0) hca (neg_lt_zero.mpr pi_pos) pi_pos.le
    simp only [sin_zero, cos_zero, mul_zero, mul_one] at h
    have h0 : radians 0 = 0 := by simp [radians]
    simp [h0, h]
  have A : Ang 1 0 (cos (radians β)) (sin (radians β)) := by have := ang 0 (radians β); simpa using this
  have hy := uSq_bd A.q_bd.1 A.q_bd.2
  have hA := A_bd hy.1 hy.2
  have hB := B_bd hy.1 hy.2
  have hb : 6356752 ≤ b := by unfold b a f; norm_num
  set y := uSq (1 - (1 * sin (radians β)) ^ 2) with hyd
  set σ0 := s * k / (b * bigA y) with hσ0
  have hbA : 6356752 ≤ b * bigA y := by nlinarith [hA.1]
  have hT : 0 ≤ σ0 := div_nonneg hs (by linarith)
  have hT' : σ0 ≤ 1e-10 := by
    rw [hσ0, div_le_iff₀ (by linarith)]
    norm_num at hs' ⊢
    linarith
  have hcon := contraction hB.1 hB.2 0 σ0 0
  have hz : deltaSigma (bigB y) (sin 0) (cos 0) (cos (2 * 0 + 0)) = 0 := by simp [deltaSigma]
  rw [hz, sub_zero, sub_zero, abs_of_nonneg hT] at hcon
  set δ := deltaSigma (bigB y) (sin σ0) (cos σ0) (cos (2 * 0 + σ0)) with hδ
  have hloop : dirLoop σ0 (bigB y) 0 1e-12 200 σ0 = .ok (σ0, σ0 + δ) := by
    unfold dirLoop
    simp only
    rw [if_pos, hδ]
    rw [← hδ, show σ0 - (σ0 + δ) = -δ by ring, abs_neg]
    refine lt_of_le_of_lt hcon ?_
    norm_num at hT' ⊢
    linarith
  refine ⟨arrive (0, 0) 0 1 0 (radians β) σ0 (σ0 + δ), ?_, ?_⟩
  · unfold pointFrom
    simp only [hst]
    rw [← hyd, ← hσ0, hloop]
  · have hd := abs_le.1 hcon
    obtain ⟨k1, k2⟩ := shift_bd (S := sin (radians β)) (T := σ0) (new := σ0 + δ) h0 h1 h2 hT hT' (by norm_num at hd; linarith [hd.1]) (by norm_num at hd hT' ⊢; linarith [hd.2])
    have he := arrive_east A rfl rfl 0 0 σ0 (σ0 + δ)
    rw [one_mul] at he
    rw [he]
    set K := sin (radians β) * bug (sin (radians β)) (1 - sin (radians β) ^ 2) 0 σ0 (σ0 + δ)
    have hsin : 6.5e-7 ≤ sin K := by
      have h3 : 0 < K := lt_of_lt_of_le (by norm_num) k1
      have h := sin_gt_sub_cube h3
      have h4 : K ^ 3 ≤ 1 ^ 2 * K * 1e-7 := by
        have h5 : K ^ 2 ≤ 1e-7 := by norm_num at k2 ⊢; nlinarith
        nlinarith
      norm_num at k1 k2 h4 h ⊢
      linarith
    have hg1 : 0.9999 ≤ g1 1 0 (cos (radians β)) σ0 := by
      unfold g1
      have := one_sub_sq_div_two_le_cos (x := σ0)
      norm_num at hT' ⊢
      nlinarith
    have hg2 : g2 (sin (radians β)) σ0 * cos K ≤ 1e-10 := by
      unfold g2
      have t1 : sin (radians β) * sin σ0 ≤ 1 * 1e-10 :=
        mul_le_mul (sin_le_one _) ((sin_le hT).trans hT') (sin_nonneg_of_nonneg_of_le_pi hT (by have := pi_gt_three; norm_num at hT'; linarith)) zero_le_one
      have t2 : 0 ≤ sin (radians β) * sin σ0 := mul_nonneg h0.le (sin_nonneg_of_nonneg_of_le_pi hT (by have := pi_gt_three; norm_num at hT'; linarith))
      have := mul_le_mul_of_nonneg_left (cos_le_one K) t2
      linarith
    have hm : 0.9999 * 6.5e-7 ≤ g1 1 0 (cos (radians β)) σ0 * sin K := mul_le_mul hg1 hsin (by norm_num) (by norm_num at hg1; linarith)
    have ha : a = 6378137 := rfl
    rw [ha]
    norm_num at hm hg2 ⊢
    linarith

/-- The distance from the origin to that place. -/
theorem far_dist {k : ℝ} (hk : 0 < k) : 6000000 / k ≤ (wgs84 k).dist (0, 0) (45, 90) := by
  have hp : Lat (0, 0) := ⟨by norm_num, by norm_num⟩
  have hq : Lat (45, 90) := ⟨by norm_num, by norm_num⟩
  obtain ⟨d, β, h⟩ := far_found k
  rw [(wgs84_dist h).1, div_le_iff₀ hk]
  obtain ⟨s, y, ⟨γ, T, v, G, g0, -, t, ht, hy⟩, h0, -, h1, h2⟩ := c71_inverse hk (by norm_num) hp hq h
  have hc := G.chord 0 t
  have hl0 : length v 0 = 0 := by simp [length]
  rw [hl0, zero_sub, abs_neg, ht, abs_of_nonneg h0, g0, hy] at hc
  have htri := dist_triangle (ground (0, 0)) y (ground (45, 90))
  have e1 : ground (0, 0) 0 = a := by rw [ground_eq hp]; simp [radians, show reduced 0 = 0 by simp [reduced, radians]]
  have e2 : ground (45, 90) 0 = 0 := by
    have : radians 90 = π / 2 := by unfold radians; ring
    rw [ground_eq hq]; simp [this]
  have hfar : a ≤ dist (ground (0, 0)) (ground (45, 90)) := by
    have h := PiLp.norm_apply_le (ground (0, 0) - ground (45, 90)) 0
    rw [PiLp.sub_apply, e1, e2, sub_zero, norm_eq_abs, abs_of_pos a_pos, ← dist_eq_norm] at h
    exact h
  have ha : a = 6378137 := rfl
  rw [ha] at hfar h2
  have := (abs_le.1 h1).1
  norm_num at this h2
  linarith

/-- **C18 fails on the WGS84 ellipsoid.** An actor that sets out from the origin towards 45 degrees north and 90 degrees east is read more than four metres
west of where it started, while what it has covered at its speed is less than half a millimetre, however fast or slow it is. -/
theorem c18_wgs84_jump {k : ℝ} (hk : 0 < k) (σ₀ : St Geo) (hl : σ₀.locked = false) (v : ℝ) (hv : 0 < v) (w : Geo) (ws : List Geo)
    (hdeg : σ₀.value.rad = false) (hdegw : w.rad = false) (h0 : σ₀.value.ll = (0, 0)) (hw : w.ll = (45, 90)) (os : List (Op Geo)) (ho : ∀ o ∈ os, o.During)
    (e : ℝ) (he : e = (under (geodetic (wgs84 k)) σ₀ v (w :: ws) os).now - σ₀.now) (hpos : 0 < e) (hsmall : v * e * k ≤ 0.0005) :
    ∃ X, (step (geodetic (wgs84 k)) (under (geodetic (wgs84 k)) σ₀ v (w :: ws) os) .read).2 = .loc X ∧ ground X.ll 1 ≤ -4 ∧
      4 ≤ dist (ground σ₀.value.ll) (ground X.ll) := by
  have hd : (geodetic (wgs84 k)).dist w σ₀.value = (wgs84 k).dist (0, 0) (45, 90) := by
    rw [← h0, ← hw, ← Geo.raw_eq hdeg, ← Geo.raw_eq hdegw]; rfl
  have hfar := far_dist hk
  set D := (wgs84 k).dist (0, 0) (45, 90) with hD
  have hDk : 6000000 ≤ D * k := by rwa [div_le_iff₀ hk] at hfar
  have hDpos : 0 < D := lt_of_lt_of_le (by positivity) hfar
  have hve : v * e ≤ D := by
    have : v * e * k ≤ D * k := by norm_num at hsmall; linarith
    exact le_of_mul_le_mul_right this hk
  have hread := onPath_eq (K := geodetic (wgs84 k)) (t0 := σ₀.now) (v := v) (p := σ₀.value) (σ := under (geodetic (wgs84 k)) σ₀ v (w :: ws) os)
    (by linarith) ⟨σ₀.now, v, w :: ws, some (legs (geodetic (wgs84 k)) v σ₀.value (w :: ws))⟩ [] w ws
    (by
      rw [← he]
      have : (geodetic (wgs84 k)).len σ₀.value [w] = D := by simp only [Kind.len, pathLen, hd, add_zero]
      rw [List.nil_append, this]
      have h1 : e ≤ D / v := by rw [le_div_iff₀ hv]; linarith
      have h2 : (0 : ℝ) ≤ (geodetic (wgs84 k)).tol := by show (0 : ℝ) ≤ 1 / 10 ^ 4; positivity
      linarith)
    (fun q r hq hc => by simp at hc; exact absurd hc.1 hq)
    (by rw [List.getLastD_nil, hd]; exact (div_pos hDpos hv).ne')
  rw [← he, List.nil_append, List.getLastD_nil, hd] at hread
  have hlen0 : (geodetic (wgs84 k)).len σ₀.value [] = 0 := rfl
  rw [hlen0, zero_div, sub_zero] at hread
  obtain ⟨d, β, hdb⟩ := far_found k
  obtain ⟨b1, b2, b3, b4⟩ := toward_far hdb
  have hs : 0 ≤ v * e * k := by positivity
  obtain ⟨r, hr, hr4⟩ := small_step hs hsmall b1 b2 b3 b4
  have hX : ((geodetic (wgs84 k)).move σ₀.value w (e / (D / v))).ll = r := by
    rw [Geo.ll, if_neg (by simp [geodetic])]
    show ((wgs84 k).point σ₀.value.raw ((wgs84 k).bearing σ₀.value.raw w.raw) (e / (D / v) * (wgs84 k).dist σ₀.value.raw w.raw)) = r
    rw [Geo.raw_eq hdeg, Geo.raw_eq hdegw, h0, hw, ← hD, (wgs84_dist hdb).2]
    have : e / (D / v) * D = v * e := by field_simp
    rw [this]
    simp [wgs84, hr]
  refine ⟨_, (read_eq _ σ₀ hl v hv _ os ho).trans hread, ?_, ?_⟩
  · rw [hX]; exact hr4
  · rw [hX, h0]
    have e1 : ground (0, 0) 1 = 0 := by
      rw [ground_eq (p := (0, 0)) ⟨by norm_num, by norm_num⟩]; simp [radians]
    have h := PiLp.norm_apply_le (ground (0, 0) - ground r) 1
    rw [PiLp.sub_apply, e1, norm_eq_abs, zero_sub, abs_neg, ← dist_eq_norm] at h
    have := neg_le_abs (ground r 1)
    linarith

/-! ### Examples -/

/-- At rest at the origin. -/
noncomputable def harbour : St Geo := ⟨0, ⟨0, 0, 0, false⟩, none, false⟩

/-- 45 degrees north, 90 degrees east, at an altitude of 100. -/
noncomputable def island : Geo := ⟨45, 90, 100, false⟩

theorem harbour_ll : harbour.value.ll = (0, 0) := by simp [harbour, Geo.ll]
theorem island_ll : island.ll = (45, 90) := by simp [island, Geo.ll]

theorem sail_now (k v t : ℝ) (hv : 0 < v) (ht : 0 ≤ t) : (under (geodetic (wgs84 k)) harbour v [island] [.advance t]).now = t := by
  have h := (under_moving (geodetic (wgs84 k)) harbour rfl v hv [island] [] (by simp)).act
  have h0 : (under (geodetic (wgs84 k)) harbour v [island] []).now = 0 := by
    simp only [under, exec, step]
    have hne : ¬(v = 0 ∧ [island] ≠ []) := fun hc => hv.ne' hc.1
    simp [harbour, Path.read, setup, onPath, hv.ne']
  have e : under (geodetic (wgs84 k)) harbour v [island] [.advance t] = (step (geodetic (wgs84 k)) (under (geodetic (wgs84 k)) harbour v [island] []) (.advance t)).1 := rfl
  rw [e, step_advance _ _ _ (by rw [h0]; exact ht)]

/-- After a thousand kilometres, the actor is within fifteen metres of the right place. -/
example : ∃ X, (step (geodetic (wgs84 1000)) (under (geodetic (wgs84 1000)) harbour 1 [island] [.advance 1000]) .read).2 = .loc X ∧
    Towards (ground (0, 0)) (ground (45, 90)) ((wgs84 1000).dist (0, 0) (45, 90) * 1000) (1000 * 1000) (ground X.ll) (14.0001 + 5e-11 * (1000 * 1000)) := by
  have hnow := sail_now 1000 1 1000 one_pos (by norm_num)
  have hd := far_dist (k := 1000) (by norm_num)
  norm_num at hd
  obtain ⟨X, pre, w, post, s, h1, h2, h3, -, -, -, h4, -⟩ := c18_wgs84_partial (k := 1000) (by norm_num) harbour rfl 1 one_pos island [] rfl
    (by simp [island]) (by rw [harbour_ll]; exact ⟨by norm_num, by norm_num⟩) (by simp only [List.mem_singleton, forall_eq, island_ll]; exact ⟨by norm_num, by norm_num⟩)
    (fun pre w post h => by
      obtain ⟨rfl, rfl, rfl⟩ : pre = [] ∧ w = island ∧ post = [] := by
        rcases pre with _ | ⟨x, _ | ⟨y, pre⟩⟩ <;> simp_all
      rw [List.getLastD_nil, harbour_ll, island_ll]; exact far_found 1000)
    (by rw [harbour_ll, island_ll]; linarith) [.advance 1000] (by simp [Op.During]) 1000 (by rw [hnow]; simp [harbour]) (by norm_num)
    (by simp only [List.map_cons, List.map_nil, pathLen, harbour_ll, island_ll]; linarith)
  obtain ⟨rfl, rfl, rfl⟩ : pre = [] ∧ w = island ∧ post = [] := by
    rcases pre with _ | ⟨x, _ | ⟨y, pre⟩⟩ <;> simp_all
  simp only [List.map_nil, pathLen, mul_one, one_mul, sub_zero] at h3
  subst h3
  rw [List.getLastD_nil, harbour_ll, island_ll] at h4
  exact ⟨X, h1, h4⟩

/-- After a ten thousandth of a millimetre it is four metres off. -/
example : ∃ X, (step (geodetic (wgs84 1)) (under (geodetic (wgs84 1)) harbour 1 [island] [.advance 1e-7]) .read).2 = .loc X ∧
    4 ≤ dist (ground (0, 0)) (ground X.ll) := by
  have hnow := sail_now 1 1 1e-7 one_pos (by norm_num)
  obtain ⟨X, h1, -, h2⟩ := c18_wgs84_jump one_pos harbour rfl 1 one_pos island [] rfl rfl harbour_ll island_ll [.advance 1e-7] (by simp [Op.During]) 1e-7
    (by rw [hnow]; simp [harbour]) (by norm_num) (by norm_num)
  rw [harbour_ll] at h2
  exact ⟨X, h1, h2⟩

/-- It arrives. -/
example : ∃ X, (step (geodetic (wgs84 1)) (under (geodetic (wgs84 1)) harbour 1 [island] [.advance ((wgs84 1).dist (0, 0) (45, 90))]) .read).2 = .loc X ∧
    dist (ground X.ll) (ground (45, 90)) ≤ 14.01 ∧ X.alt = 100 := by
  have hd := far_dist (k := 1) one_pos
  norm_num at hd
  have hnow := sail_now 1 1 ((wgs84 1).dist (0, 0) (45, 90)) one_pos (by linarith)
  obtain ⟨X, h1, h2, h3⟩ := c18_wgs84_arrival_partial one_pos harbour rfl 1 one_pos [] island [] rfl (by simp [island])
    (by rw [List.getLastD_nil, harbour_ll]; exact ⟨by norm_num, by norm_num⟩) (by rw [island_ll]; exact ⟨by norm_num, by norm_num⟩)
    (by rw [List.getLastD_nil, harbour_ll, island_ll]; exact far_found 1) (by rw [List.getLastD_nil, harbour_ll, island_ll]; norm_num; linarith)
    [.advance ((wgs84 1).dist (0, 0) (45, 90))] (by simp [Op.During])
    (by rw [List.nil_append, hnow]; simp [harbour_ll, island_ll, pathLen]; simp [harbour])
  rw [island_ll] at h2
  exact ⟨X, h1, h2, h3⟩

end Verif.Geod
