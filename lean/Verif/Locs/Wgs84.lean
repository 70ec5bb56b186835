import Verif.Locs.Props
import Verif.Geod.Motion
import Verif.Subdiv.Wgs

/-! # C64 on the WGS84 ellipsoid: straight lines through space -/

namespace Verif.Locs

open Real
open Verif.Path (Geo euclid euclid_eq_dist)
open Verif.Globe (LL E3 place vec OffPole)
open Verif.Geod (ground Lat distBearing)
open Verif.Subdiv.Wgs84 (above)

/-- `straight_line_distance` (data_types.py 429-453) with `WGS84` as the stage model (conversions.py 49-83), with `_vector_subtract` and `_vector_norm` (math_utils.py 13-27,
60-70). `k` metres in a unit of distance, `m` metres in a unit of altitude. -/
noncomputable def straightLine84 (k m : ℝ) (a b : Geo) : ℝ :=
  let e1 := Wgs.lla2ecef (latlon a) (a.alt * m)
  let e2 := Wgs.lla2ecef (latlon b) (b.alt * m)
  √((e2.1 - e1.1) ^ 2 + (e2.2.1 - e1.2.1) ^ 2 + (e2.2.2 - e1.2.2) ^ 2) / k

/-- Where a location is in space: its altitude above the ellipsoid, along the perpendicular. -/
noncomputable def space (m : ℝ) (x : Geo) : E3 := ground x.ll + (x.alt * m) • place x.ll

theorem straight84_dist (k m : ℝ) (a b : Geo) : straightLine84 k m a b = dist (space m a) (space m b) / k := by
  unfold straightLine84 latlon space ground
  simp only [← deg_ll]
  rw [← Wgs.c70_vertical, ← Wgs.c70_vertical]
  have := euclid_eq_dist (Wgs.lla2ecef a.ll (a.alt * m)) (Wgs.lla2ecef b.ll (b.alt * m))
  unfold vec
  rw [← this]
  unfold euclid
  congr 2
  ring

theorem vec_inj {x y : ℝ × ℝ × ℝ} (h : vec x = vec y) : x = y := by
  unfold vec at h
  have h0 := congrArg (fun z : E3 => z 0) h
  have h1 := congrArg (fun z : E3 => z 1) h
  have h2 := congrArg (fun z : E3 => z 2) h
  simp at h0 h1 h2
  exact Prod.ext h0 (Prod.ext h1 h2)

/-- **C64 on the WGS84 ellipsoid**: `straight_line_distance` is the length of the straight line between the points in space, each its altitude above the
ellipsoid (C70): a metric, zero only for the same place and altitude, and at altitude zero not longer than the way over ground, up to a millimetre, if
that has a length. -/
theorem c64_straight_line_wgs84 (k m : ℝ) (hk : 0 < k) (a b d : Geo) :
    straightLine84 k m a b * k = dist (space m a) (space m b) ∧
    straightLine84 k m a b = straightLine84 k m b a ∧ straightLine84 k m a d ≤ straightLine84 k m a b + straightLine84 k m b d ∧
      (OffPole a.ll → OffPole b.ll → (-180 < a.ll.2 ∧ a.ll.2 ≤ 180) → (-180 < b.ll.2 ∧ b.ll.2 ≤ 180) → -6200000 ≤ a.alt * m → -6200000 ≤ b.alt * m →
        (straightLine84 k m a b = 0 ↔ a.ll = b.ll ∧ a.alt * m = b.alt * m)) ∧
      (a.alt = 0 → b.alt = 0 → Lat a.ll → Lat b.ll → ∀ D β, distBearing k 1e-12 200 a.ll b.ll = .ok (D, β) → straightLine84 k m a b * k ≤ D * k + 0.00093) := by
  have h1 : ∀ a b : Geo, straightLine84 k m a b * k = dist (space m a) (space m b) := fun a b => by rw [straight84_dist, div_mul_cancel₀ _ hk.ne']
  refine ⟨h1 a b, by rw [straight84_dist, straight84_dist, dist_comm], ?_, fun pa pb la lb ha hb => ⟨fun h => ?_, fun ⟨h, h'⟩ => ?_⟩, fun ha hb la lb D β hd => ?_⟩
  · rw [straight84_dist, straight84_dist, straight84_dist, ← add_div]; gcongr; exact dist_triangle _ _ _
  · have h2 := h1 a b
    rw [h, zero_mul] at h2
    have h3 := dist_eq_zero.1 h2.symm
    unfold space ground at h3
    rw [← Wgs.c70_vertical, ← Wgs.c70_vertical] at h3
    have h4 := vec_inj h3
    have h5 := Wgs.c70_back a.ll (a.alt * m) pa la ha
    rw [h4, Wgs.c70_back b.ll (b.alt * m) pb lb hb] at h5
    simp only [Except.ok.injEq, Prod.mk.injEq] at h5
    exact ⟨h5.1.symm, h5.2.symm⟩
  · rw [straight84_dist, space, space, h, h', dist_self, zero_div]
  · rw [h1]
    unfold space
    rw [ha, hb, zero_mul, zero_smul, zero_smul, add_zero, add_zero]
    obtain ⟨r, -, -, γ, T, v, G, g0, ⟨t, g1, g2⟩, -⟩ := Geod.leg hk la lb hd le_rfl
    have h2 := G.chord 0 t
    have h3 : Geod.length v 0 = 0 := by simp [Geod.length]
    rw [h3, zero_sub, abs_neg, g0] at h2
    have h4 := dist_triangle (ground a.ll) (γ t) (ground b.ll)
    have h5 : 0 ≤ D * k := mul_nonneg (Geod.distBearing_nonneg hk hd) hk.le
    have h6 : |Geod.length v t| ≤ D * k + 0.00011 := by
      rw [abs_le] at g1 ⊢
      norm_num at g1 ⊢
      constructor <;> linarith [g1.1, g1.2]
    norm_num at g2 h6 ⊢
    linarith

/-- A sensor on a mast of 30 m and a ship right below: 30 m apart. -/
example : straightLine84 1 1 ⟨50, 7, 30, false⟩ ⟨50, 7, 0, false⟩ = 30 := by
  have h := (c64_straight_line_wgs84 1 1 one_pos ⟨50, 7, 30, false⟩ ⟨50, 7, 0, false⟩ ⟨50, 7, 0, false⟩).1
  rw [mul_one] at h
  rw [h, space, space]
  simp only [Geo.ll, Bool.false_eq_true, if_false, mul_one, zero_smul, add_zero]
  rw [dist_eq_norm, add_sub_cancel_left, norm_smul, Globe.place_norm, mul_one, Real.norm_eq_abs, abs_of_pos (by norm_num)]

/-- Different places are apart. -/
example : straightLine84 1 1 ⟨50, 7, 30, false⟩ ⟨50, 8, 30, false⟩ ≠ 0 := by
  intro h
  have := ((c64_straight_line_wgs84 1 1 one_pos ⟨50, 7, 30, false⟩ ⟨50, 8, 30, false⟩ ⟨50, 7, 0, false⟩).2.2.2.1 (by norm_num [OffPole, Geo.ll]) (by norm_num [OffPole, Geo.ll])
    (by norm_num [Geo.ll]) (by norm_num [Geo.ll]) (by norm_num) (by norm_num)).1 h
  norm_num [Geo.ll] at this

end Verif.Locs
