import Verif.Subdiv.Model
import Verif.Geod.Motion

/-!
# Numerical intersections on the WGS84 ellipsoid

Source: `/repo/src/upstage_des/motion/geodetic_model.py` 19-95, with `WGS84` as the stage model and `get_intersection_locations` as the
intersection model. Real numbers instead of floats; `k` and `ka` are the metres in a distance unit and in an altitude unit of the stage.
-/

namespace Verif.Subdiv.Wgs84

open Verif.Path Verif.Geod
open Verif.Globe (LL)

open Classical in
/-- `WGS84` as the search for crossings uses it (intersections.py 45, 54-60, 104-106), with the sensor at `c` and the radius in metres. A distance that
cannot be computed raises there; zero stands for that (the path is then too short to be sampled: another exception). -/
noncomputable def ellipsoid (c : Lla) (radius : ℝ) : Crossing.Earth ℝ Lla where
  dist x y := (wgs84 1).dist x.1 y.1
  samples x y n := match ecefAndGeoLinspace x.1 y.1 x.2 y.2 n with
    | .ok r => r.2
    | .error _ => [x]
  inside x := decide (euclid (Wgs.lla2ecef x.1 x.2) (Wgs.lla2ecef c.1 c.2) ≤ radius)
  raises x y n := match ecefAndGeoLinspace x.1 y.1 x.2 y.2 n with
    | .ok _ => false
    | .error _ => true

/-- `loc - start` (geodetic_model.py 66, 89; data_types.py 469-490), which may raise. -/
noncomputable def apart (k : ℝ) (g h : Geo) : Except Crossing.Err ℝ :=
  match Geod.distance k 1e-12 200 (g.toDegrees.lat, g.toDegrees.lon) (h.toDegrees.lat, h.toDegrees.lon) with
  | .ok d => .ok d
  | .error _ => .error .python

/-- The loop (geodetic_model.py 85-93). -/
noncomputable def hits (k ka speed : ℝ) (start : Geo) : List (Crossing.Cond Lla) → Except Crossing.Err (List Hit)
  | [] => .ok []
  | c :: cs =>
    let loc : Geo := ⟨c.b.1.1, c.b.1.2, c.b.2 / ka, false⟩
    match apart k loc start with
    | .error e => .error e
    | .ok d =>
      match hits k ka speed start cs with
      | .error e => .error e
      | .ok l => .ok (⟨c.kind, loc, d / speed⟩ :: l)

open Classical in
/-- `subdivide_intersection` (geodetic_model.py 36-95); a speed of zero raises. -/
noncomputable def subdivide (k ka : ℝ) (start finish : Geo) (speed : ℝ) (sensor : Geo) (radius : ℝ) : Except Crossing.Err Answer :=
  match apart k finish start with
  | .error e => .error e
  | .ok pathDist =>
    if speed = 0 then .error .python
    else
      match Crossing.intersections (ellipsoid (toTuple ka sensor) (radius * k)) (toTuple ka start) (toTuple ka finish) 9260 [10, 20] with
      | .error e => .error e
      | .ok l =>
        if l = [] then .ok .bad
        else
          match hits k ka speed start l with
          | .error e => .error e
          | .ok r => .ok (.hits r (pathDist / speed))

end Verif.Subdiv.Wgs84
