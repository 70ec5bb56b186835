import Verif.Crossing.Two
import Verif.Globe.Motion
import Verif.Globe.Sample

/-!
# Numerical intersections on the spherical earth

Source: `/repo/src/upstage_des/motion/geodetic_model.py` 19-95, with `Spherical` as the stage model and `get_intersection_locations` as the
intersection model. Real numbers instead of floats; `k` and `ka` are the metres in a distance unit and in an altitude unit of the stage.
-/

namespace Verif.Subdiv

open Verif.Globe Verif.Path

/-- Latitude and longitude in degrees, altitude in metres. -/
abbrev Lla := LL × ℝ

open Classical in
/-- `Spherical` as the search for crossings uses it (intersections.py 45, 54-60, 104-106), with the sensor at `c` and the radius in metres. The samples
are those of `ecef_and_geo_linspace`, given in both kinds of coordinates. -/
noncomputable def globe (c : Lla) (radius : ℝ) : Crossing.Earth ℝ Lla where
  dist a b := distance 1 a.1 b.1
  samples a b n := match ecefAndGeoLinspace a.1 b.1 a.2 b.2 n with
    | .ok r => r.2
    | .error _ => [a]
  inside x := decide (euclid (lla2ecef x.1 x.2) (lla2ecef c.1 c.2) ≤ radius)
  raises a b n := match ecefAndGeoLinspace a.1 b.1 a.2 b.2 n with
    | .ok _ => false
    | .error _ => true

/-- `_to_tuple` (geodetic_model.py 19-33). -/
noncomputable def toTuple (ka : ℝ) (g : Geo) : Lla := ((g.toDegrees.lat, g.toDegrees.lon), g.toDegrees.alt * ka)

/-- An element of the three lists that are returned (geodetic_model.py 81-95): they have the same length. -/
structure Hit where
  kind : Crossing.Kind
  loc : Geo
  time : ℝ

/-- What is returned: `[], [], ["Bad", "Bad"], 0.0` (geodetic_model.py 77-78), or the lists and `path_time`. -/
inductive Answer where
  | bad
  | hits (l : List Hit) (pathTime : ℝ)

/-- One round of the loop (geodetic_model.py 85-93). -/
noncomputable def hit (k ka speed : ℝ) (start : Geo) (c : Crossing.Cond Lla) : Hit :=
  let loc : Geo := ⟨c.b.1.1, c.b.1.2, c.b.2 / ka, false⟩
  ⟨c.kind, loc, Geo.sub (spherical k) loc start / speed⟩

open Classical in
/-- `subdivide_intersection` (geodetic_model.py 36-95); a speed of zero raises. -/
noncomputable def subdivide (k ka : ℝ) (start finish : Geo) (speed : ℝ) (sensor : Geo) (radius : ℝ) : Except Crossing.Err Answer :=
  let pathDist := Geo.sub (spherical k) finish start
  if speed = 0 then .error .python
  else
    let pathTime := pathDist / speed
    match Crossing.intersections (globe (toTuple ka sensor) (radius * k)) (toTuple ka start) (toTuple ka finish) 9260 [10, 20] with
    | .error e => .error e
    | .ok l => if l = [] then .ok .bad else .ok (.hits (l.map (hit k ka speed start)) pathTime)

end Verif.Subdiv
