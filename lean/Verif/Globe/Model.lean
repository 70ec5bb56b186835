import Mathlib.Analysis.SpecialFunctions.Complex.Arg
import Mathlib.Analysis.SpecialFunctions.Trigonometric.Inverse
import Mathlib.Analysis.SpecialFunctions.Trigonometric.Arctan

/-!
# The spherical earth model

Source: `/repo/src/upstage_des/geography/spherical.py` and the class `SphericalConversions` of `conversions.py`.

Floating-point numbers are real numbers and the functions of `math` are the real functions. `units` is given by `k`, the metres of one
unit: `unit_convert(x, "m", units) = x / k` and `unit_convert(x, units, "m") = x * k` (C48 has the table). Points are tuples of latitude
and longitude in degrees; `_convert_geo` (geo_types.py 24-35) leaves tuples as they are.
-/

namespace Verif.Globe

open Real

/-- `LAT_LON` (geo_types.py 14). -/
abbrev LL := ℝ × ℝ

/-- A Python exception. -/
inductive Err where
  | zeroDivision
  | value
deriving DecidableEq, Repr

/-- `spherical_radius` (conversions.py 13), in metres. -/
noncomputable def R : ℝ := 6378137

/-- `math.radians`. -/
noncomputable def radians (x : ℝ) : ℝ := x * (π / 180)

/-- `math.degrees`. -/
noncomputable def degrees (x : ℝ) : ℝ := x * (180 / π)

/-- `math.atan2(y, x)`, with `atan2(0, 0) = 0`. -/
noncomputable def atan2 (y x : ℝ) : ℝ := Complex.arg ⟨x, y⟩

/-- Python's `x % m` for positive `m`. -/
noncomputable def pmod (x m : ℝ) : ℝ := x - m * ⌊x / m⌋

/-- `_bearing` (spherical.py 22-35). -/
noncomputable def bearingRad (lat1 lon1 lat2 lon2 : ℝ) : ℝ :=
  let ans := degrees (atan2 (sin (lon2 - lon1) * cos lat2) (cos lat1 * sin lat2 - sin lat1 * cos lat2 * cos (lon2 - lon1)))
  pmod ans 360

/-- `bearing` (spherical.py 37-57). -/
noncomputable def bearing (p q : LL) : ℝ := bearingRad (radians p.1) (radians p.2) (radians q.1) (radians q.2)

/-- The haversine `a` (spherical.py 302). -/
noncomputable def hav (lat1 lon1 lat2 lon2 : ℝ) : ℝ :=
  sin (0.5 * (lat2 - lat1)) ^ 2 + cos lat1 * cos lat2 * sin (0.5 * (lon2 - lon1)) ^ 2

/-- `distance` (spherical.py 279-305). -/
noncomputable def distance (k : ℝ) (p q : LL) : ℝ :=
  let a := hav (radians p.1) (radians p.2) (radians q.1) (radians q.2)
  R * 2 * atan2 (√a) (√(1 - a)) / k

/-- `distance_and_bearing` (spherical.py 307-326). -/
noncomputable def distanceAndBearing (k : ℝ) (p q : LL) : ℝ × ℝ := (distance k p q, bearing p q)

/-- The argument of `asin` in `point_from_bearing_dist` (spherical.py 355-356). -/
noncomputable def sinLat (lat1 δ β : ℝ) : ℝ := sin lat1 * cos δ + cos lat1 * sin δ * cos β

/-- `point_from_bearing_dist` (spherical.py 328-365). -/
noncomputable def pointFrom (k : ℝ) (p : LL) (bearing distance : ℝ) : LL :=
  let β := radians bearing
  let dist := distance * k
  let lat1 := radians p.1
  let lon1 := radians p.2
  let lat2 := arcsin (sinLat lat1 (dist / R) β)
  let lon2 := lon1 + atan2 (sin β * sin (dist / R) * cos lat1) (cos (dist / R) - sin lat1 * sin lat2)
  (degrees lat2, degrees lon2)

/-- `_point_along` (spherical.py 59-89); dividing by `sin(d) = 0` raises. -/
noncomputable def pointAlongRad (d f lat1 lon1 lat2 lon2 : ℝ) : Except Err LL :=
  if sin d = 0 then .error .zeroDivision
  else
    let a := sin ((1 - f) * d) / sin d
    let b := sin (f * d) / sin d
    let x := a * cos lat1 * cos lon1 + b * cos lat2 * cos lon2
    let y := a * cos lat1 * sin lon1 + b * cos lat2 * sin lon2
    let z := a * sin lat1 + b * sin lat2
    .ok (degrees (atan2 z (√(x ^ 2 + y ^ 2))), degrees (atan2 y x))

/-- `point_along` (spherical.py 91-114). -/
noncomputable def pointAlong (p q : LL) (f : ℝ) : Except Err LL :=
  pointAlongRad (distance 1 p q / R) f (radians p.1) (radians p.2) (radians q.1) (radians q.2)

/-- `geo_circle` (spherical.py 240-277); `num_points = 0` divides by zero. -/
noncomputable def geoCircle (k : ℝ) (c : LL) (radius : ℝ) (n : ℕ) : Except Err (List LL) :=
  if n = 0 then .error .zeroDivision
  else .ok ((List.range (n + 1)).map fun (i : ℕ) => pointFrom k c ((i : ℝ) / n * 360) radius)

/-- `cross_track_distance` (spherical.py 367-394). -/
noncomputable def crossTrackDistance (k : ℝ) (p q x : LL) : ℝ :=
  let δ := distance 1 p x / R
  let θ13 := radians (bearing p x)
  let θ12 := radians (bearing p q)
  |arcsin (sin δ * sin (θ13 - θ12)) * R| / k

/-- `cross_track_point` (spherical.py 396-428); dividing by `cos(d) = 0` raises, and so does `acos` outside [-1, 1]. -/
noncomputable def crossTrackPoint (p q x : LL) : Except Err LL :=
  let δ := distance 1 p x / R
  let θ13 := radians (bearing p x)
  let θ12 := radians (bearing p q)
  let d := arcsin (sin δ * sin (θ13 - θ12))
  if cos d = 0 then .error .zeroDivision
  else if 1 < |cos δ / cos d| then .error .value
  else .ok (pointFrom 1 p (degrees θ12) (arccos (cos δ / cos d) * R))

/-- `POSITION` (geo_types.py 11). -/
abbrev Pos := ℝ × ℝ × ℝ

/-- `_ll2cart` (spherical.py 116-131). -/
noncomputable def ll2cart (p : LL) (radius : ℝ) : Pos :=
  let θ := radians p.2
  let l := radians p.1
  (radius * cos θ * cos l, radius * sin θ * cos l, radius * sin l)

/-- `_lla2ecef` (conversions.py 159-182), input in degrees. -/
noncomputable def lla2ecef (p : LL) (ht : ℝ) : Pos :=
  let φ := radians p.1
  let l := radians p.2
  let rad := R + ht
  (rad * cos l * cos φ, rad * cos φ * sin l, rad * sin φ)

/-- `_ecef2lla` (conversions.py 197-229), output in degrees. With exact numbers `cos(lat)` is zero only on the axis, where floating-point
numbers give `6e-17`; the quotient is replaced there in any case. -/
noncomputable def ecef2lla (x : Pos) : LL × ℝ :=
  let lon := atan2 x.2.1 x.1
  let p := √(x.1 ^ 2 + x.2.1 ^ 2)
  let lat := atan2 x.2.2 p
  let h := if |x.1| < 1 ∧ |x.2.1| < 1 then |x.2.2| - R else p / cos lat - R
  ((degrees lat, degrees lon), h)

/-- `_vector_dot` (math_utils.py 47-57) of three components. -/
def vdot (v w : Pos) : ℝ := v.1 * w.1 + v.2.1 * w.2.1 + v.2.2 * w.2.2

/-- `ct * x + st * w` for every component (spherical.py 223, 231-236). -/
noncomputable def combine (t : ℝ) (v w : Pos) : Pos :=
  (cos t * v.1 + sin t * w.1, cos t * v.2.1 + sin t * w.2.1, cos t * v.2.2 + sin t * w.2.2)

/-- The vector `W` (spherical.py 218). -/
def second (α β : ℝ) (v w : Pos) : Pos := (α * v.1 + β * w.1, α * v.2.1 + β * w.2.1, α * v.2.2 + β * w.2.2)

/-- `is_close` (spherical.py 226). -/
def Close (v w : Pos) : Prop := |v.1 - w.1| ≤ 1 / 10 ^ 8 ∧ |v.2.1 - w.2.1| ≤ 1 / 10 ^ 8 ∧ |v.2.2 - w.2.2| ≤ 1 / 10 ^ 8

open Classical in
/-- The angle `t` and the vectors of `geo_linspace_with_ecef` (spherical.py 202-228). The name `d` is used twice in the code; here the second one,
the first component of `v2`, is `d'`. -/
noncomputable def solve (p q : LL) : Except Err (ℝ × Pos × Pos) :=
  let v1 := ll2cart p 1
  let v2 := ll2cart q 1
  let d := vdot v1 v2
  if (d - 1) * (d + 1) = 0 then .error .zeroDivision
  else if -1 / ((d - 1) * (d + 1)) < 0 then .error .value
  else
    let common := √(-1 / ((d - 1) * (d + 1)))
    let α := -d * common
    let β := common
    let a := v1.1
    let d' := v2.1
    let lead := a * α + β * d'
    let inner := a ^ 2 * α ^ 2 + a ^ 2 + 2 * a * α * β * d' + β ^ 2 * d' ^ 2 - d' ^ 2
    if inner < 0 then .error .value
    else if a + d' = 0 then .error .zeroDivision
    else
      let t := 2 * arctan ((lead + √inner) / (a + d'))
      let W := second α β v1 v2
      if Close (combine t v1 W) v2 then .ok (t, v1, W) else .ok (2 * arctan ((lead - √inner) / (a + d')), v1, W)

/-- `geo_linspace_with_ecef` (spherical.py 177-238): the points on the unit sphere. -/
noncomputable def linspaceUnit (p q : LL) (n : ℕ) : Except Err (List Pos) :=
  if n < 2 then .error .value
  else match solve p q with
    | .error e => .error e
    | .ok (t, v1, W) => .ok ((List.range (n + 1)).map fun (i : ℕ) => combine (t / n * i) v1 W)

/-- `geo_linspace` (spherical.py 151-175). -/
noncomputable def geoLinspace (p q : LL) (n : ℕ) : Except Err (List LL) :=
  (linspaceUnit p q n).map fun l => l.map fun x => (ecef2lla x).1

/-- `lats, lons = cls.geo_linspace(...)` unpacks a list of points into two names (spherical.py 453): it fails unless there are two of them. -/
noncomputable def unpackTwo (l : List LL) : Except Err (LL × LL) :=
  match l with
  | [a, b] => .ok (a, b)
  | _ => .error .value

/-- `ecef_linspace` (spherical.py 430-457): the lists `lats` and `lons` are the two points of the list. -/
noncomputable def ecefLinspace (p q : LL) (startAlt finishAlt : ℝ) (n : ℕ) : Except Err (List Pos) :=
  match geoLinspace p q n with
  | .error e => .error e
  | .ok l =>
    match unpackTwo l with
    | .error e => .error e
    | .ok (a, b) => .ok ((([a.1, a.2].zip [b.1, b.2]).zip ((List.range (n + 1)).map fun (i : ℕ) => startAlt + (finishAlt - startAlt) * (i : ℝ) / n)).map
        fun r => lla2ecef (r.1.1, r.1.2) r.2)

/-- `ecef_and_geo_linspace` (spherical.py 459-487). -/
noncomputable def ecefAndGeoLinspace (p q : LL) (startAlt finishAlt : ℝ) (n : ℕ) : Except Err (List Pos × List (LL × ℝ)) :=
  match geoLinspace p q n with
  | .error e => .error e
  | .ok l =>
    let lla := l.zip ((List.range (n + 1)).map fun (i : ℕ) => startAlt + (finishAlt - startAlt) * (i : ℝ) / n)
    .ok (lla.map (fun r => lla2ecef r.1 r.2), lla)

end Verif.Globe
