import Verif.Globe.Model
import Verif.Path.Model

/-!
# The analytical crossing of a great-circle leg and a sensor's range

/repo/src/upstage_des/motion/great_circle_calcs.py and `analytical_intersection` of /repo/src/upstage_des/motion/geodetic_model.py (98-207).
Numbers are real numbers instead of floats. The functions are cached (`lru_cache`); they are pure, so caching does not show.

`k` is the number of metres in a distance unit, `c` the number of distance units in an altitude unit (see `Units`).
-/

namespace Verif.Analytic

open Real Verif.Globe Verif.Path

/-- `to_radians` (data_types.py 363-376). -/
noncomputable def toRadians (g : Geo) : Geo := if g.rad then g else ⟨radians g.lat, radians g.lon, g.alt, true⟩

/-- `get_dist_rad` (great_circle_calcs.py 20-35). -/
noncomputable def getDistRad (a b : Geo) : ℝ :=
  let p := toRadians a
  let q := toRadians b
  2 * arcsin (√(sin ((p.lat - q.lat) / 2) ^ 2 + cos p.lat * cos q.lat * sin ((p.lon - q.lon) / 2) ^ 2))

/-- `get_course_rad` (great_circle_calcs.py 38-58): dividing by zero raises, and so does `acos` outside [-1, 1]. -/
noncomputable def getCourseRad (a b : Geo) : Except Err ℝ :=
  let p := toRadians a
  let q := toRadians b
  let d := getDistRad p q
  if sin d * cos p.lat = 0 then .error .zeroDivision
  else
    let x := (sin q.lat - sin p.lat * cos d) / (sin d * cos p.lat)
    if 1 < |x| then .error .value
    else if sin (q.lon - p.lon) < 0 then .ok (arccos x) else .ok (2 * π - arccos x)

/-- `get_pos_from_points_and_distance` (great_circle_calcs.py 61-86), in radians; `asin` is called inside its domain (see `sinLat_le`). -/
noncomputable def getPos (a b : Geo) (dist : ℝ) : Except Err (ℝ × ℝ) :=
  let p := toRadians a
  let q := toRadians b
  match getCourseRad p q with
  | .error e => .error e
  | .ok tc =>
    let lat := arcsin (sin p.lat * cos dist + cos p.lat * sin dist * cos tc)
    let dlon := atan2 (sin tc * sin dist * cos p.lat) (cos dist - sin p.lat * sin lat)
    .ok (lat, pmod (p.lon - dlon + π) (2 * π) - π)

open Classical in
/-- `get_great_circle_points` (great_circle_calcs.py 89-144): `cos(dist) / r` raises for `r = 0`; `acos` is called inside its domain. -/
noncomputable def getPoints (a b d : Geo) (dist : ℝ) : Except Err (Option (((ℝ × ℝ) × (ℝ × ℝ)) × (ℝ × ℝ))) :=
  let pa := toRadians a
  let pb := toRadians b
  let pd := toRadians d
  match getCourseRad pa pd with
  | .error e => .error e
  | .ok courseAd =>
    match getCourseRad pa pb with
    | .error e => .error e
    | .ok courseAb =>
      let α := courseAd - courseAb
      let β := getDistRad pa pd
      let r := √(cos β ^ 2 + sin β ^ 2 * cos α ^ 2)
      let atd := atan2 (sin β * cos α) (cos β)
      let distAb := getDistRad pa pb
      if cos dist ^ 2 > r ^ 2 then .ok none
      else if r = 0 then .error .zeroDivision
      else
        let dp := arccos (cos dist / r)
        if dp = 0 then .ok none
        else
          let d1 := atd - dp
          let d2 := atd + dp
          if distAb < d1 ∨ d2 < 0 then .ok none
          else
            match getPos pa pb d1 with
            | .error e => .error e
            | .ok p1 =>
              match getPos pa pb d2 with
              | .error e => .error e
              | .ok p2 => .ok (some ((p1, p2), (d1, d2)))

/-- The kinds of crossings (geodetic_model.py 166-202). -/
inductive Kind where
  | startInside
  | enter
  | endInside
  | exit
deriving DecidableEq, Repr

/-- What `analytical_intersection` returns: the three lists, zipped, and the path time. -/
structure Res where
  crossings : List (Kind × Geo × ℝ)
  pathTime : ℝ

/-- `GeodeticLocation(*point, alt=alt, in_radians=True).to_degrees()` (geodetic_model.py 178-184, 202). -/
noncomputable def crossingAt (p : ℝ × ℝ) (alt : ℝ) : Geo := Geo.toDegrees ⟨p.1, p.2, alt, true⟩

open Classical in
/-- `analytical_intersection` (geodetic_model.py 98-207): the square root of a negative number raises, and so does a speed of zero. The two kinds
"Bad" given without crossings are left out. -/
noncomputable def intersection (k c : ℝ) (start finish : Geo) (speed : ℝ) (sensor : Geo) (radius : ℝ) : Except Err Res :=
  let earth := R / k
  let h := (start.alt + finish.alt) / 2 * c
  if radius ^ 2 - h ^ 2 < 0 then .error .value
  else
    let ρ := √(radius ^ 2 - h ^ 2) / earth
    match getPoints (toRadians start) (toRadians finish) (toRadians sensor) ρ with
    | .error e => .error e
    | .ok res =>
      let distStart := getDistRad (toRadians sensor) (toRadians start)
      let distFinish := getDistRad (toRadians sensor) (toRadians finish)
      let pathDist := getDistRad (toRadians start) (toRadians finish)
      if speed = 0 then .error .zeroDivision
      else
        let pathTime := pathDist * earth / speed
        match res with
        | none => .ok ⟨[], -1⟩
        | some ((p1, p2), (d1, d2)) =>
          if pathDist = 0 then .error .zeroDivision
          else
            let slope := (finish.alt - start.alt) / pathDist
            let first :=
              if distStart < ρ then (Kind.startInside, start, 0)
              else
                let alt := start.alt + d1 / pathDist * slope
                (Kind.enter, crossingAt p1 alt, d1 * (earth + 1 / 2 * (start.alt + alt) * c) / speed)
            let last :=
              if distFinish < ρ then (Kind.endInside, finish, pathDist * earth / speed)
              else
                let alt := start.alt + d2 / pathDist * slope
                (Kind.exit, crossingAt p2 alt, d2 * (earth + 1 / 2 * (start.alt + alt) * c) / speed)
            .ok ⟨[first, last], pathTime⟩

end Verif.Analytic
