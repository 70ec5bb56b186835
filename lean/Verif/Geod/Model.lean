import Verif.Wgs.Model

/-!
# Distances, bearings and destinations on the WGS84 ellipsoid

Source: `/repo/src/upstage_des/geography/wgs84.py`.

Floating-point numbers are real numbers and the functions of `math` are the real functions, as in `Globe/Model.lean`; points are tuples of
latitude and longitude in degrees; `k` is the number of metres of the unit asked for. The real `tan` has no value at the poles, where the
code's is about `1.6e16` (`radians(90)` is a little less than `π/2`): there the limits are taken, as each definition says. `loc1` and
`loc2` are tuples, which `_convert_geo` (geo_types.py 24-35) leaves as they are.
-/

namespace Verif.Geod

open Real
open Verif.Globe (LL Pos radians degrees atan2 pmod Err unpackTwo)
open Verif.Wgs (a b f e2 lla2ecef)

open Classical in
/-- The reduced latitude (wgs84.py 96-97); at the poles, where `tan` is huge, the latitude itself. -/
noncomputable def reduced (lat : ℝ) : ℝ :=
  if cos (radians lat) = 0 then radians lat else arctan ((1 - f) * tan (radians lat))

/-- The variables of one iteration of `distance_and_bearing`; `next` is the new `lambda_lon`. -/
structure Iter where
  sinL : ℝ
  cosL : ℝ
  sinS : ℝ
  cosS : ℝ
  sig : ℝ
  sinA : ℝ
  cosSqA : ℝ
  cos2m : ℝ
  next : ℝ

/-- `C` (wgs84.py 121, 238). -/
noncomputable def bigC (cosSqA : ℝ) : ℝ := f / 16 * cosSqA * (4 + f * (4 - 3 * cosSqA))

open Classical in
/-- The body of the loop (wgs84.py 107-125) for `lambda_lon = l`. Division by `sin_sigma` may fail; the failure for `cos_sq_alpha = 0` is caught. -/
noncomputable def invStep (u1 u2 L l : ℝ) : Except Err Iter :=
  let sinL := sin l
  let cosL := cos l
  let sinS := √((cos u2 * sinL) ^ 2 + (cos u1 * sin u2 - sin u1 * cos u2 * cosL) ^ 2)
  let cosS := sin u1 * sin u2 + cos u1 * cos u2 * cosL
  let sig := atan2 sinS cosS
  if sinS = 0 then .error .zeroDivision
  else
    let sinA := cos u1 * cos u2 * sinL / sinS
    let cosSqA := 1 - sinA ^ 2
    let cos2m := if cosSqA = 0 then 0 else cosS - 2 * sin u1 * sin u2 / cosSqA
    let c := bigC cosSqA
    let next := L + (1 - c) * f * sinA * (sig + c * sinS * (cos2m + c * cosS * (-1 + 2 * cos2m ^ 2)))
    .ok ⟨sinL, cosL, sinS, cosS, sig, sinA, cosSqA, cos2m, next⟩

open Classical in
/-- The loop (wgs84.py 106-129) with `n` iterations left. -/
noncomputable def invLoop (u1 u2 L tol : ℝ) : ℕ → ℝ → Except Err Iter
  | 0, _ => .error .value
  | n + 1, l =>
    match invStep u1 u2 L l with
    | .error e => .error e
    | .ok it => if |it.next - l| < tol then .ok it else invLoop u1 u2 L tol n it.next

/-- `u_sq` (wgs84.py 131, 196). -/
noncomputable def uSq (cosSqA : ℝ) : ℝ := cosSqA * (a ^ 2 - b ^ 2) / b ^ 2

/-- The series `a`, `A` (wgs84.py 132, 197). -/
noncomputable def bigA (y : ℝ) : ℝ := 1 + y / 16384 * (4096 + y * (-768 + y * (320 - 175 * y)))

/-- The series `b`, `B` (wgs84.py 133, 198). -/
noncomputable def bigB (y : ℝ) : ℝ := y / 1024 * (256 + y * (-128 + y * (74 - 47 * y)))

/-- `delta_sigma` (wgs84.py 134-146, 205-221). -/
noncomputable def deltaSigma (B sinS cosS cos2m : ℝ) : ℝ :=
  B * sinS * (cos2m + B / 4 * (cosS * (-1 + 2 * cos2m ^ 2) - B / 6 * cos2m * (-3 + 4 * sinS ^ 2) * (-3 + 4 * cos2m ^ 2)))

/-- `round(x, 6)` (wgs84.py 148); Python rounds ties to even, this upwards. -/
noncomputable def round6 (x : ℝ) : ℝ := round (x * 1000000) / 1000000

/-- What is returned after the loop (wgs84.py 131-154). -/
noncomputable def finish (k u1 u2 : ℝ) (it : Iter) : ℝ × ℝ :=
  let y := uSq it.cosSqA
  let distM := round6 (b * bigA y * (it.sig - deltaSigma (bigB y) it.sinS it.cosS it.cos2m))
  let azimuth := atan2 (cos u2 * it.sinL) (cos u1 * sin u2 - sin u1 * cos u2 * it.cosL)
  (distM / k, pmod (degrees azimuth) 360)

open Classical in
/-- `distance_and_bearing` (wgs84.py 71-154). -/
noncomputable def distBearing (k tol : ℝ) (n : ℕ) (p q : LL) : Except Err (ℝ × ℝ) :=
  if p.1 = q.1 ∧ p.2 = q.2 then .ok (0, 0)
  else
    let u1 := reduced p.1
    let u2 := reduced q.1
    let L := radians (q.2 - p.2)
    match invLoop u1 u2 L tol n L with
    | .error e => .error e
    | .ok it => .ok (finish k u1 u2 it)

/-- `distance` (wgs84.py 21-45). -/
noncomputable def distance (k tol : ℝ) (n : ℕ) (p q : LL) : Except Err ℝ := (distBearing k tol n p q).map Prod.fst

/-- `bearing` (wgs84.py 47-69), which leaves `units` at nautical miles. -/
noncomputable def bearing (tol : ℝ) (n : ℕ) (p q : LL) : Except Err ℝ := (distBearing 1852 tol n p q).map Prod.snd

open Classical in
/-- `sin_u1`, `cos_u1` and `sigma_1` (wgs84.py 189-193); at the poles, where `tan_u1` is huge, their limits. -/
noncomputable def start (lat α1 : ℝ) : ℝ × ℝ × ℝ :=
  let φ := radians lat
  if cos φ = 0 then (sin φ, 0, atan2 (sin φ) 0)
  else
    let t := (1 - f) * tan φ
    let c := 1 / √(1 + t ^ 2)
    (t * c, c, atan2 t (cos α1))

open Classical in
/-- The loop (wgs84.py 201-227) with `n` iterations left: the last two values of `sigma`, of which `sin_sigma`, `cos_sigma` and
`cos2_sigma_m` belong to the earlier one. -/
noncomputable def dirLoop (σ0 B σ1 tol : ℝ) : ℕ → ℝ → Except Err (ℝ × ℝ)
  | 0, _ => .error .value
  | n + 1, σ =>
    let new := σ0 + deltaSigma B (sin σ) (cos σ) (cos (2 * σ1 + σ))
    if |σ - new| < tol then .ok (σ, new) else dirLoop σ0 B σ1 tol n new

/-- The destination (wgs84.py 229-245); the correction of the longitude multiplies `C` by `sin_alpha`, not by `sin_sigma` as the loop of
`distance_and_bearing` does. -/
noncomputable def arrive (p : LL) (sinU cosU σ1 α1 σ new : ℝ) : LL :=
  let sinA := cosU * sin α1
  let cosSqA := 1 - sinA ^ 2
  let x := sinU * sin σ - cosU * cos σ * cos α1
  let φ2 := atan2 (sinU * cos σ + cosU * sin σ * cos α1) ((1 - f) * √(sinA ^ 2 + x ^ 2))
  let lam := atan2 (sin σ * sin α1) (cosU * cos σ - sinU * sin σ * cos α1)
  let c := bigC cosSqA
  let cos2m := cos (2 * σ1 + σ)
  let L := lam - (1 - c) * f * sinA * (new + c * sinA * (cos2m + c * cos σ * (-1 + 2 * cos2m ^ 2)))
  (degrees φ2, degrees (radians p.2 + L))

/-- `point_from_bearing_dist` (wgs84.py 157-245). -/
noncomputable def pointFrom (k tol : ℝ) (n : ℕ) (p : LL) (bearing distance : ℝ) : Except Err LL :=
  let s := distance * k
  let α1 := radians bearing
  let st := start p.1 α1
  let y := uSq (1 - (st.2.1 * sin α1) ^ 2)
  let σ0 := s / (b * bigA y)
  match dirLoop σ0 (bigB y) st.2.2 tol n σ0 with
  | .error e => .error e
  | .ok (σ, new) => .ok (arrive p st.1 st.2.1 st.2.2 α1 σ new)

/-- `geo_linspace` (wgs84.py 248-294). -/
noncomputable def geoLinspace (p q : LL) (n : ℕ) : Except Err (List LL) :=
  if n < 2 then .error .value
  else
    match distBearing 1000 1e-12 200 p q with
    | .error e => .error e
    | .ok (d, β) => (List.range (n + 1)).mapM fun (i : ℕ) =>
        if i = 0 then .ok p else if i = n then .ok q else pointFrom 1000 1e-12 200 p β (d * ((i : ℝ) / n))

/-- `geo_circle` (wgs84.py 297-332), `num_points` not negative. -/
noncomputable def geoCircle (k : ℝ) (c : LL) (radius : ℝ) (n : ℕ) : Except Err (List LL) :=
  if n = 0 then .error .zeroDivision
  else (List.range (n + 1)).mapM fun (i : ℕ) => pointFrom k 1e-12 200 c ((i : ℝ) / n * 360) radius

/-- `ecef_linspace` (wgs84.py 335-361): unpacks the list of points into two names. -/
noncomputable def ecefLinspace (p q : LL) (startAlt finishAlt : ℝ) (n : ℕ) : Except Err (List Pos) :=
  match geoLinspace p q n with
  | .error e => .error e
  | .ok l => match unpackTwo l with
    | .error e => .error e
    | .ok (lats, lons) =>
      let alts := (List.range (n + 1)).map fun (i : ℕ) => startAlt + (finishAlt - startAlt) * i / n
      .ok ((([lats.1, lats.2].zip [lons.1, lons.2]).zip alts).map fun x => lla2ecef x.1 x.2)

/-- `ecef_and_geo_linspace` (wgs84.py 364-394). -/
noncomputable def ecefAndGeoLinspace (p q : LL) (startAlt finishAlt : ℝ) (n : ℕ) : Except Err (List Pos × List (LL × ℝ)) :=
  match geoLinspace p q n with
  | .error e => .error e
  | .ok l =>
    let lla := l.zip ((List.range (n + 1)).map fun (i : ℕ) => startAlt + (finishAlt - startAlt) * i / n)
    .ok (lla.map fun x => lla2ecef x.1 x.2, lla)

end Verif.Geod
