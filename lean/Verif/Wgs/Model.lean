import Verif.Globe.Model
import Mathlib.Analysis.SpecialFunctions.Pow.Real
import Mathlib.Algebra.Order.Round

/-!
# The WGS84 earth model

Source: `/repo/src/upstage_des/geography/wgs84.py` and the classes `BaseConversions`, `WGS84Conversions` of `conversions.py`.

Floating-point numbers are real numbers and the functions of `math` are the real functions, as in `Globe/Model.lean`; points are tuples of
latitude and longitude in degrees; `k` is the number of metres of the unit asked for.
-/

namespace Verif.Wgs

open Real Verif.Globe

/-- `WGS84_A` (conversions.py 14). -/
noncomputable def a : ℝ := 6378137

/-- `WGS84_F` (conversions.py 15). -/
noncomputable def f : ℝ := 1 / 298.257223563

/-- `WGS84_B` (conversions.py 16). -/
noncomputable def b : ℝ := a * (1 - f)

/-- `we_2` (conversions.py 29). -/
noncomputable def e2 : ℝ := f * (2 - f)

/-- `wep_2` (conversions.py 31). -/
noncomputable def ep2 : ℝ := e2 / (1 - f) ^ 2

/-- `BaseConversions._lla2ecef` (conversions.py 49-70) with the constants of `WGS84Conversions` (conversions.py 245-254), input in degrees. -/
noncomputable def lla2ecef (p : LL) (ht : ℝ) : Pos :=
  let φ := radians p.1
  let l := radians p.2
  let N := a / √(1 - e2 * sin φ ^ 2)
  let t1 := (N + ht) * cos φ
  let t2 := N * (1 - f) ^ 2 + ht
  (t1 * cos l, t1 * sin l, t2 * sin φ)

/-- Exceptions of `_ecef2lla`: division by zero, `sqrt` of a negative number, `sqrt` of a complex number. -/
inductive Err where
  | zeroDivision
  | value
  | type
deriving DecidableEq, Repr

open Classical in
/-- The number `ro` (conversions.py 101-119) for `r = sqrt(X**2 + Y**2)` and `Z`. A fractional power of a negative number is a complex
number in Python, on which `sqrt` fails. -/
noncomputable def ro (r Z : ℝ) : Except Err ℝ :=
  let r2 := r ^ 2
  let a2 := a ^ 2
  let b2 := b ^ 2
  let E2 := a2 - b2
  let Z2 := Z ^ 2
  let F := 54 * b2 * Z2
  let G := r2 + (1 - e2) * Z2 - e2 * E2
  if G * G * G = 0 then .error .zeroDivision
  else
    let c := e2 * e2 * F * r2 / (G * G * G)
    if c * c + 2 * c < 0 then .error .value
    else
      let m := 1 + c + √(c * c + 2 * c)
      if m < 0 then .error .type
      else
        let s := m ^ (1 / 3 : ℝ)
        if s = 0 then .error .zeroDivision
        else
          let P := F / (3 * (s + 1 / s + 1) ^ 2 * G * G)
          if 1 + 2 * e2 * e2 * P < 0 then .error .value
          else
            let Q := √(1 + 2 * e2 * e2 * P)
            if Q = 0 then .error .zeroDivision
            else
              let rad := a * a / 2 * (1 + 1 / Q) - (1 - e2) * P * Z2 / (Q * (1 + Q)) - P * r2 / 2
              if rad < 0 then .error .value else .ok (-(e2 * P * r) / (1 + Q) + √rad)

open Classical in
/-- `BaseConversions._ecef2lla` (conversions.py 86-133) with the constants of `WGS84Conversions`, output in degrees. -/
noncomputable def ecef2lla (x : Pos) : Except Err (LL × ℝ) :=
  let lon := atan2 x.2.1 x.1
  let r := √(x.1 ^ 2 + x.2.1 ^ 2)
  match ro r x.2.2 with
  | .error e => .error e
  | .ok ρ =>
    let tmp := (r - e2 * ρ) ^ 2
    let U := √(tmp + x.2.2 ^ 2)
    let V := √(tmp + (1 - e2) * x.2.2 ^ 2)
    if a * V = 0 then .error .zeroDivision
    else
      let zo := b ^ 2 * x.2.2 / (a * V)
      let h := U * (1 - b ^ 2 / (a * V))
      let lat := atan2 (x.2.2 + ep2 * zo) r
      .ok ((degrees lat, degrees lon), h)

end Verif.Wgs
