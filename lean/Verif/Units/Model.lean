import Verif.Util.Dict
import Mathlib.Algebra.Order.Ring.Rat

/-!
# Model of the unit conversion table and `unit_convert`

Source: `/repo/src/upstage_des/units/convert.py` 7-91. Floating point numbers are modelled as exact rationals: the
literals of the table as the decimals written there, the arithmetic as exact arithmetic.
-/

namespace Verif.Units

abbrev Row := Dict String Rat

/-- `CONVERSIONS` as written: `convert.py:7-34`. -/
def base : Dict String Row :=
  [("m", [("km", 1 / 1000), ("mi", 1 / 1000 * (62137119223 / 100000000000)), ("nmi", 1 / 1000 * (539957 / 1000000)),
      ("m", 1)]),
    ("km", [("km", 1), ("mi", 62137119223 / 100000000000), ("nmi", 539957 / 1000000), ("m", 1000)]),
    ("mi", [("km", 1 / (62137119223 / 100000000000)), ("mi", 1), ("nmi", 868976 / 1000000),
      ("m", 1 / (62137119223 / 100000000000) * 1000)]),
    ("nmi", [("km", 1 / (539957 / 1000000)), ("mi", 1 / (868976 / 1000000)), ("nmi", 1),
      ("m", 1 / (539957 / 1000000) * 1000)]),
    ("s", [("hr", 1 / (60 * 60)), ("min", 1 / 60), ("s", 1)]),
    ("min", [("hr", 1 / 60), ("min", 1), ("s", 60)]),
    ("hr", [("hr", 1), ("min", 60), ("s", 60 * 60)]),
    ("day", [("hr", 24), ("week", 1 / 7), ("min", 24 * 60), ("s", 24 * 3600)]),
    ("week", [("day", 7), ("hr", 7 * 24), ("min", 7 * 24 * 60), ("s", 7 * 24 * 3600)])]

/-- `DISTANCE_UNITS`: `convert.py:36`. -/
def distanceUnits : List String := ["m", "km", "mi", "nmi", "ft"]

/-- `TIME_UNITS`: `convert.py:37`. -/
def timeUnits : List String := ["s", "min", "hr", "day", "week"]

/-- `TIME_ALTERNATES`: `convert.py:38-47`. -/
def alternates : Dict String String :=
  [("seconds", "s"), ("second", "s"), ("minute", "min"), ("minutes", "min"), ("hour", "hr"), ("hours", "hr"),
    ("days", "day"), ("weeks", "week")]

/-- `CONVERSIONS[a][b]`. -/
def entry (t : Dict String Row) (a b : String) : Option Rat := (t.get? a).bind (·.get? b)

/-- One turn of the loop that adds feet: `convert.py:52-56`. (The `none` branch cannot occur.) -/
def addFeet (t : Dict String Row) (u : String) : Dict String Row :=
  if u = "ft" then t
  else match entry t "mi" u, t.get? "ft", t.get? u with
    | some x, some ft, some row =>
      let f := x / 5280
      (t.set "ft" (ft.set u f)).set u (row.set "ft" (1 / f))
    | _, _, _ => t

/-- `CONVERSIONS` after the module has been loaded: `convert.py:50-56`. -/
def table : Dict String Row :=
  distanceUnits.foldl addFeet (base.set "ft" [("ft", 1), ("mi", 1 / 5280)])

/-- Lower-casing and replacing an alternate name: `convert.py:83-86`. Python's `str.lower` is a parameter. -/
def canon (lower : String → String) (u : String) : String := (alternates.get? (lower u)).getD (lower u)

/-- `unit_convert`: `convert.py:59-91`; `none` is the `ValueError`. -/
def unitConvert (lower : String → String) (v : Rat) (a b : String) : Option Rat :=
  (entry table (canon lower a) (canon lower b)).map (v * ·)

end Verif.Units
