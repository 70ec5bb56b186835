import Verif.Analytic.Model

/-!
# Locations as values

Source: `/repo/src/upstage_des/data_types.py`. Numbers are real numbers instead of floats. `CartesianLocation` and `GeodeticLocation` with their subtraction
are `Path.Loc` and `Path.Geo`; `to_radians` is `Analytic.toRadians`. `c` is the number of distance units in an altitude unit, `k` the metres of a distance
unit, `m` the metres of an altitude unit (see `Units`).
-/

namespace Verif.Locs

open Real Verif.Globe Verif.Path Verif.Analytic

/-! ### Attributes -/

/-- The values of the attributes of a location. -/
inductive Val where
  | num (x : ℝ)
  | flag (b : Bool)
  | names (l : List String)

/-- The `__dict__` of a location. -/
abbrev Obj := String → Option Val

/-- What the caller sees. -/
inductive Out where
  | done
  | frozen
  | typeError
  | attributeError
deriving DecidableEq, Repr

/-- `__setattr__` (data_types.py 69-78): `name in self._no_override` fails for a number. The names `env` and `stage`, which are properties, are left out. -/
def assign (o : Obj) (name : String) (v : Val) : Obj × Out :=
  match o "_no_override" with
  | none => (Function.update o name (some v), .done)
  | some (.names l) => if name ∈ l then (o, .frozen) else (Function.update o name (some v), .done)
  | some _ => (o, .typeError)

/-- `del location.name`: `Location` defines no `__delattr__`, so that of `object` is used. -/
def delete (o : Obj) (name : String) : Obj × Out :=
  match o name with
  | none => (o, .attributeError)
  | some _ => (Function.update o name none, .done)

/-- A use of a location's attributes. -/
inductive Op where
  | assign (name : String) (v : Val)
  | delete (name : String)

def step (o : Obj) : Op → Obj × Out
  | .assign n v => assign o n v
  | .delete n => delete o n

def exec : List Op → Obj → Obj
  | [], o => o
  | a :: as, o => exec as (step o a).1

/-- `CartesianLocation.__init__` (data_types.py 120-147). -/
def newCartesian (x y z : ℝ) (altUnits : Bool) : Obj :=
  exec [.assign "x" (.num x), .assign "y" (.num y), .assign "z" (.num z), .assign "use_altitude_units" (.flag altUnits),
    .assign "_no_override" (.names ["x", "y", "z", "use_altitude_units"])] (fun _ => none)

/-- `GeodeticLocation.__init__` (data_types.py 301-328). -/
def newGeodetic (lat lon alt : ℝ) (rad : Bool) : Obj :=
  exec [.assign "lat" (.num lat), .assign "lon" (.num lon), .assign "alt" (.num alt), .assign "in_radians" (.flag rad),
    .assign "_no_override" (.names ["lat", "lon", "alt", "in_radians"])] (fun _ => none)

/-! ### Cartesian locations -/

/-- `__eq__` (data_types.py 248-262) between cartesian locations. -/
def cartEq (c : ℝ) (a b : Loc) : Prop := |Loc.sub c a b| ≤ 0.00001

/-- `_key` (data_types.py 202-208); `__hash__` (264-270) is the hash of the key. -/
def cartKey (a : Loc) : ℝ × ℝ × ℝ × Bool := (a.x, a.y, a.z, a.altUnits)

/-- `copy` (data_types.py 192-200). -/
def cartCopy (a : Loc) : Loc := ⟨a.x, a.y, a.z, a.altUnits⟩

/-- A Python exception of `__getitem__`. -/
inductive Miss where
  | value
  | index
deriving DecidableEq, Repr

/-- `__getitem__` (data_types.py 218-230) for indices that are natural numbers. -/
def cartItem (a : Loc) : ℕ → Except Miss ℝ
  | 0 => .ok a.x
  | 1 => .ok a.y
  | 2 => .ok a.z
  | _ => .error .value

/-! ### Geodetic locations -/

/-- `__eq__` (data_types.py 492-513) between geodetic locations. -/
def geoEq (a b : Geo) : Prop :=
  let o := if b.rad ≠ a.rad then (if a.rad then toRadians b else b.toDegrees) else b
  a.lat = o.lat ∧ a.lon = o.lon ∧ a.alt = o.alt

/-- `_key` (data_types.py 392-398); `__hash__` (515-521) is the hash of the key. -/
def geoKey (a : Geo) : ℝ × ℝ × ℝ × Bool := (a.lat, a.lon, a.alt, a.rad)

/-- `copy` (data_types.py 400-411). -/
def geoCopy (a : Geo) : Geo := ⟨a.lat, a.lon, a.alt, a.rad⟩

/-- `latlon` (data_types.py 356-363). -/
noncomputable def latlon (a : Geo) : ℝ × ℝ := (a.toDegrees.lat, a.toDegrees.lon)

/-- `__getitem__` (data_types.py 455-467) for indices that are natural numbers. -/
def geoItem (a : Geo) : ℕ → Except Miss ℝ
  | 0 => .ok a.lat
  | 1 => .ok a.lon
  | 2 => .ok a.alt
  | _ => .error .index

/-- Iterating over an object without `__iter__`: Python calls `__getitem__` with 0, 1, … and stops at an `IndexError`; other exceptions leave the loop.
`n` bounds the number of calls. -/
def iterate (item : ℕ → Except Miss ℝ) : ℕ → ℕ → Except Miss (List ℝ)
  | 0, _ => .ok []
  | n + 1, i =>
    match item i with
    | .error .index => .ok []
    | .error e => .error e
    | .ok x => (iterate item n (i + 1)).map fun l => x :: l

/-- `dist_with_altitude` (data_types.py 413-426), on the spherical earth. -/
noncomputable def distWithAltitude (k c : ℝ) (a b : Geo) : ℝ :=
  let dist := Geo.sub ⟨distance k, bearing, pointFrom k⟩ a b
  let alt := |a.alt - b.alt| * c
  √(alt ^ 2 + dist ^ 2)

/-- `straight_line_distance` (data_types.py 428-453), on the spherical earth, with `_vector_subtract` and `_vector_norm` (math_utils.py 13-27, 60-70). -/
noncomputable def straightLine (k m : ℝ) (a b : Geo) : ℝ :=
  let e1 := lla2ecef (latlon a) (a.alt * m)
  let e2 := lla2ecef (latlon b) (b.alt * m)
  √((e2.1 - e1.1) ^ 2 + (e2.2.1 - e1.2.1) ^ 2 + (e2.2.2 - e1.2.2) ^ 2) / k

/-! ### Data without an environment -/

/-- `CartesianLocationData` (data_types.py 526-547). -/
structure CartData where
  x : ℝ
  y : ℝ
  z : ℝ
  altUnits : Bool := true

/-- `make_location` (data_types.py 548-558). -/
def CartData.make (d : CartData) : Loc := ⟨d.x, d.y, d.z, d.altUnits⟩

/-- `__eq__` (data_types.py 560-567). -/
def CartData.eq (d e : CartData) : Prop := d.x = e.x ∧ d.y = e.y ∧ d.z = e.z

/-- `CartesianLocation(x, y, z)` (data_types.py 120-127), with the default. -/
def plainCartesian (x y z : ℝ) : Loc := ⟨x, y, z, false⟩

/-- `GeodeticLocationData` (data_types.py 572-595). -/
structure GeoData where
  lat : ℝ
  lon : ℝ
  alt : ℝ
  rad : Bool := false

/-- `latlon` (data_types.py 594-602). -/
noncomputable def GeoData.latlon (d : GeoData) : ℝ × ℝ := (if d.rad then degrees d.lat else d.lat, if d.rad then degrees d.lon else d.lon)

/-- `make_location` (data_types.py 604-617). -/
def GeoData.make (d : GeoData) : Geo := ⟨d.lat, d.lon, d.alt, d.rad⟩

/-- `__eq__` (data_types.py 619-632). -/
noncomputable def GeoData.eq (d e : GeoData) : Prop :=
  let other := if e.rad ≠ d.rad then (if d.rad then (radians e.lat, radians e.lon) else (degrees e.lat, degrees e.lon)) else (e.lat, e.lon)
  (d.lat, d.lon) = other ∧ d.alt = e.alt

end Verif.Locs
