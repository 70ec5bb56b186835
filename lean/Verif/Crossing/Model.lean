import Mathlib.Algebra.Order.Ring.Rat
import Mathlib.Algebra.Order.Floor.Ring
import Mathlib.Data.Rat.Floor
import Mathlib.Tactic.Linarith
import Mathlib.Tactic.FieldSimp
import Mathlib.Algebra.Order.Field.Basic

/-!
# Sampled crossings of a path and a sphere

Source: `/repo/src/upstage_des/geography/intersections.py` 24-275.

The geometry of the earth is a parameter: the distance of two points, the points of a sampled path, and which points are within the
radius of the sensor. Both earth models compute the cartesian samples from the geodetic ones (spherical.py 396-428, wgs84.py
364-391), so being inside is a property of a geodetic sample. Numbers are those of any ordered field with a floor function.
-/

namespace Verif.Crossing

variable {K : Type} [Field K] [LinearOrder K] [FloorRing K] {P : Type}

/-- An earth model, with one sensor (center and radius). `samples a b n` is the path from `a` to `b` in `n` segments. -/
structure Earth (K P : Type) where
  dist : P → P → K
  samples : P → P → Nat → List P
  inside : P → Bool
  /-- Whether the computation of the samples raises. -/
  raises : P → P → Nat → Bool

/-- `IntersectionError` with its message, a failed `assert`, or another Python exception (a name without value, division by zero). -/
inductive Err where
  | tooSmall
  | twoCrossings
  | direction
  | switched
  | assertion
  | python
deriving DecidableEq, Repr

/-- The `kind` of a `CrossingCondition` (geo_types.py 104-110). -/
inductive Kind where
  | startInside
  | startOut
  | enter
  | exit
  | endInside
  | endOut
deriving DecidableEq, Repr

/-- `CrossingCondition` (geo_types.py 104-110). -/
structure Cond (P : Type) where
  kind : Kind
  b : P
  e : Option P
deriving DecidableEq, Repr

/-- The loop that halves the distance between samples (intersections.py 45-52), given the distance of the ends. -/
def pointsFor [IsStrictOrderedRing K] (dist between : K) : Except Err Nat :=
  let points := (⌊dist / between⌋ + 1).toNat
  if points ≤ 2 then
    if between / 2 < 100 then .error .tooSmall else pointsFor dist (between / 2)
  else .ok points
termination_by ⌈between / 100⌉.toNat
decreasing_by
  rename_i _ h
  have h1 : (200 : K) ≤ between := by linarith
  have h2 : between / 2 / 100 + 1 ≤ between / 100 := by linarith
  have h3 : ⌈between / 2 / 100⌉ + 1 ≤ ⌈between / 100⌉ := by
    have := Int.ceil_mono h2
    rwa [Int.ceil_add_one] at this
  have h4 : 0 < ⌈between / 100⌉ := Int.ceil_pos.2 (by linarith)
  omega

variable [IsStrictOrderedRing K]

/-- `_preprocess` (intersections.py 24-61): `dist_between = 0` divides by zero. -/
def preprocess (E : Earth K P) (start finish : P) (between : K) : Except Err (List P) :=
  if between = 0 then .error .python
  else
    match pointsFor (E.dist start finish) between with
    | .error e => .error e
    | .ok n => if E.raises start finish n then .error .python else .ok (E.samples start finish n)

/-- The variables of the loop in `find_crossing_points` (intersections.py 99-101, 105). -/
structure Vars (P : Type) where
  lastOut : Option Nat
  lastIn : Option Nat
  acc : List (Cond P)
  isIn : Option Bool

/-- `assert last is not None`, `lla_test[last]`, and the check `last == i - 1` afterwards (intersections.py 112-131). -/
def crossing (lla : List P) (kind : Kind) (last : Option Nat) (i : Nat) (x : P) (acc : List (Cond P)) : Except Err (List (Cond P)) :=
  match last with
  | none => .error .assertion
  | some j =>
    match lla[j]? with
    | none => .error .python
    | some y => if j + 1 = i then .ok (acc ++ [⟨kind, y, some x⟩]) else .error .assertion

/-- One round of the loop (intersections.py 103-136). -/
def body (E : Earth K P) (lla : List P) (v : Vars P) (i : Nat) (x : P) : Except Err (Vars P) :=
  let isIn := E.inside x
  let acc : Except Err (List (Cond P)) :=
    if i = 0 then .ok (v.acc ++ [⟨if isIn then .startInside else .startOut, x, none⟩])
    else if isIn = true ∧ v.lastIn ≠ some (i - 1) then crossing lla .enter v.lastOut i x v.acc
    else if isIn = false ∧ v.lastOut ≠ some (i - 1) then crossing lla .exit v.lastIn i x v.acc
    else .ok v.acc
  match acc with
  | .error e => .error e
  | .ok acc => if isIn then .ok ⟨v.lastOut, some i, acc, some isIn⟩ else .ok ⟨some i, v.lastIn, acc, some isIn⟩

/-- The loop over `enumerate(ecef_test)`. -/
def loop (E : Earth K P) (lla : List P) : List P → Nat → Vars P → Except Err (Vars P)
  | [], _, v => .ok v
  | x :: xs, i, v =>
    match body E lla v i x with
    | .error e => .error e
    | .ok v => loop E lla xs (i + 1) v

/-- The end of `find_crossing_points` (intersections.py 138-142). -/
def close (lla : List P) (v : Vars P) : Except Err (List (Cond P)) :=
  match v.isIn, lla.getLast? with
  | some isIn, some x => .ok (v.acc ++ [⟨if isIn then .endInside else .endOut, x, none⟩])
  | _, _ => .error .python

/-- `find_crossing_points` (intersections.py 64-143). -/
def findCrossings (E : Earth K P) (start finish : P) (between : K) : Except Err (List (Cond P)) :=
  match preprocess E start finish between with
  | .error e => .error e
  | .ok lla =>
    match loop E lla lla 0 ⟨none, none, [], none⟩ with
    | .error e => .error e
    | .ok v => close lla v

/-- `_split_down` (intersections.py 146-202); `split` is the last `split_data[1]`. -/
def splitDown (E : Earth K P) : P → P → K → Option (Cond P) → List Nat → Except Err (Cond P)
  | _, _, _, split, [] =>
    match split with
    | none => .error .python
    | some c => .ok c
  | b, e, between, _, d :: levels =>
    if d = 0 then .error .python
    else
      match findCrossings E b e (between / d) with
      | .error err => .error err
      | .ok data =>
        match data with
        | [_, c, _] =>
          if c.kind ≠ .exit ∧ c.kind ≠ .enter then .error .direction
          else
            match c.e with
            | none => .error .assertion
            | some e' => splitDown E c.b e' (between / d) (some c) levels
        | _ => .error .twoCrossings

/-- The loop over `rough_split_data[1:-1]` in `get_intersection_locations` (intersections.py 250-268). -/
def refine (E : Earth K P) (between : K) (levels : List Nat) : List (Cond P) → Except Err (List (Cond P))
  | [] => .ok []
  | c :: cs =>
    match c.e with
    | none => .error .assertion
    | some e =>
      match splitDown E c.b e between none levels with
      | .error err => .error err
      | .ok new =>
        if new.kind ≠ c.kind then .error .switched
        else
          let use := if c.kind = .exit then some new.b else new.e
          match use with
          | none => .error .assertion
          | some u =>
            match refine E between levels cs with
            | .error err => .error err
            | .ok r => .ok (⟨c.kind, u, none⟩ :: r)

/-- `get_intersection_locations` (intersections.py 205-275), the radius already converted. -/
def intersections (E : Earth K P) (start finish : P) (between : K) (levels : List Nat) : Except Err (List (Cond P)) :=
  match findCrossings E start finish between with
  | .error e => .error e
  | .ok rough =>
    match refine E between levels rough.tail.dropLast with
    | .error e => .error e
    | .ok mid =>
      let pre := match rough.head? with
        | some c => if c.kind = .startInside then [c] else []
        | none => []
      let post := match rough.getLast? with
        | some c => if c.kind = .endInside then [c] else []
        | none => []
      .ok (pre ++ mid ++ post)

end Verif.Crossing
