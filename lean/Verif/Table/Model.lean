import Verif.Util.Dict
import Mathlib.Algebra.Order.Ring.Rat

/-!
# Exported tables

Source: `/repo/src/upstage_des/data_utils/data_utils.py`. Actor and state names, types and keys are numbers; a name such as
`"state.key"` is the list of its parts (state names are identifiers and contain no dot). The values are of any type. An
exception is `none`.
-/

namespace Verif.Table

/-- Texts of the last column (data_utils.py 19, 49-54). -/
inductive Status where
  | inactive
  | active
  | activating
  | deactivating
  | lastSeen
deriving DecidableEq, Repr

/-- A recorded value: a dataclass or dictionary, as its items (`asdict(value).items()`, `value.items()`), a marker
(`ActiveStatus`, states.py 55-57), anything else. -/
inductive Val (α : Type) where
  | scalar (v : α)
  | fields (l : List (Nat × α))
  | marker (on : Bool)
deriving DecidableEq, Repr

abbrev Name := List Nat

/-- `STATE_DATA_ROW` (data_utils.py 21). -/
structure Row (α : Type) where
  entity : Nat
  kind : Nat
  state : Name
  time : Rat
  value : α
  status : Option Status
deriving DecidableEq, Repr

/-- A list of recorded times and values. -/
abbrev Hist (α : Type) := List (Rat × Val α)

/-- The text of a marker (`value.name`). -/
def statusOf (on : Bool) : Status := if on then .activating else .deactivating

/-- The loop of `_state_history_to_table` (data_utils.py 50-67): `data` so far, `active_value`. Popping from an empty list
raises. -/
def loop {α : Type} (e k : Nat) (n : Name) : Hist α → List (Row α) → Option Status → Option (List (Row α))
  | [], data, _ => some data
  | (_, .marker on) :: r, data, _ =>
    match data.getLast? with
    | none => none
    | some row =>
      loop e k n r (data.dropLast ++ [{ row with status := some (statusOf on) }]) (some (if on then .active else .inactive))
  | (t, .fields l) :: r, data, av => loop e k n r (data ++ l.map fun x => ⟨e, k, n ++ [x.1], t, x.2, av⟩) av
  | (t, .scalar v) :: r, data, av => loop e k n r (data ++ [⟨e, k, n, t, v, av⟩]) av

/-- `_state_history_to_table` (data_utils.py 27-68). -/
def toTable {α : Type} (e k : Nat) (n : Name) (isActive : Bool) (h : Hist α) : Option (List (Row α)) :=
  loop e k n h [] (if isActive then some .inactive else none)

/-- A state definition: is the descriptor a location state, an `ActiveState`? -/
structure Def where
  name : Nat
  location : Bool
  active : Bool
deriving DecidableEq, Repr

/-- What is in `actor.__dict__` for a state: the keys of a dictionary or dataclass (`_key_list`, data_utils.py 71-76), the
`_quantities` of a monitored resource with the resource's number, the items if `getattr` gives a dictionary proxy. -/
structure Cur (α : Type) where
  value : α
  keys : Option (List Nat)
  quantities : Option (Nat × Hist α)
  proxy : Option (List (Nat × α))

/-- An actor. `cur` is missing for a state that has never been set (`allow_none_default`, states.py 299-301). -/
structure Actor (α : Type) where
  name : Nat
  kind : Nat
  defs : List Def
  cur : Nat → Option (Cur α)
  hist : Dict Name (Hist α)

/-- The rows for the keys of a prefilled state (data_utils.py 114-121); the assertion may fail. -/
def keyRows {α : Type} (a : Actor α) (d : Def) : List Nat → Option (List (Row α))
  | [] => some []
  | x :: r =>
    match Dict.get? a.hist [d.name, x] with
    | none => none
    | some h =>
      match toTable a.name a.kind [d.name, x] d.active h with
      | none => none
      | some rows =>
        match keyRows a d r with
        | none => none
        | some rest => some (rows ++ rest)

/-- `any(key.startswith(f"{state_name}.") ...)` (data_utils.py 106). -/
def prefilled {α : Type} (a : Actor α) (d : Def) : Bool :=
  a.hist.any fun e => match e.1 with
    | x :: _ :: _ => x == d.name
    | _ => false

/-- The body of the loop of `_actor_state_data` (data_utils.py 101-135) for one state: rows and resources. -/
def stateRows {α : Type} (a : Actor α) (skip static : Bool) (d : Def) : Option (List (Row α) × List Nat) :=
  if skip && d.location then some ([], [])
  else
    match a.cur d.name with
    | none => none
    | some c =>
      match Dict.get? a.hist [d.name] with
      | some h => (toTable a.name a.kind [d.name] d.active h).map fun r => (r, [])
      | none =>
        if prefilled a d then
          match c.keys with
          | none => none
          | some ks => (keyRows a d ks).map fun r => (r, [])
        else
          match c.quantities with
          | some (i, q) => (toTable a.name a.kind [d.name] false q).map fun r => (r, [i])
          | none =>
            if static then
              match c.proxy with
              | some l => some (l.map fun x => ⟨a.name, a.kind, [d.name, x.1], 0, x.2, some .lastSeen⟩, [])
              | none => some ([⟨a.name, a.kind, [d.name], 0, c.value, some .lastSeen⟩], [])
            else some ([], [])

/-- The loop of `_actor_state_data` (data_utils.py 97-137). -/
def defsRows {α : Type} (a : Actor α) (skip static : Bool) : List Def → Option (List (Row α) × List Nat)
  | [] => some ([], [])
  | d :: r =>
    match stateRows a skip static d with
    | none => none
    | some (rows, res) =>
      match defsRows a skip static r with
      | none => none
      | some (rows', res') => some (rows ++ rows', res ++ res')

def actorRows {α : Type} (a : Actor α) (skip static : Bool) : Option (List (Row α) × List Nat) := defsRows a skip static a.defs

/-- A monitored resource (the entry of the monitored list): name, type, what it is, recorded quantities. -/
structure Mon (α : Type) where
  id : Nat
  name : Nat
  kind : Nat
  quantities : List (Rat × α)

/-- The state name `"Resource"` of resources outside actors (data_utils.py 229). -/
def resource : Name := []

/-- `create_table` (data_utils.py 179-233), without the column names. `monitoring in seen_resources` compares resources by
identity. -/
def createTable {α : Type} (actors : List (Actor α)) (mons : List (Mon α)) (skip static : Bool) : Option (List (Row α)) :=
  let rec go : List (Actor α) → Option (List (Row α) × List Nat)
    | [] => some ([], [])
    | a :: r =>
      match actorRows a skip static with
      | none => none
      | some (rows, res) =>
        match go r with
        | none => none
        | some (rows', res') => some (rows ++ rows', res ++ res')
  match go actors with
  | none => none
  | some (rows, seen) =>
    some (rows ++ (mons.filter fun m => !decide (m.id ∈ seen)).flatMap fun m =>
      m.quantities.map fun q => ⟨m.name, m.kind, resource, q.1, q.2, none⟩)

/-! ## Locations -/

/-- A recorded value of a location state. -/
inductive LVal where
  | xyz (x y z : Rat)
  | lla (lat lon alt : Rat)
  | marker (on : Bool)
deriving DecidableEq, Repr

/-- `LOCATION_DATA_ROW` (data_utils.py 22). -/
structure LRow where
  entity : Nat
  kind : Nat
  state : Nat
  time : Rat
  a : Rat
  b : Rat
  c : Rat
  status : Option Status
deriving DecidableEq, Repr

/-- The column names: X, Y, Z or Lat, Lon, Alt. -/
inductive Cols where
  | xyz
  | lla
deriving DecidableEq, Repr

/-- The inner loop of `_actor_location_data` (data_utils.py 164-174): data, `active_value`, `is_xyz`. -/
def locLoop (e k n : Nat) : List (Rat × LVal) → List LRow → Option Status → Bool → Option (List LRow × Bool)
  | [], data, _, x => some (data, x)
  | (_, .marker on) :: r, data, _, x =>
    match data.getLast? with
    | none => none
    | some row => locLoop e k n r (data.dropLast ++ [{ row with status := some (statusOf on) }]) (some (if on then .active else .inactive)) x
  | (t, .lla p q h) :: r, data, av, _ => locLoop e k n r (data ++ [⟨e, k, n, t, p, q, h, av⟩]) av false
  | (t, .xyz p q h) :: r, data, av, x => locLoop e k n r (data ++ [⟨e, k, n, t, p, q, h, av⟩]) av x

/-- An actor as far as `_actor_location_data` goes: its recorded location states in the order of `_state_histories`, with
whether they are active states. -/
structure LActor where
  name : Nat
  kind : Nat
  hists : List (Nat × Bool × List (Rat × LVal))

/-- `_actor_location_data` (data_utils.py 140-176). -/
def locActor (a : LActor) : List (Nat × Bool × List (Rat × LVal)) → List LRow → Bool → Option (List LRow × Cols)
  | [], data, x => some (data, if x then .xyz else .lla)
  | (n, act, h) :: r, data, x =>
    match locLoop a.name a.kind n h data (if act then some .inactive else none) x with
    | none => none
    | some (data', x') => locActor a r data' x'

/-- `create_location_table` (data_utils.py 236-261): `cols` keeps the value for the last actor, and is unbound without
actors. -/
def locTable : List LActor → List LRow → Option Cols → Option (List LRow × Cols)
  | [], _, none => none
  | [], data, some c => some (data, c)
  | a :: r, data, _ =>
    match locActor a a.hists [] true with
    | none => none
    | some (rows, c) => locTable r (data ++ rows) (some c)

def createLocationTable (actors : List LActor) : Option (List LRow × Cols) := locTable actors [] none

end Verif.Table
