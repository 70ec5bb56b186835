import Verif.Util.Recorded
import Verif.Util.Dict

/-!
# Model of dictionary and dataclass states

Source: `states.py` 1173-1239 (`_KeyValueBase`), 1291-1321 (`DictionaryState`), 1374-1405 (`DataclassState`),
`state_proxies.py` 29-40 (`_DictionaryProxy`), 100-136 (`_DataclassProxy`).

One state of one actor. Keys are numbered; values are immutable. Not modelled: recording functions (the same
rule as in `Verif/Rec`), the read-only methods of the proxies (they return the wrapped dictionary's), and
`raw_object`, whose changes are documented not to be recorded.
-/

namespace Verif.KeyVal

variable {V : Type}

/-- `recording`, `record_duplicates` as given by the user (states.py:1201-1202); `okType k v`: for a dictionary
`isinstance(v, types)` (the same for every key), for a dataclass `isinstance(v, annotation of k)`; `okObj`: whether
the dataclass object itself passes the type check; `same`: `_compare` on values; `fields`: the dataclass fields;
`attrs`: further attributes the object has (methods, properties). -/
structure Cfg (V : Type) where
  recording : Bool
  dup : Bool
  okType : Nat → V → Bool
  okObj : Bool
  same : V → V → Bool
  fields : List Nat
  attrs : Nat → Bool

/-- Clock, the wrapped dictionary or dataclass fields (`none` until set), histories named `state.key`. -/
structure St (V : Type) where
  now : Rat
  dict : Option (Dict Nat V)
  hist : Nat → List (Rat × V)

inductive Out (V : Type) where
  | ok
  | val (v : V)
  | raised
deriving DecidableEq

def upd {α : Type} (f : Nat → α) (i : Nat) (x : α) : Nat → α := fun i' => if i' = i then x else f i'

/-- `_record_single` (1204-1210): uses `self._record_duplicates`, which `__init__` (1195-1201) has set to `False`
whatever the user asked for. -/
def recordSingle (c : Cfg V) (s : St V) (k : Nat) (v : V) : St V :=
  { s with hist := upd s.hist k (Recorded.append false c.same (s.hist k) (s.now, v)) }

/-- `_record_state(all=True)` (1218-1236). -/
def recordAll (c : Cfg V) (s : St V) : List (Nat × V) → St V
  | [] => s
  | (k, v) :: kvs => recordAll c (if c.recording then recordSingle c s k v else s) kvs

/-- `_record_state(key)`: the value is looked up again. -/
def recordKey (c : Cfg V) (s : St V) (k : Nat) : St V :=
  if c.recording then
    match s.dict.bind (fun d => d.get? k) with
    | some v => recordSingle c s k v
    | none => s
  else s

/-- The loop of `DictionaryState.__set__` (1308-1310): each value is checked before it is stored; an exception
leaves the ones before it. -/
def fill (c : Cfg V) (d : Dict Nat V) : List (Nat × V) → Dict Nat V × Bool
  | [] => (d, true)
  | (k, v) :: kvs => if c.okType k v then fill c (d.set k v) kvs else (d, false)

/-- `DictionaryState.__set__` (1303-1312). -/
def create (c : Cfg V) (s : St V) (kvs : Dict Nat V) : St V × Out V :=
  match s.dict with
  | some _ => (s, .raised)
  | none =>
    match fill c [] kvs with
    | (d, true) => (recordAll c { s with dict := some d } d, .ok)
    | (d, false) => ({ s with dict := some d }, .raised)

/-- `_DictionaryProxy.__setitem__` (state_proxies.py:29-33): stores first, checks afterwards. -/
def setItem (c : Cfg V) (s : St V) (k : Nat) (v : V) : St V × Out V :=
  match s.dict with
  | none => (s, .raised)
  | some d =>
    let s := { s with dict := some (d.set k v) }
    if c.okType k v = false then (s, .raised) else (recordKey c s k, .ok)

/-- `_DictionaryProxy.setdefault` (35-39). -/
def setDefault (c : Cfg V) (s : St V) (k : Nat) (v : V) : St V × Out V :=
  match s.dict with
  | none => (s, .raised)
  | some d =>
    match d.get? k with
    | some w => (s, .val w)
    | none =>
      match setItem c s k v with
      | (s, .ok) => (s, .val v)
      | r => r

/-- `_DictionaryProxy.__getitem__` / `getattr` on the dataclass proxy. -/
def getItem (s : St V) (k : Nat) : Out V :=
  match s.dict.bind (fun d => d.get? k) with
  | some v => .val v
  | none => .raised

/-- `DataclassState.__set__` (states.py:1385-1392): only the object itself is type checked. `vals` gives the
field values; the object has exactly the fields of the class. -/
def createObj (c : Cfg V) (s : St V) (vals : Nat → V) : St V × Out V :=
  match s.dict with
  | some _ => (s, .raised)
  | none =>
    if c.okObj = false then (s, .raised) else
    let d := c.fields.map (fun k => (k, vals k))
    (recordAll c { s with dict := some d } d, .ok)

/-- `_DataclassProxy.__setattr__` (state_proxies.py:129-136) for a name other than the proxy's own three:
unknown names are ignored without an error; a name that is an attribute but no field has no annotation
(`KeyError` in `_typecheck`, 109-114). -/
def setAttr (c : Cfg V) (s : St V) (k : Nat) (v : V) : St V × Out V :=
  match s.dict with
  | none => (s, .raised)
  | some d =>
    if k ∈ c.fields then
      if c.okType k v = false then (s, .raised) else
      (recordKey c { s with dict := some (d.set k v) } k, .ok)
    else if c.attrs k then (s, .raised)
    else (s, .ok)

inductive Op (V : Type) where
  | create (kvs : Dict Nat V)
  | setItem (k : Nat) (v : V)
  | setDefault (k : Nat) (v : V)
  | get (k : Nat)
  | advance (dt : Rat)

/-- Operations on a dictionary state. -/
def stepD (c : Cfg V) (s : St V) : Op V → St V × Out V
  | .create kvs => create c s kvs
  | .setItem k v => setItem c s k v
  | .setDefault k v => setDefault c s k v
  | .get k => (s, getItem s k)
  | .advance dt => if 0 ≤ dt then ({ s with now := s.now + dt }, .ok) else (s, .raised)

inductive OpC (V : Type) where
  | create (vals : Nat → V)
  | set (k : Nat) (v : V)
  | get (k : Nat)
  | advance (dt : Rat)

/-- Operations on a dataclass state. -/
def stepC (c : Cfg V) (s : St V) : OpC V → St V × Out V
  | .create vals => createObj c s vals
  | .set k v => setAttr c s k v
  | .get k => (s, getItem s k)
  | .advance dt => if 0 ≤ dt then ({ s with now := s.now + dt }, .ok) else (s, .raised)

/-- Run with either step function; the trace has the time before each operation and its outcome. -/
def run {O : Type} (f : St V → O → St V × Out V) (s : St V) : List O → St V × List (Rat × O × Out V)
  | [] => (s, [])
  | op :: ops =>
    let r := run f (f s op).1 ops
    (r.1, (s.now, op, (f s op).2) :: r.2)

def init (t0 : Rat) : St V where
  now := t0
  dict := none
  hist := fun _ => []

end Verif.KeyVal
