import Verif.Util.Dict
import Verif.Util.Recorded

/-!
# Model of the objects behind dictionary and dataclass states

Source: `state_proxies.py` 16-144 (`_DictionaryProxy`, `_DataclassProxy`), `states.py` 1173-1239 (`_KeyValueBase`),
1298-1321 (`DictionaryState`), 1382-1405 (`DataclassState`), `actor.py` 957-1024 (`clone`, as far as it concerns these
states and their histories), 65-103 (`__init_states`: every state is set once).

`Verif.KeyVal` has one state of one actor. Here the dictionaries and data objects live in a heap, so that it can be said
who shares an object with whom: any number of actors, the objects the program holds itself (handles), and the proxies
it got from `actor.state` and kept. Values are immutable and compared by equality.

Left out: recording functions (`Verif.Rec`), the class attributes of dataclasses that are no fields (`Verif.KeyVal`),
`__post_init__`, default factories, the three names of a `_DataclassProxy`'s own attributes, a proxy given where a data
object is expected, changing a dictionary while iterating over it, the environment of a clone (`Verif.Rehearse`).
-/

namespace Verif.Proxy

variable {V : Type}

/-- A field of a dataclass: `init` is that of `dataclasses.field`, `default` what the generated `__init__` gives to a
field with `init=False`, `own` whether the annotation is in the class itself or inherited. -/
structure Field (V : Type) where
  name : String
  init : Bool
  default : V
  own : Bool

/-- A dataclass; `ok k v` is `isinstance(v, annotation of k)`. -/
structure Cls (V : Type) where
  fields : List (Field V)
  frozen : Bool
  ok : String → V → Bool

/-- A dictionary, or an instance of a dataclass with its attributes in the order of the fields. -/
inductive Obj (V : Type) where
  | dict (d : Dict String V)
  | data (c : Nat) (d : Dict String V)
deriving DecidableEq

inductive Kind where
  | dict
  | data
deriving DecidableEq

/-- A state: `recording` as given by the user, `okVal` the type check of the values of a dictionary, `okCls` that of
the data object (`none`: it is a dictionary). Without `valid_types` everything passes (states.py:238). -/
structure Def (V : Type) where
  kind : Kind
  recording : Bool
  okVal : V → Bool
  okCls : Option Nat → Bool

/-- The dataclasses, and the states of the class of actors. -/
structure Cfg (V : Type) where
  cls : Nat → Cls V
  states : Dict Nat (Def V)

/-- `instance.__dict__`, as far as it holds these states (the address of the object), and `_state_histories`, named
`state.key`. -/
structure Actor (V : Type) where
  attr : Dict Nat Nat
  hist : Nat → String → List (Rat × V)

/-- `_DictionaryProxy` or `_DataclassProxy` (state_proxies.py 19-27, 97-102): instance, descriptor and `_wrapped`. -/
structure Px (V : Type) where
  actor : Nat
  state : Nat
  df : Def V
  ref : Nat

/-- The clock, the heap, the actors, the objects the program has in its hands, and the proxies it has got. -/
structure St (V : Type) where
  now : Rat
  heap : List (Obj V)
  actors : List (Actor V)
  mine : List Nat
  px : List (Px V)

inductive Out (V : Type) where
  | done
  | raised
  | impossible
  | handle (h : Nat)
  | actor (a : Nat)
  | proxy (p : Nat)
  | val (v : V)
  | bool (b : Bool)
  | num (n : Nat)
  | keys (l : List String)
  | items (l : List (String × V))
deriving DecidableEq

/-- What is given for a state when an actor is built: an object of the program, or a proxy. -/
inductive Arg where
  | mine (h : Nat)
  | proxy (p : Nat)

section
variable [DecidableEq V]

/-- `dict.__eq__`: as many entries, and every one of the first is in the second. -/
def dictEq (d e : Dict String V) : Bool := decide (d.length = e.length) && d.all fun p => decide (Dict.get? e p.1 = some p.2)

/-- The `__eq__` a dataclass has: same class and the fields in order. -/
def objEq : Obj V → Obj V → Bool
  | .dict d, .dict e => dictEq d e
  | .data c d, .data c' e => decide (c = c') && decide (d = e)
  | _, _ => false

/-- `_record_single` (states.py:1204-1210) on the history of one key; duplicates are never recorded. -/
def recordSingle (now : Rat) (h : List (Rat × V)) (v : V) : List (Rat × V) :=
  Recorded.append false (fun a b => decide (a = b)) h (now, v)

def upd {α β : Type} [DecidableEq α] (f : α → β) (i : α) (x : β) : α → β := fun j => if j = i then x else f j

/-- `_record_state(instance, key)` (1218-1236) for one key with its value. -/
def recordKey (df : Def V) (now : Rat) (n : Nat) (k : String) (v : V) (a : Actor V) : Actor V :=
  if df.recording then { a with hist := upd a.hist n (upd (a.hist n) k (recordSingle now (a.hist n k) v)) } else a

/-- `_record_state(instance, all=True)` (1227-1229). -/
def recordAll (df : Def V) (now : Rat) (n : Nat) (d : Dict String V) (a : Actor V) : Actor V :=
  d.foldl (fun a p => recordKey df now n p.1 p.2 a) a

/-- The entries of an object: `items()`, or the fields with their values (1396-1399). -/
def entries : Obj V → Dict String V
  | .dict d => d
  | .data _ d => d

/-- The loop of `DictionaryState.__set__` (1308-1310), stopping at the first value of a wrong type. -/
def fill (df : Def V) : Dict String V → Dict String V → Option (Dict String V)
  | d, [] => some d
  | d, (k, v) :: r => if df.okVal v then fill df (d.set k v) r else none

/-- `DictionaryState.__set__` (1303-1312): a new dictionary with the entries of the given one. The constructor sets
each state once; when a check fails the exception leaves the constructor and the actor is lost. -/
def setDict (df : Def V) (σ : St V) (n : Nat) (d : Dict String V) (a : Actor V) : Option (St V × Actor V) :=
  if a.attr.has n then none else
  match fill df [] d with
  | none => none
  | some e => some ({ σ with heap := σ.heap ++ [.dict e] }, recordAll df σ.now n e { a with attr := a.attr.set n σ.heap.length })

/-- `DataclassState.__set__` (1385-1392): the object itself. `_get_keys_values` (1394-1399) raises if it is a dictionary. -/
def setData (df : Def V) (σ : St V) (n : Nat) (r : Nat) (a : Actor V) : Option (St V × Actor V) :=
  if a.attr.has n then none else
  match σ.heap[r]? with
  | none => none
  | some (.dict _) => if df.okCls none && !df.recording then some (σ, { a with attr := a.attr.set n r }) else none
  | some (.data c d) => if df.okCls (some c) then some (σ, recordAll df σ.now n d { a with attr := a.attr.set n r }) else none

/-- The address and the contents behind an argument. -/
def look (σ : St V) : Arg → Option (Nat × Obj V)
  | .mine h => (σ.mine[h]?).bind fun r => (σ.heap[r]?).map (r, ·)
  | .proxy p => (σ.px[p]?).bind fun x => (σ.heap[x.ref]?).map (x.ref, ·)

/-- One state of the constructor. An object without `items` given to a dictionary state raises, and so does a proxy of
a dataclass; a proxy given to a dataclass state is not modelled. -/
def setArg (df : Def V) (σ : St V) (n : Nat) (x : Arg) (a : Actor V) : Option (St V × Actor V) :=
  match look σ x with
  | none => none
  | some (r, o) =>
    match df.kind, o, x with
    | .dict, .dict d, _ => setDict df σ n d a
    | .dict, .data _ _, _ => none
    | .data, _, .mine _ => setData df σ n r a
    | .data, _, .proxy _ => none

/-- The loop of `__init_states` (actor.py 67-79) over the keyword arguments; an unknown name raises. -/
def setAll (C : Cfg V) : List (Nat × Arg) → St V → Actor V → Option (St V × Actor V)
  | [], σ, a => some (σ, a)
  | (n, x) :: r, σ, a =>
    match C.states.get? n with
    | none => none
    | some df =>
      match setArg df σ n x a with
      | none => none
      | some (σ', a') => setAll C r σ' a'

def fresh : Actor V := ⟨[], fun _ _ => []⟩

/-- The constructor of the class of actors; these states have no defaults, so that all must be given (80-91). -/
def build (C : Cfg V) (σ : St V) (args : Dict Nat Arg) : St V × Out V :=
  match setAll C args σ fresh with
  | none => (σ, .raised)
  | some (τ, a) => if !C.states.all (fun p => a.attr.has p.1) then (σ, .raised) else ({ τ with actors := τ.actors ++ [a] }, .actor τ.actors.length)

/-- `dataclasses.replace` without changes: the constructor is called with the fields that take part in it. -/
def replaced (C : Cls V) (d : Dict String V) : Dict String V :=
  d.map fun p =>
    match C.fields.find? fun f => f.name == p.1 with
    | some f => if f.init then p else (p.1, f.default)
    | none => p

/-- `_make_clone` of a state (states.py 1320-1321, 1404-1405) and setting the result on the new actor: the copy of a
dictionary is copied once more by `__set__`; a data object is replaced by a new one. `replace` raises for a dictionary. -/
def cloneState (C : Cfg V) (σ : St V) (n : Nat) (r : Nat) (df : Def V) (a : Actor V) : Option (St V × Actor V) :=
  match df.kind, σ.heap[r]? with
  | .dict, some (.dict d) => setDict df σ n d a
  | .data, some (.data c d) =>
    setData df { σ with heap := σ.heap ++ [.data c (replaced (C.cls c) d)] } n σ.heap.length a
  | _, _ => none

/-- The loop over the states (actor.py 988-997) with the construction. -/
def cloneAll (C : Cfg V) (src : Actor V) : List (Nat × Def V) → St V → Actor V → Option (St V × Actor V)
  | [], σ, a => some (σ, a)
  | (n, df) :: l, σ, a =>
    match src.attr.get? n with
    | none => none
    | some r =>
      match cloneState C σ n r df a with
      | none => none
      | some (σ', a') => cloneAll C src l σ' a'

/-- `Actor.clone` (957-1024): the histories named `state.key` are not among those copied (1022-1024), only what the
constructor records is there. -/
def clone (C : Cfg V) (σ : St V) (i : Nat) : St V × Out V :=
  match σ.actors[i]? with
  | none => (σ, .impossible)
  | some a =>
    match cloneAll C a C.states σ fresh with
    | none => (σ, .raised)
    | some (τ, b) => ({ τ with actors := τ.actors ++ [b] }, .actor τ.actors.length)

/-- `actor.state`: `__get__` of the two states (states.py 1298-1301, 1382-1383); a `_DataclassProxy` refuses a dictionary
(state_proxies.py:100-101). -/
def getState (C : Cfg V) (σ : St V) (i n : Nat) : St V × Out V :=
  match σ.actors[i]? with
  | none => (σ, .impossible)
  | some a =>
    match a.attr.get? n, C.states.get? n with
    | none, _ => (σ, .raised)
    | _, none => (σ, .raised)
    | some r, some df =>
      match df.kind, σ.heap[r]? with
      | .data, some (.dict _) => (σ, .raised)
      | _, _ => ({ σ with px := σ.px ++ [⟨i, n, df, r⟩] }, .proxy σ.px.length)

/-- Storing into the object at an address. -/
def store (σ : St V) (r : Nat) (k : String) (v : V) : St V :=
  match σ.heap[r]? with
  | some (.dict d) => { σ with heap := σ.heap.set r (.dict (d.set k v)) }
  | some (.data c d) => { σ with heap := σ.heap.set r (.data c (d.set k v)) }
  | none => σ

/-- Recording a key after a write: the value is looked up in `instance.__dict__` (states.py 1231, 1317-1318, 1401-1402). -/
def recordWrite (σ : St V) (x : Px V) (k : String) : St V :=
  match σ.actors[x.actor]? with
  | none => σ
  | some a =>
    match (a.attr.get? x.state).bind fun r => (σ.heap[r]?).bind fun o => (entries o).get? k with
    | none => σ
    | some v => { σ with actors := σ.actors.set x.actor (recordKey x.df σ.now x.state k v a) }

/-- `_DictionaryProxy.__setitem__` (state_proxies.py 29-33): stores, then checks. -/
def setItem (σ : St V) (x : Px V) (k : String) (v : V) : St V × Out V :=
  if x.df.okVal v then (recordWrite (store σ x.ref k v) x k, .done) else (store σ x.ref k v, .raised)

/-- `_DictionaryProxy.setdefault` (35-39). -/
def setDefault (σ : St V) (x : Px V) (d : Dict String V) (k : String) (v : V) : St V × Out V :=
  match d.get? k with
  | some w => (σ, .val w)
  | none =>
    match setItem σ x k v with
    | (τ, .done) => (τ, .val v)
    | r => r

/-- `_DataclassProxy.__setattr__` (129-136) with `_typecheck` (109-114): an unknown name is ignored; the annotation is
looked up in the class only; a frozen dataclass raises. -/
def setAttr (C : Cfg V) (σ : St V) (x : Px V) (c : Nat) (d : Dict String V) (k : String) (v : V) : St V × Out V :=
  if d.has k then
    match (C.cls c).fields.find? fun f => f.name == k with
    | none => (σ, .raised)
    | some f =>
      if !f.own then (σ, .raised)
      else if !(C.cls c).ok k v then (σ, .raised)
      else if (C.cls c).frozen then (σ, .raised)
      else (recordWrite (store σ x.ref k v) x k, .done)
  else (σ, .done)

/-- What may be done with a proxy. -/
inductive POp (V : Type) where
  | setItem (k : String) (v : V)
  | setDefault (k : String) (v : V)
  | getItem (k : String)
  | has (k : String)
  | len
  | keys
  | items
  | setAttr (k : String) (v : V)
  | getAttr (k : String)
  | eqMine (h : Nat)
  | eqProxy (q : Nat)
  | raw

/-- A key or field of an object. -/
def valueAt (d : Dict String V) (k : String) : Out V :=
  match d.get? k with
  | some v => .val v
  | none => .raised

/-- The methods of `_DictionaryProxy` (29-90); others are missing and raise. A proxy is no `dict`, so two proxies are
never equal (87-90). -/
def dictOp (σ : St V) (x : Px V) (d : Dict String V) : POp V → St V × Out V
  | .setItem k v => setItem σ x k v
  | .setDefault k v => setDefault σ x d k v
  | .getItem k => (σ, valueAt d k)
  | .has k => (σ, .bool (d.has k))
  | .len => (σ, .num d.length)
  | .keys => (σ, .keys d.keys)
  | .items => (σ, .items d)
  | .setAttr _ _ => (σ, .impossible)
  | .getAttr _ => (σ, .raised)
  | .eqMine h =>
    match look σ (.mine h) with
    | none => (σ, .impossible)
    | some (_, .dict e) => (σ, .bool (dictEq e d))
    | some _ => (σ, .bool false)
  | .eqProxy q => if q < σ.px.length then (σ, .bool false) else (σ, .impossible)
  | .raw => ({ σ with mine := σ.mine ++ [x.ref] }, .handle σ.mine.length)

/-- The methods of `_DataclassProxy` (104-141): a proxy of a dataclass passes for a dataclass and hands the comparison on,
a dictionary and its proxies do not. -/
def dataOp (C : Cfg V) (σ : St V) (x : Px V) (c : Nat) (d : Dict String V) : POp V → St V × Out V
  | .setAttr k v => setAttr C σ x c d k v
  | .getAttr k => (σ, valueAt d k)
  | .eqMine h =>
    match look σ (.mine h) with
    | none => (σ, .impossible)
    | some (_, .dict _) => (σ, .bool false)
    | some (_, o) => (σ, .bool (objEq o (.data c d)))
  | .eqProxy q =>
    match look σ (.proxy q) with
    | none => (σ, .impossible)
    | some (_, .dict _) => (σ, .bool false)
    | some (_, o) => (σ, .bool (objEq (.data c d) o))
  | .raw => ({ σ with mine := σ.mine ++ [x.ref] }, .handle σ.mine.length)
  | _ => (σ, .raised)

def pop (C : Cfg V) (σ : St V) (p : Nat) (op : POp V) : St V × Out V :=
  match σ.px[p]? with
  | none => (σ, .impossible)
  | some x =>
    match σ.heap[x.ref]? with
    | none => (σ, .impossible)
    | some (.dict d) => dictOp σ x d op
    | some (.data c d) => dataOp C σ x c d op

/-- The generated `__init__` of a dataclass given the values of its fields. -/
def made (C : Cls V) (vals : String → V) : Dict String V :=
  C.fields.map fun f => (f.name, if f.init then vals f.name else f.default)

/-- What a program does: objects of its own, actors, clones, proxies; time passes. -/
inductive Op (V : Type) where
  | newDict (d : Dict String V)
  | newData (c : Nat) (vals : String → V)
  | write (h : Nat) (k : String) (v : V)
  | read (h : Nat) (k : String)
  | build (args : Dict Nat Arg)
  | clone (a : Nat)
  | get (a n : Nat)
  | use (p : Nat) (op : POp V)
  | advance (dt : Rat)

/-- A write to an object in the program's hands: `d[k] = v`, or `o.k = v` for a field of a dataclass that is not frozen. -/
def write (C : Cfg V) (σ : St V) (h : Nat) (k : String) (v : V) : St V × Out V :=
  match look σ (.mine h) with
  | none => (σ, .impossible)
  | some (r, .dict _) => (store σ r k v, .done)
  | some (r, .data c d) =>
    if !d.has k then (σ, .impossible) else if (C.cls c).frozen then (σ, .raised) else (store σ r k v, .done)

def step (C : Cfg V) (σ : St V) : Op V → St V × Out V
  | .newDict d =>
    if d.keys.Nodup then ({ σ with heap := σ.heap ++ [.dict d], mine := σ.mine ++ [σ.heap.length] }, .handle σ.mine.length)
    else (σ, .impossible)
  | .newData c vals =>
    ({ σ with heap := σ.heap ++ [.data c (made (C.cls c) vals)], mine := σ.mine ++ [σ.heap.length] }, .handle σ.mine.length)
  | .write h k v => write C σ h k v
  | .read h k =>
    match look σ (.mine h) with
    | none => (σ, .impossible)
    | some (_, o) => (σ, valueAt (entries o) k)
  | .build args => build C σ args
  | .clone i => clone C σ i
  | .get i n => getState C σ i n
  | .use p op => pop C σ p op
  | .advance dt => if 0 ≤ dt then ({ σ with now := σ.now + dt }, .done) else (σ, .raised)

def init (t0 : Rat) : St V := ⟨t0, [], [], [], []⟩

def run (C : Cfg V) : List (Op V) → St V → St V × List (Out V)
  | [], σ => (σ, [])
  | op :: l, σ => ((run C l (step C σ op).1).1, (step C σ op).2 :: (run C l (step C σ op).1).2)

end

end Verif.Proxy
