import Verif.Util.Dict

/-!
# Model of making actors

Sources: `/repo/src/upstage_des/actor.py`: `__init_states` 64-103, `__actual_init__` 105-157, `__init_subclass__` 187-255 (the
collection of the states); `/repo/src/upstage_des/states.py`: `State.__init__` 89-172, `__set__` 245-267, `__get__` 269-280,
`_set_default` 285-304, `has_default` 306-314, `ResourceState` 918-1087, `CommunicationStore` 1090-1170, `DictionaryState.__set__`
1303-1312, `MultiStoreState` 1410-1527.

Actors and objects are numbered. Dictionaries that the caller passes are objects too, since the code changes one of them.
Classes are numbered; what Python knows about them is in `World`.

Not modelled here: recording, callbacks and listeners (`Verif.Rec`, `Verif.Active`), mimicking (`Verif.Mimic`), initial knowledge
(`Verif.Know`), groups of entities (`Verif.Ctx`), the other kinds of states (they take their value like plain ones, but for
`DictionaryState` and `DataclassState`: `Verif.KeyVal`), cloning (`Verif.Clone`). An exception is `raised`, whichever it is.
-/

namespace Verif.Build

/-- A Python value: `None`; something immutable; the `j`-th number drawn from the stage's random numbers; an object; a dictionary
that describes a resource; a dictionary or list for a `MultiStoreState`. -/
inductive Val where
  | none
  | atom (a : Nat)
  | drawn (j : Nat)
  | obj (i : Nat)
  | dict (d : Nat)
  | table (t : Nat)
deriving DecidableEq, Repr

/-- The contents of a dictionary that describes a resource: `"kind"`, `"modes"` (a string counts as a list of one), and the rest.
Simplified: a kind is a class, modes are strings. -/
structure Desc where
  kind : Option Nat
  modes : Option (List String)
  kw : Dict String Val
deriving DecidableEq, Repr

/-- `{}`. -/
def Desc.empty : Desc := ⟨none, none, []⟩

/-- What a `MultiStoreState` is given: a dictionary, or names only. -/
inductive Table where
  | named (l : Dict String Val)
  | names (l : List String)
deriving DecidableEq, Repr

/-- What Python knows: `issubclass`; `isinstance` for values that are not objects with a class of their own; whether calling a class
with these keyword arguments succeeds. -/
structure World where
  sub : Nat → Nat → Bool
  valIs : Val → Nat → Bool
  drawnIs : Nat → Bool
  accepts : Nat → Dict String Val → Option (List String) → Bool

/-- A default factory. Simplified: it makes a new object of some class, or takes the next random number. -/
inductive Fac where
  | make (c : Nat)
  | draw
deriving DecidableEq, Repr

/-- A plain `State` (states.py 130-172); `recs` are the names of its recording functions. -/
structure Plain where
  types : List Nat
  default : Val
  factory : Option Fac
  noInit : Bool
  frozen : Bool
  allowNone : Bool
  recs : List String
deriving DecidableEq, Repr

/-- `ResourceState`, `MultiStoreState` (states.py 955-992, 1456-1465): valid types, default class, default keyword arguments. -/
structure Res where
  valid : List Nat
  default : Option Nat
  kw : Dict String Val
deriving DecidableEq, Repr

/-- A state of a class. -/
inductive Def where
  | plain (p : Plain)
  | resource (r : Res)
  | comm (r : Res) (modes : Option (List String))
  | multi (r : Res)
deriving DecidableEq, Repr

/-- The checks of `State.__init__` (states.py 133-140). -/
def Def.ok : Def → Bool
  | .plain p =>
    !(decide (p.default ≠ .none) && p.factory.isSome) && !(p.noInit && !(decide (p.default ≠ .none) || p.factory.isSome))
  | _ => true

/-- The names of the recording functions; resource states have none. -/
def Def.recs : Def → List String
  | .plain p => p.recs
  | _ => []

/-- `_no_init`. -/
def Def.noInit : Def → Bool
  | .plain p => p.noInit
  | _ => false

/-- `has_default` (states.py 306-314, 1525-1527). -/
def Def.hasDefault : Def → Bool
  | .plain p => p.allowNone || decide (p.default ≠ .none) || p.factory.isSome
  | .resource r => r.default.isSome
  | .comm r _ => r.default.isSome
  | .multi _ => false

/-- `__init_subclass__` (actor.py 193-201): the states of the bases, oldest first; a name that is there twice is refused. -/
def collect : List (List (String × Def)) → Dict String Def → Option (Dict String Def)
  | [], all => some all
  | [] :: bases, all => collect bases all
  | ((n, d) :: l) :: bases, all => if all.has n then none else collect (l :: bases) (all.set n d)
termination_by bases => (bases.length, (bases.headD []).length)
decreasing_by all_goals simp_wf; first | (apply Prod.Lex.left; omega) | (apply Prod.Lex.right; omega)

/-- Objects below `next` exist, with their class and, for resources, the keyword arguments they were made with; the dictionaries; the
actors made so far with their classes' states; what the actors' `__dict__`s hold for each state (1038, 1155-1170); `beenSet`:
`_been_set` of the states; `count`: how many random numbers were drawn. -/
structure St where
  next : Nat
  cls : Nat → Nat
  given : Nat → Dict String Val
  dicts : Nat → Desc
  tables : Nat → Table
  actors : Nat
  defs : Nat → Dict String Def
  attrs : Nat → String → Option Val
  modes : Nat → String → Option (List String)
  beenSet : Nat → String → Bool
  count : Nat

inductive Out where
  | ok
  | made (a : Nat)
  | val (v : Val)
  | raised
  | impossible
deriving DecidableEq, Repr

def upd {α : Type} (f : Nat → α) (i : Nat) (x : α) : Nat → α := fun i' => if i' = i then x else f i'

def upd2 {α : Type} (f : Nat → String → α) (i : Nat) (n : String) (x : α) : Nat → String → α :=
  fun i' n' => if i' = i ∧ n' = n then x else f i' n'

/-- `isinstance`. -/
def isA (W : World) (s : St) (v : Val) (c : Nat) : Bool :=
  match v with
  | .obj i => W.sub (s.cls i) c
  | .drawn _ => W.drawnIs c
  | v => W.valIs v c

/-- `_type_check` (states.py 236-243). -/
def typeOk (W : World) (s : St) (types : List Nat) (v : Val) : Bool := types.isEmpty || types.any (isA W s v)

/-- `State.__set__` (states.py 245-267). -/
def setPlain (W : World) (s : St) (a : Nat) (n : String) (p : Plain) (v : Val) : St × Bool :=
  if p.frozen && (match s.attrs a n with | some w => decide (w ≠ .none) | none => false) then (s, false)
  else if typeOk W s p.types v then ({ s with attrs := upd2 s.attrs a n (some v) }, true)
  else (s, false)

/-- `dict.update`. -/
def update (d : Dict String Val) : Dict String Val → Dict String Val
  | [] => d
  | (k, v) :: l => update (d.set k v) l

/-- A new object of class `c`. -/
def newObj (s : St) (c : Nat) (kw : Dict String Val) : St :=
  { s with next := s.next + 1, cls := upd s.cls s.next c, given := upd s.given s.next kw }

/-- The part of `ResourceState.__set__` (states.py 1015-1042) that makes the resource described by a dictionary. -/
def setDesc (W : World) (s : St) (a : Nat) (n : String) (r : Res) (D : Desc) : St × Bool :=
  match D.kind.or r.default with
  | none => (s, false)
  | some c =>
    if !r.valid.isEmpty && !r.valid.any (W.sub c) then (s, false) else
    let kw := update r.kw D.kw
    if W.accepts c kw D.modes then
      ({ newObj s c kw with attrs := upd2 s.attrs a n (some (.obj s.next)), beenSet := upd2 s.beenSet a n true }, true)
    else (s, false)

/-- `ResourceState.__set__` (states.py 997-1049). -/
def setRes (W : World) (s : St) (a : Nat) (n : String) (r : Res) (v : Val) : St × Bool :=
  if s.beenSet a n then (s, false) else
  match v with
  | .dict d => setDesc W s a n r (s.dicts d)
  | v =>
    if r.valid.any (isA W s v) then
      ({ s with attrs := upd2 s.attrs a n (some v), beenSet := upd2 s.beenSet a n true }, true)
    else (s, false)

/-- The end of `CommunicationStore.__set__` (states.py 1161-1170). -/
def setModes (p : St × Bool) (a : Nat) (n : String) (modes : Option (List String)) : St × Bool :=
  match p.2, modes with
  | true, some m => ({ p.1 with modes := upd2 p.1.modes a n (some m) }, true)
  | _, _ => (p.1, false)

/-- `CommunicationStore.__set__` (states.py 1155-1170): `"modes"` is popped from the caller's dictionary. -/
def setComm (W : World) (s : St) (a : Nat) (n : String) (r : Res) (modes : Option (List String)) (v : Val) : St × Bool :=
  match v with
  | .dict d =>
    match (s.dicts d).modes with
    | some m => setModes (setRes W { s with dicts := upd s.dicts d { s.dicts d with modes := none } } a n r v) a n (some m)
    | none => setModes (setRes W s a n r v) a n modes
  | v => setModes (setRes W s a n r v) a n modes

/-- `_make_resource` (states.py 1481-1503): `none` for an exception. An object is not checked here (`_type_checker` 1467-1479 lets
everything pass that is not a class). -/
def makeOne (W : World) (s : St) (r : Res) (v : Val) : St × Option Val :=
  match v with
  | .dict d =>
    match (s.dicts d).kind.or r.default with
    | none => (s, none)
    | some c =>
      if !r.valid.isEmpty && !r.valid.any (W.sub c) then (s, none) else
      let kw := update r.kw (s.dicts d).kw
      if W.accepts c kw (s.dicts d).modes then (newObj s c kw, some (.obj s.next)) else (s, none)
  | v => (s, some v)

/-- The same for the `{}` of an entry that was given by its name only (states.py 1517-1518). -/
def makeEmpty (W : World) (s : St) (r : Res) : St × Option Val :=
  match r.default with
  | none => (s, none)
  | some c =>
    if !r.valid.isEmpty && !r.valid.any (W.sub c) then (s, none) else
    if W.accepts c (update r.kw []) none then (newObj s c (update r.kw []), some (.obj s.next)) else (s, none)

/-- The loop of `MultiStoreState.__set__` (states.py 1520-1521); `none` in place of a value stands for `{}`. -/
def makeAll (W : World) (r : Res) : St → List (String × Option Val) → Dict String Val → St × Option (Dict String Val)
  | s, [], use => (s, some use)
  | s, (k, v) :: l, use =>
    match (match v with | some v => makeOne W s r v | none => makeEmpty W s r) with
    | (s, some x) => makeAll W r s l (use.set k x)
    | (s, none) => (s, none)

/-- The entries of what a `MultiStoreState` is given (states.py 1517-1520). -/
def Table.entries : Table → List (String × Option Val)
  | .named l => l.map fun p => (p.1, some p.2)
  | .names l => l.foldl (fun d k => Dict.set d k none) []

/-- The loop of `DictionaryState.__set__` (states.py 1307-1310): the values that were accepted, and whether all were. -/
def accept (W : World) (s : St) (types : List Nat) : Dict String Val → Dict String Val → Dict String Val × Bool
  | d, [] => (d, true)
  | d, (k, v) :: l => if typeOk W s types v then accept W s types (d.set k v) l else (d, false)

/-- `MultiStoreState.__set__` (states.py 1505-1523) with `DictionaryState.__set__`. Simplified: what is neither a dictionary of
resources nor a list of names is refused. -/
def setMulti (W : World) (s : St) (a : Nat) (n : String) (r : Res) (v : Val) : St × Bool :=
  if (s.attrs a n).isSome then (s, false) else
  match v with
  | .table t =>
    match makeAll W r s (s.tables t).entries [] with
    | (s, none) => (s, false)
    | (s, some use) =>
      let p := accept W s r.valid [] use
      ({ s with next := s.next + 1, tables := upd s.tables s.next (.named p.1),
                attrs := upd2 s.attrs a n (some (.table s.next)) }, p.2)
  | _ => (s, false)

/-- `setattr(self, state, value)`. -/
def set (W : World) (s : St) (a : Nat) (n : String) (d : Def) (v : Val) : St × Bool :=
  match d with
  | .plain p => setPlain W s a n p v
  | .resource r => setRes W s a n r v
  | .comm r m => setComm W s a n r m v
  | .multi r => setMulti W s a n r v

/-- `_set_default` (states.py 285-304, 1046-1054); `{}` is not the caller's. -/
def setDefault (W : World) (s : St) (a : Nat) (n : String) (d : Def) : St × Bool :=
  match d with
  | .plain p =>
    match p.factory with
    | some (.make c) => setPlain W (newObj s c []) a n p (.obj s.next)
    | some .draw => setPlain W { s with count := s.count + 1 } a n p (.drawn s.count)
    | none => if p.default = .none then (s, p.allowNone) else setPlain W s a n p p.default
  | .resource r => if s.beenSet a n then (s, false) else setDesc W s a n r .empty
  | .comm r m => setModes (if s.beenSet a n then (s, false) else setDesc W s a n r .empty) a n m
  | .multi _ => (s, false)

/-- The first loop of `__init_states` (actor.py 66-79). -/
def initGiven (W : World) (a : Nat) (defs : Dict String Def) : St → List (String × Val) → St × Bool
  | s, [] => (s, true)
  | s, (n, v) :: l =>
    match defs.get? n with
    | none => (s, false)
    | some d =>
      if d.noInit then (s, false) else
      match set W s a n d v with
      | (s, true) => initGiven W a defs s l
      | (s, false) => (s, false)

/-- The second loop (actor.py 82-86): states without default are left out; the result tells whether there were any. -/
def initRest (W : World) (a : Nat) (defs : Dict String Def) : St → List String → St × Option Bool
  | s, [] => (s, some true)
  | s, n :: l =>
    match defs.get? n with
    | none => (s, none)
    | some d =>
      if d.hasDefault then
        match setDefault W s a n d with
        | (s, true) => initRest W a defs s l
        | (s, false) => (s, none)
      else
        match initRest W a defs s l with
        | (s, some _) => (s, some false)
        | (s, none) => (s, none)

/-- The states that were not given (actor.py 80-81). It is a set: the order of the loop over it is up to Python. -/
def unseen (defs : Dict String Def) (args : List (String × Val)) : List String :=
  defs.keys.filter fun n => decide (n ∉ args.map (·.1))

/-- The names of states and recording functions (actor.py 94-99). -/
def allNames (defs : Dict String Def) : List String := defs.flatMap fun p => p.1 :: p.2.recs

/-- `__actual_init__` (actor.py 105-157) with `__init_states` (64-103); `order` is the order of the set of states not given. The actor is
registered first (131). Python refuses an argument that is given twice. -/
def construct (W : World) (s : St) (defs : Dict String Def) (args : List (String × Val)) (order : List String) : St × Out :=
  if !(order.isPerm (unseen defs args)) || !decide (args.map (·.1)).Nodup then (s, .impossible) else
  let a := s.actors
  let s := { s with actors := s.actors + 1, defs := upd s.defs a defs }
  match initGiven W a defs s args with
  | (s, false) => (s, .raised)
  | (s, true) =>
    match initRest W a defs s order with
    | (s, some true) =>
      if "log" ∈ defs.keys then (s, .raised)
      else if (allNames defs).Nodup then (s, .made a) else (s, .raised)
    | (s, _) => (s, .raised)

/-- Reading a state (states.py 269-280, 1056-1065, 1298-1301). -/
def read (W : World) (s : St) (a : Nat) (n : String) : St × Out :=
  match (s.defs a).get? n with
  | none => (s, .raised)
  | some d =>
    match s.attrs a n with
    | some v => (s, .val v)
    | none =>
      match d with
      | .resource _ | .comm _ _ =>
        match setDefault W s a n d with
        | (s, true) => match s.attrs a n with
          | some v => (s, .val v)
          | none => (s, .raised)
        | (s, false) => (s, .raised)
      | _ => (s, .raised)

/-- The value refers to something that exists. -/
def known (s : St) : Val → Bool
  | .obj i => decide (i < s.next)
  | .dict d => decide (d < s.next)
  | .table t => decide (t < s.next)
  | .drawn j => decide (j < s.count)
  | _ => true

/-- A Python dictionary of existing things. -/
def knownDict (s : St) (d : Dict String Val) : Bool := decide d.keys.Nodup && d.all fun p => known s p.2

def knownTable (s : St) : Table → Bool
  | .named l => knownDict s l
  | .names _ => true

/-- The defaults of the states exist. -/
def knownDef (s : St) : Def → Bool
  | .plain p => known s p.default
  | .resource r => knownDict s r.kw
  | .comm r _ => knownDict s r.kw
  | .multi r => knownDict s r.kw

/-- What the user does; arguments refer to existing things. -/
inductive Op where
  | newObj (c : Nat)
  | newDict (D : Desc)
  | newTable (T : Table)
  | construct (defs : Dict String Def) (args : List (String × Val)) (order : List String)
  | assign (a : Nat) (n : String) (v : Val)
  | read (a : Nat) (n : String)

/-- One operation of the user. -/
def step (W : World) (s : St) : Op → St × Out
  | .newObj c => (newObj s c [], .val (.obj s.next))
  | .newDict D => if !knownDict s D.kw then (s, .impossible) else ({ s with next := s.next + 1, dicts := upd s.dicts s.next D }, .val (.dict s.next))
  | .newTable T => if !knownTable s T then (s, .impossible) else ({ s with next := s.next + 1, tables := upd s.tables s.next T }, .val (.table s.next))
  | .construct defs args order =>
    if (args.all fun p => known s p.2) && decide defs.keys.Nodup && defs.all (fun p => p.2.ok && knownDef s p.2) then
      construct W s defs args order
    else (s, .impossible)
  | .assign a n v =>
    match (s.defs a).get? n with
    | none => (s, .impossible)
    | some d =>
      if !known s v then (s, .impossible) else
      match set W s a n d v with
      | (s, true) => (s, .ok)
      | (s, false) => (s, .raised)
  | .read a n => read W s a n

def run (W : World) (s : St) : List Op → St
  | [] => s
  | op :: ops => run W (step W s op).1 ops

def init : St where
  next := 0
  cls := fun _ => 0
  given := fun _ => []
  dicts := fun _ => .empty
  tables := fun _ => .named []
  actors := 0
  defs := fun _ => []
  attrs := fun _ _ => none
  modes := fun _ _ => none
  beenSet := fun _ _ => false
  count := 0

end Verif.Build
