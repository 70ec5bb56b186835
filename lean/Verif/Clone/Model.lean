import Verif.Util.Dict

/-!
# Model of `Actor.clone` with the sharing of mutable objects

Source: `actor.py` 957-1040 (`clone`), 715-814 (task queues), `states.py` 919-1090 (`ResourceState.__set__`,
`ResourceState._make_clone`), 1320-1321, 1404-1405 (`_make_clone` of the key/value states).

What matters to independence is which mutable objects two actors share, so values live in a heap: a value is an
immutable atom or the address of an object, and an object is the list of the values it holds (list, dictionary, data
object, the items of a store, the level of a container). The lists of the task queues are kept in a heap of their own.
Any number of actors exist, each known by its position; a clone is appended.

Left out: the checks of the state descriptors (frozen, types, recording: `Verif.Rec`), the rules of the knowledge methods
(`Verif.Know`), state histories (deep-copied), the debug log, the class attributes, `new_states` and the environment of the
clone (`Verif.Rehearse`). `getattr` on an active state advances it before it is copied (`Verif.Active`).
-/

namespace Verif.Clone

/-- A Python value: immutable, or a reference to a mutable object. -/
inductive Val where
  | atom (a : Nat)
  | ref (a : Nat)
deriving DecidableEq

/-- The classes of state descriptors that `clone` tells apart (actor.py:991-998). -/
inductive Kind where
  | plain
  | resource
  | keyed
deriving DecidableEq

/-- A state of an actor. `memory` says if `_memory_for_<state>` exists: a `ResourceState` set from a dictionary has it
(states.py:1054), one set from a resource object does not (1018-1023). -/
structure Slot where
  kind : Kind
  memory : Bool
  val : Val
deriving DecidableEq

/-- States, `_knowledge`, `_task_queue` (network to the address of its list) and `_num_clones` of an actor. -/
structure Actor where
  states : Dict Nat Slot
  know : Dict Nat Val
  queues : Dict Nat Nat
  clones : Nat
deriving DecidableEq

structure World where
  obj : Nat → List Val
  nextObj : Nat
  lst : Nat → List Nat
  nextLst : Nat
  actors : List Actor

def upd {α : Type} (f : Nat → α) (i : Nat) (x : α) : Nat → α := fun j => if j = i then x else f j

/-- A new object. -/
def alloc (w : World) (c : List Val) : World × Val :=
  ({ w with obj := upd w.obj w.nextObj c, nextObj := w.nextObj + 1 }, .ref w.nextObj)

/-- A new list. -/
def allocL (w : World) (c : List Nat) : World × Nat :=
  ({ w with lst := upd w.lst w.nextLst c, nextLst := w.nextLst + 1 }, w.nextLst)

/-- `copy.copy` of a value; also `list(copy.items)`, `dict.copy`, `dataclasses.replace`: a new object holding the same
values. -/
def copyVal (w : World) : Val → World × Val
  | .atom a => (w, .atom a)
  | .ref a => alloc w (w.obj a)

/-- The loop over the states (actor.py:990-998). `_make_clone` of a `ResourceState` reads `_memory_for_<state>` of the
original (states.py:1083) and the copy is given to the new actor as a resource object. -/
def cloneStates (w : World) : Dict Nat Slot → World × Option (Dict Nat Slot)
  | [] => (w, some [])
  | (n, s) :: r =>
    if s.kind = .resource ∧ s.memory = false then (w, none) else
    match cloneStates (copyVal w s.val).1 r with
    | (w2, some r') =>
      (w2, some ((n, { kind := s.kind, memory := s.memory && s.kind ≠ .resource, val := (copyVal w s.val).2 }) :: r'))
    | (w2, none) => (w2, none)

/-- The copies of the knowledge (1026-1028). -/
def cloneKnow (w : World) : Dict Nat Val → World × Dict Nat Val
  | [] => (w, [])
  | (n, v) :: r =>
    ((cloneKnow (copyVal w v).1 r).1, (n, (copyVal w v).2) :: (cloneKnow (copyVal w v).1 r).2)

/-- A value made by the caller: an atom, or a new object holding atoms. -/
inductive New where
  | atom (a : Nat)
  | obj (c : List Nat)
deriving DecidableEq

def mk (w : World) : New → World × Val
  | .atom a => (w, .atom a)
  | .obj c => alloc w (c.map .atom)

/-- The additional knowledge, copied (1030-1031). -/
def addKnow (w : World) (k : Dict Nat Val) : List (Nat × New) → World × Dict Nat Val
  | [] => (w, k)
  | (n, x) :: r =>
    addKnow (copyVal (mk w x).1 (mk w x).2).1 (k.set n (copyVal (mk w x).1 (mk w x).2).2) r

inductive Out where
  | done
  | raised
  | made (k : Nat)
  | impossible
deriving DecidableEq

def setActor (w : World) (i : Nat) (a : Actor) : World := { w with actors := w.actors.set i a }

/-- `Actor.clone` (957-1040). A failure while the states are copied leaves only unreferenced objects behind. The
dictionary of queues is copied, the lists in it are not (1033). -/
def clone (w : World) (i : Nat) (a : Actor) (extra : List (Nat × New)) : World × Out :=
  match cloneStates w a.states with
  | (w1, none) => (w1, .raised)
  | (w1, some sts) =>
    let w2 := setActor w1 i { a with clones := a.clones + 1 }
    let r3 := cloneKnow w2 a.know
    let r4 := addKnow r3.1 r3.2 extra
    ({ r4.1 with actors := r4.1.actors ++ [⟨sts, r4.2, a.queues, 0⟩] }, .made r4.1.actors.length)

/-- Where the right-hand side of an assignment comes from: new, or something the same actor already holds. -/
inductive Src where
  | new (x : New)
  | state (m : Nat)
  | know (m : Nat)
deriving DecidableEq

def eval (w : World) (a : Actor) : Src → Option (World × Val)
  | .new x => some (mk w x)
  | .state m => (a.states.get? m).map fun s => (w, s.val)
  | .know m => (a.know.get? m).map fun v => (w, v)

/-- Follow element positions through objects. -/
def follow (w : World) : Val → List Nat → Option Nat
  | .atom _, _ => none
  | .ref a, [] => some a
  | .ref a, k :: p =>
    match (w.obj a)[k]? with
    | some v => follow w v p
    | none => none

inductive Loc where
  | state (n : Nat)
  | know (n : Nat)
deriving DecidableEq

def locVal (a : Actor) : Loc → Option Val
  | .state n => (a.states.get? n).map Slot.val
  | .know n => a.know.get? n

/-- What code holding an actor does with it. -/
inductive AOp where
  /-- `actor.state = value` -/
  | setState (n : Nat) (x : Src)
  /-- `set_knowledge(name, value)` -/
  | setKnow (n : Nat) (x : Src)
  /-- `clear_knowledge(name)` -/
  | clearKnow (n : Nat)
  /-- Change in place an object reached from a state or a piece of knowledge (a put or get on a store, an entry of a
  dictionary state, `actor.state.append(..)`, or the same on an object inside). -/
  | poke (l : Loc) (path : List Nat) (c : List Nat)
  | addNet (n : Nat)
  | clearQ (n : Nat)
  | setQ (n : Nat) (ts : List Nat)
  /-- `get_task_queue(n).append(t)` -/
  | appendQ (n t : Nat)
  | beginTask (n t : Nat)
  | clearTask (n : Nat)
  | clone (extra : List (Nat × New))
deriving DecidableEq

/-- `_clear_task` (790-795). -/
def clearTask (w : World) (a : Actor) (n : Nat) : World × Out :=
  match a.queues.get? n with
  | none => (w, .raised)
  | some q =>
    match w.lst q with
    | [] => (w, .raised)
    | _ :: r => ({ w with lst := upd w.lst q r }, .done)

/-- `set_task_queue` (738-751). -/
def setQ (w : World) (i : Nat) (a : Actor) (n : Nat) (ts : List Nat) : World × Out :=
  match a.queues.get? n with
  | none => (w, .raised)
  | some q =>
    if w.lst q ≠ [] then (w, .raised) else
    (setActor (allocL w ts).1 i { a with queues := a.queues.set n w.nextLst }, .done)

/-- `_begin_next_task` (797-814). -/
def beginTask (w : World) (i : Nat) (a : Actor) (n t : Nat) : World × Out :=
  match a.queues.get? n with
  | none => (w, .raised)
  | some q =>
    match w.lst q with
    | u :: r => if u ≠ t then (w, .raised) else ({ w with lst := upd w.lst q r }, .done)
    | [] =>
      ({ (setActor (allocL w [t]).1 i { a with queues := a.queues.set n w.nextLst }) with
          lst := upd (allocL w [t]).1.lst w.nextLst [] }, .done)

/-- An operation on actor `i`. A `ResourceState` cannot be assigned again (states.py:1009-1014). -/
def stepA (w : World) (i : Nat) (a : Actor) : AOp → World × Out
  | .setState n x =>
    match a.states.get? n with
    | none => (w, .raised)
    | some s =>
      if s.kind = .resource then (w, .raised) else
      match eval w a x with
      | none => (w, .raised)
      | some (w1, v) => (setActor w1 i { a with states := a.states.set n { s with val := v } }, .done)
  | .setKnow n x =>
    match eval w a x with
    | none => (w, .raised)
    | some (w1, v) => (setActor w1 i { a with know := a.know.set n v }, .done)
  | .clearKnow n =>
    if a.know.has n then (setActor w i { a with know := a.know.del n }, .done) else (w, .raised)
  | .poke l p c =>
    match (locVal a l).bind fun v => follow w v p with
    | none => (w, .raised)
    | some o => ({ w with obj := upd w.obj o (c.map .atom) }, .done)
  | .addNet n =>
    (setActor (allocL w []).1 i { a with queues := a.queues.set n w.nextLst }, .done)
  | .clearQ n =>
    (setActor (allocL w []).1 i { a with queues := a.queues.set n w.nextLst }, .done)
  | .setQ n ts => setQ w i a n ts
  | .appendQ n t =>
    match a.queues.get? n with
    | none => (w, .raised)
    | some q => ({ w with lst := upd w.lst q (w.lst q ++ [t]) }, .done)
  | .beginTask n t => beginTask w i a n t
  | .clearTask n => clearTask w a n
  | .clone extra => clone w i a extra

def step (w : World) (i : Nat) (op : AOp) : World × Out :=
  match w.actors[i]? with
  | none => (w, .impossible)
  | some a => stepA w i a op

def run (w : World) : List (Nat × AOp) → World
  | [] => w
  | (i, op) :: r => run (step w i op).1 r

end Verif.Clone
