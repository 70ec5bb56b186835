import Verif.Util.Recorded

/-!
# Model of plain states: assignment, type check, freezing, recording, callbacks, notification

Source: `states.py` 60-75 (`_compare`), 92-172 (`State.__init__`), 174-267 (`_do_record_funcs`, `_do_record`,
`_do_callback`, `_broadcast_change`, `_type_check`, `__set__`), 269-280 (`__get__` without mimicking), 285-304
(`_set_default`), 315-330 (callbacks); `actor.py` 64-103 (`__init_states`), 1233-1245 (`record_state`).

Any number of actors of one class share the state descriptors: the configuration, the callbacks and the
recording functions belong to the descriptor, values and histories to the actor. States, actors, callback keys
and recording names are numbered. Values are an abstract type with the three things the code asks of them.
Simplified: values are immutable (so `deepcopy` is the identity); callbacks do not raise; a recording function
or recorder object is any deterministic callable, i.e. a function of the inputs it has been given so far.
-/

namespace Verif.Rec

variable {V : Type}

/-- The state definitions of the class (states.py:130-172): `frozen`, `recording`, `record_duplicates`; whether
a value passes `isinstance(value, types)` (`true` for no types, 236-243); whether it is `None`; `==` on
values with exceptions read as `False` (`_compare`, 60-75); the recording functions with the names of their
histories (152-160); `isState` lists the states of the class. -/
structure Cfg (V : Type) where
  isState : Nat → Bool
  frozen : Nat → Bool
  recording : Nat → Bool
  dup : Nat → Bool
  okType : Nat → V → Bool
  isNone : V → Bool
  same : V → V → Bool
  funcs : Nat → List ((List (Rat × V) → V) × Nat)

/-- Clock; per actor and state the value (`instance.__dict__`) and history (`_state_histories`), per actor the
histories of the recording functions; per descriptor the callbacks (`_change_callbacks`, insertion order) and
the inputs its recording functions have seen; whether the actor has a nucleus (`_state_listener`). `calls` and
`sent` are observations: every callback invocation `(key, actor, state, value)` and every `send_change`
`(actor, state, value)`, oldest first. -/
structure St (V : Type) where
  now : Rat
  value : Nat → Nat → Option V
  hist : Nat → Nat → List (Rat × V)
  fhist : Nat → Nat → List (Rat × V)
  cbs : Nat → List Nat
  fed : Nat → List (Rat × V)
  listener : Nat → Bool
  calls : List (Nat × Nat × Nat × V)
  sent : List (Nat × Nat × V)

inductive Out (V : Type) where
  | ok
  | val (v : V)
  | raised
deriving DecidableEq

/-- Pointwise update of a two-argument map. -/
def upd2 {α : Type} (f : Nat → Nat → α) (i j : Nat) (x : α) : Nat → Nat → α :=
  fun i' j' => if i' = i ∧ j' = j then x else f i' j'

def upd {α : Type} (f : Nat → α) (i : Nat) (x : α) : Nat → α := fun i' => if i' = i then x else f i'

/-- `_do_record_funcs` (174-183): each function is given `(now, value)`; its result goes to the actor's history
of that name by the append rule. -/
def recordFuncs (c : Cfg V) (s : St V) (a n : Nat) (x : V) : List ((List (Rat × V) → V) × Nat) → St V
  | [] => s
  | (f, name) :: fs =>
    let e := (s.now, f (s.fed n ++ [(s.now, x)]))
    let h := upd2 s.fhist a name (Recorded.append (c.dup n) c.same (s.fhist a name) e)
    recordFuncs c { s with fhist := h } a n x fs

/-- `_do_record` (185-209) without an override: nothing unless recording; append the value, then the recording
functions, each of which has then seen one more input. -/
def record (c : Cfg V) (s : St V) (a n : Nat) (x : V) : St V :=
  if c.recording n then
    let h := upd2 s.hist a n (Recorded.append (c.dup n) c.same (s.hist a n) (s.now, x))
    let s := { s with hist := h }
    let s := recordFuncs c s a n x (c.funcs n)
    { s with fed := upd s.fed n (s.fed n ++ [(s.now, x)]) }
  else s

/-- `_do_callback` (211-219): every callback of the descriptor, in insertion order. -/
def callback (s : St V) (a n : Nat) (x : V) : St V :=
  { s with calls := s.calls ++ (s.cbs n).map (fun k => (k, a, n, x)) }

/-- `_broadcast_change` (221-231). -/
def broadcast (s : St V) (a n : Nat) (x : V) : St V :=
  if s.listener a then { s with sent := s.sent ++ [(a, n, x)] } else s

/-- `State.__set__` (245-267). -/
def set (c : Cfg V) (s : St V) (a n : Nat) (x : V) : St V × Out V :=
  if c.isState n = false then (s, .raised) else
  if c.frozen n && (s.value a n).any (fun old => !c.isNone old) then (s, .raised)
  else if c.okType n x = false then (s, .raised)
  else
    let s := { s with value := upd2 s.value a n (some x) }
    let s := record c s a n x
    let s := callback s a n x
    let s := broadcast s a n x
    (s, .ok)

/-- `State.__get__` (269-280) without a mimic. -/
def get (c : Cfg V) (s : St V) (a n : Nat) : St V × Out V :=
  if c.isState n = false then (s, .raised) else
  match s.value a n with
  | none => (s, .raised)
  | some v => (s, .val v)

/-- `Actor.record_state` (actor.py:1233-1245). -/
def recordState (c : Cfg V) (s : St V) (a n : Nat) : St V × Out V :=
  if c.isState n = false then (s, .raised) else
  match s.value a n with
  | none => (s, .raised)
  | some v => (record c s a n v, .ok)

/-- `_add_callback` (states.py:315-322): dict assignment, an existing key keeps its place. -/
def addCallback (s : St V) (n k : Nat) : St V :=
  if k ∈ s.cbs n then s else { s with cbs := upd s.cbs n (s.cbs n ++ [k]) }

/-- `_remove_callback` (324-330): `del`, `KeyError` when absent. -/
def removeCallback (s : St V) (n k : Nat) : St V × Out V :=
  if k ∈ s.cbs n then ({ s with cbs := upd s.cbs n ((s.cbs n).filter (· ≠ k)) }, .ok) else (s, .raised)

inductive Op (V : Type) where
  | set (a n : Nat) (x : V)
  | get (a n : Nat)
  | recordState (a n : Nat)
  | addCallback (n k : Nat)
  | removeCallback (n k : Nat)
  | attach (a : Nat)
  | advance (dt : Rat)
deriving DecidableEq

/-- One operation. `attach` is `TaskNetworkNucleus._attach` (nucleus.py:35-40), which raises if the actor has
a nucleus; `advance` is the clock. -/
def step (c : Cfg V) (s : St V) : Op V → St V × Out V
  | .set a n x => set c s a n x
  | .get a n => get c s a n
  | .recordState a n => recordState c s a n
  | .addCallback n k => (addCallback s n k, .ok)
  | .removeCallback n k => removeCallback s n k
  | .attach a => if s.listener a then (s, .raised) else ({ s with listener := upd s.listener a true }, .ok)
  | .advance dt => if 0 ≤ dt then ({ s with now := s.now + dt }, .ok) else (s, .raised)

abbrev Trace (V : Type) := List (Rat × Op V × Out V)

/-- Run operations, noting for each the time before it and its outcome. -/
def run (c : Cfg V) (s : St V) : List (Op V) → St V × Trace V
  | [] => (s, [])
  | op :: ops =>
    let r := run c (step c s op).1 ops
    (r.1, (s.now, op, (step c s op).2) :: r.2)

/-- Before any actor exists. -/
def init (t0 : Rat) : St V where
  now := t0
  value := fun _ _ => none
  hist := fun _ _ => []
  fhist := fun _ _ => []
  cbs := fun _ => []
  fed := fun _ => []
  listener := fun _ => false
  calls := []
  sent := []

end Verif.Rec
