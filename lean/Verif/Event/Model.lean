import Verif.Know.Model

/-!
# Model of Event objects and knowledge events

Source: `events.py` 768-872 (`Event`), `actor.py` 1152-1202 (`create_knowledge_event`, `succeed_knowledge_event`),
`task.py` 425-462 (the clean-up of `_handle_interruption` for a task that waits for an Event and answers END or
RESTART), with the SimPy kernel: an event is pending, triggered or processed; processing an event resumes its waiters in
the order in which they started to wait; `succeed` on an event that is not pending raises `RuntimeError`.

An Event object holds a current SimPy event and replaces it on `reset`; SimPy events are numbered as they are created,
and a numbered SimPy event is called an *arming* below. Waiters are processes that yield the Event itself (not inside
`Any`/`All`). Rehearsal is not modelled here. While a waiter that was resumed runs it may make any calls, hence
`process` only puts the waiters into `ready` and `resume` runs the next; kernel steps wait until `ready` is empty.
-/

namespace Verif.Event

open Verif

variable {P V : Type}

inductive Status where
  | pending | triggered | processed
deriving DecidableEq

/-- A knowledge value: Python's `None`, an Event, or anything else. -/
inductive Val (V : Type) where
  | pyNone
  | ev (e : Nat)
  | plain (v : V)
deriving DecidableEq

/-- The actor's knowledge; for Event objects `_event`, `_auto_reset`, `_payload`; for SimPy events their status and
waiting processes; `owner` (ghost) is the Event object that created a SimPy event; for processes what they wait for; the
processes about to be resumed by the event being processed. -/
structure St (P V : Type) where
  know : Dict String (Val V)
  nEv : Nat
  cur : Nat → Nat
  auto : Nat → Bool
  pay : Nat → P
  nSim : Nat
  owner : Nat → Nat
  status : Nat → Status
  waiters : Nat → List Nat
  waiting : Nat → Option (Nat × Nat)
  ready : List (Nat × Nat × Nat)

inductive Out (P V : Type) where
  | done
  | created (e : Nat)
  /-- `succeed` triggered arming `i` of event `e`. -/
  | triggered (e i : Nat)
  /-- `cancel` triggered arming `i` of event `e`. -/
  | cancelled (e i : Nat)
  /-- Process `w` waits for arming `i` of `e`. -/
  | waits (w e i : Nat)
  /-- Process `w` is resumed from arming `i` of `e` and finds the payload `p`. -/
  | got (w e i : Nat) (p : P)
  | know (o : Know.Out String (Val V))
  | raised
  /-- The call cannot happen (the process is not waiting, the kernel is busy, no such event). -/
  | impossible
deriving DecidableEq

inductive Op (P V : Type) where
  | create (auto : Bool)
  | yield (w e : Nat)
  | succeed (e : Nat) (p : P)
  | cancel (e : Nat)
  | reset (e : Nat)
  | process (i : Nat)
  | resume
  | interrupt (w : Nat)
  | know (op : Know.Op String (Val V))
  | createK (n : String)
  | succeedK (n : String) (p : P)
deriving DecidableEq

def upd {α : Type} (f : Nat → α) (i : Nat) (x : α) : Nat → α := fun i' => if i' = i then x else f i'

/-- `reset` (events.py:848-851): a new SimPy event. -/
def arm (s : St P V) (e : Nat) : St P V :=
  { s with nSim := s.nSim + 1, owner := upd s.owner s.nSim e, status := upd s.status s.nSim .pending,
           waiters := upd s.waiters s.nSim [], cur := upd s.cur e s.nSim }

/-- `Event.__init__` (778-796). -/
def create (p0 : P) (s : St P V) (auto : Bool) : St P V × Nat :=
  (arm { s with nEv := s.nEv + 1, auto := upd s.auto s.nEv auto, pay := upd s.pay s.nEv p0 } s.nEv, s.nEv)

/-- `succeed` (821-830): the payload is stored before the SimPy event is triggered. -/
def succeed (s : St P V) (e : Nat) (p : P) : St P V × Out P V :=
  if s.status (s.cur e) = .processed then (s, .raised) else
  let s := { s with pay := upd s.pay e p }
  if s.status (s.cur e) = .pending then
    ({ s with status := upd s.status (s.cur e) .triggered }, .triggered e (s.cur e))
  else (s, .raised)

/-- `cancel` (853-863): triggers the SimPy event. -/
def cancel (s : St P V) (e : Nat) : St P V × Out P V :=
  if s.status (s.cur e) = .pending then
    ({ s with status := upd s.status (s.cur e) .triggered }, .cancelled e (s.cur e))
  else (s, .raised)

/-- `as_event` (806-819) and the wait of the yielding process. -/
def yield (s : St P V) (w e : Nat) : St P V × Out P V :=
  if s.waiting w ≠ none then (s, .impossible) else
  if s.status (s.cur e) = .processed ∧ s.auto e = false then (s, .raised) else
  let s := if s.status (s.cur e) = .processed then arm s e else s
  let i := s.cur e
  ({ s with waiters := upd s.waiters i (s.waiters i ++ [w]), waiting := upd s.waiting w (some (e, i)) }, .waits w e i)

/-- SimPy: process a triggered event. -/
def process (s : St P V) (i : Nat) : St P V × Out P V :=
  if s.ready ≠ [] ∨ s.nSim ≤ i ∨ s.status i ≠ .triggered then (s, .impossible) else
  ({ s with status := upd s.status i .processed, waiters := upd s.waiters i [],
            ready := (s.waiters i).map (fun w => (w, s.owner i, i)) }, .done)

/-- SimPy: resume the next waiter of the event being processed. -/
def resume (s : St P V) : St P V × Out P V :=
  match s.ready with
  | [] => (s, .impossible)
  | (w, e, i) :: r => ({ s with ready := r, waiting := upd s.waiting w none }, .got w e i (s.pay e))

/-- An interrupt delivered to a waiting task that answers END or RESTART (task.py:447-456): SimPy takes the process off
the event's waiters; every knowledge name holding the event is cleared; the event is cancelled. -/
def interrupt (s : St P V) (w : Nat) : St P V × Out P V :=
  if s.ready ≠ [] then (s, .impossible) else
  match s.waiting w with
  | none => (s, .impossible)
  | some (e, i) =>
    let s := { s with waiters := upd s.waiters i ((s.waiters i).erase w), waiting := upd s.waiting w none }
    let s := { s with know := s.know.filter (fun p => match p.2 with | .ev e' => decide (e' ≠ e) | _ => true) }
    cancel s e

/-- `create_knowledge_event` (actor.py:1152-1182), not rehearsing. -/
def createK (p0 : P) (s : St P V) (n : String) : St P V × Out P V :=
  let r := create p0 s true
  match Know.setK r.1.know n (.ev r.2) false with
  | (k, .done) => ({ r.1 with know := k }, .created r.2)
  | (k, _) => ({ r.1 with know := k }, .raised)

/-- `succeed_knowledge_event` (1184-1202): the name is cleared before the event is triggered. -/
def succeedK (s : St P V) (n : String) (p : P) : St P V × Out P V :=
  match Know.getK s.know n false with
  | .value (some (.ev e)) =>
    match Know.clearK s.know n with
    | (k, .done) => succeed { s with know := k } e p
    | (k, _) => ({ s with know := k }, .raised)
  | _ => (s, .raised)

/-- Events in a knowledge operation exist. -/
def known (s : St P V) : Know.Op String (Val V) → Bool
  | .set _ (.ev e) _ => decide (e < s.nEv)
  | .setBulk kv _ => kv.all (fun p => match p.2 with | .ev e => decide (e < s.nEv) | _ => true)
  | _ => true

def step (p0 : P) (s : St P V) : Op P V → St P V × Out P V
  | .create a => ((create p0 s a).1, .created (create p0 s a).2)
  | .yield w e => if e < s.nEv then yield s w e else (s, .impossible)
  | .succeed e p => if e < s.nEv then succeed s e p else (s, .impossible)
  | .cancel e => if e < s.nEv then cancel s e else (s, .impossible)
  | .reset e => if e < s.nEv then (arm s e, .done) else (s, .impossible)
  | .process i => process s i
  | .resume => resume s
  | .interrupt w => interrupt s w
  | .know op => if known s op then ({ s with know := (Know.step s.know op).1 }, .know (Know.step s.know op).2)
      else (s, .impossible)
  | .createK n => createK p0 s n
  | .succeedK n p => succeedK s n p

/-- Final state and trace of calls with their outcomes. -/
def run (p0 : P) (s : St P V) : List (Op P V) → St P V × List (Op P V × Out P V)
  | [] => (s, [])
  | op :: ops =>
    ((run p0 (step p0 s op).1 ops).1, (op, (step p0 s op).2) :: (run p0 (step p0 s op).1 ops).2)

def init (p0 : P) : St P V where
  know := []
  nEv := 0
  cur := fun _ => 0
  auto := fun _ => true
  pay := fun _ => p0
  nSim := 0
  owner := fun _ => 0
  status := fun _ => .pending
  waiters := fun _ => []
  waiting := fun _ => none
  ready := []

end Verif.Event
