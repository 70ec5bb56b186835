import Mathlib.Data.List.Basic
import Mathlib.Data.List.Count

/-!
# Model of multi-events while the simulation runs

Sources: `/repo/src/upstage_des/events.py`: `MultiEvent.as_event` 413-422, `MultiEvent.cancel` 424-436, `_make_event`
407-411, `Any.simpy_equivalent` 521-533, `All.simpy_equivalent` 753-765, `BaseEvent.is_complete` 82-92, `Wait.cancel`
250-259, `BaseRequestEvent.cancel` 278-283, `Event.cancel` 853-863; `/repo/src/upstage_des/task.py`: `run` 464-554 (the
wait for an event) and `_handle_interruption` 425-462 (END, RESTART and IGNORE).

SimPy's `Condition` (AnyOf, AllOf) and its loop over callbacks are modelled function by function, since they decide when
the waiting task goes on; SimPy is not part of /repo and is described here as documented for release 4.

Every SimPy event has a number; events with a condition are the SimPy events of multi-events, the others are those of
Waits, requests, Events and SimPy processes (`Kind`). Which of the triggered events the kernel processes next is left
open (SimPy: by time, priority, age), so everything proved holds for every order. A Timeout counts as triggered from its
creation in SimPy; here it is pending until its time has come, which nobody in this model can tell apart.

Simplified: a MultiEvent object is one condition (in the code every `as_event` makes new conditions for it and all the
multi-events inside it, and `cancel` uses the newest); it is part of at most one other multi-event, and nobody but the
enclosing multi-event waits for an inner one. An Event has one arming (`reset` and auto-reset: `Verif.Event`). What a
store or container does with a granted or withdrawn request: `Verif.Store`, `Verif.Cont`.
-/

namespace Verif.Multi

inductive Status where
  | pending | triggered | processed
deriving DecidableEq, Repr

/-- What a SimPy event without condition belongs to: `Wait`, a request (`Get`, `Put`, `ResourceHold`), `Event`, or it is a
SimPy process (events.py 407-411). -/
inductive Kind where
  | wait | request | event | process
deriving DecidableEq, Repr

/-- A SimPy Condition: AllOf or AnyOf, and its events (events.py 521-533, 753-765). -/
structure Cond where
  all : Bool
  members : List Nat
deriving DecidableEq, Repr

/-- A callback of a SimPy event: `_check` of condition `c`, or the resumption of task `t`. -/
inductive Cb where
  | check (c : Nat)
  | resume (t : Nat)
deriving DecidableEq, Repr

/-- SimPy events `0 … n-1` with their status, failure, callbacks; conditions with `_count`; `ready`: the callbacks still
to be called of the event being processed; what the tasks wait for; the requests that were taken out of their queue.
Ghost fields (never read by the code): `now` numbers the instants of simulated time, `since` is the instant a task began to
wait, `when` the instant an event happened, `faked` the Events that only `cancel` triggered, `parent` the multi-event around
an inner one, `forgot` the conditions whose checks were removed. -/
structure St where
  n : Nat
  cond : Nat → Option Cond
  kind : Nat → Kind
  status : Nat → Status
  bad : Nat → Bool
  count : Nat → Nat
  cbs : Nat → List Cb
  ready : List (Nat × Cb)
  waiting : Nat → Option Nat
  withdrawn : Nat → Bool
  now : Nat
  since : Nat → Nat
  when : Nat → Option Nat
  faked : Nat → Bool
  parent : Nat → Option Nat
  forgot : Nat → Bool

inductive Op where
  /-- `as_event` of a Wait, request or Event; a process is started. -/
  | newEvent (k : Kind)
  /-- The time of a Wait comes, a request is granted, an Event succeeds, a process ends (or fails). -/
  | occur (e : Nat) (ok : Bool)
  /-- `as_event` of a multi-event. -/
  | make (all : Bool) (ms : List Nat)
  /-- A task yields. -/
  | waitFor (t e : Nat)
  /-- The kernel takes a triggered event. -/
  | process (e : Nat)
  /-- The kernel calls the next callback. -/
  | callback
  /-- A task is interrupted and answers END or RESTART. -/
  | interrupt (t : Nat)
  /-- A task is interrupted and answers IGNORE. -/
  | ignore (t : Nat)
  /-- The clock advances: nothing is left to do in this instant. -/
  | tick
deriving DecidableEq, Repr

inductive Out where
  | done
  | created (e : Nat)
  | waits (t e : Nat)
  /-- The task goes on behind its `yield`; `false`: with an exception. -/
  | got (t e : Nat) (ok : Bool)
  /-- The interrupt was handled; `false`: an exception left `_handle_interruption` and with it the task. -/
  | handled (t e : Nat) (ok : Bool)
  /-- The operation cannot happen now. -/
  | impossible
deriving DecidableEq, Repr

def upd {α : Type} (f : Nat → α) (i : Nat) (x : α) : Nat → α := fun i' => if i' = i then x else f i'

/-- SimPy: `Condition.all_events`, `Condition.any_events` for a condition with members. -/
def met (k : Cond) (count : Nat) : Bool := if k.all then decide (count = k.members.length) else decide (0 < count)

/-- SimPy: `Condition._check` of condition `c` for the event `e`. -/
def check (s : St) (c e : Nat) : St :=
  match s.cond c with
  | none => s
  | some k =>
    if s.status c ≠ .pending then s else
    let s := { s with count := upd s.count c (s.count c + 1) }
    if s.bad e then { s with status := upd s.status c .triggered, bad := upd s.bad c true }
    else if met k (s.count c) then { s with status := upd s.status c .triggered }
    else s

/-- SimPy: one turn of the loop in `Condition.__init__`: an event that was processed is checked, `_check` is attached to the
others. -/
def attach (c : Nat) (s : St) (e : Nat) : St :=
  if s.status e = .processed then check s c e else { s with cbs := upd s.cbs e (s.cbs e ++ [.check c]) }

/-- The members of a multi-event exist; the multi-events among them were made by the same `as_event` (events.py 419): they
are part of no other, nobody waits for them, they were not processed yet, and each is there once. -/
def makeable (s : St) (ms : List Nat) : Bool :=
  ms.all fun m => decide (m < s.n) && (decide (s.cond m = none) ||
    (decide (s.parent m = none) && decide (s.status m ≠ .processed) && decide (s.cbs m = []) && decide (ms.count m = 1)))

/-- `MultiEvent.as_event` (events.py 413-422) with SimPy's `Condition.__init__`; a condition without events succeeds. -/
def make (s : St) (all : Bool) (ms : List Nat) : St :=
  let c := s.n
  let s := { s with n := s.n + 1, cond := upd s.cond c (some ⟨all, ms⟩),
                    parent := fun m => if m ∈ ms ∧ s.cond m ≠ none then some c else s.parent m }
  if ms = [] then { s with status := upd s.status c .triggered } else ms.foldl (attach c) s

/-- SimPy: `Condition._remove_check_callbacks` of `c` and, through it, of the conditions inside; the flag (ghost) marks them.
Simplified: the code takes each member's callback off before it goes into that member; here all the callbacks of one
condition are taken off first. They are different callbacks, so the order does not matter. The first argument bounds the
depth. -/
def forget (cond : Nat → Option Cond) : Nat → (Nat → List Cb) × (Nat → Bool) → Nat → (Nat → List Cb) × (Nat → Bool)
  | 0, p, _ => p
  | d + 1, p, c =>
    match cond c with
    | none => p
    | some k =>
      k.members.foldl (forget cond d)
        (k.members.foldl (fun f m => upd f m ((f m).erase (.check c))) p.1, upd p.2 c true)

/-- SimPy: `Environment.step` for a triggered event: it is processed from now on, its callbacks are called one by one. The
first callback of a condition is `_build_value`, which takes off the checks. -/
def process (s : St) (e : Nat) : St × Out :=
  if s.ready ≠ [] ∨ s.n ≤ e ∨ s.status e ≠ .triggered then (s, .impossible) else
  let p := forget s.cond (e + 1) (s.cbs, s.forgot) e
  ({ s with status := upd s.status e .processed, cbs := upd p.1 e [], forgot := p.2,
            ready := (p.1 e).map (fun cb => (e, cb)) }, .done)

/-- SimPy: the next callback of the event being processed. -/
def callback (s : St) : St × Out :=
  match s.ready with
  | [] => (s, .impossible)
  | (e, .check c) :: r => (check { s with ready := r } c e, .done)
  | (e, .resume t) :: r => ({ s with ready := r, waiting := upd s.waiting t none }, .got t e (!s.bad e))

/-- A task yields an event (task.py 510-523). SimPy goes on at once if it was processed. -/
def waitFor (s : St) (t e : Nat) : St × Out :=
  if s.waiting t ≠ none ∨ s.n ≤ e ∨ (s.cond e ≠ none ∧ s.parent e ≠ none) then (s, .impossible) else
  if s.status e = .processed then (s, .got t e (!s.bad e)) else
  ({ s with cbs := upd s.cbs e (s.cbs e ++ [.resume t]), waiting := upd s.waiting t (some e),
            since := upd s.since t s.now }, .waits t e)

/-- An event without condition happens; what was withdrawn does not. Only processes fail. -/
def occur (s : St) (e : Nat) (ok : Bool) : St × Out :=
  if s.n ≤ e ∨ s.cond e ≠ none ∨ s.status e ≠ .pending ∨ s.withdrawn e = true ∨ (ok = false ∧ s.kind e ≠ .process) then
    (s, .impossible) else
  ({ s with status := upd s.status e .triggered, bad := upd s.bad e (!ok),
            when := upd s.when e (if ok then some s.now else none) }, .done)

/-- `cancel` of one event, without what `MultiEvent.cancel` does with its members: `MultiEvent.cancel` (events.py 426-429;
SimPy's `fail` raises if the condition was triggered), `Wait.cancel` (250-259: nothing but a flag), `BaseRequestEvent.cancel`
(278-283; SimPy takes a request that was not granted out of the queue), `Event.cancel` (853-863: SimPy's `succeed`, which
raises if the event was triggered); a process is left alone (430-431). -/
def act (s : St) (e : Nat) : St × Bool :=
  match s.cond e with
  | some _ =>
    if s.status e = .pending then
      ({ s with status := upd s.status e .triggered, bad := upd s.bad e true }, true) else (s, false)
  | none =>
    match s.kind e with
    | .wait => (s, true)
    | .process => (s, true)
    | .request =>
      (if s.status e = .pending then { s with withdrawn := upd s.withdrawn e true } else s, true)
    | .event =>
      if s.status e = .pending then
        ({ s with status := upd s.status e .triggered, faked := upd s.faked e true }, true) else (s, false)

/-- `cancel` (events.py 424-436): the condition first, then the members in turn; the first error ends it. The first argument
bounds the depth. -/
def cancel : Nat → St → Nat → St × Bool
  | 0, s, _ => (s, true)
  | d + 1, s, e =>
    let r := act s e
    if r.2 then
      match s.cond e with
      | none => r
      | some k => k.members.foldl (fun p m => if p.2 then cancel d p.1 m else p) r
    else r

/-- SimPy: `Interruption._interrupt` takes the task off the callbacks of what it waits for. -/
def leave (s : St) (t e : Nat) : St :=
  { s with cbs := upd s.cbs e ((s.cbs e).erase (.resume t)), waiting := upd s.waiting t none }

/-- An interrupt answered with END or RESTART (task.py 446-455). A process that is waited for directly is interrupted
instead of cancelled (456-457), which is its own business. -/
def interrupt (s : St) (t : Nat) : St × Out :=
  if s.ready ≠ [] then (s, .impossible) else
  match s.waiting t with
  | none => (s, .impossible)
  | some e =>
    let r := cancel (e + 1) (leave s t e) e
    (r.1, .handled t e r.2)

/-- An interrupt answered with IGNORE (task.py 521-523, 534-535): the same SimPy event is yielded again. -/
def ignore (s : St) (t : Nat) : St × Out :=
  if s.ready ≠ [] then (s, .impossible) else
  match s.waiting t with
  | none => (s, .impossible)
  | some e =>
    ({ s with cbs := upd s.cbs e ((s.cbs e).erase (.resume t) ++ [.resume t]) }, .handled t e true)

/-- Nothing is left to do in this instant. -/
def settled (s : St) : Bool := decide (s.ready = []) && (List.range s.n).all fun e => decide (s.status e ≠ .triggered)

/-- SimPy: time only advances when every event of this instant was processed. -/
def tick (s : St) : St × Out := if settled s then ({ s with now := s.now + 1 }, .done) else (s, .impossible)

def step (s : St) : Op → St × Out
  | .newEvent k => ({ s with n := s.n + 1, kind := upd s.kind s.n k }, .created s.n)
  | .occur e ok => occur s e ok
  | .make all ms => if makeable s ms then (make s all ms, .created s.n) else (s, .impossible)
  | .waitFor t e => waitFor s t e
  | .process e => process s e
  | .callback => callback s
  | .interrupt t => interrupt s t
  | .ignore t => ignore s t
  | .tick => tick s

/-- Final state and outcomes. -/
def run (s : St) : List Op → St × List Out
  | [] => (s, [])
  | op :: ops => ((run (step s op).1 ops).1, (step s op).2 :: (run (step s op).1 ops).2)

def init : St where
  n := 0
  cond := fun _ => none
  kind := fun _ => .wait
  status := fun _ => .pending
  bad := fun _ => false
  count := fun _ => 0
  cbs := fun _ => []
  ready := []
  waiting := fun _ => none
  withdrawn := fun _ => false
  now := 0
  since := fun _ => 0
  when := fun _ => none
  faked := fun _ => false
  parent := fun _ => none
  forgot := fun _ => false

end Verif.Multi
