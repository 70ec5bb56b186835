import Verif.Util.Log
import Mathlib.Algebra.Order.Ring.Rat
import Mathlib.Tactic.Linarith
import Mathlib.Tactic.Ring

/-!
# Model of `SelfMonitoringContainer` (resources/monitoring.py:168-218) under the task machinery

The SimPy `Container` (put/get of amounts, FIFO queues), its monitoring, and the cancellation of requests
by interrupted tasks (`events.Put` / `events.Get`, events.py:278-348, 536-632). Amounts are rationals.
SimPy facts used: a request joins its queue and the queue is tried from the head until the first request
that cannot be served; a processed request triggers the opposite queue before its task resumes; cancelling
removes only a request that is not yet triggered.
-/

namespace Verif.Tank

/-- A triggered, not yet processed request. -/
inductive Ev where
  | put (id : Nat)
  | got (id : Nat) (x : Rat)
deriving DecidableEq, Repr

/-- The container, its queues, the kernel queue of triggered requests and the log `_quantities`
(monitoring.py:194). `accepted`, `delivered`, `lost` are observations never read by the code. -/
structure St where
  cap : Option Rat
  level : Rat
  putQ : List (Nat × Rat)
  getQ : List (Nat × Rat)
  evq : List Ev
  waiting : List Nat
  nextId : Nat
  now : Rat
  log : List (Rat × Rat)
  accepted : List (Nat × Rat)
  delivered : List (Nat × Rat)
  lost : List (Nat × Rat)
deriving DecidableEq, Repr

/-- `SelfMonitoringContainer.__init__` (monitoring.py:175-194). SimPy refuses `init` outside
`[0, capacity]`. -/
def init (cap : Option Rat) (lvl now : Rat) : St :=
  { cap, level := lvl, putQ := [], getQ := [], evq := [], waiting := [], nextId := 0, now,
    log := [(now, lvl)], accepted := [], delivered := [], lost := [] }

/-- `_record` (monitoring.py:196-199): the pair (time, level) is compared. -/
def record (s : St) : St :=
  if s.log.getLast? ≠ some (s.now, s.level) then { s with log := s.log ++ [(s.now, s.level)] } else s

/-- Room for `x` more (`simpy.Container._do_put`: `capacity - level >= amount`). -/
def fits (s : St) (x : Rat) : Bool :=
  match s.cap with
  | none => true
  | some c => decide (x ≤ c - s.level)

/-- The loop of `_trigger_put` with `_do_put` (monitoring.py:201-213). Returns the requests left. -/
def putLoop : List (Nat × Rat) → St → List (Nat × Rat) × St
  | [], s => ([], s)
  | (i, x) :: q, s =>
    if fits s x then
      putLoop q (record { s with
        level := s.level + x
        evq := s.evq ++ [.put i]
        accepted := s.accepted ++ [(i, x)] })
    else ((i, x) :: q, s)

/-- The loop of `_trigger_get` with `_do_get` (monitoring.py:204-206, 214-218). -/
def getLoop : List (Nat × Rat) → St → List (Nat × Rat) × St
  | [], s => ([], s)
  | (i, x) :: q, s =>
    if x ≤ s.level then
      getLoop q (record { s with
        level := s.level - x
        evq := s.evq ++ [.got i x] })
    else ((i, x) :: q, s)

/-- `_trigger_put` (monitoring.py:201-203). -/
def trigPut (s : St) : St :=
  let r := putLoop s.putQ s
  record { r.2 with putQ := r.1 }

/-- `_trigger_get` (monitoring.py:205-207). -/
def trigGet (s : St) : St :=
  let r := getLoop s.getQ s
  record { r.2 with getQ := r.1 }

/-- A user call or a kernel step; non-positive amounts are refused by SimPy (`ValueError`). -/
inductive Op where
  | put (x : Rat)
  | get (x : Rat)
  | interrupt (id : Nat)
  | process
  | advance (t : Rat)
deriving DecidableEq, Repr

/-- `yield Put(container, x)` (events.py:337-348). -/
def doPut (s : St) (x : Rat) : St :=
  if x ≤ 0 then s
  else trigPut { s with
    putQ := s.putQ ++ [(s.nextId, x)]
    waiting := s.waiting ++ [s.nextId]
    nextId := s.nextId + 1 }

/-- `yield Get(container, x)` (events.py:583-595). -/
def doGet (s : St) (x : Rat) : St :=
  if x ≤ 0 then s
  else trigGet { s with
    getQ := s.getQ ++ [(s.nextId, x)]
    waiting := s.waiting ++ [s.nextId]
    nextId := s.nextId + 1 }

/-- Interrupt of the waiting task and `BaseRequestEvent.cancel` (events.py:278-284). -/
def doInterrupt (s : St) (id : Nat) : St :=
  { s with
    waiting := s.waiting.filter (fun i => i ≠ id)
    putQ := s.putQ.filter (fun p => p.1 ≠ id)
    getQ := s.getQ.filter (fun p => p.1 ≠ id) }

/-- The kernel processes the next triggered request. -/
def doProcess (s : St) : St :=
  match s.evq with
  | [] => s
  | .put _ :: q => trigGet { s with evq := q }
  | .got i x :: q =>
    let s1 := trigPut { s with evq := q }
    if i ∈ s1.waiting then { s1 with delivered := s1.delivered ++ [(i, x)] }
    else { s1 with lost := s1.lost ++ [(i, x)] }

/-- The clock moves forward (only when no triggered request is pending). -/
def doAdvance (s : St) (t : Rat) : St :=
  if s.now ≤ t ∧ s.evq = [] then { s with now := t } else s

/-- One move. -/
def step (s : St) : Op → St
  | .put x => doPut s x
  | .get x => doGet s x
  | .interrupt id => doInterrupt s id
  | .process => doProcess s
  | .advance t => doAdvance s t

/-- A history. -/
def run (s : St) (ops : List Op) : St := ops.foldl step s

/-- The level after each move, with its time. -/
def snapshots (s : St) : List Op → List (Rat × Rat)
  | [] => [(s.now, s.level)]
  | op :: ops => (s.now, s.level) :: snapshots (step s op) ops

end Verif.Tank
