import Verif.Clone.Model
import Mathlib.Algebra.Order.Ring.Rat

/-!
# Model of rehearsing tasks and networks

Source: `events.py` 64-147 (`BaseEvent.calculate_time_to_complete`, `rehearse`), 438-504 (`MultiEvent`), 507-532, 739-765
(`Any`, `All`), 616-632 (`Get.rehearse`), 865-872 (`Event.rehearse`), `routines.py` 67-86 (`Routine.rehearse`), `task.py`
351-423 (`_clone_actor`, `rehearse`), 586-617 (`DecisionTask.rehearse`), `base.py` 169-204 (`MockEnvironment`), 455-480
(`SettableEnv`), `task_network.py` 60-92 (`is_feasible`, `_next_task_name`), 140-196 (`rehearse_network`).

The actors and what they share are those of `Verif.Clone`; a mock environment is an object with a clock. The code of a task
is given by a script: what it did with the understudy each time it was resumed, and whether it then yielded, returned or
raised. The theorems are for all scripts, so for all tasks. A script that ends early is a rehearsal still going on.
Resources, events and the real environment touched directly by the code of a task are not part of the model.
-/

namespace Verif.Rehearse

open Verif.Clone (World AOp Out New step)

/-- An upstage event. A `leaf` is any event but a multi-event: its `rehearsal_time_to_complete` and the value it
gives in a rehearsal (`PLANNING_FACTOR_OBJECT` for `Event` and for `Get` from a store, `None` otherwise). `proc` is a SimPy
process used as a member. -/
inductive Ev where
  | leaf (t : Rat) (v : Option Nat)
  | any (ms : List Ev)
  | all (ms : List Ev)
  | proc

/-- Python's `min` of a list; an empty list raises. -/
def minL : List Rat → Option Rat
  | [] => none
  | t :: ts => some (ts.foldl (fun a b => if b < a then b else a) t)

/-- Python's `max` of a list. -/
def maxL : List Rat → Option Rat
  | [] => none
  | t :: ts => some (ts.foldl (fun a b => if a < b then b else a) t)

/-- Not an instance of `BaseEvent`. -/
def isProc : Ev → Bool
  | .proc => true
  | _ => false

mutual
/-- `calculate_time_to_complete` (64-70, 438-457): processes are skipped. The times are gathered in a dictionary keyed by
the events; an event that is a member twice counts once, which changes neither minimum nor maximum. -/
def calcT : Ev → Option Rat
  | .leaf t _ => some t
  | .any ms => (calcL ms).bind minL
  | .all ms => (calcL ms).bind maxL
  | .proc => none
def calcL : List Ev → Option (List Rat)
  | [] => some []
  | m :: ms => if isProc m then calcL ms else (calcT m).bind fun t => (calcL ms).map (t :: ·)
end

mutual
/-- `_start_rehearsal` (116-119, 472-483): raises when a member at any depth is not an event. -/
def startOk : Ev → Bool
  | .leaf _ _ => true
  | .any ms => startOkL ms
  | .all ms => startOkL ms
  | .proc => false
def startOkL : List Ev → Bool
  | [] => true
  | m :: ms => startOk m && startOkL ms
end

/-- The value of `event.rehearse()`: only leaves have one (133-147, 485-504). -/
def value : Ev → Option Nat
  | .leaf _ v => v
  | _ => none

/-- `event.rehearse()`; `none` is an exception. -/
def rehearseEv (e : Ev) : Option (Rat × Option Nat) :=
  if startOk e then (calcT e).map fun t => (t, value e) else none

/-- `is_complete` of the members after a multi-event was rehearsed (485-504): `_start_rehearsal` has set every
event below to not complete, then the direct members, and only those, are finished. The path gives positions of members. -/
def complete (e : Ev) : List Nat → Bool
  | [] => true
  | [i] =>
    match e with
    | .any ms | .all ms =>
      match ms[i]?.bind calcT, calcT e with
      | some t, some total => decide (t ≤ total)
      | _, _ => false
    | _ => false
  | _ :: _ :: _ => false

/-- What a task may yield. A routine is given by the events its `run` yields; `custom` is a routine with its own `rehearse`
(`WindowedGet`: routines.py:168-178). -/
inductive Yield where
  | ev (e : Ev)
  | routine (es : List Ev)
  | custom (t : Rat) (v : Option Nat)
  | process
  | other

/-- `Routine.rehearse` (67-86): the sum, and no value. -/
def rehearseRoutine : List Ev → Option Rat
  | [] => some 0
  | e :: es => (rehearseEv e).bind fun r => (rehearseRoutine es).map fun t => r.1 + t

/-- `next_event.rehearse()` after the type check (task.py:402-407). A routine adds up from 0. -/
def rehearseY : Yield → Option (Rat × Option Nat)
  | .ev e => rehearseEv e
  | .routine es => (rehearseRoutine es).map fun t => (t, none)
  | .custom t v => some (t, v)
  | .process => none
  | .other => none

inductive Act where
  | yield (y : Yield)
  | ret
  | raise

/-- One entry for each time the code of the task is resumed. -/
abbrev Script := List (List AOp × Act)

/-- Actors, mock environments, the environment of each actor and of the task (`none`: the real one), `_rehearsing` of the
task, and the real clock. -/
structure St where
  w : World
  envNow : Nat → Rat
  nextEnv : Nat
  actorEnv : Nat → Option Nat
  taskEnv : Option Nat
  rehearsing : Bool
  real : Rat

def upd {α : Type} (f : Nat → α) (i : Nat) (x : α) : Nat → α := fun j => if j = i then x else f j

/-- `env.now`. -/
def nowOf (s : St) : Option Nat → Rat
  | none => s.real
  | some e => s.envNow e

/-- `MockEnvironment.mock(env)` (base.py:180-195). -/
def mock (s : St) (e : Option Nat) : St :=
  { s with envNow := upd s.envNow s.nextEnv (nowOf s e), nextEnv := s.nextEnv + 1 }

/-- An operation on actor `i`; a clone made by the code of the task gets a mock of the actor's environment
(actor.py:988). -/
def stepC (s : St) (i : Nat) (op : AOp) : St :=
  match step s.w i op with
  | (w, .made k) => { mock s (s.actorEnv i) with w := w, actorEnv := upd s.actorEnv k (some s.nextEnv) }
  | (w, _) => { s with w := w }

def runC (s : St) (i : Nat) : List AOp → St
  | [] => s
  | op :: r => runC (stepC s i op) i r

inductive Res where
  | finished
  | raised
  | going
deriving DecidableEq

/-- The loop of `rehearse` (task.py:393-417) for the understudy `k` with mock environment `e`. Also gives the values that
were sent into the code of the task. -/
def loop (s : St) (k e : Nat) (item : Option Nat) : Script → St × Res × List (Option Nat)
  | [] => (s, .going, [])
  | (ops, act) :: r =>
    match act with
    | .ret => (runC s k ops, .finished, [item])
    | .raise => (runC s k ops, .raised, [item])
    | .yield y =>
      match rehearseY y with
      | none => (runC s k ops, .raised, [item])
      | some (t, v) =>
        let s1 := runC s k ops
        let r := loop { s1 with envNow := upd s1.envNow e (s1.envNow e + t) } k e v r
        (r.1, r.2.1, item :: r.2.2)

structure Result where
  st : St
  res : Res
  understudy : Option Nat
  sent : List (Option Nat)

/-- `rehearse` from line 389 on. -/
def perform (s : St) (k e : Nat) (old : Option Nat) (script : Script) : Result :=
  let r := loop { s with taskEnv := some e, rehearsing := true } k e none script
  match r.2.1 with
  | .finished => ⟨{ r.1 with taskEnv := old, rehearsing := false }, .finished, some k, r.2.2⟩
  | x => ⟨r.1, x, none, r.2.2⟩

/-- `Task.rehearse` (368-423), `_clone_actor` (351-366). -/
def rehearse (s : St) (i : Nat) (cloned : Bool) (extra : List (Nat × New)) (script : Script) : Result :=
  if cloned then
    match s.actorEnv i with
    | none => ⟨s, .raised, none, []⟩
    | some e => perform s i e s.taskEnv script
  else
    let s1 : St := { mock s s.taskEnv with taskEnv := some s.nextEnv }
    match step s1.w i (.clone extra) with
    | (w, .made k) =>
      perform { s1 with w := w, actorEnv := upd s1.actorEnv k (some s.nextEnv) } k s.nextEnv s.taskEnv script
    | (w, _) => ⟨{ s1 with w := w }, .raised, none, []⟩

/-! ## Networks -/

/-- A task network: the names with a class, and for each name its default and its allowed followers. -/
structure Net where
  name : Nat
  classes : List Nat
  links : Verif.Dict Nat (Option Nat × List Nat)

/-- The state of a rehearsal, and `_current_task_name` (with the number of the instance) of the network. -/
structure NSt where
  s : St
  cur : Option (Nat × Nat)
  insts : Nat

/-- `is_feasible` (60-69); `none` is a `KeyError`. -/
def feasible (net : Net) (a b : Nat) : Option Bool := (net.links.get? a).map fun l => l.2.contains b

/-- `_next_task_name(.., clear_queue=True)` (71-92) on actor `k`. -/
def nextName (net : Net) (s : St) (k : Nat) (curr : Nat) : Option (St × Nat) :=
  match (s.w.actors[k]?.bind fun a => a.queues.get? net.name) with
  | none => none
  | some q =>
    match net.links.get? curr with
    | none => none
    | some l =>
      match s.w.lst q with
      | u :: _ => some (stepC s k (.clearTask net.name), u)
      | [] => l.1.map fun d => (s, d)

/-- Lines 165-173: the task at this turn: from the list, or the default or queued one (taken off the queue also when it is
the end task). -/
inductive Pick where
  | stop (s : St)
  | fail
  | task (s : St) (t : Nat)

/-- `curr` is the variable `task_name` as the previous turn left it (unbound at first). -/
def pick (net : Net) (s : St) (k : Nat) (todo : List Nat) (endTask : Option Nat) (curr : Option Nat) : Pick :=
  match todo with
  | t :: _ => if endTask = some t then .stop s else .task s t
  | [] =>
    match endTask with
    | none => .stop s
    | some e =>
      match curr with
      | none => .fail
      | some c =>
        match nextName net s k c with
        | none => .fail
        | some (s, t) => if t = e then .stop s else .task s t

/-- A new instance of the task rehearses with the understudy (174-180). -/
def doTask (n : NSt) (k t : Nat) (script : Script) : NSt × Res :=
  let r := rehearse { n.s with taskEnv := none, rehearsing := false } k true [] script
  (⟨r.st, some (t, n.insts), n.insts + 1⟩, r.res)

/-- The `while` of `rehearse_network` (164-188). One script for each task rehearsed; a list of scripts that ends early is a
rehearsal still going on. Also gives the names of the tasks that were rehearsed. (A name without a class raises at 175 with
the name set and the instance still the old one; `cur` does not tell these apart.) -/
def netLoop (net : Net) (n : NSt) (k : Nat) (todo : List Nat) (endTask : Option Nat) (curr : Option Nat) :
    List Script → NSt × Res × List Nat
  | [] =>
    match pick net n.s k todo endTask curr with
    | .stop s => ({ n with s := s }, .finished, [])
    | .fail => (n, .raised, [])
    | .task _ _ => (n, .going, [])
  | script :: more =>
    match pick net n.s k todo endTask curr with
    | .stop s => ({ n with s := s }, .finished, [])
    | .fail => (n, .raised, [])
    | .task s t =>
      if t ∉ net.classes then ({ n with s := s, cur := some (t, n.insts) }, .raised, []) else
      match doTask { n with s := s } k t script with
      | (n1, .finished) =>
        match todo with
        | _ :: u :: rest =>
          if feasible net t u = some true then
            let r := netLoop net n1 k (u :: rest) endTask (some t) more
            (r.1, r.2.1, t :: r.2.2)
          else (n1, .raised, [t])
        | _ =>
          let r := netLoop net n1 k [] endTask (some t) more
          (r.1, r.2.1, t :: r.2.2)
      | (n1, x) => (n1, x, [t])

structure NResult where
  n : NSt
  res : Res
  understudy : Option Nat
  tasks : List Nat

/-- `rehearse_network` (140-196) of actor `i`. The clone is given a mock of the actor's environment. -/
def rehearseNet (net : Net) (n : NSt) (i : Nat) (list : List Nat) (extra : List (Nat × New)) (endTask : Option Nat)
    (scripts : List Script) : NResult :=
  match step n.s.w i (.clone extra) with
  | (w, .made k) =>
    let s1 : St := { mock n.s (n.s.actorEnv i) with w := w, actorEnv := upd n.s.actorEnv k (some n.s.nextEnv) }
    let r := netLoop net { n with s := s1 } k list endTask none scripts
    match r.2.1 with
    | .finished => ⟨{ r.1 with cur := n.cur }, .finished, some k, r.2.2⟩
    | x => ⟨r.1, x, none, r.2.2⟩
  | (w, _) => ⟨{ n with s := { n.s with w := w } }, .raised, none, []⟩

end Verif.Rehearse
