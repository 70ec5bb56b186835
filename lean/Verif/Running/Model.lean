import Verif.Network.Model
import Mathlib.Algebra.Order.Ring.Rat

/-!
# Model of running task networks: running tasks, interrupts of networks, markers

Sources: `/repo/src/upstage_des/actor.py` 715-725, 816-878 (`add_task_network`, `start_network_loop`, `get_running_task`,
`get_running_tasks`, `interrupt_network`), 911-923 (`delete_task_network`); `/repo/src/upstage_des/task_network.py` 56-58, 94-138
(`TaskNetwork.loop`); `/repo/src/upstage_des/task.py` 104-169 (`Task.__init__`, the default `on_interrupt`, markers), 464-554 (`run`),
603-628 (`DecisionTask.run`, `run_skip`), 653-679 (`TerminalTask`). Queues and next names are those of `Verif.Network`.

With the part of SimPy that matters here: starts of processes and interruptions are urgent and first in, first out; a process that
returns is over at once, who waits for it goes on only when nothing urgent is left; an interruption of a process that is over, or
of the process that is running, is refused; one that arrives after the process is over is dropped.

One actor, any number of networks; a network may be started any number of times. What tasks and decisions do is up to the user:
a process that runs may make any calls, wait, return or raise. How a task waits, and what it cleans up after an interrupt, is in
`Verif.TaskRun`; here only that it may still wait after END or RESTART (in the `cancel` of a routine). An exception that ends the
simulation is `crashed`. A network that is added is a new object each time.
-/

namespace Verif.Running

open Verif.Network (Net Kind)

/-- `InterruptStates` (task.py 35-40). -/
inductive Action where
  | end_ | ignore | restart
deriving DecidableEq, Repr

/-- What an `on_interrupt` of the user's does: it answers, or raises, or answers something else. -/
inductive Answer where
  | act (a : Action)
  | bad
deriving DecidableEq, Repr

/-- `_marker`, `_marked_time`, `_interrupt_action` of a task (task.py 109-111). -/
structure Inst where
  marker : Option String
  time : Option Rat
  action : Action
deriving DecidableEq, Repr

/-- A process of `Task.run`: its network (name and object), the task's name, kind and instance. -/
structure Proc where
  net : String
  obj : Nat
  name : String
  kind : Kind
  inst : Nat
deriving DecidableEq

/-- A process of a task: made; alive; alive after it answered an interrupt by END or RESTART (`again`); over. -/
inductive Phase where
  | fresh
  | live
  | closing (again : Bool)
  | over
deriving DecidableEq, Repr

/-- Where a process of `TaskNetwork.loop` is: made; in `run_skip`; waiting for a task; it never ends. `t` is `task_name`. -/
inductive LoopAt where
  | fresh (init : Option String)
  | decides (t : String)
  | waits (p : Nat) (t : String)
deriving DecidableEq, Repr

structure Loop where
  net : String
  obj : Nat
  pos : LoopAt
deriving DecidableEq, Repr

/-- Urgent events of SimPy; interrupts are numbered. -/
inductive Urgent where
  | startLoop (l : Nat)
  | startTask (p : Nat)
  | interrupt (p k c : Nat)
deriving DecidableEq, Repr

/-- Whose code is running: nobody's that is modelled; a task's; a task's `on_interrupt`; a decision in a loop. -/
inductive Active where
  | idle
  | task (p : Nat)
  | handler (p : Nat)
  | decision (l : Nat)
deriving DecidableEq, Repr

/-- The actor's networks and queues (`q`; its `cur` is not used), the network object of each name; for network objects their tasks
and links, `_current_task_name` and `_current_task_proc`; processes of tasks, task instances, processes of loops; SimPy's urgent
events, what is running, the clock. -/
structure St where
  now : Rat
  q : Network.St
  obj : String → Nat
  nObj : Nat
  net : Nat → Net
  curName : Nat → Option String
  curProc : Nat → Option Nat
  nProc : Nat
  proc : Nat → Proc
  phase : Nat → Phase
  nInst : Nat
  inst : Nat → Inst
  nLoop : Nat
  loop : Nat → Loop
  urgent : List Urgent
  nInt : Nat
  active : Active
  crashed : Bool

inductive Out where
  | done
  | raised
  | report (r : Option (String × Nat))
  | reports (l : List (String × String × Nat))
  | added (o : Nat)
  /-- A loop was started on network object `o`. -/
  | loop (o l : Nat)
  /-- Process `p` was made for task `t` of kind `k`, instance `i`, on network object `o`. -/
  | began (o p : Nat) (t : String) (k : Kind) (i : Nat)
  /-- The decision `t`, instance `i`, is being made inside the loop. -/
  | decides (o : Nat) (t : String) (i : Nat)
  /-- The code of a task runs. -/
  | runs (p : Nat)
  | finished (p : Nat)
  | restarted (p : Nat)
  /-- Interrupt `k` was issued to process `p` with cause `c`. -/
  | issued (k p c : Nat)
  /-- `on_interrupt` of the task of process `p` is called with cause `c`. -/
  | called (k p c : Nat)
  | dropped (k p c : Nat)
  | answered (p : Nat) (a : Action)
  | marker (m : Option String) (t : Option Rat)
  | queued (o : Network.Out)
  | crash
  | impossible
deriving DecidableEq

def upd {α : Type} (f : Nat → α) (i : Nat) (x : α) : Nat → α := fun i' => if i' = i then x else f i'

/-- An exception that nobody catches. -/
def crash (s : St) : St × Out := ({ s with crashed := true, active := .idle }, .crash)

/-- `get_running_task` (actor.py 832-852). -/
def getRunning (s : St) (n : String) : Out :=
  if !s.q.nets.has n then .raised else
  match s.curProc (s.obj n) with
  | some p =>
    match s.curName (s.obj n) with
    | some t => .report (some (t, p))
    | none => .raised
  | none => .report none

/-- `get_running_tasks` (actor.py 854-866). The `assert` (864) never fails: `_current_task_name` is never taken back. -/
def getAll (s : St) : List (String × String × Nat) :=
  s.q.nets.keys.filterMap fun n =>
    match s.curProc (s.obj n), s.curName (s.obj n) with
    | some p, some t => some (n, t, p)
    | _, _ => none

/-- The process that is running, if it is one of a task. -/
def Active.proc : Active → Option Nat
  | .task p => some p
  | .handler p => some p
  | _ => none

/-- `interrupt_network` (actor.py 868-878) with SimPy's `Interruption`. -/
def interruptNet (s : St) (n : String) (c : Nat) : St × Out :=
  match getRunning s n with
  | .report (some (_, p)) =>
    if s.phase p = .over ∨ s.active.proc = some p then (s, .raised) else
    ({ s with urgent := s.urgent ++ [.interrupt p s.nInt c], nInt := s.nInt + 1 }, .issued s.nInt p c)
  | _ => (s, .raised)

/-- `add_task_network` (actor.py 715-725). -/
def addNet (s : St) (n : String) (net : Net) : St × Out :=
  match Network.addNet s.q n net with
  | (q, .done) =>
    ({ s with q := q, obj := fun m => if m = n then s.nObj else s.obj m, nObj := s.nObj + 1, net := upd s.net s.nObj net,
              curName := upd s.curName s.nObj none, curProc := upd s.curProc s.nObj none }, .added s.nObj)
  | (q, _) => ({ s with q := q }, .raised)

/-- `start_network_loop` (actor.py 816-830): a new process of `loop`. -/
def startLoop (s : St) (n : String) (init : Option String) : St × Out :=
  if !s.q.nets.has n then (s, .raised) else
  ({ s with nLoop := s.nLoop + 1, loop := upd s.loop s.nLoop ⟨n, s.obj n, .fresh init⟩,
            urgent := s.urgent ++ [.startLoop s.nLoop] }, .loop (s.obj n) s.nLoop)

/-- The body of the `while` of `loop` (task_network.py 116-135) with `Task.__init__` (task.py 104-112), for the task `t`. -/
def enter (s : St) (l : Nat) (t : String) : St × Out :=
  let n := (s.loop l).net
  let o := (s.loop l).obj
  let s := { s with curName := upd s.curName o (some t) }
  match Network.beginNext s.q n t with
  | (q, .done) =>
    match (s.net o).classes.get? t with
    | none => crash { s with q := q }
    | some k =>
      let i := s.nInst
      let s := { s with q := q, nInst := s.nInst + 1, inst := upd s.inst s.nInst ⟨none, none, .end_⟩ }
      if k = .skip then
        ({ s with loop := upd s.loop l ⟨n, o, .decides t⟩, active := .decision l }, .decides o t i)
      else
        let p := s.nProc
        ({ s with nProc := s.nProc + 1, proc := upd s.proc p ⟨n, o, t, k, i⟩, phase := upd s.phase p .fresh,
                  curProc := upd s.curProc o (some p), urgent := s.urgent ++ [.startTask p],
                  loop := upd s.loop l ⟨n, o, .waits p t⟩, active := .idle }, .began o p t k i)
  | (q, _) => crash { s with q := q }

/-- `loop` (task_network.py 105-114) up to the `while`. -/
def loopStart (s : St) (l : Nat) (init : Option String) : St × Out :=
  match Network.getNext s.q (s.loop l).net with
  | .next (some t) => enter s l t
  | .next none =>
    match init with
    | some t => enter s l t
    | none => crash s
  | _ => crash s

/-- The task or decision `t` of the loop is over (task_network.py 137-138, and round again). -/
def loopNext (s : St) (l : Nat) (t : String) : St × Out :=
  match Network.nextName s.q (s.loop l).net (s.net (s.loop l).obj) t with
  | some u => enter s l u
  | none => crash s

/-- An interruption arrives. `Task.run` (task.py 524-530) calls `on_interrupt`; the cancelling of routines (541) and `DecisionTask.run`
(607-619) do not catch interrupts; nor would a process that was not started. -/
def deliver (s : St) (p k c : Nat) : St × Out :=
  match s.phase p with
  | .over => (s, .dropped k p c)
  | .live => if (s.proc p).kind = .decision then crash s else ({ s with active := .handler p }, .called k p c)
  | _ => crash s

/-- SimPy processes the oldest urgent event. -/
def doUrgent (s : St) : St × Out :=
  match s.urgent with
  | [] => (s, .impossible)
  | u :: r =>
    let s := { s with urgent := r }
    match u with
    | .startLoop l =>
      match (s.loop l).pos with
      | .fresh init => loopStart s l init
      | _ => (s, .impossible)
    | .startTask p => ({ s with phase := upd s.phase p .live, active := .task p }, .runs p)
    | .interrupt p k c => deliver s p k c

/-- What becomes of the answer: `_handle_interruption` (task.py 440-462) in `Task.run` (524-554). -/
def apply (s : St) (p : Nat) : Answer → St × Out
  | .bad => crash s
  | .act .ignore => ({ s with active := .idle }, .answered p .ignore)
  | .act .end_ => ({ s with phase := upd s.phase p (.closing false), active := .task p }, .answered p .end_)
  | .act .restart => ({ s with phase := upd s.phase p (.closing true), active := .task p }, .answered p .restart)

/-- `on_interrupt` returns: the user's own (`some`), or the default (task.py 118-131); a terminal task's raises (653-665). -/
def answer (s : St) (a : Option Answer) : St × Out :=
  match s.active with
  | .handler p =>
    if (s.proc p).kind = .terminal then crash s else
    apply s p (a.getD (.act (s.inst (s.proc p).inst).action))
  | _ => (s, .impossible)

/-- The code of a task returns (task.py 482-498, 543-554): the end of the process, or a new start of the same instance; a terminal
task that returns raises (677-679). -/
def finish (s : St) : St × Out :=
  match s.active with
  | .task p =>
    match s.phase p with
    | .closing true => ({ s with phase := upd s.phase p .live }, .restarted p)
    | .closing false => ({ s with phase := upd s.phase p .over, active := .idle }, .finished p)
    | _ => if (s.proc p).kind = .terminal then crash s else
      ({ s with phase := upd s.phase p .over, active := .idle }, .finished p)
  | _ => (s, .impossible)

/-- `set_marker` (task.py 133-147). -/
def setMarker (s : St) (i : Nat) (m : String) (a : Action) : St :=
  { s with inst := upd s.inst i ⟨some m, some s.now, a⟩ }

/-- `clear_marker` (task.py 165-169). -/
def clearMarker (s : St) (i : Nat) : St := { s with inst := upd s.inst i ⟨none, none, .end_⟩ }

/-- Calls of the API, by anybody: while a process runs, by that process (`active`), else by code that is not modelled. -/
inductive Call where
  | addNet (n : String) (net : Net)
  | delNet (n : String)
  | setQ (n : String) (l : List String)
  | clearQ (n : String)
  | appendQ (n t : String)
  | startLoop (n : String) (init : Option String)
  | getRunning (n : String)
  | getAll
  | interruptNet (n : String) (c : Nat)
  | setMarker (i : Nat) (m : String) (a : Action)
  | clearMarker (i : Nat)
  | getMarker (i : Nat)
deriving DecidableEq

/-- Calls, what the running code does next, and what SimPy does. -/
inductive Op where
  | call (c : Call)
  /-- The running task waits for something. -/
  | sleep
  /-- The running task's code returns. -/
  | finish
  /-- The running code raises. -/
  | raise
  | answer (a : Option Answer)
  /-- The decision in a loop was made. -/
  | decided
  | urgent
  /-- What task process `p` waits for has happened. -/
  | wake (p : Nat)
  /-- Loop `l`, whose task is over, goes on. -/
  | resume (l : Nat)
  | advance (dt : Rat)
deriving DecidableEq

def doCall (s : St) : Call → St × Out
  | .addNet n net => addNet s n net
  | .delNet n => ({ s with q := (Network.delNet s.q n).1 }, .queued (Network.delNet s.q n).2)
  | .setQ n l => ({ s with q := (Network.setQ s.q n l).1 }, .queued (Network.setQ s.q n l).2)
  | .clearQ n => ({ s with q := (Network.clearQ s.q n).1 }, .queued (Network.clearQ s.q n).2)
  | .appendQ n t => ({ s with q := (Network.appendQ s.q n t).1 }, .queued (Network.appendQ s.q n t).2)
  | .startLoop n init => startLoop s n init
  | .getRunning n => (s, getRunning s n)
  | .getAll => (s, .reports (getAll s))
  | .interruptNet n c => interruptNet s n c
  | .setMarker i m a => if i < s.nInst then (setMarker s i m a, .done) else (s, .impossible)
  | .clearMarker i => if i < s.nInst then (clearMarker s i, .done) else (s, .impossible)
  | .getMarker i => if i < s.nInst then (s, .marker (s.inst i).marker (s.inst i).time) else (s, .impossible)

/-- Some loop is to go on. -/
def due (s : St) (l : Nat) : Bool :=
  match (s.loop l).pos with
  | .waits p _ => decide (s.phase p = .over)
  | _ => false

/-- Nothing is running and nothing urgent is left. -/
def quiet (s : St) : Bool := decide (s.active = .idle) && s.urgent.isEmpty

def step (s : St) (op : Op) : St × Out :=
  if s.crashed then (s, .impossible) else
  match op with
  | .call c => doCall s c
  | .sleep =>
    match s.active with
    | .task _ => ({ s with active := .idle }, .done)
    | _ => (s, .impossible)
  | .finish => finish s
  | .raise => if s.active = .idle then (s, .impossible) else crash s
  | .answer a => answer s a
  | .decided =>
    match s.active with
    | .decision l =>
      match (s.loop l).pos with
      | .decides t => loopNext { s with active := .idle } l t
      | _ => (s, .impossible)
    | _ => (s, .impossible)
  | .urgent => if s.active = .idle then doUrgent s else (s, .impossible)
  | .wake p =>
    if quiet s && decide (p < s.nProc) && decide (s.phase p ≠ .over) && decide (s.phase p ≠ .fresh) then
      ({ s with active := .task p }, .runs p)
    else (s, .impossible)
  | .resume l =>
    if quiet s && decide (l < s.nLoop) && due s l then
      match (s.loop l).pos with
      | .waits _ t => loopNext s l t
      | _ => (s, .impossible)
    else (s, .impossible)
  | .advance dt =>
    if quiet s && decide (0 ≤ dt) && (List.range s.nLoop).all (fun l => !due s l) then
      ({ s with now := s.now + dt }, .done)
    else (s, .impossible)

/-- The time of each operation, the operation, and its outcome. -/
abbrev Trace := List (Rat × Op × Out)

/-- Final state and trace, the latest first. -/
def run (s : St) (tr : Trace) : List Op → St × Trace
  | [] => (s, tr)
  | op :: ops => run (step s op).1 ((s.now, op, (step s op).2) :: tr) ops

def init (t0 : Rat) : St where
  now := t0
  q := Network.init
  obj := fun _ => 0
  nObj := 0
  net := fun _ => ⟨[], []⟩
  curName := fun _ => none
  curProc := fun _ => none
  nProc := 0
  proc := fun _ => ⟨"", 0, "", .normal, 0⟩
  phase := fun _ => .over
  nInst := 0
  inst := fun _ => ⟨none, none, .end_⟩
  nLoop := 0
  loop := fun _ => ⟨"", 0, .fresh none⟩
  urgent := []
  nInt := 0
  active := .idle
  crashed := false

end Verif.Running
