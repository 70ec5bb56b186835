import Verif.Predict.Model

/-!
# A network of tasks and its rehearsal

Sources: `/repo/src/upstage_des/task_network.py` 58-92 (`is_feasible`, `_next_task_name`), 94-138 (`loop`), 140-196 (`rehearse_network`); `actor.py` 727-814 (task queues), 993-1042 (`clone`);
`task.py` 368-423 (`rehearse`), 464-523 (`run`), 560-635 (`DecisionTask`); SimPy's processes.

The tasks are those of `Verif.Predict`: any code. The loop of a network executes them one after the other, each as a process of its own, among other processes; a rehearsal
rehearses them one after the other with one understudy and its clock.

Simplified: starting the process of a task, its end, and the `timeout(0.0)` of a `DecisionTask` are events in SimPy's queue at the time at which it is; here, anything else that is due at that
time may come before them or not (`Turn.go`), so every order is in the model, also that of SimPy. What a former task has left in the queue (the timeouts of an `Any`) is an event at which
other processes may do something. A `DecisionTask` does not yield. Interrupts are in `Verif.TaskRun` and `Verif.Running`. The loop begins when its process does. The understudy begins as the actor was: what
`clone` copies is in `Verif.Clone`; the queue is one list with that of the actor until it is assigned, what that does to the actor is in `Verif.Rehearse`.
-/

namespace Verif.Plan

open Verif.Predict

variable {K : Type} [Field K] [LinearOrder K] [IsStrictOrderedRing K] {A Op Val : Type}

/-- An actor and its task queue in the network. -/
abbrev Agent (A : Type) := A × List String

/-- `TaskLinks` (task_network.py:24-29). -/
structure Links where
  default : Option String
  allowed : List String

/-- A `Task`, or a `DecisionTask` with `make_decision` and `rehearse_decision`. -/
inductive Job (K Op Val : Type) where
  | task (code : Code K Op Val)
  | decision (make rehearse : Code K Op Val)

/-- The code of a decision does not yield. -/
def still (code : Code K Op Val) : Code K Op Val := fun h =>
  match code h with
  | .act o => .act o
  | .clock => .clock
  | _ => .ret

/-- What is executed (task.py 464-523, 617-632). -/
def Job.run : Job K Op Val → Code K Op Val
  | .task code => code
  | .decision make _ => still make

/-- What is rehearsed (task.py 393-417, 609-612). -/
def Job.rehearsed : Job K Op Val → Code K Op Val
  | .task code => code
  | .decision _ reh => still reh

/-- `task_classes` and `task_links` (task_network.py 52-56). -/
structure Net (K Op Val : Type) where
  jobs : String → Option (Job K Op Val)
  links : String → Option Links

/-- `_next_task_name` (71-92), without taking it from the queue. -/
def nextName (N : Net K Op Val) (cur : String) (queue : List String) : Option String :=
  match N.links cur with
  | none => none
  | some l =>
    match queue with
    | [] => l.default
    | u :: _ => some u

/-- `is_feasible` (58-69), where `None` is for a `KeyError`. -/
def feasible (N : Net K Op Val) (cur new : String) : Bool :=
  match N.links cur with
  | none => false
  | some l => l.allowed.contains new

/-! ## The loop -/

inductive Phase where
  | starting | running | ended | dead
deriving DecidableEq

/-- The simulation with the loop: that of the current task, `_current_task_name`, how far it is, and (for the statement of theorems) the tasks begun, with times. -/
structure LSt (K A Val : Type) where
  base : St K (Agent A) Val
  cur : String
  phase : Phase
  log : List (String × K)

/-- What is left in the queue by a task that is over. -/
def retire (i : Item K) : Item K := { i with ent := .other }

/-- The body of the `while` (114-133) up to the start of the task, with `_begin_next_task` (actor.py 797-814). -/
def begin_ (N : Net K Op Val) (s : LSt K A Val) (u : String) : LSt K A Val :=
  let s := { s with cur := u, log := s.log ++ [(u, s.base.now)] }
  match s.base.actor.2 with
  | x :: q =>
    if x ≠ u then { s with phase := .dead }
    else { s with base := { s.base with actor := (s.base.actor.1, q) }, phase := if (N.jobs u).isSome then .starting else .dead }
  | [] => { s with phase := if (N.jobs u).isSome then .starting else .dead }

/-- The process of the task begins. -/
def launch (s : LSt K A Val) : LSt K A Val :=
  { s with base := Predict.init s.base.now s.base.actor (s.base.queue.map retire), phase := .running }

/-- The process of the task has ended (135-138). -/
def proceed (N : Net K Op Val) (s : LSt K A Val) : LSt K A Val :=
  match nextName N s.cur s.base.actor.2 with
  | none => { s with phase := .dead }
  | some u => begin_ N s u

/-- What others do at their turn, and whether the loop goes on before them. -/
structure Turn (K Op : Type) where
  other : Other K Op
  go : Bool

/-- Something else is due at this time. -/
def due (s : St K A Val) : Bool :=
  match s.queue with
  | [] => false
  | i :: _ => decide (i.time = s.now)

/-- The code of the current task. -/
def codeOf (N : Net K Op Val) (u : String) : Code K Op Val :=
  match N.jobs u with
  | some j => j.run
  | none => fun _ => .ret

/-- After the current task has done something. -/
def phaseOf (s : St K A Val) : Phase :=
  match s.status with
  | .running => .running
  | .finished => .ended
  | .raised => .dead

/-- The loop goes on, the task executes its next command, or the next event is processed. An exception ends the simulation. -/
def lstep (M : Methods K (Agent A) Op Val) (N : Net K Op Val) (g : Turn K Op) (s : LSt K A Val) : LSt K A Val :=
  match s.phase with
  | .dead => s
  | .starting => if g.go || !due s.base then launch s else { s with base := tick M g.other s.base }
  | .ended => if g.go || !due s.base then proceed N s else { s with base := tick M g.other s.base }
  | .running =>
    let b := Predict.step M (codeOf N s.cur) g.other s.base
    { s with base := b, phase := phaseOf b }

/-- The simulation. -/
def loop (M : Methods K (Agent A) Op Val) (N : Net K Op Val) (s : LSt K A Val) : List (Turn K Op) → LSt K A Val
  | [] => s
  | g :: gs => loop M N (lstep M N g s) gs

/-- `loop` begins (105-114): the first task is the one of the queue, or that given. -/
def start (N : Net K Op Val) (t0 : K) (a : Agent A) (q : List (Item K)) (first : Option String) : LSt K A Val :=
  let s : LSt K A Val := ⟨{ Predict.init t0 a q with status := .finished }, "", .ended, []⟩
  match a.2 with
  | u :: _ => begin_ N s u
  | [] =>
    match first with
    | some u => begin_ N s u
    | none => { s with phase := .dead }

/-! ## The rehearsal -/

inductive RPhase where
  | running | ended | over | dead
deriving DecidableEq

/-- The rehearsal of a network: that of the current task, its name, the listed tasks still to come, how far it is, the tasks begun, and the end task if it was reached. -/
structure RNSt (K A Val : Type) where
  base : RSt K (Agent A) Val
  cur : String
  left : List String
  phase : RPhase
  log : List (String × K)
  ending : Option String

/-- The end task ends the rehearsal (175-176), another task is rehearsed (177-183) with the understudy and its clock. -/
def rbegin (N : Net K Op Val) (stop : Option String) (r : RNSt K A Val) (u : String) (left : List String) : RNSt K A Val :=
  if stop = some u then { r with phase := .over, left := left, ending := some u }
  else
    { r with
      base := rinit r.base.now r.base.actor
      cur := u
      left := left
      log := r.log ++ [(u, r.base.now)]
      phase := if (N.jobs u).isSome then .running else .dead }

/-- What comes after a task (167-176, 184-191). -/
def rproceed (N : Net K Op Val) (stop : Option String) (r : RNSt K A Val) : RNSt K A Val :=
  match r.left with
  | u :: left => if feasible N r.cur u then rbegin N stop r u left else { r with phase := .dead }
  | [] =>
    match stop with
    | none => { r with phase := .over }
    | some _ =>
      match nextName N r.cur r.base.actor.2 with
      | none => { r with phase := .dead }
      | some u => rbegin N stop { r with base := { r.base with actor := (r.base.actor.1, r.base.actor.2.tail) } } u []

def rcodeOf (N : Net K Op Val) (u : String) : Code K Op Val :=
  match N.jobs u with
  | some j => j.rehearsed
  | none => fun _ => .ret

def rphaseOf (r : RSt K A Val) : RPhase :=
  match r.status with
  | .running => .running
  | .finished => .ended
  | .raised => .dead

/-- One command of the current task, or the choice of the next one. -/
def nstep (M : Methods K (Agent A) Op Val) (N : Net K Op Val) (stop : Option String) (r : RNSt K A Val) : RNSt K A Val :=
  match r.phase with
  | .running =>
    let b := rstep M r.base (rcodeOf N r.cur r.base.hist)
    { r with base := b, phase := rphaseOf b }
  | .ended => rproceed N stop r
  | _ => r

/-- `rehearse_network` begins (159-183); an end task without a list raises a `NameError`. -/
def rstart (N : Net K Op Val) (t0 : K) (a : Agent A) (names : List String) (stop : Option String) : RNSt K A Val :=
  let r : RNSt K A Val := ⟨rinit t0 a, "", [], .over, [], none⟩
  match names with
  | u :: left => rbegin N stop r u left
  | [] =>
    match stop with
    | none => r
    | some _ => { r with phase := .dead }

/-- The rehearsal after `n` steps. -/
def rehearse (M : Methods K (Agent A) Op Val) (N : Net K Op Val) (t0 : K) (a : Agent A) (names : List String) (stop : Option String) : Nat → RNSt K A Val
  | 0 => rstart N t0 a names stop
  | n + 1 => nstep M N stop (rehearse M N t0 a names stop n)

/-! ## Actors with a task queue -/

/-- What a task does with its actor and the task queue of the network (actor.py 727-762): `set_task_queue` with a list, `clear_task_queue`, `get_task_queue` (read only). -/
inductive DOp (Op : Type) where
  | act (o : Op)
  | setQueue (l : List String)
  | clearQueue
  | getQueue

inductive DVal (Val : Type) where
  | val (v : Val)
  | done
  | raised
  | names (l : List String)

/-- An actor with a task queue. Others read. -/
def desk (M : Methods K A Op Val) : Methods K (Agent A) (DOp Op) (DVal Val) where
  step t o x :=
    match o with
    | .act o => (((M.step t o x.1).1, x.2), .val (M.step t o x.1).2)
    | .setQueue l => if x.2 ≠ [] then (x, .raised) else ((x.1, l), .done)
    | .clearQueue => ((x.1, []), .done)
    | .getQueue => (x, .names x.2)
  reads o := match o with
    | .act o => M.reads o
    | .getQueue => True
    | _ => False

/-- An actor with a task queue that the tasks do not look at. -/
def desk' (M : Methods K A Op Val) : Methods K (Agent A) Op Val where
  step t o x := (((M.step t o x.1).1, x.2), (M.step t o x.1).2)
  reads := M.reads

end Verif.Plan
