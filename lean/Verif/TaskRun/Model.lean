import Verif.Util.Dict
import Verif.Active.Model
import Verif.Mimic.Model

/-!
# Model of a running task: `Task.run`, `Task._handle_interruption`, `Routine._run`, `Routine._run_cancel`

Sources: `/repo/src/upstage_des/task.py` (`InterruptStates` 35-40, `_handle_interruption` 425-462, `run`
464-554, `DecisionTask.run` 607-619, `TerminalTask` 632-679) and `/repo/src/upstage_des/routines.py`
(`Routine._run` 45-58, `Routine._run_cancel` 60-65).

The user's code (the body of `task`, of a routine's `run` and of its `cancel`, and `on_interrupt`) is not
modelled: it is the environment. Each time the machine advances one of these generators, the operation `act`
says what that code did. So a theorem over all operation lists holds for every task and routine program.

The actor is represented by three parts: its active states and state locks (`Verif.Active`), its mimics
(`Verif.Mimic`) and its knowledge (here only which names are bound to which event object). Anybody may change
them at any time, by the operations `states`, `mimics`, `learn`, `forget`.

Simplified: whether cancelling the awaited event raises is decided by the environment (`cancelOk`): see
`Verif.Event`, `Verif.Store` for the events themselves. The actor's log and warnings are not modelled.
-/

namespace Verif.TaskRun

variable {V M : Type}

/-- What the user's generator did when it was advanced: it yielded an UPSTAGE event, a SimPy process, a routine,
something else, it returned (`none` is Python's `None`), or it raised. `task.py:480-513`. -/
inductive Act (V : Type) where
  | event (e : Nat)
  | process (p : Nat)
  | routine
  | other
  | ret (v : Option V)
  | raise
  deriving DecidableEq, Repr

/-- `next_event` once it is being waited for: `task.py:503-513`. -/
inductive Tgt where
  | ev (e : Nat)
  | proc (p : Nat)
  deriving DecidableEq, Repr

/-- `gen_objs` entries: the task itself or a routine; the number tells apart the generator objects created during
the run (`task.py:475-480, 499-501, 545-550`). -/
inductive Who where
  | task (k : Nat)
  | routine (k : Nat)
  deriving DecidableEq, Repr

/-- The number of the generator object. -/
def Who.num : Who → Nat
  | .task k => k
  | .routine k => k

/-- An entry of the `generators` stack; `started` is whether the generator was advanced before (CPython refuses to
send a value other than `None` to a generator that was not). -/
structure Gen where
  who : Who
  started : Bool
  deriving DecidableEq, Repr

/-- Ways the process fails (the exception leaves `run`). -/
inductive Err where
  | typeError   -- "can't send non-None value to a just-started generator"
  | badYield    -- `SimulationError`: unexpected yielded event type / "Routines only support BaseEvent subclasses."
  | user        -- the user's code raised
  | answer      -- `on_interrupt` raised, returned `None` or something that is not an interrupt action
  | cleanUp     -- deactivating states or mimics, or cancelling the event, raised
  | interrupt   -- an `Interrupt` that nothing catches
  | failed      -- the awaited event failed
  deriving DecidableEq, Repr

/-- Where the process is. `cancelling`: in the body of a routine's `cancel` (`task.py:541`), with the generators still
to be popped and whether to restart afterwards; `cancelWait`: waiting for an event of that body. -/
inductive Status where
  | fresh
  | running
  | waiting (t : Tgt)
  | cancelling (w : Who) (rest : List Gen) (again : Bool)
  | cancelWait (w : Who) (rest : List Gen) (again : Bool)
  | done
  | crashed (e : Err)
  deriving DecidableEq, Repr

/-- `InterruptStates` (`task.py:35-40`) and the other things `on_interrupt` can do. -/
inductive Answer where
  | end_
  | restart
  | ignore
  | none_
  | other
  | raises
  deriving DecidableEq, Repr

/-- The task, its actor and their settings. -/
structure Cfg (M : Type) where
  self : Nat
  me : Nat
  act : Active.Cfg
  mim : Mimic.Cfg M

/-- The state: the process (`gens`, `item` = `return_item`, `next` = number for the next generator object), the
actor, and the list of everything cancelled so far (latest first). -/
structure St (V M : Type) where
  status : Status
  gens : List Gen
  item : Option V
  next : Nat
  act : Active.St
  mim : Mimic.St M
  know : Dict Nat (Option Nat)
  cancelled : List Tgt

/-- Observable effects: the user's code of `w` was resumed with `x`; the `cancel` code of `w` was run a step; the
process was interrupted and went on, or cleaned up; it crashed; the operation cannot happen now. -/
inductive Out (V : Type) where
  | user (w : Who) (x : Option V)
  | cancelRun (w : Who)
  | resumed
  | ignored
  | cleaned
  | crash (e : Err)
  | quiet
  | impossible
  deriving DecidableEq, Repr

/-- An exception leaves the generator. -/
def crash (s : St V M) (e : Err) : St V M × Out V := ({ s with status := .crashed e }, .crash e)

/-- Popping the generators after END or RESTART: `task.py:534-554`. The task's own generator is just dropped; a
routine's generator is closed (`routines.py:55-58`: the close is absorbed) and its `cancel` runs. -/
def unwind (s : St V M) (again : Bool) : List Gen → St V M
  | [] =>
    if again then
      { s with status := .running, gens := [⟨.task s.next, false⟩], item := none, next := s.next + 1 }
    else { s with status := .done, gens := [] }
  | g :: gs =>
    match g.who with
    | .task _ => unwind s again gs
    | .routine k => { s with status := .cancelling (.routine k) gs again, gens := [] }

/-- Resuming the top generator: `task.py:484-516` for the task's own generator, and `routines.py:45-54` for a
routine's, whose user code is always resumed by `next`, that is with `None`. -/
def advance (s : St V M) (g : Gen) (gs : List Gen) (a : Act V) : St V M × Out V :=
  if g.started = false ∧ s.item.isSome then crash s .typeError
  else
    let s' := { s with gens := { g with started := true } :: gs }
    match g.who with
    | .task k =>
      let out := Out.user (.task k) s.item
      match a with
      | .event e => ({ s' with status := .waiting (.ev e) }, out)
      | .process p => ({ s' with status := .waiting (.proc p) }, out)
      | .routine => ({ s' with gens := ⟨.routine s.next, false⟩ :: s'.gens, next := s.next + 1 }, out)
      | .other => ({ s' with status := .crashed .badYield }, out)
      | .raise => ({ s' with status := .crashed .user }, out)
      | .ret v =>
        let item := if v.isSome then v else s.item
        if gs = [] then ({ s with gens := [], item := item, status := .done }, out)
        else ({ s with gens := gs, item := item }, out)
    | .routine k =>
      let out := Out.user (.routine k) none
      match a with
      | .event e => ({ s' with status := .waiting (.ev e) }, out)
      | .process _ | .routine | .other => ({ s' with status := .crashed .badYield }, out)
      | .raise => ({ s' with status := .crashed .user }, out)
      | .ret v =>
        let item := if v.isSome then v else s.item
        if gs = [] then ({ s with gens := [], item := item, status := .done }, out)
        else ({ s with gens := gs, item := item }, out)

/-- Clearing the knowledge names bound to the awaited event: `task.py:449-453`; nothing for a process. -/
def unbind (know : Dict Nat (Option Nat)) : Tgt → Dict Nat (Option Nat)
  | .ev e => know.filter (fun p => p.2 ≠ some e)
  | .proc _ => know

/-- `_handle_interruption` for END and RESTART: `task.py:445-459`. `ord` is the order in which the set of the task's
states is walked. -/
def cleanUp (c : Cfg M) (s : St V M) (t : Tgt) (again : Bool) (ord : List Nat) (cancelOk : Bool) : St V M × Out V :=
  match Active.step c.act s.act (.deactivateAll c.self ord) with
  | (a, .all _ false) =>
    match Mimic.step c.mim s.mim (.deactivateAll c.me c.self) with
    | (m, .ok) =>
      let s := { s with act := a, mim := m, know := unbind s.know t }
      if cancelOk then (unwind { s with cancelled := t :: s.cancelled } again s.gens, .cleaned)
      else crash s .cleanUp
    | (m, _) => crash { s with act := a, mim := m } .cleanUp
  | (a, _) => crash { s with act := a } .cleanUp

inductive Op (V M : Type) where
  | start
  | act (a : Act V)
  | fire (v : Option V)
  | fail
  | interrupt (ans : Answer) (ord : List Nat) (cancelOk : Bool)
  | states (op : Active.Op)
  | mimics (op : Mimic.Op M)
  | learn (name : Nat) (v : Option Nat)
  | forget (name : Nat)

/-- One step of the process or of its surroundings. An interrupt of a process that has ended is dropped by SimPy;
one that has not started yet is delivered after its start (SimPy's order of urgent events), so it is an interrupt
of the first wait. -/
def step (c : Cfg M) (s : St V M) : Op V M → St V M × Out V
  | .start =>
    match s.status with
    | .fresh => ({ s with status := .running }, .quiet)
    | _ => (s, .impossible)
  | .act a =>
    match s.status with
    | .running =>
      match s.gens with
      | g :: gs => advance s g gs a
      | [] => (s, .impossible)
    | .cancelling w rest again =>
      match a with
      | .event _ => ({ s with status := .cancelWait w rest again }, .cancelRun w)
      | .ret _ => (unwind s again rest, .cancelRun w)
      | _ => ({ s with status := .crashed .user }, .cancelRun w)
    | _ => (s, .impossible)
  | .fire v =>
    match s.status with
    | .waiting _ => ({ s with status := .running, item := v }, .resumed)
    | .cancelWait w rest again => ({ s with status := .cancelling w rest again }, .resumed)
    | _ => (s, .impossible)
  | .fail =>
    match s.status with
    | .waiting _ | .cancelWait _ _ _ => crash s .failed
    | _ => (s, .impossible)
  | .interrupt ans ord cancelOk =>
    match s.status with
    | .waiting t =>
      match ans with
      | .ignore => (s, .ignored)
      | .end_ => cleanUp c s t false ord cancelOk
      | .restart => cleanUp c s t true ord cancelOk
      | .none_ | .other | .raises => crash s .answer
    | .cancelWait _ _ _ => crash s .interrupt
    | .done | .crashed _ => (s, .quiet)
    | _ => (s, .impossible)
  | .states op => ({ s with act := (Active.step c.act s.act op).1 }, .quiet)
  | .mimics op => ({ s with mim := (Mimic.step c.mim s.mim op).1 }, .quiet)
  | .learn n v => ({ s with know := s.know.set n v }, .quiet)
  | .forget n => ({ s with know := s.know.del n }, .quiet)

/-- The run of a list of operations: final state and trace. -/
def run (c : Cfg M) (s : St V M) : List (Op V M) → St V M × List (Op V M × Out V)
  | [] => (s, [])
  | op :: ops =>
    let r := step c s op
    let q := run c r.1 ops
    (q.1, (op, r.2) :: q.2)

/-- The process as `run` creates it (`task.py:475-482`), for an actor in any state. -/
def init (a : Active.St) (m : Mimic.St M) (know : Dict Nat (Option Nat)) : St V M where
  status := .fresh
  gens := [⟨.task 0, false⟩]
  item := none
  next := 1
  act := a
  mim := m
  know := know
  cancelled := []

end Verif.TaskRun
