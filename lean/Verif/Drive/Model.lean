import Verif.Path.Model
import Verif.Queued.Model

/-! # Actors on a stage with a motion manager

What joins the location states of `Path` and the `SensorMotionManager` of `Queued`: the hooks by which a location state tells the manager
of its motion (states.py 580-587, 696-699, 779-786, 909-913), those of the `DetectabilityState` (states.py 363-381), and the clones made
for rehearsals (actor.py 957-1040), which have a clock of their own.

Simplified: the actors that are no clones exist from the beginning; every actor may have any of the location states and at most one
`DetectabilityState`; nothing mimics; callbacks of sensors do nothing to actors; of the attributes of a clone only the location states and
the `DetectabilityState` are modelled, and states are always given by the original. -/

namespace Verif.Drive

variable {P : Type}

/-- The kind of locations, the intersection model given to the manager, the names of the location states in the order of their
definition. -/
structure Cfg (P : Type) where
  kind : Path.Kind P
  inter : Queued.Inter ℝ P
  states : List Nat

/-- The number of actors made so far, who is a clone (`_is_rehearsing`, actor.py 142, 1039), the location states by actor and name, and the
manager, which has the simulation clock and the `DetectabilityState`s. -/
structure World (P : Type) where
  count : Nat
  copy : Nat → Bool
  loc : Nat → Nat → Path.St P
  mgr : Queued.St ℝ P

/-- A stage with `n` actors. -/
def init (t0 : ℝ) (n : Nat) (det : Nat → Option Bool) (val : Nat → Nat → P) : World P :=
  ⟨n, fun _ => false, fun a x => ⟨t0, val a x, none, false⟩, Queued.St.init t0 det⟩

/-- What may happen. `mock` is the passing of time in the rehearsal of a clone. -/
inductive Op (P : Type) where
  | activate (a n : Nat) (speed : ℝ) (waypoints : List P)
  | deactivate (a n : Nat)
  | read (a n : Nat)
  | remaining (a n : Nat)
  | assign (a n : Nat) (p : P)
  | values (a : Nat)
  | detect (a : Nat) (v : Bool)
  | clone (a : Nat)
  | mock (c : Nat) (t : ℝ)
  | addSensor (s : Nat)
  | fire (i : Nat)
  | advance (t : ℝ)

/-- Answers: of an actor, a clone, of the manager, or that the operation is impossible. -/
inductive Out (P : Type) where
  | path (o : Path.Out P)
  | made (c : Nat)
  | mgr (o : Queued.Out)
  | refused

/-- Replaces a location state. -/
def setLoc (w : World P) (a n : Nat) (σ : Path.St P) : World P :=
  { w with loc := fun b m => if b = a ∧ m = n then σ else w.loc b m }

/-- An operation of a location state that does not concern the manager. -/
noncomputable def plain (c : Cfg P) (w : World P) (a n : Nat) (o : Path.Op P) : World P × Out P :=
  (setLoc w a n (Path.step c.kind (w.loc a n) o).1, .path (Path.step c.kind (w.loc a n) o).2)

/-- `activate_state` (actor.py 314-342) with the end of `_setup` (states.py 580-587, 779-786): the manager is told unless the actor is a
clone; an exception of the manager leaves the state activated. -/
noncomputable def activate (c : Cfg P) (w : World P) (a n : Nat) (speed : ℝ) (ws : List P) : World P × Out P :=
  match Path.step c.kind (w.loc a n) (.activate speed ws) with
  | (τ, .done) =>
    if w.copy a then (setLoc w a n τ, .path .done)
    else
      match Queued.startMover c.inter w.mgr a speed ((w.loc a n).value :: ws) with
      | (μ, .ok) => ({ setLoc w a n τ with mgr := μ }, .path .done)
      | (μ, _) => ({ setLoc w a n τ with mgr := μ }, .path .error)
  | (τ, o) => (setLoc w a n τ, .path o)

/-- `deactivate_state` (actor.py 408-425) with the hook of the state's `deactivate` (states.py 686-700, 899-914), which is reached when the
state has been unlocked and read; an exception of the manager leaves the data of the active state. -/
noncomputable def deactivate (c : Cfg P) (w : World P) (a n : Nat) : World P × Out P :=
  if (w.loc a n).locked then
    match Path.read c.kind { w.loc a n with locked := false } with
    | (τ, .error) => (setLoc w a n τ, .path .error)
    | (τ, _) =>
      if w.copy a then (setLoc w a n { τ with act := none }, .path .done)
      else
        match Queued.stopMover w.mgr a false with
        | (μ, .ok) => ({ setLoc w a n { τ with act := none } with mgr := μ }, .path .done)
        | (μ, _) => ({ setLoc w a n τ with mgr := μ }, .path .error)
  else (w, .path .error)

/-- `state_values` (actor.py 1082-1089), and the loop of `clone` (actor.py 989-996), for the location states: reads one after the other up
to the first that raises. -/
noncomputable def readAll (c : Cfg P) (w : World P) (a : Nat) : List Nat → World P × Bool
  | [] => (w, true)
  | n :: l =>
    match Path.read c.kind (w.loc a n) with
    | (τ, .error) => (setLoc w a n τ, false)
    | (τ, _) => readAll c (setLoc w a n τ) a l

/-- Setting the `DetectabilityState` (states.py 363-381): there is no exception for clones. -/
noncomputable def detect (w : World P) (a : Nat) (v : Bool) : World P × Out P :=
  ({ w with mgr := (Queued.setDetect w.mgr a v).1 }, .mgr (Queued.setDetect w.mgr a v).2)

/-- `clone` (actor.py 957-1040): a new actor with the values of the states of `a`, nothing active, and a clock that shows the same time.
The first assignment to the new `DetectabilityState` does not reach the manager (states.py 370-376). -/
noncomputable def clone (c : Cfg P) (w : World P) (a : Nat) : World P × Out P :=
  match readAll c w a c.states with
  | (w, false) => (w, .path .error)
  | (w, true) =>
    ({ count := w.count + 1,
       copy := Queued.upd w.copy w.count true,
       loc := fun b n => if b = w.count then ⟨(w.loc a n).now, (w.loc a n).value, none, false⟩ else w.loc b n,
       mgr := { w.mgr with detect := Queued.upd w.mgr.detect w.count (w.mgr.detect a) } }, .made w.count)

/-- The actor an operation is about. -/
def Op.actor : Op P → Option Nat
  | .activate a .. => some a
  | .deactivate a _ => some a
  | .read a _ => some a
  | .remaining a _ => some a
  | .assign a .. => some a
  | .values a => some a
  | .detect a _ => some a
  | .clone a => some a
  | .mock a _ => some a
  | _ => none

/-- One operation, by an actor that exists. The simulation clock is that of the actors that are no clones. -/
noncomputable def act (c : Cfg P) (w : World P) : Op P → World P × Out P
  | .activate a n v ws => activate c w a n v ws
  | .deactivate a n => deactivate c w a n
  | .read a n => plain c w a n .read
  | .remaining a n => plain c w a n .remaining
  | .assign a n p => plain c w a n (.assign p)
  | .values a => ((readAll c w a c.states).1, .path (if (readAll c w a c.states).2 then .done else .error))
  | .detect a v => detect w a v
  | .clone a => clone c w a
  | .mock a t =>
    if w.copy a then ({ w with loc := fun b n => if b = a then (Path.step c.kind (w.loc a n) (.advance t)).1 else w.loc b n }, .path .done)
    else (w, .refused)
  | .addSensor s => ({ w with mgr := (Queued.addSensor c.inter w.mgr s).1 }, .mgr (Queued.addSensor c.inter w.mgr s).2)
  | .fire i => ({ w with mgr := (Queued.fire w.mgr i).1 }, .mgr (Queued.fire w.mgr i).2)
  | .advance t =>
    match Queued.step c.inter w.mgr (.advance t) with
    | (μ, .ok) => ({ w with mgr := μ, loc := fun a n => if w.copy a then w.loc a n else { w.loc a n with now := t } }, .mgr .ok)
    | (_, o) => (w, .mgr o)

/-- One operation. -/
noncomputable def step (c : Cfg P) (w : World P) (o : Op P) : World P × Out P :=
  match o.actor with
  | none => act c w o
  | some a => if a < w.count then act c w o else (w, .refused)

/-- A run. -/
noncomputable def run (c : Cfg P) (w : World P) : List (Op P) → World P
  | [] => w
  | o :: os => run c (step c w o).1 os

end Verif.Drive
