import Verif.Path.Model
import Verif.Stepped.Model
import Verif.Util.Dict
import Mathlib.Data.Rat.Cast.Order
import Mathlib.Data.Real.Basic

/-! # Moving actors and the stepped motion manager

What joins the location states of `Path` and the `SteppedMotionManager` of `Stepped`: the hooks by which a location state tells the manager of
its motion (states.py 580-587, 696-699, 779-786, 909-913), those of the `DetectabilityState` (states.py 363-381), the choice of the state by
which a mover is watched (stepped_motion.py 304-313, actor.py 1114-1150), and the checks, which read the locations of sensors and movers
(stepped_motion.py 157-163) and so may change the values stored in location states.

Simplified: all objects exist from the beginning, clones made for rehearsals among them; all locations are of one kind; every object may have
a `DetectabilityState`; a sensor has no `detection_checker`, its radius is a plain attribute, and its callbacks do nothing to actors; nothing
mimics. The clock of the manager is rational, that of the location states is its image in the real numbers. -/

namespace Verif.Patrol

open Verif.Stepped (Obj)

variable {P : Type}

/-- The kind of locations, `straight_line_distance`, the arguments of the manager, the names of the location states of an object in the order
of their definition, and which objects are clones (`_is_rehearsing`). -/
structure Cfg (P : Type) where
  kind : Path.Kind P
  line : P → P → ℝ
  mgr : Stepped.Cfg
  states : Obj → List Nat
  copy : Obj → Bool

/-- The manager; the attributes given to it for the locations of sensors (`eyes`) and of detectable objects (`spots`), that is what the closures
`get_location` (stepped_motion.py 242-243, 273-274) refer to; the radii of the sensors; the location states by object and name. -/
structure World (P : Type) where
  mgr : Stepped.St
  eyes : Obj → Nat
  spots : Obj → Nat
  radius : Obj → ℝ
  loc : Obj → Nat → Path.St P

/-- A stage with a new manager. -/
def init (t0 : Rat) (det : Obj → Bool) (radius : Obj → ℝ) (val : Obj → Nat → P) : World P :=
  ⟨Stepped.St.init det t0, fun _ => 0, fun _ => 0, radius, fun a n => ⟨(t0 : ℝ), val a n, none, false⟩⟩

/-- What may happen. `mock` is the passing of time in the rehearsal of a clone. -/
inductive Op (P : Type) where
  | activate (a : Obj) (n : Nat) (speed : ℝ) (waypoints : List P)
  | deactivate (a : Obj) (n : Nat)
  | read (a : Obj) (n : Nat)
  | remaining (a : Obj) (n : Nat)
  | assign (a : Obj) (n : Nat) (p : P)
  | setRadius (s : Obj) (r : ℝ)
  | detect (a : Obj) (v : Bool)
  | addSensor (s : Obj) (n : Nat)
  | addDetectable (a : Obj) (n : Nat)
  | particular (a : Obj)
  | run
  | beginRun
  | timer (empty : Bool)
  | reorder (view : List (Obj × Obj))
  | mock (c : Obj) (t : ℝ)
  | advance (t : Rat)

/-- Answers: of a location state, of the manager, or that the operation is impossible. -/
inductive Out (P : Type) where
  | path (o : Path.Out P)
  | mgr (o : Stepped.Out)
  | refused

/-- Replaces a function at a point. -/
def upd {β : Type} (f : Obj → β) (a : Obj) (x : β) : Obj → β := fun b => if b = a then x else f b

/-- Replaces a location state. -/
def setLoc (w : World P) (a : Obj) (n : Nat) (σ : Path.St P) : World P :=
  { w with loc := fun b m => if b = a ∧ m = n then σ else w.loc b m }

/-- An operation of a location state that does not concern the manager. -/
noncomputable def plain (c : Cfg P) (w : World P) (a : Obj) (n : Nat) (o : Path.Op P) : World P × Out P :=
  (setLoc w a n (Path.step c.kind (w.loc a n) o).1, .path (Path.step c.kind (w.loc a n) o).2)

/-- Reading locations one after the other, up to the first that raises (stepped_motion.py 159, 163): what was read, by object. -/
noncomputable def readAll (c : Cfg P) (w : World P) : List (Obj × Nat) → World P × Option (Dict Obj P)
  | [] => (w, some [])
  | (a, n) :: l =>
    match Path.read c.kind (w.loc a n) with
    | (τ, .loc p) =>
      match readAll c (setLoc w a n τ) l with
      | (w, some ps) => (w, some ((a, p) :: ps))
      | (w, none) => (w, none)
    | (τ, _) => (setLoc w a n τ, none)

open Classical in
/-- What the sensors see, by what was read (`_detect_dist`, stepped_motion.py 126-144). -/
noncomputable def sight (c : Cfg P) (radius : Obj → ℝ) (ys xs : Dict Obj P) : Stepped.Look :=
  ⟨fun s a =>
    match ys.get? s, xs.get? a with
    | some y, some x => some (decide (c.line y x ≤ radius s))
    | _, _ => none, fun _ _ => [], true⟩

/-- Nothing can be seen, because of an exception. -/
def blind : Stepped.Look := ⟨fun _ _ => none, fun _ _ => [], false⟩

/-- The reads of `_run_detectable` (stepped_motion.py 157-163), for a manager in state `μ`: first the locations of the sensors, then those of the
requested objects that are detectable; asking for an object that is not being watched is a KeyError. -/
noncomputable def scan (c : Cfg P) (w : World P) (μ : Stepped.St) (req : Option (List Obj)) : World P × Stepped.Look :=
  match readAll c w (μ.sensors.map fun s => (s, w.eyes s)) with
  | (w, none) => (w, blind)
  | (w, some ys) =>
    let as := (req.getD μ.detectables).filter μ.det
    if ∀ a ∈ as, a ∈ μ.detectables then
      match readAll c w (as.map fun a => (a, w.spots a)) with
      | (w, none) => (w, blind)
      | (w, some xs) => (w, sight c w.radius ys xs)
    else (w, blind)

/-- An operation of the manager that checks. -/
noncomputable def check (c : Cfg P) (w : World P) (μ : Stepped.St) (req : Option (List Obj)) (o : Stepped.Look → Stepped.Op) : World P × Out P :=
  ({ (scan c w μ req).1 with mgr := (Stepped.step c.mgr w.mgr (o (scan c w μ req).2)).1 }, .mgr (Stepped.step c.mgr w.mgr (o (scan c w μ req).2)).2)

/-- An operation of the manager that does not read. -/
def ask (c : Cfg P) (w : World P) (o : Stepped.Op) : World P × Out P :=
  ({ w with mgr := (Stepped.step c.mgr w.mgr o).1 }, .mgr (Stepped.step c.mgr w.mgr o).2)

/-- `activate_state` (actor.py 314-342) with the end of `_setup` (states.py 580-587, 779-786) and `_start_mover` (stepped_motion.py 300-313): unless
the actor is a clone, the manager watches it from now on, by the first of its location states if it does not know it yet. -/
noncomputable def activate (c : Cfg P) (w : World P) (a : Obj) (n : Nat) (speed : ℝ) (ws : List P) : World P × Out P :=
  match Path.step c.kind (w.loc a n) (.activate speed ws) with
  | (τ, .done) =>
    if c.copy a then (setLoc w a n τ, .path .done)
    else
      ({ setLoc w a n τ with
         spots := if a ∈ w.mgr.detectables then w.spots else upd w.spots a ((c.states a).headD 0),
         mgr := (Stepped.step c.mgr w.mgr (.startMover a true)).1 }, .path .done)
  | (τ, o) => (setLoc w a n τ, .path o)

/-- `deactivate_state` (actor.py 408-425) with the hook of the state's `deactivate` (states.py 686-700, 899-914) and `_stop_mover`
(stepped_motion.py 315-320). -/
noncomputable def deactivate (c : Cfg P) (w : World P) (a : Obj) (n : Nat) : World P × Out P :=
  match Path.step c.kind (w.loc a n) .deactivate with
  | (τ, .done) =>
    if c.copy a then (setLoc w a n τ, .path .done)
    else ({ setLoc w a n τ with mgr := (Stepped.step c.mgr w.mgr (.stopMover a)).1 }, .path .done)
  | (τ, o) => (setLoc w a n τ, .path o)

/-- The state of an object an operation uses. -/
def Op.uses : Op P → Option (Obj × Nat)
  | .activate a n .. => some (a, n)
  | .deactivate a n => some (a, n)
  | .read a n => some (a, n)
  | .remaining a n => some (a, n)
  | .assign a n _ => some (a, n)
  | _ => none

/-- One operation, with a state that exists. `_mover_became_detectable` asks for the one object (stepped_motion.py 292-298), `run_particular` too
(stepped_motion.py 204-214), the loop for all (stepped_motion.py 195), if it is its turn. The simulation clock is that of the objects that are
no clones. -/
noncomputable def act (c : Cfg P) (w : World P) : Op P → World P × Out P
  | .activate a n v ws => activate c w a n v ws
  | .deactivate a n => deactivate c w a n
  | .read a n => plain c w a n .read
  | .remaining a n => plain c w a n .remaining
  | .assign a n p => plain c w a n (.assign p)
  | .setRadius s r => ({ w with radius := upd w.radius s r }, .path .done)
  | .detect a v =>
    if v then check c w { w.mgr with det := fun b => if b = a then true else w.mgr.det b } (some [a]) (.setDetectable a true)
    else ask c w (.setDetectable a false blind)
  | .addSensor s n =>
    if n ∈ c.states s then ask c { w with eyes := upd w.eyes s n } (.addSensor s true) else ask c w (.addSensor s false)
  | .addDetectable a n =>
    if n ∈ c.states a then ask c { w with spots := upd w.spots a n } (.addDetectable a true) else ask c w (.addDetectable a false)
  | .particular a => check c w w.mgr (some [a]) (.particular a)
  | .run => ask c w .run
  | .beginRun => ask c w .beginRun
  | .timer empty =>
    match w.mgr.loops with
    | [] => (w, .refused)
    | (t, _) :: _ => if t ≠ w.mgr.now then (w, .refused) else check c w w.mgr none (.timer empty)
  | .reorder view => ask c w (.reorder view)
  | .mock a t =>
    if c.copy a then ({ w with loc := fun b n => if b = a then (Path.step c.kind (w.loc a n) (.advance t)).1 else w.loc b n }, .path .done)
    else (w, .refused)
  | .advance t =>
    match Stepped.step c.mgr w.mgr (.advance t) with
    | (μ, .ok) => ({ w with mgr := μ, loc := fun a n => if c.copy a then w.loc a n else { w.loc a n with now := (t : ℝ) } }, .mgr .ok)
    | (_, o) => (w, .mgr o)

/-- One operation. -/
noncomputable def step (c : Cfg P) (w : World P) (o : Op P) : World P × Out P :=
  match o.uses with
  | none => act c w o
  | some (a, n) => if n ∈ c.states a then act c w o else (w, .refused)

/-- A run. -/
noncomputable def run (c : Cfg P) (w : World P) : List (Op P) → World P
  | [] => w
  | o :: os => run c (step c w o).1 os

end Verif.Patrol
