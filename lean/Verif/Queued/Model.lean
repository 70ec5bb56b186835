import Verif.Util.Dict
import Verif.Sphere.Model
import Mathlib.Algebra.Order.Ring.Rat
import Mathlib.Tactic.Linarith

/-! # `SensorMotionManager` (motion/motion.py)

Movers and sensors are numbers. Times are the elements of an ordered field (reals for the link to the intersection model, rationals for
concrete runs). The intersection model is a parameter which knows where the sensors are (they do not move). The sensors' methods are
user code: the calls are kept in `log`; they are assumed to return and not to call the manager. The debug log is not modelled. -/

namespace Verif.Queued

open Verif.Sphere (Tag)

/-- An element of `inter_data` (motion.py 221, 246) without its location, which only the debug log uses. -/
structure Entry (α : Type) where
  kind : Tag
  time : α
deriving DecidableEq

/-- What the intersection model returns for a leg: the zip of the three lists (motion.py 233-237) without the locations, and the time of
the leg. -/
structure LegRes (α : Type) where
  entries : List (Entry α)
  pathTime : α

/-- `self.intersection` (motion.py 225-231): start, finish, speed, sensor (for its location and radius). `none` is an exception. -/
abbrev Inter (α L : Type) := L → L → α → Nat → Option (LegRes α)

/-- The value of `_movers[mover]` (motion.py 103): speed, waypoints, start time. -/
structure Trip (α L : Type) where
  speed : α
  waypoints : List L
  start : α

/-- Where a `_notify` process is: not begun; waiting for the timeout of line 334; waiting for the timeout of line 350; ended. -/
inductive Stage (α : Type) where
  | fresh
  | entry (due : α)
  | exit (due : α)
  | over
deriving DecidableEq

/-- A `_notify` process (motion.py 303-357) and whether an interruption is scheduled for it. -/
structure Proc (α : Type) where
  mover : Nat
  sensor : Nat
  first : Entry α
  second : Entry α
  stage : Stage α
  intr : Bool
deriving DecidableEq

/-- A call of `entity_entered_range` or `entity_exited_range`. -/
structure Told (α : Type) where
  time : α
  mover : Nat
  sensor : Nat
  entered : Bool
deriving DecidableEq

/-- A `SensorMotionManager` (motion.py 91-109), the `DetectabilityState` of the actors (`none`: the actor has no such state), the clock,
the processes in the order of their creation and the notifications. A mover missing in `_events` or `_in_view` is one with an empty list
here: the code treats the two alike. -/
structure St (α L : Type) where
  now : α
  detect : Nat → Option Bool
  sensors : List Nat
  movers : Dict Nat (Trip α L)
  events : Nat → List (Nat × Nat)
  inView : Nat → List Nat
  procs : List (Proc α)
  log : List (Told α)

/-- The answers of an operation. -/
inductive Out where
  | ok
  | error
  | refused
deriving DecidableEq

variable {α L : Type} [Field α] [LinearOrder α]

/-- A new manager. -/
def St.init (now : α) (detect : Nat → Option Bool) : St α L :=
  { now, detect, sensors := [], movers := [], events := fun _ => [], inView := fun _ => [], procs := [], log := [] }

/-- Assignment to a dictionary. -/
def upd {β : Type} (f : Nat → β) (k : Nat) (v : β) : Nat → β := fun i => if i = k then v else f i

/-- The loop over the crossings of a leg (motion.py 233-246); `inter_data` newest first, `base` is `start_time + elapsed_time`. -/
def absorb (base : α) : List (Entry α) → List (Entry α) → Option (List (Entry α))
  | acc, [] => some acc
  | [], e :: es => absorb base [⟨e.kind, base + e.time⟩] es
  | l :: acc, e :: es =>
    if l.kind = .endInside then
      if e.kind ≠ .startInside then none
      else absorb base acc es
    else absorb base (⟨e.kind, base + e.time⟩ :: l :: acc) es

/-- The loop over the legs (motion.py 222-247). -/
def scan (I : Inter α L) (speed start : α) (s : Nat) : List L → α → List (Entry α) → Option (List (Entry α))
  | w :: w' :: ws, elapsed, acc =>
    match I w w' speed s with
    | none => none
    | some res =>
      match absorb (start + elapsed) acc res.entries with
      | none => none
      | some acc' => scan I speed start s (w' :: ws) (elapsed + res.pathTime) acc'
  | _, _, acc => some acc

/-- `VALID` (motion.py 23-28). -/
def valid (p : Entry α × Entry α) : Bool :=
  match p.1.kind, p.2.kind with
  | .enter, .endInside => true
  | .enter, .exit => true
  | .startInside, .endInside => true
  | .startInside, .exit => true
  | _, _ => false

/-- The pairs (motion.py 249-252): `none` for an odd number. -/
def pairUp : List (Entry α) → Option (List (Entry α × Entry α))
  | [] => some []
  | [_] => none
  | a :: b :: l => (pairUp l).map ((a, b) :: ·)

/-- `_process_mover_sensor_pair` (motion.py 199-255). -/
def processPair (I : Inter α L) (t : Trip α L) (s : Nat) : Option (List (Entry α × Entry α)) :=
  match scan I t.speed t.start s t.waypoints 0 [] with
  | none => none
  | some acc =>
    match pairUp acc.reverse with
    | none => none
    | some ps => if ps.all valid then some ps else none

/-- `_schedule` (motion.py 359-411). -/
def schedule (m s : Nat) (σ : St α L) (p : Entry α × Entry α) : St α L :=
  if p.1.time ≤ σ.now ∧ p.2.time < σ.now then σ
  else { σ with procs := σ.procs ++ [⟨m, s, p.1, p.2, .fresh, false⟩],
                events := upd σ.events m (σ.events m ++ [(s, σ.procs.length)]) }

/-- The body of the loops of `_find_intersections` (motion.py 432-434). -/
def findOne (I : Inter α L) (σ : St α L) (m s : Nat) : St α L × Out :=
  match σ.movers.get? m with
  | none => (σ, .error)
  | some t =>
    match processPair I t s with
    | none => (σ, .error)
    | some ps => (ps.foldl (schedule m s) σ, .ok)

/-- The loops of `_find_intersections` (motion.py 430-434) over the pairs of a mover and a sensor. -/
def find (I : Inter α L) : List (Nat × Nat) → St α L → St α L × Out
  | [], σ => (σ, .ok)
  | (m, s) :: l, σ =>
    match findOne I σ m s with
    | (τ, .ok) => find I l τ
    | r => r

/-- `proc.interrupt()` for the processes alive (motion.py 140-142). -/
def interrupt (procs : List (Proc α)) (ids : List Nat) : List (Proc α) :=
  procs.mapIdx fun i p => if i ∈ ids ∧ p.stage ≠ .over then { p with intr := true } else p

/-- `_stop_mover` (motion.py 115-147). -/
def stopMover (σ : St α L) (m : Nat) (fromNotDetectable : Bool) : St α L × Out :=
  match σ.detect m with
  | none => (σ, .ok)
  | some detectable =>
    if ¬ σ.movers.has m ∧ ¬ detectable then (σ, .ok)
    else if ¬ σ.movers.has m ∧ ¬ fromNotDetectable then (σ, .error)
    else if ¬ σ.movers.has m then (σ, .ok)
    else ({ σ with procs := interrupt σ.procs ((σ.events m).map (·.2)), events := upd σ.events m [], movers := σ.movers.del m }, .ok)

/-- `_start_mover` (motion.py 436-466). -/
def startMover (I : Inter α L) (σ : St α L) (m : Nat) (speed : α) (waypoints : List L) : St α L × Out :=
  match σ.detect m with
  | none => (σ, .ok)
  | some false => ({ σ with movers := σ.movers.set m ⟨0, [], 0⟩ }, .ok)
  | some true =>
    if σ.movers.has m then (σ, .error)
    else find I (σ.sensors.map fun s => (m, s)) { σ with movers := σ.movers.set m ⟨speed, waypoints, σ.now⟩ }

/-- Assigning to the `DetectabilityState` of a mover (states.py 363-381, motion.py 149-195); the warning is not modelled. -/
def setDetect (σ : St α L) (m : Nat) (v : Bool) : St α L × Out :=
  match σ.detect m with
  | none => (σ, .refused)
  | some _ =>
    let σ := { σ with detect := upd σ.detect m (some v) }
    if v then (σ, .ok)
    else stopMover { σ with log := σ.log ++ (σ.inView m).map (fun s => ⟨σ.now, m, s, false⟩), inView := upd σ.inView m [] } m true

/-- `add_sensor` (motion.py 468-493); the checks of the sensor's attributes are not modelled. -/
def addSensor (I : Inter α L) (σ : St α L) (s : Nat) : St α L × Out :=
  find I (σ.movers.keys.map fun m => (m, s)) { σ with sensors := if s ∈ σ.sensors then σ.sensors else σ.sensors ++ [s] }

/-- Replaces a process. -/
def setProc (σ : St α L) (i : Nat) (p : Proc α) : St α L := { σ with procs := σ.procs.set i p }

/-- The second half of `_notify` (motion.py 342-350). -/
def afterEntry (σ : St α L) (i : Nat) (p : Proc α) : St α L × Out :=
  if p.second.kind ≠ .exit then (setProc σ i { p with stage := .over }, .ok)
  else if p.second.time ≤ σ.now then (setProc σ i { p with stage := .over }, .error)
  else (setProc σ i { p with stage := .exit p.second.time }, .ok)

/-- `_add_to_view` (motion.py 257-271). -/
def addToView (σ : St α L) (m s : Nat) : St α L := if s ∈ σ.inView m then σ else { σ with inView := upd σ.inView m (σ.inView m ++ [s]) }

/-- Calls a method of a sensor. -/
def tell (σ : St α L) (m s : Nat) (entered : Bool) : St α L := { σ with log := σ.log ++ [⟨σ.now, m, s, entered⟩] }

/-- The beginning of `_notify` (motion.py 325-334). -/
def begins (σ : St α L) (i : Nat) (p : Proc α) : St α L × Out :=
  if p.first.kind = .startInside ∨ p.first.time ≤ σ.now then
    let σ' := addToView σ p.mover p.sensor
    afterEntry (if p.sensor ∈ σ.inView p.mover then σ' else tell σ' p.mover p.sensor true) i p
  else if p.first.kind ≠ .enter then (setProc σ i { p with stage := .over }, .error)
  else (setProc σ i { p with stage := .entry p.first.time }, .ok)

/-- The end of `_notify` (motion.py 355-356, 273-284). -/
def leaves (σ : St α L) (i : Nat) (p : Proc α) : St α L × Out :=
  let σ' := setProc (tell σ p.mover p.sensor false) i { p with stage := .over }
  if p.sensor ∈ σ.inView p.mover then ({ σ' with inView := upd σ.inView p.mover ((σ.inView p.mover).filter (· ≠ p.sensor)) }, .ok)
  else (σ', .error)

/-- SimPy resumes process `i`: its first event if it has not begun, else the interruption if there is one, else its timeout if that is
due. The kernel processes first events and interruptions in the order of their creation and before timeouts; here any process may be
chosen. -/
def fire (σ : St α L) (i : Nat) : St α L × Out :=
  match σ.procs[i]? with
  | none => (σ, .refused)
  | some p =>
    match p.stage with
    | .over => (σ, .refused)
    | .fresh => begins σ i p
    | .entry due =>
      if p.intr then (setProc σ i { p with stage := .over }, .ok)
      else if due = σ.now then afterEntry (addToView (tell σ p.mover p.sensor true) p.mover p.sensor) i p
      else (σ, .refused)
    | .exit due =>
      if p.intr then (setProc σ i { p with stage := .over }, .ok)
      else if due = σ.now then leaves σ i p
      else (σ, .refused)

/-- Nothing is to happen to the process before `t`. -/
def Idle (t : α) (p : Proc α) : Prop :=
  match p.stage with
  | .over => True
  | .fresh => False
  | .entry due => p.intr = false ∧ t ≤ due
  | .exit due => p.intr = false ∧ t ≤ due

instance (t : α) (p : Proc α) : Decidable (Idle t p) := by
  unfold Idle; cases p.stage <;> infer_instance

/-- What may happen. -/
inductive Op (α L : Type) where
  | start (m : Nat) (speed : α) (waypoints : List L)
  | stop (m : Nat)
  | detect (m : Nat) (v : Bool)
  | addSensor (s : Nat)
  | fire (i : Nat)
  | advance (t : α)

/-- One step; the clock moves to `t` if no process has anything to do before. -/
def step (I : Inter α L) (σ : St α L) : Op α L → St α L × Out
  | .start m speed ws => startMover I σ m speed ws
  | .stop m => stopMover σ m false
  | .detect m v => setDetect σ m v
  | .addSensor s => addSensor I σ s
  | .fire i => fire σ i
  | .advance t => if σ.now ≤ t ∧ ∀ p ∈ σ.procs, Idle t p then ({ σ with now := t }, .ok) else (σ, .refused)

/-- A run. -/
def run (I : Inter α L) (σ : St α L) : List (Op α L) → St α L
  | [] => σ
  | o :: l => run I (step I σ o).1 l

end Verif.Queued
