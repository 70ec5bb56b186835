import Mathlib.Algebra.Order.Ring.Rat
import Mathlib.Data.List.Nodup
import Mathlib.Data.List.Perm.Basic

/-! # `SteppedMotionManager` (motion/stepped_motion.py)

Objects (sensors and detectable objects alike) are numbers: equal numbers are one object. What a sensor sees is the environment's
business: each check is given `sees s a`, the answer of `_detect_dist` for the current positions (or of the sensor's
`detection_checker`), `none` if it raises. The sensor's methods are user code: the calls are kept in `log`;
`entity_entered_range` may make objects undetectable (`hides`), `entity_exited_range` is assumed not to call the manager; both are
assumed to return. The debug log is not modelled. -/

namespace Verif.Stepped

abbrev Obj := Nat

/-- What a sensor is told about an object. -/
structure Told where
  sensor : Obj
  object : Obj
  entered : Bool
deriving DecidableEq, Repr

/-- The sensors during an operation: what they see, which objects their `entity_entered_range` makes undetectable, and whether the radii and
locations can be read (`reads`; a location state past the end of its path raises, see `Path`). -/
structure Look where
  sees : Obj → Obj → Option Bool
  hides : Obj → Obj → List Obj
  reads : Bool

/-- The constructor's arguments (stepped_motion.py 65-82). -/
structure Cfg where
  timestep : Rat
  maxEmpty : Int

/-- A `SteppedMotionManager` (stepped_motion.py 75-82), the detectability of the actors (as `_test_detect` would read it), the
clock, the `run` processes created and not begun, the ones in their loop (time of the timeout, `n_empty`), and for the statements:
the checks made by loops (time, whether the queue was empty) and the notifications in order. `sensors` and `detectables` are the keys
of the dictionaries, `view` the set of pairs. -/
structure St where
  now : Rat
  sensors : List Obj
  detectables : List Obj
  view : List (Obj × Obj)
  det : Obj → Bool
  isRunning : Bool
  pending : Nat
  loops : List (Rat × Int)
  checks : List (Rat × Bool)
  log : List Told

/-- A new manager. -/
def St.init (det : Obj → Bool) (now : Rat) : St :=
  { now, sensors := [], detectables := [], view := [], det, isRunning := false, pending := 0, loops := [], checks := [], log := [] }

/-- The answers of an operation. -/
inductive Out where
  | ok
  | error
  | refused
deriving DecidableEq, Repr

/-- `d[k] = …` on the keys of a dictionary. -/
def addKey (l : List Obj) (k : Obj) : List Obj := if k ∈ l then l else l ++ [k]

/-- `_mover_not_detectable` (stepped_motion.py 278-290): the set is walked in the order of `view`, which the environment may change
(`Op.reorder`). -/
def moverNotDetectable (σ : St) (a : Obj) : St :=
  { σ with view := σ.view.filter (fun p => p.2 ≠ a),
           log := σ.log ++ (σ.view.filter (fun p => p.2 = a)).map fun p => ⟨p.1, a, false⟩ }

/-- Assigning `False` to a `DetectabilityState` (states.py 363-381). -/
def hide (σ : St) (a : Obj) : St := moverNotDetectable { σ with det := fun b => if b = a then false else σ.det b } a

/-- `_update_awareness` (stepped_motion.py 92-107). -/
def updateAwareness (L : Look) (σ : St) (s a : Obj) (visible : Bool) : St :=
  if visible then
    if (s, a) ∈ σ.view then σ
    else (L.hides s a).foldl hide { σ with view := σ.view ++ [(s, a)], log := σ.log ++ [⟨s, a, true⟩] }
  else if (s, a) ∈ σ.view then { σ with view := σ.view.filter (· ≠ (s, a)), log := σ.log ++ [⟨s, a, false⟩] }
  else σ

/-- The inner loop over detectable objects (stepped_motion.py 166-171). -/
def checkObjects (L : Look) (s : Obj) : List Obj → St → St × Out
  | [], σ => (σ, .ok)
  | a :: as, σ =>
    if a = s then checkObjects L s as σ
    else
      match L.sees s a with
      | none => (σ, .error)
      | some v => checkObjects L s as (updateAwareness L σ s a v)

/-- The loop over sensors (stepped_motion.py 165-171). -/
def checkSensors (L : Look) (as : List Obj) : List Obj → St → St × Out
  | [], σ => (σ, .ok)
  | s :: ss, σ =>
    match checkObjects L s as σ with
    | (σ, .ok) => checkSensors L as ss σ
    | (σ, o) => (σ, o)

/-- `_run_detectable` with `sensor_req=None` (stepped_motion.py 146-171): the only way it is called. Reading a location of an object
that is not a key of `_detectables` is a KeyError. All is read before the first pair is checked. -/
def runDetectable (L : Look) (req : Option (List Obj)) (σ : St) : St × Out :=
  let as := (req.getD σ.detectables).filter σ.det
  if (∀ a ∈ as, a ∈ σ.detectables) ∧ L.reads = true then checkSensors L as σ.sensors σ else (σ, .error)

/-- What can happen. -/
inductive Op where
  /-- `add_sensor` (stepped_motion.py 216-245); `ok`: methods and attributes exist. -/
  | addSensor (s : Obj) (ok : Bool)
  /-- `add_detectable` (stepped_motion.py 247-276); `ok`: the attribute exists and `_test_detect` works. -/
  | addDetectable (a : Obj) (ok : Bool)
  /-- `_start_mover` (stepped_motion.py 300-313), called when a location state is activated; `ok`: there is a location state. -/
  | startMover (a : Obj) (ok : Bool)
  /-- `_stop_mover` (stepped_motion.py 315-320), called when a location state is deactivated. -/
  | stopMover (a : Obj)
  /-- Assignment to a `DetectabilityState` that has a value (states.py 363-381). -/
  | setDetectable (a : Obj) (v : Bool) (L : Look)
  /-- A round of `run_particular` (stepped_motion.py 204-214). -/
  | particular (a : Obj) (L : Look)
  /-- A call of `run` (stepped_motion.py 179): creates a process. -/
  | run
  /-- A `run` process begins (stepped_motion.py 185-193, up to the first yield). -/
  | beginRun
  /-- The timeout of a loop ends (stepped_motion.py 192-202); `empty`: the answer of `_only_event_test`. -/
  | timer (empty : Bool) (L : Look)
  /-- The clock moves: not past a scheduled timeout, and not while processes wait to begin. -/
  | advance (t : Rat)
  /-- Sets have no order. -/
  | reorder (view : List (Obj × Obj))

/-- `_start_mover` from `if mover in self._detectables` on (stepped_motion.py 304-313). -/
def addMover (σ : St) (a : Obj) (ok : Bool) : St × Out :=
  if a ∈ σ.detectables then (σ, .ok) else if ok then ({ σ with detectables := addKey σ.detectables a }, .ok) else (σ, .error)

/-- The rest of a round of `run` (stepped_motion.py 196-202) and the next timeout. -/
def again (c : Cfg) (n : Int) (empty : Bool) (σ : St) : St :=
  if empty then
    if n + 1 ≥ c.maxEmpty then σ else { σ with loops := σ.loops ++ [(σ.now + c.timestep, n + 1)] }
  else { σ with loops := σ.loops ++ [(σ.now + c.timestep, 0)] }

/-- One operation. -/
def step (c : Cfg) (σ : St) : Op → St × Out
  | .addSensor s ok => if ok then ({ σ with sensors := addKey σ.sensors s }, .ok) else (σ, .error)
  | .addDetectable a ok => if ok then ({ σ with detectables := addKey σ.detectables a }, .ok) else (σ, .error)
  | .startMover a ok => addMover (if σ.isRunning then σ else { σ with pending := σ.pending + 1 }) a ok
  | .stopMover a => ({ σ with detectables := σ.detectables.erase a }, .ok)
  | .setDetectable a v L =>
    if v then runDetectable L (some [a]) { σ with det := fun b => if b = a then true else σ.det b } else (hide σ a, .ok)
  | .particular a L => runDetectable L (some [a]) σ
  | .run => ({ σ with pending := σ.pending + 1 }, .ok)
  | .beginRun =>
    if σ.pending = 0 then (σ, .refused)
    else
      let σ := { σ with pending := σ.pending - 1 }
      if σ.isRunning then (σ, .ok)
      else if c.timestep < 0 then ({ σ with isRunning := true }, .error)
      else ({ σ with isRunning := true, loops := σ.loops ++ [(σ.now + c.timestep, 0)] }, .ok)
  | .timer empty L =>
    match σ.loops with
    | [] => (σ, .refused)
    | (t, n) :: rest =>
      if t ≠ σ.now then (σ, .refused)
      else
        match runDetectable L none { σ with loops := rest, checks := σ.checks ++ [(t, empty)] } with
        | (σ, .ok) => (again c n empty σ, .ok)
        | (σ, o) => (σ, o)
  | .advance t =>
    if σ.now ≤ t ∧ σ.pending = 0 ∧ ∀ l ∈ σ.loops, t ≤ l.1 then ({ σ with now := t }, .ok) else (σ, .refused)
  | .reorder view => if view.Perm σ.view then ({ σ with view }, .ok) else (σ, .refused)

/-- A history of operations. -/
def exec (c : Cfg) : List Op → St → St
  | [], σ => σ
  | o :: os, σ => exec c os (step c σ o).1

end Verif.Stepped
