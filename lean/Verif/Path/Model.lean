import Mathlib.Analysis.Real.Sqrt
import Mathlib.Analysis.SpecialFunctions.Trigonometric.Basic

/-! # Moving along waypoints

The location states of /repo/src/upstage_des/states.py: `CartesianLocationChangingState` (509-699) and the part of
`GeodeticLocationChangingState` (702-913) that does not depend on the earth model. Numbers are real numbers instead of floats.

Not modelled: recording, callbacks and the listener of `__set__`; the motion manager's hooks (see `Stepped`); the other states of the
actor; mimicking. The lists `times`, `distances`, `starts` and `vectors` (or `bearings`) of `path_data`, all built in one loop, are one
list of legs. -/

namespace Verif.Path

/-- What differs between the kinds of location: the length of a leg (`wypt - current`, states.py 561; `distance_and_bearing`, states.py
749-753), the point at a fraction of a leg (`path_start + time_frac * path_vector`, states.py 659-669; states.py 867-886), and the
slack of `_get_index` (states.py 604, 803). -/
structure Kind (P : Type) where
  dist : P → P → ℝ
  move : P → P → ℝ → P
  tol : ℝ

/-- One round of the loop of `_setup` (states.py 560-567): `times[i]`, `starts[i]`, and the waypoint that gives `vectors[i]`. -/
structure Leg (P : Type) where
  time : ℝ
  start : P
  target : P

/-- The data of an active location state (states.py 575-582). `path` is absent until `_setup` has been run. -/
structure Act (P : Type) where
  started : ℝ
  speed : ℝ
  waypoints : List P
  path : Option (List (Leg P))

/-- An actor with one location state. `locked`: some task is in `_tasks_by_state[state]`. -/
structure St (P : Type) where
  now : ℝ
  value : P
  act : Option (Act P)
  locked : Bool

/-- What a call gives back. -/
inductive Out (P : Type) where
  | done
  | loc (p : P)
  | list (l : List P)
  | error

variable {P : Type}

/-- The loop of `_setup` (states.py 560-567). -/
noncomputable def legs (K : Kind P) (speed : ℝ) : P → List P → List (Leg P)
  | _, [] => []
  | cur, w :: ws => ⟨K.dist w cur / speed, cur, w⟩ :: legs K speed w ws

open Classical in
/-- `_get_index` (states.py 589-609, 783-808): `none` for the exception. -/
noncomputable def getIndex (tol e : ℝ) : List ℝ → ℝ → Nat → Option (Nat × ℝ)
  | [], _, _ => none
  | t :: ts, sum, i => if e ≤ sum + t + tol then some (i, sum + t - t) else getIndex tol e ts (sum + t) (i + 1)

open Classical in
/-- `_setup` (states.py 542-587), without the motion manager: dividing by a speed of zero raises. -/
noncomputable def setup (K : Kind P) (σ : St P) (a : Act P) : Option (Act P) :=
  if a.speed = 0 ∧ a.waypoints ≠ [] then none
  else some { a with started := σ.now, path := some (legs K a.speed σ.value a.waypoints) }

open Classical in
/-- `_active` from `elapsed` on (states.py 647-684): the new location and the state after it; `started` is `path_start_time`. -/
noncomputable def onPath (K : Kind P) (σ : St P) (a : Act P) (path : List (Leg P)) (started : ℝ) : St P × Out P :=
  let elapsed := σ.now - started
  if elapsed < 0 then (σ, .error)
  else if elapsed = 0 then (σ, .loc σ.value)
  else
    match getIndex K.tol elapsed (path.map (·.time)) 0 0 with
    | none => (σ, .error)
    | some (i, wyptStart) =>
      match path[i]? with
      | none => (σ, .error)
      | some leg =>
        if leg.time = 0 then (σ, .error)
        else
          let p := K.move leg.start leg.target ((elapsed - wyptStart) / leg.time)
          ({ σ with value := p, act := some a }, .loc p)

/-- Reading the state: `ActiveState.__get__` (states.py 409-423) and `_active` (states.py 627-684). -/
noncomputable def read (K : Kind P) (σ : St P) : St P × Out P :=
  match σ.act with
  | none => (σ, .loc σ.value)
  | some a =>
    match a.path with
    | some path => onPath K σ a path a.started
    | none =>
      match setup K σ a with
      | none => (σ, .error)
      | some b => onPath K { σ with act := some b } b (legs K a.speed σ.value a.waypoints) a.started

/-- `_get_remaining_waypoints` (states.py 611-625, 810-826). -/
noncomputable def remaining (K : Kind P) (σ : St P) : Out P :=
  match σ.act with
  | none => .error
  | some a =>
    match a.path with
    | none => .error
    | some path =>
      match getIndex K.tol (σ.now - a.started) (path.map (·.time)) 0 0 with
      | none => .error
      | some (i, _) => .list (a.waypoints.drop i)

/-- What can happen to the state. -/
inductive Op (P : Type) where
  /-- `activate_state` (actor.py 314-342). -/
  | activate (speed : ℝ) (waypoints : List P)
  /-- `deactivate_state` (actor.py 408-425), by the task that holds the state. -/
  | deactivate
  | read
  /-- `get_remaining_waypoints` (actor.py 1204-1221). -/
  | remaining
  /-- An assignment, `State.__set__` (states.py 245-267). -/
  | assign (p : P)
  | advance (t : ℝ)

open Classical in
/-- One operation. -/
noncomputable def step (K : Kind P) (σ : St P) : Op P → St P × Out P
  | .activate speed ws =>
    if σ.locked then (σ, .error)
    else
      match read K { σ with locked := true, act := some ⟨σ.now, speed, ws, none⟩ } with
      | (τ, .error) => (τ, .error)
      | (τ, _) => (τ, .done)
  | .deactivate =>
    if σ.locked then
      match read K { σ with locked := false } with
      | (τ, .error) => (τ, .error)
      | (τ, _) => ({ τ with act := none }, .done)
    else (σ, .error)
  | .read => read K σ
  | .remaining => (σ, remaining K σ)
  | .assign p => ({ σ with value := p }, .done)
  | .advance t => if σ.now ≤ t then ({ σ with now := t }, .done) else (σ, .error)

/-- A history. -/
noncomputable def exec (K : Kind P) : List (Op P) → St P → St P
  | [], σ => σ
  | o :: os, σ => exec K os (step K σ o).1

/-! ### Cartesian locations -/

/-- `CartesianLocation` (data_types.py 117-146). -/
structure Loc where
  x : ℝ
  y : ℝ
  z : ℝ
  altUnits : Bool

/-- `_as_array` (data_types.py 172-183); `k` is the number of distance units in an altitude unit (see `Units`). -/
def Loc.arr (k : ℝ) (l : Loc) : ℝ × ℝ × ℝ := (l.x, l.y, if l.altUnits then l.z * k else l.z)

/-- `__sub__` (data_types.py 232-247). -/
noncomputable def Loc.sub (k : ℝ) (l m : Loc) : ℝ :=
  √(((l.arr k).1 - (m.arr k).1) ^ 2 + ((l.arr k).2.1 - (m.arr k).2.1) ^ 2 + ((l.arr k).2.2 - (m.arr k).2.2) ^ 2)

/-- `_vector_subtract` of the arrays (states.py 566), scaled and added to the start (states.py 661-669). -/
def Loc.move (k : ℝ) (l m : Loc) (f : ℝ) : Loc :=
  ⟨(l.arr k).1 + f * ((m.arr k).1 - (l.arr k).1), (l.arr k).2.1 + f * ((m.arr k).2.1 - (l.arr k).2.1),
    (l.arr k).2.2 + f * ((m.arr k).2.2 - (l.arr k).2.2), false⟩

/-- `CartesianLocationChangingState`. -/
noncomputable def cartesian (k : ℝ) : Kind Loc := ⟨Loc.sub k, Loc.move k, 1 / 10 ^ 12⟩

/-- `waypoint_time_and_dist` (utils.py 154-175), with `sub` for `wypt - current`. -/
noncomputable def distLoop (sub : P → P → ℝ) : P → List P → ℝ → ℝ
  | _, [], d => d
  | cur, w :: ws, d => distLoop sub w ws (d + sub w cur)

noncomputable def timeAndDist (sub : P → P → ℝ) (start : P) (ws : List P) (speed : ℝ) : ℝ × ℝ :=
  (distLoop sub start ws 0 / speed, distLoop sub start ws 0)

/-! ### Geodetic locations -/

/-- `GeodeticLocation` (data_types.py 273-330): latitude and longitude in radians if `rad`, else in degrees; the altitude in its own units. -/
structure Geo where
  lat : ℝ
  lon : ℝ
  alt : ℝ
  rad : Bool := false

/-- `to_degrees` (data_types.py 378-390). -/
noncomputable def Geo.toDegrees (g : Geo) : Geo :=
  if g.rad then ⟨g.lat * (180 / Real.pi), g.lon * (180 / Real.pi), g.alt, false⟩ else g

/-- A `stage_model`: the functions called by the state. -/
structure Earth where
  dist : ℝ × ℝ → ℝ × ℝ → ℝ
  bearing : ℝ × ℝ → ℝ × ℝ → ℝ
  point : ℝ × ℝ → ℝ → ℝ → ℝ × ℝ

/-- `__sub__` (data_types.py 469-491). -/
noncomputable def Geo.sub (E : Earth) (g h : Geo) : ℝ := E.dist (g.toDegrees.lat, g.toDegrees.lon) (h.toDegrees.lat, h.toDegrees.lon)

/-- `GeodeticLocationChangingState`: states.py 749-753 and 861-886. The distance is asked from `current` to `wypt`, with the latitudes and longitudes
as they are, in degrees or radians; the new location is in degrees. -/
noncomputable def geodetic (E : Earth) : Kind Geo where
  dist w cur := E.dist (cur.lat, cur.lon) (w.lat, w.lon)
  move s w f :=
    let q := E.point (s.lat, s.lon) (E.bearing (s.lat, s.lon) (w.lat, w.lon)) (f * E.dist (s.lat, s.lon) (w.lat, w.lon))
    ⟨q.1, q.2, s.alt + (w.alt - s.alt) * f, false⟩
  tol := 1 / 10 ^ 4

end Verif.Path
