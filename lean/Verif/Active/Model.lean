import Mathlib.Algebra.Order.Ring.Rat
import Mathlib.Tactic.Linarith
import Mathlib.Tactic.Ring

/-!
# Model of active states on an actor

Source: `actor.py` (267-434: locks, activation, deactivation), `states.py` (185-209 recording, 383-506
`ActiveState`, `LinearChangingState`), `state_sharing.py` (13-128 `SharedLinearChangingState`).

One actor with any number of states. Times, values and rates are exact rationals. A state is `plain`
(`State`), `linear` (`LinearChangingState`) or `shared` (`SharedLinearChangingState`). Not in this model:
type checks, frozen states, callbacks and nucleus notification (see `Verif/Rec`), mimicking (see
`Verif/Mimic`), location states (see `Verif/Path`). Python dicts and sets keyed by state or task are total
functions here (`defaultdict(set)`, actor.py:149-150); the sets are duplicate-free lists whose iteration order
is supplied from outside. An exception leaves every mutation made before it in place.
-/

namespace Verif.Active

/-- Which class a state descriptor has. -/
inductive Kind where
  | plain
  | linear
  | shared
deriving DecidableEq, Repr

/-- The state definitions of the actor's class (`_state_defs`), with `recording` and `record_duplicates`
(states.py:147-148). -/
structure Cfg where
  kind : Nat → Option Kind
  recording : Nat → Bool
  dup : Nat → Bool

/-- Recorded values: a number or one of the markers of `ActiveStatus` (states.py:55-57). -/
inductive Entry where
  | val (v : Rat)
  | activating
  | deactivating
deriving DecidableEq, Repr

/-- One dictionary of `_active_states` (actor.py:293-312): the keys `started_at`, `task`, `rate` and the
underscored ones `_rate_tasks`, `_last_time` that survive a replacement. -/
structure Data where
  started : Rat
  task : Option Nat
  rate : Option Rat
  rateTasks : Option (List (Nat × Rat))
  last : Option Rat
deriving DecidableEq, Repr

/-- The actor: clock, `instance.__dict__` values, `_active_states`, `_tasks_by_state`, `_states_by_task`,
`_state_histories`. -/
structure St where
  now : Rat
  value : Nat → Option Rat
  active : Nat → Option Data
  tbs : Nat → List Nat
  sbt : Nat → List Nat
  hist : Nat → List (Rat × Entry)

/-- Results of calls: `val` of a read, `ok`, an exception, or for `deactivate_all_states` the states
deactivated before it finished or raised. -/
inductive Out where
  | ok
  | val (v : Rat)
  | raised
  | all (done : List Nat) (failed : Bool)
deriving DecidableEq, Repr

/-- Assignment to one key of a dictionary. -/
def upd {β : Type} (f : Nat → β) (k : Nat) (v : β) : Nat → β := fun x => if x = k then v else f x

/-- `_do_record` (states.py:185-209): append unless it equals the last entry and duplicates are off.
Recording functions are in `Verif/Rec`. -/
def record (c : Cfg) (s : St) (n : Nat) (e : Entry) : St :=
  if c.recording n = true ∧ (c.dup n = true ∨ (s.hist n).getLast? ≠ some (s.now, e)) then
    { s with hist := upd s.hist n (s.hist n ++ [(s.now, e)]) }
  else s

/-- `State.__set__` (states.py:245-267) for an unfrozen state and a well-typed value. -/
def setVal (c : Cfg) (s : St) (n : Nat) (v : Rat) : St :=
  record c { s with value := upd s.value n (some v) } n (.val v)

/-- `_set_active_state_data` (actor.py:293-312): underscored keys of the old data are kept unless given. -/
def setActive (s : St) (n : Nat) (started : Rat) (task : Option Nat) (rate : Option Rat)
    (rt : Option (List (Nat × Rat))) (last : Option Rat) : St :=
  let old := s.active n
  { s with active := upd s.active n (some
      { started, task, rate
        rateTasks := rt.or (old.bind (·.rateTasks))
        last := last.or (old.bind (·.last)) }) }

/-- `sum(rate_tasks.values())`. -/
def total (rt : List (Nat × Rat)) : Rat := (rt.map (·.2)).sum

/-- `task in rate_tasks`. -/
def hasTask (rt : List (Nat × Rat)) (t : Nat) : Bool := rt.any (fun p => p.1 == t)

/-- `LinearChangingState._active` via `ActiveState.__get__` (states.py:410-424, 480-506). -/
def readLinear (c : Cfg) (s : St) (n : Nat) : St × Out :=
  match s.value n with
  | none => (s, .raised)
  | some cur =>
    match s.active n with
    | none => (s, .val cur)
    | some d =>
      match d.rate with
      | none => (s, .raised)
      | some r =>
        if s.now < d.started then (s, .raised)
        else
          let v := cur + (s.now - d.started) * r
          (setActive (setVal c s n v) n s.now none (some r) none none, .val v)

/-- `SharedLinearChangingState._active` via `ActiveState.__get__` (state_sharing.py:54-98). -/
def readShared (c : Cfg) (s : St) (n : Nat) : St × Out :=
  match s.value n with
  | none => (s, .raised)
  | some cur =>
    match s.active n with
    | none => (s, .val cur)
    | some d =>
      let rt := d.rateTasks.getD []
      let v := cur + (s.now - d.last.getD s.now) * total rt
      match d.task with
      | none => (setActive (setVal c s n v) n s.now none none (some rt) (some s.now), .val v)
      | some t =>
        match d.rate with
        | none => (s, .raised)
        | some r =>
          if hasTask rt t then (s, .raised)
          else (setActive (setVal c s n v) n s.now none none (some (rt ++ [(t, r)])) (some s.now), .val v)

/-- Attribute access `actor.<n>` (states.py:269-280, 410-424). -/
def read (c : Cfg) (s : St) (n : Nat) : St × Out :=
  match c.kind n with
  | none => (s, .raised)
  | some .plain => match s.value n with
    | none => (s, .raised)
    | some v => (s, .val v)
  | some .linear => readLinear c s n
  | some .shared => readShared c s n

/-- `set.add`. -/
def addTo (l : List Nat) (x : Nat) : List Nat := if x ∈ l then l else l ++ [x]

/-- The two updates at the end of `_lock_state` (actor.py:290-291). -/
def lock (s : St) (n t : Nat) : St :=
  { s with
    sbt := upd s.sbt t (addTo (s.sbt t) n)
    tbs := upd s.tbs n (addTo (s.tbs n) t) }

/-- Does `_lock_state` raise (actor.py:274-289)? -/
def lockRefused (k : Kind) (s : St) (n t : Nat) : Bool :=
  match k with
  | .shared => decide (t ∈ s.tbs n)
  | _ => decide (s.tbs n ≠ [])

/-- `activate_state` (actor.py:314-342). `rate` is the keyword argument (absent: `none`). -/
def activate (c : Cfg) (s : St) (n t : Nat) (rate : Option Rat) : St × Out :=
  match c.kind n with
  | none => (s, .raised)
  | some k =>
    if lockRefused k s n t then (s, .raised)
    else
      let s1 := lock s n t
      let s2 := setActive s1 n s.now (some t) rate none none
      match read c s2 n with
      | (s3, .val _) =>
        if k = .plain then (s3, .raised)
        else (record c s3 n .activating, .ok)
      | (s3, _) => (s3, .raised)

/-- The updates of `_unlock_state` (actor.py:388-391). -/
def unlock (s : St) (n t : Nat) : St :=
  { s with
    sbt := upd s.sbt t ((s.sbt t).filter (· ≠ n))
    tbs := upd s.tbs n ((s.tbs n).filter (· ≠ t)) }

/-- `del self._active_states[state]` (actor.py:424-425). -/
def drop (s : St) (n : Nat) : St := { s with active := upd s.active n none }

/-- `SharedLinearChangingState.deactivate` (state_sharing.py:100-128) and the end of `deactivate_state`
(actor.py:422-425). -/
def offShared (c : Cfg) (s : St) (n t : Nat) : St × Out :=
  let rt := ((s.active n).bind (·.rateTasks)).getD []
  if hasTask rt t then
    let rt' := rt.filter (fun p => p.1 ≠ t)
    let s1 := setActive s n s.now none none (some rt') none
    match read c s1 n with
    | (s2, .val _) => (if rt' = [] then drop s2 n else s2, .ok)
    | (s2, _) => (s2, .raised)
  else (s, .raised)

/-- `deactivate_state` (actor.py:408-425). -/
def deactivate (c : Cfg) (s : St) (n t : Nat) : St × Out :=
  match c.kind n with
  | none => (s, .raised)
  | some k =>
    if t ∈ s.tbs n then
      match read c (unlock s n t) n with
      | (s2, .val _) =>
        match k with
        | .plain => (s2, .raised)
        | .linear => (drop (record c s2 n .deactivating) n, .ok)
        | .shared => offShared c s2 n t
      | (s2, _) => (s2, .raised)
    else (s, .raised)

/-- The loop of `deactivate_states` (actor.py:395-406), stopping at the first exception; `done` collects the
states deactivated. -/
def deactivateList (c : Cfg) (s : St) (t : Nat) (done : List Nat) : List Nat → St × Out
  | [] => (s, .all done false)
  | n :: ns =>
    match deactivate c s n t with
    | (s', .ok) => deactivateList c s' t (done ++ [n]) ns
    | (s', _) => (s', .all done true)

/-- `deactivate_all_states` (actor.py:427-434). The set's iteration order is `ord` when that is an
enumeration of it. -/
def deactivateAll (c : Cfg) (s : St) (t : Nat) (ord : List Nat) : St × Out :=
  deactivateList c s t [] (if ord.isPerm (s.sbt t) then ord else s.sbt t)

/-- `actor.<n> = x` (states.py:245-267). -/
def assign (c : Cfg) (s : St) (n : Nat) (x : Rat) : St × Out :=
  match c.kind n with
  | none => (s, .raised)
  | some _ => (setVal c s n x, .ok)

/-- A call, or the clock moving forward. -/
inductive Op where
  | read (n : Nat)
  | assign (n : Nat) (x : Rat)
  | activate (n t : Nat) (rate : Option Rat)
  | deactivate (n t : Nat)
  | deactivateAll (t : Nat) (ord : List Nat)
  | advance (dt : Rat)
deriving DecidableEq, Repr

/-- One call. Time never goes backwards. -/
def step (c : Cfg) (s : St) : Op → St × Out
  | .read n => read c s n
  | .assign n x => assign c s n x
  | .activate n t r => activate c s n t r
  | .deactivate n t => deactivate c s n t
  | .deactivateAll t ord => deactivateAll c s t ord
  | .advance dt => if 0 ≤ dt then ({ s with now := s.now + dt }, .ok) else (s, .raised)

/-- The observable trace of a history: time, call, result. -/
abbrev Trace := List (Rat × Op × Out)

/-- A history of calls. -/
def run (c : Cfg) (s : St) : List Op → St × Trace
  | [] => (s, [])
  | op :: ops =>
    let r := step c s op
    let rest := run c r.1 ops
    (rest.1, (s.now, op, r.2) :: rest.2)

/-- A new actor at time `t0` whose states have the values `v` (`none`: `allow_none_default`,
states.py:299-301); initial values are recorded. -/
def init (c : Cfg) (t0 : Rat) (v : Nat → Option Rat) : St :=
  { now := t0, value := v, active := fun _ => none, tbs := fun _ => [], sbt := fun _ => []
    hist := fun n => match v n with
      | some x => if c.recording n then [(t0, .val x)] else []
      | none => [] }

end Verif.Active
