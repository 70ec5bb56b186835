import Verif.Units.Model

/-!
# Model of `Wait`

Source: `/repo/src/upstage_des/events.py` 150-259 (`_convert_time` 167-180, `__init__` 181-209, `from_random_uniform`
211-237, `as_event` 239-248, `cancel` 250-259), and the way `Task.run` waits for it (`task.py:503-516`; after an
ignored interrupt the same SimPy event is yielded again, 511-516).

Time is rational. SimPy: a timeout created at time `t` with delay `d` is processed when the clock is `t + d`; the clock
never passes an unprocessed timeout; yielding a processed event resumes the process in the same instant. Rehearsal
times are not modelled here.
-/

namespace Verif.WaitEv

open Units

/-- `Wait.__init__`: the delay in stage time, or `none` for the exceptions (a negative time, or units that cannot be
converted). `unit`, `stage`: the `timeout_unit` and the stage's `time_unit`, if given. (The type check of `timeout`
is not modelled: it is a number here.) -/
def delay (lower : String → String) (timeout : Rat) (unit stage : Option String) : Option Rat :=
  let t := match stage, unit with
    | some base, some u => unitConvert lower timeout u base
    | _, _ => some timeout
  t.bind fun t => if t < 0 then none else some t

/-- `from_random_uniform`: `x` is the number drawn. -/
def fromUniform (lower : String → String) (low high x : Rat) (unit stage : Option String) : Option Rat :=
  if low ≤ x ∧ x ≤ high then delay lower x unit stage else none

/-- The clock, the timeout (`_simpy_event`) by its due time, whether it was processed, and whether a process waits for
it. -/
structure St where
  now : Rat
  due : Option Rat
  processed : Bool
  waiting : Bool
  deriving DecidableEq, Repr

/-- `yield_`: a process yields the `Wait`; `ignored`: the waiting process is interrupted, ignores it, and yields the
same event again; `left`: it is interrupted and stops waiting (`cancel`); `process`: SimPy processes the timeout. -/
inductive Op where
  | yield_
  | ignored
  | left
  | process
  | advance (dt : Rat)
  deriving DecidableEq, Repr

inductive Out where
  | resumed
  | quiet
  | impossible
  deriving DecidableEq, Repr

/-- `as_event`: the SimPy timeout is created the first time only. -/
def asEvent (d : Rat) (s : St) : St :=
  match s.due with
  | some _ => s
  | none => { s with due := some (s.now + d) }

/-- One step; `d` is the delay of the `Wait`. -/
def step (d : Rat) (s : St) : Op → St × Out
  | .yield_ =>
    if s.waiting then (s, .impossible)
    else
      let s := asEvent d s
      if s.processed then (s, .resumed) else ({ s with waiting := true }, .quiet)
  | .ignored => if s.waiting then (asEvent d s, .quiet) else (s, .quiet)
  | .left => ({ s with waiting := false }, .quiet)
  | .process =>
    match s.due with
    | some u =>
      if s.now = u ∧ s.processed = false then
        ({ s with processed := true, waiting := false }, if s.waiting then .resumed else .quiet)
      else (s, .quiet)
    | none => (s, .quiet)
  | .advance dt =>
    if 0 ≤ dt ∧ (s.processed = false → ∀ u, s.due = some u → s.now + dt ≤ u) then
      ({ s with now := s.now + dt }, .quiet)
    else (s, .quiet)

/-- The trace: time (after the step), operation, effect. -/
abbrev Trace := List (Rat × Op × Out)

def run (d : Rat) (s : St) : List Op → St × Trace
  | [] => (s, [])
  | op :: ops =>
    let r := step d s op
    let q := run d r.1 ops
    (q.1, (r.1.now, op, r.2) :: q.2)

/-- A `Wait` that has just been created. -/
def init (t0 : Rat) : St := ⟨t0, none, false, false⟩

end Verif.WaitEv
