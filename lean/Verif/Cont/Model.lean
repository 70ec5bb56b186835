import Verif.Util.Dict
import Mathlib.Algebra.Order.Ring.Rat

/-!
# Model of `ContinuousContainer`

`/repo/src/upstage_des/resources/container.py` and the monitored subclass
`/repo/src/upstage_des/resources/monitoring.py:221-264`, together with the part of the SimPy kernel they
run on: a FIFO queue of urgent events (process starts and interruptions) and timeouts.

Numbers are rationals (the code uses floats: rounding is not modelled). `inf` runtimes are `none`.
Timeouts due at the same instant may fire in any order (SimPy: order of creation; every order is allowed
here, so the theorems cover SimPy's). A Python exception that ends the simulation is a value of `Crash`,
after which nothing happens any more.
-/

namespace Verif.Cont

/-- Interrupt causes: `EMPTY_STATUS`, `FULL_STATUS` (container.py:21-22) and `"stop"` (95). -/
inductive Cause | empty | full | stop
deriving DecidableEq, Repr

/-- Exceptions that escape a SimPy process and end the simulation.
`empty`/`full`: `ContainerEmptyError`/`ContainerFullError` (311, 328); `bounds`: `ContainerError` (313, 330);
`terminated`: SimPy refuses to interrupt a finished process; `notMember`: `list.remove` on an absent user
(355, 388); `negDelay`: SimPy refuses a negative timeout; `foreign`: re-raised interrupt (63). -/
inductive Crash | empty | full | bounds | terminated | notMember | negDelay | foreign
deriving DecidableEq, Repr

/-- Urgent kernel events: start of a user process / check process, interruption of one. -/
inductive U
  | initUser (id : Nat)
  | intUser (id : Nat) (c : Cause)
  | initCheck (k : Nat)
  | intCheck (k : Nat)
deriving DecidableEq, Repr

/-- A live `_ContinuousEvent._run` process (container.py:50-65): the signed rate, the requested runtime,
whether it has started, and the instant its timeout fires (`none`: never, or not started). -/
structure UProc where
  rate : Rat
  runtime : Option Rat
  started : Bool
  due : Option Rat
deriving DecidableEq, Repr

/-- Ghost: one connection of a user to the container, from `add_user` to its removal. -/
structure Sess where
  id : Nat
  rate : Rat
  start : Rat
  stop : Option Rat
deriving DecidableEq, Repr

/-- Ghost: one empty/full notification: when, who, which, and the level at that moment. -/
structure Note where
  time : Rat
  id : Nat
  cause : Cause
  level : Rat
deriving DecidableEq, Repr

/-- The container (container.py:156-184), its kernel context, and ghost history. -/
structure St where
  cap : Rat
  errEmpty : Bool
  errFull : Bool
  level : Rat
  rate : Rat
  last : Rat
  users : List (Nat × Rat)
  checking : Option Nat
  log : List (Rat × Rat)
  now : Rat
  urgent : List U
  uprocs : Dict Nat UProc
  /-- live `_check` processes; `none` = not started, `some d` = waiting for its timeout at `d` -/
  checks : Dict Nat (Option Rat)
  nextId : Nat
  crash : Option Crash
  sessions : List Sess
  notes : List Note
deriving DecidableEq, Repr

/-- `ContinuousContainer.__init__` (container.py:156-184) at time `t0`; `_quantities` from
monitoring.py:248. The `ValueError` for negative arguments is a hypothesis where needed. -/
def init (cap lvl : Rat) (errEmpty errFull : Bool) (t0 : Rat) : St :=
  { cap, errEmpty, errFull, level := lvl, rate := 0, last := t0, users := [], checking := none,
    log := [(t0, lvl)], now := t0, urgent := [], uprocs := [], checks := [], nextId := 0, crash := none,
    sessions := [], notes := [] }

/-- The `level` property (container.py:401-408). -/
def readLevel (s : St) : Rat := s.level + s.rate * (s.now - s.last)

/-- `ContinuousContainer._set_level` (container.py:288-298). -/
def setLevelBase (s : St) : St :=
  if s.now > s.last then { s with level := s.level + s.rate * (s.now - s.last), last := s.now } else s

/-- `SelfMonitoringContinuousContainer._set_level` (monitoring.py:250-264). -/
def setLevel (s : St) : St :=
  let s := setLevelBase s
  if s.log.getLast? = some (s.now, s.level) then s else { s with log := s.log ++ [(s.now, s.level)] }

/-- Start a `_check` process (container.py:370 and SimPy `env.process`). -/
def startCheck (s : St) : St :=
  { s with
    checking := some s.nextId
    checks := s.checks.set s.nextId none
    urgent := s.urgent ++ [.initCheck s.nextId]
    nextId := s.nextId + 1 }

/-- Second half of `_add_rate` (container.py:364-370). -/
def addRate' (s : St) (d : Rat) : St :=
  let s := setLevel s
  let s := { s with rate := s.rate + d }
  if s.rate = 0 then { s with checking := none } else startCheck s

/-- `_add_rate` (container.py:359-370). Interrupting a finished process raises (SimPy). -/
def addRate (s : St) (d : Rat) (interrupt : Bool) : St :=
  match s.checking with
  | some k =>
    if interrupt then
      if s.checks.has k then addRate' { s with urgent := s.urgent ++ [.intCheck k] } d
      else { s with crash := some .terminated }
    else addRate' s d
  | none => addRate' s d

/-- Ghost: close the open sessions of the users `R`. -/
def closeSess (R : Nat → Bool) (t : Rat) (l : List Sess) : List Sess :=
  l.map (fun x => if R x.id = true ∧ x.stop = none then { x with stop := some t } else x)

/-- `_active_users.remove(...)` for the users `R` (a user is in the list at most once). -/
def dropIds (R : Nat → Bool) (l : List (Nat × Rat)) : List (Nat × Rat) := l.filter (fun p => !R p.1)

/-- `add_user` (container.py:372-379). -/
def addUser (s : St) (id : Nat) (rate : Rat) : St :=
  addRate { s with
    users := s.users ++ [(id, rate)]
    sessions := s.sessions ++ [⟨id, rate, s.now, none⟩] } rate true

/-- `remove_user` (container.py:381-389). -/
def removeUser (s : St) (id : Nat) (rate : Rat) : St :=
  if id ∈ s.users.map (·.1) then
    addRate { s with
      users := dropIds (fun i => decide (i = id)) s.users
      sessions := closeSess (fun i => decide (i = id)) s.now s.sessions } (-1 * rate) true
  else { s with crash := some .notMember }

/-- Interrupt all of `who` with `cause` (container.py:306-307, 323-324). -/
def notify (s : St) (who : List (Nat × Rat)) (c : Cause) : St :=
  { s with
    urgent := s.urgent ++ who.map (fun p => .intUser p.1 c)
    notes := s.notes ++ who.map (fun p => ⟨s.now, p.1, c, s.level⟩) }

/-- Remove the notified users and their rates (container.py:353-357). -/
def dropUsers (s : St) (who : List (Nat × Rat)) : St :=
  if who = [] then s
  else addRate { s with
    users := dropIds (fun i => decide (i ∈ who.map (·.1))) s.users
    sessions := closeSess (fun i => decide (i ∈ who.map (·.1))) s.now s.sessions }
      ((who.map (fun p => -p.2)).sum) false

/-- `_check_empty` (container.py:300-314) followed by the caller's clean-up (353-357). -/
def checkEmpty (s : St) : St :=
  if s.level > 0 then s
  else
    let who := s.users.filter (fun p => p.2 < 0)
    if who.all (fun p => s.uprocs.has p.1) then
      let s := notify s who .empty
      if s.level = 0 ∧ s.errEmpty = true then { s with crash := some .empty }
      else if s.level < 0 then { s with crash := some .bounds }
      else dropUsers s who
    else { s with crash := some .terminated }

/-- `_check_full` (container.py:316-331) followed by the caller's clean-up (353-357). -/
def checkFull (s : St) : St :=
  if s.level < s.cap then s
  else
    let who := s.users.filter (fun p => p.2 > 0)
    if who.all (fun p => s.uprocs.has p.1) then
      let s := notify s who .full
      if s.level = s.cap ∧ s.errFull = true then { s with crash := some .full }
      else if s.level > s.cap then { s with crash := some .bounds }
      else dropUsers s who
    else { s with crash := some .terminated }

/-- The `finally` block of `_check` (container.py:345-357), after which the process `k` is finished. -/
def finishCheck (s : St) (k : Nat) : St :=
  let s := setLevel { s with checks := s.checks.del k }
  if s.rate < 0 then checkEmpty s else if s.rate > 0 then checkFull s else s

/-- First part of `_check` (container.py:333-341) when the process `k` starts (a process starts once, so
the guard on `checks` is the kernel's). A negative wait raises
inside the `try`, so the `finally` block runs before the simulation ends. -/
def beginCheck (s : St) (k : Nat) : St :=
  if s.checks.get? k ≠ some none then s
  else if s.rate = 0 then { s with checks := s.checks.del k }
  else
    let wait := ((if s.rate > 0 then s.cap else 0) - readLevel s) / s.rate
    if wait < 0 then
      let s := finishCheck s k
      { s with crash := some (s.crash.getD .negDelay) }
    else { s with checks := s.checks.set k (some (s.now + wait)) }

/-- What the environment can do: user code creates a put/get (`rate` signed, container.py:98-151) or
cancels one (83-95); the kernel processes the next urgent event, fires a user's or a checker's timeout, or
advances the clock. -/
inductive Op
  | newUser (rate : Rat) (runtime : Option Rat)
  | cancel (id : Nat)
  | urgent
  | fireUser (id : Nat)
  | fireCheck (k : Nat)
  | advance (t : Rat)
deriving DecidableEq, Repr

/-- `ContinuousPut.__init__`/`ContinuousGet.__init__` + `_ContinuousEvent.__init__`
(container.py:67-81, 104-123, 130-151). The sign of `rate` distinguishes put and get; a zero rate is
refused with `ValueError` (as is a negative `rate` argument, which cannot be written here). -/
def doNew (s : St) (rate : Rat) (runtime : Option Rat) : St :=
  if rate = 0 then s
  else { s with
    uprocs := s.uprocs.set s.nextId ⟨rate, runtime, false, none⟩
    urgent := s.urgent ++ [.initUser s.nextId]
    nextId := s.nextId + 1 }

/-- `_ContinuousEvent.cancel` (container.py:83-95). -/
def doCancel (s : St) (id : Nat) : St :=
  if s.uprocs.has id then { s with urgent := s.urgent ++ [.intUser id .stop] } else s

/-- Start of `_run` (container.py:50-55): connect, then wait (a process starts once). A negative runtime raises. -/
def beginUser (s : St) (id : Nat) : St :=
  match s.uprocs.get? id with
  | none => s
  | some p =>
    if p.started then s
    else
      let s := addUser s id p.rate
      if s.crash ≠ none then s
      else
        match p.runtime with
        | none => { s with uprocs := s.uprocs.set id { p with started := true, due := none } }
        | some r =>
          if r < 0 then { s with crash := some .negDelay }
          else { s with uprocs := s.uprocs.set id { p with started := true, due := some (s.now + r) } }

/-- The cause with which the container stops this kind of user (container.py:123, 151). -/
def stopCause (rate : Rat) : Cause := if rate > 0 then .full else .empty

/-- Delivery of an interruption to a user process (container.py:56-65); ignored when it is over. -/
def intUser (s : St) (id : Nat) (c : Cause) : St :=
  match s.uprocs.get? id with
  | none => s
  | some p =>
    let s := { s with uprocs := s.uprocs.del id }
    if c = stopCause p.rate then s
    else if c = .stop then removeUser s id p.rate
    else { s with crash := some .foreign }

/-- Process the oldest urgent event. -/
def doUrgent (s : St) : St :=
  match s.urgent with
  | [] => s
  | u :: q =>
    let s := { s with urgent := q }
    match u with
    | .initUser id => beginUser s id
    | .intUser id c => intUser s id c
    | .initCheck k => beginCheck s k
    | .intCheck k => if s.checks.has k then finishCheck s k else s

/-- A user's timeout fires (container.py:55, 64-65): only with no urgent event pending. -/
def doFireUser (s : St) (id : Nat) : St :=
  match s.uprocs.get? id with
  | none => s
  | some p =>
    if s.urgent = [] ∧ p.due = some s.now then
      removeUser { s with uprocs := s.uprocs.del id } id p.rate
    else s

/-- A checker's timeout fires (container.py:341, 345-357): only with no urgent event pending. -/
def doFireCheck (s : St) (k : Nat) : St :=
  if s.urgent = [] ∧ s.checks.get? k = some (some s.now) then finishCheck s k else s

/-- The kernel never moves the clock past a pending event. -/
def canAdvance (s : St) (t : Rat) : Bool :=
  decide (s.now < t) && s.urgent.isEmpty &&
  s.uprocs.all (fun p => match p.2.due with | none => true | some d => decide (t ≤ d)) &&
  s.checks.all (fun p => match p.2 with | none => true | some d => decide (t ≤ d))

/-- Advance the clock. -/
def doAdvance (s : St) (t : Rat) : St := if canAdvance s t then { s with now := t } else s

/-- One move; nothing happens after a crash. -/
def step (s : St) (op : Op) : St :=
  if s.crash ≠ none then s
  else match op with
    | .newUser r t => doNew s r t
    | .cancel id => doCancel s id
    | .urgent => doUrgent s
    | .fireUser id => doFireUser s id
    | .fireCheck k => doFireCheck s k
    | .advance t => doAdvance s t

/-- A history. -/
def run (s : St) (ops : List Op) : St := ops.foldl step s

/-- `time_until_level` (container.py:207-224); `none` is `inf`. -/
def timeUntilLevel (s : St) (lvl rate : Rat) : Option Rat :=
  let r := rate + s.rate
  if readLevel s = lvl then some 0
  else if r = 0 then none
  else
    let t := (lvl - s.level) / r
    if t > 0 then some t else none

/-- `time_until_done` (container.py:226-241); `none` is `inf`. -/
def timeUntilDone (s : St) (rate : Rat) : Option Rat :=
  let r := rate + s.rate
  if r > 0 then some ((s.cap - readLevel s) / r)
  else if r < 0 then some (-readLevel s / r)
  else none

end Verif.Cont
