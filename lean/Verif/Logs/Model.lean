import Verif.Units.Model
import Mathlib.Algebra.Order.Floor.Ring
import Mathlib.Data.Rat.Floor

/-!
# Model of `pretty_now` and of the actors' debug logs

Sources: `/repo/src/upstage_des/base.py` 339-370 (`UpstageBase.pretty_now`), 169-195 (`MockEnvironment`); `/repo/src/upstage_des/actor.py`
144-146, 996-1040 (what `clone` does to the log), 1042-1070 (`log`, `get_log`).

Times are rationals. A time stamp is its parts, not the text made of them: the padding of the day to four places, of hours, minutes and
seconds to two, and the brackets are left out; numbers printed with three decimals are whole numbers of thousandths.
-/

namespace Verif.Logs

/-- `[Day d - H:M:S]`, `[x.xxx unit]`, `[Day d - x.xxx unit]` (base.py 360, 364, 368). -/
inductive Stamp where
  | clock (day h m s : Int)
  | plain (milli : Int) (unit : String)
  | daily (day milli : Int) (unit : String)
deriving DecidableEq, Repr

/-- Printing with `.3f`: to the nearest thousandth, the even one of two. -/
def milli (x : Rat) : Int :=
  let f := (x * 1000).floor
  if x * 1000 - f < 1 / 2 then f
  else if 1 / 2 < x * 1000 - f then f + 1
  else if f % 2 = 0 then f else f + 1

/-- `STANDARD_TIMES` (convert.py 46). -/
def standardTimes : List String := ["s", "min", "hr"]

/-- The stage variables `time_unit`, `daily_time_count`, `debug_log_time`; `none` if not set (for the first two also if set to `None`). -/
structure Stage where
  unit : Option String
  daily : Option Rat
  logTime : Option Bool
deriving DecidableEq

/-- `pretty_now` (base.py 340-370) at time `now`; `none` if it raises. `gmtime` drops fractions of a second and begins again each day.
Python's `str.lower` is a parameter. -/
def pretty (lower : String → String) (now : Rat) (unit : Option String) (daily : Option Rat) : Option Stamp :=
  let u := unit.getD "hr"
  let standard := (Units.alternates.get? (lower u)).getD u
  if standard ∈ standardTimes then
    match Units.unitConvert lower now u "hr" with
    | none => none
    | some hrs =>
      let day := (hrs / 24).floor
      let rem := hrs - day * 24
      let secs := (rem * 3600).floor
      some (.clock day (secs % 86400 / 3600) (secs % 3600 / 60) (secs % 60))
  else
    match daily with
    | none => some (.plain (milli now) u)
    | some c =>
      if c = 0 then none else
      let days := (now / c).floor
      some (.daily days (milli (now - days * c)) u)

/-- An entry of a log: the time, and the text: the stamp if there is one, and the message. -/
structure Entry where
  time : Rat
  stamp : Option Stamp
  msg : String
deriving DecidableEq

/-- `_debug_logging`, `_debug_log_time`, `env`, `_debug_log` of an actor (actor.py 144-146). -/
structure Actor where
  on : Bool
  time : Option Bool
  env : Nat
  log : List Entry

/-- Environments have a clock each; 0 is the simulation's, the others are mocks. -/
structure St where
  stage : Stage
  nEnv : Nat
  clock : Nat → Rat
  nAct : Nat
  act : Nat → Actor

inductive Op where
  /-- `Actor(debug_log=on, debug_log_time=time)`. -/
  | make (on : Bool) (time : Option Bool)
  /-- `clone()`. -/
  | clone (a : Nat)
  /-- `MockEnvironment(now=t)` (base.py 172-178). -/
  | mock (t : Rat)
  /-- `clone(new_env=e)`. -/
  | cloneIn (a e : Nat)
  | log (a : Nat) (msg : Option String)
  | getLog (a : Nat)
  /-- Somebody changes the list that `log()` or `get_log()` of `a` returned. -/
  | edit (a : Nat) (l : List Entry)
  | advance (e : Nat) (dt : Rat)
  | setStage (s : Stage)

inductive Out where
  | made (a : Nat)
  | nothing
  /-- The list object of actor `a`, with its present contents. -/
  | list (a : Nat) (l : List Entry)
  | raised
  | impossible
deriving DecidableEq

def upd {α : Type} (f : Nat → α) (i : Nat) (x : α) : Nat → α := fun j => if j = i then x else f j

/-- `log` (actor.py 1042-1062). -/
def log (lower : String → String) (s : St) (a : Nat) : Option String → St × Out
  | none => (s, .list a (s.act a).log)
  | some msg =>
    let x := s.act a
    if !x.on then (s, .nothing) else
    let now := s.clock x.env
    if x.time.getD (s.stage.logTime.getD true) then
      match pretty lower now s.stage.unit s.stage.daily with
      | none => (s, .raised)
      | some ts => ({ s with act := upd s.act a { x with log := x.log ++ [⟨now, some ts, msg⟩] } }, .nothing)
    else ({ s with act := upd s.act a { x with log := x.log ++ [⟨now, none, msg⟩] } }, .nothing)

/-- `clone` (actor.py 986, 1001-1007, 1036-1037) with `MockEnvironment.mock`: a new clock that starts at that of the actor. -/
def clone (s : St) (a : Nat) : St × Out :=
  let x := s.act a
  ({ s with nEnv := s.nEnv + 1, clock := upd s.clock s.nEnv (s.clock x.env), nAct := s.nAct + 1,
            act := upd s.act s.nAct ⟨x.on, x.time, s.nEnv, if x.on then x.log else []⟩ }, .made s.nAct)

/-- `clone(new_env=…)` (actor.py 986, 1001-1007, 1036-1037); an environment that is no mock makes the setter (base.py 474-480) go back to
that of the simulation, which is environment 0. -/
def cloneIn (s : St) (a e : Nat) : St × Out :=
  let x := s.act a
  ({ s with nAct := s.nAct + 1, act := upd s.act s.nAct ⟨x.on, x.time, e, if x.on then x.log else []⟩ }, .made s.nAct)

def step (lower : String → String) (s : St) : Op → St × Out
  | .make on time => ({ s with nAct := s.nAct + 1, act := upd s.act s.nAct ⟨on, time, 0, []⟩ }, .made s.nAct)
  | .clone a => if a < s.nAct then clone s a else (s, .impossible)
  | .mock t => ({ s with nEnv := s.nEnv + 1, clock := upd s.clock s.nEnv t }, .nothing)
  | .cloneIn a e => if a < s.nAct ∧ e < s.nEnv then cloneIn s a e else (s, .impossible)
  | .log a msg => if a < s.nAct then log lower s a msg else (s, .impossible)
  | .getLog a => if a < s.nAct then (s, .list a (s.act a).log) else (s, .impossible)
  | .edit a l => if a < s.nAct then ({ s with act := upd s.act a { s.act a with log := l } }, .nothing) else (s, .impossible)
  | .advance e dt => if 0 ≤ dt ∧ e < s.nEnv then ({ s with clock := upd s.clock e (s.clock e + dt) }, .nothing) else (s, .impossible)
  | .setStage x => ({ s with stage := x }, .nothing)

/-- Operations and outcomes, the latest first. -/
abbrev Trace := List (Op × Out)

def run (lower : String → String) (s : St) (tr : Trace) : List Op → St × Trace
  | [] => (s, tr)
  | op :: ops => run lower (step lower s op).1 ((op, (step lower s op).2) :: tr) ops

def init (t0 : Rat) : St := ⟨⟨none, none, none⟩, 1, fun _ => t0, 0, fun _ => ⟨false, none, 0, []⟩⟩

end Verif.Logs
