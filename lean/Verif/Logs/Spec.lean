import Verif.Logs.Model

/-! # Specification for C68 -/

namespace Verif.Logs.Spec

open Verif.Logs

/-- The units that are shown as days and time of day, with their seconds. -/
def seconds (lower : String → String) (u : String) : Option Rat :=
  if u = "s" ∨ lower u ∈ ["second", "seconds"] then some 1
  else if u = "min" ∨ lower u ∈ ["minute", "minutes"] then some 60
  else if u = "hr" ∨ lower u ∈ ["hour", "hours"] then some 3600
  else none

/-- The stamp tells time `x`: to the second, cut off; or to half a thousandth. -/
def Right (lower : String → String) (x : Rat) (unit : Option String) (daily : Option Rat) : Stamp → Prop
  | .clock d h m s => ∃ k, seconds lower (unit.getD "hr") = some k ∧ (0 ≤ h ∧ h < 24) ∧ (0 ≤ m ∧ m < 60) ∧ (0 ≤ s ∧ s < 60) ∧
      ((d * 86400 + h * 3600 + m * 60 + s : Int) : Rat) ≤ x * k ∧ x * k < ((d * 86400 + h * 3600 + m * 60 + s : Int) : Rat) + 1
  | .plain q u => seconds lower (unit.getD "hr") = none ∧ daily = none ∧ u = unit.getD "hr" ∧ |(q : Rat) / 1000 - x| ≤ 1 / 2000
  | .daily d q u => seconds lower (unit.getD "hr") = none ∧ u = unit.getD "hr" ∧ ∃ c, daily = some c ∧
      |d * c + (q : Rat) / 1000 - x| ≤ 1 / 2000 ∧ (0 < c → (d : Rat) * c ≤ x ∧ x < (d + 1) * c)

/-- The number of environments. -/
def envs : Trace → Nat
  | [] => 1
  | (.clone _, .made _) :: tr => envs tr + 1
  | (.mock _, .nothing) :: tr => envs tr + 1
  | _ :: tr => envs tr

/-- Whether an actor logs, whether with stamps, and its environment. -/
def info : Trace → Nat → Option (Bool × Option Bool × Nat)
  | [], _ => none
  | (.make on time, .made c) :: tr, a => if c = a then some (on, time, 0) else info tr a
  | (.clone b, .made c) :: tr, a => if c = a then (info tr b).map (fun x => (x.1, x.2.1, envs tr)) else info tr a
  | (.cloneIn b e, .made c) :: tr, a => if c = a then (info tr b).map (fun x => (x.1, x.2.1, e)) else info tr a
  | _ :: tr, a => info tr a

/-- The time in an environment. -/
def clock (t0 : Rat) : Trace → Nat → Rat
  | [], _ => t0
  | (.advance e' dt, .nothing) :: tr, e => if e' = e then clock t0 tr e + dt else clock t0 tr e
  | (.clone b, .made _) :: tr, e =>
    if e = envs tr then
      match info tr b with
      | some x => clock t0 tr x.2.2
      | none => clock t0 tr e
    else clock t0 tr e
  | (.mock t, .nothing) :: tr, e => if e = envs tr then t else clock t0 tr e
  | _ :: tr, e => clock t0 tr e

/-- The stage variables. -/
def stage : Trace → Stage
  | [] => ⟨none, none, none⟩
  | (.setStage x, _) :: _ => x
  | _ :: tr => stage tr

/-- What is expected of an entry: its time, whether it has a stamp (and in which units), and the message; or an entry put in by hand. -/
inductive Want where
  | logged (time : Rat) (stamp : Option Stage) (msg : String)
  | edited (e : Entry)

/-- The expected log of an actor. -/
def wanted (t0 : Rat) : Trace → Nat → List Want
  | [], _ => []
  | (.clone b, .made c) :: tr, a =>
    if c = a then
      match info tr b with
      | some (true, _) => wanted t0 tr b
      | _ => []
    else wanted t0 tr a
  | (.cloneIn b _, .made c) :: tr, a =>
    if c = a then
      match info tr b with
      | some (true, _) => wanted t0 tr b
      | _ => []
    else wanted t0 tr a
  | (.log b (some m), .nothing) :: tr, a =>
    if b = a then
      match info tr b with
      | some (true, time, e) =>
        wanted t0 tr a ++ [.logged (clock t0 tr e) (if time.getD ((stage tr).logTime.getD true) then some (stage tr) else none) m]
      | _ => wanted t0 tr a
    else wanted t0 tr a
  | (.edit b l, .nothing) :: tr, a => if b = a then l.map .edited else wanted t0 tr a
  | _ :: tr, a => wanted t0 tr a

/-- An entry is as expected. -/
def Ok (lower : String → String) (e : Entry) : Want → Prop
  | .edited e' => e = e'
  | .logged t none m => e.time = t ∧ e.stamp = none ∧ e.msg = m
  | .logged t (some st) m => e.time = t ∧ e.msg = m ∧ ∃ ts, e.stamp = some ts ∧ Right lower t st.unit st.daily ts

/-- Nobody changed a list that was returned. -/
def Unedited (tr : Trace) : Prop := ∀ a l, (Op.edit a l, Out.nothing) ∉ tr

/-- No clone that logs was put into an environment where it is earlier than for its original. -/
def Onward (t0 : Rat) : Trace → Prop
  | [] => True
  | (.cloneIn b e, .made _) :: tr => (∀ x, info tr b = some x → x.1 = true → clock t0 tr x.2.2 ≤ clock t0 tr e) ∧ Onward t0 tr
  | _ :: tr => Onward t0 tr

end Verif.Logs.Spec
