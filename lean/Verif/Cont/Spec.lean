import Verif.Cont.Model
import Mathlib.Data.List.Chain

/-!
# Specification vocabulary for C06-C09: the amount delivered by connections
-/

namespace Verif.Cont

/-- Time a connection has lasted by time `t`. -/
def Sess.lasted (x : Sess) (t : Rat) : Rat :=
  match x.stop with
  | none => max x.start t - x.start
  | some e => max x.start (min e t) - x.start

/-- What the container must hold at `t`: the initial amount plus signed rate × connection time of every
connection ever made. -/
def truth (l0 : Rat) (ss : List Sess) (t : Rat) : Rat := l0 + (ss.map (fun x => x.rate * x.lasted t)).sum

/-- Connections that are still open, as (user, rate). -/
def openUsers (ss : List Sess) : List (Nat × Rat) :=
  (ss.filter (fun x => x.stop.isNone)).map (fun x => (x.id, x.rate))

/-- Two consecutive log entries: later in time, and straight-line interpolation between them gives the
amount `f` at every instant in between. -/
def Segment (f : Rat → Rat) (a b : Rat × Rat) : Prop :=
  a.1 < b.1 ∧ ∀ t, a.1 ≤ t → t ≤ b.1 → f t = a.2 + (b.2 - a.2) / (b.1 - a.1) * (t - a.1)

end Verif.Cont
