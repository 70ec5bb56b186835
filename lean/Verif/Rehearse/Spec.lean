import Verif.Rehearse.Model
import Mathlib.Data.List.Forall2

/-!
# How long things take in a rehearsal
-/

namespace Verif.Rehearse

/-- The duration of an event: `Any` takes as long as its shortest member, `All` as long as its longest. -/
inductive Dur : Ev → Rat → Prop where
  | leaf (t : Rat) (v : Option Nat) : Dur (.leaf t v) t
  | any (ms : List Ev) (ts : List Rat) (t : Rat) : List.Forall₂ Dur ms ts → t ∈ ts → (∀ u ∈ ts, t ≤ u) → Dur (.any ms) t
  | all (ms : List Ev) (ts : List Rat) (t : Rat) : List.Forall₂ Dur ms ts → t ∈ ts → (∀ u ∈ ts, u ≤ t) → Dur (.all ms) t

/-- The duration and the value of what a task yields. -/
inductive YDur : Yield → Rat → Option Nat → Prop where
  | leaf (t : Rat) (v : Option Nat) : YDur (.ev (.leaf t v)) t v
  | any (ms : List Ev) (t : Rat) : Dur (.any ms) t → YDur (.ev (.any ms)) t none
  | all (ms : List Ev) (t : Rat) : Dur (.all ms) t → YDur (.ev (.all ms)) t none
  | routine (es : List Ev) (ts : List Rat) : List.Forall₂ Dur es ts → YDur (.routine es) ts.sum none
  | custom (t : Rat) (v : Option Nat) : YDur (.custom t v) t v

/-- What was yielded, in order. -/
def yields : Script → List Yield
  | [] => []
  | (_, .yield y) :: r => y :: yields r
  | _ :: _ => []

end Verif.Rehearse
