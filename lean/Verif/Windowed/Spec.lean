import Verif.Windowed.Model
import Verif.Store.Props

/-! # What a user expects of `WindowedGet` -/

namespace Verif.Windowed

open Verif.Store (Cfg St inflight)

variable {ι γ ν : Type}

/-- What the store handed to requests in `m`, in order. -/
def valuesFor (m : List Nat) (l : List (Nat × ι)) : List ι := (l.filter fun q => decide (q.1 ∈ m)).map (·.2)

/-- What went to, or came from, requests not in `m`. -/
def valuesOfOthers (m : List Nat) (l : List (Nat × ι)) : List ι := (l.filter fun q => decide (q.1 ∉ m)).map (·.2)

/-- The time from which the window is measured: that of the first item, or of the last if each restarts it. -/
def windowFrom (reset : Bool) (times : List Rat) : Option Rat := if reset then times.getLast? else times.head?

variable [DecidableEq ν]

/-- The routine never ends, or is interrupted, while an item is on its way to it. -/
def NeverLate (c : Cfg ι γ ν) (p : Par γ) : W ι γ ν → List (Op ι γ) → Bool
  | _, [] => true
  | w, op :: ops =>
    (match op with
      | .cancel | .resume => (inflight w.st.evq).all fun q => decide (q.1 ≠ w.cur)
      | _ => true) && NeverLate c p (step c p w op) ops

end Verif.Windowed
