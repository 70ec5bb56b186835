import Verif.Drive.Model

/-! # What is asked of actors and their motion manager -/

namespace Verif.Drive

variable {P : Type}

/-- What is left of an operation when nothing is rehearsed: the clones do not exist. Making a clone of one of the `n0` actors reads its
states. -/
def erase (n0 : Nat) (o : Op P) : List (Op P) :=
  match o with
  | .clone a => if a < n0 then [.values a] else []
  | .mock _ _ => []
  | o =>
    match o.actor with
    | some a => if a < n0 then [o] else []
    | none => [o]

/-- Operations with an answer that may be compared: of the `n0` actors, sensors and the kernel. -/
def Visible (n0 : Nat) (o : Op P) : Bool :=
  match o with
  | .clone _ => false
  | .values _ => false
  | .mock _ _ => false
  | o =>
    match o.actor with
    | some a => decide (a < n0)
    | none => true

/-- The answers in the course of a run. -/
noncomputable def answers (c : Cfg P) (n0 : Nat) : World P → List (Op P) → List (Out P)
  | _, [] => []
  | w, o :: os => (if Visible n0 o then [(step c w o).2] else []) ++ answers c n0 (step c w o).1 os

/-- Some location state of the actor is active. -/
def Moving (w : World P) (a : Nat) : Prop := ∃ n, (w.loc a n).act ≠ none

open Classical in
/-- An observer of a run, who notes which actors have been made undetectable during their last motion. -/
noncomputable def watch (c : Cfg P) (x : World P × (Nat → Bool)) (o : Op P) : World P × (Nat → Bool) :=
  ((step c x.1 o).1, match o with
    | .activate a _ _ _ => Queued.upd x.2 a false
    | .detect a false => if Moving x.1 a then Queued.upd x.2 a true else x.2
    | _ => x.2)

/-- Using actors properly. A detectable or hidden actor that is no clone starts a motion only when it has no active location state, and
the intersection model copes with its path; it ends a motion, during which it has been hidden, only while hidden. -/
def Proper (c : Cfg P) (x : World P × (Nat → Bool)) : Op P → Prop
  | .activate a n v ws => x.1.copy a = false → x.1.mgr.detect a ≠ none →
      ¬ Moving x.1 a ∧ ∀ s ∈ x.1.mgr.sensors, (Queued.processPair c.inter ⟨v, (x.1.loc a n).value :: ws, x.1.mgr.now⟩ s).isSome
  | .deactivate a _ => x.1.copy a = false → x.2 a = true → x.1.mgr.detect a ≠ some true
  | _ => True

/-- A run that is proper from beginning to end. -/
inductive Course (c : Cfg P) (w : World P) : World P × (Nat → Bool) → Prop where
  | start : Course c w (w, fun _ => false)
  | next {x : World P × (Nat → Bool)} (o : Op P) : Course c w x → Proper c x o → Course c w (watch c x o)

end Verif.Drive
