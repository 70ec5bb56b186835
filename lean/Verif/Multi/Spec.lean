import Verif.Multi.Model

/-!
# Specification of multi-events

When a multi-event has occurred is said without conditions, counts and callbacks: from what happened to the events in it.
-/

namespace Verif.Multi

/-- The event `e` has occurred, if `h` tells which of the plain events have happened: a plain event has happened; an Any has
a member that has occurred; of an All every member has occurred. -/
inductive Occ (cond : Nat → Option Cond) (h : Nat → Prop) : Nat → Prop
  | plain {e : Nat} : cond e = none → h e → Occ cond h e
  | any {e : Nat} {ms : List Nat} {m : Nat} : cond e = some ⟨false, ms⟩ → m ∈ ms → Occ cond h m → Occ cond h e
  | all {e : Nat} {ms : List Nat} : cond e = some ⟨true, ms⟩ → (∀ m ∈ ms, Occ cond h m) → Occ cond h e

/-- `x` is `c` or stands somewhere in the multi-event `c`. -/
inductive In (cond : Nat → Option Cond) : Nat → Nat → Prop
  | self (c : Nat) : In cond c c
  | member {c m x : Nat} {k : Cond} : cond c = some k → m ∈ k.members → In cond m x → In cond c x

/-- All events in `c`, in the order in which `cancel` meets them; the first argument bounds the depth. -/
def nodes (cond : Nat → Option Cond) : Nat → Nat → List Nat
  | 0, _ => []
  | d + 1, c => c :: (match cond c with
    | none => []
    | some k => k.members.flatMap (nodes cond d))

/-- The event has happened by now. -/
def Happened (s : St) (e : Nat) : Prop := s.when e ≠ none

/-- The event happened in an earlier instant. -/
def Before (s : St) (e : Nat) : Prop := ∃ i, s.when e = some i ∧ i < s.now

end Verif.Multi
