import Verif.Clone.Model

/-!
# What can be seen of an actor

The value of a state or of a piece of knowledge is looked at to any depth: `view w d v` writes out the value `v`, following
references `d` levels down.
-/

namespace Verif.Clone

inductive Tok where
  | atom (a : Nat)
  | open
  | close
  | cut
deriving DecidableEq

/-- A value written out to depth `d`. -/
def view (w : World) : Nat → Val → List Tok
  | _, .atom a => [.atom a]
  | 0, .ref _ => [.cut]
  | d + 1, .ref a => .open :: ((w.obj a).flatMap (view w d) ++ [.close])

/-- State `n` of actor `i`, to depth `d`. -/
def stateView (w : World) (i n d : Nat) : Option (List Tok) :=
  (w.actors[i]?.bind fun a => a.states.get? n).map fun s => view w d s.val

/-- Knowledge `n` of actor `i`, to depth `d`. -/
def knowView (w : World) (i n d : Nat) : Option (List Tok) :=
  (w.actors[i]?.bind fun a => a.know.get? n).map fun v => view w d v

/-- The task queue of actor `i` for network `n`. -/
def queueView (w : World) (i n : Nat) : Option (List Nat) :=
  (w.actors[i]?.bind fun a => a.queues.get? n).map w.lst

/-- The values an actor holds. -/
def held (a : Actor) : List Val := a.states.vals.map Slot.val ++ a.know.vals

/-- A world to start from: references exist, the objects held by an actor hold only atoms, and no two actors hold the same
object. -/
structure Start (w : World) : Prop where
  flat : ∀ (i : Nat) a, w.actors[i]? = some a → ∀ o, Val.ref o ∈ held a → o < w.nextObj ∧ ∀ v ∈ w.obj o, ∃ x, v = .atom x
  apart : ∀ (i j : Nat) a b, w.actors[i]? = some a → w.actors[j]? = some b → i ≠ j →
    ∀ o, Val.ref o ∈ held a → Val.ref o ∉ held b
  lists : ∀ (i : Nat) a, w.actors[i]? = some a → ∀ q ∈ a.queues.vals, q < w.nextLst

/-- The operation changes a queue list where it lies (instead of putting a new list in its place). -/
def inPlace : AOp → Bool
  | .appendQ _ _ | .beginTask _ _ | .clearTask _ => true
  | _ => false

end Verif.Clone
