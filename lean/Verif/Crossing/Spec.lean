import Verif.Crossing.Model

/-! # What a crossing list should say -/

namespace Verif.Crossing

variable {K : Type} [Field K] [LinearOrder K] [IsStrictOrderedRing K] [FloorRing K] {P : Type}

/-- The crossing between two neighbours of a path, if the status flips there. -/
def flip (inside : P → Bool) (a b : P) : Option (Cond P) :=
  match inside a, inside b with
  | false, true => some ⟨.enter, a, some b⟩
  | true, false => some ⟨.exit, a, some b⟩
  | _, _ => none

/-- The flips along a path, in order. -/
def flips (inside : P → Bool) (path : List P) : List (Cond P) := (path.zip path.tail).filterMap fun q => flip inside q.1 q.2

/-- The crossing list of a path: start, flips, end. -/
def expected (inside : P → Bool) (path : List P) (first last : P) : List (Cond P) :=
  ⟨if inside first then .startInside else .startOut, first, none⟩ :: flips inside path ++
    [⟨if inside last then .endInside else .endOut, last, none⟩]

/-- Two neighbours of a path. -/
def Neighbours (path : List P) (a b : P) : Prop := ∃ p q, path = p ++ a :: b :: q

/-- A path that begins and ends where it should, with the number of segments asked for. -/
structure ExactEnds (E : Earth K P) : Prop where
  quiet : ∀ a b n, E.raises a b n = false
  nonempty : ∀ a b n, E.samples a b n ≠ []
  length : ∀ a b n, 0 < n → (E.samples a b n).length = n + 1
  head : ∀ a b n, 0 < n → (E.samples a b n).head? = some a
  last : ∀ a b n, 0 < n → (E.samples a b n).getLast? = some b

/-- A path whose samples are evenly spaced. -/
def Even (E : Earth K P) : Prop :=
  ∀ a b (n : Nat), 0 < n → ∀ x y, Neighbours (E.samples a b n) x y → E.dist x y * n = E.dist a b

/-- Statuses along a crossing list fit together. -/
def Consistent : Bool → List Kind → Bool → Prop
  | s, [], t => s = t
  | s, .enter :: l, t => s = false ∧ Consistent true l t
  | s, .exit :: l, t => s = true ∧ Consistent false l t
  | _, _ :: _, _ => False

end Verif.Crossing
