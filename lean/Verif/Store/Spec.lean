import Verif.Util.Log

/-!
# Specification vocabulary for the store properties (C05, C06, C39, C41)

Independent of the model: only lists, keys and predicates.
-/

namespace Verif.Store

variable {ι κ : Type}

/-- `a` is strictly preferred to `b`: smaller, or larger when `reverse`. -/
def Lt [LinearOrder κ] (reverse : Bool) (a b : κ) : Prop := if reverse then b < a else a < b

/-- `x` is the item a sorted get must hand out of `items`, leaving `rest`: it matches the filter, every
earlier matching item is strictly worse, no later matching item is strictly better, and only `x` is gone. -/
def FirstBest [LinearOrder κ] (filter : ι → Bool) (key : ι → κ) (reverse : Bool) (items : List ι) (x : ι)
    (rest : List ι) : Prop :=
  ∃ pre post, items = pre ++ x :: post ∧ rest = pre ++ post ∧ filter x = true ∧
    (∀ y ∈ pre, filter y = true → Lt reverse (key x) (key y)) ∧
    (∀ y ∈ post, filter y = true → ¬ Lt reverse (key y) (key x))

/-- `x` is the first item matching the filter, `rest` the others in order. -/
def FirstMatch (filter : ι → Bool) (items : List ι) (x : ι) (rest : List ι) : Prop :=
  ∃ pre post, items = pre ++ x :: post ∧ rest = pre ++ post ∧ filter x = true ∧
    ∀ y ∈ pre, filter y = false

end Verif.Store
