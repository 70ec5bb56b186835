import Verif.Table.Model

/-!
# What the table of a history should contain
-/

namespace Verif.Table

/-- What a recorded value stands for: itself, or its fields one by one; a marker is not a value. -/
def items {α : Type} (n : Name) : Rat × Val α → List (Name × Rat × α)
  | (t, .scalar v) => [(n, t, v)]
  | (t, .fields l) => l.map fun x => (n ++ [x.1], t, x.2)
  | (_, .marker _) => []

/-- All recorded values in order. -/
def allItems {α : Type} (n : Name) (h : Hist α) : List (Name × Rat × α) := h.flatMap (items n)

/-- The markers directly after a point of the history. -/
def marksNow {α : Type} : Hist α → List Bool
  | (_, .marker on) :: r => on :: marksNow r
  | _ => []

/-- All markers. -/
def marks {α : Type} (h : Hist α) : List Bool := h.filterMap fun x => match x.2 with | .marker on => some on | _ => none

/-- The status between markers: as the last marker says, and at first inactive for an active state, nothing for others. -/
def current {α : Type} (isActive : Bool) (pre : Hist α) : Option Status :=
  match (marks pre).getLast? with
  | some true => some .active
  | some false => some .inactive
  | none => if isActive then some .inactive else none

/-- The history begins with a value, and every recorded dataclass or dictionary has a field. -/
def Proper {α : Type} (h : Hist α) : Prop :=
  (∀ t on r, h ≠ (t, .marker on) :: r) ∧ ∀ t l, (t, Val.fields l) ∈ h → l ≠ []

/-- The table of a history: the recorded values in order, each on a row of its own, with the status between markers; a marker
is on the last row of the value it follows. -/
structure Table {α : Type} (e k : Nat) (n : Name) (isActive : Bool) (h : Hist α) (rows : List (Row α)) : Prop where
  who : ∀ r ∈ rows, r.entity = e ∧ r.kind = k
  values : rows.map (fun r => (r.state, r.time, r.value)) = allItems n h
  status : ∀ pre x post, h = pre ++ x :: post → ∀ j, j < (items n x).length →
    (rows[(allItems n pre).length + j]?).map (·.status) =
      some (if j + 1 = (items n x).length ∧ marksNow post ≠ [] then (marksNow post).getLast?.map statusOf
            else current isActive pre)

end Verif.Table
