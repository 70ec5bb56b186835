import Verif.Queued.Model

/-! # What the notifications should be, independently of the manager -/

namespace Verif.Queued

open Verif.Sphere (Tag)

variable {α L : Type} [Field α] [LinearOrder α]

/-- What sensor `s` was told about mover `m`: times, and whether it was an entry. -/
def told (σ : St α L) (m s : Nat) : List (α × Bool) :=
  (σ.log.filter fun r => r.mover = m ∧ r.sensor = s).map fun r => (r.time, r.entered)

/-- The result for a leg travelled from time `x` for the time `D` by a mover which is in range at the times `inside`: no crossings and
never in range, or the two times between which it is in range, with the kinds telling whether it is at the ends of the leg. -/
def ExactLeg (inside : α → Prop) (x D : α) (entries : List (Entry α)) : Prop :=
  (entries = [] ∧ ∀ τ, x ≤ τ → τ ≤ x + D → ¬ inside τ) ∨
  ∃ k₁ k₂ t₁ t₂, entries = [⟨k₁, t₁⟩, ⟨k₂, t₂⟩] ∧ 0 ≤ t₁ ∧ t₁ ≤ t₂ ∧ t₂ ≤ D ∧
    (∀ τ, x ≤ τ → τ ≤ x + D → (inside τ ↔ x + t₁ ≤ τ ∧ τ ≤ x + t₂)) ∧
    (inside x ∧ k₁ = .startInside ∨ ¬ inside x ∧ k₁ = .enter) ∧ (inside (x + D) ∧ k₂ = .endInside ∨ ¬ inside (x + D) ∧ k₂ = .exit)

/-- The intersection model is exact on the legs of a path, begun at time `x`, which take the times `Ds`: the crossings are right, and the
time of the leg is right unless the mover is not in range from there to the end of the path. -/
def ExactPath (I : Inter α L) (speed : α) (s : Nat) (inside : α → Prop) : List L → List α → α → Prop
  | w :: w' :: ws, D :: Ds, x => 0 ≤ D ∧ ∃ res, I w w' speed s = some res ∧ ExactLeg inside x D res.entries ∧
      (res.pathTime = D ∨ ∀ τ, x ≤ τ → τ ≤ x + (D + Ds.sum) → ¬ inside τ) ∧ ExactPath I speed s inside (w' :: ws) Ds (x + D)
  | [_], [], _ => True
  | [], [], _ => True
  | _, _, _ => False

/-- The mover does not only touch the range: it is never in range at a single moment (before the end of its path). -/
def NoTouch (inside : α → Prop) (lo hi : α) : Prop :=
  ∀ τ, lo ≤ τ → τ < hi → inside τ → ¬ ∃ ε, 0 < ε ∧ ∀ y, lo ≤ y → y ≤ hi → τ - ε < y → y < τ + ε → y ≠ τ → ¬ inside y

/-- According to the notifications `new`, given whether the mover was in view before, it is in range at `τ`: it was in view or an entry has
been notified, and no exit since then before `τ`. -/
def Seen (was : Prop) (new : List (α × Bool)) (τ : α) : Prop :=
  (was ∧ ∀ b, (b, false) ∈ new → ¬ b < τ) ∨ ∃ a, (a, true) ∈ new ∧ a ≤ τ ∧ ∀ b, (b, false) ∈ new → ¬ (a ≤ b ∧ b < τ)

/-- Entries and exits alternate, beginning with an exit if the mover was in view. -/
def Alternate : Bool → List (α × Bool) → Prop
  | _, [] => True
  | was, (_, e) :: l => e = !was ∧ Alternate e l

/-- The mover gets into range at `t` (or is in range at the beginning, `tc`). -/
def EntersAt (inside : α → Prop) (tc t : α) : Prop := inside t ∧ (t = tc ∨ ∃ y, y < t ∧ ∀ τ, tc ≤ τ → y < τ → τ < t → ¬ inside τ)

/-- The mover is in range at `t` and not just afterwards. -/
def LeavesAt (inside : α → Prop) (hi t : α) : Prop := inside t ∧ t < hi ∧ ∃ y, t < y ∧ ∀ τ, t < τ → τ < y → τ ≤ hi → ¬ inside τ

/-- The notifications `new` given from `tc` to `now` are right for a mover in range at the times `inside` on a path ending at `hi`: they
alternate, entries are told when the mover gets into range and exits when it gets out, and none is missing. -/
structure Right (inside : α → Prop) (tc hi now : α) (was : Bool) (new : List (α × Bool)) : Prop where
  alternate : Alternate was new
  times : ∀ t e, (t, e) ∈ new → tc ≤ t ∧ t ≤ now ∧ t ≤ hi
  enters : ∀ t, (t, true) ∈ new → EntersAt inside tc t
  exits : ∀ t, (t, false) ∈ new → LeavesAt inside hi t
  complete : ∀ τ, tc ≤ τ → τ < now → τ ≤ hi → (inside τ ↔ Seen (was = true) new τ)

/-- Operations which do not concern mover `m` or sensor `s`, and everything the kernel does. -/
def Foreign (m s : Nat) : Op α L → Prop
  | .start m' _ _ => m' ≠ m
  | .stop m' => m' ≠ m
  | .detect m' _ => m' ≠ m
  | .addSensor s' => s' ≠ s
  | .fire _ => True
  | .advance _ => True

end Verif.Queued
