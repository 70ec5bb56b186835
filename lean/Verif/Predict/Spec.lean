import Verif.Predict.Builds

/-! # When a rehearsal predicts -/

namespace Verif.Predict

variable {K : Type} [Field K] [LinearOrder K] [IsStrictOrderedRing K] {A Op Val : Type}

/-- `Eqv t a b`: actors that cannot be told apart from time `t` on by what the code of the task can do, whether or not others have read them. -/
structure Congruent (M : Methods K A Op Val) (Eqv : K → A → A → Prop) : Prop where
  later : ∀ t t' a b, t ≤ t' → Eqv t a b → Eqv t' a b
  step : ∀ t o a b, Eqv t a b → (M.step t o a).2 = (M.step t o b).2 ∧ Eqv t (M.step t o a).1 (M.step t o b).1
  read : ∀ t o a b, M.reads o → Eqv t a b → Eqv t (M.step t o a).1 b

/-- The time in a rehearsal, with that of the routine that is going on. -/
def RSt.time (r : RSt K A Val) : K := r.now + r.routine.getD 0

/-- A command that is rehearsed as it is executed: not an action in a routine after time has passed there, no event waited for again, no multi-event of
nothing, and no look at events but those directly below the last one. -/
def Predictable (r : RSt K A Val) : Cmd K Op → Prop
  | .act _ => r.routine.getD 0 = 0
  | .clock => r.routine.getD 0 = 0
  | .yield e => fresh e = true ∧ hasTime e = true
  | .complete k => k ∈ r.last
  | _ => True

/-- The code of a task that is rehearsed as it is executed. -/
def Plain (M : Methods K A Op Val) (code : Code K Op Val) (t0 : K) (a : A) : Prop :=
  ∀ n, (rehearse M code t0 a n).status = .running → Predictable (rehearse M code t0 a n) (code (rehearse M code t0 a n).hist)

/-- Other processes read the actor and go on. -/
def Harmless (M : Methods K A Op Val) (f : Other K Op) : Prop := (∀ o ∈ f.reads, M.reads o) ∧ ∀ p ∈ f.later, 0 ≤ p.1

/-- What other processes have put into the queue before. -/
structure Before (t0 : K) (q : List (Item K)) : Prop where
  other : ∀ i ∈ q, i.ent = .other
  ahead : ∀ i ∈ q, t0 ≤ i.time
  sorted : q.Pairwise fun x y => x.time ≤ y.time

end Verif.Predict
