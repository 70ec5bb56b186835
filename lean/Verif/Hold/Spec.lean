import Verif.Hold.Model

/-!
# What is seen of a hold
-/

namespace Verif.Hold

/-- What a task sees of hold `h`: it asked, it got the resource, it gave it back, giving back was processed. -/
inductive Act where
  | asked
  | got
  | gave
  | back
deriving DecidableEq, Repr

def actOf (h : Nat) : Op × Out → List Act
  | (.yield k _, .requested) => if k = h then [.asked] else []
  | (.yield k _, .released) => if k = h then [.gave] else []
  | (.granted k, .done) => if k = h then [.got] else []
  | (.gaveBack k, .done) => if k = h then [.back] else []
  | _ => []

def acts (h : Nat) (tr : List (Op × Out)) : List Act := tr.flatMap (actOf h)

/-- The task has the resource: it got it and has not given it back. -/
def Holding (tr : List (Op × Out)) (h : Nat) : Prop := .got ∈ acts h tr ∧ .gave ∉ acts h tr

instance (tr : List (Op × Out)) (h : Nat) : Decidable (Holding tr h) := inferInstanceAs (Decidable (_ ∧ _))

/-- No hold is rehearsed. -/
def NoRehearsal (ops : List Op) : Prop := ∀ h, Op.rehearse h ∉ ops

end Verif.Hold
