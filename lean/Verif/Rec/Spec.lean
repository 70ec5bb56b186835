import Verif.Rec.Model

/-!
# Specification for plain states

What users see: which assignments succeeded, at which times. Everything here is computed from the trace of
calls and outcomes, not from the model's state.
-/

namespace Verif.Rec

variable {V : Type}

/-- One entry per successful assignment to, or explicit `record_state` of, any actor's state `n`:
`(actor, time, value)`; `cur` is the value each actor last gave the state. -/
def writesFrom (n : Nat) (cur : Nat → Option V) : Trace V → List (Nat × Rat × V)
  | [] => []
  | (τ, op, o) :: tr =>
    match op, o with
    | .set a m x, .ok =>
      if m = n then (a, τ, x) :: writesFrom n (fun b => if b = a then some x else cur b) tr
      else writesFrom n cur tr
    | .recordState a m, .ok =>
      if m = n then
        match cur a with
        | some v => (a, τ, v) :: writesFrom n cur tr
        | none => writesFrom n cur tr
      else writesFrom n cur tr
    | _, _ => writesFrom n cur tr

/-- All values given to state `n`, by actor and time. -/
def writes (n : Nat) (tr : Trace V) : List (Nat × Rat × V) := writesFrom n (fun _ => none) tr

/-- The values given to state `n` of actor `a`. -/
def writesOf (a n : Nat) (tr : Trace V) : List (Rat × V) :=
  ((writes n tr).filter (fun w => decide (w.1 = a))).map (·.2)

/-- The value actor `a` was last given for state `n`, starting from `cur`. -/
def lastSet (a n : Nat) (cur : Option V) : Trace V → Option V
  | [] => cur
  | (_, op, o) :: tr =>
    match op, o with
    | .set b m x, .ok => lastSet a n (if b = a ∧ m = n then some x else cur) tr
    | _, _ => lastSet a n cur tr

/-- What a recording function `f` contributes to actor `a`'s history when it is given the inputs `ws` (of any
actor) one after the other, having already seen `pre`. -/
def outsFrom (f : List (Rat × V) → V) (a : Nat) (pre : List (Rat × V)) :
    List (Nat × Rat × V) → List (Rat × V)
  | [] => []
  | (b, e) :: ws =>
    (if b = a then [(e.1, f (pre ++ [e]))] else []) ++ outsFrom f a (pre ++ [e]) ws

/-- The assignments of state `n` made while callback key `k` was registered. -/
def heard (n k : Nat) (on : Bool) : Trace V → List (Nat × V)
  | [] => []
  | (_, op, o) :: tr =>
    match op, o with
    | .set a m x, .ok => (if on && decide (m = n) then [(a, x)] else []) ++ heard n k on tr
    | .addCallback m j, _ => heard n k (on || (decide (m = n) && decide (j = k))) tr
    | .removeCallback m j, .ok => heard n k (on && !(decide (m = n) && decide (j = k))) tr
    | _, _ => heard n k on tr

/-- The assignments made on actor `a` while it had a nucleus. -/
def notified (a : Nat) (on : Bool) : Trace V → List (Nat × V)
  | [] => []
  | (_, op, o) :: tr =>
    match op, o with
    | .set b m x, .ok => (if on && decide (b = a) then [(m, x)] else []) ++ notified a on tr
    | .attach b, .ok => notified a (on || decide (b = a)) tr
    | _, _ => notified a on tr

end Verif.Rec
