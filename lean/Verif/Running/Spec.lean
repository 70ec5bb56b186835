import Verif.Running.Model

/-!
# Specification for C67

Everything is read off the trace (the latest entry first): who runs, which task was begun last on a network, which processes
returned, which interrupts were issued and answered, which markers were set.
-/

namespace Verif.Running.Spec

open Verif.Running
open Verif.Network (Net Kind)

/-- Whose code runs. -/
inductive Who where
  | nobody
  | task (p : Nat)
  | decision (o : Nat) (t : String)
deriving DecidableEq

/-- What an outcome says about who runs from then on. -/
def after : Out → Who
  | .runs p => .task p
  | .called _ p _ => .task p
  | .restarted p => .task p
  | .answered _ .ignore => .nobody
  | .answered p _ => .task p
  | .decides o t _ => .decision o t
  | _ => .nobody

/-- Calls do not change who runs. -/
def who : Trace → Who
  | [] => .nobody
  | (_, .call _, _) :: tr => who tr
  | (_, _, .impossible) :: tr => who tr
  | (_, _, o) :: _ => after o

/-- The process that runs, if it is one of a task. -/
def caller (tr : Trace) : Option Nat :=
  match who tr with
  | .task p => some p
  | _ => none

/-- The decision that is being made inside a loop of network object `o`. -/
def deciding (tr : Trace) (o : Nat) : Option String :=
  match who tr with
  | .decision o' t => if o' = o then some t else none
  | _ => none

/-- The network object that name `n` stands for. -/
def bound : Trace → String → Option Nat
  | [], _ => none
  | (_, .call (.addNet m _), .added o) :: tr, n => if m = n then some o else bound tr n
  | (_, .call (.delNet m), .queued .done) :: tr, n => if m = n then none else bound tr n
  | _ :: tr, n => bound tr n

/-- The task begun last on network object `o`, with its process. -/
def lastBegun : Trace → Nat → Option (String × Nat)
  | [], _ => none
  | (_, _, .began o' p t _ _) :: tr, o => if o' = o then some (t, p) else lastBegun tr o
  | _ :: tr, o => lastBegun tr o

/-- The process returned. -/
def Finished (tr : Trace) (p : Nat) : Prop := ∃ e ∈ tr, e.2.2 = .finished p

instance (tr : Trace) (p : Nat) : Decidable (Finished tr p) := by unfold Finished; infer_instance

/-- The process was made on network object `o`. -/
def Begun (tr : Trace) (o p : Nat) : Prop := ∃ e ∈ tr, ∃ t k i, e.2.2 = .began o p t k i

/-- Kind and instance of the task of a process. -/
def made : Trace → Nat → Option (Kind × Nat)
  | [], _ => none
  | (_, _, .began _ p' _ k i) :: tr, p => if p' = p then some (k, i) else made tr p
  | _ :: tr, p => made tr p

/-- END or RESTART if the process answered an interrupt so and has not got over it. -/
def closing : Trace → Nat → Option Action
  | [], _ => none
  | (_, _, .answered p' a) :: tr, p => if p' = p ∧ a ≠ .ignore then some a else closing tr p
  | (_, _, .restarted p') :: tr, p => if p' = p then none else closing tr p
  | (_, _, .finished p') :: tr, p => if p' = p then none else closing tr p
  | _ :: tr, p => closing tr p

/-- The process whose `on_interrupt` is being asked. -/
def handling : Trace → Option Nat
  | [] => none
  | (_, .call _, _) :: tr => handling tr
  | (_, _, .impossible) :: tr => handling tr
  | (_, _, .called _ p _) :: _ => some p
  | _ :: _ => none

/-- The names of the networks in the order in which they were added. -/
def names : Trace → List String
  | [] => []
  | (_, .call (.addNet n _), .added _) :: tr => names tr ++ [n]
  | (_, .call (.delNet n), .queued .done) :: tr => (names tr).filter (fun m => m ≠ n)
  | _ :: tr => names tr

/-- The interrupts issued, with their times, numbers, processes and causes, in order. -/
def issued : Trace → List (Rat × Nat × Nat × Nat)
  | [] => []
  | (τ, _, .issued k p c) :: tr => issued tr ++ [(τ, k, p, c)]
  | _ :: tr => issued tr

/-- The interrupts that arrived: `on_interrupt` was called, or the process was over. -/
def arrived : Trace → List (Rat × Nat × Nat × Nat)
  | [] => []
  | (τ, _, .called k p c) :: tr => arrived tr ++ [(τ, k, p, c)]
  | (τ, _, .dropped k p c) :: tr => arrived tr ++ [(τ, k, p, c)]
  | _ :: tr => arrived tr

/-- Marker, time and action of instance `i`: those of the last call since the instance was made. -/
def mark : Trace → Nat → Inst
  | [], _ => ⟨none, none, .end_⟩
  | (τ, .call (.setMarker j m a), .done) :: tr, i => if j = i then ⟨some m, some τ, a⟩ else mark tr i
  | (_, .call (.clearMarker j), .done) :: tr, i => if j = i then ⟨none, none, .end_⟩ else mark tr i
  | (_, _, .began _ _ _ _ j) :: tr, i => if j = i then ⟨none, none, .end_⟩ else mark tr i
  | (_, _, .decides _ _ j) :: tr, i => if j = i then ⟨none, none, .end_⟩ else mark tr i
  | _ :: tr, i => mark tr i

/-- The loops started on network object `o`. -/
def loops : Trace → Nat → Nat
  | [], _ => 0
  | (_, _, .loop o' _) :: tr, o => if o' = o then loops tr o + 1 else loops tr o
  | _ :: tr, o => loops tr o

/-- Processes and instances in the order in which they were made, the latest first. -/
def procs : Trace → List Nat
  | [] => []
  | (_, _, .began _ p _ _ _) :: tr => p :: procs tr
  | _ :: tr => procs tr

def insts : Trace → List Nat
  | [] => []
  | (_, _, .began _ _ _ _ i) :: tr => i :: insts tr
  | (_, _, .decides _ _ i) :: tr => i :: insts tr
  | _ :: tr => insts tr

end Verif.Running.Spec
