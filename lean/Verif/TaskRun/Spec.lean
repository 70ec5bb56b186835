import Verif.TaskRun.Model

/-!
# What a task program may rely on (C27), stated on traces only

`Exp` is what an observer who sees only the trace expects: which user code runs next and with which value. It knows
nothing of the machine's state.
-/

namespace Verif.TaskRun

variable {V M : Type}

/-- `stack`: the code in progress, innermost first; `pend`: the value the innermost code is to be resumed with;
`awaiting`: it waits for an event; `next`: how many generators were created. -/
structure Exp (V : Type) where
  stack : List Who
  pend : Option V
  awaiting : Bool
  next : Nat
  deriving DecidableEq, Repr

/-- What the observer expects after seeing an entry of the trace.
 * yielding an event or a process: waits for it; yielding a routine: that runs first, from its start;
 * returning `v`: the code below is resumed with `v`;
 * an event completing with `v`: the waiting code is resumed with `v`;
 * a cleaned-up interrupt: everything is dropped, on RESTART a new instance starts. -/
def expect (e : Exp V) : Op V M × Out V → Exp V
  | (.act (.event _), .user _ _) => { e with awaiting := true }
  | (.act (.process _), .user _ _) => { e with awaiting := true }
  | (.act .routine, .user _ _) =>
    { e with stack := .routine e.next :: e.stack, pend := none, next := e.next + 1 }
  | (.act (.ret v), .user _ _) => { e with stack := e.stack.tail, pend := v }
  | (.fire v, _) => if e.awaiting then { e with awaiting := false, pend := v } else e
  | (.interrupt .end_ _ _, .cleaned) => { e with stack := [], awaiting := false }
  | (.interrupt .restart _ _, .cleaned) =>
    { stack := [.task e.next], pend := none, awaiting := false, next := e.next + 1 }
  | _ => e

/-- The entry is as expected for user code satisfying `p`: it is the innermost code, it is not waiting, and it gets
the pending value. -/
def AsExpected (p : Who → Bool) (e : Exp V) (x : Op V M × Out V) : Prop :=
  ∀ w v, x.2 = .user w v → e.awaiting = false ∧ e.stack.head? = some w ∧ (p w = true → v = e.pend)

/-- Every entry of the trace is as expected. -/
def Expected (p : Who → Bool) : Exp V → List (Op V M × Out V) → Prop
  | _, [] => True
  | e, x :: xs => AsExpected p e x ∧ Expected p (expect e x) xs

/-- At the start: the task's code, from its beginning. -/
def exp0 : Exp V := ⟨[.task 0], none, false, 1⟩

def Who.isTask : Who → Bool
  | .task _ => true
  | .routine _ => false

end Verif.TaskRun
