import Verif.TaskRun.Props
import Mathlib.Algebra.Order.Ring.Rat
import Mathlib.Tactic.Linarith

/-!
# C32: decision tasks and terminal tasks

Sources: `/repo/src/upstage_des/task.py`: `DecisionTask.run` 607-619, `run_skip` 621-629, `TerminalTask` 632-679.
-/

namespace Verif.TaskRun

variable {V M : Type}

/-! ## Terminal tasks: a program for the machine of `Verif.TaskRun.Model` -/

/-- The operation is one of a `TerminalTask`: its code yields one event that is not known to anybody else, and when
resumed raises unless the value is the planning factor object (`task.py:664-679`); `on_interrupt` raises
(`task.py:654-664`). -/
def terminal (planning : V → Bool) (s : St V M) : Op V M → Bool
  | .act a => match s.status, s.gens with
    | .running, g :: _ =>
      match g.started, a with
      | false, .event _ => true
      | true, .raise => !s.item.any planning
      | true, .ret none => s.item.any planning
      | _, _ => false
    | _, _ => true
  | .interrupt ans _ _ => match ans with
    | .raises => true
    | _ => false
  | _ => true

/-- Where a terminal task can be. -/
def AtEnd (planning : V → Bool) (s : St V M) : Prop :=
  ((s.status = .fresh ∨ s.status = .running) ∧ s.gens = [⟨.task 0, false⟩] ∧ s.item = none) ∨
  ((∃ e, s.status = .waiting (.ev e)) ∧ s.gens = [⟨.task 0, true⟩]) ∨
  (s.status = .running ∧ s.gens = [⟨.task 0, true⟩] ∧ s.item.any planning = false) ∨
  (∃ e, s.status = .crashed e)

/-- The event completes with something other than the planning factor object. -/
def noPlan (planning : V → Bool) : Op V M → Bool
  | .fire v => !v.any planning
  | _ => true

theorem atEnd_step (c : Cfg M) (planning : V → Bool) {s : St V M} (h : AtEnd planning s) (op : Op V M)
    (ht : terminal planning s op = true) (hp : noPlan planning op = true) : AtEnd planning (step c s op).1 := by
  rcases h with ⟨h, hg, hi⟩ | ⟨⟨e, h⟩, hg⟩ | ⟨h, hg, hi⟩ | ⟨e, h⟩
  · rcases h with h | h
    · cases op <;> simp only [step, h]
      case start => exact Or.inl ⟨Or.inr rfl, hg, hi⟩
      all_goals exact Or.inl ⟨Or.inl (by first | exact h | rfl), hg, hi⟩
    · cases op
      case act a =>
        cases a <;> simp [terminal, h, hg] at ht
        simp only [step, h, hg, advance, hi, Option.isSome_none, Bool.false_eq_true, and_false, if_false]
        exact Or.inr (Or.inl ⟨⟨_, rfl⟩, rfl⟩)
      all_goals simp only [step, h]
      all_goals exact Or.inl ⟨Or.inr (by first | exact h | rfl), hg, hi⟩
  · cases op
    case fire v =>
      simp only [step, h]
      simp only [noPlan, Bool.not_eq_true'] at hp
      exact Or.inr (Or.inr (Or.inl ⟨rfl, hg, hp⟩))
    case fail => simp only [step, h, crash]; exact Or.inr (Or.inr (Or.inr ⟨_, rfl⟩))
    case interrupt ans b d =>
      cases ans <;> simp [terminal] at ht
      simp only [step, h, crash]; exact Or.inr (Or.inr (Or.inr ⟨_, rfl⟩))
    all_goals simp only [step, h]
    all_goals exact Or.inr (Or.inl ⟨⟨e, by first | exact h | rfl⟩, hg⟩)
  · cases op
    case act a =>
      cases a
      case raise =>
        simp only [step, h, hg, advance, Bool.true_eq_false, false_and, if_false]
        exact Or.inr (Or.inr (Or.inr ⟨_, rfl⟩))
      case ret v => cases v <;> simp [terminal, h, hg, hi] at ht
      all_goals simp [terminal, h, hg] at ht
    all_goals simp only [step, h]
    all_goals exact Or.inr (Or.inr (Or.inl ⟨by first | exact h | rfl, hg, hi⟩))
  · cases op <;> simp only [step, h] <;> exact Or.inr (Or.inr (Or.inr ⟨e, by first | exact h | rfl⟩))

/-- **C32 (terminal tasks).** In every run of a terminal task (whose event is never completed with the planning factor
object): it never completes, so the network never goes on to another task; and once it waits, any interrupt fails the
process, and if its event completes, the process fails as soon as the task's code runs. -/
theorem c32_terminal (c : Cfg M) (planning : V → Bool) (a : Active.St) (m : Mimic.St M)
    (k : Dict Nat (Option Nat)) (ops : List (Op V M))
    (ht : along (terminal planning) c (init a m k) ops = true) (hp : ∀ op ∈ ops, noPlan planning op = true) :
    let s := (run c (init a m k) ops).1
    s.status ≠ .done ∧
    (∀ t ord ok, s.status = .waiting t → ∃ e, (step c s (.interrupt .raises ord ok)).2 = .crash e ∧
      (step c s (.interrupt .raises ord ok)).1.status = .crashed e) ∧
    (∀ t v act, s.status = .waiting t → noPlan planning (.fire v : Op V M) = true →
      terminal planning (step c s (.fire v)).1 (.act act) = true →
      (step c (step c s (.fire v)).1 (.act act)).1.status = .crashed .user) := by
  have hmain : ∀ (ops : List (Op V M)) (s : St V M), AtEnd planning s → along (terminal planning) c s ops = true →
      (∀ op ∈ ops, noPlan planning op = true) → AtEnd planning (run c s ops).1 := by
    intro ops
    induction ops with
    | nil => intro s h _ _; exact h
    | cons op ops ih =>
      intro s h ht hp
      simp only [along, Bool.and_eq_true] at ht
      exact ih _ (atEnd_step c planning h op ht.1 (hp op (by simp))) ht.2
        (fun o ho => hp o (List.mem_cons_of_mem _ ho))
  have h := hmain ops _ (Or.inl ⟨Or.inl rfl, rfl, rfl⟩) ht hp
  intro s
  refine ⟨?_, ?_, ?_⟩
  · intro hd
    change AtEnd planning s at h
    rcases h with ⟨h | h, -⟩ | ⟨⟨e, h⟩, -⟩ | ⟨h, -⟩ | ⟨e, h⟩ <;> rw [hd] at h <;> cases h
  · intro t ord ok hw
    simp only [step, hw, crash]
    exact ⟨_, rfl, rfl⟩
  · intro t v act hw hv hta
    change AtEnd planning s at h
    rcases h with ⟨h | h, -⟩ | ⟨⟨e, h⟩, hg⟩ | ⟨h, -⟩ | ⟨e, h⟩
    · rw [h] at hw; cases hw
    · rw [h] at hw; cases hw
    · simp only [noPlan, Bool.not_eq_true'] at hv
      simp only [step, h] at hta ⊢
      cases act
      case raise => simp [hg, advance]
      case ret x => cases x <;> simp [terminal, hg, hv] at hta
      all_goals simp [terminal, hg] at hta
    · rw [h] at hw; cases hw
    · rw [h] at hw; cases hw

example : along (terminal (fun v => decide (v = (100 : Int)))) demo begin_
      [.start, .act (.event 1), .states (.advance 3), .fire (some 7), .act .raise] = true ∧
    (∀ op ∈ ([.start, .act (.event 1), .states (.advance 3), .fire (some 7), .act .raise] : List (Op Int Int)),
      noPlan (fun v => decide (v = (100 : Int))) op = true) ∧
    (run demo begin_ [.start, .act (.event 1), .states (.advance 3)]).1.status = .waiting (.ev 1) ∧
    (run demo begin_ [.start, .act (.event 1), .states (.advance 3), .fire (some 7), .act .raise]).1.status =
      .crashed .user := by decide +kernel

end Verif.TaskRun

/-! ## Decision tasks -/

namespace Verif.Decision

/-- Where the process of a `DecisionTask` is; `waiting due`: at the `timeout(0.0)` (`task.py:616`). -/
inductive Phase where
  | fresh
  | waiting (due : Rat)
  | done
  | crashed
  deriving DecidableEq, Repr

/-- The clock, the process, and the times at which `make_decision` was called. -/
structure St where
  now : Rat
  phase : Phase
  made : List Rat
  deriving DecidableEq, Repr

inductive Op where
  | start
  | timeout
  | interrupt
  | advance (dt : Rat)
  deriving DecidableEq, Repr

/-- `DecisionTask.run` (`task.py:607-619`) under the SimPy kernel: a process starts, and a timeout is processed, before
the clock moves past it. Nothing in `run` catches an interrupt. The decision itself is not modelled. -/
def step (s : St) : Op → St
  | .start => match s.phase with
    | .fresh => { s with phase := .waiting (s.now + 0), made := s.made ++ [s.now] }
    | _ => s
  | .timeout => match s.phase with
    | .waiting due => if s.now = due then { s with phase := .done } else s
    | _ => s
  | .interrupt => match s.phase with
    | .waiting _ => { s with phase := .crashed }
    | _ => s
  | .advance dt => match s.phase with
    | .fresh => s
    | .waiting due => if 0 ≤ dt ∧ s.now + dt ≤ due then { s with now := s.now + dt } else s
    | _ => if 0 ≤ dt then { s with now := s.now + dt } else s

def run (s : St) : List Op → St
  | [] => s
  | op :: ops => run (step s op) ops

/-- The process has just been created. -/
def init (t0 : Rat) : St := ⟨t0, .fresh, []⟩

/-- **C32 (decision tasks).** However a decision task is scheduled and interrupted: the decision is made at most once,
at the instant the task was created, it has been made whenever the task is interrupted or over, and until the task
is over the clock does not move. -/
theorem c32_decision (t0 : Rat) (ops : List Op) :
    let s := run (init t0) ops
    (s.phase = .fresh ∧ s.made = [] ∨ s.phase ≠ .fresh ∧ s.made = [t0]) ∧
    (s.phase ≠ .done → s.phase ≠ .crashed → s.now = t0) ∧
    ∀ op, (step s op).phase = .done → s.phase ≠ .done → (step s op).now = t0 := by
  have hinv : ∀ (ops : List Op) (s : St),
      ((s.phase = .fresh ∧ s.made = [] ∧ s.now = t0) ∨ (s.phase = .waiting t0 ∧ s.made = [t0] ∧ s.now = t0) ∨
        ((s.phase = .done ∨ s.phase = .crashed) ∧ s.made = [t0])) →
      let s := run s ops
      ((s.phase = .fresh ∧ s.made = [] ∧ s.now = t0) ∨ (s.phase = .waiting t0 ∧ s.made = [t0] ∧ s.now = t0) ∨
        ((s.phase = .done ∨ s.phase = .crashed) ∧ s.made = [t0])) := by
    intro ops
    induction ops with
    | nil => intro s h; exact h
    | cons op ops ih =>
      intro s h
      apply ih
      rcases h with ⟨h1, h2, h3⟩ | ⟨h1, h2, h3⟩ | ⟨h1 | h1, h2⟩
      · cases op <;> simp [step, h1, h2, h3]
      · cases op with
        | advance dt =>
          simp only [step, h1]
          split
          · rename_i h
            right; left
            refine ⟨rfl, h2, ?_⟩
            simp only
            rw [h3] at h ⊢
            have : dt = 0 := by linarith [h.1, h.2]
            simp [this]
          · exact Or.inr (Or.inl ⟨h1, h2, h3⟩)
        | _ => simp [step, h1, h2, h3]
      · cases op with
        | advance dt => simp only [step, h1]; split <;> exact Or.inr (Or.inr ⟨Or.inl (by first | exact h1 | rfl), h2⟩)
        | _ => simp [step, h1, h2]
      · cases op with
        | advance dt => simp only [step, h1]; split <;> exact Or.inr (Or.inr ⟨Or.inr (by first | exact h1 | rfl), h2⟩)
        | _ => simp [step, h1, h2]
  have h := hinv ops (init t0) (Or.inl ⟨rfl, rfl, rfl⟩)
  simp only at h
  generalize run (init t0) ops = s at h
  refine ⟨?_, ?_, ?_⟩
  · rcases h with ⟨h1, h2, h3⟩ | ⟨h1, h2, h3⟩ | ⟨h1 | h1, h2⟩ <;> simp [h1, h2]
  · rcases h with ⟨h1, h2, h3⟩ | ⟨h1, h2, h3⟩ | ⟨h1 | h1, h2⟩ <;> simp_all
  · intro op hd hn
    rcases h with ⟨h1, h2, h3⟩ | ⟨h1, h2, h3⟩ | ⟨h1 | h1, h2⟩
    · cases op <;> simp [step, h1] at hd
    · cases op with
      | timeout => simp [step, h1, h3]
      | advance dt =>
        simp only [step, h1] at hd
        split at hd <;> simp [h1] at hd
      | _ => simp [step, h1] at hd
    · exact absurd h1 hn
    · cases op with
      | advance dt =>
        simp only [step, h1] at hd
        split at hd <;> simp [h1] at hd
      | _ => simp [step, h1] at hd

example : run (init 3) [.start, .timeout, .advance 4, .interrupt] = ⟨7, .done, [3]⟩ := by decide +kernel

/-- **C32 is false of the code**: a decision task that is interrupted in the instant it runs fails (nothing handles the
interrupt), so the simulation stops although the decision was made. -/
theorem c32_decision_interrupted : run (init 3) [.start, .interrupt] = ⟨3, .crashed, [3]⟩ := by decide +kernel

end Verif.Decision
