import Verif.TaskRun.Spec
import Verif.Active.Props
import Verif.Mimic.Props

/-!
# C26, C27 and C32 (terminal tasks): theorems about `Task.run`
-/

namespace Verif.TaskRun

variable {V M : Type}

/-! ## C27: values -/

/-- A condition at every step of a run. -/
def along (p : St V M → Op V M → Bool) (c : Cfg M) (s : St V M) : List (Op V M) → Bool
  | [] => true
  | op :: ops => p s op && along p c (step c s op).1 ops

/-- The value returned by a routine arrives unless the routine returns `None` after an event with another value. -/
def retGuard (s : St V M) : Op V M → Bool
  | .act (.ret none) => match s.status, s.gens with
    | .running, _ :: _ :: _ => s.item.isNone
    | _, _ => true
  | _ => true

/-- The routine that is to run gets no value but `None`. -/
def routineGuard (s : St V M) : Op V M → Bool
  | .act _ => match s.status, s.gens with
    | .running, g :: _ => g.who.isTask || s.item.isNone
    | _, _ => true
  | _ => true

/-- The task does not yield routines. -/
def noRoutine : Op V M → Bool
  | .act .routine => false
  | _ => true

/-- Relation between the machine and the observer. -/
structure Sim (s : St V M) (e : Exp V) : Prop where
  run : (s.status = .running ∨ s.status = .fresh) → e.awaiting = false ∧ e.stack = s.gens.map (·.who) ∧
    e.next = s.next ∧
    ((s.item = e.pend) ∨ (e.pend = none ∧ ∃ g gs, s.gens = g :: gs ∧ g.started = false))
  wait : ∀ t, s.status = .waiting t → e.awaiting = true ∧ e.stack = s.gens.map (·.who) ∧ e.next = s.next ∧
    ∃ g gs, s.gens = g :: gs ∧ g.started = true
  canc : ∀ w rest again, (s.status = .cancelling w rest again ∨ s.status = .cancelWait w rest again) →
    e.awaiting = false ∧
    (again = true → e.stack = [.task s.next] ∧ e.pend = none ∧ e.next = s.next + 1)

theorem unwind_sim {s : St V M} {e : Exp V} {again : Bool} (l : List Gen) (ha : e.awaiting = false)
    (h : again = true → e.stack = [.task s.next] ∧ e.pend = none ∧ e.next = s.next + 1) :
    Sim (unwind s again l) e := by
  induction l with
  | nil =>
    unfold unwind
    split
    · rename_i hb
      obtain ⟨h1, h2, h3⟩ := h hb
      constructor
      · intro _
        exact ⟨ha, by simp [h1], by simp [h3], Or.inl (by simp [h2])⟩
      · intro t ht; simp at ht
      · intro w r a hw; simp at hw
    · constructor <;> simp
  | cons g gs ih =>
    unfold unwind
    split
    · exact ih
    · constructor
      · simp
      · simp
      · intro w r a hw
        simp only [Status.cancelling.injEq, reduceCtorEq, or_false] at hw
        obtain ⟨rfl, rfl, rfl⟩ := hw
        exact ⟨ha, h⟩

theorem Sim.crashed {s : St V M} {e : Exp V} {x : Err} (h : s.status = .crashed x) : Sim s e :=
  ⟨by simp [h], by simp [h], by simp [h]⟩

theorem Sim.done {s : St V M} {e : Exp V} (h : s.status = .done) : Sim s e :=
  ⟨by simp [h], by simp [h], by simp [h]⟩

/-- The clean-up ends in an unwinding or in a crash. -/
theorem cleanUp_cases (c : Cfg M) (s : St V M) (t : Tgt) (again : Bool) (ord : List Nat) (ok : Bool) :
      (∃ s1 : St V M, s1.next = s.next ∧ s1.gens = s.gens ∧ s1.item = s.item ∧ s1.cancelled = t :: s.cancelled ∧
      s1.know = unbind s.know t ∧
      cleanUp c s t again ord ok = (unwind s1 again s.gens, .cleaned)) ∨
    (∃ s1 : St V M, s1.gens = s.gens ∧ s1.next = s.next ∧ cleanUp c s t again ord ok = crash s1 .cleanUp) := by
  unfold cleanUp
  split
  · split
    · simp only
      split
      · left; refine ⟨_, ?_, ?_, ?_, ?_, ?_, rfl⟩ <;> rfl
      · right; refine ⟨_, ?_, ?_, rfl⟩ <;> rfl
    · right; refine ⟨_, ?_, ?_, rfl⟩ <;> rfl
  · right; refine ⟨_, ?_, ?_, rfl⟩ <;> rfl

theorem sim_step {c : Cfg M} {s : St V M} {e : Exp V} (h : Sim s e) (op : Op V M) (p : Who → Bool)
    (hret : retGuard s op = true) (hp : (∀ w, p w = true → w.isTask = true) ∨ routineGuard s op = true) :
    AsExpected p e (op, (step c s op).2) ∧ Sim (step c s op).1 (expect e (op, (step c s op).2)) := by
  cases op with
  | start =>
    cases hs : s.status <;> simp only [step, hs] <;> refine ⟨by intro w v hw; simp at hw, ?_⟩
    all_goals try exact h
    have := h.run (Or.inr hs)
    exact ⟨fun _ => this, by simp, by simp⟩
  | states o =>
    refine ⟨by intro w v hw; simp [step] at hw, ?_⟩
    exact ⟨h.run, h.wait, h.canc⟩
  | mimics o =>
    refine ⟨by intro w v hw; simp [step] at hw, ?_⟩
    exact ⟨h.run, h.wait, h.canc⟩
  | learn n v =>
    refine ⟨by intro w v hw; simp [step] at hw, ?_⟩
    exact ⟨h.run, h.wait, h.canc⟩
  | forget n =>
    refine ⟨by intro w v hw; simp [step] at hw, ?_⟩
    exact ⟨h.run, h.wait, h.canc⟩
  | fail =>
    cases hs : s.status <;> simp only [step, hs, crash] <;> refine ⟨by intro w v hw; simp at hw, ?_⟩
    all_goals first | exact h | exact Sim.crashed rfl
  | fire v =>
    cases hs : s.status <;> simp only [step, hs] <;> refine ⟨by intro w v hw; simp at hw, ?_⟩
    case waiting t =>
      obtain ⟨h1, h2, h3, h4⟩ := h.wait t hs
      simp only [expect, h1, if_true]
      exact ⟨fun _ => ⟨rfl, h2, h3, Or.inl rfl⟩, by simp, by simp⟩
    case cancelWait w rest again =>
      obtain ⟨h1, h2⟩ := h.canc w rest again (Or.inr hs)
      simp only [expect, h1]
      refine ⟨by simp, by simp, ?_⟩
      intro w' r' a' hw
      simp only [Status.cancelling.injEq, reduceCtorEq, or_false] at hw
      obtain ⟨rfl, rfl, rfl⟩ := hw
      exact ⟨h1, h2⟩
    case running => 
      have := (h.run (Or.inl hs)).1
      simpa [expect, this] using h
    case fresh => 
      have := (h.run (Or.inr hs)).1
      simpa [expect, this] using h
    case cancelling w rest again => 
      have := (h.canc w rest again (Or.inl hs)).1
      simpa [expect, this] using h
    case done => exact Sim.done hs
    case crashed => exact Sim.crashed hs
  | interrupt ans ord ok =>
    cases hs : s.status
    case waiting t =>
      obtain ⟨h1, h2, h3, h4⟩ := h.wait t hs
      cases ans <;> simp only [step, hs, crash]
      case ignore => exact ⟨by intro w v hw; simp at hw, h⟩
      case none_ => exact ⟨by intro w v hw; simp at hw, Sim.crashed rfl⟩
      case other => exact ⟨by intro w v hw; simp at hw, Sim.crashed rfl⟩
      case raises => exact ⟨by intro w v hw; simp at hw, Sim.crashed rfl⟩
      case end_ =>
        rcases cleanUp_cases c s t false ord ok with ⟨s1, n1, g1, i1, -, -, hc⟩ | ⟨s1, g1, -, hc⟩
        · rw [hc]
          refine ⟨by intro w v hw; simp at hw, ?_⟩
          exact unwind_sim _ rfl (by simp)
        · rw [hc]
          exact ⟨by intro w v hw; simp [crash] at hw, Sim.crashed rfl⟩
      case restart =>
        rcases cleanUp_cases c s t true ord ok with ⟨s1, n1, g1, i1, -, -, hc⟩ | ⟨s1, g1, -, hc⟩
        · rw [hc]
          refine ⟨by intro w v hw; simp at hw, ?_⟩
          exact unwind_sim _ rfl (by simp [expect, n1, h3])
        · rw [hc]
          exact ⟨by intro w v hw; simp [crash] at hw, Sim.crashed rfl⟩
    case cancelWait w rest again =>
      simp only [step, hs, crash]
      exact ⟨by intro w v hw; simp at hw, Sim.crashed rfl⟩
    all_goals
      simp only [step, hs]
      refine ⟨by intro w v hw; simp at hw, ?_⟩
      cases ans <;> simpa [expect] using h
  | act a =>
    cases hs : s.status
    case cancelling w rest again =>
      have hc := h.canc w rest again (Or.inl hs)
      cases a <;> simp only [step, hs] <;> refine ⟨by intro w v hw; simp at hw, ?_⟩
      case event x =>
        refine ⟨by simp, by simp, ?_⟩
        intro w' r' a' hw
        simp only [Status.cancelWait.injEq, reduceCtorEq, false_or] at hw
        obtain ⟨rfl, rfl, rfl⟩ := hw
        exact hc
      case ret v => exact unwind_sim _ hc.1 hc.2
      all_goals exact Sim.crashed rfl
    case running =>
      obtain ⟨h1, h2, h3, h4⟩ := h.run (Or.inl hs)
      cases hg : s.gens with
      | nil =>
        simp only [step, hs, hg]
        refine ⟨by intro w v hw; simp at hw, ?_⟩
        cases a <;> simpa [expect] using h
      | cons g gs =>
        simp only [step, hs, hg]
        rw [hg, List.map_cons] at h2
        unfold advance
        split
        · exact ⟨by intro w v hw; simp [crash] at hw, Sim.crashed rfl⟩
        · rename_i hst
          have hpend : s.item = e.pend := by
            rcases h4 with h4 | ⟨h4, g', gs', h5, h6⟩
            · exact h4
            · rw [hg] at h5
              obtain ⟨rfl, rfl⟩ := List.cons.inj h5
              cases hi : s.item with
              | none => exact h4.symm
              | some v => exact absurd ⟨h6, by simp [hi]⟩ hst
          have hfin : ∀ (v : Option V) (w : Who) (x : Option V), retGuard s (Op.act (.ret v)) = true →
              Sim (if gs = [] then
                    (({ s with gens := [], item := if v.isSome then v else s.item, status := .done } : St V M),
                      Out.user w x)
                  else ({ s with gens := gs, item := if v.isSome then v else s.item }, Out.user w x)).1
                (expect e (Op.act (M := M) (.ret v), Out.user w x)) := by
            intro v w x hr
            split
            · exact Sim.done rfl
            · rename_i hne
              refine ⟨fun _ => ?_, by simp [hs], by simp [hs]⟩
              refine ⟨h1, by simp [expect, h2], h3, Or.inl ?_⟩
              cases v with
              | some y => simp [expect]
              | none =>
                cases gs with
                | nil => exact absurd rfl hne
                | cons g2 gs2 =>
                  simp only [retGuard, hs, hg] at hr
                  simpa [expect] using hr
          have hout : ∀ (v : Option V) (w : Who) (x : Option V),
              (if gs = [] then
                    (({ s with gens := [], item := if v.isSome then v else s.item, status := .done } : St V M),
                      Out.user w x)
                  else ({ s with gens := gs, item := if v.isSome then v else s.item }, Out.user w x)).2 =
                Out.user w x := by
            intro v w x; split <;> rfl
          cases hw : g.who with
          | task k =>
            rw [hw] at h2
            have hexp : ∀ a : Act V, AsExpected p e (Op.act (M := M) a, Out.user (.task k) s.item) := by
              intro a w v hwv
              simp only [Out.user.injEq] at hwv
              obtain ⟨rfl, rfl⟩ := hwv
              exact ⟨h1, by simp [h2], fun _ => hpend⟩
            cases a with
            | event x =>
              refine ⟨hexp _, ⟨by simp, ?_, by simp⟩⟩
              intro t _
              exact ⟨rfl, by simp [expect, h2, hw], h3, _, _, rfl, rfl⟩
            | process x =>
              refine ⟨hexp _, ⟨by simp, ?_, by simp⟩⟩
              intro t _
              exact ⟨rfl, by simp [expect, h2, hw], h3, _, _, rfl, rfl⟩
            | routine =>
              refine ⟨hexp _, ⟨?_, by simp [hs], by simp [hs]⟩⟩
              intro _
              exact ⟨h1, by simp [expect, h2, hw, h3], by simp [expect, h3], Or.inr ⟨rfl, _, _, rfl, rfl⟩⟩
            | other => exact ⟨hexp _, Sim.crashed rfl⟩
            | raise => exact ⟨hexp _, Sim.crashed rfl⟩
            | ret v => simp only [hout]; exact ⟨hexp _, hfin v _ _ hret⟩
          | routine k =>
            rw [hw] at h2
            have hexp : ∀ a' : Act V, a' = a → AsExpected p e (Op.act (M := M) a', Out.user (.routine k) none) := by
              rintro a' rfl w v hwv
              simp only [Out.user.injEq] at hwv
              obtain ⟨rfl, rfl⟩ := hwv
              refine ⟨h1, by simp [h2], fun hpw => ?_⟩
              rcases hp with hp | hp
              · exact absurd (hp _ hpw) (by simp [Who.isTask])
              · simp only [routineGuard, hs, hg, hw, Who.isTask, Bool.false_or] at hp
                rw [← hpend]
                exact (Option.isNone_iff_eq_none.mp hp).symm
            cases a with
            | event x =>
              refine ⟨hexp _ rfl, ⟨by simp, ?_, by simp⟩⟩
              intro t _
              exact ⟨rfl, by simp [expect, h2, hw], h3, _, _, rfl, rfl⟩
            | process x => exact ⟨hexp _ rfl, Sim.crashed rfl⟩
            | routine => exact ⟨hexp _ rfl, Sim.crashed rfl⟩
            | other => exact ⟨hexp _ rfl, Sim.crashed rfl⟩
            | raise => exact ⟨hexp _ rfl, Sim.crashed rfl⟩
            | ret v => simp only [hout]; exact ⟨hexp _ rfl, hfin v _ _ hret⟩
    all_goals
      simp only [step, hs]
      refine ⟨by intro w v hw; simp at hw, ?_⟩
      cases a <;> simpa [expect] using h

theorem sim_run {c : Cfg M} {s : St V M} {e : Exp V} (h : Sim s e) (ops : List (Op V M)) (p : Who → Bool)
    (hret : along retGuard c s ops = true)
    (hp : (∀ w, p w = true → w.isTask = true) ∨ along routineGuard c s ops = true) :
    Expected p e (run c s ops).2 := by
  induction ops generalizing s e with
  | nil => exact trivial
  | cons op ops ih =>
    simp only [along, Bool.and_eq_true] at hret
    have hp1 : (∀ w, p w = true → w.isTask = true) ∨ routineGuard s op = true := by
      rcases hp with hp | hp
      · exact Or.inl hp
      · simp only [along, Bool.and_eq_true] at hp; exact Or.inr hp.1
    have hp2 : (∀ w, p w = true → w.isTask = true) ∨ along routineGuard c (step c s op).1 ops = true := by
      rcases hp with hp | hp
      · exact Or.inl hp
      · simp only [along, Bool.and_eq_true] at hp; exact Or.inr hp.2
    obtain ⟨h1, h2⟩ := sim_step (c := c) h op p hret.1 hp1
    exact ⟨h1, ih h2 hret.2 hp2⟩

theorem sim_init (a : Active.St) (m : Mimic.St M) (k : Dict Nat (Option Nat)) :
    Sim (init a m k : St V M) exp0 :=
  ⟨fun _ => ⟨rfl, rfl, rfl, Or.inl rfl⟩, by simp [init], by simp [init]⟩

/-- **C27, the part that holds for tasks.** Whatever the task and its routines do and however often it is interrupted:
code runs innermost first; nothing runs while an event is awaited; and the task's code is resumed, once per event,
with exactly the value of the event, and after a routine with the value the routine returned, provided no routine
returns `None` after an event with another value. Missing: that case, see `c27_none_lost`. -/
theorem c27_task_values_partial (c : Cfg M) (a : Active.St) (m : Mimic.St M) (k : Dict Nat (Option Nat))
    (ops : List (Op V M)) (hg : along retGuard c (init a m k) ops = true) :
    Expected Who.isTask exp0 (run c (init a m k) ops).2 :=
  sim_run (sim_init a m k) ops _ hg (Or.inl fun _ h => h)

/-- **C27, the part that holds for tasks and routines.** The same for the code of routines as well, as long as the
events a routine waits for (and the one before it) give `None`. Missing: other values, see
`c27_routine_gets_nothing` and `c27_routine_after_value`. -/
theorem c27_values_partial (c : Cfg M) (a : Active.St) (m : Mimic.St M) (k : Dict Nat (Option Nat))
    (ops : List (Op V M)) (hg : along routineGuard c (init a m k) ops = true)
    (hr : along retGuard c (init a m k) ops = true) :
    Expected (fun _ => true) exp0 (run c (init a m k) ops).2 :=
  sim_run (sim_init a m k) ops _ hr (Or.inr hg)

/-- Only the task's own generator is in use. -/
def Only (s : St V M) : Prop :=
  (s.gens = [] ∨ ∃ k b, s.gens = [⟨.task k, b⟩]) ∧ ∀ w rest again, s.status ≠ .cancelling w rest again ∧
    s.status ≠ .cancelWait w rest again

theorem only_unwind (s : St V M) (again : Bool) {l : List Gen} (hl : l = [] ∨ ∃ k b, l = [⟨.task k, b⟩]) :
    Only (unwind s again l) := by
  have h0 : Only (unwind s again []) := by
    unfold unwind
    split
    · exact ⟨Or.inr ⟨_, _, rfl⟩, by simp⟩
    · exact ⟨Or.inl rfl, by simp⟩
  rcases hl with rfl | ⟨k, b, rfl⟩
  · exact h0
  · simpa only [unwind] using h0

theorem only_step (c : Cfg M) (s : St V M) (op : Op V M) (hn : noRoutine op = true) (h : Only s) :
    Only (step c s op).1 := by
  obtain ⟨h1, h2⟩ := h
  cases op with
  | start => cases hs : s.status <;> simp only [step, hs] <;> exact ⟨h1, by simpa [hs] using h2⟩
  | states o => exact ⟨h1, h2⟩
  | mimics o => exact ⟨h1, h2⟩
  | learn n v => exact ⟨h1, h2⟩
  | forget n => exact ⟨h1, h2⟩
  | fail => cases hs : s.status <;> simp only [step, hs, crash] <;> exact ⟨h1, by simpa [hs] using h2⟩
  | fire v => cases hs : s.status <;> simp only [step, hs] <;> exact ⟨h1, by simpa [hs] using h2⟩
  | interrupt ans ord ok =>
    cases hs : s.status
    case waiting t =>
      cases ans <;> simp only [step, hs, crash]
      case end_ =>
        rcases cleanUp_cases c s t false ord ok with ⟨s1, n1, g1, i1, -, -, hc⟩ | ⟨s1, g1, -, hc⟩
        · rw [hc]; exact only_unwind _ _ h1
        · rw [hc]; exact ⟨by simpa [crash, g1] using h1, by simp [crash]⟩
      case restart =>
        rcases cleanUp_cases c s t true ord ok with ⟨s1, n1, g1, i1, -, -, hc⟩ | ⟨s1, g1, -, hc⟩
        · rw [hc]; exact only_unwind _ _ h1
        · rw [hc]; exact ⟨by simpa [crash, g1] using h1, by simp [crash]⟩
      all_goals exact ⟨h1, by simpa [hs] using h2⟩
    all_goals simp only [step, hs, crash]
    all_goals exact ⟨h1, by simpa [hs] using h2⟩
  | act a =>
    cases hs : s.status
    case cancelling w rest again => exact absurd hs (h2 _ _ _).1
    case running =>
      rcases h1 with hg | ⟨k, b, hg⟩
      · simp only [step, hs, hg]; exact ⟨Or.inl hg, by simp [hs]⟩
      · simp only [step, hs, hg]
        unfold advance
        split
        · exact ⟨Or.inr ⟨k, b, hg⟩, by simp [crash]⟩
        · cases a <;> simp only [if_true]
          case routine => simp [noRoutine] at hn
          case ret v => exact ⟨Or.inl rfl, by simp⟩
          all_goals exact ⟨Or.inr ⟨_, _, rfl⟩, by simp⟩
    all_goals simp only [step, hs]; exact ⟨h1, by simpa [hs] using h2⟩

theorem only_guards (c : Cfg M) {s : St V M} (h : Only s) (ops : List (Op V M))
    (hn : ∀ op ∈ ops, noRoutine op = true) :
    along retGuard c s ops = true ∧ along routineGuard c s ops = true := by
  induction ops generalizing s with
  | nil => exact ⟨rfl, rfl⟩
  | cons op ops ih =>
    obtain ⟨i1, i2⟩ := ih (only_step c s op (hn op (by simp)) h) (fun o ho => hn o (List.mem_cons_of_mem _ ho))
    simp only [along, i1, i2, Bool.and_true]
    obtain ⟨hg, h2⟩ := h
    constructor
    · cases op with
      | act a =>
        cases a with
        | ret v =>
          cases v with
          | none => rcases hg with hg | ⟨k, b, hg⟩ <;> cases hs : s.status <;> simp [retGuard, hs, hg]
          | some v => rfl
        | _ => rfl
      | _ => rfl
    · cases op with
      | act a => rcases hg with hg | ⟨k, b, hg⟩ <;> cases hs : s.status <;> simp [routineGuard, hs, hg, Who.isTask]
      | _ => rfl

/-- **C27 for tasks that use no routines, in full.** Each resumption of the task's code gets exactly the value of the
event it waited for, whatever the task does and however it is interrupted. -/
theorem c27_no_routines (c : Cfg M) (a : Active.St) (m : Mimic.St M) (k : Dict Nat (Option Nat))
    (ops : List (Op V M)) (hn : ∀ op ∈ ops, noRoutine op = true) :
    Expected (fun _ => true) exp0 (run c (init a m k) ops).2 := by
  have h := only_guards c (s := init a m k) ⟨Or.inr ⟨_, _, rfl⟩, by simp [init]⟩ ops hn
  exact sim_run (sim_init a m k) ops _ h.1 (Or.inr h.2)

/-! Concrete runs -/

/-- Task 5 of actor 0; the actor's states as in the examples of `Verif.Active` and `Verif.Mimic`. -/
def demo : Cfg Int := ⟨5, 0, Active.demoCfg, Mimic.demo⟩

def begin_ : St Int Int := init (Active.init Active.demoCfg 0 Active.demoV) (Mimic.init 0) []

/-- What is observed. -/
def outs (ops : List (Op Int Int)) : List (Out Int) := (run demo begin_ ops).2.map (·.2)

/-- A task that waits for an event, runs a routine with two events, is interrupted on the way, waits again. -/
def demoOps : List (Op Int Int) :=
  [.start, .act (.event 1), .interrupt .ignore [] true, .fire none, .act .routine, .act (.event 2), .fire none,
    .act (.event 3), .fire none, .act (.ret (some 8)), .act (.event 4), .fire (some 9), .act (.ret none)]

example : along retGuard demo begin_ demoOps = true ∧ along routineGuard demo begin_ demoOps = true ∧
    outs demoOps = [.quiet, .user (.task 0) none, .ignored, .resumed, .user (.task 0) none, .user (.routine 1) none,
      .resumed, .user (.routine 1) none, .resumed, .user (.routine 1) none, .user (.task 0) (some 8), .resumed,
      .user (.task 0) (some 9)] ∧ (run demo begin_ demoOps).1.status = .done := by decide +kernel

example : (∀ op ∈ ([.start, .act (.event 1), .fire (some 3), .act (.process 2), .interrupt .restart [] true,
      .act (.event 1), .fire (some 4), .act (.ret none)] : List (Op Int Int)), noRoutine op = true) ∧
    outs [.start, .act (.event 1), .fire (some 3), .act (.process 2), .interrupt .restart [] true,
      .act (.event 1), .fire (some 4), .act (.ret none)] = [.quiet, .user (.task 0) none, .resumed,
      .user (.task 0) (some 3), .cleaned, .user (.task 1) none, .resumed, .user (.task 1) (some 4)] := by
  decide +kernel

/-- **C27 is false of the code (1)**: a routine that returns `None` gives the task the value of the routine's last
event instead. -/
theorem c27_none_lost :
    let ops : List (Op Int Int) := [.start, .act .routine, .act (.event 1), .fire (some 7), .act (.ret none),
      .act (.ret none)]
    outs ops = [.quiet, .user (.task 0) none, .user (.routine 1) none, .resumed, .user (.routine 1) none,
      .user (.task 0) (some 7)] ∧
    ¬ Expected Who.isTask exp0 (run demo begin_ ops).2 := by
  refine ⟨by decide +kernel, ?_⟩
  rintro ⟨-, -, -, -, -, h, -⟩
  have h' : some (7 : Int) = none := (h (.task 0) (some 7) rfl).2.2 rfl
  cases h'

/-- **C27 is false of the code (2)**: the code of a routine is never given the values of its events. -/
theorem c27_routine_gets_nothing :
    let ops : List (Op Int Int) := [.start, .act .routine, .act (.event 1), .fire (some 7), .act (.ret (some 1))]
    outs ops = [.quiet, .user (.task 0) none, .user (.routine 1) none, .resumed, .user (.routine 1) none] ∧
    ¬ Expected (fun _ => true) exp0 (run demo begin_ ops).2 := by
  refine ⟨by decide +kernel, ?_⟩
  rintro ⟨-, -, -, -, h, -⟩
  have h' : none = some (7 : Int) := (h (.routine 1) none rfl).2.2 rfl
  cases h'

/-- **C27 is false of the code (3)**: a task that yields a routine right after an event with a value crashes: the
value is sent to the routine's generator, which has not started. -/
theorem c27_routine_after_value :
    outs [.start, .act (.event 1), .fire (some 4), .act .routine, .act (.event 2)] =
      [.quiet, .user (.task 0) none, .resumed, .user (.task 0) (some 4), .crash .typeError] := by decide +kernel

/-- A routine cannot yield another routine: the process crashes (`routines.py:50-51`). -/
theorem c27_nested_routine_crashes :
    (run demo begin_ [.start, .act .routine, .act .routine]).1.status = .crashed .badYield := by decide +kernel

/-! ## C26: interrupts -/

theorem run_append (c : Cfg M) (s : St V M) (l₁ l₂ : List (Op V M)) :
    run c s (l₁ ++ l₂) = ((run c (run c s l₁).1 l₂).1, (run c s l₁).2 ++ (run c (run c s l₁).1 l₂).2) := by
  induction l₁ generalizing s with
  | nil => rfl
  | cons op ops ih => simp only [List.cons_append, run, ih]

/-- **C26 (IGNORE).** An interrupt of a waiting task whose answer is IGNORE makes no difference: the state is the
same, so all that follows is the same as without it. -/
theorem c26_ignore (c : Cfg M) (s : St V M) (t : Tgt) (ord : List Nat) (ok : Bool) (before after : List (Op V M))
    (hw : (run c s before).1.status = .waiting t) :
    (run c s (before ++ .interrupt .ignore ord ok :: after)).1 = (run c s (before ++ after)).1 ∧
    (run c s (before ++ .interrupt .ignore ord ok :: after)).2 =
      (run c s before).2 ++ (.interrupt .ignore ord ok, .ignored) :: (run c (run c s before).1 after).2 ∧
    (run c s (before ++ after)).2 = (run c s before).2 ++ (run c (run c s before).1 after).2 := by
  simp only [run_append, run]
  have : step c (run c s before).1 (.interrupt .ignore ord ok) = ((run c s before).1, .ignored) := by
    simp only [step, hw]
  rw [this]
  exact ⟨rfl, rfl, trivial⟩

example : (run demo begin_ [.start, .act (.event 1)]).1.status = .waiting (.ev 1) ∧
    outs ([.start, .act (.event 1)] ++ .interrupt .ignore [] true :: [.fire (some 2), .act (.ret none)]) =
      [.quiet, .user (.task 0) none, .ignored, .resumed, .user (.task 0) (some 2)] := by decide +kernel

/-- The calls on the actor's active states during a step. -/
def stepActs (c : Cfg M) (s : St V M) : Op V M → List Active.Op
  | .states o => [o]
  | .interrupt ans ord _ => match s.status, ans with
    | .waiting _, .end_ | .waiting _, .restart => [.deactivateAll c.self ord]
    | _, _ => []
  | _ => []

/-- The calls on the actor's mimics during a step. -/
def stepMims (c : Cfg M) (s : St V M) : Op V M → List (Mimic.Op M)
  | .mimics o => [o]
  | .interrupt ans ord _ => match s.status, ans with
    | .waiting _, .end_ | .waiting _, .restart =>
      match (Active.step c.act s.act (.deactivateAll c.self ord)).2 with
      | .all _ false => [.deactivateAll c.me c.self]
      | _ => []
    | _, _ => []
  | _ => []

/-- All calls on the actor's active states during a run. -/
def actOps (c : Cfg M) (s : St V M) : List (Op V M) → List Active.Op
  | [] => []
  | op :: ops => stepActs c s op ++ actOps c (step c s op).1 ops

/-- All calls on the actor's mimics during a run. -/
def mimOps (c : Cfg M) (s : St V M) : List (Op V M) → List (Mimic.Op M)
  | [] => []
  | op :: ops => stepMims c s op ++ mimOps c (step c s op).1 ops

theorem unwind_rest (s : St V M) (again : Bool) (l : List Gen) :
    (unwind s again l).act = s.act ∧ (unwind s again l).mim = s.mim ∧ (unwind s again l).know = s.know ∧
    (unwind s again l).cancelled = s.cancelled := by
  induction l with
  | nil => unfold unwind; split <;> exact ⟨rfl, rfl, rfl, rfl⟩
  | cons g gs ih =>
    unfold unwind
    split
    · exact ih
    · exact ⟨rfl, rfl, rfl, rfl⟩

theorem advance_rest (s : St V M) (g : Gen) (gs : List Gen) (a : Act V) :
    (advance s g gs a).1.act = s.act ∧ (advance s g gs a).1.mim = s.mim ∧ (advance s g gs a).1.know = s.know ∧
    (advance s g gs a).1.cancelled = s.cancelled := by
  unfold advance
  split
  · exact ⟨rfl, rfl, rfl, rfl⟩
  · split
    · cases a <;> first | exact ⟨rfl, rfl, rfl, rfl⟩ | (simp only; split <;> exact ⟨rfl, rfl, rfl, rfl⟩)
    · cases a <;> first | exact ⟨rfl, rfl, rfl, rfl⟩ | (simp only; split <;> exact ⟨rfl, rfl, rfl, rfl⟩)

theorem cleanUp_act (c : Cfg M) (s : St V M) (t : Tgt) (again : Bool) (ord : List Nat) (ok : Bool) :
    (cleanUp c s t again ord ok).1.act = (Active.step c.act s.act (.deactivateAll c.self ord)).1 ∧
    (cleanUp c s t again ord ok).1.mim = Mimic.run c.mim s.mim
      (match (Active.step c.act s.act (.deactivateAll c.self ord)).2 with
        | .all _ false => [.deactivateAll c.me c.self]
        | _ => []) := by
  unfold cleanUp
  split
  · rename_i a d h1
    rw [h1]
    split
    · rename_i m h2
      simp only [Mimic.run, h2]
      split
      · simp only [unwind_rest, and_self]
      · simp only [crash, and_self]
    · rename_i m o hno h2
      simp only [Mimic.run, h2, crash, and_self]
  · rename_i a o hno h1
    rw [h1]
    refine ⟨rfl, ?_⟩
    cases o with
    | all d b =>
      cases b with
      | true => rfl
      | false => exact absurd rfl (hno d)
    | _ => rfl

theorem step_act (c : Cfg M) (s : St V M) (op : Op V M) :
    (step c s op).1.act = (Active.run c.act s.act (stepActs c s op)).1 ∧
    (step c s op).1.mim = Mimic.run c.mim s.mim (stepMims c s op) := by
  cases op with
  | start => cases hs : s.status <;> simp [step, hs, stepActs, stepMims, Active.run, Mimic.run]
  | states o => simp [step, stepActs, stepMims, Active.run, Mimic.run]
  | mimics o => simp [step, stepActs, stepMims, Active.run, Mimic.run]
  | learn n v => simp [step, stepActs, stepMims, Active.run, Mimic.run]
  | forget n => simp [step, stepActs, stepMims, Active.run, Mimic.run]
  | fail => cases hs : s.status <;> simp [step, hs, crash, stepActs, stepMims, Active.run, Mimic.run]
  | fire v => cases hs : s.status <;> simp [step, hs, stepActs, stepMims, Active.run, Mimic.run]
  | act a =>
    cases hs : s.status
    case running =>
      cases hg : s.gens with
      | nil => simp [step, hs, hg, stepActs, stepMims, Active.run, Mimic.run]
      | cons g gs => simp [step, hs, hg, advance_rest, stepActs, stepMims, Active.run, Mimic.run]
    case cancelling w rest again =>
      cases a <;> simp [step, hs, unwind_rest, stepActs, stepMims, Active.run, Mimic.run]
    all_goals simp [step, hs, stepActs, stepMims, Active.run, Mimic.run]
  | interrupt ans ord ok =>
    cases hs : s.status
    case waiting t =>
      cases ans
      case end_ =>
        simp only [step, hs, stepActs, stepMims, Active.run]
        exact cleanUp_act c s t false ord ok
      case restart =>
        simp only [step, hs, stepActs, stepMims, Active.run]
        exact cleanUp_act c s t true ord ok
      all_goals simp [step, hs, crash, stepActs, stepMims, Active.run, Mimic.run]
    all_goals cases ans <;> simp [step, hs, crash, stepActs, stepMims, Active.run, Mimic.run]

theorem active_run_append (c : Active.Cfg) (s : Active.St) (l₁ l₂ : List Active.Op) :
    (Active.run c s (l₁ ++ l₂)).1 = (Active.run c (Active.run c s l₁).1 l₂).1 := by
  induction l₁ generalizing s with
  | nil => rfl
  | cons op ops ih => simp only [List.cons_append, Active.run, ih]

theorem mimic_run_append (c : Mimic.Cfg M) (s : Mimic.St M) (l₁ l₂ : List (Mimic.Op M)) :
    Mimic.run c s (l₁ ++ l₂) = Mimic.run c (Mimic.run c s l₁) l₂ := by
  induction l₁ generalizing s with
  | nil => rfl
  | cons op ops ih => simp only [List.cons_append, Mimic.run, ih]

/-- The actor's states and mimics after a run are those after the calls made on them. -/
theorem run_act (c : Cfg M) (s : St V M) (ops : List (Op V M)) :
    (run c s ops).1.act = (Active.run c.act s.act (actOps c s ops)).1 ∧
    (run c s ops).1.mim = Mimic.run c.mim s.mim (mimOps c s ops) := by
  induction ops generalizing s with
  | nil => exact ⟨rfl, rfl⟩
  | cons op ops ih =>
    simp only [run, actOps, mimOps]
    rw [(ih _).1, (ih _).2, (step_act c s op).1, (step_act c s op).2, active_run_append, mimic_run_append]
    exact ⟨rfl, rfl⟩

theorem dict_get_filter {d : Dict Nat (Option Nat)} {e n : Nat} :
    (Dict.get? (d.filter (fun p => p.2 ≠ some e)) n ≠ some (some e)) := by
  intro h
  have := Dict.mem_of_get? h
  simp at this

theorem dict_get_filter_ne {d : Dict Nat (Option Nat)} {e n : Nat} (hwf : Dict.WF d)
    (h : Dict.get? d n ≠ some (some e)) :
    Dict.get? (d.filter (fun p => p.2 ≠ some e)) n = Dict.get? d n := by
  induction d with
  | nil => rfl
  | cons p d ih =>
    obtain ⟨k, v⟩ := p
    have hwf' : Dict.WF d := by
      unfold Dict.WF Dict.keys at hwf ⊢
      simp only [List.map_cons, List.nodup_cons] at hwf
      exact hwf.2
    by_cases hk : k = n
    · subst hk
      have hv : v ≠ some e := by
        intro hv; apply h; simp [Dict.get?, hv]
      simp [List.filter_cons, hv, Dict.get?]
    · have h' : Dict.get? d n ≠ some (some e) := by simpa [Dict.get?, hk] using h
      by_cases hv : v = some e
      · simp only [List.filter_cons, hv, ne_eq, not_true_eq_false, decide_false, Bool.false_eq_true, if_false]
        rw [ih hwf' h']
        simp [Dict.get?, hk]
      · simp only [List.filter_cons, hv, ne_eq, not_false_eq_true, decide_true, if_true]
        simp only [Dict.get?, hk, if_false]
        exact ih hwf' h'

/-- END or RESTART. -/
def Answer.stops : Answer → Bool
  | .end_ => true
  | .restart => true
  | _ => false

theorem step_stops (c : Cfg M) (s : St V M) (t : Tgt) (ans : Answer) (ord : List Nat) (ok : Bool)
    (hw : s.status = .waiting t) (ha : ans.stops = true) :
    step c s (.interrupt ans ord ok) = cleanUp c s t (decide (ans = .restart)) ord ok := by
  cases ans <;> simp [Answer.stops] at ha <;> simp [step, hw]

/-- What "cleaned up" means for the knowledge and the event. -/
theorem cleanUp_cleaned (c : Cfg M) (s : St V M) (t : Tgt) (again : Bool) (ord : List Nat) (ok : Bool)
    (h : (cleanUp c s t again ord ok).2 = .cleaned) :
    ∃ s1 : St V M, s1.gens = s.gens ∧ s1.next = s.next ∧ s1.item = s.item ∧ s1.cancelled = t :: s.cancelled ∧
      s1.know = unbind s.know t ∧
      cleanUp c s t again ord ok = (unwind s1 again s.gens, .cleaned) := by
  rcases cleanUp_cases c s t again ord ok with ⟨s1, n1, g1, i1, c1, k1, hc⟩ | ⟨s1, g1, -, hc⟩
  · exact ⟨s1, g1, n1, i1, c1, k1, hc⟩
  · rw [hc] at h; simp [crash] at h

/-- **C26 (END and RESTART), the knowledge and the event.** Whenever an interrupt was handled without an exception, the
awaited event has been cancelled (exactly it, and once), no knowledge name is bound to it any more, and every other
piece of knowledge is as before. -/
theorem c26_event_forgotten (c : Cfg M) (s : St V M) (t : Tgt) (ans : Answer) (ord : List Nat) (ok : Bool)
    (hw : s.status = .waiting t) (ha : ans.stops = true) (hk : Dict.WF s.know)
    (h : (step c s (.interrupt ans ord ok)).2 = .cleaned) :
    let s' := (step c s (.interrupt ans ord ok)).1
    s'.cancelled = t :: s.cancelled ∧
    (∀ e, t = .ev e → ∀ n, s'.know.get? n ≠ some (some e)) ∧
    (∀ n, (∀ e, t = .ev e → s.know.get? n ≠ some (some e)) → s'.know.get? n = s.know.get? n) := by
  rw [step_stops c s t ans ord ok hw ha] at h ⊢
  obtain ⟨s1, g1, n1, i1, c1, k1, h1⟩ := cleanUp_cleaned c s t _ ord ok h
  simp only [h1, (unwind_rest s1 _ s.gens).2.2.1, (unwind_rest s1 _ s.gens).2.2.2, c1, k1, true_and]
  constructor
  · rintro e rfl n
    exact dict_get_filter
  · intro n hn
    cases t with
    | proc p => rfl
    | ev e => exact dict_get_filter_ne hk (hn e rfl)

/-- **C26 (END and RESTART), the states; the part that holds.** Take any run of a task on a new actor in which
activations were well formed and, among tasks, only this one managed mimics on this actor. If the task is then
interrupted while waiting, answers END or RESTART, and cancelling the event does not raise, then the handling does not
raise, the task drives no state any more, and the actor mimics nothing any more. Missing: mimics of other tasks, see
`c26_foreign_mimic`, and events whose `cancel` raises. -/
theorem c26_states_released_partial (c : Cfg M) (t0 : Rat) (v : Nat → Option Rat) (know : Dict Nat (Option Nat))
    (ops : List (Op V M)) (t : Tgt) (ans : Answer) (ord : List Nat) (ha : ans.stops = true)
    (hwf : Active.wfRun c.act (Active.init c.act t0 v)
      (actOps c (init (Active.init c.act t0 v) (Mimic.init t0) know) ops) = true)
    (hone : ∀ op ∈ mimOps c (init (Active.init c.act t0 v) (Mimic.init t0) know) ops,
      ∀ u, Mimic.mimicTask c.me op = some u → u = c.self) :
    let s : St V M := (run c (init (Active.init c.act t0 v) (Mimic.init t0) know) ops).1
    s.status = .waiting t →
    (∀ n ∈ (s.mim.mimic c.me).keys, ∃ x, Mimic.Shows c.mim s.mim c.mim.depth c.me n x) →
    let r := step c s (.interrupt ans ord true)
    r.2 = .cleaned ∧ (∀ n, c.self ∉ r.1.act.tbs n) ∧ (∀ n, (r.1.mim.mimic c.me).get? n = none) := by
  intro s hw hread r
  obtain ⟨h1, h2⟩ := run_act c (init (Active.init c.act t0 v) (Mimic.init t0) know) ops
  obtain ⟨done, hd, -, hn⟩ := Active.c10_deactivate_all c.act t0 v _ c.self ord hwf
  have hm := Mimic.c17_end_all_partial c.mim t0 _ c.me c.self hone
  simp only [init] at h1 h2
  have hact : s.act = _ := h1
  have hmim : s.mim = _ := h2
  rw [hmim] at hread
  have hm := hm hread
  simp only at hd hn hm
  simp only [init] at hd hn hm hact hmim
  rw [← hact] at hd hn
  rw [← hmim] at hm
  have hcl : r = cleanUp c s t (decide (ans = .restart)) ord true := step_stops c s t ans ord true hw ha
  have hacts := cleanUp_act c s t (decide (ans = .restart)) ord true
  rw [← hcl] at hacts
  refine ⟨?_, ?_, ?_⟩
  · rw [hcl]
    unfold cleanUp
    generalize hA : Active.step c.act s.act (.deactivateAll c.self ord) = A at hd
    obtain ⟨A1, A2⟩ := A
    simp only at hd
    subst hd
    simp only
    generalize hB : Mimic.step c.mim s.mim (.deactivateAll c.me c.self) = B at hm
    obtain ⟨B1, B2⟩ := B
    obtain ⟨hb, -⟩ := hm
    simp only at hb
    subst hb
    rfl
  · intro n
    rw [hacts.1]
    exact hn n
  · intro n
    rw [hacts.2, hd]
    exact hm.2.1 n

/-- A task that drives state 0, keeps its event in knowledge under name 3 and mimics; then it is interrupted. -/
def demoBusy : List (Op Int Int) :=
  [.mimics (.set 0 3 7), .mimics (.set 1 2 5), .start, .states (.activate 0 5 (some 2)),
    .mimics (.activate 0 3 1 2 5), .learn 3 (some 1), .learn 4 (some 2), .act (.event 1)]

example : (run demo begin_ demoBusy).1.status = .waiting (.ev 1) ∧
    Active.wfRun demo.act begin_.act (actOps demo begin_ demoBusy) = true ∧
    (∀ op ∈ mimOps demo begin_ demoBusy, ∀ u, Mimic.mimicTask 0 op = some u → u = 5) ∧
    (∀ n ∈ ((run demo begin_ demoBusy).1.mim.mimic 0).keys,
      ∃ x, Mimic.Shows demo.mim (run demo begin_ demoBusy).1.mim demo.mim.depth 0 n x) ∧
    (run demo begin_ demoBusy).1.act.tbs 0 = [5] ∧
    (step demo (run demo begin_ demoBusy).1 (.interrupt .end_ [0] true)).1.act.tbs 0 = [] ∧
    (step demo (run demo begin_ demoBusy).1 (.interrupt .end_ [0] true)).1.know = [(4, some 2)] ∧
    (step demo (run demo begin_ demoBusy).1 (.interrupt .end_ [0] true)).1.status = .done := by
  refine ⟨by decide +kernel, by decide +kernel, ?_, ?_, by decide +kernel, by decide +kernel, by decide +kernel,
    by decide +kernel⟩
  · have : mimOps demo begin_ demoBusy = [.set 0 3 7, .set 1 2 5, .activate 0 3 1 2 5] := rfl
    rw [this]
    intro op hop u hu
    simp only [List.mem_cons, List.not_mem_nil, or_false] at hop
    rcases hop with rfl | rfl | rfl <;> simp [Mimic.mimicTask] at hu
    exact hu.symm
  · have : ((run demo begin_ demoBusy).1.mim.mimic 0).keys = [3] := by decide +kernel
    rw [this]
    intro n hn
    simp only [List.mem_singleton] at hn
    subst hn
    exact ⟨5, .via (b := 1) (m := 2) (by decide +kernel) (.own (by decide +kernel) (by decide +kernel)) (by decide +kernel)⟩

/-- **C26 is false of the code (1)**: if another task of the actor (here task 8) mimics a state, the interrupted task's
clean-up raises: its event is neither cancelled nor forgotten. -/
theorem c26_foreign_mimic :
    let ops : List (Op Int Int) := [.mimics (.set 0 3 7), .mimics (.set 1 2 5), .start,
      .mimics (.activate 0 3 1 2 8), .learn 3 (some 1), .act (.event 1)]
    let r := step demo (run demo begin_ ops).1 (.interrupt .end_ [] true)
    r.2 = .crash .cleanUp ∧ r.1.cancelled = [] ∧ r.1.know.get? 3 = some (some 1) := by decide +kernel

/-- **C26 is false of the code (2)**: a second interrupt that arrives while the `cancel` of a routine waits for an event
(for instance to put something back) is not handled by `on_interrupt`: it ends the process with an exception. -/
theorem c26_second_interrupt :
    outs [.start, .act .routine, .act (.event 1), .interrupt .end_ [] true, .act (.event 2),
      .interrupt .ignore [] true] =
      [.quiet, .user (.task 0) none, .user (.routine 1) none, .cleaned, .cancelRun (.routine 1),
        .crash .interrupt] := by decide +kernel

/-- **C26 (other answers).** An answer that is not an interrupt action (or an exception in `on_interrupt`) makes the
process fail; the actor, its knowledge and the awaited event are untouched. -/
theorem c26_other_answers (c : Cfg M) (s : St V M) (t : Tgt) (ans : Answer) (ord : List Nat) (ok : Bool)
    (hw : s.status = .waiting t) (ha : ans.stops = false) (hi : ans ≠ .ignore) :
    let r := step c s (.interrupt ans ord ok)
    r.2 = .crash .answer ∧ r.1.status = .crashed .answer ∧ r.1.act = s.act ∧ r.1.mim = s.mim ∧
    r.1.know = s.know ∧ r.1.cancelled = s.cancelled := by
  cases ans <;> simp [Answer.stops] at ha hi <;> simp [step, hw, crash]

example : (step demo (run demo begin_ demoBusy).1 (.interrupt .none_ [0] true)).2 = .crash .answer := by
  decide +kernel

/-- No user code of the task or of a routine's `run` can be resumed any more. -/
def Over (s : St V M) : Prop :=
  s.status = .done ∨ (∃ e, s.status = .crashed e) ∨ (∃ w rest, s.status = .cancelling w rest false) ∨
    (∃ w rest, s.status = .cancelWait w rest false)

theorem over_unwind (s : St V M) (l : List Gen) : Over (unwind s false l) := by
  induction l with
  | nil => left; simp [unwind]
  | cons g gs ih =>
    unfold unwind
    split
    · exact ih
    · right; right; left; exact ⟨_, _, rfl⟩

theorem over_step (c : Cfg M) {s : St V M} (h : Over s) (op : Op V M) :
    Over (step c s op).1 ∧ ∀ w x, (step c s op).2 ≠ .user w x := by
  rcases h with h | ⟨e, h⟩ | ⟨w, rest, h⟩ | ⟨w, rest, h⟩
  · cases op <;> simp only [step, h] <;> exact ⟨Or.inl (by first | exact h | rfl), by simp⟩
  · cases op <;> simp only [step, h] <;> exact ⟨Or.inr (Or.inl ⟨e, by first | exact h | rfl⟩), by simp⟩
  · cases op
    case act a =>
      cases a <;> simp only [step, h] <;> refine ⟨?_, by simp⟩
      case event x => exact Or.inr (Or.inr (Or.inr ⟨_, _, rfl⟩))
      case ret x => exact over_unwind _ _
      all_goals exact Or.inr (Or.inl ⟨_, rfl⟩)
    all_goals simp only [step, h]; exact ⟨Or.inr (Or.inr (Or.inl ⟨w, rest, by first | exact h | rfl⟩)), by simp⟩
  · cases op
    case fire v => simp only [step, h]; exact ⟨Or.inr (Or.inr (Or.inl ⟨_, _, rfl⟩)), by simp⟩
    case fail => simp only [step, h, crash]; exact ⟨Or.inr (Or.inl ⟨_, rfl⟩), by simp⟩
    case interrupt a b d => simp only [step, h, crash]; exact ⟨Or.inr (Or.inl ⟨_, rfl⟩), by simp⟩
    all_goals simp only [step, h]; exact ⟨Or.inr (Or.inr (Or.inr ⟨w, rest, by first | exact h | rfl⟩)), by simp⟩

theorem over_run (c : Cfg M) {s : St V M} (h : Over s) (ops : List (Op V M)) :
    ∀ x ∈ (run c s ops).2, ∀ w y, x.2 ≠ .user w y := by
  induction ops generalizing s with
  | nil => simp [run]
  | cons op ops ih =>
    intro x hx
    simp only [run, List.mem_cons] at hx
    rcases hx with rfl | hx
    · exact (over_step c h op).2
    · exact ih (over_step c h op).1 x hx

/-- **C26 (END ends the task).** After a handled interrupt answered END, no code of the task (nor of a routine's
`run`) is ever resumed again, whatever happens; if no routine was running, the process is over at once. -/
theorem c26_end (c : Cfg M) (s : St V M) (t : Tgt) (ord : List Nat) (ok : Bool) (hw : s.status = .waiting t)
    (h : (step c s (.interrupt .end_ ord ok)).2 = .cleaned) :
    let s' := (step c s (.interrupt .end_ ord ok)).1
    (∀ later, ∀ x ∈ (run c s' later).2, ∀ w y, x.2 ≠ .user w y) ∧
    ((∀ g ∈ s.gens, g.who.isTask = true) → s'.status = .done) := by
  rw [step_stops c s t _ ord ok hw rfl] at h ⊢
  obtain ⟨s1, g1, n1, i1, c1, k1, h1⟩ := cleanUp_cleaned c s t _ ord ok h
  have h1 : cleanUp c s t (decide (Answer.end_ = Answer.restart)) ord ok = (unwind s1 false s.gens, .cleaned) := h1
  rw [h1]
  simp only
  refine ⟨fun later => over_run c (over_unwind _ _) later, ?_⟩
  intro hall
  generalize s.gens = l at hall
  induction l with
  | nil => simp [unwind]
  | cons g gs ih =>
    unfold unwind
    split
    · exact ih (fun g hg => hall g (List.mem_cons_of_mem _ hg))
    · rename_i hg
      have := hall g (by simp)
      simp [hg, Who.isTask] at this

/-- What the user's code sees first. -/
def firstUser : List (Op V M × Out V) → Option (Who × Option V)
  | [] => none
  | (_, .user w x) :: _ => some (w, x)
  | _ :: l => firstUser l

/-- About to start instance `n` of the task. -/
def Starting (n : Nat) (s : St V M) : Prop :=
  (s.status = .running ∧ s.gens = [⟨.task n, false⟩] ∧ s.item = none ∧ s.next = n + 1) ∨ (∃ e, s.status = .crashed e) ∨
  (s.next = n ∧ ((∃ w rest, s.status = .cancelling w rest true) ∨ (∃ w rest, s.status = .cancelWait w rest true)))

theorem starting_unwind (s : St V M) (l : List Gen) : Starting s.next (unwind s true l) := by
  induction l with
  | nil => left; simp [unwind]
  | cons g gs ih =>
    unfold unwind
    split
    · exact ih
    · right; right; exact ⟨rfl, Or.inl ⟨_, _, rfl⟩⟩

theorem starting_step (c : Cfg M) {s : St V M} {n : Nat} (h : Starting n s) (op : Op V M) :
    (step c s op).2 = .user (.task n) none ∨
    (Starting n (step c s op).1 ∧ ∀ w x, (step c s op).2 ≠ .user w x) := by
  rcases h with ⟨h, hg, hi, hn⟩ | ⟨e, h⟩ | ⟨hn, ⟨w, rest, h⟩ | ⟨w, rest, h⟩⟩
  · cases op
    case act a =>
      left
      cases a <;> simp [step, h, hg, advance, hi]
    all_goals simp only [step, h]; right; exact ⟨Or.inl ⟨by first | exact h | rfl, hg, hi, hn⟩, by simp⟩
  · right; cases op <;> simp only [step, h] <;> exact ⟨Or.inr (Or.inl ⟨e, by first | exact h | rfl⟩), by simp⟩
  · right
    cases op
    case act a =>
      cases a <;> simp only [step, h] <;> refine ⟨?_, by simp⟩
      case event x => exact Or.inr (Or.inr ⟨hn, Or.inr ⟨_, _, rfl⟩⟩)
      case ret x => rw [← hn]; exact starting_unwind _ _
      all_goals exact Or.inr (Or.inl ⟨_, rfl⟩)
    all_goals simp only [step, h]; exact ⟨Or.inr (Or.inr ⟨hn, Or.inl ⟨w, rest, by first | exact h | rfl⟩⟩), by simp⟩
  · right
    cases op
    case fire v => simp only [step, h]; exact ⟨Or.inr (Or.inr ⟨hn, Or.inl ⟨_, _, rfl⟩⟩), by simp⟩
    case fail => simp only [step, h, crash]; exact ⟨Or.inr (Or.inl ⟨_, rfl⟩), by simp⟩
    case interrupt a b d => simp only [step, h, crash]; exact ⟨Or.inr (Or.inl ⟨_, rfl⟩), by simp⟩
    all_goals simp only [step, h]; exact ⟨Or.inr (Or.inr ⟨hn, Or.inr ⟨w, rest, by first | exact h | rfl⟩⟩), by simp⟩

theorem starting_run (c : Cfg M) {s : St V M} {n : Nat} (h : Starting n s) (ops : List (Op V M)) :
    firstUser (run c s ops).2 = none ∨ firstUser (run c s ops).2 = some (.task n, none) := by
  induction ops generalizing s with
  | nil => left; rfl
  | cons op ops ih =>
    simp only [run]
    rcases starting_step c h op with h1 | ⟨h1, h2⟩
    · right; rw [h1]; rfl
    · have : firstUser ((op, (step c s op).2) :: (run c (step c s op).1 ops).2) =
          firstUser (run c (step c s op).1 ops).2 := by
        generalize (step c s op).2 = o at h2
        cases o with
        | user w x => exact absurd rfl (h2 w x)
        | _ => rfl
      rw [this]
      exact ih h1

/-- All code in use is numbered `n` or later. -/
def From (n : Nat) (s : St V M) : Prop := n ≤ s.next ∧ ∀ g ∈ s.gens, n ≤ g.who.num

theorem from_unwind {s : St V M} {n : Nat} (h : n ≤ s.next) (again : Bool) (l : List Gen) :
    From n (unwind s again l) := by
  induction l with
  | nil =>
    unfold unwind
    split
    · refine ⟨by simp; omega, ?_⟩
      intro g hg
      simp only [List.mem_singleton] at hg
      subst hg
      exact h
    · exact ⟨h, by simp⟩
  | cons g gs ih =>
    unfold unwind
    split
    · exact ih
    · exact ⟨h, by simp⟩

theorem from_step (c : Cfg M) {s : St V M} {n : Nat} (h : From n s) (op : Op V M) :
    From n (step c s op).1 ∧ ∀ w x, (step c s op).2 = .user w x → n ≤ w.num := by
  have hn := h.1
  cases op with
  | start => cases hs : s.status <;> simp only [step, hs] <;> exact ⟨h, by simp⟩
  | states o => exact ⟨h, by simp [step]⟩
  | mimics o => exact ⟨h, by simp [step]⟩
  | learn n v => exact ⟨h, by simp [step]⟩
  | forget n => exact ⟨h, by simp [step]⟩
  | fail => cases hs : s.status <;> simp only [step, hs, crash] <;> exact ⟨h, by simp⟩
  | fire v => cases hs : s.status <;> simp only [step, hs] <;> exact ⟨h, by simp⟩
  | interrupt ans ord ok =>
    cases hs : s.status
    case waiting t =>
      cases ans <;> simp only [step, hs, crash]
      case end_ =>
        rcases cleanUp_cases c s t false ord ok with ⟨s1, n1, g1, i1, -, -, hc⟩ | ⟨s1, g1, n1, hc⟩
        · rw [hc]; exact ⟨from_unwind (by omega) _ _, by simp⟩
        · rw [hc]; exact ⟨⟨by simp only [crash]; omega, by simpa [crash, g1] using h.2⟩, by simp [crash]⟩
      case restart =>
        rcases cleanUp_cases c s t true ord ok with ⟨s1, n1, g1, i1, -, -, hc⟩ | ⟨s1, g1, n1, hc⟩
        · rw [hc]; exact ⟨from_unwind (by omega) _ _, by simp⟩
        · rw [hc]; exact ⟨⟨by simp only [crash]; omega, by simpa [crash, g1] using h.2⟩, by simp [crash]⟩
      all_goals exact ⟨h, by simp⟩
    all_goals simp only [step, hs, crash]
    all_goals exact ⟨h, by simp⟩
  | act a =>
    cases hs : s.status
    case cancelling w rest again =>
      cases a <;> simp only [step, hs] <;> refine ⟨?_, by simp⟩
      case ret v => exact from_unwind hn _ _
      all_goals exact h
    case running =>
      cases hg : s.gens with
      | nil => simp only [step, hs, hg]; exact ⟨h, by simp⟩
      | cons g gs =>
        simp only [step, hs, hg]
        have hgn : n ≤ g.who.num := h.2 g (by simp [hg])
        have hgs : ∀ x ∈ gs, n ≤ x.who.num := fun x hx => h.2 x (by simp [hg, hx])
        have hall : ∀ b : Bool, ∀ x ∈ ({ g with started := b } :: gs), n ≤ x.who.num := by
          intro b x hx
          simp only [List.mem_cons] at hx
          rcases hx with rfl | hx
          · exact hgn
          · exact hgs x hx
        unfold advance
        split
        · exact ⟨h, by simp [crash]⟩
        · cases hw : g.who with
          | task k =>
            rw [hw] at hgn
            have hu : ∀ (y : Option V) (w : Who) (x : Option V), Out.user (.task k) y = .user w x → n ≤ w.num := by
              intro y w x hx
              simp only [Out.user.injEq] at hx
              rw [← hx.1]; exact hgn
            cases a <;> simp only
            case routine =>
              refine ⟨⟨by simp only; omega, ?_⟩, hu _⟩
              intro x hx
              simp only [List.mem_cons] at hx
              rcases hx with rfl | rfl | hx
              · exact hn
              · simpa [hw] using hgn
              · exact hgs x hx
            case ret v =>
              split
              · exact ⟨⟨hn, by simp⟩, hu _⟩
              · exact ⟨⟨hn, hgs⟩, hu _⟩
            all_goals exact ⟨⟨hn, by simpa [hw] using hall true⟩, hu _⟩
          | routine k =>
            rw [hw] at hgn
            have hu : ∀ (y : Option V) (w : Who) (x : Option V), Out.user (.routine k) y = .user w x → n ≤ w.num := by
              intro y w x hx
              simp only [Out.user.injEq] at hx
              rw [← hx.1]; exact hgn
            cases a <;> simp only
            case ret v =>
              split
              · exact ⟨⟨hn, by simp⟩, hu _⟩
              · exact ⟨⟨hn, hgs⟩, hu _⟩
            all_goals exact ⟨⟨hn, by simpa [hw] using hall true⟩, hu _⟩
    all_goals simp only [step, hs]; exact ⟨h, by simp⟩

theorem from_run (c : Cfg M) {s : St V M} {n : Nat} (h : From n s) (ops : List (Op V M)) :
    ∀ x ∈ (run c s ops).2, ∀ w y, x.2 = .user w y → n ≤ w.num := by
  induction ops generalizing s with
  | nil => simp [run]
  | cons op ops ih =>
    intro x hx
    simp only [run, List.mem_cons] at hx
    rcases hx with rfl | hx
    · exact (from_step c h op).2
    · exact ih (from_step c h op).1 x hx

/-- **C26 (RESTART starts afresh).** After a handled interrupt answered RESTART, the code that was running (of the task
and of its routine) is never resumed again; the first code that runs, if any, is a new instance of the task from its
beginning; and if no routine was running, it is ready to run at once. -/
theorem c26_restart (c : Cfg M) (s : St V M) (t : Tgt) (ord : List Nat) (ok : Bool) (hw : s.status = .waiting t)
    (h : (step c s (.interrupt .restart ord ok)).2 = .cleaned) :
    let s' := (step c s (.interrupt .restart ord ok)).1
    (∀ later, (∀ x ∈ (run c s' later).2, ∀ w y, x.2 = .user w y → s.next ≤ w.num) ∧
      (firstUser (run c s' later).2 = none ∨ firstUser (run c s' later).2 = some (.task s.next, none))) ∧
    ((∀ g ∈ s.gens, g.who.isTask = true) → s'.status = .running) := by
  rw [step_stops c s t _ ord ok hw rfl] at h ⊢
  obtain ⟨s1, g1, n1, i1, c1, k1, h1⟩ := cleanUp_cleaned c s t _ ord ok h
  have h1 : cleanUp c s t (decide (Answer.restart = Answer.restart)) ord ok = (unwind s1 true s.gens, .cleaned) := h1
  rw [h1]
  simp only
  refine ⟨fun later => ⟨from_run c (from_unwind (by omega) _ _) later, ?_⟩, ?_⟩
  · rw [← n1]; exact starting_run c (starting_unwind _ _) later
  · intro hall
    generalize s.gens = l at hall
    induction l with
    | nil => simp [unwind]
    | cons g gs ih =>
      unfold unwind
      split
      · exact ih (fun g hg => hall g (List.mem_cons_of_mem _ hg))
      · rename_i hg
        have := hall g (by simp)
        simp [hg, Who.isTask] at this

example : (step demo (run demo begin_ demoBusy).1 (.interrupt .restart [0] true)).2 = .cleaned ∧
    (run demo begin_ demoBusy).1.next = 1 ∧
    outs (demoBusy ++ [.interrupt .restart [0] true, .act (.event 1), .fire (some 3), .act (.ret none)]) =
      [.quiet, .quiet, .quiet, .quiet, .quiet, .quiet, .quiet, .user (.task 0) none, .cleaned, .user (.task 1) none,
        .resumed, .user (.task 1) (some 3)] := by decide +kernel

/-- The `cancel` code of routine `w` is running or waiting, or the process crashed. -/
def Cancels (w : Who) (s : St V M) : Prop :=
  (∃ e, s.status = .crashed e) ∨ (∃ rest again, s.status = .cancelling w rest again) ∨
    (∃ rest again, s.status = .cancelWait w rest again)

theorem cancels_step (c : Cfg M) {s : St V M} {w : Who} (h : Cancels w s) (op : Op V M) :
    Cancels w (step c s op).1 ∨ ((∃ v, op = .act (.ret v)) ∧ (step c s op).2 = .cancelRun w) := by
  rcases h with ⟨e, h⟩ | ⟨rest, again, h⟩ | ⟨rest, again, h⟩
  · left; cases op <;> simp only [step, h] <;> exact Or.inl ⟨e, by first | exact h | rfl⟩
  · cases op
    case act a =>
      cases a <;> simp only [step, h]
      case event x => left; exact Or.inr (Or.inr ⟨_, _, rfl⟩)
      case ret x => right; exact ⟨⟨x, rfl⟩, trivial⟩
      all_goals left; exact Or.inl ⟨_, rfl⟩
    all_goals left; simp only [step, h]; exact Or.inr (Or.inl ⟨rest, again, by first | exact h | rfl⟩)
  · left
    cases op
    case fire v => simp only [step, h]; exact Or.inr (Or.inl ⟨_, _, rfl⟩)
    case fail => simp only [step, h, crash]; exact Or.inl ⟨_, rfl⟩
    case interrupt a b d => simp only [step, h, crash]; exact Or.inl ⟨_, rfl⟩
    all_goals simp only [step, h]; exact Or.inr (Or.inr ⟨rest, again, by first | exact h | rfl⟩)

/-- **C26 (routines are cancelled).** If a routine was running when the interrupt (END or RESTART) was handled, then the
process neither ends nor restarts before the routine's `cancel` code has returned. -/
theorem c26_routine_cancelled (c : Cfg M) (s : St V M) (t : Tgt) (ans : Answer) (ord : List Nat) (ok b : Bool)
    (k : Nat) (gs : List Gen) (hw : s.status = .waiting t) (ha : ans.stops = true)
    (hg : s.gens = ⟨.routine k, b⟩ :: gs) (h : (step c s (.interrupt ans ord ok)).2 = .cleaned)
    (later : List (Op V M)) :
    let q := run c (step c s (.interrupt ans ord ok)).1 later
    (q.1.status = .done ∨ q.1.status = .running ∨ ∃ t', q.1.status = .waiting t') →
    ∃ v, (Op.act (.ret v), Out.cancelRun (.routine k)) ∈ q.2 := by
  have h0 : Cancels (.routine k) (step c s (.interrupt ans ord ok)).1 := by
    rw [step_stops c s t _ ord ok hw ha] at h ⊢
    obtain ⟨s1, g1, n1, i1, c1, k1, h1⟩ := cleanUp_cleaned c s t _ ord ok h
    rw [h1, hg]
    simp only [unwind]
    exact Or.inr (Or.inl ⟨_, _, rfl⟩)
  intro q
  have hmain : ∀ (later : List (Op V M)) (s : St V M), Cancels (.routine k) s →
      Cancels (.routine k) (run c s later).1 ∨
        ∃ v, (Op.act (.ret v), Out.cancelRun (.routine k)) ∈ (run c s later).2 := by
    intro later
    induction later with
    | nil => intro s h; exact Or.inl h
    | cons op ops ih =>
      intro s h
      rcases cancels_step c h op with h1 | ⟨⟨v, rfl⟩, h1⟩
      · rcases ih _ h1 with h2 | ⟨v, h2⟩
        · exact Or.inl h2
        · exact Or.inr ⟨v, by simp only [run, List.mem_cons]; exact Or.inr h2⟩
      · exact Or.inr ⟨v, by simp only [run, h1]; exact List.mem_cons_self⟩
  intro hq
  rcases hmain later _ h0 with (⟨e, h⟩ | ⟨r, a, h⟩ | ⟨r, a, h⟩) | h
  · change q.1.status = _ at h; simp [h] at hq
  · change q.1.status = _ at h; simp [h] at hq
  · change q.1.status = _ at h; simp [h] at hq
  · exact h

example : outs [.start, .act .routine, .act (.event 1), .interrupt .restart [] true, .act (.event 2), .fire none,
      .act (.ret none), .act (.ret none)] =
      [.quiet, .user (.task 0) none, .user (.routine 1) none, .cleaned, .cancelRun (.routine 1), .resumed,
        .cancelRun (.routine 1), .user (.task 2) none] := by decide +kernel

end Verif.TaskRun
