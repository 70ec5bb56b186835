import Verif.Predict.Limits

/-! # A task that is rehearsed and executed -/

namespace Verif.Predict

variable {K : Type} [Field K] [LinearOrder K] [IsStrictOrderedRing K] {A Op Val : Type}

instance (r : RSt K A Val) (c : Cmd K Op) : Decidable (Predictable r c) := by
  cases c <;> unfold Predictable <;> infer_instance

/-- It is enough to look at a rehearsal until it is over. -/
theorem plain_of (M : Methods K A Op Val) (code : Code K Op Val) (t0 : K) (a : A) (N : Nat) (hN : (rehearse M code t0 a N).status ≠ .running)
    (h : ∀ n, n < N → (rehearse M code t0 a n).status = .running → Predictable (rehearse M code t0 a n) (code (rehearse M code t0 a n).hist)) : Plain M code t0 a := by
  intro n hr
  rcases Nat.lt_or_ge n N with hlt | hge
  · exact h n hlt hr
  · rw [rehearse_over M code t0 a N n hge hN] at hr
    exact absurd hr hN

/-- An actor with fuel (state 0) and a plain state. -/
def demoC : Active.Cfg := ⟨fun n => if n = 0 then some .linear else if n = 1 then some .plain else none, fun _ => true, fun _ => false⟩

def demoA : Active.St := Active.init demoC 0 fun _ => some 10

/-- Uses fuel at rate 2 until either 3 hours are over or both 1 and 2 hours, looks which, waits in a routine, stops, and looks at the clock. -/
def demo : Code Rat AOp Active.Out := script [.act (.activate 0 7 (some (-2))), .yield (.multi false [.new 3, .multi true [.new 1, .new 2]]), .complete 0, .act (.read 0),
  .enter, .yield (.new 1), .leave, .act (.deactivateAll 7 [0]), .act (.change 0 (· + 1)), .act (.read 0), .clock]

/-- The understudy. -/
def demoU : Active.St := understudy demoC 0 demoA

theorem demo_plain : Plain (actor demoC) demo 0 demoU := plain_of _ _ _ _ 12 (by decide +kernel) (by decide +kernel)

/-- Another process reads the fuel at time 1, and a last time at 5/2, when the task is in its routine. -/
def others : List (Other Rat AOp) := List.replicate 25 ⟨[.read 0], [(3 / 2, false)]⟩

def queue0 : List (Item Rat) := [⟨1, false, .other⟩]

theorem queue0_before : Before 0 queue0 := ⟨by decide, by decide +kernel, List.pairwise_singleton _ _⟩

theorem others_harmless : ∀ f ∈ others, Harmless (actor demoC) f := by
  intro f hf
  rw [List.eq_of_mem_replicate hf]
  refine ⟨fun o ho => ?_, fun p hp => ?_⟩
  · simp only [List.mem_singleton] at ho
    exact ⟨0, ho⟩
  · simp only [List.mem_singleton] at hp
    subst hp
    norm_num


theorem demoA_alike : Alike demoC 0 demoA demoU := c77_understudy 0 demoA (fun _ => rfl) (fun _ => rfl) (fun _ => rfl)

theorem demo_congruent : Congruent (actor demoC) (Alike demoC) := c77_linear demoC

/-- A tank shared by two tasks: 10 units, then rates 2 and 1. -/
def tankC : Active.Cfg := ⟨fun n => if n = 0 then some .shared else none, fun _ => true, fun _ => false⟩

def tankA : Active.St := Active.init tankC 0 (fun n => if n = 0 then some 10 else none)

/-- Two tasks use it, one stops. Others look at it at time 2 or do not: the same at time 4. -/
example : let M := actor tankC
    let a := (M.step 1 (.activate 0 8 (some 1)) (M.step 0 (.activate 0 7 (some 2)) tankA).1).1
    let b := (M.step 2 (.read 0) a).1
    (M.step 4 (.read 0) (M.step 3 (.deactivate 0 7) a).1).2 = .val 19 ∧ (M.step 4 (.read 0) (M.step 3 (.deactivate 0 7) b).1).2 = .val 19 ∧ a.value 0 ≠ b.value 0 := by
  decide +kernel

/-- The rehearsal: is over at time 3 with 5 units of fuel, and the first of the events was not complete. -/
example : (rehearse (actor demoC) demo 0 demoU 12).status = .finished ∧ (rehearse (actor demoC) demo 0 demoU 12).now = 3 ∧
    (rehearse (actor demoC) demo 0 demoU 12).actor.value 0 = some 5 := by decide +kernel

example : ∃ n, let r := rehearse (actor demoC) demo 0 demoU n
    let s := simulate (actor demoC) demo (init 0 demoA queue0) others
    Alike demoC s.now s.actor r.actor ∧ (s.waiting = none → s.hist = r.hist ∧ s.status = r.status ∧ (s.status = .running → s.now = r.time)) ∧
      (s.waiting.isSome → s.hist ++ [.resumed] = r.hist ∧ s.status = .running ∧ r.status = .running ∧ s.now ≤ r.time ∧ s.queue ≠ []) :=
  c77_predicts_partial demo_congruent demo 0 demoA demoU demoA_alike demo_plain queue0 queue0_before others others_harmless

/-- In the simulation it is over, later than 3, and was over with the same. -/
example : (simulate (actor demoC) demo (init 0 demoA queue0) others).status = .finished ∧ 3 < (simulate (actor demoC) demo (init 0 demoA queue0) others).now := by decide +kernel

example : (simulate (actor demoC) demo (init 0 demoA queue0) others).hist = (rehearse (actor demoC) demo 0 demoU 12).hist :=
  (c77_outcome_partial demo_congruent demo 0 demoA demoU demoA_alike demo_plain queue0 queue0_before others others_harmless 12 (by decide +kernel) (by decide +kernel)).2.1

example : (simulate (actor demoC) demo (init 0 demoA queue0) others).status = .finished :=
  c77_by_then_partial demo_congruent demo 0 demoA demoU demoA_alike demo_plain queue0 queue0_before others others_harmless 12 (by decide +kernel) (by decide +kernel)

theorem take_harmless (n : Nat) : ∀ f ∈ others.take n, Harmless (actor demoC) f := fun f hf => others_harmless f (List.mem_of_mem_take hf)

/-- The step in which it ends. -/
example : (step (actor demoC) demo ⟨[.read 0], []⟩ (simulate (actor demoC) demo (init 0 demoA queue0) (others.take 19))).now = (rehearse (actor demoC) demo 0 demoU 12).now :=
  c77_end_partial demo_congruent demo 0 demoA demoU demoA_alike demo_plain queue0 queue0_before (others.take 19) (take_harmless 19) ⟨[.read 0], []⟩ 12 (by decide +kernel) (by decide +kernel)
    (by decide +kernel)

/-- Fuel used in a routine: 10 in the rehearsal, 6 in the simulation. -/
example : (rehearse (actor demoC) (script [.act (.activate 0 1 (some (-2))), .enter, .yield (.new 2), .act (.read 0), .leave]) 0 demoA 4).hist = [.val .ok, .resumed, .resumed, .val (.val 10)] ∧
    (simulate (actor demoC) (script [.act (.activate 0 1 (some (-2))), .enter, .yield (.new 2), .act (.read 0), .leave]) (init 0 demoA []) (quiet 5)).hist =
      [.val .ok, .resumed, .resumed, .val (.val (10 + 2 * (-2)))] :=
  c77_routine_value demoC rfl demoA 0 2 10 (-2) (by norm_num) rfl rfl rfl

/-- The actor while fuel is used: the understudy keeps 10, the actor has 6 two hours later. -/
def busyA : Active.St := (Active.activate demoC demoA 0 1 (some (-2))).1

example : (rehearse (actor demoC) (script [.yield (.new 2), .act (.read 0)]) 0 (understudy demoC 0 busyA) 2).hist = [.resumed, .val (.val 10)] ∧
    (simulate (actor demoC) (script [.yield (.new 2), .act (.read 0)]) (init 0 busyA []) (quiet 3)).hist = [.resumed, .val (.val (10 + 2 * (-2)))] :=
  c77_active demoC rfl busyA 0 2 10 (-2) ⟨0, none, some (-2), none, none⟩ (by norm_num) (by decide +kernel) (by decide +kernel) rfl rfl

example : (simulate (actor demoC) (script [.act (.activate 0 1 (some 1))]) (init 0 { demoA with tbs := fun _ => [5] } []) (quiet 1)).hist = [.val .raised] :=
  (c77_locked demoC rfl { demoA with tbs := fun _ => [5] } 0 10 1 rfl rfl (by simp)).2

end Verif.Predict
