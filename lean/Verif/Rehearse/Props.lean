import Verif.Rehearse.Lemmas

/-!
# C28: rehearsing a task

`c28_clock`: the time, the values sent back and what is restored. `c28_finishes`: when a rehearsal succeeds.
`c28_no_side_effects_partial`: the original and every other actor look as before, and the real clock has not moved. Missing
from the last: values holding mutable objects inside mutable objects, and code that changes a queue list in place
(`Verif.Clone.c30_nested_shared`, `c30_queue_shared`); and a rehearsal that raises leaves the task itself in rehearsal mode
(`c28_failed_rehearsal_leaves_task_mocked`), with the wrong time in the next rehearsal (`c28_next_rehearsal_wrong_time`).
-/

namespace Verif.Rehearse

open Verif.Clone (World AOp Out New step Start stateView knowView queueView inPlace)

/-- The state when the code of the task starts. -/
def begun (s : St) (w : World) (k : Nat) : St :=
  ⟨w, upd s.envNow s.nextEnv (nowOf s s.taskEnv), s.nextEnv + 1, upd s.actorEnv k (some s.nextEnv), some s.nextEnv, true,
    s.real⟩

theorem rehearse_made {s : St} {i : Nat} {extra : List (Nat × New)} {w : World} {k : Nat}
    (h : step s.w i (.clone extra) = (w, .made k)) (script : Script) :
    rehearse s i false extra script =
      match (loop (begun s w k) k s.nextEnv none script).2.1 with
      | .finished => ⟨{ (loop (begun s w k) k s.nextEnv none script).1 with taskEnv := s.taskEnv, rehearsing := false },
          .finished, some k, (loop (begun s w k) k s.nextEnv none script).2.2⟩
      | x => ⟨(loop (begun s w k) k s.nextEnv none script).1, x, none, (loop (begun s w k) k s.nextEnv none script).2.2⟩ := by
  have h' : step (mock s s.taskEnv).w i (.clone extra) = (w, .made k) := h
  simp only [rehearse, Bool.false_eq_true, if_false, h', perform]
  rfl

theorem rehearse_not_made {s : St} {i : Nat} {extra : List (Nat × New)} {w : World} {o : Out}
    (h : step s.w i (.clone extra) = (w, o)) (ho : ∀ k, o ≠ .made k) (script : Script) :
    rehearse s i false extra script = ⟨{ mock s s.taskEnv with taskEnv := some s.nextEnv, w := w }, .raised, none, []⟩ := by
  have h' : step (mock s s.taskEnv).w i (.clone extra) = (w, o) := h
  simp only [rehearse, Bool.false_eq_true, if_false, h']

theorem made_len {w w' : World} {i k : Nat} {extra : List (Nat × New)} (h : step w i (.clone extra) = (w', .made k)) :
    k = w.actors.length ∧ k < w'.actors.length := by
  have hl := step_len w i (.clone extra)
  rw [h] at hl
  obtain ⟨hk, _⟩ := hl.2 k rfl
  refine ⟨hk, ?_⟩
  unfold step at h
  split at h
  · simp at h
  · simp only [Clone.stepA, Clone.clone] at h
    split at h
    · simp at h
    · simp only [Prod.mk.injEq, Out.made.injEq] at h
      obtain ⟨rfl, hk'⟩ := h
      simp only [List.length_append, List.length_singleton]
      omega

/-- **C28 (time).** A rehearsal that succeeds: the clock of the understudy is the real time plus the sum of the durations of
what was yielded, each value is sent back to the code that yielded, and the task is back in the real environment. -/
theorem c28_clock (s : St) (i : Nat) (extra : List (Nat × New)) (script : Script) (ht : s.taskEnv = none)
    (h : (rehearse s i false extra script).res = .finished) :
    ∃ (k e : Nat) (tv : List (Rat × Option Nat)),
      (rehearse s i false extra script).understudy = some k ∧
      k = s.w.actors.length ∧
      (rehearse s i false extra script).st.actorEnv k = some e ∧
      List.Forall₂ (fun y p => YDur y p.1 p.2) (yields script) tv ∧
      (rehearse s i false extra script).st.envNow e = s.real + (tv.map (·.1)).sum ∧
      (rehearse s i false extra script).sent = none :: tv.map (·.2) ∧
      (rehearse s i false extra script).st.taskEnv = none ∧
      (rehearse s i false extra script).st.rehearsing = false ∧
      (rehearse s i false extra script).st.real = s.real := by
  rcases hst : step s.w i (.clone extra) with ⟨w, o⟩
  by_cases ho : ∃ k, o = .made k
  · obtain ⟨k, rfl⟩ := ho
    obtain ⟨hk, hlt⟩ := made_len hst
    rw [rehearse_made hst] at h ⊢
    have fr := loop_frame script (begun s w k) k s.nextEnv none
    have fin : (loop (begun s w k) k s.nextEnv none script).2.1 = .finished := by
      revert h; cases (loop (begun s w k) k s.nextEnv none script).2.1 <;> simp
    obtain ⟨tv, h1, h2, h3⟩ := loop_clock script (begun s w k) k s.nextEnv none (Nat.lt_succ_self _) fin
    simp only [fin]
    refine ⟨k, s.nextEnv, tv, rfl, hk, ?_, h1, ?_, h3, ht, trivial, fr.real⟩
    · rw [fr.actors k hlt]; simp [begun, upd]
    · rw [h2]; simp [begun, upd, ht, nowOf]
  · rw [rehearse_not_made hst (fun k hk => ho ⟨k, hk⟩)] at h
    simp at h

/-- **C28 (success).** A rehearsal that starts finishes exactly if the code returns after yielding only things that can be
rehearsed: events and routines, with no process or empty multi-event anywhere inside. -/
theorem c28_finishes (s : St) (i : Nat) (extra : List (Nat × New)) (script : Script) (k : Nat)
    (hc : (step s.w i (.clone extra)).2 = .made k) :
    (rehearse s i false extra script).res = .finished ↔
      ∃ (pre : Script) (ops : List AOp) (post : Script), script = pre ++ (ops, .ret) :: post ∧
        ∀ p ∈ pre, ∃ y t v, p.2 = .yield y ∧ YDur y t v := by
  have hst : step s.w i (.clone extra) = ((step s.w i (.clone extra)).1, .made k) := by rw [← hc]
  rw [rehearse_made hst, ← loop_finishes script (begun s (step s.w i (.clone extra)).1 k) k s.nextEnv none]
  cases (loop (begun s (step s.w i (.clone extra)).1 k) k s.nextEnv none script).2.1 <;> simp

/-- **C28 (no side effects), the part that holds.** However a rehearsal goes: every actor that existed looks as before in
its states, knowledge and queues, to any depth, keeps its environment, and the real clock and all other mock clocks have
not moved. -/
theorem c28_no_side_effects_partial (s : St) (i : Nat) (extra : List (Nat × New)) (script : Script)
    (hs : Start s.w) (hq : Quiet script) (j : Nat) (hj : j < s.w.actors.length) :
    SameView s.w (rehearse s i false extra script).st.w j ∧
    (rehearse s i false extra script).st.actorEnv j = s.actorEnv j ∧
    (rehearse s i false extra script).st.real = s.real ∧
    ∀ e, e < s.nextEnv → (rehearse s i false extra script).st.envNow e = s.envNow e := by
  rcases hst : step s.w i (.clone extra) with ⟨w, o⟩
  have hv := clone_views hs hst j hj
  by_cases ho : ∃ k, o = .made k
  · obtain ⟨k, rfl⟩ := ho
    obtain ⟨hk, hlt⟩ := made_len hst
    have hsw : Start w := by
      have := Clone.step_start hs i (.clone extra)
      rw [hst] at this
      exact this
    have fr := loop_frame script (begun s w k) k s.nextEnv none
    have hjw : j < (begun s w k).w.actors.length := by show j < w.actors.length; omega
    obtain ⟨_, h2⟩ := loop_views script (begun s w k) k s.nextEnv none j hsw (by omega) hjw hq
    have hjk : j ≠ k := by omega
    have goal : SameView s.w (loop (begun s w k) k s.nextEnv none script).1.w j ∧
        (loop (begun s w k) k s.nextEnv none script).1.actorEnv j = s.actorEnv j ∧
        (loop (begun s w k) k s.nextEnv none script).1.real = s.real ∧
        ∀ e, e < s.nextEnv → (loop (begun s w k) k s.nextEnv none script).1.envNow e = s.envNow e := by
      refine ⟨hv.trans h2, ?_, fr.real, ?_⟩
      · rw [fr.actors j hjw]; simp [begun, upd, hjk]
      · intro e he
        rw [fr.env e (Nat.lt_succ_of_lt he) (Nat.ne_of_lt he)]
        simp [begun, upd, Nat.ne_of_lt he]
    rw [rehearse_made hst]
    cases (loop (begun s w k) k s.nextEnv none script).2.1 <;> exact goal
  · rw [rehearse_not_made hst (fun k hk => ho ⟨k, hk⟩)]
    refine ⟨hv, rfl, rfl, ?_⟩
    intro e he
    simp [mock, upd, Nat.ne_of_lt he]

/-! ## Members of multi-events -/

/-- **C55 (direct members).** After an `Any` or `All` was rehearsed with duration `total`, a direct member is complete
exactly if its own duration is at most `total`; so all members of an `All` are. -/
theorem c55_direct_members (e : Ev) (ms : List Ev) (he : e = .any ms ∨ e = .all ms) (total : Rat) (hd : Dur e total)
    (i : Nat) (m : Ev) (hm : ms[i]? = some m) :
    ∃ t, Dur m t ∧ (complete e [i] = true ↔ t ≤ total) ∧ (e = .all ms → complete e [i] = true) := by
  have mem : ∀ ts : List Rat, List.Forall₂ Dur ms ts → ∃ t, Dur m t ∧ t ∈ ts := by
    intro ts h
    obtain ⟨hi, hm'⟩ := List.getElem?_eq_some_iff.mp hm
    have hl := h.length_eq
    refine ⟨ts[i], ?_, List.getElem_mem _⟩
    have := (List.forall₂_iff_get.mp h).2 i hi (by omega)
    simp only [List.get_eq_getElem] at this
    rwa [hm'] at this
  have hc : ∀ t, Dur m t → (complete e [i] = true ↔ t ≤ total) := by
    intro t ht
    have h1 := ((dur_iff m t).mp ht).2
    have h2 := ((dur_iff e total).mp hd).2
    rcases he with rfl | rfl <;> simp [complete, hm, h1, h2]
  rcases he with rfl | rfl
  · cases hd with
    | any _ ts _ h1 h2 h3 =>
      obtain ⟨t, ht, _⟩ := mem ts h1
      exact ⟨t, ht, hc t ht, by simp⟩
  · cases hd with
    | all _ ts _ h1 h2 h3 =>
      obtain ⟨t, ht, hts⟩ := mem ts h1
      exact ⟨t, ht, hc t ht, fun _ => (hc t ht).mpr (h3 t hts)⟩

/-- **C55 is false further down:** a member of a member is never complete, although the multi-event needs it: with
`All(All(a), b)` rehearsed to the end, `a.is_complete()` is false. -/
theorem c55_nested_never_complete : ∃ (e : Ev) (total t : Rat), Dur e total ∧ e = .all [.all [.leaf t none], .leaf 5 none] ∧
    t ≤ total ∧ complete e [0, 0] = false ∧ complete e [0] = true :=
  ⟨_, 5, 3, (dur_iff _ _).mpr (by decide +kernel), rfl, by decide +kernel, by decide +kernel, by decide +kernel⟩

example : Dur (.any [.leaf 4 none, .all [.leaf 1 none, .leaf 2 (some 7)], .leaf 9 none]) 2 ∧
    complete (.any [.leaf 4 none, .all [.leaf 1 none, .leaf 2 (some 7)], .leaf 9 none]) [1] = true ∧
    complete (.any [.leaf 4 none, .all [.leaf 1 none, .leaf 2 (some 7)], .leaf 9 none]) [0] = false :=
  ⟨(dur_iff _ _).mpr (by decide +kernel), by decide +kernel, by decide +kernel⟩

/-! ## Cases -/

/-- The actor of `Verif.Clone.sample` at time 10, and a task. -/
def sample : St := ⟨Clone.sample, fun _ => 0, 0, fun _ => none, none, false, 10⟩

/-- A task that changes a state, waits for `Any` of two, gets an item from a store, runs a routine, changes the queue and
returns. -/
def script1 : Script :=
  [([.setState 3 (.new (.atom 1))], .yield (.ev (.any [.leaf 4 none, .all [.leaf 1 none, .leaf 2 none]]))),
    ([.poke (.state 0) [] [2]], .yield (.ev (.leaf 3 (some 8)))),
    ([], .yield (.routine [.leaf 1 none, .leaf 2 (some 8)])),
    ([.clearQ 0, .setQ 0 [5]], .ret)]

example : sample.taskEnv = none ∧ (rehearse sample 0 false [] script1).res = .finished ∧
    (rehearse sample 0 false [] script1).st.envNow 0 = 18 ∧
    (rehearse sample 0 false [] script1).sent = [none, none, some 8, none] ∧
    (step sample.w 0 (.clone [])).2 = .made 1 ∧ Start sample.w ∧
    stateView (rehearse sample 0 false [] script1).st.w 0 3 1 = some [.atom 9] ∧
    stateView (rehearse sample 0 false [] script1).st.w 1 3 1 = some [.atom 1] :=
  ⟨rfl, by decide +kernel, by decide +kernel, by decide +kernel, by decide +kernel, Clone.sample_start,
    by decide +kernel, by decide +kernel⟩

example : Quiet script1 := by
  intro p hp op hop
  simp [script1] at hp
  rcases hp with rfl | rfl | rfl | rfl <;> simp at hop <;> (try rcases hop with rfl | rfl) <;> (try subst hop) <;> rfl

/-! ## Where the code does not keep the property -/

/-- When the code of the task raises, the task stays in the mock environment, in rehearsal mode. -/
theorem c28_failed_rehearsal_leaves_task_mocked : ∃ (s : St) (script : Script), Start s.w ∧ Quiet script ∧
    s.taskEnv = none ∧ s.rehearsing = false ∧
    (rehearse s 0 false [] script).res = .raised ∧
    (rehearse s 0 false [] script).st.taskEnv ≠ none ∧ (rehearse s 0 false [] script).st.rehearsing = true :=
  ⟨sample, [([], .yield (.ev (.leaf 5 none))), ([], .raise)], Clone.sample_start, by
    intro p hp op hop; simp at hp; rcases hp with rfl | rfl <;> simp at hop, rfl, rfl, by decide +kernel, by decide +kernel, by decide +kernel⟩

/-- And the next rehearsal of that task starts at the time the failed one had reached: at real time 10, a rehearsal of 1
time unit ends at 16. -/
theorem c28_next_rehearsal_wrong_time : ∃ (s : St) (bad good : Script), Start s.w ∧ s.taskEnv = none ∧ s.real = 10 ∧
    yields good = [.ev (.leaf 1 none)] ∧
    (rehearse s 0 false [] bad).res = .raised ∧
    (rehearse (rehearse s 0 false [] bad).st 0 false [] good).res = .finished ∧
    (rehearse (rehearse s 0 false [] bad).st 0 false [] good).understudy = some 2 ∧
    ((rehearse (rehearse s 0 false [] bad).st 0 false [] good).st.actorEnv 2).map
      (rehearse (rehearse s 0 false [] bad).st 0 false [] good).st.envNow = some 16 :=
  ⟨sample, [([], .yield (.ev (.leaf 5 none))), ([], .raise)], [([], .yield (.ev (.leaf 1 none))), ([], .ret)],
    Clone.sample_start, rfl, rfl, rfl, by decide +kernel, by decide +kernel, by decide +kernel, by decide +kernel⟩

end Verif.Rehearse
