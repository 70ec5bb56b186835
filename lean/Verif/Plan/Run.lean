import Verif.Plan.Spec
import Verif.Predict.Props

/-! # The loop and the rehearsal side by side -/

namespace Verif.Plan

open Verif.Predict

variable {K : Type} [Field K] [LinearOrder K] [IsStrictOrderedRing K] {A Op Val : Type}

theorem codeOf_eq {N : Net K Op Val} (hN : Honest N) (u : String) : codeOf N u = rcodeOf N u := by
  unfold codeOf rcodeOf
  cases h : N.jobs u with
  | none => rfl
  | some j =>
    cases j with
    | task c => rfl
    | decision m r => exact hN u m r h

/-- Between two tasks the loop waits for nothing. -/
structure Idle (s : St K A Val) : Prop where
  waiting : s.waiting = none
  queue : Queue [] s.now s.queue s.waits s.next

theorem Idle.tick {M : Methods K A Op Val} {Eqv : K → A → A → Prop} (hM : Congruent M Eqv) {s : St K A Val} (h : Idle s) {b : A} (ha : Eqv s.now s.actor b) (f : Other K Op)
    (hf : Predict.Harmless M f) (hd : due s = true) :
    Idle (tick M f s) ∧ (tick M f s).now = s.now ∧ Eqv s.now (tick M f s).actor b ∧ (tick M f s).hist = s.hist ∧ (tick M f s).status = s.status := by
  obtain ⟨now, q, act, ws, nx, wt, rt, hist, st⟩ := s
  obtain ⟨hw, hq⟩ := h
  dsimp only at hw hq ha
  subst hw
  unfold due at hd
  unfold Verif.Predict.tick
  cases q with
  | nil => cases hd
  | cons i q =>
    obtain ⟨it, iu, ie⟩ := i
    have hd : it = now := by simpa using hd
    subst hd
    dsimp only
    cases ie with
    | other =>
      dsimp only
      refine ⟨⟨rfl, ?_⟩, rfl, observe_eqv hM _ f.reads hf.1 _ _ ha, rfl, rfl⟩
      exact (hq.pop (ws' := ws) (fun k => by simp) (fun _ => rfl) rfl).others _ hf.2
    | timeout j =>
      obtain ⟨g1, g2, g3⟩ := setDone ws j (hq.timeout _ (List.mem_cons_self ..) j rfl).1
      refine ⟨⟨rfl, ?_⟩, rfl, ha, rfl, rfl⟩
      exact hq.pop g1 g2 g3
    | cond id =>
      refine ⟨⟨rfl, ?_⟩, rfl, ha, rfl, rfl⟩
      exact hq.pop (ws' := ws) (fun k => by simp [process]) (fun _ => rfl) rfl

/-- What is left is nobody's. -/
theorem Idle.before {s : St K A Val} (h : Idle s) : Before s.now (s.queue.map retire) := by
  refine ⟨fun i hi => ?_, fun i hi => ?_, ?_⟩
  · obtain ⟨j, -, rfl⟩ := List.mem_map.1 hi; rfl
  · obtain ⟨j, hj, rfl⟩ := List.mem_map.1 hi
    exact h.queue.ahead j hj
  · rw [List.pairwise_map]
    exact h.queue.sorted.imp fun h => h.1

/-- The loop is where the rehearsal is. -/
structure NFollows (M : Methods K (Agent A) Op Val) (N : Net K Op Val) (E : List String → K → Agent A → Agent A → Prop) (r : RNSt K A Val) (s : LSt K A Val) : Prop where
  cur : s.cur = r.cur
  log : s.log = r.log
  ending : r.ending = none
  feasible : Feasible N r.cur r.left
  actor : E r.left s.base.now s.base.actor r.base.actor
  starting : s.phase = .starting → r.phase = .running ∧ r.base = rinit s.base.now r.base.actor ∧ Idle s.base
  running : s.phase = .running → r.phase = .running ∧ s.base.status = .running ∧ Follows M (E r.left) r.base s.base
  ended : s.phase = .ended → r.phase = .ended ∧ r.base.now = s.base.now ∧ r.base.routine = none ∧ r.base.hist = s.base.hist ∧ Idle s.base
  dead : s.phase = .dead → r.phase = .dead

theorem NFollows.along {M : Methods K (Agent A) Op Val} {N : Net K Op Val} {E : List String → K → Agent A → Agent A → Prop} {r : RNSt K A Val} {s : LSt K A Val} (h : NFollows M N E r s) :
    Along E r s where
  cur := h.cur
  log := h.log
  actor := h.actor
  starting := fun hp => by
    obtain ⟨h1, h2, -⟩ := h.starting hp
    refine ⟨h1, by rw [h2]; rfl, ?_⟩
    rw [h2]
    simp [rinit, RSt.time]
  executes := fun hp hw => by
    obtain ⟨h1, h2, h3⟩ := h.running hp
    obtain ⟨g1, g2, -, g4⟩ := h3.free hw
    exact ⟨h1, g1.symm, (g4 h2).1⟩
  waits := fun hp hw => by
    obtain ⟨h1, h2, h3⟩ := h.running hp
    obtain ⟨c, hc⟩ := Option.ne_none_iff_exists'.1 hw
    obtain ⟨g1, -, -, h4, h5, -⟩ := h3.waits c hc
    obtain ⟨i, hi, hle⟩ := bound _ _ _ _ c h4.ok h4.unp
    refine ⟨h1, g1.symm, ?_, List.ne_nil_of_mem hi⟩
    rw [h5]
    exact (h4.queue.ahead i hi).trans hle
  ended := fun hp => by
    obtain ⟨h1, h2, h3, h4, -⟩ := h.ended hp
    exact ⟨h1, h4.symm, by simp [RSt.time, h3, h2]⟩
  dead := h.dead

variable {M : Methods K (Agent A) Op Val} {N : Net K Op Val} {stop : Option String} {E : List String → K → Agent A → Agent A → Prop}

/-- A task is begun on both sides. -/
theorem NFollows.begin {r : RNSt K A Val} {s : LSt K A Val} (hlog : s.log = r.log) (hend : r.ending = none) (hnow : r.base.now = s.base.now) (hi : Idle s.base) (u : String) (left : List String) (hf : Feasible N u left)
    (hq : s.base.actor.2.head? = some u ∨ s.base.actor.2 = []) (hE : E left s.base.now (s.base.actor.1, s.base.actor.2.tail) r.base.actor) :
    NFollows M N E (rbegin N stop r u left) (begin_ N s u) ∨ AtEnd N E (rbegin N stop r u left) (begin_ N s u) := by
  obtain ⟨base, cur, ph, log⟩ := s
  dsimp only at hlog hnow hi hq hE
  have hs : begin_ N ⟨base, cur, ph, log⟩ u = ⟨{ base with actor := (base.actor.1, base.actor.2.tail) }, u, if (N.jobs u).isSome then .starting else .dead, log ++ [(u, base.now)]⟩ := by
    obtain ⟨now, q, ⟨act, que⟩, ws, nx, wt, rt, hist, st⟩ := base
    unfold begin_
    dsimp only at hq ⊢
    cases que with
    | nil => rfl
    | cons x l =>
      have : x = u := by simpa using hq
      subst this
      simp
  rw [hs]
  unfold rbegin
  by_cases hst : stop = some u
  · rw [if_pos hst]
    right
    refine ⟨rfl, hnow.symm, hE, fun h => (nomatch h), fun e he => ?_⟩
    cases he
    refine ⟨rfl, ?_, ?_⟩
    · dsimp only
      rw [hlog, hnow]
    · dsimp only
      cases N.jobs u with
      | none => exact .inr rfl
      | some j => exact .inl rfl
  · rw [if_neg hst]
    left
    have hi' : Idle { base with actor := (base.actor.1, base.actor.2.tail) } := ⟨hi.waiting, hi.queue⟩
    cases hj : (N.jobs u).isSome with
    | true =>
      refine ⟨rfl, ?_, hend, hf, hE, fun _ => ⟨rfl, ?_, hi'⟩, fun h => (nomatch h), fun h => (nomatch h), fun h => (nomatch h)⟩
      · dsimp only; rw [hlog, hnow]
      · dsimp only; rw [hnow]; rfl
    | false =>
      refine ⟨rfl, ?_, hend, hf, hE, fun h => (nomatch h), fun h => (nomatch h), fun h => (nomatch h), fun _ => rfl⟩
      dsimp only; rw [hlog, hnow]

theorem feasible_of {N : Net K Op Val} {cur u : String} (h : ∃ k, N.links cur = some k ∧ u ∈ k.allowed) : feasible N cur u = true := by
  obtain ⟨k, h1, h2⟩ := h
  simp [feasible, h1, h2]

/-- One step of the loop. -/
theorem NFollows.step (hE : Matched M stop E) (hN : Honest N) {r : RNSt K A Val} {s : LSt K A Val} (h : NFollows M N E r s)
    (hp : r.phase = .running → Predictable r.base (rcodeOf N r.cur r.base.hist)) (g : Turn K Op) (hg : Harmless M g) :
    NFollows M N E r (lstep M N g s) ∨ NFollows M N E (nstep M N stop r) (lstep M N g s) ∨ AtEnd N E (nstep M N stop r) s ∨ AtEnd N E (nstep M N stop r) (lstep M N g s) := by
  unfold lstep
  cases hph : s.phase with
  | dead => exact .inl h
  | starting =>
    dsimp only
    obtain ⟨h1, h2, h3⟩ := h.starting hph
    by_cases hgo : (g.go || !due s.base) = true
    · rw [if_pos hgo]
      left
      have hF : Follows M (E r.left) r.base (Predict.init s.base.now s.base.actor (s.base.queue.map retire)) := by
        rw [h2]
        exact Follows.init s.base.now _ _ h.actor _ h3.before
      exact ⟨h.cur, h.log, h.ending, h.feasible, h.actor, fun hx => (nomatch hx), fun _ => ⟨h1, rfl, hF⟩, fun hx => (nomatch hx), fun hx => (nomatch hx)⟩
    · rw [if_neg hgo]
      left
      have hd : due s.base = true := by
        cases hx : due s.base with
        | true => rfl
        | false => rw [hx] at hgo; simp at hgo
      obtain ⟨k1, k2, k3, -⟩ := h3.tick (hE.congruent r.left) h.actor g.other hg hd
      refine ⟨h.cur, h.log, h.ending, h.feasible, ?_, fun _ => ⟨h1, ?_, k1⟩, fun hx => ?_, fun hx => ?_, fun hx => ?_⟩
      · show E r.left (tick M g.other s.base).now _ _
        rw [k2]; exact k3
      · show r.base = rinit (tick M g.other s.base).now _
        rw [k2]; exact h2
      all_goals
        cases hx
  | ended =>
    dsimp only
    obtain ⟨h1, h2, h3, h4, h5⟩ := h.ended hph
    by_cases hgo : (g.go || !due s.base) = true
    · rw [if_pos hgo]
      right
      have hr : nstep M N stop r = rproceed N stop r := by unfold nstep; rw [h1]
      rw [hr]
      unfold rproceed proceed
      cases hl : r.left with
      | cons u left =>
        have hfe := h.feasible
        rw [hl] at hfe
        have hA := h.actor
        rw [hl] at hA
        obtain ⟨e1, e2⟩ := hE.listed u left _ _ _ hA
        dsimp only
        rw [if_pos (feasible_of hfe.1)]
        obtain ⟨k, hk, -⟩ := hfe.1
        have hn : nextName N s.cur s.base.actor.2 = some u := by
          rw [h.cur]
          unfold nextName
          rw [hk]
          cases hq : s.base.actor.2 with
          | nil => rw [hq] at e1; cases e1
          | cons x l => rw [hq] at e1; simpa using e1
        rw [hn]
        dsimp only
        rcases NFollows.begin (M := M) (stop := stop) h.log h.ending h2 h5 u left hfe.2 (.inl e1) e2 with hb | hb
        · exact .inl hb
        · exact .inr (.inr hb)
      | nil =>
        dsimp only
        have hA := h.actor
        rw [hl] at hA
        cases hs : stop with
        | none =>
          dsimp only
          right; left
          have hend := h.ending
          refine ⟨rfl, h2.symm, hA, fun _ => ⟨hph, h.cur, h.log⟩, fun e he => ?_⟩
          rw [show r.ending = some e from he] at hend
          cases hend
        | some e =>
          dsimp only
          obtain ⟨e1, e2⟩ := hE.after (by rw [hs]; simp) _ _ _ hA
          have hcur := h.cur
          rw [show nextName N s.cur s.base.actor.2 = nextName N r.cur r.base.actor.2 by rw [h.cur, e1]]
          cases hn : nextName N r.cur r.base.actor.2 with
          | none =>
            dsimp only
            left
            exact ⟨h.cur, h.log, h.ending, trivial, hA, fun hx => (nomatch hx), fun hx => (nomatch hx), fun hx => (nomatch hx), fun _ => rfl⟩
          | some u =>
            dsimp only
            have hq : s.base.actor.2.head? = some u ∨ s.base.actor.2 = [] := by
              rw [e1]
              unfold nextName at hn
              cases hk : N.links r.cur with
              | none => rw [hk] at hn; cases hn
              | some k =>
                rw [hk] at hn
                cases hy : r.base.actor.2 with
                | nil => exact .inr rfl
                | cons x l => rw [hy] at hn; left; simpa using hn
            have hb := NFollows.begin (M := M) (N := N) (E := E) (stop := some e) (r := { r with base := { r.base with actor := (r.base.actor.1, r.base.actor.2.tail) } }) (s := s) h.log h.ending h2 h5 u []
              trivial hq e2
            rcases hb with hb | hb
            · exact .inl hb
            · exact .inr (.inr hb)
    · rw [if_neg hgo]
      left
      have hd : due s.base = true := by
        cases hx : due s.base with
        | true => rfl
        | false => rw [hx] at hgo; simp at hgo
      obtain ⟨k1, k2, k3, k4, k5⟩ := h5.tick (hE.congruent r.left) h.actor g.other hg hd
      refine ⟨h.cur, h.log, h.ending, h.feasible, ?_, fun hx => ?_, fun hx => ?_, fun _ => ⟨h1, ?_, h3, ?_, k1⟩, fun hx => ?_⟩
      · show E r.left (tick M g.other s.base).now _ _
        rw [k2]; exact k3
      · cases hx
      · cases hx
      · show _ = (tick M g.other s.base).now
        rw [k2]; exact h2
      · show _ = (tick M g.other s.base).hist
        rw [k4]; exact h4
      · cases hx
  | running =>
    dsimp only
    obtain ⟨h1, h2, h3⟩ := h.running hph
    by_cases hx : s.base.status = .running ∧ s.base.waiting.isNone = true
    · have hw : s.base.waiting = none := by simpa using hx.2
      right; left
      obtain ⟨g1, g2, -, g4⟩ := h3.free hw
      have hr : nstep M N stop r = { r with base := rstep M r.base (rcodeOf N r.cur r.base.hist), phase := rphaseOf (rstep M r.base (rcodeOf N r.cur r.base.hist)) } := by
        unfold nstep; rw [h1]
      have hs : Predict.step M (codeOf N s.cur) g.other s.base = exec M s.base (rcodeOf N r.cur r.base.hist) := by
        unfold Predict.step
        rw [if_pos hx, codeOf_eq hN, h.cur, g1]
      have hX := h3.exec (hE.congruent r.left) h2 hw _ (hp h1)
      rw [hr, hs]
      have hrr : r.base.status = .running := by rw [g2]; exact h2
      generalize hc : rcodeOf N r.cur r.base.hist = c at hX
      have hst : (rstep M r.base c).status = (exec M s.base c).status := by
        cases hwx : (exec M s.base c).waiting with
        | none => exact (hX.free hwx).2.1
        | some t => rw [(hX.waits t hwx).2.1, (hX.waits t hwx).2.2.1]
      have hrun : rphaseOf (rstep M r.base c) = match (exec M s.base c).status with | .running => .running | .finished => .ended | .raised => .dead := by
        unfold rphaseOf
        rw [hst]
        cases (exec M s.base c).status <;> rfl
      refine ⟨h.cur, h.log, h.ending, h.feasible, hX.actor, fun hy => ?_, fun hy => ?_, fun hy => ?_, fun hy => ?_⟩
      · have hy : phaseOf (exec M s.base c) = _ := hy
        unfold phaseOf at hy
        split at hy <;> cases hy
      · have hy : phaseOf (exec M s.base c) = _ := hy
        unfold phaseOf at hy
        split at hy
        · rename_i he
          refine ⟨?_, he, hX⟩
          show rphaseOf _ = _
          rw [hrun, he]
        · cases hy
        · cases hy
      · have hy : phaseOf (exec M s.base c) = _ := hy
        unfold phaseOf at hy
        split at hy
        · cases hy
        · rename_i he
          have hret := exec_end M _ _ h2 he
          have hdone := rstep_done M r.base c hrr (by rw [hst]; exact he)
          have hwx : (exec M s.base c).waiting = none := by
            cases hwx : (exec M s.base c).waiting with
            | none => rfl
            | some t => rw [(hX.waits t hwx).2.2.1] at he; cases he
          refine ⟨?_, ?_, hdone, (hX.free hwx).1, ⟨hwx, (hX.free hwx).2.2.1⟩⟩
          · show rphaseOf _ = _
            rw [hrun, he]
          · show (rstep M r.base c).now = (exec M s.base c).now
            have hro : r.base.routine = none := by
              rw [hret] at hdone
              simp only [rstep] at hdone
              split at hdone <;> exact hdone
            have ht := (g4 h2).1
            simp only [RSt.time, hro, Option.getD_none, add_zero] at ht
            rw [hret]
            simp only [rstep, Verif.Predict.exec]
            split <;> split <;> exact ht.symm
        · cases hy
      · have hy : phaseOf (exec M s.base c) = _ := hy
        unfold phaseOf at hy
        split at hy
        · cases hy
        · cases hy
        · rename_i he
          show rphaseOf _ = _
          rw [hrun, he]
    · left
      have hs : Predict.step M (codeOf N s.cur) g.other s.base = tick M g.other s.base := by
        unfold Predict.step
        rw [if_neg hx]
      rw [hs]
      have hT := h3.tick (hE.congruent r.left) g.other hg hx
      have hph' : phaseOf (tick M g.other s.base) = .running := by
        unfold phaseOf
        rw [tick_status, h2]
      rw [hph']
      exact ⟨h.cur, h.log, h.ending, h.feasible, hT.actor, fun hy => (nomatch hy), fun _ => ⟨h1, by show (tick M g.other s.base).status = _; rw [tick_status]; exact h2, hT⟩, fun hy => (nomatch hy), fun hy => (nomatch hy)⟩

end Verif.Plan
