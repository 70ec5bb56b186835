import Verif.Patrol.Given

/-! # C76: who is being watched, in terms of what was done -/

namespace Verif.Stepped

/-- What changes the objects being watched. -/
theorem detectables_step (c : Cfg) (σ : St) (o : Op) (h : InvA σ) :
    (step c σ o).1.detectables = (match o with
      | .addDetectable a true => addKey σ.detectables a
      | .startMover a true => addKey σ.detectables a
      | .stopMover a => σ.detectables.erase a
      | _ => σ.detectables) := by
  cases o with
  | addSensor s ok => cases ok <;> rfl
  | addDetectable a ok => cases ok <;> rfl
  | startMover a ok =>
    have hs : ∀ τ : St, τ.detectables = σ.detectables → (addMover τ a ok).1.detectables = (match ok with | true => addKey σ.detectables a | false => σ.detectables) := by
      intro τ hτ
      simp only [addMover, addKey, hτ]
      cases ok <;> split <;> simp_all
    simp only [step]
    split
    · cases ok <;> exact hs _ rfl
    · cases ok <;> exact hs _ rfl
  | stopMover a => rfl
  | setDetectable a v L =>
    cases v with
    | true => exact (runDetectable_invA L (some [a]) { σ with det := fun b => if b = a then true else σ.det b } (h.frame rfl rfl)).2.1.detectables
    | false => rfl
  | particular a L => exact (runDetectable_invA L (some [a]) σ h).2.1.detectables
  | run => rfl
  | beginRun =>
    simp only [step]
    split
    · rfl
    · split
      · rfl
      · split <;> rfl
  | timer empty L =>
    rcases timer_cases σ with ⟨n, rest, hl⟩ | hl
    · obtain ⟨τ, o, hr, -, h2, -⟩ := timer_eq c σ empty L n rest hl
      have := (runDetectable_invA L none { σ with loops := rest, checks := σ.checks ++ [(σ.now, empty)] } (h.frame rfl rfl)).2.1.detectables
      rw [hr] at this
      rw [h2]
      have ha : (again c n empty τ).detectables = τ.detectables := by
        unfold again
        split <;> (try split) <;> rfl
      by_cases ho : o = .ok
      · rw [if_pos ho, ha]; exact this
      · rw [if_neg ho]; exact this
    · rw [timer_other c σ empty L hl]
  | advance t => simp only [step]; split <;> rfl
  | reorder view => simp only [step]; split <;> rfl

theorem addKey_nodup_watched {l : List Obj} (h : l.Nodup) (a : Obj) : (addKey l a).Nodup := by
  unfold addKey
  split
  · exact h
  · rename_i ha
    exact List.nodup_append.2 ⟨h, by simp, by simpa using fun x hx (hc : x = a) => ha (hc ▸ hx)⟩

end Verif.Stepped

namespace Verif.Patrol

open Verif.Stepped (Obj Aware)

variable {P : Type}

/-- The operations of a run with their answers. -/
noncomputable def answers (c : Cfg P) : World P → List (Op P) → List (Op P × Out P)
  | _, [] => []
  | w, o :: os => (o, (step c w o).2) :: answers c (step c w o).1 os

/-- The location state by which `a` is to be watched after an operation: the one with which it was made detectable, or the first of its location states if
it set out without being watched; it is no longer watched once it has arrived. Clones do not count. -/
def spotAfter (c : Cfg P) (a : Obj) (e : Option Nat) : Op P × Out P → Option Nat
  | (.addDetectable b n, _) => if b = a ∧ n ∈ c.states a then some n else e
  | (.activate b _ _ _, .path .done) => if b = a ∧ c.copy a = false then some (e.getD ((c.states a).headD 0)) else e
  | (.deactivate b _, .path .done) => if b = a ∧ c.copy a = false then none else e
  | _ => e

/-- The location state by which `a` is to be watched after a run. -/
def spotGiven (c : Cfg P) (a : Obj) (l : List (Op P × Out P)) : Option Nat := l.foldl (spotAfter c a) none

theorem spot_kept (c : Cfg P) (w w' : World P) (h1 : w'.mgr.detectables = w.mgr.detectables) (h2 : w'.spots = w.spots) (a : Obj) :
    eyeNow w'.mgr.detectables w'.spots a = eyeNow w.mgr.detectables w.spots a := by rw [h1, h2]

/-- What an operation does to who is being watched. -/
theorem spot_step (c : Cfg P) (w : World P) (h : Sound c w) (hn : w.mgr.detectables.Nodup) (o : Op P) (a : Obj) :
    (step c w o).1.mgr.detectables.Nodup ∧
    eyeNow (step c w o).1.mgr.detectables (step c w o).1.spots a = spotAfter c a (eyeNow w.mgr.detectables w.spots a) (o, (step c w o).2) := by
  have keep : ∀ w' : World P, w'.mgr.detectables = w.mgr.detectables → w'.spots = w.spots → w'.mgr.detectables.Nodup ∧
      eyeNow w'.mgr.detectables w'.spots a = eyeNow w.mgr.detectables w.spots a := fun w' h1 h2 => ⟨by rw [h1]; exact hn, by rw [h1, h2]⟩
  have hask : ∀ q : Stepped.Op, (Stepped.step c.mgr w.mgr q).1.detectables = w.mgr.detectables → _ := fun q hq => keep (ask c w q).1 hq rfl
  have hcheck : ∀ (μ : Stepped.St) (req) (f : Stepped.Look → Stepped.Op), (∀ L, (Stepped.step c.mgr w.mgr (f L)).1.detectables = w.mgr.detectables) → _ :=
    fun μ req f hf => keep (check c w μ req f).1 (hf _) (scan_spec c w h.ready μ req).1.spots
  have hadd : ∀ (b : Obj) (n : Nat) (w' : World P), w'.mgr.detectables = Stepped.addKey w.mgr.detectables b → w'.spots = upd w.spots b n →
      w'.mgr.detectables.Nodup ∧ eyeNow w'.mgr.detectables w'.spots a = if b = a then some n else eyeNow w.mgr.detectables w.spots a := by
    intro b n w' h1 h2
    refine ⟨by rw [h1]; exact Stepped.addKey_nodup_watched hn b, ?_⟩
    rw [h1, h2]
    unfold eyeNow
    by_cases hb : b = a
    · subst hb
      rw [if_pos (Stepped.mem_addKey.2 (.inr rfl)), if_pos rfl]
      simp [upd]
    · rw [if_neg hb]
      simp [Stepped.mem_addKey, upd, Ne.symm hb]
  cases o with
  | activate b n v ws =>
    simp only [step, Op.uses]
    split
    · simp only [act, activate]
      split
      · rename_i τ hτ
        split
        · rename_i hc
          simp only [spotAfter]
          rw [if_neg (by rintro ⟨rfl, h2⟩; rw [hc] at h2; cases h2)]
          exact ⟨hn, rfl⟩
        · rename_i hc
          simp only [spotAfter]
          have hd := Stepped.detectables_step c.mgr w.mgr (.startMover b true) h.inv.toInvA
          dsimp only at hd ⊢
          by_cases hb : b ∈ w.mgr.detectables
          · have hk : Stepped.addKey w.mgr.detectables b = w.mgr.detectables := if_pos hb
            rw [hd, hk, if_pos hb]
            refine ⟨hn, ?_⟩
            show eyeNow w.mgr.detectables w.spots a = _
            split
            · rename_i hba
              obtain ⟨rfl, -⟩ := hba
              simp [eyeNow, hb]
            · rfl
          · rw [if_neg hb]
            obtain ⟨g1, g2⟩ := hadd b ((c.states b).headD 0) { w with spots := upd w.spots b ((c.states b).headD 0), mgr := (Stepped.step c.mgr w.mgr (.startMover b true)).1 } hd rfl
            refine ⟨g1, g2.trans ?_⟩
            by_cases hba : b = a
            · subst hba
              rw [if_pos rfl, if_pos ⟨rfl, by simpa using hc⟩]
              simp [eyeNow, hb]
            · rw [if_neg hba, if_neg (fun hc => hba hc.1)]
      · rename_i τ o hne hτ
        refine ⟨hn, ?_⟩
        have : spotAfter c a (eyeNow w.mgr.detectables w.spots a) (.activate b n v ws, .path o) = eyeNow w.mgr.detectables w.spots a := by
          cases o <;> first | rfl | exact absurd rfl hne
        exact this.symm
    · exact ⟨hn, rfl⟩
  | deactivate b n =>
    simp only [step, Op.uses]
    split
    · simp only [act, deactivate]
      split
      · rename_i τ hτ
        split
        · rename_i hc
          simp only [spotAfter]
          rw [if_neg (by rintro ⟨rfl, h2⟩; rw [hc] at h2; cases h2)]
          exact ⟨hn, rfl⟩
        · rename_i hc
          simp only [spotAfter]
          refine ⟨hn.erase b, ?_⟩
          show eyeNow (w.mgr.detectables.erase b) w.spots a = _
          by_cases hba : b = a
          · subst hba
            rw [if_pos ⟨rfl, by simpa using hc⟩]
            exact if_neg (fun hm => (hn.mem_erase_iff.1 hm).1 rfl)
          · rw [if_neg (fun hc => hba hc.1)]
            unfold eyeNow
            simp [hn.mem_erase_iff, Ne.symm hba]
      · rename_i τ o hne hτ
        refine ⟨hn, ?_⟩
        have : spotAfter c a (eyeNow w.mgr.detectables w.spots a) (.deactivate b n, .path o) = eyeNow w.mgr.detectables w.spots a := by
          cases o <;> first | rfl | exact absurd rfl hne
        exact this.symm
    · exact ⟨hn, rfl⟩
  | read b n => simp only [step, Op.uses]; split <;> exact ⟨hn, rfl⟩
  | remaining b n => simp only [step, Op.uses]; split <;> exact ⟨hn, rfl⟩
  | assign b n p => simp only [step, Op.uses]; split <;> exact ⟨hn, rfl⟩
  | setRadius b r => exact ⟨hn, rfl⟩
  | detect b v =>
    simp only [step, Op.uses, act]
    cases v with
    | true => exact hcheck _ _ _ fun L => Stepped.detectables_step c.mgr w.mgr (.setDetectable b true L) h.inv.toInvA
    | false => exact hask _ (Stepped.detectables_step c.mgr w.mgr (.setDetectable b false blind) h.inv.toInvA)
  | addSensor b n =>
    simp only [step, Op.uses, act]
    split
    · exact keep _ rfl rfl
    · exact keep _ rfl rfl
  | addDetectable b n =>
    simp only [step, Op.uses, act]
    split
    · rename_i hm
      obtain ⟨g1, g2⟩ := hadd b n (ask c { w with spots := upd w.spots b n } (.addDetectable b true)).1 rfl rfl
      refine ⟨g1, g2.trans ?_⟩
      simp only [spotAfter]
      by_cases hba : b = a
      · subst hba; rw [if_pos rfl, if_pos ⟨rfl, hm⟩]
      · rw [if_neg hba, if_neg (fun hc => hba hc.1)]
    · rename_i hm
      refine ⟨hn, ?_⟩
      simp only [spotAfter]
      rw [if_neg (by rintro ⟨rfl, h2⟩; exact hm h2)]
      rfl
  | particular b => exact hcheck _ _ _ fun L => Stepped.detectables_step c.mgr w.mgr (.particular b L) h.inv.toInvA
  | run => exact ⟨hn, rfl⟩
  | beginRun => exact hask _ (Stepped.detectables_step c.mgr w.mgr .beginRun h.inv.toInvA)
  | timer empty =>
    simp only [step, Op.uses, act]
    split
    · exact ⟨hn, rfl⟩
    · split
      · exact ⟨hn, rfl⟩
      · exact hcheck _ _ _ fun L => Stepped.detectables_step c.mgr w.mgr (.timer empty L) h.inv.toInvA
  | reorder view => exact hask _ (Stepped.detectables_step c.mgr w.mgr (.reorder view) h.inv.toInvA)
  | mock b t =>
    simp only [step, Op.uses, act]
    split <;> exact ⟨hn, rfl⟩
  | advance t =>
    simp only [step, Op.uses, act, Stepped.step]
    split
    · rename_i heq
      split at heq
      · simp only [Prod.mk.injEq, and_true] at heq; subst heq; exact ⟨hn, rfl⟩
      · cases heq
    · exact ⟨hn, rfl⟩

/-- **C76, who is watched.** At any time an object is being watched exactly if it was made detectable with an existing location state, or set out, and has not
arrived since; checks read the location state it was made detectable with, or its first one. Clones are not watched for setting out. -/
theorem c76_watched (c : Cfg P) (t0 : Rat) (det : Obj → Bool) (radius : Obj → ℝ) (val : Obj → Nat → P) (ops : List (Op P)) (w : World P)
    (hw : w = run c (init t0 det radius val) ops) (a : Obj) :
    (a ∈ w.mgr.detectables ↔ (spotGiven c a (answers c (init t0 det radius val) ops)).isSome) ∧
    ∀ n, spotGiven c a (answers c (init t0 det radius val) ops) = some n → w.spots a = n := by
  have key : ∀ (ops : List (Op P)) (w : World P), Sound c w → w.mgr.detectables.Nodup →
      eyeNow (run c w ops).mgr.detectables (run c w ops).spots a = (answers c w ops).foldl (spotAfter c a) (eyeNow w.mgr.detectables w.spots a) := by
    intro ops
    induction ops with
    | nil => exact fun w _ _ => rfl
    | cons o ops ih =>
      intro w h hn
      obtain ⟨h1, -, -⟩ := step_does c w h o a 0
      obtain ⟨k1, k2⟩ := spot_step c w h hn o a
      simp only [run, answers, List.foldl_cons]
      rw [ih _ h1 k1, k2]
  have h3 := key ops _ (Sound.init c t0 det radius val) List.nodup_nil
  have h0 : eyeNow (init t0 det radius val).mgr.detectables (init t0 det radius val).spots a = none := if_neg (fun hc => by cases hc)
  rw [h0, ← hw] at h3
  unfold spotGiven
  rw [← h3]
  unfold eyeNow
  refine ⟨?_, fun n hn => ?_⟩
  · split <;> simp_all
  · split at hn
    · exact Option.some.inj hn
    · cases hn

/-- An object made detectable with its second location state is watched there. -/
example (c : Cfg P) (hc : c.states = fun _ => [0, 1]) (val : Obj → Nat → P) :
    let w := run c (init 0 (fun _ => true) (fun _ => 5) val) [.addDetectable 3 2, .addDetectable 2 1, .setRadius 1 9]
    2 ∈ w.mgr.detectables ∧ w.spots 2 = 1 ∧ 3 ∉ w.mgr.detectables := by
  intro w
  have h2 := c76_watched c 0 (fun _ => true) (fun _ => 5) val _ w rfl 2
  have h3 := c76_watched c 0 (fun _ => true) (fun _ => 5) val _ w rfl 3
  have e2 : spotGiven c 2 (answers c (init 0 (fun _ => true) (fun _ => 5) val) [.addDetectable 3 2, .addDetectable 2 1, .setRadius 1 9]) = some 1 := by
    simp [spotGiven, answers, spotAfter, hc]
  have e3 : spotGiven c 3 (answers c (init 0 (fun _ => true) (fun _ => 5) val) [.addDetectable 3 2, .addDetectable 2 1, .setRadius 1 9]) = none := by
    simp [spotGiven, answers, spotAfter, hc]
  exact ⟨h2.1.2 (by rw [e2]; rfl), h2.2 1 e2, fun hm => by have := h3.1.1 hm; rw [e3] at this; cases this⟩

end Verif.Patrol
