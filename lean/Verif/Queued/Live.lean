import Verif.Queued.Begin

/-! # Processes alive, and what remains after a stop -/

namespace Verif.Queued

open Verif.Sphere (Tag)

variable {α L : Type} [Field α] [LinearOrder α] [IsStrictOrderedRing α]

/-- The processes alive and not interrupted are known to the manager, and no timeout is overdue. -/
def Live (σ : St α L) : Prop := ∀ (i : Nat) (p : Proc α), σ.procs[i]? = some p → p.stage ≠ .over →
  (p.intr = true ∨ (p.sensor, i) ∈ σ.events p.mover) ∧ (∀ due, p.stage = .entry due ∨ p.stage = .exit due → σ.now ≤ due)

theorem schedule_live (m s : Nat) (σ : St α L) (q) (h : Live σ) : Live (schedule m s σ q) := by
  unfold schedule
  split
  · exact h
  · intro i p hp hst
    have hmem : ∀ (e : Nat × Nat) (m' : Nat), e ∈ σ.events m' → e ∈ upd σ.events m (σ.events m ++ [(s, σ.procs.length)]) m' := by
      intro e m' he
      by_cases hm : m' = m
      · subst hm; rw [upd_self]; simp [he]
      · rw [upd_ne _ _ hm]; exact he
    dsimp only at hp ⊢
    rw [List.getElem?_append] at hp
    split at hp
    · obtain ⟨h1, h2⟩ := h i p hp hst
      exact ⟨h1.imp id (hmem _ _), h2⟩
    · rename_i hi
      have hi' : i - σ.procs.length = 0 := by
        have := (List.getElem?_eq_some_iff.1 hp).1
        simp at this; omega
      rw [hi'] at hp
      simp at hp
      subst hp
      refine ⟨.inr ?_, fun due hd => ?_⟩
      · dsimp only
        rw [upd_self, show i = σ.procs.length by omega]; simp
      · rcases hd with hd | hd <;> cases hd

theorem findOne_live (I : Inter α L) (σ : St α L) (m s : Nat) (h : Live σ) : Live (findOne I σ m s).1 := by
  unfold findOne
  split
  · exact h
  · split
    · exact h
    · rename_i ps _
      dsimp only
      clear * - h
      induction ps generalizing σ with
      | nil => exact h
      | cons p l ih => exact ih _ (schedule_live m s σ p h)

theorem find_live (I : Inter α L) (l) (σ : St α L) (h : Live σ) : Live (find I l σ).1 := by
  induction l generalizing σ with
  | nil => exact h
  | cons p l ih =>
    rw [find_cons]
    split
    · exact ih _ (findOne_live I σ _ _ h)
    · exact findOne_live I σ _ _ h

theorem taken_live (σ : St α L) (m : Nat) (hw : Wf σ) (h : Live σ) : Live (taken σ m) := by
  intro i p hp hst
  simp only [taken] at hp ⊢
  rw [interrupt_get] at hp
  obtain ⟨q, hq, rfl⟩ := Option.map_eq_some_iff.1 hp
  split at hst
  · rename_i hc
    rw [if_pos hc]
    exact ⟨.inl rfl, (h i q hq hc.2).2⟩
  · rename_i hc
    rw [if_neg hc]
    obtain ⟨h1, h2⟩ := h i q hq hst
    refine ⟨h1.imp id fun he => ?_, h2⟩
    by_cases hm : q.mover = m
    · exact absurd ⟨List.mem_map.2 ⟨_, hm ▸ he, rfl⟩, hst⟩ hc
    · rw [upd_ne _ _ hm]; exact he

theorem setProc_live (σ : St α L) (i : Nat) (p q : Proc α) (hp : σ.procs[i]? = some p) (h1 : q.mover = p.mover) (h2 : q.sensor = p.sensor) (h3 : q.intr = p.intr)
    (h4 : p.stage ≠ .over) (h5 : ∀ due, q.stage = .entry due ∨ q.stage = .exit due → σ.now ≤ due) (h : Live σ) : Live (setProc σ i q) := by
  intro j p' hp' hst
  rw [setProc_get σ i p q hp] at hp'
  split at hp'
  · rename_i hj
    cases hp'
    subst hj
    have := (h j p hp h4).1
    rw [h1, h2, h3]
    exact ⟨this, h5⟩
  · exact h j p' hp' hst

theorem afterEntry_live (σ : St α L) (i : Nat) (p : Proc α) (hp : σ.procs[i]? = some p) (hst : p.stage ≠ .over) (h : Live σ) : Live (afterEntry σ i p).1 := by
  unfold afterEntry
  split
  · exact setProc_live σ i p _ hp rfl rfl rfl hst (by simp) h
  · split
    · exact setProc_live σ i p _ hp rfl rfl rfl hst (by simp) h
    · rename_i hc
      refine setProc_live σ i p _ hp rfl rfl rfl hst (fun due hd => ?_) h
      rcases hd with hd | hd
      · cases hd
      · cases hd; exact (not_le.1 hc).le

theorem tell_live (σ : St α L) (m s : Nat) (e : Bool) (h : Live σ) : Live (tell σ m s e) := h

theorem addToView_live (σ : St α L) (m s : Nat) (h : Live σ) : Live (addToView σ m s) := by
  unfold addToView; split <;> exact h

theorem addToView_procs (σ : St α L) (m s : Nat) : (addToView σ m s).procs = σ.procs := by unfold addToView; split <;> rfl

theorem fire_live (σ : St α L) (i : Nat) (h : Live σ) : Live (fire σ i).1 := by
  unfold fire
  split
  · exact h
  · rename_i p hp
    have hover : p.stage ≠ .over → Live (setProc σ i { p with stage := .over }) := fun hst => setProc_live σ i p _ hp rfl rfl rfl hst (by simp) h
    cases hst : p.stage with
    | over => exact h
    | fresh =>
      have hne : p.stage ≠ .over := by rw [hst]; simp
      simp only [begins]
      split
      · refine afterEntry_live _ i p ?_ hne ?_
        · split
          · rw [addToView_procs]; exact hp
          · simp only [tell]; rw [addToView_procs]; exact hp
        · split
          · exact addToView_live _ _ _ h
          · exact tell_live _ _ _ _ (addToView_live _ _ _ h)
      · rename_i hc
        split
        · exact hover hne
        · refine setProc_live σ i p _ hp rfl rfl rfl hne (fun due hd => ?_) h
          rcases hd with hd | hd
          · cases hd; push Not at hc; exact hc.2.le
          · cases hd
    | entry due =>
      have hne : p.stage ≠ .over := by rw [hst]; simp
      dsimp only
      split
      · exact hover hne
      · split
        · exact afterEntry_live _ i p (by rw [addToView_procs]; exact hp) hne (addToView_live _ _ _ (tell_live _ _ _ _ h))
        · exact h
    | exit due =>
      have hne : p.stage ≠ .over := by rw [hst]; simp
      dsimp only
      split
      · exact hover hne
      · split
        · simp only [leaves]
          split
          · exact hover hne
          · exact hover hne
        · exact h

theorem stopMover_live (σ : St α L) (m : Nat) (b : Bool) (hw : Wf σ) (h : Live σ) : Live (stopMover σ m b).1 := by
  rcases stopMover_cases σ m b with ⟨o, ho⟩ | ⟨_, ho⟩ <;> rw [ho]
  · exact h
  · exact taken_live σ m hw h

theorem step_live (I : Inter α L) (σ : St α L) (o : Op α L) (hw : Wf σ) (h : Live σ) : Live (step I σ o).1 := by
  cases o with
  | start m v ws =>
    simp only [step, startMover]
    split
    · exact h
    · exact h
    · split
      · exact h
      · exact find_live I _ _ h
  | stop m => exact stopMover_live σ m false hw h
  | detect m v =>
    simp only [step]
    rcases setDetect_cases σ m v with ho | ⟨_, ho⟩ | ⟨_, _, ho⟩ <;> rw [ho]
    · exact h
    · exact h
    · exact stopMover_live _ m true (hidden_wf σ m v hw) h
  | addSensor s => exact find_live I _ _ h
  | fire i => exact fire_live σ i h
  | advance t =>
    simp only [step]
    split
    · rename_i hc
      intro i p hp hst
      refine ⟨(h i p hp hst).1, fun due hd => ?_⟩
      have := hc.2 p (List.mem_of_getElem? hp)
      rcases hd with hd | hd <;> simp only [Idle, hd] at this <;> exact this.2
    · exact h

theorem run_live (I : Inter α L) (ops : List (Op α L)) (σ : St α L) (hw : Wf σ) (h : Live σ) : Live (run I σ ops) := by
  induction ops generalizing σ with
  | nil => exact h
  | cons o l ih => exact ih _ (step_wf I σ o hw) (step_live I σ o hw h)

theorem init_live (now : α) (det) : Live (St.init now det : St α L) := by intro i p hp; simp [St.init] at hp

/-! ### After a stop -/

/-- The processes of `m` and `s` can do nothing but end. -/
def Dead (σ : St α L) (m s : Nat) : Prop := ∀ p ∈ σ.procs, p.mover = m → p.sensor = s → p.stage = .over ∨ (p.intr = true ∧ p.stage ≠ .fresh)

theorem Dead.frame {m s : Nat} {σ τ : St α L} (h : Dead σ m s) (f : Frame m s σ τ) : Dead τ m s := by
  intro p hp h1 h2
  obtain ⟨i, hi⟩ := List.mem_iff_getElem?.1 hp
  exact h p (List.mem_of_getElem? ((f.procs i p h1 h2).1 hi)) h1 h2

theorem Dead.step (I : Inter α L) {m s : Nat} {σ : St α L} (hw : Wf σ) (h : Dead σ m s) (o : Op α L) (ho : Foreign m s o) :
    Dead (step I σ o).1 m s ∧ told (step I σ o).1 m s = told σ m s ∧ (s ∈ (step I σ o).1.inView m ↔ s ∈ σ.inView m) := by
  by_cases hf : ∃ i, o = .fire i
  · obtain ⟨i, rfl⟩ := hf
    by_cases hi : ∀ p, σ.procs[i]? = some p → p.mover = m → p.sensor = s → p.stage = .over
    · have f := fire_frame σ m s i hi
      exact ⟨h.frame f, f.told, f.view⟩
    · push Not at hi
      obtain ⟨p, hp, hm, hs, hst⟩ := hi
      obtain ⟨hintr, hnf⟩ := (h p (List.mem_of_getElem? hp) hm hs).resolve_left hst
      have hfire : fire σ i = (setProc σ i { p with stage := .over }, .ok) := by
        unfold fire
        rw [hp]
        cases hc : p.stage with
        | over => exact absurd hc hst
        | fresh => exact absurd hc hnf
        | entry due => simp [hintr, hc]
        | exit due => simp [hintr, hc]
      simp only [Queued.step, hfire]
      refine ⟨fun q hq h1 h2 => ?_, rfl, .rfl⟩
      obtain ⟨j, hj⟩ := List.mem_iff_getElem?.1 hq
      rw [setProc_get σ i p _ hp] at hj
      split at hj
      · cases hj; exact .inl rfl
      · exact h q (List.mem_of_getElem? hj) h1 h2
  · by_cases ha : ∃ t, o = .advance t
    · obtain ⟨t, rfl⟩ := ha
      simp only [Queued.step]
      split
      · exact ⟨h, rfl, .rfl⟩
      · exact ⟨h, rfl, .rfl⟩
    · have f := step_frame I σ m s o hw ho (fun i hi => hf ⟨i, hi⟩) (fun t ht => ha ⟨t, ht⟩)
      exact ⟨h.frame f, f.told, f.view⟩

theorem Dead.run (I : Inter α L) {m s : Nat} (ops : List (Op α L)) {σ : St α L} (hw : Wf σ) (h : Dead σ m s) (ho : ∀ o ∈ ops, Foreign m s o) :
    Dead (run I σ ops) m s ∧ told (run I σ ops) m s = told σ m s ∧ (s ∈ (run I σ ops).inView m ↔ s ∈ σ.inView m) := by
  induction ops generalizing σ with
  | nil => exact ⟨h, rfl, .rfl⟩
  | cons o l ih =>
    obtain ⟨h1, h2, h3⟩ := h.step I hw o (ho o (by simp))
    obtain ⟨g1, g2, g3⟩ := ih (step_wf I σ o hw) h1 fun o' ho' => ho o' (by simp [ho'])
    exact ⟨g1, g2.trans h2, g3.trans h3⟩

theorem taken_dead (σ : St α L) (m s : Nat) (h : Live σ) (hf : ∀ p ∈ σ.procs, p.mover = m → p.sensor = s → p.stage ≠ .fresh) : Dead (taken σ m) m s := by
  intro p hp h1 h2
  obtain ⟨i, hi⟩ := List.mem_iff_getElem?.1 hp
  simp only [taken] at hi
  rw [interrupt_get] at hi
  obtain ⟨q, hq, rfl⟩ := Option.map_eq_some_iff.1 hi
  split at h1
  · rename_i hc
    rw [if_pos hc] at h2 ⊢
    exact .inr ⟨rfl, hf q (List.mem_of_getElem? hq) h1 h2⟩
  · rename_i hc
    rw [if_neg hc] at h2 ⊢
    by_cases hst : q.stage = .over
    · exact .inl hst
    · refine .inr ⟨?_, hf q (List.mem_of_getElem? hq) h1 h2⟩
      refine (h i q hq hst).1.resolve_right fun he => hc ⟨List.mem_map.2 ⟨_, h1 ▸ he, rfl⟩, hst⟩

end Verif.Queued
