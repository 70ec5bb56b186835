import Verif.Queued.Scan

/-! # Operations which do not concern a mover and a sensor -/

namespace Verif.Queued

open Verif.Sphere (Tag)

variable {α L : Type} [Field α] [LinearOrder α]

/-- Well-formedness of reachable states. -/
structure Wf (σ : St α L) : Prop where
  events : ∀ m (e : Nat × Nat), e ∈ σ.events m → ∃ p, σ.procs[e.2]? = some p ∧ p.mover = m ∧ p.sensor = e.1
  sensors : σ.sensors.Nodup
  movers : σ.movers.WF
  view : ∀ m, (σ.inView m).Nodup

/-- Nothing has changed for `m` and `s`. -/
structure Frame (m s : Nat) (σ τ : St α L) : Prop where
  now : τ.now = σ.now
  told : told τ m s = told σ m s
  view : s ∈ τ.inView m ↔ s ∈ σ.inView m
  detect : τ.detect m = σ.detect m
  movers : τ.movers.get? m = σ.movers.get? m
  procs : ∀ (j : Nat) (p : Proc α), p.mover = m → p.sensor = s → (τ.procs[j]? = some p ↔ σ.procs[j]? = some p)
  events : ∀ e, e ∈ σ.events m → e ∈ τ.events m

theorem Frame.refl (m s : Nat) (σ : St α L) : Frame m s σ σ := ⟨rfl, rfl, .rfl, rfl, rfl, fun _ _ _ _ => .rfl, fun _ h => h⟩

theorem Frame.trans {m s : Nat} {σ τ ρ : St α L} (h : Frame m s σ τ) (g : Frame m s τ ρ) : Frame m s σ ρ :=
  ⟨g.now.trans h.now, g.told.trans h.told, g.view.trans h.view, g.detect.trans h.detect, g.movers.trans h.movers,
    fun j p h1 h2 => (g.procs j p h1 h2).trans (h.procs j p h1 h2), fun e he => g.events e (h.events e he)⟩

theorem upd_self {β : Type} (f : Nat → β) (k : Nat) (v : β) : upd f k v k = v := by simp [upd]

theorem upd_ne {β : Type} (f : Nat → β) {k i : Nat} (v : β) (h : i ≠ k) : upd f k v i = f i := by simp [upd, h]

/-! ### `_schedule` -/

theorem schedule_now (m s : Nat) (σ : St α L) (p) : (schedule m s σ p).now = σ.now := by unfold schedule; split <;> rfl

theorem schedule_wf (m s : Nat) (σ : St α L) (p) (h : Wf σ) : Wf (schedule m s σ p) := by
  unfold schedule
  split
  · exact h
  · refine ⟨fun m' e he => ?_, h.sensors, h.movers, h.view⟩
    by_cases hm : m' = m
    · subst hm
      simp only [upd_self, List.mem_append, List.mem_singleton] at he
      rcases he with he | rfl
      · obtain ⟨q, hq, h1, h2⟩ := h.events _ e he
        exact ⟨q, by rw [List.getElem?_append_left (by exact (List.getElem?_eq_some_iff.1 hq).1)]; exact hq, h1, h2⟩
      · exact ⟨_, by simp; rfl, rfl, rfl⟩
    · simp only [upd_ne _ _ hm] at he
      obtain ⟨q, hq, h1, h2⟩ := h.events _ e he
      exact ⟨q, by rw [List.getElem?_append_left (by exact (List.getElem?_eq_some_iff.1 hq).1)]; exact hq, h1, h2⟩

theorem schedule_frame (m s m' s' : Nat) (hne : ¬ (m' = m ∧ s' = s)) (σ : St α L) (p) : Frame m s σ (schedule m' s' σ p) := by
  unfold schedule
  split
  · exact Frame.refl _ _ _
  · refine ⟨rfl, rfl, .rfl, rfl, rfl, fun j q h1 h2 => ?_, fun e he => ?_⟩
    · rw [List.getElem?_append]
      split
      · exact .rfl
      · rename_i hj
        rw [List.getElem?_eq_none (by omega : σ.procs.length ≤ j)]
        constructor
        · intro hq
          have hq : q = ⟨m', s', p.1, p.2, .fresh, false⟩ := by
            have := List.mem_of_getElem? hq
            simpa using this
          exact absurd ⟨by rw [hq] at h1; exact h1, by rw [hq] at h2; exact h2⟩ hne
        · simp
    · by_cases hm : m = m'
      · subst hm; simp only [upd_self, List.mem_append]; exact .inl he
      · simp only [upd_ne _ _ hm]; exact he

theorem foldl_wf (m s : Nat) (ps : List (Entry α × Entry α)) (σ : St α L) (h : Wf σ) : Wf (ps.foldl (schedule m s) σ) := by
  induction ps generalizing σ with
  | nil => exact h
  | cons p ps ih => exact ih _ (schedule_wf m s σ p h)

theorem foldl_frame (m s m' s' : Nat) (hne : ¬ (m' = m ∧ s' = s)) (ps : List (Entry α × Entry α)) (σ : St α L) : Frame m s σ (ps.foldl (schedule m' s') σ) := by
  induction ps generalizing σ with
  | nil => exact Frame.refl _ _ _
  | cons p ps ih => exact (schedule_frame m s m' s' hne σ p).trans (ih _)

theorem findOne_wf (I : Inter α L) (σ : St α L) (m s : Nat) (h : Wf σ) : Wf (findOne I σ m s).1 := by
  unfold findOne
  split
  · exact h
  · split
    · exact h
    · exact foldl_wf _ _ _ _ h

theorem findOne_frame (I : Inter α L) (m s m' s' : Nat) (hne : ¬ (m' = m ∧ s' = s)) (σ : St α L) : Frame m s σ (findOne I σ m' s').1 := by
  unfold findOne
  split
  · exact Frame.refl _ _ _
  · split
    · exact Frame.refl _ _ _
    · exact foldl_frame m s m' s' hne _ _

theorem find_cons (I : Inter α L) (m s : Nat) (l) (σ : St α L) :
    find I ((m, s) :: l) σ = if (findOne I σ m s).2 = .ok then find I l (findOne I σ m s).1 else findOne I σ m s := by
  rw [find]
  rcases h : findOne I σ m s with ⟨τ, o⟩
  cases o <;> simp

theorem find_wf (I : Inter α L) (l) (σ : St α L) (h : Wf σ) : Wf (find I l σ).1 := by
  induction l generalizing σ with
  | nil => exact h
  | cons p l ih =>
    rw [find_cons]
    split
    · exact ih _ (findOne_wf I σ _ _ h)
    · exact findOne_wf I σ _ _ h

theorem find_frame (I : Inter α L) (m s : Nat) (l : List (Nat × Nat)) (hl : ∀ p ∈ l, ¬ (p.1 = m ∧ p.2 = s)) (σ : St α L) : Frame m s σ (find I l σ).1 := by
  induction l generalizing σ with
  | nil => exact Frame.refl _ _ _
  | cons p l ih =>
    rw [find_cons]
    have hp := findOne_frame I m s p.1 p.2 (hl p (by simp)) σ
    split
    · exact hp.trans (ih (fun q hq => hl q (by simp [hq])) _)
    · exact hp

/-! ### Stopping -/

theorem interrupt_get (procs : List (Proc α)) (ids) (j : Nat) :
    (interrupt procs ids)[j]? = (procs[j]?).map fun p => if j ∈ ids ∧ p.stage ≠ .over then { p with intr := true } else p := by
  simp [interrupt]

theorem interrupt_same (procs : List (Proc α)) (ids) (j : Nat) (p) (h : procs[j]? = some p) :
    ∃ q, (interrupt procs ids)[j]? = some q ∧ q.mover = p.mover ∧ q.sensor = p.sensor := by
  rw [interrupt_get, h]
  refine ⟨_, rfl, ?_⟩
  dsimp only
  split <;> exact ⟨rfl, rfl⟩

/-- The state after a mover has been taken off. -/
def taken (σ : St α L) (m : Nat) : St α L :=
  { σ with procs := interrupt σ.procs ((σ.events m).map (·.2)), events := upd σ.events m [], movers := σ.movers.del m }

theorem stopMover_cases (σ : St α L) (m : Nat) (b : Bool) :
    (∃ o, stopMover σ m b = (σ, o)) ∨ (σ.movers.has m = true ∧ stopMover σ m b = (taken σ m, .ok)) := by
  unfold stopMover
  split
  · exact .inl ⟨_, rfl⟩
  · split
    · exact .inl ⟨_, rfl⟩
    · split
      · exact .inl ⟨_, rfl⟩
      · split
        · exact .inl ⟨_, rfl⟩
        · rename_i h; exact .inr ⟨by simpa using h, rfl⟩

theorem taken_wf (σ : St α L) (m : Nat) (h : Wf σ) : Wf (taken σ m) := by
  refine ⟨fun m' e he => ?_, h.sensors, Dict.WF_del h.movers m, h.view⟩
  by_cases hm : m' = m
  · subst hm; simp [taken, upd_self] at he
  · simp only [taken, upd_ne _ _ hm] at he
    obtain ⟨p, hp, h1, h2⟩ := h.events _ e he
    obtain ⟨q, hq, h3, h4⟩ := interrupt_same σ.procs ((σ.events m).map (·.2)) _ p hp
    exact ⟨q, hq, h3.trans h1, h4.trans h2⟩

theorem taken_frame (σ : St α L) (m s m' : Nat) (hm : m' ≠ m) (h : Wf σ) : Frame m s σ (taken σ m') := by
  refine ⟨rfl, rfl, .rfl, rfl, Dict.get?_del_ne _ hm, fun j p h1 h2 => ?_, fun e he => ?_⟩
  · have hj : ∀ q, σ.procs[j]? = some q → q.mover = m → j ∉ (σ.events m').map (·.2) := by
      intro q hq hqm hc
      obtain ⟨e, he, rfl⟩ := List.mem_map.1 hc
      obtain ⟨q', hq', h3, _⟩ := h.events _ e he
      rw [hq] at hq'
      cases hq'
      exact hm (h3.symm.trans hqm)
    show (interrupt _ _)[j]? = some p ↔ _
    rw [interrupt_get]
    constructor
    · intro hq
      obtain ⟨q, hq1, hq2⟩ := Option.map_eq_some_iff.1 hq
      have hqm : q.mover = m := by rw [← h1, ← hq2]; split <;> rfl
      rw [if_neg (fun hc => hj q hq1 hqm hc.1)] at hq2
      rw [hq1, hq2]
    · intro hq
      rw [hq]
      simp only [Option.map_some]
      rw [if_neg (fun hc => hj p hq h1 hc.1)]
  · simp only [taken, upd_ne _ _ hm.symm]; exact he

theorem stopMover_wf (σ : St α L) (m : Nat) (b : Bool) (h : Wf σ) : Wf (stopMover σ m b).1 := by
  rcases stopMover_cases σ m b with ⟨o, ho⟩ | ⟨_, ho⟩ <;> rw [ho]
  · exact h
  · exact taken_wf σ m h

theorem stopMover_frame (σ : St α L) (m s m' : Nat) (hm : m' ≠ m) (b : Bool) (h : Wf σ) : Frame m s σ (stopMover σ m' b).1 := by
  rcases stopMover_cases σ m' b with ⟨o, ho⟩ | ⟨_, ho⟩ <;> rw [ho]
  · exact Frame.refl _ _ _
  · exact taken_frame σ m s m' hm h

/-! ### Processes -/

theorem setProc_wf (σ : St α L) (i : Nat) (p q : Proc α) (hp : σ.procs[i]? = some p) (h1 : q.mover = p.mover) (h2 : q.sensor = p.sensor) (h : Wf σ) :
    Wf (setProc σ i q) := by
  refine ⟨fun m e he => ?_, h.sensors, h.movers, h.view⟩
  obtain ⟨p', hp', h3, h4⟩ := h.events m e he
  show ∃ p, (σ.procs.set i q)[e.2]? = some p ∧ _
  rw [List.getElem?_set]
  split
  · rename_i hi
    rw [← hi, hp] at hp'
    cases hp'
    rw [if_pos (List.getElem?_eq_some_iff.1 hp).1]
    exact ⟨q, rfl, h1.trans h3, h2.trans h4⟩
  · exact ⟨p', hp', h3, h4⟩

theorem setProc_frame (σ : St α L) (m s i : Nat) (p q : Proc α) (hp : σ.procs[i]? = some p) (h1 : q.mover = p.mover) (h2 : q.sensor = p.sensor)
    (hne : ¬ (p.mover = m ∧ p.sensor = s)) : Frame m s σ (setProc σ i q) := by
  refine ⟨rfl, rfl, .rfl, rfl, rfl, fun j r h3 h4 => ?_, fun e he => he⟩
  show (σ.procs.set i q)[j]? = some r ↔ _
  rw [List.getElem?_set]
  split
  · rename_i hi
    subst hi
    rw [if_pos (List.getElem?_eq_some_iff.1 hp).1, hp]
    constructor
    · intro hc; cases hc; exact absurd ⟨h1.symm.trans h3, h2.symm.trans h4⟩ hne
    · intro hc; cases hc; exact absurd ⟨h3, h4⟩ hne
  · exact .rfl

theorem tell_wf (σ : St α L) (m s : Nat) (e : Bool) (h : Wf σ) : Wf (tell σ m s e) := ⟨h.events, h.sensors, h.movers, h.view⟩

theorem told_tell (σ : St α L) (m s m' s' : Nat) (e : Bool) :
    told (tell σ m' s' e) m s = told σ m s ++ if m' = m ∧ s' = s then [(σ.now, e)] else [] := by
  simp only [told, tell, List.filter_append, List.map_append]
  congr 1
  split <;> rename_i h <;> simp [h]

theorem tell_frame (σ : St α L) (m s m' s' : Nat) (e : Bool) (hne : ¬ (m' = m ∧ s' = s)) : Frame m s σ (tell σ m' s' e) :=
  ⟨rfl, by rw [told_tell, if_neg hne, List.append_nil], .rfl, rfl, rfl, fun _ _ _ _ => .rfl, fun _ h => h⟩

theorem addToView_mem (σ : St α L) (m s m' s' : Nat) : s ∈ (addToView σ m' s').inView m ↔ s ∈ σ.inView m ∨ (m' = m ∧ s' = s) := by
  unfold addToView
  split
  · rename_i h
    constructor
    · exact .inl
    · rintro (h' | ⟨rfl, rfl⟩)
      · exact h'
      · exact h
  · by_cases hm : m = m'
    · subst hm; simp only [upd_self, List.mem_append, List.mem_singleton]; simp [eq_comm]
    · simp only [upd_ne _ _ hm]
      constructor
      · exact .inl
      · rintro (h' | ⟨rfl, _⟩)
        · exact h'
        · exact absurd rfl hm

theorem addToView_wf (σ : St α L) (m s : Nat) (h : Wf σ) : Wf (addToView σ m s) := by
  unfold addToView
  split
  · exact h
  · rename_i hs
    refine ⟨h.events, h.sensors, h.movers, fun m' => ?_⟩
    by_cases hm : m' = m
    · subst hm
      simp only [upd_self]
      exact List.nodup_append.2 ⟨h.view _, by simp, fun a ha b hb => by
        rw [List.mem_singleton] at hb; subst hb; exact fun hc => hs (hc ▸ ha)⟩
    · simp only [upd_ne _ _ hm]; exact h.view m'

theorem addToView_same (σ : St α L) (m s : Nat) : (addToView σ m s).now = σ.now ∧ (addToView σ m s).log = σ.log ∧ (addToView σ m s).detect = σ.detect ∧
    (addToView σ m s).movers = σ.movers ∧ (addToView σ m s).procs = σ.procs ∧ (addToView σ m s).events = σ.events ∧ (addToView σ m s).sensors = σ.sensors := by
  unfold addToView; split <;> simp

theorem addToView_frame (σ : St α L) (m s m' s' : Nat) (hne : ¬ (m' = m ∧ s' = s)) : Frame m s σ (addToView σ m' s') := by
  obtain ⟨h1, h2, h3, h4, h5, h6, _⟩ := addToView_same σ m' s'
  exact ⟨h1, by unfold told; rw [h2], by rw [addToView_mem]; simp [hne], by rw [h3], by rw [h4], fun _ _ _ _ => by rw [h5], fun e he => by rw [h6]; exact he⟩

theorem afterEntry_cases (σ : St α L) (i : Nat) (p : Proc α) : ∃ q o, afterEntry σ i p = (setProc σ i q, o) ∧ q.mover = p.mover ∧ q.sensor = p.sensor := by
  unfold afterEntry
  split
  · exact ⟨_, _, rfl, rfl, rfl⟩
  · split
    · exact ⟨_, _, rfl, rfl, rfl⟩
    · exact ⟨_, _, rfl, rfl, rfl⟩

theorem afterEntry_wf (σ : St α L) (i : Nat) (p : Proc α) (hp : σ.procs[i]? = some p) (h : Wf σ) : Wf (afterEntry σ i p).1 := by
  obtain ⟨q, o, ho, h1, h2⟩ := afterEntry_cases σ i p
  rw [ho]; exact setProc_wf σ i p q hp h1 h2 h

theorem afterEntry_frame (σ : St α L) (m s i : Nat) (p : Proc α) (hp : σ.procs[i]? = some p) (hne : ¬ (p.mover = m ∧ p.sensor = s)) :
    Frame m s σ (afterEntry σ i p).1 := by
  obtain ⟨q, o, ho, h1, h2⟩ := afterEntry_cases σ i p
  rw [ho]; exact setProc_frame σ m s i p q hp h1 h2 hne

theorem begins_wf (σ : St α L) (i : Nat) (p : Proc α) (hp : σ.procs[i]? = some p) (h : Wf σ) : Wf (begins σ i p).1 := by
  have hv := addToView_wf σ p.mover p.sensor h
  have hpv : (addToView σ p.mover p.sensor).procs[i]? = some p := by rw [(addToView_same σ _ _).2.2.2.2.1]; exact hp
  unfold begins
  split
  · dsimp only
    split
    · exact afterEntry_wf _ i p hpv hv
    · exact afterEntry_wf _ i p hpv (tell_wf _ _ _ _ hv)
  · split
    · exact setProc_wf σ i p _ hp rfl rfl h
    · exact setProc_wf σ i p _ hp rfl rfl h

theorem begins_frame (σ : St α L) (m s i : Nat) (p : Proc α) (hp : σ.procs[i]? = some p) (hne : ¬ (p.mover = m ∧ p.sensor = s)) :
    Frame m s σ (begins σ i p).1 := by
  have hv := addToView_frame σ m s p.mover p.sensor hne
  have hpv : (addToView σ p.mover p.sensor).procs[i]? = some p := by rw [(addToView_same σ _ _).2.2.2.2.1]; exact hp
  unfold begins
  split
  · dsimp only
    split
    · exact hv.trans (afterEntry_frame _ m s i p hpv hne)
    · exact (hv.trans (tell_frame _ m s _ _ _ hne)).trans (afterEntry_frame _ m s i p hpv hne)
  · split
    · exact setProc_frame σ m s i p _ hp rfl rfl hne
    · exact setProc_frame σ m s i p _ hp rfl rfl hne

/-- The state after an exit. -/
def left (σ : St α L) (m s : Nat) : St α L := { σ with inView := upd σ.inView m ((σ.inView m).filter (· ≠ s)) }

theorem left_wf (σ : St α L) (m s : Nat) (h : Wf σ) : Wf (left σ m s) := by
  refine ⟨h.events, h.sensors, h.movers, fun m' => ?_⟩
  by_cases hm : m' = m
  · subst hm; simp only [left, upd_self]; exact (h.view _).filter _
  · simp only [left, upd_ne _ _ hm]; exact h.view m'

theorem left_frame (σ : St α L) (m s m' s' : Nat) (hne : ¬ (m' = m ∧ s' = s)) : Frame m s σ (left σ m' s') := by
  refine ⟨rfl, rfl, ?_, rfl, rfl, fun _ _ _ _ => .rfl, fun _ h => h⟩
  by_cases hm : m = m'
  · subst hm
    simp only [left, upd_self, List.mem_filter]
    simp only [true_and] at hne
    simp [Ne.symm hne]
  · simp only [left, upd_ne _ _ hm]

theorem leaves_eq (σ : St α L) (i : Nat) (p : Proc α) : leaves σ i p =
    if p.sensor ∈ σ.inView p.mover then (left (setProc (tell σ p.mover p.sensor false) i { p with stage := .over }) p.mover p.sensor, .ok)
    else (setProc (tell σ p.mover p.sensor false) i { p with stage := .over }, .error) := by
  unfold leaves; rfl

theorem fire_wf (σ : St α L) (i : Nat) (h : Wf σ) : Wf (fire σ i).1 := by
  unfold fire
  split
  · exact h
  · rename_i p hp
    split
    · exact h
    · exact begins_wf σ i p hp h
    · split
      · exact setProc_wf σ i p _ hp rfl rfl h
      · split
        · refine afterEntry_wf _ i p ?_ (addToView_wf _ _ _ (tell_wf _ _ _ _ h))
          rw [(addToView_same _ _ _).2.2.2.2.1]; exact hp
        · exact h
    · split
      · exact setProc_wf σ i p _ hp rfl rfl h
      · split
        · rw [leaves_eq]
          have := setProc_wf (tell σ p.mover p.sensor false) i p { p with stage := .over } hp rfl rfl (tell_wf _ _ _ _ h)
          split
          · exact left_wf _ _ _ this
          · exact this
        · exact h

theorem fire_frame (σ : St α L) (m s i : Nat) (hi : ∀ p, σ.procs[i]? = some p → p.mover = m → p.sensor = s → p.stage = .over) :
    Frame m s σ (fire σ i).1 := by
  unfold fire
  split
  · exact Frame.refl _ _ _
  · rename_i p hp
    split
    · exact Frame.refl _ _ _
    all_goals rename_i hst
    all_goals have hne : ¬ (p.mover = m ∧ p.sensor = s) := fun hc => by rw [hi p hp hc.1 hc.2] at hst; cases hst
    · exact begins_frame σ m s i p hp hne
    · split
      · exact setProc_frame σ m s i p _ hp rfl rfl hne
      · split
        · refine ((tell_frame σ m s _ _ _ hne).trans (addToView_frame _ m s _ _ hne)).trans (afterEntry_frame _ m s i p ?_ hne)
          rw [(addToView_same _ _ _).2.2.2.2.1]; exact hp
        · exact Frame.refl _ _ _
    · split
      · exact setProc_frame σ m s i p _ hp rfl rfl hne
      · split
        · rw [leaves_eq]
          have := (tell_frame σ m s _ _ false hne).trans (setProc_frame (tell σ p.mover p.sensor false) m s i p { p with stage := .over } hp rfl rfl hne)
          split
          · exact this.trans (left_frame _ m s _ _ hne)
          · exact this
        · exact Frame.refl _ _ _

/-! ### Steps -/

/-- Assigning `False`. -/
def hidden (σ : St α L) (m : Nat) (v : Bool) : St α L :=
  { σ with detect := upd σ.detect m (some v), log := σ.log ++ (σ.inView m).map (fun s => ⟨σ.now, m, s, false⟩), inView := upd σ.inView m [] }

theorem hidden_wf (σ : St α L) (m : Nat) (v : Bool) (h : Wf σ) : Wf (hidden σ m v) := by
  refine ⟨h.events, h.sensors, h.movers, fun m' => ?_⟩
  by_cases hm : m' = m
  · subst hm; simp [hidden, upd_self]
  · simp only [hidden, upd_ne _ _ hm]; exact h.view m'

theorem hidden_frame (σ : St α L) (m s m' : Nat) (hm : m' ≠ m) (v : Bool) : Frame m s σ (hidden σ m' v) := by
  refine ⟨rfl, ?_, by simp only [hidden, upd_ne _ _ hm.symm], by simp only [hidden, upd_ne _ _ hm.symm], rfl, fun _ _ _ _ => .rfl, fun _ h => h⟩
  simp only [told, hidden, List.filter_append, List.map_append]
  simp [hm]

theorem setDetect_cases (σ : St α L) (m : Nat) (v : Bool) : setDetect σ m v = (σ, .refused) ∨
    (v = true ∧ setDetect σ m v = ({ σ with detect := upd σ.detect m (some v) }, .ok)) ∨
    (v = false ∧ (∃ b, σ.detect m = some b) ∧ setDetect σ m v = stopMover (hidden σ m v) m true) := by
  unfold setDetect
  split
  · exact .inl rfl
  · rename_i b hb
    cases v
    · exact .inr (.inr ⟨rfl, ⟨b, hb⟩, rfl⟩)
    · exact .inr (.inl ⟨rfl, rfl⟩)

theorem step_wf (I : Inter α L) (σ : St α L) (o : Op α L) (h : Wf σ) : Wf (step I σ o).1 := by
  cases o with
  | start m v ws =>
    simp only [step, startMover]
    split
    · exact h
    · exact ⟨h.events, h.sensors, Dict.WF_set h.movers _ _, h.view⟩
    · split
      · exact h
      · exact find_wf I _ _ ⟨h.events, h.sensors, Dict.WF_set h.movers _ _, h.view⟩
  | stop m => exact stopMover_wf σ m false h
  | detect m v =>
    simp only [step]
    rcases setDetect_cases σ m v with ho | ⟨_, ho⟩ | ⟨_, _, ho⟩ <;> rw [ho]
    · exact h
    · exact ⟨h.events, h.sensors, h.movers, h.view⟩
    · exact stopMover_wf _ m true (hidden_wf σ m v h)
  | addSensor s =>
    simp only [step, addSensor]
    refine find_wf I _ _ ⟨h.events, ?_, h.movers, h.view⟩
    dsimp only
    split
    · exact h.sensors
    · rename_i hs
      exact List.nodup_append.2 ⟨h.sensors, by simp, fun a ha b hb => by
        rw [List.mem_singleton] at hb; subst hb; exact fun hc => hs (hc ▸ ha)⟩
  | fire i => exact fire_wf σ i h
  | advance t =>
    simp only [step]
    split
    · exact ⟨h.events, h.sensors, h.movers, h.view⟩
    · exact h

theorem run_wf (I : Inter α L) (ops : List (Op α L)) (σ : St α L) (h : Wf σ) : Wf (run I σ ops) := by
  induction ops generalizing σ with
  | nil => exact h
  | cons o l ih => exact ih _ (step_wf I σ o h)

theorem init_wf (now : α) (det) : Wf (St.init now det : St α L) := ⟨by simp [St.init], by simp [St.init], Dict.WF_nil, by simp [St.init]⟩

/-- Operations that are foreign, other than those of the kernel. -/
theorem step_frame (I : Inter α L) (σ : St α L) (m s : Nat) (o : Op α L) (h : Wf σ) (ho : Foreign m s o) (hf : ∀ i, o ≠ .fire i) (ha : ∀ t, o ≠ .advance t) :
    Frame m s σ (step I σ o).1 := by
  cases o with
  | start m' v ws =>
    have hm : m' ≠ m := ho
    have hset : ∀ t, Frame m s σ { σ with movers := σ.movers.set m' t } := fun t =>
      ⟨rfl, rfl, .rfl, rfl, Dict.get?_set_ne _ _ hm, fun _ _ _ _ => .rfl, fun _ h => h⟩
    simp only [step, startMover]
    split
    · exact Frame.refl _ _ _
    · exact hset _
    · split
      · exact Frame.refl _ _ _
      · refine (hset _).trans (find_frame I m s _ ?_ _)
        intro p hp
        obtain ⟨x, _, rfl⟩ := List.mem_map.1 hp
        exact fun hc => hm hc.1
  | stop m' => exact stopMover_frame σ m s m' ho false h
  | detect m' v =>
    have hm : m' ≠ m := ho
    simp only [step]
    rcases setDetect_cases σ m' v with hc | ⟨_, hc⟩ | ⟨_, _, hc⟩ <;> rw [hc]
    · exact Frame.refl _ _ _
    · exact ⟨rfl, rfl, .rfl, upd_ne _ _ hm.symm, rfl, fun _ _ _ _ => .rfl, fun _ h => h⟩
    · exact (hidden_frame σ m s m' hm v).trans (stopMover_frame _ m s m' hm true (hidden_wf σ m' v h))
  | addSensor s' =>
    have hs : s' ≠ s := ho
    simp only [step, addSensor]
    refine Frame.trans (τ := { σ with sensors := if s' ∈ σ.sensors then σ.sensors else σ.sensors ++ [s'] }) ⟨rfl, rfl, .rfl, rfl, rfl, fun _ _ _ _ => .rfl, fun _ h => h⟩ (find_frame I m s _ ?_ _)
    intro p hp
    obtain ⟨x, _, rfl⟩ := List.mem_map.1 hp
    exact fun hc => hs hc.2
  | fire i => exact absurd rfl (hf i)
  | advance t => exact absurd rfl (ha t)

end Verif.Queued
