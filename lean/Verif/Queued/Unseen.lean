import Verif.Queued.Restart

/-! # C43: what is known of movers and sensors was given, and hidden movers go unnoticed -/

namespace Verif.Queued

open Verif.Sphere (Tag)

variable {α L : Type} [Field α] [LinearOrder α]

/-- The detectability of `m` last given, for actors which have such a state. -/
def detectGiven (m : Nat) : Option Bool → List (Op α L) → Option Bool
  | d, [] => d
  | d, .detect m' v :: os => detectGiven m (if m' = m then d.map fun _ => v else d) os
  | d, _ :: os => detectGiven m d os

/-- Nothing but processes and events has changed. -/
structure Calm (σ τ : St α L) : Prop where
  detect : τ.detect = σ.detect
  movers : τ.movers = σ.movers
  sensors : τ.sensors = σ.sensors

theorem Calm.refl (σ : St α L) : Calm σ σ := ⟨rfl, rfl, rfl⟩

theorem Calm.trans {σ τ ρ : St α L} (h : Calm σ τ) (g : Calm τ ρ) : Calm σ ρ :=
  ⟨g.detect.trans h.detect, g.movers.trans h.movers, g.sensors.trans h.sensors⟩

theorem scheduleAll_calm (m s : Nat) (ps : List (Entry α × Entry α)) (σ : St α L) : Calm σ (ps.foldl (schedule m s) σ) := by
  induction ps generalizing σ with
  | nil => exact .refl σ
  | cons p ps ih =>
    refine Calm.trans ?_ (ih (schedule m s σ p))
    unfold schedule
    split <;> exact ⟨rfl, rfl, rfl⟩

theorem findOne_calm (I : Inter α L) (m s : Nat) (σ : St α L) : Calm σ (findOne I σ m s).1 := by
  unfold findOne
  split
  · exact .refl σ
  · split
    · exact .refl σ
    · exact scheduleAll_calm m s _ σ

theorem find_calm (I : Inter α L) (l : List (Nat × Nat)) (σ : St α L) : Calm σ (find I l σ).1 := by
  induction l generalizing σ with
  | nil => exact .refl σ
  | cons p l ih =>
    rw [find_cons]
    split
    · exact (findOne_calm I _ _ σ).trans (ih _)
    · exact findOne_calm I _ _ σ

theorem setProc_calm (σ : St α L) (i : Nat) (p : Proc α) : Calm σ (setProc σ i p) := ⟨rfl, rfl, rfl⟩

theorem afterEntry_calm (σ : St α L) (i : Nat) (p : Proc α) : Calm σ (afterEntry σ i p).1 := by
  unfold afterEntry
  repeat' split
  all_goals exact ⟨rfl, rfl, rfl⟩

theorem addToView_calm (σ : St α L) (m s : Nat) : Calm σ (addToView σ m s) := by
  unfold addToView
  split <;> exact ⟨rfl, rfl, rfl⟩

theorem tell_calm (σ : St α L) (m s : Nat) (b : Bool) : Calm σ (tell σ m s b) := ⟨rfl, rfl, rfl⟩

theorem fire_calm (σ : St α L) (i : Nat) : Calm σ (fire σ i).1 := by
  unfold fire
  split
  · exact .refl σ
  · rename_i p _
    split
    · exact .refl σ
    · unfold begins
      split
      · dsimp only
        split
        · exact (addToView_calm σ _ _).trans (afterEntry_calm _ i p)
        · exact ((addToView_calm σ _ _).trans (tell_calm _ _ _ _)).trans (afterEntry_calm _ i p)
      · split <;> exact ⟨rfl, rfl, rfl⟩
    · split
      · exact ⟨rfl, rfl, rfl⟩
      · split
        · exact ((tell_calm σ _ _ _).trans (addToView_calm _ _ _)).trans (afterEntry_calm _ i p)
        · exact .refl σ
    · split
      · exact ⟨rfl, rfl, rfl⟩
      · split
        · unfold leaves
          dsimp only
          split <;> exact ⟨rfl, rfl, rfl⟩
        · exact .refl σ

theorem stopMover_known (σ : St α L) (m : Nat) (b : Bool) : (stopMover σ m b).1.detect = σ.detect ∧ (stopMover σ m b).1.sensors = σ.sensors := by
  rcases stopMover_cases σ m b with ⟨o, h⟩ | ⟨-, h⟩ <;> rw [h] <;> exact ⟨rfl, rfl⟩

/-- What an operation does to what was given. -/
theorem known_step (I : Inter α L) (σ : St α L) (o : Op α L) (m s : Nat) :
    (step I σ o).1.detect m = detectGiven m (σ.detect m) [o] ∧ (s ∈ (step I σ o).1.sensors ↔ s ∈ σ.sensors ∨ o = .addSensor s) := by
  cases o with
  | start m' v ws =>
    simp only [step, startMover, detectGiven, reduceCtorEq, or_false]
    split
    · exact ⟨rfl, .rfl⟩
    · exact ⟨rfl, .rfl⟩
    · split
      · exact ⟨rfl, .rfl⟩
      · have h := find_calm I (σ.sensors.map fun s => (m', s)) { σ with movers := σ.movers.set m' ⟨v, ws, σ.now⟩ }
        exact ⟨by rw [h.detect], by rw [h.sensors]⟩
  | stop m' =>
    obtain ⟨h1, h2⟩ := stopMover_known σ m' false
    simp only [step, detectGiven, reduceCtorEq, or_false]
    exact ⟨by rw [h1], by rw [h2]⟩
  | detect m' v =>
    simp only [step, detectGiven, reduceCtorEq, or_false]
    cases hd : σ.detect m' with
    | none =>
      have : setDetect σ m' v = (σ, .refused) := by simp only [setDetect, hd]
      rw [this]
      refine ⟨?_, .rfl⟩
      by_cases hm : m' = m
      · subst hm; rw [if_pos rfl, hd]; rfl
      · rw [if_neg hm]
    | some b =>
      have key : (setDetect σ m' v).1.detect = upd σ.detect m' (some v) ∧ (setDetect σ m' v).1.sensors = σ.sensors := by
        simp only [setDetect, hd]
        cases v with
        | true => exact ⟨rfl, rfl⟩
        | false => exact stopMover_known (hidden σ m' false) m' true
      rw [key.1, key.2]
      refine ⟨?_, .rfl⟩
      by_cases hm : m' = m
      · subst hm; rw [upd_self, if_pos rfl, hd]; rfl
      · rw [upd_ne _ _ (Ne.symm hm), if_neg hm]
  | addSensor s' =>
    have h := find_calm I (σ.movers.keys.map fun m => (m, s')) { σ with sensors := if s' ∈ σ.sensors then σ.sensors else σ.sensors ++ [s'] }
    simp only [step, addSensor, detectGiven]
    refine ⟨by rw [h.detect], ?_⟩
    rw [h.sensors]
    simp only [Op.addSensor.injEq]
    split
    · rename_i hs
      exact ⟨.inl, fun hc => hc.elim id fun e => e ▸ hs⟩
    · simp [eq_comm]
  | fire i =>
    have h := fire_calm σ i
    simp only [step, detectGiven, reduceCtorEq, or_false]
    exact ⟨by rw [h.detect], by rw [h.sensors]⟩
  | advance t =>
    simp only [step, detectGiven, reduceCtorEq, or_false]
    split <;> exact ⟨rfl, .rfl⟩

/-- **C43, what the manager knows was given.** At any time the detectability of an actor is the one last given, and the sensors are those added. -/
theorem c43_given (I : Inter α L) (t0 : α) (det : Nat → Option Bool) (ops : List (Op α L)) (m s : Nat) :
    (run I (St.init t0 det) ops).detect m = detectGiven m (det m) ops ∧ (s ∈ (run I (St.init t0 det) ops).sensors ↔ .addSensor s ∈ ops) := by
  have key : ∀ (ops : List (Op α L)) (σ : St α L), (run I σ ops).detect m = detectGiven m (σ.detect m) ops ∧ (s ∈ (run I σ ops).sensors ↔ s ∈ σ.sensors ∨ .addSensor s ∈ ops) := by
    intro ops
    induction ops with
    | nil => exact fun σ => ⟨rfl, by simp [run]⟩
    | cons o ops ih =>
      intro σ
      obtain ⟨h1, h2⟩ := ih (step I σ o).1
      obtain ⟨k1, k2⟩ := known_step I σ o m s
      simp only [run]
      refine ⟨?_, ?_⟩
      · rw [h1, k1]; cases o <;> rfl
      · rw [h2, k2, List.mem_cons, or_assoc, eq_comm (a := o)]
  obtain ⟨h1, h2⟩ := key ops (St.init t0 det)
  exact ⟨h1, by simpa [St.init] using h2⟩

example (I : Inter α L) (t0 : α) : let σ := run I (St.init t0 fun _ => some true) [.addSensor 7, .detect 1 false, .stop 1, .detect 2 false]
    σ.detect 1 = some false ∧ 7 ∈ σ.sensors ∧ 8 ∉ σ.sensors := by
  have h := fun s => c43_given I t0 (fun _ => some true) [.addSensor 7, .detect 1 false, .stop 1, .detect 2 false] 1 s
  exact ⟨by rw [(h 7).1]; rfl, (h 7).2.2 (by simp), fun hc => by simpa using (h 8).2.1 hc⟩

/-! ### Hidden movers -/

/-- A hidden mover is known without a path, if at all. -/
def Pathless (σ : St α L) (m : Nat) : Prop := σ.detect m = some false → ∀ t, σ.movers.get? m = some t → t.waypoints = []

theorem pathless_step (I : Inter α L) (σ : St α L) (o : Op α L) (m : Nat) (h : Pathless σ m) : Pathless (step I σ o).1 m := by
  cases o with
  | start m' v ws =>
    simp only [step, startMover]
    split
    · exact h
    · rename_i hd
      intro h1 t ht
      simp only [Dict.get?_set] at ht
      split at ht
      · rw [← Option.some.inj ht]
      · exact h h1 t ht
    · rename_i hd
      split
      · exact h
      · have hc := find_calm I (σ.sensors.map fun s => (m', s)) { σ with movers := σ.movers.set m' ⟨v, ws, σ.now⟩ }
        intro h1 t ht
        rw [hc.detect] at h1
        rw [hc.movers] at ht
        simp only [Dict.get?_set] at ht h1
        split at ht
        · rename_i hm
          subst hm
          rw [hd] at h1
          cases h1
        · exact h h1 t ht
  | stop m' =>
    simp only [step]
    rcases stopMover_cases σ m' false with ⟨o, ho⟩ | ⟨-, ho⟩ <;> rw [ho]
    · exact h
    · intro h1 t ht
      simp only [taken, Dict.get?_del] at ht
      split at ht
      · cases ht
      · exact h h1 t ht
  | detect m' v =>
    simp only [step]
    rcases setDetect_cases σ m' v with ho | ⟨rfl, ho⟩ | ⟨rfl, ⟨b, hb⟩, ho⟩ <;> rw [ho]
    · exact h
    · intro h1 t ht
      by_cases hm : m = m'
      · subst hm; simp [upd_self] at h1
      · simp only [upd_ne _ _ hm] at h1; exact h h1 t ht
    · intro h1 t ht
      by_cases hm : m = m'
      · subst hm
        rcases stopMover_cases (hidden σ m false) m true with ⟨o, ho⟩ | ⟨-, ho⟩
        · have hhas : σ.movers.has m = false := by
            by_contra hc
            rw [Bool.not_eq_false] at hc
            have : stopMover (hidden σ m false) m true = (taken (hidden σ m false) m, .ok) := by
              simp [stopMover, hidden, upd_self, hc, taken]
            rw [ho] at this
            have hm2 := congrArg (fun x => x.1.movers.has m) this
            simp [hidden, taken, hc, Dict.has] at hm2
            rw [Dict.has, hm2] at hc
            cases hc
          rw [ho] at ht
          simp only [hidden] at ht
          rw [Dict.has, ht] at hhas
          cases hhas
        · rw [ho] at ht
          simp [taken] at ht
      · rcases stopMover_cases (hidden σ m' false) m' true with ⟨o, ho⟩ | ⟨-, ho⟩ <;> rw [ho] at h1 ht
        · simp only [hidden, upd_ne _ _ hm] at h1 ht
          exact h h1 t ht
        · simp only [taken, hidden, upd_ne _ _ hm, Dict.get?_del_ne _ (Ne.symm hm)] at h1 ht
          exact h h1 t ht
  | addSensor s =>
    have hc := find_calm I (σ.movers.keys.map fun m => (m, s)) { σ with sensors := if s ∈ σ.sensors then σ.sensors else σ.sensors ++ [s] }
    intro h1 t ht
    simp only [step, addSensor] at h1 ht
    rw [hc.detect] at h1
    rw [hc.movers] at ht
    exact h h1 t ht
  | fire i =>
    have hc := fire_calm σ i
    intro h1 t ht
    simp only [step] at h1 ht
    rw [hc.detect] at h1
    rw [hc.movers] at ht
    exact h h1 t ht
  | advance t =>
    simp only [step]
    split <;> exact h

theorem run_pathless (I : Inter α L) (ops : List (Op α L)) (σ : St α L) (m : Nat) (h : Pathless σ m) : Pathless (run I σ ops) m := by
  induction ops generalizing σ with
  | nil => exact h
  | cons o ops ih => exact ih _ (pathless_step I σ o m h)

/-- Nothing is found for a mover without a path. -/
theorem find_pathless (I : Inter α L) (m s : Nat) (l : List (Nat × Nat)) (σ : St α L) (h : ∀ t, σ.movers.get? m = some t → t.waypoints = []) :
    Frame m s σ (find I l σ).1 := by
  induction l generalizing σ with
  | nil => exact .refl _ _ _
  | cons p l ih =>
    rw [find_cons]
    have hp : Frame m s σ (findOne I σ p.1 p.2).1 := by
      by_cases hms : p.1 = m ∧ p.2 = s
      · obtain ⟨h1, h2⟩ := hms
        rw [h1, h2]
        unfold findOne
        cases ht : σ.movers.get? m with
        | none => exact .refl _ _ _
        | some t =>
          have : processPair I t s = some [] := by simp [processPair, h t ht, scan, pairUp]
          simp only [this]
          exact .refl _ _ _
      · exact findOne_frame I m s p.1 p.2 hms σ
    split
    · exact hp.trans (ih _ (by rw [hp.movers]; exact h))
    · exact hp

theorem taken_dead_again (σ : St α L) (m m' s : Nat) (h : Dead σ m s) : Dead (taken σ m') m s := by
  intro p hp h1 h2
  obtain ⟨i, hi⟩ := List.mem_iff_getElem?.1 hp
  simp only [taken] at hi
  rw [interrupt_get] at hi
  obtain ⟨q, hq, rfl⟩ := Option.map_eq_some_iff.1 hi
  split at h1
  · rename_i hc
    rw [if_pos hc] at h2 ⊢
    exact (h q (List.mem_of_getElem? hq) h1 h2).imp id fun ⟨_, h3⟩ => ⟨rfl, h3⟩
  · rename_i hc
    rw [if_neg hc] at h2 ⊢
    exact h q (List.mem_of_getElem? hq) h1 h2

section

variable [IsStrictOrderedRing α]

/-- What holds while a mover is hidden. -/
structure Unseen (m s : Nat) (l : List (α × Bool)) (σ : St α L) : Prop where
  wf : Wf σ
  detect : σ.detect m = some false
  path : Pathless σ m
  dead : Dead σ m s
  view : s ∉ σ.inView m
  told : told σ m s = l

theorem Unseen.step (I : Inter α L) {m s : Nat} {l : List (α × Bool)} {σ : St α L} (h : Unseen m s l σ) (o : Op α L) (ho : o ≠ .detect m true) :
    Unseen m s l (step I σ o).1 := by
  have hp := pathless_step I σ o m h.path
  have hw := step_wf I σ o h.wf
  have hd : (Queued.step I σ o).1.detect m = some false := by
    rw [(known_step I σ o m s).1, h.detect]
    cases o with
    | detect m' v =>
      simp only [detectGiven]
      by_cases hm : m' = m
      · subst hm
        cases v with
        | true => exact absurd rfl ho
        | false => rw [if_pos rfl]; rfl
      · rw [if_neg hm]
    | _ => rfl
  by_cases hf : Foreign m s o
  · obtain ⟨h1, h2, h3⟩ := h.dead.step I h.wf o hf
    exact ⟨hw, hd, hp, h1, fun hc => h.view (h3.1 hc), h2.trans h.told⟩
  · cases o with
    | start m' v ws =>
      simp only [Foreign, ne_eq, not_not] at hf
      subst hf
      have : Queued.step I σ (.start m' v ws) = ({ σ with movers := σ.movers.set m' ⟨0, [], 0⟩ }, .ok) := by
        simp only [Queued.step, startMover, h.detect]
      rw [this] at hw hd hp ⊢
      exact ⟨hw, hd, hp, h.dead, h.view, h.told⟩
    | stop m' =>
      simp only [Queued.step] at hw hd hp ⊢
      rcases stopMover_cases σ m' false with ⟨o, ho⟩ | ⟨-, ho⟩ <;> rw [ho] at hw hd hp ⊢
      · exact ⟨hw, hd, hp, h.dead, h.view, h.told⟩
      · exact ⟨hw, hd, hp, taken_dead_again σ m m' s h.dead, h.view, h.told⟩
    | detect m' v =>
      simp only [Foreign, ne_eq, not_not] at hf
      subst hf
      cases v with
      | true => exact absurd rfl ho
      | false =>
        have htold : Queued.told (hidden σ m' false) m' s = l := by
          rw [← h.told]
          simp only [Queued.told, hidden, List.filter_append, List.map_append]
          have : ((σ.inView m').map fun s => (⟨σ.now, m', s, false⟩ : Told α)).filter (fun e => e.mover = m' ∧ e.sensor = s) = [] := by
            rw [List.filter_eq_nil_iff]
            intro e he
            obtain ⟨x, hx, rfl⟩ := List.mem_map.1 he
            simpa using fun hc : x = s => h.view (hc ▸ hx)
          simpa using this
        have hview : s ∉ (hidden σ m' false).inView m' := by simp [hidden, upd_self]
        simp only [Queued.step] at hw hd hp ⊢
        have hs : setDetect σ m' false = stopMover (hidden σ m' false) m' true := by
          rcases setDetect_cases σ m' false with ho | ⟨hc, -⟩ | ⟨-, -, ho⟩
          · simp only [setDetect, h.detect] at ho ⊢
            rfl
          · cases hc
          · exact ho
        rw [hs] at hw hd hp ⊢
        rcases stopMover_cases (hidden σ m' false) m' true with ⟨o, ho⟩ | ⟨-, ho⟩ <;> rw [ho] at hw hd hp ⊢
        · exact ⟨hw, hd, hp, h.dead, hview, htold⟩
        · exact ⟨hw, hd, hp, taken_dead_again (hidden σ m' false) m' m' s h.dead, hview, htold⟩
    | addSensor s' =>
      have f := find_pathless I m s (σ.movers.keys.map fun m => (m, s')) { σ with sensors := if s' ∈ σ.sensors then σ.sensors else σ.sensors ++ [s'] } (h.path h.detect)
      simp only [Queued.step, addSensor] at hw hd hp ⊢
      refine ⟨hw, hd, hp, Dead.frame (σ := { σ with sensors := if s' ∈ σ.sensors then σ.sensors else σ.sensors ++ [s'] }) h.dead f, fun hc => h.view (f.view.1 hc), f.told.trans h.told⟩
    | fire i => exact absurd trivial hf
    | advance t => exact absurd trivial hf

theorem Unseen.run (I : Inter α L) {m s : Nat} {l : List (α × Bool)} (ops : List (Op α L)) {σ : St α L} (h : Unseen m s l σ) (ho : .detect m true ∉ ops) :
    Unseen m s l (run I σ ops) := by
  induction ops generalizing σ with
  | nil => exact h
  | cons o ops ih => exact ih (h.step I o fun hc => ho (by simp [hc])) fun hc => ho (List.mem_cons_of_mem _ hc)

/-- **C43, hidden movers go unnoticed.** A moving mover becomes undetectable, all its processes having begun. Until it is made detectable again, whatever is
done, to it and the sensor too (it may start and stop, the sensor may be added), the sensor is told of nothing but its exit at the time it was hidden,
and only if it had it in view. -/
theorem c43_unseen_partial (I : Inter α L) (t0 : α) (det : Nat → Option Bool) (ops₀ : List (Op α L)) (σ : St α L) (hσ : σ = run I (St.init t0 det) ops₀)
    (m s : Nat) (hdet : σ.detect m ≠ none) (hm : σ.movers.has m = true) (hf : ∀ p ∈ σ.procs, p.mover = m → p.sensor = s → p.stage ≠ .fresh)
    (ops : List (Op α L)) (hops : .detect m true ∉ ops) :
    told (run I σ (.detect m false :: ops)) m s = told σ m s ++ (if s ∈ σ.inView m then [(σ.now, false)] else []) ∧
    s ∉ (run I σ (.detect m false :: ops)).inView m := by
  obtain ⟨-, h2, h3⟩ := c43_hidden_partial I t0 det ops₀ σ hσ m s hdet hm hf [] (by simp)
  simp only [run] at h2 h3 ⊢
  have hw : Wf σ := hσ ▸ run_wf I ops₀ _ (init_wf t0 det)
  have hl : Live σ := hσ ▸ run_live I ops₀ _ (init_wf t0 det) (init_live t0 det)
  have hp : Pathless σ m := hσ ▸ run_pathless I ops₀ _ m (fun _ t ht => by simp [St.init, Dict.get?] at ht)
  have hstep : step I σ (.detect m false) = (taken (hidden σ m false) m, .ok) := by
    cases hd : σ.detect m with
    | none => exact absurd hd hdet
    | some b =>
      simp only [step, setDetect, hd, stopMover]
      simp [hidden, taken, upd_self, hm]
  have hu : Unseen m s (told σ m s ++ (if s ∈ σ.inView m then [(σ.now, false)] else [])) (step I σ (.detect m false)).1 := by
    refine ⟨step_wf I σ _ hw, ?_, pathless_step I σ _ m hp, ?_, h3, h2⟩
    · rw [hstep]; simp [taken, hidden, upd_self]
    · rw [hstep]; exact taken_dead (hidden σ m false) m s hl hf
  have := hu.run I ops hops
  exact ⟨this.told, this.view⟩

/-- An actor that was never detectable goes unnoticed. -/
theorem c43_never_seen (I : Inter α L) (t0 : α) (det : Nat → Option Bool) (m s : Nat) (hdet : det m = some false) (ops : List (Op α L)) (hops : .detect m true ∉ ops) :
    told (run I (St.init t0 det) ops) m s = [] := by
  have hu : Unseen m s [] (St.init t0 det : St α L) :=
    ⟨init_wf t0 det, hdet, fun _ t ht => by simp [St.init, Dict.get?] at ht, fun p hp => by simp [St.init] at hp, by simp [St.init], rfl⟩
  exact (hu.run I ops hops).told

end

/-- The mover is hidden when in range; it is stopped and starts again, the sensor is added again. -/
example (ops : List (Op ℚ ℚ)) (hops : .detect 1 true ∉ ops) :
    told (run lineI line3 (.detect 1 false :: .start 1 1 [-3, 3] :: .addSensor 7 :: .stop 1 :: ops)) 1 7 = [(2, true), (3, false)] := by
  have h := (c43_unseen_partial lineI 0 _ [.addSensor 7, .start 1 1 [-3, 3, 0], .fire 0, .fire 1, .advance 2, .fire 0, .advance 3] line3 rfl 1 7
    (by decide +kernel) (by decide +kernel) (by decide +kernel) (.start 1 1 [-3, 3] :: .addSensor 7 :: .stop 1 :: ops) (by simpa using hops)).1
  have e1 : line3.now = 3 := by decide +kernel
  have e2 : 7 ∈ line3.inView 1 := by decide +kernel
  have e3 : told line3 1 7 = [(2, true)] := by decide +kernel
  rw [if_pos e2, e1, e3] at h
  exact h

end Verif.Queued
