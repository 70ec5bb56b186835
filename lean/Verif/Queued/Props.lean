import Verif.Queued.Live

/-! # C43: notifications of `SensorMotionManager`

`I` is the intersection model, `inside τ` says that the mover is within the sensor's radius at time `τ`; `ExactPath` says that the
model's answers for the legs of the path are right (it holds for the cartesian model under the conditions of `Cartesian.lean`). -/

namespace Verif.Queued

open Verif.Sphere (Tag)

variable {α L : Type} [Field α] [LinearOrder α] [IsStrictOrderedRing α]

theorem find_append (I : Inter α L) (l l' : List (Nat × Nat)) (σ : St α L) :
    find I (l ++ l') σ = if (find I l σ).2 = .ok then find I l' (find I l σ).1 else find I l σ := by
  induction l generalizing σ with
  | nil => simp [find]
  | cons p l ih =>
    rw [List.cons_append, find_cons, find_cons, ih]
    by_cases h : (findOne I σ p.1 p.2).2 = .ok
    · rw [if_pos h, if_pos h]
    · rw [if_neg h, if_neg h, if_neg h]

theorem trk_find (I : Inter α L) (σ : St α L) (m s : Nat) (t : Trip α L) (l l1 l2 : List (Nat × Nat)) (hl : l = l1 ++ (m, s) :: l2) (hw : Wf σ) (hdet : σ.detect m = some true)
    (ht : σ.movers.get? m = some t) (hq : Quiet σ m s) (ps) (hps : processPair I t s = some ps)
    (h1 : ∀ p ∈ l1, ¬ (p.1 = m ∧ p.2 = s)) (h2 : ∀ p ∈ l2, ¬ (p.1 = m ∧ p.2 = s)) (hok : (find I l σ).2 = .ok) :
    ∃ b0, Trk m s σ.now b0 (keep σ.now ps) (decide (s ∈ σ.inView m)) (told σ m s) 0 false (find I l σ).1 := by
  subst hl
  rw [find_append] at hok ⊢
  by_cases hc : (find I l1 σ).2 = .ok
  · rw [if_pos hc] at hok ⊢
    have f := find_frame I m s l1 h1 σ
    have hw' := find_wf I l1 σ hw
    generalize find I l1 σ = r at *
    obtain ⟨σ1, o1⟩ := r
    dsimp only at *
    have ht1 := trk_findOne I σ1 m s t hw' (f.detect.trans hdet) (f.movers.trans ht) (hq.frame f) hps
    rw [find_cons] at hok ⊢
    have hok1 : (findOne I σ1 m s).2 = .ok := by
      by_contra hc'
      rw [if_neg hc'] at hok
      exact hc' hok
    rw [if_pos hok1] at hok ⊢
    have ht2 := ht1.frame (find_frame I m s l2 h2 _) (find_wf I l2 _ ht1.wf)
    rw [f.now, f.told, show decide (s ∈ σ1.inView m) = decide (s ∈ σ.inView m) from decide_eq_decide.2 f.view] at ht2
    exact ⟨_, ht2⟩
  · rw [if_neg hc] at hok
    exact absurd hok hc

theorem nodup_split {l : List Nat} (h : l.Nodup) {s : Nat} (hs : s ∈ l) : ∃ l1 l2, l = l1 ++ s :: l2 ∧ s ∉ l1 ∧ s ∉ l2 := by
  obtain ⟨l1, l2, rfl⟩ := List.append_of_mem hs
  refine ⟨l1, l2, rfl, fun hc => ?_, fun hc => ?_⟩
  · exact (List.nodup_append.1 h).2.2 s hc s (by simp) rfl
  · exact (List.nodup_cons.1 (List.nodup_append.1 h).2.1).1 hc

/-- A mover starts: the processes of the times in range are there. -/
theorem trk_start (I : Inter α L) (σ : St α L) (hw : Wf σ) (m s : Nat) (speed : α) (ws : List L) (hdet : σ.detect m = some true) (hs : s ∈ σ.sensors)
    (hq : Quiet σ m s) (hok : (step I σ (.start m speed ws)).2 = .ok) (ps) (hps : processPair I ⟨speed, ws, σ.now⟩ s = some ps) :
    ∃ b0, Trk m s σ.now b0 (keep σ.now ps) (decide (s ∈ σ.inView m)) (told σ m s) 0 false (step I σ (.start m speed ws)).1 := by
  simp only [step, startMover, hdet] at hok ⊢
  by_cases hm : σ.movers.has m
  · simp [hm] at hok
  · rw [if_neg hm] at hok ⊢
    obtain ⟨l1, l2, he, h1, h2⟩ := nodup_split hw.sensors hs
    refine trk_find I { σ with movers := σ.movers.set m ⟨speed, ws, σ.now⟩ } m s ⟨speed, ws, σ.now⟩ _ (l1.map fun s => (m, s)) (l2.map fun s => (m, s)) (by rw [he]; simp)
      ⟨hw.events, hw.sensors, Dict.WF_set hw.movers _ _, hw.view⟩ hdet (Dict.get?_set_self _ _ _) hq ps hps ?_ ?_ hok
    · rintro p hp ⟨_, hc⟩
      obtain ⟨s', hs', rfl⟩ := List.mem_map.1 hp
      dsimp only at hc
      exact h1 (hc ▸ hs')
    · rintro p hp ⟨_, hc⟩
      obtain ⟨s', hs', rfl⟩ := List.mem_map.1 hp
      dsimp only at hc
      exact h2 (hc ▸ hs')

/-- A sensor is added: the same for the movers that are moving. -/
theorem trk_sensor (I : Inter α L) (σ : St α L) (hw : Wf σ) (m s : Nat) (t : Trip α L) (ht : σ.movers.get? m = some t) (hdet : σ.detect m = some true)
    (hq : Quiet σ m s) (hok : (step I σ (.addSensor s)).2 = .ok) (ps) (hps : processPair I t s = some ps) :
    ∃ b0, Trk m s σ.now b0 (keep σ.now ps) (decide (s ∈ σ.inView m)) (told σ m s) 0 false (step I σ (.addSensor s)).1 := by
  have hw' := step_wf I σ (.addSensor s) hw
  simp only [step, addSensor] at hok ⊢
  have hm : m ∈ σ.movers.keys := by by_contra hc; rw [Dict.get?_eq_none_iff.2 hc] at ht; cases ht
  obtain ⟨l1, l2, he, h1, h2⟩ := nodup_split hw.movers hm
  refine trk_find I { σ with sensors := if s ∈ σ.sensors then σ.sensors else σ.sensors ++ [s] } m s t _ (l1.map fun m => (m, s)) (l2.map fun m => (m, s)) (by rw [he]; simp)
    ⟨hw.events, ?_, hw.movers, hw.view⟩ hdet ht hq ps hps ?_ ?_ hok
  · dsimp only
    split
    · exact hw.sensors
    · rename_i hs
      exact List.nodup_append.2 ⟨hw.sensors, by simp, fun a ha b hb => by
        rw [List.mem_singleton] at hb; subst hb; exact fun hc => hs (hc ▸ ha)⟩
  · rintro p hp ⟨hc, _⟩
    obtain ⟨s', hs', rfl⟩ := List.mem_map.1 hp
    dsimp only at hc
    exact h1 (hc ▸ hs')
  · rintro p hp ⟨hc, _⟩
    obtain ⟨s', hs', rfl⟩ := List.mem_map.1 hp
    dsimp only at hc
    exact h2 (hc ▸ hs')

/-- A good state after a run: what was told to `s` about `m` since `tc` is right, and the sensor's view too. -/
structure Served (m s : Nat) (inside : α → Prop) (tc hi : α) (was : Bool) (l0 : List (α × Bool)) (σ : St α L) : Prop where
  told : ∃ new, told σ m s = l0 ++ new ∧ Right inside tc hi σ.now was new
  view : s ∈ σ.inView m → σ.now ≤ hi → inside σ.now
  seen : inside σ.now → σ.now ≤ hi → s ∈ σ.inView m ∨ EntersAt inside tc σ.now ∨ LeavesAt inside hi σ.now
  noError : ∀ (i : Nat) (p : Proc α), σ.procs[i]? = some p → p.mover = m → p.sensor = s → (fire σ i).2 ≠ .error

theorem Trk.served {inside : α → Prop} {lo hi tc : α} {ps : List (Entry α × Entry α)} {m s b0 d : Nat} {was cur : Bool} {l0 : List (α × Bool)} {σ : St α L}
    (hg : Good inside lo hi ps) (htc : lo ≤ tc) (hk : Kept was tc (keep tc ps)) (h : Trk m s tc b0 (keep tc ps) was l0 d cur σ) :
    Served m s inside tc hi was l0 σ := by
  obtain ⟨h1, h2, h3⟩ := h.right hg htc hk
  exact ⟨⟨_, h.told, h1⟩, h2, h3, fun i => (h.fire hk i).2⟩

/-- **C43 for a trip.** A detectable mover starts (in any reachable state, when the processes of earlier trips for this sensor have
ended) on a path for which the crossings are computed right, which does not merely touch the sensor's range. Whatever happens afterwards
other than to this mover or sensor, at any time the sensor has been told of exactly the entries and exits up to now, alternately, each
when it happens; the manager's view agrees; and no notification process fails. -/
theorem c43_trip_partial (I : Inter α L) (t0 : α) (det : Nat → Option Bool) (ops₀ : List (Op α L)) (σ : St α L) (hσ : σ = run I (St.init t0 det) ops₀)
    (m s : Nat) (speed : α) (ws : List L) (hdet : σ.detect m = some true) (hs : s ∈ σ.sensors) (hq : Quiet σ m s)
    (hok : (step I σ (.start m speed ws)).2 = .ok) (inside : α → Prop) (Ds : List α) (hDs : Ds ≠ []) (hI : ExactPath I speed s inside ws Ds σ.now)
    (hn : NoTouch inside σ.now (σ.now + Ds.sum)) (hwas : s ∈ σ.inView m → inside σ.now ∧ 0 ≤ Ds.sum)
    (ops : List (Op α L)) (hops : ∀ o ∈ ops, Foreign m s o) :
    Served m s inside σ.now (σ.now + Ds.sum) (decide (s ∈ σ.inView m)) (told σ m s) (run I (step I σ (.start m speed ws)).1 ops) := by
  have hw : Wf σ := hσ ▸ run_wf I ops₀ _ (init_wf t0 det)
  obtain ⟨ps, hps, hg⟩ := processPair_good I ⟨speed, ws, σ.now⟩ s inside Ds hI hDs
  obtain ⟨b0, ht⟩ := trk_start I σ hw m s speed ws hdet hs hq hok ps hps
  have hk := hg.kept hn (le_refl _) (.inl rfl) (decide (s ∈ σ.inView m)) fun h => ⟨by linarith [(hwas (of_decide_eq_true h)).2], (hwas (of_decide_eq_true h)).1⟩
  obtain ⟨d, cur, h⟩ := ht.run I hk ops hops
  exact h.served hg (le_refl _) hk

/-- **C43 for a sensor added during a trip**, not at the very moment at which the mover leaves its range. -/
theorem c43_sensor_partial (I : Inter α L) (t0 : α) (det : Nat → Option Bool) (ops₀ : List (Op α L)) (σ : St α L) (hσ : σ = run I (St.init t0 det) ops₀)
    (m s : Nat) (t : Trip α L) (ht : σ.movers.get? m = some t) (hle : t.start ≤ σ.now) (hdet : σ.detect m = some true) (hq : Quiet σ m s)
    (hok : (step I σ (.addSensor s)).2 = .ok) (inside : α → Prop) (Ds : List α) (hDs : Ds ≠ []) (hI : ExactPath I t.speed s inside t.waypoints Ds t.start)
    (hn : NoTouch inside t.start (t.start + Ds.sum)) (hnl : ¬ LeavesAt inside (t.start + Ds.sum) σ.now)
    (hwas : s ∈ σ.inView m → inside σ.now ∧ σ.now ≤ t.start + Ds.sum)
    (ops : List (Op α L)) (hops : ∀ o ∈ ops, Foreign m s o) :
    Served m s inside σ.now (t.start + Ds.sum) (decide (s ∈ σ.inView m)) (told σ m s) (run I (step I σ (.addSensor s)).1 ops) := by
  have hw : Wf σ := hσ ▸ run_wf I ops₀ _ (init_wf t0 det)
  obtain ⟨ps, hps, hg⟩ := processPair_good I t s inside Ds hI hDs
  obtain ⟨b0, htr⟩ := trk_sensor I σ hw m s t ht hdet hq hok ps hps
  have hk := hg.kept hn hle (.inr hnl) (decide (s ∈ σ.inView m)) fun h => ⟨(hwas (of_decide_eq_true h)).2, (hwas (of_decide_eq_true h)).1⟩
  obtain ⟨d, cur, h⟩ := htr.run I hk ops hops
  exact h.served hg hle hk

/-- **C43, stopping.** When a moving mover is stopped (all its processes having begun), a sensor is told nothing more about it as long as
neither of them is touched, and its view of the mover stays as it was. -/
theorem c43_stop_partial (I : Inter α L) (t0 : α) (det : Nat → Option Bool) (ops₀ : List (Op α L)) (σ : St α L) (hσ : σ = run I (St.init t0 det) ops₀)
    (m s : Nat) (hdet : σ.detect m ≠ none) (hm : σ.movers.has m = true) (hf : ∀ p ∈ σ.procs, p.mover = m → p.sensor = s → p.stage ≠ .fresh)
    (ops : List (Op α L)) (hops : ∀ o ∈ ops, Foreign m s o) :
    (step I σ (.stop m)).2 = .ok ∧ told (run I (step I σ (.stop m)).1 ops) m s = told σ m s ∧
    (s ∈ (run I (step I σ (.stop m)).1 ops).inView m ↔ s ∈ σ.inView m) := by
  have hw : Wf σ := hσ ▸ run_wf I ops₀ _ (init_wf t0 det)
  have hl : Live σ := hσ ▸ run_live I ops₀ _ (init_wf t0 det) (init_live t0 det)
  have hstep : step I σ (.stop m) = (taken σ m, .ok) := by
    cases hd : σ.detect m with
    | none => exact absurd hd hdet
    | some b => simp [step, stopMover, hd, hm, taken]
  rw [hstep]
  obtain ⟨_, h2, h3⟩ := (taken_dead σ m s hl hf).run I ops (taken_wf σ m hw) hops
  exact ⟨rfl, h2, h3⟩

/-- **C43, becoming undetectable.** When a moving mover becomes undetectable (all its processes having begun), exactly the sensors which
have it in view are told of its exit, now; it is no longer in view; and nothing more is told as long as neither of them is touched. -/
theorem c43_hidden_partial (I : Inter α L) (t0 : α) (det : Nat → Option Bool) (ops₀ : List (Op α L)) (σ : St α L) (hσ : σ = run I (St.init t0 det) ops₀)
    (m s : Nat) (hdet : σ.detect m ≠ none) (hm : σ.movers.has m = true) (hf : ∀ p ∈ σ.procs, p.mover = m → p.sensor = s → p.stage ≠ .fresh)
    (ops : List (Op α L)) (hops : ∀ o ∈ ops, Foreign m s o) :
    (step I σ (.detect m false)).2 = .ok ∧
    told (run I (step I σ (.detect m false)).1 ops) m s = told σ m s ++ (if s ∈ σ.inView m then [(σ.now, false)] else []) ∧
    s ∉ (run I (step I σ (.detect m false)).1 ops).inView m := by
  have hw : Wf σ := hσ ▸ run_wf I ops₀ _ (init_wf t0 det)
  have hl : Live σ := hσ ▸ run_live I ops₀ _ (init_wf t0 det) (init_live t0 det)
  have hstep : step I σ (.detect m false) = (taken (hidden σ m false) m, .ok) := by
    cases hd : σ.detect m with
    | none => exact absurd hd hdet
    | some b =>
      simp only [step, setDetect, hd, stopMover]
      simp [hidden, taken, upd_self, hm]
  rw [hstep]
  obtain ⟨_, h2, h3⟩ := (taken_dead (hidden σ m false) m s hl hf).run I ops (taken_wf _ m (hidden_wf σ m false hw)) hops
  refine ⟨rfl, ?_, ?_⟩
  · rw [h2]
    simp only [told, taken, hidden, List.filter_append, List.map_append]
    congr 1
    have hnd := hw.view m
    generalize σ.inView m = l at *
    clear * - hnd
    induction l with
    | nil => simp
    | cons x l ih =>
      rw [List.nodup_cons] at hnd
      by_cases hx : x = s
      · subst hx
        rw [List.map_cons, List.filter_cons_of_pos (by simp), List.map_cons, ih hnd.2, if_neg hnd.1, if_pos (by simp)]
      · rw [List.map_cons, List.filter_cons_of_neg (by simp [hx]), ih hnd.2]
        have : s ∈ x :: l ↔ s ∈ l := by simp [Ne.symm hx]
        by_cases hs : s ∈ l
        · rw [if_pos hs, if_pos (this.2 hs)]
        · rw [if_neg hs, if_neg (fun hc => hs (this.1 hc))]
  · rw [h3]
    simp [taken, hidden, upd_self]

/-- **C43, the whole story of a trip cut short**: started, stopped later at some time, the sensor has been told exactly the entries and
exits up to the stop, and is told nothing afterwards. -/
theorem c43_cut_short_partial (I : Inter α L) (t0 : α) (det : Nat → Option Bool) (ops₀ : List (Op α L)) (σ : St α L) (hσ : σ = run I (St.init t0 det) ops₀)
    (m s : Nat) (speed : α) (ws : List L) (hdet : σ.detect m = some true) (hs : s ∈ σ.sensors) (hq : Quiet σ m s)
    (hok : (step I σ (.start m speed ws)).2 = .ok) (inside : α → Prop) (Ds : List α) (hDs : Ds ≠ []) (hI : ExactPath I speed s inside ws Ds σ.now)
    (hn : NoTouch inside σ.now (σ.now + Ds.sum)) (hwas : s ∈ σ.inView m → inside σ.now ∧ 0 ≤ Ds.sum)
    (ops : List (Op α L)) (hops : ∀ o ∈ ops, Foreign m s o) (τ : St α L) (hτ : τ = run I (step I σ (.start m speed ws)).1 ops) (hlater : σ.now < τ.now)
    (ops' : List (Op α L)) (hops' : ∀ o ∈ ops', Foreign m s o) :
    (∃ new, told (run I (step I τ (.stop m)).1 ops') m s = told σ m s ++ new ∧
      Right inside σ.now (σ.now + Ds.sum) τ.now (decide (s ∈ σ.inView m)) new) ∧
    (∃ new, told (run I (step I τ (.detect m false)).1 ops') m s = told σ m s ++ new ++ (if s ∈ τ.inView m then [(τ.now, false)] else []) ∧
      Right inside σ.now (σ.now + Ds.sum) τ.now (decide (s ∈ σ.inView m)) new ∧
      Alternate (decide (s ∈ σ.inView m)) (new ++ (if s ∈ τ.inView m then [(τ.now, false)] else []))) := by
  have hw : Wf σ := hσ ▸ run_wf I ops₀ _ (init_wf t0 det)
  obtain ⟨ps, hps, hg⟩ := processPair_good I ⟨speed, ws, σ.now⟩ s inside Ds hI hDs
  obtain ⟨b0, ht⟩ := trk_start I σ hw m s speed ws hdet hs hq hok ps hps
  have hk := hg.kept hn (le_refl _) (.inl rfl) (decide (s ∈ σ.inView m)) fun h => ⟨by linarith [(hwas (of_decide_eq_true h)).2], (hwas (of_decide_eq_true h)).1⟩
  obtain ⟨d, cur, h⟩ := ht.run I hk ops hops
  rw [← hτ] at h
  have hr := h.right hg (le_refl _) hk
  have hf : ∀ p ∈ τ.procs, p.mover = m → p.sensor = s → p.stage ≠ .fresh := by
    intro p hp h1 h2 hc
    obtain ⟨i, hi⟩ := List.mem_iff_getElem?.1 hp
    obtain ⟨j, q, _, _, _, _, _, _, g⟩ := h.live i p hi h1 h2 (by rw [hc]; simp)
    rcases g with ⟨_, _, g, _⟩ | ⟨_, ⟨_, g⟩ | ⟨g, _⟩⟩
    · rw [hc] at g; cases g
    · linarith
    · rw [hc] at g; cases g
  have hrun : ∀ (a b : List (Op α L)) (x : St α L), run I x (a ++ b) = run I (run I x a) b := by
    intro a
    induction a with
    | nil => intro b x; rfl
    | cons o a ih => intro b x; exact ih b _
  have hτ' : τ = run I (St.init t0 det) (ops₀ ++ .start m speed ws :: ops) := by rw [hrun, ← hσ, hτ]; rfl
  refine ⟨⟨_, ?_, hr.1⟩, ⟨_, ?_, hr.1, ?_⟩⟩
  · rw [(c43_stop_partial I t0 det _ τ hτ' m s (by rw [h.det]; simp) h.moving hf ops' hops').2.1, h.told]
  · rw [(c43_hidden_partial I t0 det _ τ hτ' m s (by rw [h.det]; simp) h.moving hf ops' hops').2.1, h.told]
  · rw [alternate_append]
    refine ⟨h.alt, ?_⟩
    rw [h.last]
    split
    · rename_i hc; simp [Alternate, hc]
    · trivial

/-- **C43, the clock is never stuck.** In every reachable state some process can be resumed, or the clock can go on to a later time. -/
theorem c43_progress (I : Inter α L) (t0 : α) (det : Nat → Option Bool) (ops₀ : List (Op α L)) (σ : St α L) (hσ : σ = run I (St.init t0 det) ops₀) :
    (∃ i, (step I σ (.fire i)).2 ≠ .refused) ∨ ∃ t, σ.now < t ∧ (step I σ (.advance t)).2 = .ok := by
  have hl : Live σ := hσ ▸ run_live I ops₀ _ (init_wf t0 det) (init_live t0 det)
  by_cases h : ∃ i, (step I σ (.fire i)).2 ≠ .refused
  · exact .inl h
  · right
    push Not at h
    have hafter : ∀ (σ : St α L) i p, (afterEntry σ i p).2 ≠ .refused := by
      intro σ i p; unfold afterEntry; split
      · simp
      · split <;> simp
    have hall : ∀ p ∈ σ.procs, p.stage = .over ∨ ∃ due, σ.now < due ∧ p.intr = false ∧ (p.stage = .entry due ∨ p.stage = .exit due) := by
      intro p hp
      obtain ⟨i, hi⟩ := List.mem_iff_getElem?.1 hp
      have hr := h i
      simp only [step, fire, hi] at hr
      cases hst : p.stage with
      | over => exact .inl rfl
      | fresh =>
        exfalso
        simp only [hst, begins] at hr
        split at hr
        · exact hafter _ _ _ hr
        · split at hr <;> simp at hr
      | entry due =>
        right
        simp only [hst] at hr
        have hle := (hl i p hi (by rw [hst]; simp)).2 due (.inl hst)
        split at hr
        · simp at hr
        · rename_i hc
          split at hr
          · exact absurd hr (hafter _ _ _)
          · rename_i hne
            exact ⟨due, lt_of_le_of_ne hle (Ne.symm hne), by simpa using hc, .inl rfl⟩
      | exit due =>
        right
        simp only [hst] at hr
        have hle := (hl i p hi (by rw [hst]; simp)).2 due (.inr hst)
        split at hr
        · simp at hr
        · rename_i hc
          split at hr
          · simp only [leaves] at hr; split at hr <;> simp at hr
          · rename_i hne
            exact ⟨due, lt_of_le_of_ne hle (Ne.symm hne), by simpa using hc, .inr rfl⟩
    have hmin : ∀ l : List (Proc α), (∀ p ∈ l, p.stage = .over ∨ ∃ due, σ.now < due ∧ p.intr = false ∧ (p.stage = .entry due ∨ p.stage = .exit due)) →
        ∃ t, σ.now < t ∧ ∀ p ∈ l, Idle t p := by
      intro l
      induction l with
      | nil => exact fun _ => ⟨σ.now + 1, by linarith, by simp⟩
      | cons p l ih =>
        intro hl
        obtain ⟨t, ht, hti⟩ := ih fun q hq => hl q (by simp [hq])
        have hmono : ∀ (t t' : α) (q : Proc α), t' ≤ t → Idle t q → Idle t' q := by
          intro t t' q hle hq
          unfold Idle at hq ⊢
          generalize q.stage = st at hq ⊢
          cases st with
          | over => trivial
          | fresh => exact hq
          | entry due => exact ⟨hq.1, hle.trans hq.2⟩
          | exit due => exact ⟨hq.1, hle.trans hq.2⟩
        rcases hl p (by simp) with hc | ⟨due, hd, hi, hc⟩
        · refine ⟨t, ht, fun q hq => ?_⟩
          rcases List.mem_cons.1 hq with rfl | hq
          · simp [Idle, hc]
          · exact hti q hq
        · refine ⟨min t due, lt_min ht hd, fun q hq => ?_⟩
          rcases List.mem_cons.1 hq with rfl | hq
          · rcases hc with hc | hc <;> simp [Idle, hc, hi]
          · exact hmono t _ q (min_le_left _ _) (hti q hq)
    obtain ⟨t, ht, hti⟩ := hmin σ.procs hall
    exact ⟨t, ht, by simp only [step]; rw [if_pos ⟨ht.le, hti⟩]⟩

end Verif.Queued
