import Verif.Patrol.Examples

/-! # C76: an actor that becomes detectable, and `run_particular` -/

namespace Verif.Patrol

open Verif.Stepped (Obj Aware)
open Verif.Path (Loc euclid)

variable {P : Type}

theorem runDetectable_ok {L : Stepped.Look} {a : Obj} {μ : Stepped.St} (h : (Stepped.runDetectable L (some [a]) μ).2 = .ok) (hd : μ.det a = true) :
    a ∈ μ.detectables ∧ L.reads = true := by
  unfold Stepped.runDetectable at h
  dsimp only at h
  split at h
  · rename_i hc
    exact ⟨hc.1 a (List.mem_filter.2 ⟨by simp, hd⟩), hc.2⟩
  · cases h

/-- Reading a location with a state that exists. -/
theorem read_out (c : Cfg P) (w : World P) (b : Obj) (n : Nat) (hn : n ∈ c.states b) :
    (step c w (.read b n)).2 = .path (Path.read c.kind (w.loc b n)).2 := by
  simp only [step, Op.uses, if_pos hn, act, plain, Path.step]

/-- **C76, showing.** When an actor is made detectable and that ends well, it is being watched, and at once a sensor's last word on it is "entered"
exactly when the two locations, those anybody else would read at that time, are within the sensor's radius. -/
theorem c76_shown (c : Cfg P) (t0 : Rat) (det : Obj → Bool) (radius : Obj → ℝ) (val : Obj → Nat → P) (ops : List (Op P)) (w : World P)
    (hw : w = run c (init t0 det radius val) ops) (a : Obj) (hok : (step c w (.detect a true)).2 = .mgr .ok) (s : Obj) (hs : s ∈ w.mgr.sensors)
    (hsa : s ≠ a) :
    a ∈ w.mgr.detectables ∧ (Aware (step c w (.detect a true)).1.mgr.log s a ↔ ∃ Y X, (step c w (.read s (w.eyes s))).2 = .path (.loc Y) ∧
      (step c w (.read a (w.spots a))).2 = .path (.loc X) ∧ c.line Y X ≤ w.radius s) := by
  obtain ⟨hS, ⟨mo, hmo, e⟩, -⟩ := run_does c ops _ (Sound.init c t0 det radius val) a 0
  rw [← hw] at hS e
  obtain ⟨-, q, h4⟩ := scan_spec c w hS.ready { w.mgr with det := fun b => if b = a then true else w.mgr.det b } (some [a])
  simp only [step, Op.uses, act, if_true, check, Out.mgr.injEq] at hok
  have hrun := runDetectable_ok (μ := { w.mgr with det := fun b => if b = a then true else w.mgr.det b }) (a := a) hok (by simp)
  have ha : a ∈ w.mgr.detectables := hrun.1
  refine ⟨ha, ?_⟩
  have key := Stepped.c42_after_appearing_partial c.mgr det t0 mo (fun q hq => (hmo q hq).1) _ q w.mgr e a hok s hs hsa
  have hl : (step c w (.detect a true)).1.mgr = (Stepped.step c.mgr w.mgr (.setDetectable a true
      (scan c w { w.mgr with det := fun b => if b = a then true else w.mgr.det b } (some [a])).2)).1 := by
    simp only [step, Op.uses, act, if_true, check]
  rw [hl, key, read_out c w s _ (hS.eyes s hs), read_out c w a _ (hS.spots a ha)]
  simp only [Out.path.injEq]
  obtain ⟨Y, X, hY, hX, hi, -⟩ := h4 hrun.2 s hs a (List.mem_filter.2 ⟨by simp, by simp⟩)
  rw [hi]
  refine ⟨fun hl => ⟨Y, X, hY, hX, hl⟩, ?_⟩
  rintro ⟨Y', X', hY', hX', hl⟩
  rw [hY] at hY'
  rw [hX] at hX'
  cases hY'
  cases hX'
  exact hl

/-- **C76, one actor.** The same after a round of `run_particular`, for an actor that is detectable; for one that is not, the last word is not
"entered". -/
theorem c76_particular (c : Cfg P) (t0 : Rat) (det : Obj → Bool) (radius : Obj → ℝ) (val : Obj → Nat → P) (ops : List (Op P)) (w : World P)
    (hw : w = run c (init t0 det radius val) ops) (a : Obj) (hok : (step c w (.particular a)).2 = .mgr .ok) (s : Obj) (hs : s ∈ w.mgr.sensors)
    (hsa : s ≠ a) :
    Aware (step c w (.particular a)).1.mgr.log s a ↔ w.mgr.det a = true ∧ ∃ Y X, (step c w (.read s (w.eyes s))).2 = .path (.loc Y) ∧
      (step c w (.read a (w.spots a))).2 = .path (.loc X) ∧ c.line Y X ≤ w.radius s := by
  obtain ⟨hS, ⟨mo, hmo, e⟩, -⟩ := run_does c ops _ (Sound.init c t0 det radius val) a 0
  rw [← hw] at hS e
  obtain ⟨-, q, h4⟩ := scan_spec c w hS.ready w.mgr (some [a])
  simp only [step, Op.uses, act, check, Out.mgr.injEq] at hok
  have key := Stepped.c42_after_particular_partial c.mgr det t0 mo (fun q hq => (hmo q hq).1) _ q w.mgr e a hok s hs hsa
  have hl : (step c w (.particular a)).1.mgr = (Stepped.step c.mgr w.mgr (.particular a (scan c w w.mgr (some [a])).2)).1 := by
    simp only [step, Op.uses, act, check]
  rw [hl, key]
  refine and_congr_right fun hd => ?_
  have hrun := runDetectable_ok (μ := w.mgr) (a := a) hok hd
  rw [read_out c w s _ (hS.eyes s hs), read_out c w a _ (hS.spots a hrun.1)]
  simp only [Out.path.injEq]
  obtain ⟨Y, X, hY, hX, hi, -⟩ := h4 hrun.2 s hs a (List.mem_filter.2 ⟨by simp, hd⟩)
  rw [hi]
  refine ⟨fun hl => ⟨Y, X, hY, hX, hl⟩, ?_⟩
  rintro ⟨Y', X', hY', hX', hl⟩
  rw [hY] at hY'
  rw [hX] at hX'
  cases hY'
  cases hX'
  exact hl

theorem readAll_others (c : Cfg P) (b : Obj) (l : List (Obj × Nat)) (hb : ∀ p ∈ l, p.1 ≠ b) : ∀ w : World P, (readAll c w l).1.loc b = w.loc b := by
  induction l with
  | nil => intro w; rfl
  | cons p l ih =>
    intro w
    obtain ⟨a, n⟩ := p
    have hab : b ≠ a := fun h => hb (a, n) (by simp) h.symm
    have hset : ∀ τ, (setLoc w a n τ).loc b = w.loc b := fun τ => by funext m; simp [setLoc, hab]
    have ih' := fun τ => ih (fun p hp => hb p (List.mem_cons_of_mem _ hp)) (setLoc w a n τ)
    unfold readAll
    cases hr : Path.read c.kind (w.loc a n) with
    | mk τ o =>
      cases o with
      | loc p =>
        dsimp only
        have := ih' τ
        cases hx : readAll c (setLoc w a n τ) l with
        | mk w1 ps =>
          rw [hx] at this
          cases ps <;> exact this.trans (hset τ)
      | done => exact hset τ
      | error => exact hset τ
      | list p => exact hset τ

theorem scan_others (c : Cfg P) (w : World P) (μ : Stepped.St) (a b : Obj) (hb : b ∉ μ.sensors) (hab : b ≠ a) :
    (scan c w μ (some [a])).1.loc b = w.loc b := by
  have h1 := readAll_others c b (μ.sensors.map fun s => (s, w.eyes s)) (by
    intro p hp
    obtain ⟨s, hs, rfl⟩ := List.mem_map.1 hp
    exact fun h => hb (h ▸ hs)) w
  unfold scan
  cases hx : readAll c w (μ.sensors.map fun s => (s, w.eyes s)) with
  | mk w1 ys =>
    rw [hx] at h1
    cases ys with
    | none => exact h1
    | some ys =>
      dsimp only
      split
      · have h2 := readAll_others c b ((((some [a]).getD μ.detectables).filter μ.det).map fun a => (a, w1.spots a)) (by
          intro p hp
          obtain ⟨x, hx', rfl⟩ := List.mem_map.1 hp
          have := (List.mem_filter.1 hx').1
          simp only [Option.getD_some, List.mem_singleton] at this
          exact fun h => hab (h.symm.trans this)) w1
        cases hy : readAll c w1 ((((some [a]).getD μ.detectables).filter μ.det).map fun a => (a, w1.spots a)) with
        | mk w2 xs =>
          rw [hy] at h2
          cases xs <;> exact h2.trans h1
      · exact h1

/-- **C76, who is looked at.** Making an actor detectable, or a round of `run_particular` for it, touches no location but its own and the sensors'. -/
theorem c76_only_looks_at (c : Cfg P) (w : World P) (a b : Obj) (hb : b ∉ w.mgr.sensors) (hab : b ≠ a) :
    (step c w (.detect a true)).1.loc b = w.loc b ∧ (step c w (.particular a)).1.loc b = w.loc b := by
  constructor
  · simp only [step, Op.uses, act, if_true, check]
    exact scan_others c w _ a b hb hab
  · simp only [step, Op.uses, act, check]
    exact scan_others c w _ a b hb hab

/-- A sensor, an actor beside it and one out of range, both hidden. -/
noncomputable def demoHid : World Loc :=
  run demoC (init 0 (fun _ => true) (fun _ => 5) demoV) [.addSensor 0 0, .addDetectable 1 0, .addDetectable 2 0, .detect 1 false, .detect 2 false]

theorem demoHid_eq : demoHid.mgr.sensors = [0] ∧ demoHid.mgr.detectables = [1, 2] ∧ demoHid.eyes 0 = 0 ∧ demoHid.spots 1 = 0 ∧ demoHid.spots 2 = 0 ∧
    demoHid.radius 0 = 5 ∧ ∀ a n, demoHid.loc a n = ⟨0, demoV a n, none, false⟩ := by
  simp [demoHid, run, step, Op.uses, act, ask, demoC, init, Stepped.step, Stepped.St.init, Stepped.addKey, Stepped.hide, Stepped.moverNotDetectable, upd]

theorem demoHid_ok (a : Obj) (ha : a = 1 ∨ a = 2) : (step demoC demoHid (.detect a true)).2 = .mgr .ok := by
  obtain ⟨h1, h2, h3, h4, h5, h6, h7⟩ := demoHid_eq
  rcases ha with rfl | rfl <;>
    simp [step, Op.uses, act, check, Stepped.step, scan, h1, h2, h3, h4, h5, readAll, h7, Path.read, setLoc, Stepped.runDetectable, sight,
      Stepped.checkSensors, Stepped.checkObjects, Dict.get?]

/-- The actor beside the sensor is noticed when it is shown, the other is not (`c76_shown`). -/
example : Aware (step demoC demoHid (.detect 1 true)).1.mgr.log 0 1 ∧ ¬ Aware (step demoC demoHid (.detect 2 true)).1.mgr.log 0 2 := by
  obtain ⟨h1, h2, h3, h4, h5, h6, h7⟩ := demoHid_eq
  have r : ∀ b n, n ∈ demoC.states b → (step demoC demoHid (.read b n)).2 = .path (.loc (demoV b n)) := fun b n hn => by
    rw [read_out _ _ _ _ hn, h7]; rfl
  have r0 := r 0 0 (by simp [demoC])
  have r1 := r 1 0 (by simp [demoC])
  have r2 := r 2 0 (by simp [demoC])
  constructor
  · refine (c76_shown demoC 0 _ _ demoV _ demoHid rfl 1 (demoHid_ok 1 (.inl rfl)) 0 (by simp [h1]) (by decide)).2.2 ⟨near, near, ?_, ?_, ?_⟩
    · rw [h3, r0]; simp [demoV]
    · rw [h4, r1]; simp [demoV]
    · rw [h6]; simp [demoC, Path.euclid]
  · intro h
    obtain ⟨Y, X, hY, hX, hl⟩ := (c76_shown demoC 0 _ _ demoV _ demoHid rfl 2 (demoHid_ok 2 (.inr rfl)) 0 (by simp [h1]) (by decide)).2.1 h
    rw [h3, r0] at hY
    rw [h5, r2] at hX
    simp only [demoV, Out.path.injEq, Path.Out.loc.injEq] at hY hX
    rw [← hY, ← hX, h6] at hl
    have : euclid (near.place 1) (far.place 1) ≤ 5 := by simpa [demoC] using hl
    rw [demo_dist] at this
    norm_num at this

/-- The hypotheses of `c76_particular` and `c76_only_looks_at` are met there: a round for an actor that is hidden ends well. -/
example : (step demoC demoHid (.particular 1)).2 = .mgr .ok ∧ ¬ Aware (step demoC demoHid (.particular 1)).1.mgr.log 0 1 ∧ 2 ∉ demoHid.mgr.sensors := by
  obtain ⟨h1, h2, h3, h4, h5, h6, h7⟩ := demoHid_eq
  have hd : demoHid.mgr.det 1 = false := by
    simp [demoHid, run, step, Op.uses, act, ask, demoC, init, Stepped.step, Stepped.St.init, Stepped.addKey, Stepped.hide, Stepped.moverNotDetectable, upd]
  have hok : (step demoC demoHid (.particular 1)).2 = .mgr .ok := by
    simp [step, Op.uses, act, check, Stepped.step, scan, h1, h3, readAll, h7, Path.read, setLoc, Stepped.runDetectable, sight, hd,
      Stepped.checkSensors, Stepped.checkObjects]
  refine ⟨hok, fun h => ?_, by simp [h1]⟩
  have := ((c76_particular demoC 0 _ _ demoV _ demoHid rfl 1 hok 0 (by simp [h1]) (by decide)).1 h).1
  rw [hd] at this
  cases this

end Verif.Patrol
