import Verif.Stepped.Props

/-! # C80: the set of pairs in view of the stepped motion manager

`SteppedMotionManager` keeps the pairs of sensors and objects in view in a set, and goes through it when an object becomes undetectable
(stepped_motion.py 278-290). Whatever the order, every sensor is told the same, in the same order. -/

namespace Verif.Orders.Stepped

open Verif.Stepped

/-- What one sensor was told. -/
def heard (s : Obj) (l : List Told) : List Told := l.filter fun t => t.sensor = s

/-- Two states of a manager between which nobody can tell a difference: the pairs in view in any order, every sensor told the same. -/
structure Alike (σ σ' : St) : Prop where
  now : σ'.now = σ.now
  sensors : σ'.sensors = σ.sensors
  detectables : σ'.detectables = σ.detectables
  view : σ'.view.Perm σ.view
  det : σ'.det = σ.det
  isRunning : σ'.isRunning = σ.isRunning
  pending : σ'.pending = σ.pending
  loops : σ'.loops = σ.loops
  checks : σ'.checks = σ.checks
  log : ∀ s, heard s σ'.log = heard s σ.log

theorem Alike.refl (σ : St) : Alike σ σ := ⟨rfl, rfl, rfl, .refl _, rfl, rfl, rfl, rfl, rfl, fun _ => rfl⟩

theorem Alike.symm {σ σ' : St} (h : Alike σ σ') : Alike σ' σ :=
  ⟨h.now.symm, h.sensors.symm, h.detectables.symm, h.view.symm, h.det.symm, h.isRunning.symm, h.pending.symm, h.loops.symm, h.checks.symm,
    fun s => (h.log s).symm⟩

theorem Alike.trans {σ σ' σ'' : St} (h : Alike σ σ') (h' : Alike σ' σ'') : Alike σ σ'' :=
  ⟨h'.now.trans h.now, h'.sensors.trans h.sensors, h'.detectables.trans h.detectables, h'.view.trans h.view, h'.det.trans h.det,
    h'.isRunning.trans h.isRunning, h'.pending.trans h.pending, h'.loops.trans h.loops, h'.checks.trans h.checks,
    fun s => (h'.log s).trans (h.log s)⟩

theorem heard_exits (s a : Obj) (l : List (Obj × Obj)) :
    heard s ((l.filter (fun p => p.2 = a)).map fun p => (⟨p.1, a, false⟩ : Told)) = List.replicate (l.count (s, a)) ⟨s, a, false⟩ := by
  induction l with
  | nil => rfl
  | cons p r ih =>
    obtain ⟨x, y⟩ := p
    rw [List.count_cons]
    by_cases hy : y = a
    · subst hy
      rw [List.filter_cons_of_pos (by simp)]
      simp only [List.map_cons, heard] at ih ⊢
      by_cases hx : x = s
      · subst hx
        rw [List.filter_cons_of_pos (by simp), ih]
        simp [List.replicate_succ]
      · rw [List.filter_cons_of_neg (by simpa using hx), ih]
        simp [hx]
    · rw [List.filter_cons_of_neg (by simpa using hy), ih]
      simp [hy]

theorem moverNotDetectable_alike {σ σ' : St} (h : Alike σ σ') (a : Obj) : Alike (moverNotDetectable σ a) (moverNotDetectable σ' a) := by
  refine ⟨h.now, h.sensors, h.detectables, h.view.filter _, h.det, h.isRunning, h.pending, h.loops, h.checks, fun s => ?_⟩
  have e1 := heard_exits s a σ.view
  have e2 := heard_exits s a σ'.view
  have e3 := h.log s
  unfold heard at e1 e2 e3 ⊢
  simp only [moverNotDetectable, List.filter_append]
  rw [e1, e2, e3, h.view.count_eq]

theorem hide_alike {σ σ' : St} (h : Alike σ σ') (a : Obj) : Alike (hide σ a) (hide σ' a) := by
  have k : Alike { σ with det := fun b => if b = a then false else σ.det b } { σ' with det := fun b => if b = a then false else σ'.det b } :=
    ⟨h.now, h.sensors, h.detectables, h.view, by simp only [h.det], h.isRunning, h.pending, h.loops, h.checks, h.log⟩
  exact moverNotDetectable_alike k a

theorem hides_alike (l : List Obj) : ∀ {σ σ' : St}, Alike σ σ' → Alike (l.foldl hide σ) (l.foldl hide σ') := by
  induction l with
  | nil => exact fun h => h
  | cons a r ih => exact fun h => ih (hide_alike h a)

theorem tell_alike {σ σ' : St} (h : Alike σ σ') {v v' : List (Obj × Obj)} (hv : v'.Perm v) (t : Told) :
    Alike { σ with view := v, log := σ.log ++ [t] } { σ' with view := v', log := σ'.log ++ [t] } := by
  refine ⟨h.now, h.sensors, h.detectables, hv, h.det, h.isRunning, h.pending, h.loops, h.checks, fun s => ?_⟩
  have := h.log s
  unfold heard at this ⊢
  simp only [List.filter_append, this]

theorem update_alike (L : Look) {σ σ' : St} (h : Alike σ σ') (s a : Obj) (v : Bool) :
    Alike (updateAwareness L σ s a v) (updateAwareness L σ' s a v) := by
  unfold updateAwareness
  simp only [h.view.mem_iff]
  split
  · split
    · exact h
    · exact hides_alike _ (tell_alike h (h.view.append_right _) _)
  · split
    · exact tell_alike h (h.view.filter _) _
    · exact h

theorem objects_alike (L : Look) (s : Obj) : ∀ (as : List Obj) {σ σ' : St}, Alike σ σ' →
    Alike (checkObjects L s as σ).1 (checkObjects L s as σ').1 ∧ (checkObjects L s as σ').2 = (checkObjects L s as σ).2
  | [], _, _, h => ⟨h, rfl⟩
  | a :: as, σ, σ', h => by
    unfold checkObjects
    split
    · exact objects_alike L s as h
    · split
      · exact ⟨h, rfl⟩
      · exact objects_alike L s as (update_alike L h s a _)

theorem sensors_alike (L : Look) (as : List Obj) : ∀ (ss : List Obj) {σ σ' : St}, Alike σ σ' →
    Alike (checkSensors L as ss σ).1 (checkSensors L as ss σ').1 ∧ (checkSensors L as ss σ').2 = (checkSensors L as ss σ).2
  | [], _, _, h => ⟨h, rfl⟩
  | s :: ss, σ, σ', h => by
    unfold checkSensors
    obtain ⟨h1, h2⟩ := objects_alike L s as h
    rcases e : checkObjects L s as σ with ⟨τ, o⟩
    rcases e' : checkObjects L s as σ' with ⟨τ', o'⟩
    rw [e, e'] at h1 h2
    simp only at h1 h2
    subst h2
    cases o' with
    | ok => exact sensors_alike L as ss h1
    | error => exact ⟨h1, rfl⟩
    | refused => exact ⟨h1, rfl⟩

theorem detectable_alike (L : Look) (req : Option (List Obj)) {σ σ' : St} (h : Alike σ σ') :
    Alike (runDetectable L req σ).1 (runDetectable L req σ').1 ∧ (runDetectable L req σ').2 = (runDetectable L req σ).2 := by
  unfold runDetectable
  simp only [h.detectables, h.det, h.sensors]
  split
  · exact sensors_alike L _ _ h
  · exact ⟨h, rfl⟩

/-- The operation is only about the order of the set. -/
def Op.shuffles : Op → Bool
  | .reorder _ => true
  | _ => false

theorem shuffle_alike (c : Cfg) (σ : St) {o : Op} (ho : Op.shuffles o = true) : Alike (step c σ o).1 σ := by
  cases o with
  | reorder v =>
    simp only [step]
    split
    · rename_i hv
      exact ⟨rfl, rfl, rfl, hv.symm, rfl, rfl, rfl, rfl, rfl, fun _ => rfl⟩
    · exact .refl σ
  | _ => cases ho

theorem step_alike (c : Cfg) {σ σ' : St} (h : Alike σ σ') (o : Op) (ho : Op.shuffles o = false) :
    Alike (step c σ o).1 (step c σ' o).1 ∧ (step c σ' o).2 = (step c σ o).2 := by
  cases o with
  | addSensor s ok =>
    simp only [step]
    split
    · exact ⟨⟨h.now, by simp only [h.sensors], h.detectables, h.view, h.det, h.isRunning, h.pending, h.loops, h.checks, h.log⟩, rfl⟩
    · exact ⟨h, rfl⟩
  | addDetectable a ok =>
    simp only [step]
    split
    · exact ⟨⟨h.now, h.sensors, by simp only [h.detectables], h.view, h.det, h.isRunning, h.pending, h.loops, h.checks, h.log⟩, rfl⟩
    · exact ⟨h, rfl⟩
  | startMover a ok =>
    have add : ∀ {τ τ' : St}, Alike τ τ' → Alike (addMover τ a ok).1 (addMover τ' a ok).1 ∧ (addMover τ' a ok).2 = (addMover τ a ok).2 := by
      intro τ τ' k
      unfold addMover
      rw [k.detectables]
      split
      · exact ⟨k, rfl⟩
      · split
        · exact ⟨⟨k.now, k.sensors, rfl, k.view, k.det, k.isRunning, k.pending, k.loops, k.checks, k.log⟩, rfl⟩
        · exact ⟨k, rfl⟩
    simp only [step]
    refine add ?_
    rw [h.isRunning]
    split
    · exact h
    · exact ⟨h.now, h.sensors, h.detectables, h.view, h.det, rfl, by simp only [h.pending], h.loops, h.checks, h.log⟩
  | stopMover a =>
    exact ⟨⟨h.now, h.sensors, by simp only [step, h.detectables], h.view, h.det, h.isRunning, h.pending, h.loops, h.checks, h.log⟩, rfl⟩
  | setDetectable a v L =>
    simp only [step]
    split
    · refine detectable_alike L _ ⟨h.now, h.sensors, h.detectables, h.view, ?_, h.isRunning, h.pending, h.loops, h.checks, h.log⟩
      simp only [h.det]
    · exact ⟨hide_alike h a, rfl⟩
  | particular a L => exact detectable_alike L _ h
  | run => exact ⟨⟨h.now, h.sensors, h.detectables, h.view, h.det, h.isRunning, by simp only [step, h.pending], h.loops, h.checks, h.log⟩, rfl⟩
  | beginRun =>
    simp only [step, h.pending, h.isRunning]
    split
    · exact ⟨h, rfl⟩
    · split
      · exact ⟨⟨h.now, h.sensors, h.detectables, h.view, h.det, rfl, rfl, h.loops, h.checks, h.log⟩, rfl⟩
      · split
        · exact ⟨⟨h.now, h.sensors, h.detectables, h.view, h.det, rfl, rfl, h.loops, h.checks, h.log⟩, rfl⟩
        · exact ⟨⟨h.now, h.sensors, h.detectables, h.view, h.det, rfl, rfl, by simp only [h.loops, h.now], h.checks, h.log⟩, rfl⟩
  | timer empty L =>
    simp only [step, h.loops]
    cases hl : σ.loops with
    | nil => exact ⟨h, rfl⟩
    | cons p rest =>
      obtain ⟨t, n⟩ := p
      simp only [h.now]
      split
      · exact ⟨h, rfl⟩
      · have k : Alike { σ with loops := rest, checks := σ.checks ++ [(t, empty)] } { σ' with loops := rest, checks := σ'.checks ++ [(t, empty)] } :=
          ⟨h.now, h.sensors, h.detectables, h.view, h.det, h.isRunning, h.pending, rfl, by simp only [h.checks], h.log⟩
        obtain ⟨k1, k2⟩ := detectable_alike L none k
        simp only [h.now] at k1 k2
        revert k1 k2
        generalize runDetectable L none { σ with loops := rest, checks := σ.checks ++ [(t, empty)] } = x
        generalize hy : runDetectable L none _ = y
        intro k1 k2
        rcases x with ⟨τ, o⟩
        rcases y with ⟨τ', o'⟩
        simp only at k1 k2
        subst k2
        cases o' with
        | ok =>
          refine ⟨?_, rfl⟩
          simp only [again]
          split
          · split
            · exact k1
            · exact ⟨k1.now, k1.sensors, k1.detectables, k1.view, k1.det, k1.isRunning, k1.pending, by simp only [k1.loops, k1.now], k1.checks, k1.log⟩
          · exact ⟨k1.now, k1.sensors, k1.detectables, k1.view, k1.det, k1.isRunning, k1.pending, by simp only [k1.loops, k1.now], k1.checks, k1.log⟩
        | error => exact ⟨k1, rfl⟩
        | refused => exact ⟨k1, rfl⟩
  | advance t =>
    simp only [step, h.now, h.pending, h.loops]
    split
    · exact ⟨⟨rfl, h.sensors, h.detectables, h.view, h.det, h.isRunning, rfl, rfl, h.checks, h.log⟩, rfl⟩
    · exact ⟨h, rfl⟩
  | reorder v => cases ho

/-- The history without what concerns the order of the set. -/
def strip (os : List Op) : List Op := os.filter fun o => !Op.shuffles o

theorem strip_alike (c : Cfg) (os : List Op) : ∀ {σ σ' : St}, Alike σ σ' → Alike (exec c os σ) (exec c (strip os) σ') := by
  induction os with
  | nil => exact fun h => h
  | cons o os ih =>
    intro σ σ' h
    cases ho : Op.shuffles o with
    | true =>
      rw [strip, List.filter_cons_of_neg (by simp [ho])]
      exact ih ((shuffle_alike c σ ho).trans h)
    | false =>
      rw [strip, List.filter_cons_of_pos (by simp [ho])]
      exact ih (step_alike c h o ho).1

/-- **C80.** Two histories of a stepped motion manager that differ only in the orders its set of pairs in view takes on, at any moments:
every sensor is told the same, in the same order; the same pairs are in view; and everything else about the manager is the same. -/
theorem c80_stepped (c : Cfg) (os os' : List Op) (h : strip os = strip os') (σ : St) :
    let x := exec c os σ
    let y := exec c os' σ
    (∀ s, y.log.filter (fun t => t.sensor = s) = x.log.filter (fun t => t.sensor = s)) ∧ (∀ p, p ∈ y.view ↔ p ∈ x.view) ∧
      y.now = x.now ∧ y.sensors = x.sensors ∧ y.detectables = x.detectables ∧ y.det = x.det ∧ y.isRunning = x.isRunning ∧
      y.pending = x.pending ∧ y.loops = x.loops ∧ y.checks = x.checks := by
  intro x y
  have a := strip_alike c os (Alike.refl σ)
  have b := strip_alike c os' (Alike.refl σ)
  rw [← h] at b
  have k : Alike x y := a.trans b.symm
  exact ⟨k.log, fun p => k.view.mem_iff, k.now, k.sensors, k.detectables, k.det, k.isRunning, k.pending, k.loops, k.checks⟩

/-- **C80.** So does every operation: the same answer, whatever the orders before. -/
theorem c80_stepped_answers (c : Cfg) (os os' : List Op) (h : strip os = strip os') (σ : St) (o : Op) (ho : Op.shuffles o = false) :
    (step c (exec c os' σ) o).2 = (step c (exec c os σ) o).2 := by
  have a := strip_alike c os (Alike.refl σ)
  have b := strip_alike c os' (Alike.refl σ)
  rw [← h] at b
  exact (step_alike c (a.trans b.symm) o ho).2

/-- Two sensors see an object, which hides. -/
def watch : List Op := [.addSensor 1 true, .addSensor 2 true, .addDetectable 3 true, .particular 3 ⟨fun _ _ => some true, fun _ _ => [], true⟩]

example : strip (watch ++ [.reorder [(2, 3), (1, 3)], .setDetectable 3 false ⟨fun _ _ => none, fun _ _ => [], true⟩]) =
    strip (watch ++ [.setDetectable 3 false ⟨fun _ _ => none, fun _ _ => [], true⟩]) := by
  simp [strip, watch, Op.shuffles]

/-- **C80: the negative part.** The order among the sensors does depend on the order of the set: when an object hides, either sensor may be
told first. -/
theorem c80_stepped_order : ∃ (c : Cfg) (os os' : List Op) (σ : St), strip os = strip os' ∧ (exec c os' σ).log ≠ (exec c os σ).log := by
  refine ⟨⟨1, 1⟩, watch ++ [.reorder [(2, 3), (1, 3)], .setDetectable 3 false ⟨fun _ _ => none, fun _ _ => [], true⟩],
    watch ++ [.setDetectable 3 false ⟨fun _ _ => none, fun _ _ => [], true⟩], St.init (fun _ => true) 0, by simp [strip, watch, Op.shuffles], ?_⟩
  decide +kernel

end Verif.Orders.Stepped
