import Verif.Queued.Props
import Mathlib.Data.List.Perm.Basic

/-! # C80: the sets of sensors in the queued motion manager

`SensorMotionManager` keeps for every mover the set of the sensors that have it in view, and goes through it when the mover becomes
undetectable (motion.py 158-164). Whatever the order, every sensor is told the same, in the same order and at the same times. -/

namespace Verif.Orders.Queued

open Verif.Queued

variable {α L : Type} [Field α] [LinearOrder α]

/-- What one sensor was told. -/
def heard (s : Nat) (l : List (Told α)) : List (Told α) := l.filter fun t => t.sensor = s

/-- Two states of a manager between which nobody can tell a difference. -/
structure Alike (σ σ' : St α L) : Prop where
  now : σ'.now = σ.now
  detect : σ'.detect = σ.detect
  sensors : σ'.sensors = σ.sensors
  movers : σ'.movers = σ.movers
  events : σ'.events = σ.events
  inView : ∀ m, (σ'.inView m).Perm (σ.inView m)
  procs : σ'.procs = σ.procs
  log : ∀ s, heard s σ'.log = heard s σ.log

theorem Alike.refl (σ : St α L) : Alike σ σ := ⟨rfl, rfl, rfl, rfl, rfl, fun _ => .refl _, rfl, fun _ => rfl⟩

theorem Alike.symm {σ σ' : St α L} (h : Alike σ σ') : Alike σ' σ :=
  ⟨h.now.symm, h.detect.symm, h.sensors.symm, h.movers.symm, h.events.symm, fun m => (h.inView m).symm, h.procs.symm, fun s => (h.log s).symm⟩

theorem Alike.trans {σ σ' σ'' : St α L} (h : Alike σ σ') (h' : Alike σ' σ'') : Alike σ σ'' :=
  ⟨h'.now.trans h.now, h'.detect.trans h.detect, h'.sensors.trans h.sensors, h'.movers.trans h.movers, h'.events.trans h.events,
    fun m => (h'.inView m).trans (h.inView m), h'.procs.trans h.procs, fun s => (h'.log s).trans (h.log s)⟩

theorem heard_exits (t : α) (m s : Nat) (l : List Nat) :
    heard s (l.map fun x => (⟨t, m, x, false⟩ : Told α)) = List.replicate (l.count s) ⟨t, m, s, false⟩ := by
  induction l with
  | nil => rfl
  | cons x r ih =>
    rw [List.count_cons]
    simp only [List.map_cons, heard] at ih ⊢
    by_cases hx : x = s
    · subst hx
      rw [List.filter_cons_of_pos (by simp), ih]
      simp [List.replicate_succ]
    · rw [List.filter_cons_of_neg (by simpa using hx), ih]
      simp [hx]

theorem heard_append (s : Nat) (a b : List (Told α)) : heard s (a ++ b) = heard s a ++ heard s b := List.filter_append ..

theorem perm_upd {f g : Nat → List Nat} (h : ∀ m, (g m).Perm (f m)) (m : Nat) {x y : List Nat} (hxy : y.Perm x) (k : Nat) :
    (upd g m y k).Perm (upd f m x k) := by
  unfold upd
  split
  · exact hxy
  · exact h k

theorem schedule_alike (m s : Nat) {σ σ' : St α L} (h : Alike σ σ') (p : Entry α × Entry α) :
    Alike (schedule m s σ p) (schedule m s σ' p) := by
  unfold schedule
  rw [h.now]
  split
  · exact h
  · exact ⟨rfl, h.detect, h.sensors, h.movers, by simp only [h.events, h.procs], h.inView, by simp only [h.procs], h.log⟩

theorem schedules_alike (m s : Nat) (l : List (Entry α × Entry α)) : ∀ {σ σ' : St α L}, Alike σ σ' →
    Alike (l.foldl (schedule m s) σ) (l.foldl (schedule m s) σ') := by
  induction l with
  | nil => exact fun h => h
  | cons p r ih => exact fun h => ih (schedule_alike m s h p)

theorem findOne_alike (I : Inter α L) {σ σ' : St α L} (h : Alike σ σ') (m s : Nat) :
    Alike (findOne I σ m s).1 (findOne I σ' m s).1 ∧ (findOne I σ' m s).2 = (findOne I σ m s).2 := by
  unfold findOne
  rw [h.movers]
  split
  · exact ⟨h, rfl⟩
  · split
    · exact ⟨h, rfl⟩
    · exact ⟨schedules_alike m s _ h, rfl⟩

theorem find_alike (I : Inter α L) : ∀ (l : List (Nat × Nat)) {σ σ' : St α L}, Alike σ σ' →
    Alike (find I l σ).1 (find I l σ').1 ∧ (find I l σ').2 = (find I l σ).2
  | [], _, _, h => ⟨h, rfl⟩
  | (m, s) :: l, σ, σ', h => by
    unfold find
    obtain ⟨h1, h2⟩ := findOne_alike I h m s
    rcases e : findOne I σ m s with ⟨τ, o⟩
    rcases e' : findOne I σ' m s with ⟨τ', o'⟩
    rw [e, e'] at h1 h2
    simp only at h1 h2
    subst h2
    cases o' with
    | ok => exact find_alike I l h1
    | error => exact ⟨h1, rfl⟩
    | refused => exact ⟨h1, rfl⟩

theorem stop_alike {σ σ' : St α L} (h : Alike σ σ') (m : Nat) (b : Bool) :
    Alike (stopMover σ m b).1 (stopMover σ' m b).1 ∧ (stopMover σ' m b).2 = (stopMover σ m b).2 := by
  unfold stopMover
  rw [h.detect, h.movers]
  split
  · exact ⟨h, rfl⟩
  · split
    · exact ⟨h, rfl⟩
    · split
      · exact ⟨h, rfl⟩
      · split
        · exact ⟨h, rfl⟩
        · exact ⟨⟨h.now, rfl, h.sensors, rfl, by simp only [h.events], h.inView, by simp only [h.procs, h.events], h.log⟩, rfl⟩

theorem setProc_alike {σ σ' : St α L} (h : Alike σ σ') (i : Nat) (p : Proc α) : Alike (setProc σ i p) (setProc σ' i p) :=
  ⟨h.now, h.detect, h.sensors, h.movers, h.events, h.inView, by simp only [setProc, h.procs], h.log⟩

theorem tell_alike {σ σ' : St α L} (h : Alike σ σ') (m s : Nat) (b : Bool) : Alike (tell σ m s b) (tell σ' m s b) := by
  refine ⟨h.now, h.detect, h.sensors, h.movers, h.events, h.inView, h.procs, fun x => ?_⟩
  simp only [tell, heard_append, h.log x, h.now]

theorem addToView_alike {σ σ' : St α L} (h : Alike σ σ') (m s : Nat) : Alike (addToView σ m s) (addToView σ' m s) := by
  unfold addToView
  simp only [(h.inView m).mem_iff]
  split
  · exact h
  · exact ⟨h.now, h.detect, h.sensors, h.movers, h.events, perm_upd h.inView m ((h.inView m).append_right _), h.procs, h.log⟩

theorem afterEntry_alike {σ σ' : St α L} (h : Alike σ σ') (i : Nat) (p : Proc α) :
    Alike (afterEntry σ i p).1 (afterEntry σ' i p).1 ∧ (afterEntry σ' i p).2 = (afterEntry σ i p).2 := by
  unfold afterEntry
  rw [h.now]
  split
  · exact ⟨setProc_alike h i _, rfl⟩
  · split
    · exact ⟨setProc_alike h i _, rfl⟩
    · exact ⟨setProc_alike h i _, rfl⟩

theorem begins_alike {σ σ' : St α L} (h : Alike σ σ') (i : Nat) (p : Proc α) :
    Alike (begins σ i p).1 (begins σ' i p).1 ∧ (begins σ' i p).2 = (begins σ i p).2 := by
  unfold begins
  simp only [h.now, (h.inView p.mover).mem_iff]
  split
  · refine afterEntry_alike ?_ i p
    split
    · exact addToView_alike h _ _
    · exact tell_alike (addToView_alike h _ _) _ _ _
  · split
    · exact ⟨setProc_alike h i _, rfl⟩
    · exact ⟨setProc_alike h i _, rfl⟩

theorem leaves_alike {σ σ' : St α L} (h : Alike σ σ') (i : Nat) (p : Proc α) :
    Alike (leaves σ i p).1 (leaves σ' i p).1 ∧ (leaves σ' i p).2 = (leaves σ i p).2 := by
  have k := setProc_alike (tell_alike h p.mover p.sensor false) i { p with stage := .over }
  unfold leaves
  simp only [(h.inView p.mover).mem_iff]
  split
  · exact ⟨⟨k.now, k.detect, k.sensors, k.movers, k.events, perm_upd h.inView p.mover ((h.inView p.mover).filter _), k.procs, k.log⟩, rfl⟩
  · exact ⟨k, rfl⟩

theorem step_alike (I : Inter α L) {σ σ' : St α L} (h : Alike σ σ') (o : Op α L) :
    Alike (step I σ o).1 (step I σ' o).1 ∧ (step I σ' o).2 = (step I σ o).2 := by
  cases o with
  | start m speed ws =>
    simp only [step, startMover, h.detect, h.movers]
    split
    · exact ⟨h, rfl⟩
    · exact ⟨⟨h.now, rfl, h.sensors, rfl, h.events, h.inView, h.procs, h.log⟩, rfl⟩
    · split
      · exact ⟨h, rfl⟩
      · rw [h.sensors, h.now]
        exact find_alike I _ ⟨rfl, rfl, rfl, rfl, h.events, h.inView, h.procs, h.log⟩
  | stop m => exact stop_alike h m false
  | detect m v =>
    simp only [step, setDetect, h.detect]
    split
    · exact ⟨h, rfl⟩
    · split
      · exact ⟨⟨h.now, rfl, h.sensors, h.movers, h.events, h.inView, h.procs, h.log⟩, rfl⟩
      · refine stop_alike ?_ m true
        refine ⟨h.now, rfl, h.sensors, h.movers, h.events, perm_upd h.inView m (.refl _), h.procs, fun s => ?_⟩
        simp only [heard_append, heard_exits, h.log s, h.now, (h.inView m).count_eq]
  | addSensor s =>
    simp only [step, addSensor, h.movers]
    exact find_alike I _ ⟨h.now, h.detect, by simp only [h.sensors], rfl, h.events, h.inView, h.procs, h.log⟩
  | fire i =>
    simp only [step, fire, h.procs]
    split
    · exact ⟨h, rfl⟩
    · split
      · exact ⟨h, rfl⟩
      · exact begins_alike h i _
      · split
        · exact ⟨setProc_alike h i _, rfl⟩
        · rw [h.now]
          split
          · exact afterEntry_alike (addToView_alike (tell_alike h _ _ _) _ _) i _
          · exact ⟨h, rfl⟩
      · split
        · exact ⟨setProc_alike h i _, rfl⟩
        · rw [h.now]
          split
          · exact leaves_alike h i _
          · exact ⟨h, rfl⟩
  | advance t =>
    simp only [step, h.now, h.procs]
    split
    · exact ⟨⟨rfl, h.detect, h.sensors, h.movers, h.events, h.inView, rfl, h.log⟩, rfl⟩
    · exact ⟨h, rfl⟩

/-- A run in which the sets are put into some order before every step. -/
def runIn (I : Inter α L) (σ : St α L) : List ((Nat → List Nat → List Nat) × Op α L) → St α L
  | [] => σ
  | (ρ, o) :: l => runIn I (step I { σ with inView := fun m => ρ m (σ.inView m) } o).1 l

/-- With the sets left as they are this is a run. -/
theorem runIn_id (I : Inter α L) (ops : List (Op α L)) : ∀ σ : St α L, runIn I σ (ops.map fun o => (fun _ l => l, o)) = run I σ ops := by
  induction ops with
  | nil => exact fun _ => rfl
  | cons o r ih => exact fun σ => ih _

theorem runIn_alike (I : Inter α L) : ∀ (l : List ((Nat → List Nat → List Nat) × Op α L)) {σ σ' : St α L},
    (∀ e ∈ l, ∀ m x, (e.1 m x).Perm x) → Alike σ σ' → Alike (run I σ (l.map (·.2))) (runIn I σ' l)
  | [], _, _, _, h => h
  | (ρ, o) :: l, σ, σ', hl, h => by
    refine runIn_alike I l (fun e he => hl e (List.mem_cons_of_mem _ he)) (step_alike I ?_ o).1
    exact ⟨h.now, h.detect, h.sensors, h.movers, h.events, fun m => ((hl (ρ, o) List.mem_cons_self) m _).trans (h.inView m), h.procs, h.log⟩

/-- **C80.** Two histories of a queued motion manager with the same operations, its sets in any orders: every sensor is told the same, in
the same order and at the same times, the same sensors have the same movers in view, and everything else is the same. -/
theorem c80_queued (I : Inter α L) (σ : St α L) (l l' : List ((Nat → List Nat → List Nat) × Op α L)) (h : l.map (·.2) = l'.map (·.2))
    (hl : ∀ e ∈ l, ∀ m x, (e.1 m x).Perm x) (hl' : ∀ e ∈ l', ∀ m x, (e.1 m x).Perm x) :
    let x := runIn I σ l
    let y := runIn I σ l'
    (∀ s, y.log.filter (fun t => t.sensor = s) = x.log.filter (fun t => t.sensor = s)) ∧ (∀ m s, s ∈ y.inView m ↔ s ∈ x.inView m) ∧
      y.now = x.now ∧ y.detect = x.detect ∧ y.sensors = x.sensors ∧ y.movers = x.movers ∧ y.events = x.events ∧ y.procs = x.procs := by
  intro x y
  have a := runIn_alike I l hl (Alike.refl σ)
  have b := runIn_alike I l' hl' (Alike.refl σ)
  rw [← h] at b
  have k : Alike x y := a.symm.trans b
  exact ⟨k.log, fun m s => (k.inView m).mem_iff, k.now, k.detect, k.sensors, k.movers, k.events, k.procs⟩

/-- **C80.** And whatever is done next has the same answer. -/
theorem c80_queued_answers (I : Inter α L) (σ : St α L) (l l' : List ((Nat → List Nat → List Nat) × Op α L))
    (h : l.map (·.2) = l'.map (·.2)) (hl : ∀ e ∈ l, ∀ m x, (e.1 m x).Perm x) (hl' : ∀ e ∈ l', ∀ m x, (e.1 m x).Perm x) (o : Op α L) :
    (step I (runIn I σ l') o).2 = (step I (runIn I σ l) o).2 := by
  have a := runIn_alike I l hl (Alike.refl σ)
  have b := runIn_alike I l' hl' (Alike.refl σ)
  rw [← h] at b
  exact (step_alike I (a.symm.trans b) o).2

/-- A world in which everything is inside of every sensor. -/
def inside : Inter Rat Nat := fun _ _ _ _ => some ⟨[⟨.startInside, 0⟩, ⟨.endInside, 5⟩], 5⟩

/-- Two sensors see a mover, which hides. -/
def watch : List (Op Rat Nat) := [.addSensor 1, .addSensor 2, .start 7 1 [0, 1], .fire 0, .fire 1]

/-- **C80: the negative part.** When a mover hides, either sensor may be told first. -/
theorem c80_queued_order : ∃ (I : Inter Rat Nat) (σ : St Rat Nat) (l l' : List ((Nat → List Nat → List Nat) × Op Rat Nat)),
    l.map (·.2) = l'.map (·.2) ∧ (∀ e ∈ l, ∀ m x, (e.1 m x).Perm x) ∧ (∀ e ∈ l', ∀ m x, (e.1 m x).Perm x) ∧
    (runIn I σ l).log = [⟨0, 7, 1, true⟩, ⟨0, 7, 2, true⟩, ⟨0, 7, 1, false⟩, ⟨0, 7, 2, false⟩] ∧
    (runIn I σ l').log = [⟨0, 7, 1, true⟩, ⟨0, 7, 2, true⟩, ⟨0, 7, 2, false⟩, ⟨0, 7, 1, false⟩] := by
  refine ⟨inside, St.init 0 (fun _ => some true), (watch ++ [Op.detect 7 false]).map fun o => (fun _ x => x, o),
    (watch.map fun o => (fun _ x => x, o)) ++ [(fun _ x => x.reverse, Op.detect 7 false)], by simp [watch], ?_, ?_, by decide +kernel, by decide +kernel⟩
  · intro e he m x
    obtain ⟨o, _, rfl⟩ := List.mem_map.1 he
    exact .refl _
  · intro e he m x
    rcases List.mem_append.1 he with he | he
    · obtain ⟨o, _, rfl⟩ := List.mem_map.1 he
      exact .refl _
    · rw [List.mem_singleton.1 he]
      exact x.reverse_perm

end Verif.Orders.Queued
