import Verif.Queued.Props

/-! # C43: concrete runs and where it fails -/

namespace Verif.Queued

open Verif.Sphere (Tag)

/-! ### A concrete trip

On a line, a sensor at 0 with radius 1 and a mover going from -3 to 3 and back to 0 with speed 1. -/

/-- The crossings of the legs used below. -/
def lineI : Inter ℚ ℚ := fun w w' _ _ =>
  if w = -3 ∧ w' = 3 then some ⟨[⟨.enter, 2⟩, ⟨.exit, 4⟩], 6⟩
  else if w = 3 ∧ w' = 0 then some ⟨[⟨.enter, 2⟩, ⟨.endInside, 3⟩], 3⟩
  else if w = 0 ∧ w' = 3 then some ⟨[⟨.startInside, 0⟩, ⟨.exit, 1⟩], 3⟩
  else none

/-- When the mover is in range. -/
def lineInside (τ : ℚ) : Prop := (2 ≤ τ ∧ τ ≤ 4) ∨ 8 ≤ τ

/-- A manager with a sensor. -/
def line0 : St ℚ ℚ := run lineI (St.init 0 fun _ => some true) [.addSensor 7]

theorem line_exact : ExactPath lineI 1 7 lineInside [-3, 3, 0] [6, 3] (0 : ℚ) := by
  refine ⟨by norm_num, _, rfl, .inr ⟨_, _, _, _, rfl, by norm_num, by norm_num, by norm_num, fun τ h1 h2 => ?_, .inr ⟨?_, rfl⟩, .inr ⟨?_, rfl⟩⟩, .inl rfl,
    by norm_num, _, rfl, .inr ⟨_, _, _, _, rfl, by norm_num, by norm_num, by norm_num, fun τ h1 h2 => ?_, .inr ⟨?_, rfl⟩, .inl ⟨?_, rfl⟩⟩, .inl rfl, trivial⟩
  · unfold lineInside; constructor
    · rintro (h | h)
      · exact ⟨by linarith [h.1], by linarith [h.2]⟩
      · linarith
    · exact fun h => .inl ⟨by linarith [h.1], by linarith [h.2]⟩
  · unfold lineInside; norm_num
  · unfold lineInside; norm_num
  · unfold lineInside; constructor
    · rintro (h | h)
      · linarith [h.2]
      · exact ⟨by linarith, by linarith⟩
    · exact fun h => .inr (by linarith [h.1])
  · unfold lineInside; norm_num
  · unfold lineInside; norm_num

theorem line_noTouch : NoTouch lineInside 0 9 := by
  rintro τ _ hlt (⟨h2, h4⟩ | h8) ⟨ε, he, h⟩
  · have hm : 0 < min (ε / 2) 1 := lt_min (by linarith) one_pos
    have := min_le_left (ε / 2) (1 : ℚ)
    have := min_le_right (ε / 2) (1 : ℚ)
    rcases le_or_gt τ 3 with hc | hc
    · exact h (τ + min (ε / 2) 1) (by linarith) (by linarith) (by linarith) (by linarith) (by linarith) (.inl ⟨by linarith, by linarith⟩)
    · exact h (τ - min (ε / 2) 1) (by linarith) (by linarith) (by linarith) (by linarith) (by linarith) (.inl ⟨by linarith, by linarith⟩)
  · have hm : 0 < min (ε / 2) (9 - τ) := lt_min (by linarith) (by linarith)
    have := min_le_left (ε / 2) (9 - τ)
    have := min_le_right (ε / 2) (9 - τ)
    exact h (τ + min (ε / 2) (9 - τ)) (by linarith) (by linarith) (by linarith) (by linarith) (by linarith) (.inr (by linarith))

/-- The hypotheses of `c43_trip_partial` are met. -/
example (ops : List (Op ℚ ℚ)) (hops : ∀ o ∈ ops, Foreign 1 7 o) :
    Served 1 7 lineInside 0 9 false [] (run lineI (step lineI line0 (.start 1 1 [-3, 3, 0])).1 ops) := by
  have e : line0.now + ([6, 3] : List ℚ).sum = 9 := by simp [line0, run, step, addSensor, find, St.init, Dict.keys]; norm_num
  have h := c43_trip_partial lineI 0 _ [.addSensor 7] line0 rfl 1 7 1 [-3, 3, 0] rfl (by decide)
    (by intro p hp; simp [line0, run, step, addSensor, find, St.init, Dict.keys] at hp) (by decide)
    lineInside [6, 3] (by simp) line_exact (by rw [e]; exact line_noTouch)
    (by intro hc; simp [line0, run, step, addSensor, find, St.init, Dict.keys] at hc) ops hops
  rw [e] at h
  exact h

/-- What the sensor is told. -/
example : told (run lineI line0 [.start 1 1 [-3, 3, 0], .fire 0, .fire 1, .advance 2, .fire 0, .advance 4, .fire 0, .advance 8, .fire 1, .advance 20]) 1 7 =
    [(2, true), (4, false), (8, true)] := by decide +kernel

/-- The mover is stopped in the middle, or becomes undetectable. -/
example : told (run lineI line0 [.start 1 1 [-3, 3, 0], .fire 0, .fire 1, .advance 2, .fire 0, .advance 3, .stop 1, .fire 0, .fire 1, .advance 20]) 1 7 =
      [(2, true)] ∧
    told (run lineI line0 [.start 1 1 [-3, 3, 0], .fire 0, .fire 1, .advance 2, .fire 0, .advance 3, .detect 1 false, .fire 0, .fire 1, .advance 20]) 1 7 =
      [(2, true), (3, false)] := by decide +kernel

/-- The hypotheses of `c43_stop_partial`, `c43_hidden_partial` and `c43_cut_short_partial` are met by the state of the last example. -/
example : let σ := run lineI line0 [.start 1 1 [-3, 3, 0], .fire 0, .fire 1, .advance 2, .fire 0, .advance 3]
    σ.detect 1 ≠ none ∧ σ.movers.has 1 = true ∧ (∀ p ∈ σ.procs, p.stage ≠ .fresh) ∧ line0.now < σ.now := by decide +kernel

/-- A sensor added during the trip (`c43_sensor_partial`): told at once if the mover is in range. -/
example : told (run lineI (St.init 0 fun _ => some true) [.start 1 1 [-3, 3, 0], .advance 3, .addSensor 7, .fire 0, .fire 1, .advance 4, .fire 0, .advance 8,
    .fire 1, .advance 20]) 1 7 = [(3, true), (4, false), (8, true)] := by decide +kernel

/-! ### Where it fails -/

variable {α L : Type} [Field α] [LinearOrder α] [IsStrictOrderedRing α]

theorem scan_shift (I : Inter α L) (v t : α) (s : Nat) (ws : List L) (e d : α) (acc) : scan I v t s ws (e + d) acc = scan I v (t + e) s ws d acc := by
  induction ws generalizing d acc with
  | nil => simp [scan]
  | cons w ws ih =>
    cases ws with
    | nil => simp [scan]
    | cons w' ws =>
      simp only [scan]
      cases I w w' v s with
      | none => rfl
      | some res =>
        dsimp only
        rw [show t + (e + d) = t + e + d by ring]
        cases absorb (t + e + d) acc res.entries with
        | none => rfl
        | some acc' =>
          dsimp only
          rw [show e + d + res.pathTime = e + (d + res.pathTime) by ring]
          exact ih _ _

/-- **C43 fails after a leg that misses the sensor.** The intersection models return -1 (or 0) as the time of such a leg instead of the
time it takes. So whatever the length of the first leg, the crossings of the rest of the path are computed as if the rest had begun a time
unit before the start of the trip. -/
theorem c43_missed_leg (I : Inter α L) (v t : α) (s : Nat) (w w' : L) (ws : List L) (r : α) (h : I w w' v s = some ⟨[], r⟩) :
    processPair I ⟨v, w :: w' :: ws, t⟩ s = processPair I ⟨v, w' :: ws, t + r⟩ s := by
  have : scan I v t s (w :: w' :: ws) 0 [] = scan I v (t + r) s (w' :: ws) 0 [] := by
    have := scan_shift I v t s (w' :: ws) r 0 []
    rw [scan, h]
    simpa [absorb] using this
  simp only [processPair, this]

/-- **C43 fails for a range that is only touched** (entry and exit at the same time): the sensor is told of the entry, the process then
raises an exception, and the mover stays in view. -/
theorem c43_touched (I : Inter α L) (σ : St α L) (i : Nat) (p : Proc α) (hp : σ.procs[i]? = some p) (hs : p.stage = .entry p.first.time) (hi : p.intr = false)
    (h1 : p.first.time = σ.now) (h2 : p.second.kind = .exit) (h3 : p.second.time = p.first.time) :
    (step I σ (.fire i)).2 = .error ∧ told (step I σ (.fire i)).1 p.mover p.sensor = told σ p.mover p.sensor ++ [(σ.now, true)] ∧
    p.sensor ∈ (step I σ (.fire i)).1.inView p.mover := by
  have hn := (addToView_same (tell σ p.mover p.sensor true) p.mover p.sensor)
  have hnow : (addToView (tell σ p.mover p.sensor true) p.mover p.sensor).now = σ.now := hn.1
  have hfire : step I σ (.fire i) = (setProc (addToView (tell σ p.mover p.sensor true) p.mover p.sensor) i { p with stage := .over }, .error) := by
    simp only [step, fire, hp, hs, hi, h1, afterEntry, h2, hnow, h3, le_refl]
    simp
  rw [hfire]
  refine ⟨rfl, ?_, ?_⟩
  · have : told (setProc (addToView (tell σ p.mover p.sensor true) p.mover p.sensor) i { p with stage := .over }) p.mover p.sensor =
        told (tell σ p.mover p.sensor true) p.mover p.sensor := by
      simp only [told, setProc]; rw [hn.2.1]
    rw [this, told_tell]
    simp
  · exact (addToView_mem _ _ _ _ _).2 (.inr ⟨rfl, rfl⟩)

/-- Such a process comes about: a path touching the range at time 2. -/
example : let I : Inter ℚ ℚ := fun _ _ _ _ => some ⟨[⟨.enter, 2⟩, ⟨.exit, 2⟩], 4⟩
    let σ := run I line0 [.start 1 1 [-2, 2], .fire 0, .advance 2]
    (∃ p, σ.procs[0]? = some p ∧ p.stage = .entry p.first.time ∧ p.intr = false ∧ p.first.time = σ.now ∧ p.second.kind = .exit ∧ p.second.time = p.first.time) := by
  exact ⟨⟨1, 7, ⟨.enter, 2⟩, ⟨.exit, 2⟩, .entry 2, false⟩, by decide +kernel⟩

/-- **C43 fails for a mover that becomes detectable while moving**: a mover which started while undetectable and then becomes detectable is
not noticed by any sensor, wherever it goes, until it starts again. -/
theorem c43_becomes_detectable (I : Inter α L) (t0 : α) (det : Nat → Option Bool) (ops₀ : List (Op α L)) (σ : St α L) (hσ : σ = run I (St.init t0 det) ops₀)
    (m s : Nat) (speed : α) (ws : List L) (hdet : σ.detect m = some false) (hq : Quiet σ m s) (ops : List (Op α L)) (hops : ∀ o ∈ ops, Foreign m s o) :
    told (run I σ (.start m speed ws :: .detect m true :: ops)) m s = told σ m s := by
  have hw : Wf σ := hσ ▸ run_wf I ops₀ _ (init_wf t0 det)
  have hd : ∀ τ : St α L, τ.procs = σ.procs → Dead τ m s := fun τ hτ p hp h1 h2 => .inl (hq p (hτ ▸ hp) h1 h2)
  have hp : (step I (step I σ (.start m speed ws)).1 (.detect m true)).1.procs = σ.procs ∧ told (step I (step I σ (.start m speed ws)).1 (.detect m true)).1 m s = told σ m s := by
    simp [step, startMover, hdet, setDetect, told]
  show told (run I (step I (step I σ (.start m speed ws)).1 (.detect m true)).1 ops) m s = _
  rw [((hd _ hp.1).run I ops (step_wf I _ _ (step_wf I _ _ hw)) hops).2.1, hp.2]

example : (St.init 0 (fun _ => some false) : St ℚ ℚ).detect 1 = some false ∧ Quiet (run lineI (St.init 0 fun _ => some false) [.addSensor 7]) 1 7 := by
  refine ⟨rfl, ?_⟩
  intro p hp; simp [run, step, addSensor, find, St.init, Dict.keys] at hp

/-- **A mover that has been undetectable for a while during its trip cannot be stopped**: `_stop_mover` raises an exception. -/
theorem c43_cannot_stop (I : Inter α L) (σ : St α L) (m : Nat) (hm : σ.movers.has m = true) (hdet : σ.detect m ≠ none) :
    (step I (run I σ [.detect m false, .detect m true]) (.stop m)).2 = .error := by
  have h1 : step I σ (.detect m false) = (taken (hidden σ m false) m, .ok) := by
    cases hd : σ.detect m with
    | none => exact absurd hd hdet
    | some b =>
      simp only [step, setDetect, hd, stopMover]
      simp [hidden, taken, upd_self, hm]
  have h2 : (step I (taken (hidden σ m false) m) (.detect m true)).1 = { taken (hidden σ m false) m with detect := upd (taken (hidden σ m false) m).detect m (some true) } := by
    simp [step, setDetect, taken, hidden, upd_self]
  show (step I (step I (step I σ (.detect m false)).1 (.detect m true)).1 (.stop m)).2 = .error
  rw [h1]
  dsimp only
  rw [h2]
  simp [step, stopMover, upd_self, taken, hidden, Dict.has]

/-- **C43 fails for a path without legs**: a mover started with no waypoints is not noticed even if it is in range. -/
theorem c43_no_legs (I : Inter α L) (t0 : α) (det : Nat → Option Bool) (ops₀ : List (Op α L)) (σ : St α L) (hσ : σ = run I (St.init t0 det) ops₀)
    (m s : Nat) (speed : α) (w : L) (hq : Quiet σ m s) (ops : List (Op α L)) (hops : ∀ o ∈ ops, Foreign m s o) :
    told (run I σ (.start m speed [w] :: ops)) m s = told σ m s := by
  have hw : Wf σ := hσ ▸ run_wf I ops₀ _ (init_wf t0 det)
  have hfind : ∀ (l : List Nat) (τ : St α L), τ.movers.get? m = some ⟨speed, [w], τ.now⟩ → find I (l.map fun s => (m, s)) τ = (τ, .ok) := by
    intro l
    induction l with
    | nil => intro τ _; rfl
    | cons a l ih =>
      intro τ hτ
      have h1 : findOne I τ m a = (τ, .ok) := by simp [findOne, hτ, processPair, scan, pairUp]
      rw [List.map_cons, find_cons, h1, if_pos rfl]
      exact ih τ hτ
  have hp : (step I σ (.start m speed [w])).1.procs = σ.procs ∧ told (step I σ (.start m speed [w])).1 m s = told σ m s := by
    simp only [step, startMover]
    split
    · exact ⟨rfl, rfl⟩
    · exact ⟨rfl, rfl⟩
    · split
      · exact ⟨rfl, rfl⟩
      · rw [hfind _ _ (by simp)]; exact ⟨rfl, rfl⟩
  have hd : Dead (step I σ (.start m speed [w])).1 m s := fun p hpp h1 h2 => .inl (hq p (hp.1 ▸ hpp) h1 h2)
  show told (run I (step I σ (.start m speed [w])).1 ops) m s = _
  rw [(hd.run I ops (step_wf I _ _ hw) hops).2.1, hp.2]

/-- **C43 fails for a sensor added again during a trip**: it is told twice, and the second exit raises an exception. -/
theorem c43_sensor_twice : ∃ ops : List (Op ℚ ℚ), told (run lineI line0 ops) 1 7 = [(2, true), (2, true), (4, false), (4, false)] ∧
    ∃ ops' i, ops = ops' ++ [.fire i] ∧ (step lineI (run lineI line0 ops') (.fire i)).2 = .error :=
  ⟨[.start 1 1 [-3, 3], .fire 0, .advance 1, .addSensor 7, .fire 1, .advance 2, .fire 0, .fire 1, .advance 4, .fire 0, .fire 1], by decide +kernel,
    [.start 1 1 [-3, 3], .fire 0, .advance 1, .addSensor 7, .fire 1, .advance 2, .fire 0, .fire 1, .advance 4, .fire 0], 1, rfl, by decide +kernel⟩

/-- **C43 fails for a sensor added at the moment at which the mover leaves its range**: it is told of an entry, and the process raises an
exception. -/
theorem c43_sensor_at_exit : let σ := run lineI (St.init 0 fun _ => some true) [.start 1 1 [-3, 3], .advance 4, .addSensor 7]
    (step lineI σ (.fire 0)).2 = .error ∧ told (step lineI σ (.fire 0)).1 1 7 = [(4, true)] := by decide +kernel

/-- **C43 fails for a mover stopped at the moment of its start**, in range: the sensor is told of its entry after the stop. -/
theorem c43_stop_at_start : told (run lineI line0 [.start 1 1 [0, 3], .stop 1]) 1 7 = [] ∧
    told (run lineI line0 [.start 1 1 [0, 3], .stop 1, .fire 0, .fire 0, .advance 5]) 1 7 = [(0, true)] := by decide +kernel

end Verif.Queued
