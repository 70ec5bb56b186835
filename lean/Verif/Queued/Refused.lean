import Verif.Queued.Accepts
import Verif.Queued.Unseen

/-!
# C43: what a refused start or sensor leaves behind

`_start_mover` writes down the path, and `add_sensor` the sensor, before the crossings are looked for (motion.py 464-465, 492-493); an exception from
the search undoes neither.
-/

namespace Verif.Queued

variable {α L : Type} [Field α] [LinearOrder α]

/-- **C43, after a refused start.** A detectable mover that was not moving is afterwards taken to be moving along the path, also if starting raised:
every further start raises, whatever the path, and only after a stop, which succeeds, is it not moving again. -/
theorem c43_refused_start (I : Inter α L) (σ : St α L) (m : Nat) (v : α) (ws : List L) (hd : σ.detect m = some true) (hm : σ.movers.has m = false) :
    let τ := (step I σ (.start m v ws)).1
    τ.movers.get? m = some ⟨v, ws, σ.now⟩ ∧ (∀ v' ws', step I τ (.start m v' ws') = (τ, .error)) ∧
      (step I τ (.stop m)).2 = .ok ∧ (step I τ (.stop m)).1.movers.has m = false := by
  intro τ
  have hs : τ = (find I (σ.sensors.map fun s => (m, s)) { σ with movers := σ.movers.set m ⟨v, ws, σ.now⟩ }).1 := by
    simp [τ, step, startMover, hd, hm]
  have hk := find_calm I (σ.sensors.map fun s => (m, s)) { σ with movers := σ.movers.set m ⟨v, ws, σ.now⟩ }
  rw [← hs] at hk
  have hg : τ.movers.get? m = some ⟨v, ws, σ.now⟩ := by rw [hk.movers]; simp
  have hh : τ.movers.has m = true := by simp [Dict.has, hg]
  have hdet : τ.detect m = some true := by rw [hk.detect]; exact hd
  refine ⟨hg, fun v' ws' => by simp [step, startMover, hdet, hh], by simp [step, stopMover, hdet, hh], ?_⟩
  simp [step, stopMover, hdet, Dict.has, hg]

/-- **C43, after a refused sensor.** A sensor is afterwards one of the manager's, also if adding it raised; adding it again then raises again. -/
theorem c43_refused_sensor (I : Inter α L) (σ : St α L) (s : Nat) :
    let τ := (step I σ (.addSensor s)).1
    s ∈ τ.sensors ∧ τ.movers = σ.movers ∧ (step I τ (.addSensor s)).2 = (step I σ (.addSensor s)).2 := by
  intro τ
  have hk := find_calm I (σ.movers.keys.map fun m => (m, s)) { σ with sensors := if s ∈ σ.sensors then σ.sensors else σ.sensors ++ [s] }
  have hτ : τ.movers = σ.movers := hk.movers
  refine ⟨?_, hτ, ?_⟩
  · have : τ.sensors = if s ∈ σ.sensors then σ.sensors else σ.sensors ++ [s] := hk.sensors
    rw [this]
    split <;> simp [*]
  · have h1 := c43_accepted_sensor I τ s
    have h2 := c43_accepted_sensor I σ s
    rw [hτ] at h1
    have h3 := h1.1.trans h2.1.symm
    rcases h1.2 with h | h <;> rcases h2.2 with h' | h'
    · rw [h, h']
    · rw [h'] at h3; simp [h] at h3
    · rw [h'] at h3; simp [h] at h3
    · rw [h, h']

/-- Non-vacuity: with the broken model the start raises, and so does a further one along a path the sensor is far from; after a stop that one is
accepted. The sensor that raised is kept, and makes later starts raise. -/
example : let σ := run brokenI (St.init 0 fun _ => some true) [.addSensor 7]
    σ.detect 1 = some true ∧ σ.movers.has 1 = false ∧ (step brokenI σ (.start 1 1 [5, 7])).2 = .error ∧
    (step brokenI (run brokenI σ [.start 1 1 [5, 7]]) (.start 1 1 [-3, 3])).2 = .error ∧
    (step brokenI (run brokenI σ [.start 1 1 [5, 7], .stop 1]) (.start 1 1 [-3, 3])).2 = .ok ∧
    (step brokenI (run brokenI (St.init 0 fun _ => some true) [.start 1 1 [5, 7], .addSensor 7]) (.start 2 1 [5, 7])).2 = .error := by decide +kernel

end Verif.Queued
