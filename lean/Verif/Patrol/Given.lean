import Verif.Patrol.Props

/-! # C76 in terms of what was given

The theorems on checks speak of the radius of a sensor, of its location state and of the detectability of an actor. These are the last ones given. -/

namespace Verif.Stepped

/-- Only assigning to a `DetectabilityState` changes the detectability. -/
theorem det_step (c : Cfg) (σ : St) (o : Op) (hq : o.Quiet) (h : Inv σ) :
    (step c σ o).1.det = (match o with | .setDetectable a v _ => fun b => if b = a then v else σ.det b | _ => σ.det) := by
  cases o with
  | setDetectable a v L =>
    cases v with
    | true => exact (runDetectable_inv L (hq L rfl) (some [a]) _ (set_inv h a)).2.1
    | false => rfl
  | particular a L => exact (runDetectable_inv L (hq L rfl) (some [a]) _ h).2.1
  | timer empty L =>
    rcases timer_cases σ with ⟨n, rest, hl⟩ | hl
    · obtain ⟨τ, o, hr, -, -, -, -, h3⟩ := timer_eq c σ empty L n rest hl
      have := (runDetectable_inv L (hq L rfl) none { σ with loops := rest, checks := σ.checks ++ [(σ.now, empty)] } (h.frame rfl rfl rfl)).2.1
      rw [hr] at this
      rw [h3]; exact this
    · rw [timer_other c σ empty L hl]
  | reorder view =>
    simp only [step]
    split <;> rfl
  | _ => refine (silent_frame c σ _ ?_).2.2; trivial

/-- Only adding a sensor changes the sensors. -/
theorem sensors_step (c : Cfg) (σ : St) (o : Op) (h : InvA σ) :
    (step c σ o).1.sensors = (match o with | .addSensor s true => addKey σ.sensors s | _ => σ.sensors) := by
  cases o with
  | addSensor s ok => cases ok <;> rfl
  | addDetectable a ok => cases ok <;> rfl
  | startMover a ok =>
    simp only [step, addMover]
    split <;> split <;> (try split) <;> rfl
  | stopMover a => rfl
  | setDetectable a v L =>
    cases v with
    | true => exact (runDetectable_invA L (some [a]) { σ with det := fun b => if b = a then true else σ.det b } (h.frame rfl rfl)).2.1.sensors
    | false => rfl
  | particular a L => exact (runDetectable_invA L (some [a]) σ h).2.1.sensors
  | run => rfl
  | beginRun =>
    simp only [step]
    split
    · rfl
    · split
      · rfl
      · split <;> rfl
  | timer empty L =>
    rcases timer_cases σ with ⟨n, rest, hl⟩ | hl
    · obtain ⟨τ, o, hr, -, h2, -⟩ := timer_eq c σ empty L n rest hl
      have := (runDetectable_invA L none { σ with loops := rest, checks := σ.checks ++ [(σ.now, empty)] } (h.frame rfl rfl)).2.1.sensors
      rw [hr] at this
      rw [h2]
      have ha : (again c n empty τ).sensors = τ.sensors := by
        unfold again
        split <;> (try split) <;> rfl
      by_cases ho : o = .ok
      · rw [if_pos ho, ha]; exact this
      · rw [if_neg ho]; exact this
    · rw [timer_other c σ empty L hl]
  | advance t => simp only [step]; split <;> rfl
  | reorder view => simp only [step]; split <;> rfl

end Verif.Stepped

namespace Verif.Patrol

open Verif.Stepped (Obj Aware)

variable {P : Type}

/-- The radius of `s` last given. -/
def radiusGiven (s : Obj) : ℝ → List (Op P) → ℝ
  | r, [] => r
  | r, .setRadius b r' :: os => radiusGiven s (if b = s then r' else r) os
  | r, _ :: os => radiusGiven s r os

/-- The detectability of `a` last given. -/
def detGiven (a : Obj) : Bool → List (Op P) → Bool
  | d, [] => d
  | d, .detect b v :: os => detGiven a (if b = a then v else d) os
  | d, _ :: os => detGiven a d os

/-- The existing location state with which `s` was last made a sensor, if it was. -/
def eyeGiven (has : Obj → List Nat) (s : Obj) : Option Nat → List (Op P) → Option Nat
  | e, [] => e
  | e, .addSensor b n :: os => eyeGiven has s (if b = s ∧ n ∈ has s then some n else e) os
  | e, _ :: os => eyeGiven has s e os

/-- The location state by which `s` is known as a sensor. -/
def eyeNow (known : List Obj) (eyes : Obj → Nat) (s : Obj) : Option Nat := if s ∈ known then some (eyes s) else none

/-- What an operation does to what was given. -/
theorem given_step (c : Cfg P) (w : World P) (h : Sound c w) (o : Op P) (s : Obj) :
    (step c w o).1.radius s = radiusGiven s (w.radius s) [o] ∧ (step c w o).1.mgr.det s = detGiven s (w.mgr.det s) [o] ∧
    eyeNow (step c w o).1.mgr.sensors (step c w o).1.eyes s = eyeGiven c.states s (eyeNow w.mgr.sensors w.eyes s) [o] := by
  have hcheck : ∀ (μ : Stepped.St) (req) (f : Stepped.Look → Stepped.Op), (∀ L, Stepped.Quiet L → (f L).Quiet) → (∀ L x, f L ≠ .addSensor x true) →
      (check c w μ req f).1.radius = w.radius ∧ (check c w μ req f).1.eyes = w.eyes ∧ (check c w μ req f).1.mgr.sensors = w.mgr.sensors := by
    intro μ req f _ hf
    obtain ⟨hr, -⟩ := scan_spec c w h.ready μ req
    refine ⟨hr.radius, hr.eyes, ?_⟩
    show (Stepped.step c.mgr w.mgr (f (scan c w μ req).2)).1.sensors = _
    rw [Stepped.sensors_step c.mgr w.mgr _ h.inv.toInvA]
    split
    · rename_i x heq; exact absurd heq (hf _ _)
    · rfl
  cases o with
  | activate a n v ws =>
    simp only [step, Op.uses, radiusGiven, detGiven, eyeGiven]
    split
    · simp only [act, activate]
      split
      · split
        · exact ⟨rfl, rfl, rfl⟩
        · refine ⟨rfl, ?_, ?_⟩
          · exact congrFun (Stepped.det_step c.mgr w.mgr (.startMover a true) (fun L hL => by cases hL) h.inv) s
          · have := Stepped.sensors_step c.mgr w.mgr (.startMover a true) h.inv.toInvA
            dsimp only at this ⊢
            rw [this]; rfl
      · exact ⟨rfl, rfl, rfl⟩
    · exact ⟨rfl, rfl, rfl⟩
  | deactivate a n =>
    simp only [step, Op.uses, radiusGiven, detGiven, eyeGiven]
    split
    · simp only [act, deactivate]
      split
      · split <;> exact ⟨rfl, rfl, rfl⟩
      · exact ⟨rfl, rfl, rfl⟩
    · exact ⟨rfl, rfl, rfl⟩
  | read a n => simp only [step, Op.uses]; split <;> exact ⟨rfl, rfl, rfl⟩
  | remaining a n => simp only [step, Op.uses]; split <;> exact ⟨rfl, rfl, rfl⟩
  | assign a n p => simp only [step, Op.uses]; split <;> exact ⟨rfl, rfl, rfl⟩
  | setRadius b r =>
    refine ⟨?_, rfl, rfl⟩
    simp only [step, Op.uses, act, upd, radiusGiven]
    by_cases hb : s = b
    · rw [if_pos hb, if_pos hb.symm]
    · rw [if_neg hb, if_neg (Ne.symm hb)]
  | detect b v =>
    simp only [step, Op.uses, act, radiusGiven, detGiven, eyeGiven]
    have hb : (if b = s then v else w.mgr.det s) = if s = b then v else w.mgr.det s := by
      by_cases hb : b = s
      · rw [if_pos hb, if_pos hb.symm]
      · rw [if_neg hb, if_neg (Ne.symm hb)]
    rw [hb]
    cases v with
    | true =>
      rw [if_pos rfl]
      obtain ⟨h1, h2, h3⟩ := hcheck { w.mgr with det := fun x => if x = b then true else w.mgr.det x } (some [b]) (.setDetectable b true)
        (fun L hL L' hL' => by cases hL'; exact hL) (fun _ _ hc => by cases hc)
      refine ⟨by rw [h1], ?_, by rw [h2, h3]⟩
      obtain ⟨-, q, -⟩ := scan_spec c w h.ready { w.mgr with det := fun x => if x = b then true else w.mgr.det x } (some [b])
      exact congrFun (Stepped.det_step c.mgr w.mgr (.setDetectable b true _) (fun L' hL' => by cases hL'; exact q) h.inv) s
    | false => exact ⟨rfl, rfl, rfl⟩
  | addSensor b n =>
    simp only [step, Op.uses, act, radiusGiven, detGiven, eyeGiven]
    split
    · rename_i hn
      refine ⟨rfl, rfl, ?_⟩
      by_cases hb : b = s
      · subst hb
        have hm : b ∈ Stepped.addKey w.mgr.sensors b := by
          unfold Stepped.addKey
          split
          · assumption
          · simp
        simp [ask, Stepped.step, upd, eyeNow, hm, hn]
      · have hm : s ∈ Stepped.addKey w.mgr.sensors b ↔ s ∈ w.mgr.sensors := by
          unfold Stepped.addKey
          split
          · rfl
          · simp [Ne.symm hb]
        simp [ask, Stepped.step, upd, eyeNow, hm, hb, Ne.symm hb]
    · rename_i hn
      refine ⟨rfl, rfl, ?_⟩
      have : ¬ (b = s ∧ n ∈ c.states s) := fun hc => hn (hc.1.symm ▸ hc.2)
      rw [if_neg this]
      rfl
  | addDetectable b n =>
    simp only [step, Op.uses, act, radiusGiven, detGiven, eyeGiven]
    split <;> exact ⟨rfl, rfl, rfl⟩
  | particular b =>
    simp only [step, Op.uses, act, radiusGiven, detGiven, eyeGiven]
    obtain ⟨h1, h2, h3⟩ := hcheck w.mgr (some [b]) (.particular b) (fun L hL L' hL' => by cases hL'; exact hL) (fun _ _ hc => by cases hc)
    refine ⟨by rw [h1], ?_, by rw [h2, h3]⟩
    obtain ⟨-, q, -⟩ := scan_spec c w h.ready w.mgr (some [b])
    exact congrFun (Stepped.det_step c.mgr w.mgr (.particular b _) (fun L' hL' => by cases hL'; exact q) h.inv) s
  | run => exact ⟨rfl, rfl, rfl⟩
  | beginRun =>
    refine ⟨rfl, ?_, ?_⟩
    · exact congrFun (Stepped.det_step c.mgr w.mgr .beginRun (fun L hL => by cases hL) h.inv) s
    · have := Stepped.sensors_step c.mgr w.mgr .beginRun h.inv.toInvA
      simp only [step, Op.uses, act, ask, eyeGiven, this]
  | timer empty =>
    simp only [step, Op.uses, act, radiusGiven, detGiven, eyeGiven]
    cases w.mgr.loops with
    | nil => exact ⟨rfl, rfl, rfl⟩
    | cons l ls =>
      obtain ⟨t, k⟩ := l
      dsimp only
      split
      · exact ⟨rfl, rfl, rfl⟩
      · obtain ⟨h1, h2, h3⟩ := hcheck w.mgr none (.timer empty) (fun L hL L' hL' => by cases hL'; exact hL) (fun _ _ hc => by cases hc)
        refine ⟨by rw [h1], ?_, by rw [h2, h3]⟩
        obtain ⟨-, q, -⟩ := scan_spec c w h.ready w.mgr none
        exact congrFun (Stepped.det_step c.mgr w.mgr (.timer empty _) (fun L' hL' => by cases hL'; exact q) h.inv) s
  | reorder view =>
    refine ⟨rfl, ?_, ?_⟩
    · exact congrFun (Stepped.det_step c.mgr w.mgr (.reorder view) (fun L hL => by cases hL) h.inv) s
    · have := Stepped.sensors_step c.mgr w.mgr (.reorder view) h.inv.toInvA
      simp only [step, Op.uses, act, ask, eyeGiven, this]
  | mock a t =>
    simp only [step, Op.uses, act, radiusGiven, detGiven, eyeGiven]
    split <;> exact ⟨rfl, rfl, rfl⟩
  | advance t =>
    simp only [step, Op.uses, act, radiusGiven, detGiven, eyeGiven, Stepped.step]
    split
    · rename_i heq
      split at heq
      · simp only [Prod.mk.injEq, and_true] at heq; subst heq; exact ⟨rfl, rfl, rfl⟩
      · cases heq
    · exact ⟨rfl, rfl, rfl⟩

/-- **C76, what checks use was given.** At any time the radius of an object and its detectability are those last given; it is a sensor exactly if it was
made one with an existing location state, and that is the state which checks read. With `c76_checked` the outcome of a check depends on nothing else
but the locations and on who is being watched. -/
theorem c76_given (c : Cfg P) (t0 : Rat) (det : Obj → Bool) (radius : Obj → ℝ) (val : Obj → Nat → P) (ops : List (Op P)) (w : World P)
    (hw : w = run c (init t0 det radius val) ops) (s : Obj) :
    w.radius s = radiusGiven s (radius s) ops ∧ w.mgr.det s = detGiven s (det s) ops ∧
    (s ∈ w.mgr.sensors ↔ (eyeGiven c.states s none ops).isSome) ∧ ∀ n, eyeGiven c.states s none ops = some n → w.eyes s = n := by
  have key : ∀ (ops : List (Op P)) (w : World P), Sound c w →
      (run c w ops).radius s = radiusGiven s (w.radius s) ops ∧ (run c w ops).mgr.det s = detGiven s (w.mgr.det s) ops ∧
      eyeNow (run c w ops).mgr.sensors (run c w ops).eyes s = eyeGiven c.states s (eyeNow w.mgr.sensors w.eyes s) ops := by
    intro ops
    induction ops with
    | nil => exact fun w _ => ⟨rfl, rfl, rfl⟩
    | cons o ops ih =>
      intro w h
      obtain ⟨h1, -, -⟩ := step_does c w h o s 0
      obtain ⟨g1, g2, g3⟩ := ih _ h1
      obtain ⟨k1, k2, k3⟩ := given_step c w h o s
      simp only [run]
      rw [g1, g2, g3, k1, k2, k3]
      cases o <;> exact ⟨rfl, rfl, rfl⟩
  obtain ⟨h1, h2, h3⟩ := key ops _ (Sound.init c t0 det radius val)
  rw [← hw] at h1 h2 h3
  have h0 : eyeNow (init t0 det radius val).mgr.sensors (init t0 det radius val).eyes s = none := if_neg (fun hc => by cases hc)
  rw [h0] at h3
  rw [← h3]
  unfold eyeNow
  refine ⟨h1, h2, ?_, fun n hn => ?_⟩
  · split <;> simp_all
  · split at hn
    · exact Option.some.inj hn
    · cases hn

/-- A sensor of radius 5, changed to 7, made a sensor first with a state that does not exist and then with state 1. -/
example (c : Cfg P) (hc : c.states = fun _ => [0, 1]) (val : Obj → Nat → P) :
    let w := run c (init 0 (fun _ => true) (fun _ => 5) val) [.addSensor 0 2, .setRadius 0 7, .setRadius 1 9, .detect 0 false, .addSensor 0 1]
    w.radius 0 = 7 ∧ w.mgr.det 0 = false ∧ 0 ∈ w.mgr.sensors ∧ w.eyes 0 = 1 := by
  intro w
  obtain ⟨h1, h2, h3, h4⟩ := c76_given c 0 (fun _ => true) (fun _ => 5) val _ w rfl 0
  have e : eyeGiven c.states 0 none ([.addSensor 0 2, .setRadius 0 7, .setRadius 1 9, .detect 0 false, .addSensor 0 1] : List (Op P)) = some 1 := by simp [eyeGiven, hc]
  exact ⟨by rw [h1]; simp [radiusGiven], by rw [h2]; simp [detGiven], h3.2 (by rw [e]; rfl), h4 1 e⟩

end Verif.Patrol
