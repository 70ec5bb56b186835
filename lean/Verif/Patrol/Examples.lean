import Verif.Patrol.Limits

/-! # C76: an actor to which the theorems apply

Sensor 0 stands at the origin and sees 5 units far. Actor 1 starts there too and goes 10 units along the x axis at speed 1. Actor 2 has the two
location states 0, which is 10 units away, and 1, which is at the origin. Actor 3 is a clone. The manager checks every 2 time units. -/

namespace Verif.Patrol

open Verif.Stepped (Obj Aware)
open Verif.Path (Loc At euclid pathLen slack cartesian)

noncomputable def near : Loc := ⟨0, 0, 0, false⟩
noncomputable def far : Loc := ⟨10, 0, 0, false⟩

noncomputable def demoC : Cfg Loc := ⟨cartesian 1, fun x y => euclid (x.place 1) (y.place 1), ⟨2, 5⟩, fun a => if a = 2 then [0, 1] else [0], fun a => a = 3⟩

noncomputable def demoV (a : Obj) (n : Nat) : Loc := if a = 2 ∧ n = 0 then far else near

/-- The sensor is known. -/
noncomputable def demo1 : World Loc := run demoC (init 0 (fun _ => true) (fun _ => 5) demoV) [.addSensor 0 0]

theorem demo_mgr1 : demo1.mgr = { Stepped.St.init (fun _ => true) 0 with sensors := [0] } ∧ demo1.loc = (init 0 (fun _ => true) (fun _ => 5) demoV).loc ∧
    demo1.radius = fun _ => 5 := by
  refine ⟨?_, ?_, ?_⟩ <;> simp [demo1, run, step, Op.uses, act, demoC, ask, Stepped.step, Stepped.addKey, init, Stepped.St.init]

theorem demo_loc1 (a : Obj) (n : Nat) : demo1.loc a n = ⟨0, demoV a n, none, false⟩ := by rw [demo_mgr1.2.1]; simp [init]

/-- A motion can begin. -/
theorem demo_go (a : Obj) (n : Nat) (hn : n ∈ demoC.states a) (v : ℝ) (hv : 0 < v) (ws : List Loc) : (step demoC demo1 (.activate a n v ws)).2 = .path .done := by
  have h := (Path.activate_moving demoC.kind (demo1.loc a n) (by rw [demo_loc1]) v hv ws).2.1
  simp only [step, Op.uses, if_pos hn, act, activate]
  rcases hp : Path.step demoC.kind (demo1.loc a n) (.activate v ws) with ⟨τ, o⟩
  rw [hp] at h
  dsimp only at h
  subst h
  dsimp only
  split <;> rfl

/-- Actor `a` goes at speed `v`, and time 2 has come. -/
noncomputable def demoAt (v : ℝ) (a : Obj) (n : Nat) : World Loc := run demoC (step demoC demo1 (.activate a n v [far])).1 [.beginRun, .advance 2]

theorem demo_mgrAt (v : ℝ) (hv : 0 < v) (a : Obj) (n : Nat) (ha : demoC.copy a = false) (hn : n ∈ demoC.states a) :
    (demoAt v a n).mgr = { Stepped.St.init (fun _ => true) 2 with sensors := [0], detectables := [a], isRunning := true, loops := [(2, 0)] } ∧
      (demoAt v a n).radius 0 = 5 := by
  have hm := (activate_done demoC demo1 a n v [far] ha (demo_go a n hn v hv [far])).2.2.1
  have h0 : (step demoC demo1 (.activate a n v [far])).1.mgr = { Stepped.St.init (fun _ => true) 0 with sensors := [0], detectables := [a], pending := 1 } := by
    rw [hm, demo_mgr1.1]
    simp [Stepped.step, Stepped.addMover, Stepped.St.init, Stepped.addKey]
  have hr : (step demoC demo1 (.activate a n v [far])).1.radius 0 = 5 := by
    simp only [step, Op.uses, if_pos hn, act, activate]
    split
    · split
      · simp [setLoc, demo_mgr1.2.2]
      · simp [setLoc, demo_mgr1.2.2]
    · simp [setLoc, demo_mgr1.2.2]
  have h1 : (step demoC (step demoC demo1 (.activate a n v [far])).1 .beginRun).1.mgr =
      { Stepped.St.init (fun _ => true) 0 with sensors := [0], detectables := [a], isRunning := true, loops := [(2, 0)] } := by
    show (Stepped.step demoC.mgr (step demoC demo1 (.activate a n v [far])).1.mgr .beginRun).1 = _
    rw [h0]
    norm_num [Stepped.step, Stepped.St.init, demoC]
  have hr1 : (step demoC (step demoC demo1 (.activate a n v [far])).1 .beginRun).1.radius 0 = 5 := hr
  simp only [demoAt, run]
  generalize (step demoC (step demoC demo1 (.activate a n v [far])).1 .beginRun).1 = w at h1 hr1
  constructor
  · simp [step, Op.uses, act, Stepped.step, h1, Stepped.St.init]
  · simpa [step, Op.uses, act, Stepped.step, h1, Stepped.St.init] using hr1

/-- Actor `a` goes at speed 1. -/
noncomputable def demo2 (a : Obj) (n : Nat) : World Loc := demoAt 1 a n

theorem demo_mgr2 (a : Obj) (n : Nat) (ha : demoC.copy a = false) (hn : n ∈ demoC.states a) :
    (demo2 a n).mgr = { Stepped.St.init (fun _ => true) 2 with sensors := [0], detectables := [a], isRunning := true, loops := [(2, 0)] } :=
  (demo_mgrAt 1 one_pos a n ha hn).1

theorem demo_sound : Sound demoC demo1 := (run_does demoC [.addSensor 0 0] _ (Sound.init demoC 0 (fun _ => true) (fun _ => 5) demoV) 0 0).1

/-- The sensor stays where it is. -/
theorem demo_stands (os : List (Op Loc)) (ho : ∀ o ∈ os, (∀ v ws, o ≠ .activate 0 0 v ws) ∧ ∀ q, o ≠ .assign 0 0 q) :
    (step demoC (run demoC demo1 os) (.read 0 0)).2 = .path (.loc near) := by
  have := rests_run demoC os demo1 demo_sound 0 0 near (by rw [demo_loc1]; exact ⟨rfl, by simp [demoV]⟩) ho
  have hn : (0 : Nat) ∈ demoC.states 0 := by simp [demoC]
  simp only [step, Op.uses, if_pos hn, act, plain, Path.step, rests_read this]

theorem demo_dist : euclid (near.place 1) (far.place 1) = 10 := by
  simp only [near, far, Loc.place, euclid]
  norm_num
  rw [show (100 : ℝ) = 10 ^ 2 by norm_num]
  exact Real.sqrt_sq (by norm_num)

theorem demo_len : pathLen euclid ((demo1.loc 1 0).value.place 1) ([far].map (Loc.place 1)) = 10 := by
  rw [demo_loc1]
  simp only [demoV, List.map_cons, List.map_nil, pathLen, add_zero]
  exact demo_dist

theorem demo_at (x : ℝ) (X : ℝ × ℝ × ℝ) (h : At euclid ((demo1.loc 1 0).value.place 1) ([far].map (Loc.place 1)) x X) : euclid (near.place 1) X = x := by
  rw [demo_loc1] at h
  obtain ⟨pre, w, post, a, h0, h1, -, -, h2, -⟩ := h
  cases pre with
  | nil =>
    simp only [List.getLastD_nil] at h1
    subst h1
    simpa [demoV, pathLen] using h2
  | cons y ys => simp at h0

theorem demo_slack : slack < 1 := by unfold slack; norm_num

theorem demo_due : (demo2 1 0).mgr.loops = [((demo2 1 0).mgr.now, 0)] := by
  rw [demo_mgr2 1 0 (by simp [demoC]) (by simp [demoC])]; rfl

/-- The first check ends well. -/
theorem demo_check : (step demoC (demo2 1 0) (.timer false)).2 = .mgr .ok := by
  have hm := demo_mgr2 1 0 (by simp [demoC]) (by simp [demoC])
  obtain ⟨hS, hd, hsp, hl, hnow, po, hpo, hloc⟩ := watched demoC 0 (fun _ => true) (fun _ => 5) demoV [.addSensor 0 0] [.beginRun, .advance 2] demo1 (demo2 1 0) rfl 1 0
    (by simp [demoC]) (by simp [demoC]) 1 [far] (demo_go 1 0 (by simp [demoC]) 1 one_pos _) (by simp) rfl
  refine c76_check_ends_well demoC 0 (fun _ => true) (fun _ => 5) demoV ([.addSensor 0 0] ++ .activate 1 0 1 [far] :: [.beginRun, .advance 2]) (demo2 1 0)
    (by rw [run_append]; rfl) 0 [] demo_due ?_ ?_ false
  · intro s hs
    have hs0 : s = 0 := by rw [hm] at hs; simpa using hs
    subst hs0
    have he : (demo2 1 0).eyes 0 = 0 := by simpa [demoC] using hS.eyes 0 hs
    exact ⟨near, by rw [he]; exact demo_stands [.activate 1 0 1 [far], .beginRun, .advance 2] (by simp)⟩
  · intro a ha hdet
    have ha1 : a = 1 := by rw [hm] at ha; simpa using ha
    subst ha1
    have hnow2 : ((demo2 1 0).mgr.now : ℝ) = 2 := by rw [hm]; simp [Stepped.St.init]
    obtain ⟨X, Z, hX, -, -⟩ := Path.c18_close_partial 1 (demo1.loc 1 0) hl 1 one_pos far [] (by rw [demo_loc1]; simp [demoV, near, far, Loc.place]) po hpo 2
      (by
        have := hS.clock 1 0 (by simp [demoC])
        rw [hloc, hnow2] at this
        rw [show Path.under (cartesian 1) (demo1.loc 1 0) 1 [far] po = Path.under demoC.kind (demo1.loc 1 0) 1 [far] po from rfl, this, demo_loc1]; norm_num)
      (by norm_num) (by rw [demo_len]; norm_num)
    refine ⟨X, ?_⟩
    rw [hsp]
    have hn : (0 : Nat) ∈ demoC.states 1 := by simp [demoC]
    simp only [step, Op.uses, if_pos hn, act, plain, hloc]
    rw [show Path.step demoC.kind (Path.under demoC.kind (demo1.loc 1 0) 1 [far] po) .read = Path.step (cartesian 1) (Path.under (cartesian 1) (demo1.loc 1 0) 1 (far :: []) po) .read from rfl, hX]

/-- The sensor is told (`c76_checked`, `c76_position_partial`). -/
theorem demo_told : Aware (step demoC (demo2 1 0) (.timer false)).1.mgr.log 0 1 := by
  have hm := demo_mgr2 1 0 (by simp [demoC]) (by simp [demoC])
  have hnow2 : ((demo2 1 0).mgr.now : ℝ) = 2 := by rw [hm]; simp [Stepped.St.init]
  have hnow1 : (demo1.mgr.now : ℝ) = 0 := by rw [demo_mgr1.1]; simp [Stepped.St.init]
  have hr : (demo2 1 0).radius 0 = 5 := (demo_mgrAt 1 one_pos 1 0 (by simp [demoC]) (by simp [demoC])).2
  have := c76_position_partial 1 demoC rfl (fun _ _ => rfl) 0 (fun _ => true) (fun _ => 5) demoV [.addSensor 0 0] [.beginRun, .advance 2] demo1 (demo2 1 0) rfl 0 1 (by decide) 0 0
    (by simp [demoC]) (by simp [demoC]) (by simp [demoC]) 1 one_pos far [] (demo_go 1 0 (by simp [demoC]) 1 one_pos _) (by rw [demo_loc1]; simp [demoV, near, far, Loc.place])
    (by simp) rfl (by rw [hm]; simp) 2 (by rw [hnow2, hnow1]; norm_num) (by norm_num) (by rw [demo_len]; norm_num) false demo_check
  refine this.1 (by rw [hm]; rfl) fun Y hY X hX => ?_
  rw [show (step demoC (demo2 1 0) (.read 0 0)).2 = _ from demo_stands [.activate 1 0 1 [far], .beginRun, .advance 2] (by simp)] at hY
  cases hY
  rw [demo_at _ X hX, hr]
  linarith [demo_slack]

/-- The check does not change where the actor is. -/
example : (step demoC (step demoC (demo2 1 0) (.timer false)).1 (.read 1 0)).2 = (step demoC (demo2 1 0) (.read 1 0)).2 := by
  have hm := demo_mgr2 1 0 (by simp [demoC]) (by simp [demoC])
  have hnow : (demo2 1 0).mgr.now = 2 := by rw [hm]; rfl
  have hnow1 : demo1.mgr.now = 0 := by rw [demo_mgr1.1]; rfl
  have hend : (step demoC (demo2 1 0) (.timer false)).1.mgr.now = 2 := by
    rw [(timer_ok demoC _ false demo_check).1, (Stepped.now_step demoC.mgr _ ?_ _).2 (by simp), hnow]
    exact (run_does demoC ([.activate 1 0 1 [far], .beginRun, .advance 2]) demo1 demo_sound 1 0).1.inv.toInvA
  have h3 := (c76_undisturbed demoC 0 (fun _ => true) (fun _ => 5) demoV [.addSensor 0 0] [.beginRun, .advance 2, .timer false] demo1 (step demoC (demo2 1 0) (.timer false)).1 rfl 1 0
    (by simp [demoC]) 1 one_pos [far] (demo_go 1 0 (by simp [demoC]) 1 one_pos _) (by simp) rfl (by rw [hnow1, hend]; norm_num)).1
  have h2 := (c76_undisturbed demoC 0 (fun _ => true) (fun _ => 5) demoV [.addSensor 0 0] [.beginRun, .advance 2] demo1 (demo2 1 0) rfl 1 0
    (by simp [demoC]) 1 one_pos [far] (demo_go 1 0 (by simp [demoC]) 1 one_pos _) (by simp) rfl (by rw [hnow1, hnow]; norm_num)).1
  rw [h2, h3, hend, hnow]

/-- After the check, and a while later. -/
noncomputable def demo3 : World Loc := (step demoC (demo2 1 0) (.timer false)).1
noncomputable def demo4 : World Loc := (step demoC demo3 (.advance (7 / 2))).1

theorem demo_mgr3 : demo3.mgr.now = 2 ∧ demo3.mgr.loops = [(4, 0)] ∧ demo3.mgr.det = (fun _ => true) ∧ demo3.radius 0 = 5 ∧ demo3.mgr.pending = 0 := by
  have hm := demo_mgr2 1 0 (by simp [demoC]) (by simp [demoC])
  have hnow : (demo2 1 0).mgr.now = 2 := by rw [hm]; rfl
  have hS := (run_does demoC ([.activate 1 0 1 [far], .beginRun, .advance 2]) demo1 demo_sound 1 0).1
  obtain ⟨e, hok, -⟩ := timer_ok demoC _ false demo_check
  have hq := (scan_spec demoC (demo2 1 0) hS.ready (demo2 1 0).mgr none).2.1
  obtain ⟨τ, o, h1, h2, h3, -⟩ := Stepped.timer_eq demoC.mgr (demo2 1 0).mgr false (scan demoC (demo2 1 0) (demo2 1 0).mgr none).2 0 [] demo_due
  have hI : Stepped.Inv { (demo2 1 0).mgr with loops := [], checks := (demo2 1 0).mgr.checks ++ [((demo2 1 0).mgr.now, false)] } := ⟨⟨hS.inv.1.1, hS.inv.1.2, hS.inv.1.3, hS.inv.1.4⟩, hS.inv.2⟩
  have hd := (Stepped.runDetectable_inv (scan demoC (demo2 1 0) (demo2 1 0).mgr none).2 hq none _ hI).2.1
  have hs := (Stepped.runDetectable_invA (scan demoC (demo2 1 0) (demo2 1 0).mgr none).2 none _ hI.toInvA).2.1
  rw [h1] at hd hs
  rw [h2] at hok
  subst hok
  rw [if_pos rfl] at h3
  have e3 : demo3.mgr = Stepped.again demoC.mgr 0 false τ := e.trans h3
  have hr : demo3.radius 0 = 5 := by
    have : demo3.radius = (demo2 1 0).radius := by
      show (step demoC (demo2 1 0) (.timer false)).1.radius = _
      simp only [step, Op.uses, act, demo_due, ne_eq, not_true_eq_false, if_false, check]
      exact (scan_spec demoC (demo2 1 0) hS.ready (demo2 1 0).mgr none).1.radius
    rw [this]; exact (demo_mgrAt 1 one_pos 1 0 (by simp [demoC]) (by simp [demoC])).2
  have hτ := hs.now
  have hl := hs.loops
  have hp := hs.pending
  dsimp only at hτ hl hp hd
  rw [hnow] at hτ
  have hdd : (demo2 1 0).mgr.det = fun _ => true := by rw [hm]; rfl
  have hpp : (demo2 1 0).mgr.pending = 0 := by rw [hm]; rfl
  refine ⟨?_, ?_, ?_, hr, ?_⟩ <;> rw [e3] <;> simp only [Stepped.again, Bool.false_eq_true, if_false]
  · exact hτ
  · rw [hl, hτ]; norm_num [demoC]
  · rw [hd, hdd]
  · rw [hp, hpp]

theorem demo_mgr4 : demo4.mgr.now = 7 / 2 ∧ demo4.mgr.loops = [(4, 0)] := by
  obtain ⟨h1, h2, -, -, h5⟩ := demo_mgr3
  have : Stepped.step demoC.mgr demo3.mgr (.advance (7 / 2)) = ({ demo3.mgr with now := 7 / 2 }, .ok) := by
    simp only [Stepped.step, h1, h2, h5]
    norm_num
  simp only [demo4, step, Op.uses, act, this, h2, and_self]

/-- Within a timestep the sensor is told. -/
example : ∃ pre e post, [Op.beginRun, .advance 2, .timer false, .advance (7 / 2)] = pre ++ .timer e :: post ∧
    Aware (step demoC (run demoC (step demoC demo1 (.activate 1 0 1 [far])).1 pre) (.timer e)).1.mgr.log 0 1 := by
  have hnow1 : demo1.mgr.now = 0 := by rw [demo_mgr1.1]; rfl
  have hm := demo_mgr2 1 0 (by simp [demoC]) (by simp [demoC])
  have hnow : (demo2 1 0).mgr.now = 2 := by rw [hm]; rfl
  have hdd : (demo2 1 0).mgr.det = fun _ => true := by rw [hm]; rfl
  have hrr := (demo_mgrAt 1 one_pos 1 0 (by simp [demoC]) (by simp [demoC])).2
  have hts : demoC.mgr.timestep = 2 := rfl
  obtain ⟨pre, e, post, x, h1, rfl, -, -, h2, -⟩ := c76_noticed_partial 1 demoC rfl (fun _ _ => rfl) 0 (fun _ => true) (fun _ => 5) demoV [.addSensor 0 0]
    [.beginRun, .advance 2, .timer false, .advance (7 / 2)] demo1 demo4 rfl 0 1 (by decide) 0 0
    (by simp [demoC]) (by simp [demoC]) (by simp [demoC]) (by rw [demo_mgr1.1]; simp) 1 one_pos far [] (demo_go 1 0 (by simp [demoC]) 1 one_pos _)
    (by rw [demo_loc1]; simp [demoV, near, far, Loc.place]) (by simp) rfl (by rw [demo_mgr4.2]; simp) 1 (by rw [hnow1]; norm_num)
    (by rw [demo_mgr4.1, hts]; norm_num) (by rw [demo_len, hnow1, hts]; norm_num)
  refine ⟨pre, e, post, h1, h2 fun pre' post' y hy hy' hy1 hy2 => ?_⟩
  have hS1 := (step_does demoC demo1 demo_sound (.activate 1 0 1 [far]) 1 0).sound
  have h0 : (step demoC demo1 (.activate 1 0 1 [far])).1.mgr.now = 0 := by
    rw [(activate_done demoC demo1 1 0 1 [far] (by simp [demoC]) (demo_go 1 0 (by simp [demoC]) 1 one_pos [far])).2.2.1,
      (Stepped.now_step demoC.mgr _ demo_sound.inv.toInvA _).2 (by simp), hnow1]
  have hin : ∀ y, y.mgr.now = 2 → y.mgr.det = (fun _ => true) → y.radius 0 = 5 → (step demoC y (.read 0 0)).2 = .path (.loc near) →
      y.mgr.det 1 = true ∧ ∀ Y X, (step demoC y (.read 0 0)).2 = .path (.loc Y) →
        At euclid ((demo1.loc 1 0).value.place 1) ((far :: []).map (Loc.place 1)) (1 * ((y.mgr.now : ℝ) - (demo1.mgr.now : ℝ))) X →
          euclid (Y.place 1) X + 2 * 1 * slack ≤ y.radius 0 := fun y g1 g2 g3 g4 => by
    refine ⟨by rw [g2], fun Y X hY hX => ?_⟩
    rw [g4] at hY
    cases hY
    rw [demo_at _ X hX, g3, g1, hnow1]
    push_cast
    linarith [demo_slack]
  match pre', hy with
  | [], _ => rw [hy'] at hy1; simp only [run, h0] at hy1; norm_num at hy1
  | [o1], hy =>
    cases hy
    rw [hy'] at hy1
    have : (run demoC (step demoC demo1 (.activate 1 0 1 [far])).1 [.beginRun]).mgr.now = 0 := by
      show (Stepped.step demoC.mgr (step demoC demo1 (.activate 1 0 1 [far])).1.mgr .beginRun).1.now = 0
      rw [(Stepped.now_step demoC.mgr _ hS1.inv.toInvA _).2 (by simp), h0]
    rw [this] at hy1
    norm_num at hy1
  | [o1, o2], hy =>
    cases hy
    subst hy'
    exact hin (demo2 1 0) hnow hdd hrr (demo_stands [.activate 1 0 1 [far], .beginRun, .advance 2] (by simp))
  | [o1, o2, o3], hy =>
    cases hy
    subst hy'
    exact hin demo3 demo_mgr3.1 demo_mgr3.2.2.1 demo_mgr3.2.2.2.1 (demo_stands [.activate 1 0 1 [far], .beginRun, .advance 2, .timer false] (by simp))
  | [o1, o2, o3, o4], hy =>
    cases hy
    subst hy'
    have : demo4.mgr.now ≤ 1 + demoC.mgr.timestep := hy2
    rw [demo_mgr4.1, hts] at this
    norm_num at this
  | o1 :: o2 :: o3 :: o4 :: o5 :: l, hy => simp at hy

/-- Going and stopping at once, next to the sensor. -/
example (os : List (Op Loc)) (hno : ∀ o ∈ os, (∀ m v ws, o ≠ .activate 1 m v ws) ∧ ∀ m, o ≠ .addDetectable 1 m) :
    ¬ Aware (run demoC (step demoC (step demoC demo1 (.activate 1 0 1 [far])).1 (.deactivate 1 0)).1 os).mgr.log 0 1 := by
  refine c76_stopped_unseen demoC 0 (fun _ => true) (fun _ => 5) demoV [.addSensor 0 0, .activate 1 0 1 [far]] os (step demoC demo1 (.activate 1 0 1 [far])).1 _ rfl 0 1 0 (by simp [demoC])
    ?_ ?_ hno rfl
  · have hgo := demo_go 1 0 (by simp [demoC]) 1 one_pos [far]
    have hl := (activate_done demoC demo1 1 0 1 [far] (by simp [demoC]) hgo).2.2.2
    obtain ⟨hM, -, hv, hnow⟩ := Path.activate_moving demoC.kind (demo1.loc 1 0) (by rw [demo_loc1]) 1 one_pos [far]
    have hn : (0 : Nat) ∈ demoC.states 1 := by simp [demoC]
    simp only [step, Op.uses, if_pos hn, act] at hl ⊢
    have : (Path.step demoC.kind ((activate demoC demo1 1 0 1 [far]).1.loc 1 0) .deactivate).2 = .done := by
      rw [hl]
      generalize (Path.step demoC.kind (demo1.loc 1 0) (.activate 1 [far])).1 = τ at hM hnow
      simp only [Path.step, hM.locked, if_true, Path.read, hM.act, Path.onPath, hnow, sub_self, lt_irrefl, if_false]
    simp only [deactivate]
    rcases hp : Path.step demoC.kind ((activate demoC demo1 1 0 1 [far]).1.loc 1 0) .deactivate with ⟨τ, o⟩
    rw [hp] at this
    dsimp only at this
    subst this
    dsimp only
    split <;> rfl
  · rw [(activate_done demoC demo1 1 0 1 [far] (by simp [demoC]) (demo_go 1 0 (by simp [demoC]) 1 one_pos [far])).2.2.1, demo_mgr1.1]
    simp [Stepped.step, Stepped.addMover, Stepped.St.init, Aware, Stepped.said]

/-- The first state of actor 2 stays away, while the second goes by the sensor. -/
example : ¬ Aware (step demoC (demo2 2 1) (.timer false)).1.mgr.log 0 2 := by
  have hm := demo_mgr2 2 1 (by simp [demoC]) (by simp [demoC])
  have hok := demo_go 2 1 (by simp [demoC]) 1 one_pos [far]
  have hey : (demo2 2 1).eyes 0 = 0 := by
    have : (demo2 2 1).eyes 0 ∈ demoC.states 0 :=
      (run_does demoC ([.activate 2 1 1 [far], .beginRun, .advance 2]) demo1 demo_sound 1 0).1.eyes 0 (by show 0 ∈ (demo2 2 1).mgr.sensors; rw [hm]; simp)
    simpa [demoC] using this
  have hst := rests_run demoC [.activate 2 1 1 [far], .beginRun, .advance 2] demo1 demo_sound 2 0 far (by rw [demo_loc1]; exact ⟨rfl, by simp [demoV]⟩) (by simp)
  have hn : (0 : Nat) ∈ demoC.states 2 := by simp [demoC]
  have hY : (step demoC (demo2 2 1) (.read 0 ((demo2 2 1).eyes 0))).2 = .path (.loc near) := by
    rw [hey]; exact demo_stands [.activate 2 1 1 [far], .beginRun, .advance 2] (by simp)
  have hX : (step demoC (demo2 2 1) (.read 2 0)).2 = .path (.loc far) := by
    show (step demoC (run demoC demo1 [.activate 2 1 1 [far], .beginRun, .advance 2]) (.read 2 0)).2 = _
    simp only [step, Op.uses, if_pos hn, act, plain, Path.step, rests_read hst]
  have hsp : (demo2 2 1).spots 2 = 0 := by
    have h1 : (step demoC demo1 (.activate 2 1 1 [far])).1.spots 2 = 0 := by
      have hmem : (1 : Nat) ∈ demoC.states 2 := by simp [demoC]
      simp only [step, Op.uses, if_pos hmem, act, activate] at hok ⊢
      cases hp : Path.step demoC.kind (demo1.loc 2 1) (.activate 1 [far]) with
      | mk τ o =>
        rw [hp] at hok
        cases o with
        | done => simp [demoC, demo_mgr1.1, Stepped.St.init, upd]
        | error => cases hok
        | loc p => cases hok
        | list p => cases hok
    refine ((spots_run demoC [.beginRun, .advance 2] _ (step_does demoC demo1 demo_sound (.activate 2 1 1 [far]) 2 1).sound 2 ?_ (by simp)).2).trans h1
    rw [(activate_done demoC demo1 2 1 1 [far] (by simp [demoC]) hok).2.2.1, demo_mgr1.1]
    simp [Stepped.step, Stepped.addMover, Stepped.St.init, Stepped.addKey]
  have hchk : (step demoC (demo2 2 1) (.timer false)).2 = .mgr .ok := by
    refine c76_check_ends_well demoC 0 (fun _ => true) (fun _ => 5) demoV [.addSensor 0 0, .activate 2 1 1 [far], .beginRun, .advance 2] (demo2 2 1) rfl 0 [] (by rw [hm]; rfl) ?_ ?_ false
    · intro s hs
      have hs0 : s = 0 := by rw [hm] at hs; simpa using hs
      subst hs0
      exact ⟨near, hY⟩
    · intro a ha _
      have ha2 : a = 2 := by rw [hm] at ha; simpa using ha
      subst ha2
      exact ⟨far, by rw [hsp]; exact hX⟩
  refine c76_second_state demoC 0 (fun _ => true) (fun _ => 5) demoV [.addSensor 0 0] [.beginRun, .advance 2] demo1 (demo2 2 1) rfl 0 2 (by decide) 0 1 [1] (by simp [demoC]) (by simp [demoC])
    (by rw [demo_mgr1.1]; simp [Stepped.St.init]) 1 [far] hok (by simp) rfl (by rw [hm]; simp) false hchk near far hY hX ?_
  rw [show (demo2 2 1).radius 0 = 5 from (demo_mgrAt 1 one_pos 2 1 (by simp [demoC]) (by simp [demoC])).2]
  show (5 : ℝ) < euclid (near.place 1) (far.place 1)
  rw [demo_dist]; norm_num

/-- At speed 100 the way is over long before the first check. -/
example (os : List (Op Loc)) : (run demoC (step demoC (demoAt 100 1 0) (.timer false)).1 os).mgr.loops = [] := by
  have hm := (demo_mgrAt 100 (by norm_num) 1 0 (by simp [demoC]) (by simp [demoC])).1
  refine (c76_overrun demoC (fun _ _ => Real.sqrt_nonneg _) (by show (0 : ℝ) ≤ slack; unfold slack; norm_num) 0 (fun _ => true) (fun _ => 5) demoV [.addSensor 0 0] [.beginRun, .advance 2] demo1 (demoAt 100 1 0) rfl 1 0
    (by simp [demoC]) (by simp [demoC]) 100 (by norm_num) [far] (demo_go 1 0 (by simp [demoC]) 100 (by norm_num) _) (by simp) rfl (by rw [hm]; rfl) ?_ ⟨0, by rw [hm]; rfl⟩ false os).2.1
  have hlen : pathLen (fun x y => demoC.kind.dist y x) (demo1.loc 1 0).value [far] = 10 := by
    rw [demo_loc1]
    have h : demoV 1 0 = near := by simp [demoV]
    simp only [h, pathLen, add_zero]
    show Loc.sub 1 far near = 10
    rw [Path.Loc.sub_eq, demo_dist]
  have hnow : (demoAt 100 1 0).mgr.now = 2 := by rw [hm]; rfl
  have hnow1 : demo1.mgr.now = 0 := by rw [demo_mgr1.1]; rfl
  rw [hlen, hnow, hnow1]
  show (10 : ℝ) / 100 + 1 / 10 ^ 12 < _
  norm_num

/-- A clone. -/
example : (step demoC demo1 (.detect 3 true)).2 = .mgr .error :=
  c76_clone_shown demoC 0 (fun _ => true) (fun _ => 5) demoV [.addSensor 0 0] demo1 rfl 3 (by simp [demoC]) (by simp)

end Verif.Patrol
