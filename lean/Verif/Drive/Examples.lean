import Verif.Drive.Seen
import Verif.Drive.Props

/-! # C75: an actor to which the theorems apply

An actor with the location states 0 and 1, at the origin, which is where sensor 7 with a range of 1 is. It is sent half a unit along the x axis
on state 0 with speed 1. -/

namespace Verif.Drive

open Verif.Path (Loc At euclid pathLen cartesian)
open Verif.Queued (told Seen cartI LegOk Misses NoTouch InRange Dead)

def orig : Loc := ⟨0, 0, 0, false⟩
noncomputable def half : Loc := ⟨1 / 2, 0, 0, false⟩

noncomputable def demoC : Cfg Loc := ⟨cartesian 2, cartI 2 (fun _ => orig) (fun _ => 1), [0, 1]⟩

noncomputable def demo0 : World Loc := init 0 1 (fun _ => some true) (fun _ _ => orig)

theorem demo_dist : euclid (orig.place 2) (half.place 2) = 1 / 2 := by
  rw [show orig.place 2 = (0, 0, 0) from rfl, show half.place 2 = (1 / 2, 0, 0) from rfl, Queued.demo_euclid]
  norm_num [abs_of_pos]

theorem demo_inter (s : Nat) : demoC.inter orig half 1 s = some ⟨[⟨.startInside, 0⟩, ⟨.endInside, 1 / 2⟩], 1 / 2⟩ := by
  have h1 : half.sub 2 orig = 1 / 2 := by rw [Path.Loc.sub_eq, demo_dist]
  have h2 : orig.sub 2 orig = 0 := by rw [Path.Loc.sub_eq, Path.euclid_self]
  have h3 : orig.sub 2 half = 1 / 2 := by rw [Path.Loc.sub_eq, Path.euclid_comm, demo_dist]
  simp only [demoC, cartI, Sphere.crossing, h1, h2, h3]
  norm_num

theorem demo_pair (s : Nat) : Queued.processPair demoC.inter ⟨1, [orig, half], 0⟩ s = some [(⟨.startInside, 0⟩, ⟨.endInside, 1 / 2⟩)] := by
  simp [Queued.processPair, Queued.scan, demo_inter, Queued.absorb, Queued.pairUp, Queued.valid]

/-- With the sensor. -/
noncomputable def demoS : World Loc := { demo0 with mgr := { demo0.mgr with sensors := [7] } }

theorem demo_sensor : (step demoC demo0 (.addSensor 7)).1 = demoS := by
  simp [step, Op.actor, act, Queued.addSensor, demo0, init, Queued.St.init, Dict.keys, Queued.find, demoS]

/-- The state of the actor on its way. -/
noncomputable def demoT : Path.St Loc := (Path.step (cartesian 2) ⟨0, orig, none, false⟩ (.activate 1 [half])).1

/-- The actor on its way. -/
noncomputable def demoW : World Loc :=
  { setLoc demoS 0 0 demoT with
    mgr := { now := 0, detect := fun _ => some true, sensors := [7], movers := [(0, ⟨1, [orig, half], 0⟩)],
             events := Queued.upd (fun _ => []) 0 [(7, 0)], inView := fun _ => [],
             procs := [⟨0, 7, ⟨.startInside, 0⟩, ⟨.endInside, 1 / 2⟩, .fresh, false⟩], log := [] } }

theorem demo_done : (Path.step (cartesian 2) (demoS.loc 0 0) (.activate 1 [half])).2 = .done := by
  rcases start_idle (cartesian 2) (demoS.loc 0 0) rfl 1 [half] with ⟨h, -⟩ | ⟨h, -⟩
  · norm_num at h
  · exact h

theorem demo_start : step demoC demoS (.activate 0 0 1 [half]) = (demoW, .path .done) := by
  have hq : Queued.startMover demoC.inter demoS.mgr 0 1 [orig, half] = (demoW.mgr, .ok) := by
    simp [Queued.startMover, demoS, demo0, init, Queued.St.init, Dict.has, Dict.set, Queued.find, Queued.findOne, Dict.get?, demo_pair, Queued.schedule, demoW, setLoc]
  simp only [step, Op.actor, act, Drive.activate]
  rw [if_pos (show 0 < demoS.count from one_pos)]
  have hd := demo_done
  cases hp : Path.step demoC.kind (demoS.loc 0 0) (.activate 1 [half]) with
  | mk τ o =>
    rw [show Path.step (cartesian 2) (demoS.loc 0 0) (.activate 1 [half]) = (τ, o) from hp] at hd
    dsimp only at hd
    subst hd
    have hτ : τ = demoT := by
      have := congrArg Prod.fst hp
      exact this.symm
    dsimp only
    rw [if_neg (by simp [demoS, demo0, init])]
    rw [show (demoS.loc 0 0).value :: [half] = [orig, half] from rfl, hq, hτ]
    rfl

/-- The actor on its way is reached by proper use. -/
theorem demo_course : Course demoC demo0 (demoW, fun _ => false) := by
  have h1 : Course demoC demo0 (watch demoC (demo0, fun _ => false) (.addSensor 7)) := .next _ .start trivial
  have e1 : watch demoC (demo0, fun _ => false) (.addSensor 7) = (demoS, fun _ => false) := by simp only [watch, demo_sensor]
  rw [e1] at h1
  have h2 := Course.next (.activate 0 0 1 [half]) h1 (fun _ _ => ⟨fun ⟨n, hn⟩ => hn rfl, fun s _ => by
    rw [show Queued.processPair demoC.inter ⟨1, (demoS.loc 0 0).value :: [half], demoS.mgr.now⟩ s = _ from demo_pair s]; rfl⟩)
  have e2 : watch demoC (demoS, fun _ => false) (.activate 0 0 1 [half]) = (demoW, fun _ => false) := by
    simp only [watch, demo_start]
    congr 1
    funext b
    simp only [Queued.upd]
    split <;> rfl
  rwa [e2] at h2

theorem demo_act : demoT.act = some ⟨0, 1, [half], some (Path.legs (cartesian 2) 1 orig [half])⟩ ∧ demoT.locked = true ∧ demoT.now = 0 := by
  simp [demoT, Path.step, Path.read, Path.setup, Path.onPath]

theorem demo_loc : demoW.loc 0 0 = demoT := by simp [demoW, setLoc]

/-- The actor can end its motion. -/
theorem demo_stop : (Path.step demoC.kind (demoW.loc 0 0) .deactivate).2 = .done := by
  obtain ⟨h1, h2, h3⟩ := demo_act
  rw [demo_loc]
  simp [Path.step, h2, Path.read, h1, Path.onPath, h3]

example : (step demoC demoW (.deactivate 0 0)).2 = .path .done := by
  rw [((c75_transparent_partial demoC 0 1 _ _ _ demo_course 0 0 one_pos).2 (fun _ h => by simp at h)).1, demo_stop]

example : 0 ∈ demoW.mgr.movers.keys :=
  (c75_known demoC 0 1 _ _ _ demo_course 0 one_pos rfl (by simp [demoW])).2 ⟨⟨0, _, by rw [demo_loc]; exact demo_act.1, by simp⟩, rfl⟩

example : (step demoC (run demoC demoW [.detect 0 false, .detect 0 true]) (.deactivate 0 0)).2 = .path .error :=
  (c75_hidden_shown demoC demoW 0 0 one_pos rfl (by simp [demoW]) (by rw [demo_loc, demo_act.1]; simp) demo_stop).1

example : (step demoC demoW (.activate 0 1 1 [half])).2 = .path .error :=
  (c75_two_states demoC 0 1 _ _ _ demo_course 0 0 1 one_pos rfl rfl rfl _ (by rw [demo_loc]; exact demo_act.1) (by simp) (by simp [demoW, setLoc, demoS, demo0, init]) 1 one_ne_zero [half]).1

/-- The sensor has been told. -/
noncomputable def demoF : World Loc :=
  { demoW with
    mgr := { demoW.mgr with
             inView := Queued.upd (fun _ => []) 0 [7], log := [⟨0, 0, 7, true⟩],
             procs := [⟨0, 7, ⟨.startInside, 0⟩, ⟨.endInside, 1 / 2⟩, .over, false⟩] } }

theorem demo_fire : (step demoC demoW (.fire 0)).1 = demoF := by
  simp [step, Op.actor, act, Queued.fire, demoW, Queued.begins, Queued.addToView, Queued.afterEntry, Queued.tell, Queued.setProc, demoF, setLoc]

/-- At time `t`. -/
noncomputable def demoAt (t : ℝ) : World Loc := { demoF with mgr := { demoF.mgr with now := t }, loc := fun a n => { demoF.loc a n with now := t } }

theorem demo_advance (t u : ℝ) (h : t ≤ u) : (step demoC (demoAt t) (.advance u)).1 = demoAt u := by
  have hq : Queued.step demoC.inter (demoAt t).mgr (.advance u) = ((demoAt u).mgr, .ok) := by
    simp only [Queued.step]
    rw [if_pos]
    · rfl
    · refine ⟨h, fun p hp => ?_⟩
      simp only [demoAt, demoF, List.mem_singleton] at hp
      subst hp
      simp [Queued.Idle]
  simp only [step, Op.actor, act, hq]
  simp [demoAt, demoF, demoW, setLoc, demoS, demo0, init]

theorem demo_zero : demoF = demoAt 0 := by
  have hl : (fun a n => { demoF.loc a n with now := (0 : ℝ) }) = demoF.loc := by
    funext a n
    have h : (demoF.loc a n).now = 0 := by
      show (demoW.loc a n).now = 0
      simp only [demoW, setLoc]
      split
      · exact demo_act.2.2
      · rfl
    have e : demoF.loc a n = ⟨(demoF.loc a n).now, (demoF.loc a n).value, (demoF.loc a n).act, (demoF.loc a n).locked⟩ := rfl
    rw [e, h]
  unfold demoAt
  rw [hl]
  rfl

theorem demo_run (t : ℝ) (h : 0 ≤ t) : run demoC demoW [.fire 0, .advance t] = demoAt t := by
  simp only [run, demo_fire, demo_zero]
  exact demo_advance 0 t h

theorem demo_late : Course demoC demo0 (demoAt 2, fun _ => false) := by
  have h1 := Course.next (.fire 0) demo_course trivial
  have e1 : watch demoC (demoW, fun _ => false) (.fire 0) = (demoAt 0, fun _ => false) := by simp only [watch, demo_fire, demo_zero]
  rw [e1] at h1
  have h2 := Course.next (.advance 2) h1 trivial
  have e2 : watch demoC (demoAt 0, fun _ => false) (.advance 2) = (demoAt 2, fun _ => false) := by simp only [watch, demo_advance 0 2 (by norm_num)]
  rwa [e2] at h2

theorem demo_at (t : ℝ) : (demoAt t).loc 0 0 = { demoT with now := t } := by
  show { demoW.loc 0 0 with now := t } = _
  rw [demo_loc]

/-- Two time units are too much for half a unit of length. -/
theorem demo_past : (Path.read demoC.kind ((demoAt 2).loc 0 0)).2 = .error := by
  have h := Path.c18_past_end (cartesian 2) (fun a b => by rw [show (cartesian 2).dist a b = a.sub 2 b from rfl, Path.Loc.sub_eq]; exact Path.euclid_nonneg _ _)
    ⟨0, orig, none, false⟩ rfl 1 one_pos (by show (0 : ℝ) ≤ Path.slack; exact Path.slack_pos.le) [half] [.advance 2] (by simp [Path.Op.During])
  have hu : Path.under (cartesian 2) ⟨0, orig, none, false⟩ 1 [half] [.advance 2] = (demoAt 2).loc 0 0 := by
    rw [demo_at]
    show (Path.step (cartesian 2) demoT (.advance 2)).1 = _
    rw [Path.step_advance _ _ _ (by rw [demo_act.2.2]; norm_num)]
  rw [hu] at h
  refine h ?_
  have hd : (cartesian 2).dist half orig = 1 / 2 := by
    rw [show (cartesian 2).dist half orig = half.sub 2 orig from rfl, Path.Loc.sub_eq, demo_dist]
  have hs : (cartesian 2).tol < 1 := Path.slack_lt
  rw [demo_at]
  simp only [pathLen, hd]
  norm_num
  linarith

example : (step demoC (demoAt 2) (.deactivate 0 0)).2 = .path .error ∧
    (step demoC (run demoC (step demoC (demoAt 2) (.deactivate 0 0)).1 [.advance 3, .read 0 1]) (.activate 0 0 1 [half])).2 = .path .error := by
  have h := c75_overrun demoC 0 1 _ _ _ demo_late 0 0 one_pos rfl rfl rfl _ (by rw [demo_at]; exact demo_act.1) (by simp) (by rw [demo_at]; exact demo_act.2.1) demo_past
    [.advance 3, .read 0 1] (by simp [Op.Touches]) 1 one_ne_zero [half]
  exact ⟨h.1, h.2.1⟩

/-- A rehearsal on the way: the clone moves, is shown and hidden, and leaves no trace. -/
example : (run demoC demo0 [.addSensor 7, .activate 0 0 1 [half], .clone 0, .fire 0, .mock 1 5, .activate 1 1 1 [half], .detect 1 false]).mgr.log =
    (run demoC demo0 [.addSensor 7, .activate 0 0 1 [half], .values 0, .fire 0]).mgr.log :=
  (c75_rehearsal demoC 0 1 _ _ [.addSensor 7, .activate 0 0 1 [half], .clone 0, .fire 0, .mock 1 5, .activate 1 1 1 [half], .detect 1 false]).1

theorem demo_inside (τ : ℝ) (h0 : 0 ≤ τ) (h1 : τ ≤ 1 / 2) : InRange 2 [orig, half] 1 (orig.place 2) 1 0 τ := by
  refine ⟨(τ, 0, 0), ⟨[], half.place 2, [], _, rfl, rfl, ?_, ?_, ?_, ?_⟩, ?_⟩
  · simp [pathLen, h0]
  · simp only [pathLen, List.getLastD_nil, demo_dist]; linarith
  · rw [List.getLastD_nil, show orig.place 2 = (0, 0, 0) from rfl, Queued.demo_euclid, zero_sub, abs_neg, abs_of_nonneg h0]; simp [pathLen]
  · rw [List.getLastD_nil, demo_dist, show orig.place 2 = (0, 0, 0) from rfl, Queued.demo_euclid, zero_sub, abs_neg, abs_of_nonneg h0,
      show half.place 2 = (1 / 2, 0, 0) from rfl, Queued.demo_euclid, abs_of_nonpos (by linarith)]
    ring
  · rw [show orig.place 2 = (0, 0, 0) from rfl, Queued.demo_euclid, sub_zero, abs_of_nonneg h0]; linarith

/-- After a quarter of a time unit the actor is where the sensor sees it. -/
example : ∃ X new, (step demoC (demoAt (1 / 4)) (.read 0 0)).2 = .path (.loc X) ∧ told (demoAt (3 / 8)).mgr 0 7 = new ∧
    (euclid (X.place 2) (orig.place 2) ≤ 1 ↔ Seen False new (1 / 4)) := by
  have hsplit : ∀ (pre : List Loc) a b post, [orig, half] = pre ++ a :: b :: post → a = orig ∧ b = half ∧ post = [] := by
    intro pre a b post h
    match pre, h with
    | [], h => simp at h; exact ⟨h.1.symm, h.2.1.symm, h.2.2⟩
    | [_], h => simp at h
    | _ :: _ :: _, h => simp at h
  have hlen : pathLen euclid (orig.place 2) ([half].map (Loc.place 2)) = 1 / 2 := by simp only [List.map, pathLen, demo_dist]; norm_num
  have hS : demoS = run demoC (init 0 1 (fun _ => some true) (fun _ _ => orig)) [.addSensor 7] := demo_sensor.symm
  have h := c75_seen_partial 2 (fun _ => orig) (fun _ => 1) [0, 1] demoC rfl 0 1 (fun _ => some true) (fun _ _ => orig) [.addSensor 7] demoS hS
    0 0 7 one_pos 1 one_pos [half] (by simp) rfl rfl (by simp [demoS]) (by intro p hp; simp [demoS, demo0, init, Queued.St.init] at hp)
    (by rw [demo_start]) rfl one_pos (by simp [demoS, demo0, init, orig, half])
    (by
      intro pre x y post he
      obtain ⟨rfl, rfl, -⟩ := hsplit pre x y post he
      refine ⟨fun hc => ?_, fun hc => ?_, fun hc => ?_⟩
      · have := demo_dist; rw [hc, Path.euclid_self] at this; norm_num at this
      · have := hc.1; rw [Path.euclid_self] at this; norm_num at this
      · have := hc.1; rw [Path.euclid_comm, demo_dist] at this; norm_num at this)
    (by
      intro pre x y post he _ t X hX
      obtain ⟨-, -, rfl⟩ := hsplit pre x y post he
      obtain ⟨_, _, _, _, hc, -⟩ := hX
      simp at hc)
    (by
      rw [show (demoS.loc 0 0).value = orig from rfl, show demoS.mgr.now = 0 from rfl, hlen]
      rintro τ h0 h1 - ⟨ε, he, hx⟩
      have hm : 0 < min (ε / 2) ((1 / 2 - τ) / 2) := lt_min (by linarith) (by linarith)
      have := min_le_left (ε / 2) ((1 / 2 - τ) / 2)
      have := min_le_right (ε / 2) ((1 / 2 - τ) / 2)
      exact hx (τ + min (ε / 2) ((1 / 2 - τ) / 2)) (by linarith) (by linarith) (by linarith) (by linarith) (by linarith) (demo_inside _ (by linarith) (by linarith)))
    (by simp [demoS, demo0, init, Queued.St.init])
    [.fire 0, .advance (1 / 4)] [.advance (3 / 8)] (by simp [Op.Foreign]) (demoAt (1 / 4)) (demoAt (3 / 8))
    (by rw [demo_start]; exact (demo_run _ (by norm_num)).symm) (demo_advance _ _ (by norm_num)).symm (by show (1 / 4 : ℝ) < 3 / 8; norm_num)
    (by show (0 : ℝ) < 1 / 4; norm_num)
    (by
      rw [show (demoS.loc 0 0).value = orig from rfl, hlen, show (demoAt (1 / 4)).mgr.now = 1 / 4 from rfl, show demoS.mgr.now = 0 from rfl]; norm_num)
    (by
      intro pre post he hne
      rw [show (demoAt (1 / 4)).mgr.now = 1 / 4 from rfl, show demoS.mgr.now = 0 from rfl, show (demoS.loc 0 0).value = orig from rfl]
      rintro ⟨hc, -⟩
      have hp : pre = [half] := by
        match pre, he with
        | [], _ => exact absurd rfl hne
        | [x], he => simp at he; rw [he.1]
        | _ :: _ :: _, he => simp at he
      rw [hp, hlen] at hc
      norm_num at hc)
  obtain ⟨X, new, h1, h2, h3⟩ := h
  refine ⟨X, new, h1, h2, ?_⟩
  rw [show (demoAt (1 / 4)).mgr.now = 1 / 4 from rfl] at h3
  exact h3.trans (by simp [demoS, demo0, init, Queued.St.init])

end Verif.Drive
