import Verif.Patrol.Limits
import Verif.Globe.Motion
import Verif.Locs.Props
import Verif.Analytic.Props

/-! # C76 on the spherical earth -/

namespace Verif.Patrol

open Verif.Stepped (Obj Aware)
open Verif.Path (At pathLen geodetic Geo)
open Verif.Globe (arcLen OffPole spherical LL R)
open Verif.Locs (straightLine)

/-- The place on the way from `p` along `ws` after the length `s` over ground: on the great circles, and climbing in proportion. -/
def On (k : ℝ) (p : Geo) (ws : List Geo) (s : ℝ) (X : Geo) : Prop :=
  At (arcLen k) p.ll (ws.map Geo.ll) s X.ll ∧
    ∃ pre w post, ws = pre ++ w :: post ∧ pathLen (arcLen k) p.ll (pre.map Geo.ll) ≤ s ∧ s ≤ pathLen (arcLen k) p.ll ((pre ++ [w]).map Geo.ll) ∧
      (X.alt - (pre.getLastD p).alt) * arcLen k (pre.getLastD p).ll w.ll = (w.alt - (pre.getLastD p).alt) * (s - pathLen (arcLen k) p.ll (pre.map Geo.ll))

/-- **C76, where the actor is on the spherical earth (the part that holds).** An actor with one geodetic location state is set in motion along waypoints, off the
poles and in degrees, and not stopped. At any later check that ends well, before the way is at its end and not within `10⁻⁴` time units after a waypoint: a sensor,
wherever it is at that time, has said last that the actor is in range exactly when the actor is detectable and the straight line through space to the
place reached at the commanded speed is not longer than the radius. Missing: as in `c76_position_partial` and `c18_spherical_partial`. -/
theorem c76_position_spherical_partial (k m : ℝ) (hk : 0 < k) (c : Cfg Geo) (hc : c.kind = geodetic (spherical k)) (hline : c.line = straightLine k m)
    (t0 : Rat) (det : Obj → Bool) (radius : Obj → ℝ) (val : Obj → Nat → Geo) (os₁ os₂ : List (Op Geo)) (w₁ w : World Geo)
    (hw₁ : w₁ = run c (init t0 det radius val) os₁) (s a : Obj) (hsa : s ≠ a) (l n : Nat) (hcopy : c.copy a = false) (hl' : c.states s = [l]) (hn : c.states a = [n])
    (v : ℝ) (hv : 0 < v) (ws : List Geo) (hok : (step c w₁ (.activate a n v ws)).2 = .path .done)
    (hdeg : ∀ x ∈ (w₁.loc a n).value :: ws, x.rad = false ∧ OffPole x.ll) (hno : Op.deactivate a n ∉ os₂)
    (hw : w = run c (step c w₁ (.activate a n v ws)).1 os₂) (hs : s ∈ w.mgr.sensors) (e : ℝ) (he : e = (w.mgr.now : ℝ) - (w₁.mgr.now : ℝ)) (hpos : 0 < e)
    (hend : v * e ≤ pathLen (arcLen k) (w₁.loc a n).value.ll (ws.map Geo.ll))
    (hclear : ∀ pre post, ws = pre ++ post → pre ≠ [] →
      ¬ (pathLen (arcLen k) (w₁.loc a n).value.ll (pre.map Geo.ll) / v < e ∧ e ≤ pathLen (arcLen k) (w₁.loc a n).value.ll (pre.map Geo.ll) / v + 1 / 10 ^ 4))
    (empty : Bool) (hchk : (step c w (.timer empty)).2 = .mgr .ok) :
    ∃ X, (step c w (.read a n)).2 = .path (.loc X) ∧ On k (w₁.loc a n).value ws (v * e) X ∧
      (Aware (step c w (.timer empty)).1.mgr.log s a ↔ w.mgr.det a = true ∧ ∃ Y, (step c w (.read s l)).2 = .path (.loc Y) ∧
        dist ((R + Y.alt * m) • Globe.place Y.ll) ((R + X.alt * m) • Globe.place X.ll) ≤ w.radius s * k) := by
  obtain ⟨hS, hd, hsp, hl, hnow, po, hpo, hloc⟩ := watched c t0 det radius val os₁ os₂ w₁ w hw₁ a n hcopy hn v ws hok hno hw
  have hey : w.eyes s = l := by simpa [hl'] using hS.eyes s hs
  have hw' : w = run c (init t0 det radius val) (os₁ ++ .activate a n v ws :: os₂) := by rw [run_append, ← hw₁]; exact hw
  have key := c76_checked c t0 det radius val _ w hw' empty hchk s a hs hd hsa
  rw [hey, hsp] at key
  rw [hc] at hloc
  have hclk : (Path.under (geodetic (spherical k)) (w₁.loc a n) v ws po).now - (w₁.loc a n).now = e := by
    rw [← hloc, hS.clock a n hcopy, hnow, he]
  obtain ⟨X, hX, hat, halt⟩ := Globe.c18_spherical_partial k hk (w₁.loc a n) hl v hv ws (hdeg _ (by simp)).1 (fun x h => (hdeg x (by simp [h])).1)
    (hdeg _ (by simp)).2 (fun x h => (hdeg x (by simp [h])).2) po hpo e hclk.symm hpos hend hclear
  have hX' : (step c w (.read a n)).2 = .path (.loc X) := by
    simp only [step, Op.uses, hn, List.mem_singleton, if_true, act, plain, hc, hloc]
    rw [hX]
  refine ⟨X, hX', ⟨hat, halt⟩, ?_⟩
  rw [key]
  refine and_congr_right fun _ => ?_
  have hd' : ∀ Y, c.line Y X ≤ w.radius s ↔ dist ((R + Y.alt * m) • Globe.place Y.ll) ((R + X.alt * m) • Globe.place X.ll) ≤ w.radius s * k := fun Y => by
    rw [hline, Locs.straight_dist, div_le_iff₀ hk]
  constructor
  · rintro ⟨Y, X', hY, hX2, hle⟩
    rw [hX'] at hX2
    cases hX2
    exact ⟨Y, hY, (hd' Y).1 hle⟩
  · rintro ⟨Y, hY, hle⟩
    exact ⟨Y, X, hY, hX', (hd' Y).2 hle⟩

/-- **C76, noticed within a timestep on the spherical earth (the part that holds).** If an actor in motion is detectable and within the radius of a sensor from a time `u` on
for one timestep, the sensor is told so within that timestep or has been told before; if it is out of range all that time, the sensor is told that, if it was told
otherwise. No waypoint may be reached in that time or the `10⁻⁴` time units before it. Missing: as in `c76_position_spherical_partial`. -/
theorem c76_noticed_spherical_partial (k m : ℝ) (hk : 0 < k) (c : Cfg Geo) (hc : c.kind = geodetic (spherical k)) (hline : c.line = straightLine k m)
    (t0 : Rat) (det : Obj → Bool) (radius : Obj → ℝ) (val : Obj → Nat → Geo) (os₁ os₂ : List (Op Geo)) (w₁ w : World Geo)
    (hw₁ : w₁ = run c (init t0 det radius val) os₁) (s a : Obj) (hsa : s ≠ a) (l n : Nat) (hcopy : c.copy a = false) (hl' : c.states s = [l]) (hn : c.states a = [n])
    (hs : s ∈ w₁.mgr.sensors) (v : ℝ) (hv : 0 < v) (ws : List Geo) (hok : (step c w₁ (.activate a n v ws)).2 = .path .done)
    (hdeg : ∀ x ∈ (w₁.loc a n).value :: ws, x.rad = false ∧ OffPole x.ll) (hno : Op.deactivate a n ∉ os₂)
    (hw : w = run c (step c w₁ (.activate a n v ws)).1 os₂) (hlive : w.mgr.loops ≠ []) (u : Rat) (hu : w₁.mgr.now < u) (hend : u + c.mgr.timestep < w.mgr.now)
    (hway : v * (((u + c.mgr.timestep : Rat) : ℝ) - (w₁.mgr.now : ℝ)) ≤ pathLen (arcLen k) (w₁.loc a n).value.ll (ws.map Geo.ll))
    (hclear : ∀ pre post, ws = pre ++ post → pre ≠ [] →
      ¬ ((u : ℝ) - 1 / 10 ^ 4 ≤ w₁.mgr.now + pathLen (arcLen k) (w₁.loc a n).value.ll (pre.map Geo.ll) / v ∧
        (w₁.mgr.now : ℝ) + pathLen (arcLen k) (w₁.loc a n).value.ll (pre.map Geo.ll) / v < ((u + c.mgr.timestep : Rat) : ℝ))) :
    ∃ pre e post x, os₂ = pre ++ .timer e :: post ∧ x = run c (step c w₁ (.activate a n v ws)).1 pre ∧ u ≤ x.mgr.now ∧ x.mgr.now ≤ u + c.mgr.timestep ∧
      ((∀ pre' post' y, os₂ = pre' ++ post' → y = run c (step c w₁ (.activate a n v ws)).1 pre' → u ≤ y.mgr.now → y.mgr.now ≤ u + c.mgr.timestep →
          y.mgr.det a = true ∧ ∃ Y, (step c y (.read s l)).2 = .path (.loc Y) ∧
            ∀ X, On k (w₁.loc a n).value ws (v * ((y.mgr.now : ℝ) - (w₁.mgr.now : ℝ))) X →
              dist ((R + Y.alt * m) • Globe.place Y.ll) ((R + X.alt * m) • Globe.place X.ll) ≤ y.radius s * k) →
        Aware (step c x (.timer e)).1.mgr.log s a) ∧
      ((∀ pre' post' y, os₂ = pre' ++ post' → y = run c (step c w₁ (.activate a n v ws)).1 pre' → u ≤ y.mgr.now → y.mgr.now ≤ u + c.mgr.timestep →
          ∀ Y X, (step c y (.read s l)).2 = .path (.loc Y) → On k (w₁.loc a n).value ws (v * ((y.mgr.now : ℝ) - (w₁.mgr.now : ℝ))) X →
            y.radius s * k < dist ((R + Y.alt * m) • Globe.place Y.ll) ((R + X.alt * m) • Globe.place X.ll)) →
        ¬ Aware (step c x (.timer e)).1.mgr.log s a) := by
  obtain ⟨pre, e, post, h1, h2, h3, h4⟩ := c76_delay c t0 det radius val os₁ os₂ w₁ w hw₁ a n hcopy v ws hok hw hlive u hu.le hend
  obtain ⟨hS, -, -⟩ := run_does c os₁ _ (Sound.init c t0 det radius val) a n
  rw [← hw₁] at hS
  obtain ⟨-, -, hmgr, -⟩ := activate_done c w₁ a n v ws hcopy hok
  have hS' := (step_does c w₁ hS (.activate a n v ws) a n).sound
  refine ⟨pre, e, post, _, h1, rfl, h2, h3, ?_⟩
  generalize hx : run c (step c w₁ (.activate a n v ws)).1 pre = x at h2 h3 h4
  have hsx : s ∈ x.mgr.sensors := by
    obtain ⟨-, ⟨mo, -, e1⟩, -⟩ := run_does c pre _ hS' a n
    rw [← hx, e1]
    refine (Stepped.keeps_exec c.mgr mo _ hS'.inv.toInvA).1 s ?_
    rw [hmgr]
    exact (Stepped.keeps c.mgr w₁.mgr _ hS.inv.toInvA).1 s hs
  have h2' : (u : ℝ) ≤ (x.mgr.now : ℝ) := by exact_mod_cast h2
  have h3' : (x.mgr.now : ℝ) ≤ ((u + c.mgr.timestep : Rat) : ℝ) := by exact_mod_cast h3
  have hu' : (w₁.mgr.now : ℝ) < (u : ℝ) := by exact_mod_cast hu
  have hle : v * ((x.mgr.now : ℝ) - (w₁.mgr.now : ℝ)) ≤ v * (((u + c.mgr.timestep : Rat) : ℝ) - (w₁.mgr.now : ℝ)) :=
    mul_le_mul_of_nonneg_left (by linarith) hv.le
  obtain ⟨X, -, hon, hiff⟩ := c76_position_spherical_partial k m hk c hc hline t0 det radius val os₁ pre w₁ x hw₁ s a hsa l n hcopy hl' hn v hv ws hok hdeg
    (fun hc => hno (by rw [h1]; simp [hc])) hx.symm hsx _ rfl (by linarith) (hle.trans hway)
    (fun p q hpq hp hin => hclear p q hpq hp ⟨by linarith [hin.2], by linarith [hin.1]⟩) e h4
  constructor
  · intro hall
    obtain ⟨hd, Y, hY, hin⟩ := hall pre _ x h1 hx.symm h2 h3
    exact hiff.2 ⟨hd, Y, hY, hin X hon⟩
  · intro hall haw
    obtain ⟨-, Y, hY, hle'⟩ := hiff.1 haw
    exact absurd hle' (not_le.2 (hall pre _ x h1 hx.symm h2 h3 Y X hY hon))

/-! ## An actor to which the theorems apply

Sensor 0 stands at latitude 0, longitude 0 and sees 5 km far. Actor 1 sets out from there towards longitude 90 at 1 km per time unit. The manager checks every 2 time units. -/

noncomputable def here : Geo := ⟨0, 0, 0, false⟩
noncomputable def east : Geo := ⟨0, 90, 0, false⟩

noncomputable def globeC : Cfg Geo := ⟨geodetic (spherical 1), straightLine 1 1, ⟨2, 5⟩, fun _ => [0], fun _ => false⟩

noncomputable def globe1 : World Geo := run globeC (init 0 (fun _ => true) (fun _ => 5) fun _ _ => here) [.addSensor 0 0]

theorem globe_mgr1 : globe1.mgr = { Stepped.St.init (fun _ => true) 0 with sensors := [0] } ∧ globe1.loc = (init 0 (fun _ => true) (fun _ => 5) fun _ _ => here).loc ∧
    globe1.radius = fun _ => 5 := by
  refine ⟨?_, ?_, ?_⟩ <;> simp [globe1, run, step, Op.uses, act, globeC, ask, Stepped.step, Stepped.addKey, init, Stepped.St.init]

theorem globe_loc1 (a : Obj) (n : Nat) : globe1.loc a n = ⟨0, here, none, false⟩ := by rw [globe_mgr1.2.1]; simp [init]

theorem globe_go : (step globeC globe1 (.activate 1 0 1 [east])).2 = .path .done := by
  have h := (Path.activate_moving globeC.kind (globe1.loc 1 0) (by rw [globe_loc1]) 1 one_pos [east]).2.1
  have hn : (0 : Nat) ∈ globeC.states 1 := by simp [globeC]
  simp only [step, Op.uses, if_pos hn, act, activate]
  rcases hp : Path.step globeC.kind (globe1.loc 1 0) (.activate 1 [east]) with ⟨τ, o⟩
  rw [hp] at h
  dsimp only at h
  subst h
  dsimp only
  split <;> rfl

noncomputable def globe2 : World Geo := run globeC (step globeC globe1 (.activate 1 0 1 [east])).1 [.beginRun, .advance 2]

theorem globe_mgr2 : globe2.mgr = { Stepped.St.init (fun _ => true) 2 with sensors := [0], detectables := [1], isRunning := true, loops := [(2, 0)] } ∧
    globe2.radius 0 = 5 := by
  have hn : (0 : Nat) ∈ globeC.states 1 := by simp [globeC]
  have hm := (activate_done globeC globe1 1 0 1 [east] rfl globe_go).2.2.1
  have h0 : (step globeC globe1 (.activate 1 0 1 [east])).1.mgr = { Stepped.St.init (fun _ => true) 0 with sensors := [0], detectables := [1], pending := 1 } := by
    rw [hm, globe_mgr1.1]
    simp [Stepped.step, Stepped.addMover, Stepped.St.init, Stepped.addKey]
  have hr : (step globeC globe1 (.activate 1 0 1 [east])).1.radius 0 = 5 := by
    simp only [step, Op.uses, if_pos hn, act, activate]
    split
    · split
      · simp [setLoc, globe_mgr1.2.2]
      · simp [setLoc, globe_mgr1.2.2]
    · simp [setLoc, globe_mgr1.2.2]
  have h1 : (step globeC (step globeC globe1 (.activate 1 0 1 [east])).1 .beginRun).1.mgr =
      { Stepped.St.init (fun _ => true) 0 with sensors := [0], detectables := [1], isRunning := true, loops := [(2, 0)] } := by
    show (Stepped.step globeC.mgr (step globeC globe1 (.activate 1 0 1 [east])).1.mgr .beginRun).1 = _
    rw [h0]
    norm_num [Stepped.step, Stepped.St.init, globeC]
  have hr1 : (step globeC (step globeC globe1 (.activate 1 0 1 [east])).1 .beginRun).1.radius 0 = 5 := hr
  simp only [globe2, run]
  generalize (step globeC (step globeC globe1 (.activate 1 0 1 [east])).1 .beginRun).1 = w at h1 hr1
  constructor
  · simp [step, Op.uses, act, Stepped.step, h1, Stepped.St.init]
  · simpa [step, Op.uses, act, Stepped.step, h1, Stepped.St.init] using hr1

theorem globe_stands : (step globeC globe2 (.read 0 0)).2 = .path (.loc here) := by
  have hS : Sound globeC globe1 := (run_does globeC [.addSensor 0 0] _ (Sound.init globeC 0 (fun _ => true) (fun _ => 5) fun _ _ => here) 0 0).1
  have := rests_run globeC [.activate 1 0 1 [east], .beginRun, .advance 2] globe1 hS 0 0 here (by rw [globe_loc1]; exact ⟨rfl, rfl⟩) (by simp)
  have hn : (0 : Nat) ∈ globeC.states 0 := by simp [globeC]
  show (step globeC (run globeC globe1 [.activate 1 0 1 [east], .beginRun, .advance 2]) (.read 0 0)).2 = _
  simp only [step, Op.uses, if_pos hn, act, plain, Path.step, rests_read this]

theorem globe_len : pathLen (arcLen 1) (globe1.loc 1 0).value.ll ([east].map Geo.ll) = R * (Real.pi / 2) := by
  rw [globe_loc1]
  simp only [List.map_cons, List.map_nil, pathLen, add_zero, here, east, Geo.ll, Bool.false_eq_true, if_false]
  rw [Analytic.east_len 0 90 (by norm_num) (by norm_num)]
  ring

theorem globe_far : (3 : ℝ) < R * (Real.pi / 2) := by
  have := Real.two_le_pi
  have : (3 : ℝ) < R := by norm_num [R]
  nlinarith

theorem globe_deg : ∀ x ∈ (globe1.loc 1 0).value :: [east], x.rad = false ∧ OffPole x.ll := by
  rw [globe_loc1]
  simp [here, east, OffPole, Geo.ll]

theorem globe_clear (e : ℝ) (he : e ≤ 3) : ∀ pre post, [east] = pre ++ post → pre ≠ [] →
    ¬ (pathLen (arcLen 1) (globe1.loc 1 0).value.ll (pre.map Geo.ll) / 1 < e ∧ e ≤ pathLen (arcLen 1) (globe1.loc 1 0).value.ll (pre.map Geo.ll) / 1 + 1 / 10 ^ 4) := by
  intro pre post h hne
  match pre, h, hne with
  | [a], h, _ =>
    simp only [List.singleton_append, List.cons.injEq] at h
    rw [← h.1, globe_len, div_one]
    intro hc; linarith [hc.1, globe_far]

theorem globe_now : (globe2.mgr.now : ℝ) = 2 ∧ (globe1.mgr.now : ℝ) = 0 :=
  ⟨by rw [globe_mgr2.1]; simp [Stepped.St.init], by rw [globe_mgr1.1]; simp [Stepped.St.init]⟩

theorem globe_check : (step globeC globe2 (.timer false)).2 = .mgr .ok := by
  have hm := globe_mgr2.1
  obtain ⟨hS, hd, hsp, hl, hnow, po, hpo, hloc⟩ := watched globeC 0 (fun _ => true) (fun _ => 5) (fun _ _ => here) [.addSensor 0 0] [.beginRun, .advance 2] globe1 globe2 rfl 1 0
    rfl rfl 1 [east] globe_go (by simp) rfl
  refine c76_check_ends_well globeC 0 (fun _ => true) (fun _ => 5) (fun _ _ => here) ([.addSensor 0 0] ++ .activate 1 0 1 [east] :: [.beginRun, .advance 2]) globe2
    (by rw [run_append]; rfl) 0 [] (by rw [hm]; rfl) ?_ ?_ false
  · intro s hs
    have hs0 : s = 0 := by rw [hm] at hs; simpa using hs
    subst hs0
    have he : globe2.eyes 0 = 0 := by simpa [globeC] using hS.eyes 0 hs
    exact ⟨here, by rw [he]; exact globe_stands⟩
  · intro a ha hdet
    have ha1 : a = 1 := by rw [hm] at ha; simpa using ha
    subst ha1
    have hclk : (Path.under (geodetic (spherical 1)) (globe1.loc 1 0) 1 [east] po).now - (globe1.loc 1 0).now = 2 := by
      have := hS.clock 1 0 rfl
      rw [hloc, globe_now.1] at this
      rw [show Path.under (geodetic (spherical 1)) (globe1.loc 1 0) 1 [east] po = Path.under globeC.kind (globe1.loc 1 0) 1 [east] po from rfl, this, globe_loc1]
      norm_num
    obtain ⟨X, hX, -⟩ := Globe.c18_spherical_partial 1 one_pos (globe1.loc 1 0) hl 1 one_pos [east] (globe_deg _ (by simp)).1 (fun x h => (globe_deg x (by simp [h])).1)
      (globe_deg _ (by simp)).2 (fun x h => (globe_deg x (by simp [h])).2) po hpo 2 hclk.symm (by norm_num) (by rw [globe_len]; linarith [globe_far]) (globe_clear 2 (by norm_num))
    refine ⟨X, ?_⟩
    rw [hsp]
    have hn : (0 : Nat) ∈ globeC.states 1 := by simp [globeC]
    simp only [step, Op.uses, if_pos hn, act, plain, hloc]
    rw [show Path.step globeC.kind (Path.under globeC.kind (globe1.loc 1 0) 1 [east] po) .read = Path.step (geodetic (spherical 1)) (Path.under (geodetic (spherical 1)) (globe1.loc 1 0) 1 [east] po) .read from rfl, hX]

/-- A place on the way is as far away over ground as the way gone, and at height zero. -/
theorem globe_on (s : ℝ) (X : Geo) (h : On 1 here [east] s X) : arcLen 1 here.ll X.ll = s ∧ X.alt = 0 := by
  obtain ⟨⟨pre, w, post, a, h0, h1, -, -, h2, -⟩, pre', w', post', g0, -, -, g⟩ := h
  constructor
  · cases pre with
    | nil =>
      simp only [List.getLastD_nil] at h1
      subst h1
      simpa [pathLen] using h2
    | cons y ys => simp at h0
  · cases pre' with
    | nil =>
      simp only [List.nil_append, List.cons.injEq] at g0
      rw [← g0.1] at g
      have hl : arcLen 1 here.ll east.ll = R * (Real.pi / 2) := by
        have := globe_len
        rw [globe_loc1] at this
        simpa [pathLen] using this
      simp only [List.getLastD_nil, hl] at g
      simp only [here, east, sub_zero, zero_mul] at g
      have := globe_far
      rcases mul_eq_zero.1 g with g | g
      · exact g
      · linarith
    | cons y ys => simp at g0

/-- At the check the actor is 2 km away, and the sensor is told. -/
example : Aware (step globeC globe2 (.timer false)).1.mgr.log 0 1 := by
  have hm := globe_mgr2.1
  have := c76_position_spherical_partial 1 1 one_pos globeC rfl rfl 0 (fun _ => true) (fun _ => 5) (fun _ _ => here) [.addSensor 0 0] [.beginRun, .advance 2] globe1 globe2 rfl 0 1 (by decide) 0 0
    rfl rfl rfl 1 one_pos [east] globe_go globe_deg (by simp) rfl (by rw [hm]; simp) 2 (by rw [globe_now.1, globe_now.2]; norm_num) (by norm_num)
    (by rw [globe_len]; linarith [globe_far]) (globe_clear 2 (by norm_num)) false globe_check
  obtain ⟨X, -, hX, hiff⟩ := this
  rw [globe_loc1] at hX
  obtain ⟨e1, e2⟩ := globe_on _ X hX
  refine hiff.2 ⟨by rw [hm]; rfl, here, globe_stands, ?_⟩
  have hle := (Locs.c64_straight_line 1 1 one_pos here X X).2.2.2.2 rfl e2
  rw [Locs.straight_dist, div_one, e1] at hle
  rw [globe_mgr2.2]
  linarith

end Verif.Patrol
