import Verif.Patrol.Spherical
import Verif.Locs.Wgs84

/-! # C76 on the WGS84 ellipsoid -/

namespace Verif.Patrol

open Verif.Stepped (Obj Aware)
open Verif.Path (pathLen geodetic Geo)
open Verif.Globe (LL)
open Verif.Geod (wgs84 Lat ground Towards distBearing)
open Verif.Locs (straightLine84 space)

/-- The place on the way from `p` along `ws` after the length `s` over ground, at the speed `v`: to within fourteen metres on the straight line of the ellipsoid
that leads from the waypoint before to the next one, and climbing in proportion. -/
def On84 (k v : ℝ) (p : Geo) (ws : List Geo) (s : ℝ) (X : Geo) : Prop :=
  ∃ pre w post s', ws = pre ++ w :: post ∧ s' = s - pathLen (wgs84 k).dist p.ll (pre.map Geo.ll) ∧ 0 < s' ∧ s' ≤ (wgs84 k).dist (pre.getLastD p).ll w.ll + v / 10 ^ 4 ∧
    Lat X.ll ∧ Towards (ground (pre.getLastD p).ll) (ground w.ll) ((wgs84 k).dist (pre.getLastD p).ll w.ll * k) (s' * k) (ground X.ll) (14.0001 + 5e-11 * (s' * k)) ∧
    (X.alt - (pre.getLastD p).alt) * (wgs84 k).dist (pre.getLastD p).ll w.ll = (w.alt - (pre.getLastD p).alt) * s'

/-- The way has a length: each leg has a distance, and the first one does not end where it begins. -/
def Measured (k : ℝ) (p : Geo) (ws : List Geo) : Prop :=
  (∀ x ∈ p :: ws, x.rad = false ∧ Lat x.ll) ∧ (∀ pre w post, ws = pre ++ w :: post → ∃ d β, distBearing k 1e-12 200 (pre.getLastD p).ll w.ll = .ok (d, β)) ∧
    ∃ w ws', ws = w :: ws' ∧ 0 < (wgs84 k).dist p.ll w.ll

/-- **C76, where the actor is on the WGS84 ellipsoid (the part that holds).** An actor with one geodetic location state is set in motion along waypoints in degrees,
for legs that have a distance, and not stopped. At any later check that ends well, before the way is at its end: a sensor, wherever it is at that time, has said
last that the actor is in range exactly when the actor is detectable and the straight line through space to where it is, within fourteen metres of the place
reached at the commanded speed, is not longer than the radius. Missing: as in `c76_position_partial` and `c18_wgs84_partial`. -/
theorem c76_position_wgs84_partial (k m : ℝ) (hk : 0 < k) (c : Cfg Geo) (hc : c.kind = geodetic (wgs84 k)) (hline : c.line = straightLine84 k m)
    (t0 : Rat) (det : Obj → Bool) (radius : Obj → ℝ) (val : Obj → Nat → Geo) (os₁ os₂ : List (Op Geo)) (w₁ w : World Geo)
    (hw₁ : w₁ = run c (init t0 det radius val) os₁) (s a : Obj) (hsa : s ≠ a) (l n : Nat) (hcopy : c.copy a = false) (hl' : c.states s = [l]) (hn : c.states a = [n])
    (v : ℝ) (hv : 0 < v) (ws : List Geo) (hok : (step c w₁ (.activate a n v ws)).2 = .path .done)
    (hway : Measured k (w₁.loc a n).value ws) (hno : Op.deactivate a n ∉ os₂)
    (hw : w = run c (step c w₁ (.activate a n v ws)).1 os₂) (hs : s ∈ w.mgr.sensors) (e : ℝ) (he : e = (w.mgr.now : ℝ) - (w₁.mgr.now : ℝ)) (hpos : 0 < e)
    (hend : v * e ≤ pathLen (wgs84 k).dist (w₁.loc a n).value.ll (ws.map Geo.ll)) (empty : Bool) (hchk : (step c w (.timer empty)).2 = .mgr .ok) :
    ∃ X, (step c w (.read a n)).2 = .path (.loc X) ∧ On84 k v (w₁.loc a n).value ws (v * e) X ∧
      (Aware (step c w (.timer empty)).1.mgr.log s a ↔ w.mgr.det a = true ∧ ∃ Y, (step c w (.read s l)).2 = .path (.loc Y) ∧
        dist (space m Y) (space m X) ≤ w.radius s * k) := by
  obtain ⟨hS, hd, hsp, hl, hnow, po, hpo, hloc⟩ := watched c t0 det radius val os₁ os₂ w₁ w hw₁ a n hcopy hn v ws hok hno hw
  have hey : w.eyes s = l := by simpa [hl'] using hS.eyes s hs
  have hw' : w = run c (init t0 det radius val) (os₁ ++ .activate a n v ws :: os₂) := by rw [run_append, ← hw₁]; exact hw
  have key := c76_checked c t0 det radius val _ w hw' empty hchk s a hs hd hsa
  rw [hey, hsp] at key
  rw [hc] at hloc
  have hclk : (Path.under (geodetic (wgs84 k)) (w₁.loc a n) v ws po).now - (w₁.loc a n).now = e := by
    rw [← hloc, hS.clock a n hcopy, hnow, he]
  obtain ⟨hdeg, hans, x, ws', rfl, hfirst⟩ := hway
  obtain ⟨X, pre, y, post, s', hX, g⟩ := Geod.c18_wgs84_partial hk (w₁.loc a n) hl v hv x ws' (hdeg _ (by simp)).1 (fun x h => (hdeg x (List.mem_cons_of_mem _ h)).1)
    (hdeg _ (by simp)).2 (fun x h => (hdeg x (List.mem_cons_of_mem _ h)).2) hans hfirst po hpo e hclk.symm hpos hend
  have hX' : (step c w (.read a n)).2 = .path (.loc X) := by
    simp only [step, Op.uses, hn, List.mem_singleton, if_true, act, plain, hc, hloc]
    rw [hX]
  refine ⟨X, hX', ⟨pre, y, post, s', g⟩, ?_⟩
  rw [key]
  refine and_congr_right fun _ => ?_
  have hd' : ∀ Y, c.line Y X ≤ w.radius s ↔ dist (space m Y) (space m X) ≤ w.radius s * k := fun Y => by
    rw [hline, Locs.straight84_dist, div_le_iff₀ hk]
  constructor
  · rintro ⟨Y, X', hY, hX2, hle⟩
    rw [hX'] at hX2
    cases hX2
    exact ⟨Y, hY, (hd' Y).1 hle⟩
  · rintro ⟨Y, hY, hle⟩
    exact ⟨Y, X, hY, hX', (hd' Y).2 hle⟩

/-- **C76, noticed within a timestep on the WGS84 ellipsoid (the part that holds).** If an actor in motion is detectable and, wherever within fourteen metres of its way it is,
within the radius of a sensor from a time `u` on for one timestep, the sensor is told so within that timestep or has been told before; if it is out of range all that
time, the sensor is told that, if it was told otherwise. Missing: as in `c76_position_wgs84_partial`. -/
theorem c76_noticed_wgs84_partial (k m : ℝ) (hk : 0 < k) (c : Cfg Geo) (hc : c.kind = geodetic (wgs84 k)) (hline : c.line = straightLine84 k m)
    (t0 : Rat) (det : Obj → Bool) (radius : Obj → ℝ) (val : Obj → Nat → Geo) (os₁ os₂ : List (Op Geo)) (w₁ w : World Geo)
    (hw₁ : w₁ = run c (init t0 det radius val) os₁) (s a : Obj) (hsa : s ≠ a) (l n : Nat) (hcopy : c.copy a = false) (hl' : c.states s = [l]) (hn : c.states a = [n])
    (hs : s ∈ w₁.mgr.sensors) (v : ℝ) (hv : 0 < v) (ws : List Geo) (hok : (step c w₁ (.activate a n v ws)).2 = .path .done)
    (hmeas : Measured k (w₁.loc a n).value ws) (hno : Op.deactivate a n ∉ os₂)
    (hw : w = run c (step c w₁ (.activate a n v ws)).1 os₂) (hlive : w.mgr.loops ≠ []) (u : Rat) (hu : w₁.mgr.now < u) (hend : u + c.mgr.timestep < w.mgr.now)
    (hway : v * (((u + c.mgr.timestep : Rat) : ℝ) - (w₁.mgr.now : ℝ)) ≤ pathLen (wgs84 k).dist (w₁.loc a n).value.ll (ws.map Geo.ll)) :
    ∃ pre e post x, os₂ = pre ++ .timer e :: post ∧ x = run c (step c w₁ (.activate a n v ws)).1 pre ∧ u ≤ x.mgr.now ∧ x.mgr.now ≤ u + c.mgr.timestep ∧
      ((∀ pre' post' y, os₂ = pre' ++ post' → y = run c (step c w₁ (.activate a n v ws)).1 pre' → u ≤ y.mgr.now → y.mgr.now ≤ u + c.mgr.timestep →
          y.mgr.det a = true ∧ ∃ Y, (step c y (.read s l)).2 = .path (.loc Y) ∧
            ∀ X, On84 k v (w₁.loc a n).value ws (v * ((y.mgr.now : ℝ) - (w₁.mgr.now : ℝ))) X → dist (space m Y) (space m X) ≤ y.radius s * k) →
        Aware (step c x (.timer e)).1.mgr.log s a) ∧
      ((∀ pre' post' y, os₂ = pre' ++ post' → y = run c (step c w₁ (.activate a n v ws)).1 pre' → u ≤ y.mgr.now → y.mgr.now ≤ u + c.mgr.timestep →
          ∀ Y X, (step c y (.read s l)).2 = .path (.loc Y) → On84 k v (w₁.loc a n).value ws (v * ((y.mgr.now : ℝ) - (w₁.mgr.now : ℝ))) X →
            y.radius s * k < dist (space m Y) (space m X)) →
        ¬ Aware (step c x (.timer e)).1.mgr.log s a) := by
  obtain ⟨pre, e, post, h1, h2, h3, h4⟩ := c76_delay c t0 det radius val os₁ os₂ w₁ w hw₁ a n hcopy v ws hok hw hlive u hu.le hend
  obtain ⟨hS, -, -⟩ := run_does c os₁ _ (Sound.init c t0 det radius val) a n
  rw [← hw₁] at hS
  obtain ⟨-, -, hmgr, -⟩ := activate_done c w₁ a n v ws hcopy hok
  have hS' := (step_does c w₁ hS (.activate a n v ws) a n).sound
  refine ⟨pre, e, post, _, h1, rfl, h2, h3, ?_⟩
  generalize hx : run c (step c w₁ (.activate a n v ws)).1 pre = x at h2 h3 h4
  have hsx : s ∈ x.mgr.sensors := by
    obtain ⟨-, ⟨mo, -, e1⟩, -⟩ := run_does c pre _ hS' a n
    rw [← hx, e1]
    refine (Stepped.keeps_exec c.mgr mo _ hS'.inv.toInvA).1 s ?_
    rw [hmgr]
    exact (Stepped.keeps c.mgr w₁.mgr _ hS.inv.toInvA).1 s hs
  have h2' : (u : ℝ) ≤ (x.mgr.now : ℝ) := by exact_mod_cast h2
  have h3' : (x.mgr.now : ℝ) ≤ ((u + c.mgr.timestep : Rat) : ℝ) := by exact_mod_cast h3
  have hu' : (w₁.mgr.now : ℝ) < (u : ℝ) := by exact_mod_cast hu
  have hle : v * ((x.mgr.now : ℝ) - (w₁.mgr.now : ℝ)) ≤ v * (((u + c.mgr.timestep : Rat) : ℝ) - (w₁.mgr.now : ℝ)) :=
    mul_le_mul_of_nonneg_left (by linarith) hv.le
  obtain ⟨X, -, hon, hiff⟩ := c76_position_wgs84_partial k m hk c hc hline t0 det radius val os₁ pre w₁ x hw₁ s a hsa l n hcopy hl' hn v hv ws hok hmeas
    (fun hc => hno (by rw [h1]; simp [hc])) hx.symm hsx _ rfl (by linarith) (hle.trans hway) e h4
  constructor
  · intro hall
    obtain ⟨hd, Y, hY, hin⟩ := hall pre _ x h1 hx.symm h2 h3
    exact hiff.2 ⟨hd, Y, hY, hin X hon⟩
  · intro hall haw
    obtain ⟨-, Y, hY, hle'⟩ := hiff.1 haw
    exact absurd hle' (not_le.2 (hall pre _ x h1 hx.symm h2 h3 Y X hY hon))

/-! ## An actor to which the theorems apply

Sensor 0 stands at latitude 0, longitude 0 and sees 5 km far. Actor 1 sets out from there towards 45 degrees north, 90 degrees east at 1 km per time unit. The manager checks
every 2 time units. -/

noncomputable def port : Geo := ⟨0, 0, 0, false⟩
noncomputable def isle : Geo := ⟨45, 90, 0, false⟩

noncomputable def seaC : Cfg Geo := ⟨geodetic (wgs84 1000), straightLine84 1000 1, ⟨2, 5⟩, fun _ => [0], fun _ => false⟩

noncomputable def sea1 : World Geo := run seaC (init 0 (fun _ => true) (fun _ => 5) fun _ _ => port) [.addSensor 0 0]

theorem sea_mgr1 : sea1.mgr = { Stepped.St.init (fun _ => true) 0 with sensors := [0] } ∧ sea1.loc = (init 0 (fun _ => true) (fun _ => 5) fun _ _ => port).loc ∧
    sea1.radius = fun _ => 5 := by
  refine ⟨?_, ?_, ?_⟩ <;> simp [sea1, run, step, Op.uses, act, seaC, ask, Stepped.step, Stepped.addKey, init, Stepped.St.init]

theorem sea_loc1 (a : Obj) (n : Nat) : sea1.loc a n = ⟨0, port, none, false⟩ := by rw [sea_mgr1.2.1]; simp [init]

theorem sea_go : (step seaC sea1 (.activate 1 0 1 [isle])).2 = .path .done := by
  have h := (Path.activate_moving seaC.kind (sea1.loc 1 0) (by rw [sea_loc1]) 1 one_pos [isle]).2.1
  have hn : (0 : Nat) ∈ seaC.states 1 := by simp [seaC]
  simp only [step, Op.uses, if_pos hn, act, activate]
  rcases hp : Path.step seaC.kind (sea1.loc 1 0) (.activate 1 [isle]) with ⟨τ, o⟩
  rw [hp] at h
  dsimp only at h
  subst h
  dsimp only
  split <;> rfl

noncomputable def sea2 : World Geo := run seaC (step seaC sea1 (.activate 1 0 1 [isle])).1 [.beginRun, .advance 2]

theorem sea_mgr2 : sea2.mgr = { Stepped.St.init (fun _ => true) 2 with sensors := [0], detectables := [1], isRunning := true, loops := [(2, 0)] } ∧
    sea2.radius 0 = 5 := by
  have hn : (0 : Nat) ∈ seaC.states 1 := by simp [seaC]
  have hm := (activate_done seaC sea1 1 0 1 [isle] rfl sea_go).2.2.1
  have h0 : (step seaC sea1 (.activate 1 0 1 [isle])).1.mgr = { Stepped.St.init (fun _ => true) 0 with sensors := [0], detectables := [1], pending := 1 } := by
    rw [hm, sea_mgr1.1]
    simp [Stepped.step, Stepped.addMover, Stepped.St.init, Stepped.addKey]
  have hr : (step seaC sea1 (.activate 1 0 1 [isle])).1.radius 0 = 5 := by
    simp only [step, Op.uses, if_pos hn, act, activate]
    split
    · split
      · simp [setLoc, sea_mgr1.2.2]
      · simp [setLoc, sea_mgr1.2.2]
    · simp [setLoc, sea_mgr1.2.2]
  have h1 : (step seaC (step seaC sea1 (.activate 1 0 1 [isle])).1 .beginRun).1.mgr =
      { Stepped.St.init (fun _ => true) 0 with sensors := [0], detectables := [1], isRunning := true, loops := [(2, 0)] } := by
    show (Stepped.step seaC.mgr (step seaC sea1 (.activate 1 0 1 [isle])).1.mgr .beginRun).1 = _
    rw [h0]
    norm_num [Stepped.step, Stepped.St.init, seaC]
  have hr1 : (step seaC (step seaC sea1 (.activate 1 0 1 [isle])).1 .beginRun).1.radius 0 = 5 := hr
  simp only [sea2, run]
  generalize (step seaC (step seaC sea1 (.activate 1 0 1 [isle])).1 .beginRun).1 = w at h1 hr1
  constructor
  · simp [step, Op.uses, act, Stepped.step, h1, Stepped.St.init]
  · simpa [step, Op.uses, act, Stepped.step, h1, Stepped.St.init] using hr1

theorem sea_stands : (step seaC sea2 (.read 0 0)).2 = .path (.loc port) := by
  have hS : Sound seaC sea1 := (run_does seaC [.addSensor 0 0] _ (Sound.init seaC 0 (fun _ => true) (fun _ => 5) fun _ _ => port) 0 0).1
  have := rests_run seaC [.activate 1 0 1 [isle], .beginRun, .advance 2] sea1 hS 0 0 port (by rw [sea_loc1]; exact ⟨rfl, rfl⟩) (by simp)
  have hn : (0 : Nat) ∈ seaC.states 0 := by simp [seaC]
  show (step seaC (run seaC sea1 [.activate 1 0 1 [isle], .beginRun, .advance 2]) (.read 0 0)).2 = _
  simp only [step, Op.uses, if_pos hn, act, plain, Path.step, rests_read this]

theorem sea_len : pathLen (wgs84 1000).dist (sea1.loc 1 0).value.ll ([isle].map Geo.ll) = (wgs84 1000).dist (0, 0) (45, 90) := by
  rw [sea_loc1]
  simp [pathLen, port, isle, Geo.ll]

theorem sea_far : (3 : ℝ) < (wgs84 1000).dist (0, 0) (45, 90) := by
  have := Geod.far_dist (k := 1000) (by norm_num)
  norm_num at this
  linarith

theorem sea_measured : Measured 1000 (sea1.loc 1 0).value [isle] := by
  rw [sea_loc1]
  refine ⟨?_, ?_, isle, [], rfl, ?_⟩
  · simp only [List.mem_cons, List.not_mem_nil, or_false, forall_eq_or_imp, forall_eq]
    norm_num [port, isle, Geo.ll, Lat]
  · intro pre w post h
    obtain ⟨rfl, rfl, rfl⟩ : pre = [] ∧ w = isle ∧ post = [] := by
      rcases pre with _ | ⟨x, _ | ⟨y, pre⟩⟩ <;> simp_all
    simpa [port, isle, Geo.ll] using Geod.far_found 1000
  · have := sea_far
    simp only [port, isle, Geo.ll, Bool.false_eq_true, if_false]
    linarith

theorem sea_now : (sea2.mgr.now : ℝ) = 2 ∧ (sea1.mgr.now : ℝ) = 0 :=
  ⟨by rw [sea_mgr2.1]; simp [Stepped.St.init], by rw [sea_mgr1.1]; simp [Stepped.St.init]⟩

theorem sea_check : (step seaC sea2 (.timer false)).2 = .mgr .ok := by
  have hm := sea_mgr2.1
  obtain ⟨hS, hd, hsp, hl, hnow, po, hpo, hloc⟩ := watched seaC 0 (fun _ => true) (fun _ => 5) (fun _ _ => port) [.addSensor 0 0] [.beginRun, .advance 2] sea1 sea2 rfl 1 0
    rfl rfl 1 [isle] sea_go (by simp) rfl
  refine c76_check_ends_well seaC 0 (fun _ => true) (fun _ => 5) (fun _ _ => port) ([.addSensor 0 0] ++ .activate 1 0 1 [isle] :: [.beginRun, .advance 2]) sea2
    (by rw [run_append]; rfl) 0 [] (by rw [hm]; rfl) ?_ ?_ false
  · intro s hs
    have hs0 : s = 0 := by rw [hm] at hs; simpa using hs
    subst hs0
    have he : sea2.eyes 0 = 0 := by simpa [seaC] using hS.eyes 0 hs
    exact ⟨port, by rw [he]; exact sea_stands⟩
  · intro a ha hdet
    have ha1 : a = 1 := by rw [hm] at ha; simpa using ha
    subst ha1
    have hclk : (Path.under (geodetic (wgs84 1000)) (sea1.loc 1 0) 1 [isle] po).now - (sea1.loc 1 0).now = 2 := by
      have := hS.clock 1 0 rfl
      rw [hloc, sea_now.1] at this
      rw [show Path.under (geodetic (wgs84 1000)) (sea1.loc 1 0) 1 [isle] po = Path.under seaC.kind (sea1.loc 1 0) 1 [isle] po from rfl, this, sea_loc1]
      norm_num
    obtain ⟨hdeg, hans, -⟩ := sea_measured
    obtain ⟨X, pre, y, post, s', hX, -⟩ := Geod.c18_wgs84_partial (k := 1000) (by norm_num) (sea1.loc 1 0) hl 1 one_pos isle [] (hdeg _ (by simp)).1 (fun x h => (hdeg x (List.mem_cons_of_mem _ h)).1)
      (hdeg _ (by simp)).2 (fun x h => (hdeg x (List.mem_cons_of_mem _ h)).2) hans (by rw [sea_loc1]; simp only [port, isle, Geo.ll, Bool.false_eq_true, if_false]; linarith [sea_far])
      po hpo 2 hclk.symm (by norm_num) (by rw [sea_len]; linarith [sea_far])
    refine ⟨X, ?_⟩
    rw [hsp]
    have hn : (0 : Nat) ∈ seaC.states 1 := by simp [seaC]
    simp only [step, Op.uses, if_pos hn, act, plain, hloc]
    rw [show Path.step seaC.kind (Path.under seaC.kind (sea1.loc 1 0) 1 [isle] po) .read = Path.step (geodetic (wgs84 1000)) (Path.under (geodetic (wgs84 1000)) (sea1.loc 1 0) 1 [isle] po) .read from rfl, hX]

/-- A place on the way is not farther away in space than the way gone and fifteen metres, and at height zero. -/
theorem sea_on (s : ℝ) (hs : 0 ≤ s) (hs' : s ≤ 5) (X : Geo) (h : On84 1000 1 port [isle] s X) : dist (ground port.ll) (ground X.ll) ≤ s * 1000 + 15 ∧ X.alt = 0 := by
  obtain ⟨pre, w, post, s', h0, h1, -, -, -, h2, h3⟩ := h
  obtain ⟨rfl, rfl, rfl⟩ : pre = [] ∧ w = isle ∧ post = [] := by
    rcases pre with _ | ⟨x, _ | ⟨y, pre⟩⟩ <;> simp_all
  simp only [List.map_nil, pathLen, sub_zero, List.getLastD_nil] at h1 h2 h3
  subst h1
  constructor
  · obtain ⟨γ, T, v, G, g0, -, t, g1, g2⟩ := h2
    have h4 := G.chord 0 t
    have h5 : Geod.length v 0 = 0 := by simp [Geod.length]
    rw [h5, zero_sub, abs_neg, g0] at h4
    have h6 := dist_triangle (ground port.ll) (γ t) (ground X.ll)
    have h7 : |Geod.length v t| ≤ s' * 1000 + 0.1 := by
      rw [abs_le] at g1 ⊢
      norm_num at g1 ⊢
      constructor <;> linarith [g1.1, g1.2]
    norm_num at g2 h7
    linarith
  · have h4 := sea_far
    have e : (wgs84 1000).dist port.ll isle.ll = (wgs84 1000).dist (0, 0) (45, 90) := by simp [port, isle, Geo.ll]
    rw [e] at h3
    simp only [port, isle, sub_zero, zero_mul] at h3
    rcases mul_eq_zero.1 h3 with g | g
    · exact g
    · linarith

/-- At the check the actor is 2 km away, and the sensor is told. -/
example : Aware (step seaC sea2 (.timer false)).1.mgr.log 0 1 := by
  have hm := sea_mgr2.1
  have := c76_position_wgs84_partial 1000 1 (by norm_num) seaC rfl rfl 0 (fun _ => true) (fun _ => 5) (fun _ _ => port) [.addSensor 0 0] [.beginRun, .advance 2] sea1 sea2 rfl 0 1 (by decide) 0 0
    rfl rfl rfl 1 one_pos [isle] sea_go sea_measured (by simp) rfl (by rw [hm]; simp) 2 (by rw [sea_now.1, sea_now.2]; norm_num) (by norm_num)
    (by rw [sea_len]; linarith [sea_far]) false sea_check
  obtain ⟨X, -, hX, hiff⟩ := this
  rw [sea_loc1] at hX
  obtain ⟨e1, e2⟩ := sea_on _ (by norm_num) (by norm_num) X hX
  refine hiff.2 ⟨by rw [hm]; rfl, port, sea_stands, ?_⟩
  unfold space
  rw [e2, sea_mgr2.2]
  simp only [port, zero_mul, zero_smul, add_zero] at e1 ⊢
  linarith

end Verif.Patrol
