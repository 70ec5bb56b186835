import Verif.Patrol.Run
import Verif.Stepped.Delay

/-! # C76: moving actors and the stepped motion manager -/

namespace Verif.Patrol

open Verif.Stepped (Obj Aware)
open Verif.Path (Loc At euclid pathLen slack)

variable {P : Type}

theorem run_append (c : Cfg P) (w : World P) (os os' : List (Op P)) : run c w (os ++ os') = run c (run c w os) os' := by
  induction os generalizing w with
  | nil => rfl
  | cons o os ih => exact ih _

/-- What has happened when a check has ended well. -/
theorem timer_ok (c : Cfg P) (w : World P) (empty : Bool) (h : (step c w (.timer empty)).2 = .mgr .ok) :
    (step c w (.timer empty)).1.mgr = (Stepped.step c.mgr w.mgr (.timer empty (scan c w w.mgr none).2)).1 ∧
      (Stepped.step c.mgr w.mgr (.timer empty (scan c w w.mgr none).2)).2 = .ok ∧ (scan c w w.mgr none).2.reads = true := by
  simp only [step, Op.uses, act] at h ⊢
  cases hl : w.mgr.loops with
  | nil => rw [hl] at h; cases h
  | cons l ls =>
    obtain ⟨t, k⟩ := l
    rw [hl] at h
    dsimp only at h ⊢
    by_cases ht : t = w.mgr.now
    · rw [if_neg (not_not.2 ht)] at h ⊢
      simp only [check, Out.mgr.injEq] at h
      refine ⟨rfl, h, ?_⟩
      by_contra hr
      subst ht
      obtain ⟨τ, o, h1, h2, -⟩ := Stepped.timer_eq c.mgr w.mgr empty (scan c w w.mgr none).2 k ls hl
      simp only [Stepped.runDetectable] at h1
      rw [if_neg (fun hc => hr hc.2)] at h1
      rw [h, ← (Prod.mk.inj h1).2] at h2
      cases h2
    · rw [if_pos ht] at h; cases h

/-- **C76, checks.** After a check that ends well, a sensor's last word on another object being watched is "entered" exactly when the object is
detectable and the two locations the check reads, which are those anybody else would read at that time, are within the sensor's radius. -/
theorem c76_checked (c : Cfg P) (t0 : Rat) (det : Obj → Bool) (radius : Obj → ℝ) (val : Obj → Nat → P) (ops : List (Op P)) (w : World P)
    (hw : w = run c (init t0 det radius val) ops) (empty : Bool) (hok : (step c w (.timer empty)).2 = .mgr .ok) (s a : Obj) (hs : s ∈ w.mgr.sensors)
    (ha : a ∈ w.mgr.detectables) (hsa : s ≠ a) :
    Aware (step c w (.timer empty)).1.mgr.log s a ↔ w.mgr.det a = true ∧ ∃ Y X, (step c w (.read s (w.eyes s))).2 = .path (.loc Y) ∧
      (step c w (.read a (w.spots a))).2 = .path (.loc X) ∧ c.line Y X ≤ w.radius s := by
  obtain ⟨hS, ⟨mo, hmo, e⟩, -⟩ := run_does c ops _ (Sound.init c t0 det radius val) a 0
  rw [← hw] at hS e
  obtain ⟨h1, h2, h3⟩ := timer_ok c w empty hok
  obtain ⟨-, q, h4⟩ := scan_spec c w hS.ready w.mgr none
  rw [h1, Stepped.c42_after_check_partial c.mgr det t0 mo (fun q hq => (hmo q hq).1) empty _ q w.mgr e h2 s a hs ha hsa]
  have hr : ∀ b n, n ∈ c.states b → (step c w (.read b n)).2 = .path (Path.read c.kind (w.loc b n)).2 := fun b n hn => by
    simp only [step, Op.uses, if_pos hn, act, plain, Path.step]
  rw [hr s _ (hS.eyes s hs), hr a _ (hS.spots a ha)]
  simp only [Out.path.injEq]
  refine and_congr_right fun hd => ?_
  obtain ⟨Y, X, hY, hX, hi, -⟩ := h4 h3 s hs a (List.mem_filter.2 ⟨ha, hd⟩)
  rw [hi]
  refine ⟨fun hl => ⟨Y, X, hY, hX, hl⟩, ?_⟩
  rintro ⟨Y', X', hY', hX', hl⟩
  rw [hY] at hY'
  rw [hX] at hX'
  cases hY'
  cases hX'
  exact hl

/-- What has happened when an actor has started a motion. -/
theorem activate_done (c : Cfg P) (w : World P) (a : Obj) (n : Nat) (v : ℝ) (ws : List P) (hc : c.copy a = false)
    (h : (step c w (.activate a n v ws)).2 = .path .done) :
    n ∈ c.states a ∧ (w.loc a n).locked = false ∧ (step c w (.activate a n v ws)).1.mgr = (Stepped.step c.mgr w.mgr (.startMover a true)).1 ∧
      (step c w (.activate a n v ws)).1.loc a n = (Path.step c.kind (w.loc a n) (.activate v ws)).1 := by
  simp only [step, Op.uses] at h ⊢
  by_cases hn : n ∈ c.states a
  · rw [if_pos hn] at h ⊢
    simp only [act, activate] at h ⊢
    have hl : (w.loc a n).locked = false := by
      by_contra hl
      have hl : (w.loc a n).locked = true := by simpa using hl
      simp only [Path.step, hl, if_true] at h
      cases h
    cases hp : Path.step c.kind (w.loc a n) (.activate v ws) with
    | mk τ o =>
      rw [hp] at h
      cases o with
      | done =>
        dsimp only
        rw [hc]
        simp [hn, hl, setLoc]
      | error => cases h
      | loc p => cases h
      | list p => cases h
  · rw [if_neg hn] at h; cases h

/-- The manager watches an actor that moves, the sensors are there for good, and the location state goes its way. -/
theorem watched (c : Cfg P) (t0 : Rat) (det : Obj → Bool) (radius : Obj → ℝ) (val : Obj → Nat → P) (os₁ os₂ : List (Op P)) (w₁ w : World P)
    (hw₁ : w₁ = run c (init t0 det radius val) os₁) (a : Obj) (n : Nat) (hcopy : c.copy a = false) (hn : c.states a = [n]) (v : ℝ) (ws : List P)
    (hok : (step c w₁ (.activate a n v ws)).2 = .path .done) (hno : Op.deactivate a n ∉ os₂) (hw : w = run c (step c w₁ (.activate a n v ws)).1 os₂) :
    Sound c w ∧ a ∈ w.mgr.detectables ∧ w.spots a = n ∧ (w₁.loc a n).locked = false ∧ (w₁.loc a n).now = (w₁.mgr.now : ℝ) ∧
      ∃ po, (∀ p ∈ po, p.During) ∧ w.loc a n = Path.under c.kind (w₁.loc a n) v ws po := by
  obtain ⟨hS, -, -⟩ := run_does c os₁ _ (Sound.init c t0 det radius val) a n
  rw [← hw₁] at hS
  obtain ⟨-, hl, hm, hp⟩ := activate_done c w₁ a n v ws hcopy hok
  have hS' := (step_does c w₁ hS (.activate a n v ws) a n).sound
  obtain ⟨hS2, ⟨mo, hmo, e⟩, h2⟩ := run_does c os₂ _ hS' a n
  rw [← hw] at hS2 e h2
  have hin : a ∈ (Stepped.step c.mgr w₁.mgr (.startMover a true)).1.detectables := by
    simp only [Stepped.step, Stepped.addMover]
    cases w₁.mgr.isRunning <;> by_cases hb : a ∈ w₁.mgr.detectables <;> simp [hb, Stepped.addKey]
  have hkeep : Stepped.Op.stopMover a ∉ mo := by
    intro hc
    obtain ⟨-, o, ho, m, hm', rfl⟩ := hmo _ hc
    rw [hn, List.mem_singleton] at hm'
    exact hno (hm' ▸ ho)
  have hd : a ∈ w.mgr.detectables := by
    rw [e]
    exact (Stepped.keeps_exec c.mgr mo _ hS'.inv.toInvA).2 a (by rw [hm]; exact hin) hkeep
  refine ⟨hS2, hd, by simpa [hn] using hS2.spots a hd, hl, hS.clock a n hcopy, ?_⟩
  obtain ⟨po, hpo, e'⟩ := h2 hcopy
  exact ⟨po, hpo hno, by rw [e', hp]; rfl⟩

/-- **C76, checks and motions.** Watching an actor does not change where it goes: in whatever the world does between the start of a motion and a later
time, with any number of checks by any number of sensors, the location read is the one of an actor nobody looks at. -/
theorem c76_undisturbed (c : Cfg P) (t0 : Rat) (det : Obj → Bool) (radius : Obj → ℝ) (val : Obj → Nat → P) (os₁ os₂ : List (Op P)) (w₁ w : World P)
    (hw₁ : w₁ = run c (init t0 det radius val) os₁) (a : Obj) (n : Nat) (hcopy : c.copy a = false) (v : ℝ) (hv : 0 < v) (ws : List P)
    (hok : (step c w₁ (.activate a n v ws)).2 = .path .done) (hno : Op.deactivate a n ∉ os₂) (hw : w = run c (step c w₁ (.activate a n v ws)).1 os₂)
    (hpos : w₁.mgr.now < w.mgr.now) :
    (step c w (.read a n)).2 = .path (Path.step c.kind (Path.under c.kind (w₁.loc a n) v ws [.advance (w.mgr.now : ℝ)]) .read).2 ∧
      (step c w (.remaining a n)).2 = .path (Path.step c.kind (Path.under c.kind (w₁.loc a n) v ws [.advance (w.mgr.now : ℝ)]) .remaining).2 := by
  obtain ⟨hS, -, -⟩ := run_does c os₁ _ (Sound.init c t0 det radius val) a n
  rw [← hw₁] at hS
  obtain ⟨hn, hl, hm, hp⟩ := activate_done c w₁ a n v ws hcopy hok
  obtain ⟨hS2, -, h2⟩ := run_does c os₂ _ (step_does c w₁ hS (.activate a n v ws) a n).sound a n
  rw [← hw] at hS2 h2
  obtain ⟨po, hpo, e⟩ := h2 hcopy
  have e : w.loc a n = Path.under c.kind (w₁.loc a n) v ws po := by rw [e, hp]; rfl
  have hlt : ((w₁.mgr.now : ℝ)) < (w.mgr.now : ℝ) := by exact_mod_cast hpos
  have hnow := Path.activate_moving c.kind (w₁.loc a n) hl v hv ws
  have h0 := hS.clock a n hcopy
  have h1 : (Path.under c.kind (w₁.loc a n) v ws [.advance (w.mgr.now : ℝ)]).now = (w.mgr.now : ℝ) := by
    simp only [Path.under, Path.exec]
    generalize (Path.step c.kind (w₁.loc a n) (.activate v ws)).1 = τ at hnow
    simp only [Path.step, if_pos (show τ.now ≤ (w.mgr.now : ℝ) by rw [hnow.2.2.2, h0]; exact hlt.le)]
  have := Path.c18_reads c.kind (w₁.loc a n) hl v hv ws po [.advance (w.mgr.now : ℝ)] (hpo hno) (by simp [Path.Op.During])
    (by rw [h1, ← e]; exact hS2.clock a n hcopy) (by rw [← e, hS2.clock a n hcopy, h0]; exact hlt)
  rw [← e] at this
  simp only [step, Op.uses, if_pos hn, act, plain]
  exact ⟨by rw [this.1], by rw [this.2]⟩

/-- **C76, where the actor is (the part that holds).** On cartesian coordinates, an actor with one location state is set in motion along waypoints and not stopped. At
any later check that ends well, before the way is at its end: a sensor, wherever it is at that time, has said last that the actor is in range if
the actor is detectable and the point reached at the commanded speed is within the radius, and only then, but for the `10^-12` time units by which
`c18_close_partial` allows the actor to be off. Missing: other location states (`c76_second_state`), the end of the way (`c76_overrun`). -/
theorem c76_position_partial (k : ℝ) (c : Cfg Loc) (hk : c.kind = Path.cartesian k) (hline : ∀ x y, c.line x y = euclid (x.place k) (y.place k))
    (t0 : Rat) (det : Obj → Bool) (radius : Obj → ℝ) (val : Obj → Nat → Loc) (os₁ os₂ : List (Op Loc)) (w₁ w : World Loc)
    (hw₁ : w₁ = run c (init t0 det radius val) os₁) (s a : Obj) (hsa : s ≠ a) (m n : Nat) (hcopy : c.copy a = false) (hm : c.states s = [m]) (hn : c.states a = [n])
    (v : ℝ) (hv : 0 < v) (p : Loc) (ws : List Loc) (hok : (step c w₁ (.activate a n v (p :: ws))).2 = .path .done)
    (hfirst : (w₁.loc a n).value.place k ≠ p.place k) (hno : Op.deactivate a n ∉ os₂)
    (hw : w = run c (step c w₁ (.activate a n v (p :: ws))).1 os₂) (hs : s ∈ w.mgr.sensors) (e : ℝ) (he : e = (w.mgr.now : ℝ) - (w₁.mgr.now : ℝ)) (hpos : 0 < e)
    (hend : v * e ≤ pathLen euclid ((w₁.loc a n).value.place k) ((p :: ws).map (Loc.place k))) (empty : Bool)
    (hchk : (step c w (.timer empty)).2 = .mgr .ok) :
    (w.mgr.det a = true → (∀ Y, (step c w (.read s m)).2 = .path (.loc Y) → ∀ X, At euclid ((w₁.loc a n).value.place k) ((p :: ws).map (Loc.place k)) (v * e) X →
        euclid (Y.place k) X + 2 * v * slack ≤ w.radius s) → Aware (step c w (.timer empty)).1.mgr.log s a) ∧
      (Aware (step c w (.timer empty)).1.mgr.log s a → w.mgr.det a = true ∧ ∃ Y X, (step c w (.read s m)).2 = .path (.loc Y) ∧
        At euclid ((w₁.loc a n).value.place k) ((p :: ws).map (Loc.place k)) (v * e) X ∧ euclid (Y.place k) X ≤ w.radius s + 2 * v * slack) := by
  obtain ⟨hS, hd, hsp, hl, hnow, po, hpo, hloc⟩ := watched c t0 det radius val os₁ os₂ w₁ w hw₁ a n hcopy hn v (p :: ws) hok hno hw
  have hey : w.eyes s = m := by simpa [hm] using hS.eyes s hs
  have hw' : w = run c (init t0 det radius val) (os₁ ++ .activate a n v (p :: ws) :: os₂) := by rw [run_append, ← hw₁]; exact hw
  have key := c76_checked c t0 det radius val _ w hw' empty hchk s a hs hd hsa
  rw [hey, hsp] at key
  rw [hk] at hloc
  have hclk : (Path.under (Path.cartesian k) (w₁.loc a n) v (p :: ws) po).now - (w₁.loc a n).now = e := by
    rw [← hloc, hS.clock a n hcopy, hnow, he]
  obtain ⟨X, Z, hX, hZ, hXZ⟩ := Path.c18_close_partial k (w₁.loc a n) hl v hv p ws hfirst po hpo e hclk.symm hpos hend
  have hX' : (step c w (.read a n)).2 = .path (.loc X) := by
    simp only [step, Op.uses, hn, List.mem_singleton, if_true, act, plain, hk, hloc]
    rw [hX]
  constructor
  · intro hdet hin
    rw [key]
    have hreads := (timer_ok c w empty hchk).2.2
    obtain ⟨Y, X', hY, -, -⟩ := (scan_spec c w hS.ready w.mgr none).2.2 hreads s hs a (List.mem_filter.2 ⟨hd, hdet⟩)
    have hY : (step c w (.read s m)).2 = .path (.loc Y) := by
      rw [hey] at hY
      simp only [step, Op.uses, hm, List.mem_singleton, if_true, act, plain, Path.step, hY]
    refine ⟨hdet, Y, X, hY, hX', ?_⟩
    have := hin Y hY Z hZ
    rw [hline]
    have tri := Path.euclid_triangle (Y.place k) Z (X.place k)
    rw [Path.euclid_comm Z] at tri
    linarith
  · intro haw
    obtain ⟨hdet, Y, X', hY, hX2, hle⟩ := key.1 haw
    rw [hX'] at hX2
    cases hX2
    refine ⟨hdet, Y, Z, hY, hZ, ?_⟩
    rw [hline] at hle
    have tri := Path.euclid_triangle (Y.place k) (X.place k) Z
    linarith

theorem mgr_now (c : Cfg P) (w : World P) (h : Sound c w) (os : List (Op P)) : w.mgr.now ≤ (run c w os).mgr.now := by
  obtain ⟨-, ⟨mo, -, e⟩, -⟩ := run_does c os w h 0 0
  rw [e]; exact Stepped.now_exec c.mgr mo _ h.inv.toInvA

theorem over_run (c : Cfg P) (w : World P) (h : Sound c w) (hd : Stepped.Over w.mgr) (os : List (Op P)) : Stepped.Over (run c w os).mgr := by
  obtain ⟨-, ⟨mo, -, e⟩, -⟩ := run_does c os w h 0 0
  rw [e]; exact Stepped.over_exec c.mgr mo _ h.inv.toInvA hd

theorem delay (c : Cfg P) (u : Rat) (os : List (Op P)) (w : World P) (h : Sound c w) (hN : Stepped.NextBy c.mgr u w.mgr) (hend : u + c.mgr.timestep < (run c w os).mgr.now)
    (hu : u < (run c w os).mgr.now) (hlive : (run c w os).mgr.loops ≠ []) :
    ∃ pre e post, os = pre ++ .timer e :: post ∧ u ≤ (run c w pre).mgr.now ∧ (run c w pre).mgr.now ≤ u + c.mgr.timestep ∧
      (step c (run c w pre) (.timer e)).2 = .mgr .ok := by
  induction os generalizing w with
  | nil =>
    rcases hN with ⟨-, -, h, -⟩ | ⟨-, -, l, k, -, h1, h2⟩
    · simp only [run] at hu; linarith
    · simp only [run] at hend; linarith
  | cons o os ih =>
    obtain ⟨h1, ⟨mo, hmo, e1⟩, -⟩ := step_does c w h o 0 0
    have lift : Stepped.NextBy c.mgr u (step c w o).1.mgr → ∃ pre e post, o :: os = pre ++ .timer e :: post ∧ u ≤ (run c w pre).mgr.now ∧
        (run c w pre).mgr.now ≤ u + c.mgr.timestep ∧ (step c (run c w pre) (.timer e)).2 = .mgr .ok := fun hN => by
      obtain ⟨pre, e, post, g1, g2, g3, g4⟩ := ih _ h1 hN hend hu hlive
      exact ⟨o :: pre, e, post, by rw [g1]; rfl, g2, g3, g4⟩
    have dead : ¬ Stepped.Over (step c w o).1.mgr := fun hO => hlive (over_run c _ h1 hO os).2
    by_cases ht : ∃ e, o = .timer e
    · obtain ⟨e, rfl⟩ := ht
      have hcase : (step c w (.timer e)) = (w, .refused) ∨ step c w (.timer e) = check c w w.mgr none (.timer e) := by
        simp only [step, Op.uses, act]
        cases w.mgr.loops with
        | nil => exact .inl rfl
        | cons l ls =>
          dsimp only
          split
          · exact .inl rfl
          · exact .inr rfl
      rcases hcase with hc | hc
      · exact lift (by rw [hc]; exact hN)
      · have := Stepped.nextBy_timer c.mgr u w.mgr h.inv.toInvA hN e (scan c w w.mgr none).2
        rcases this with g | g | ⟨g1, g2, g3⟩
        · exact lift (by rw [hc]; exact g)
        · exact absurd (by rw [hc]; exact g) dead
        · refine ⟨[], e, os, rfl, g1, g2, ?_⟩
          show (step c w (.timer e)).2 = _
          rw [hc]
          simp only [check, g3]
    · push Not at ht
      have := Stepped.nextBy_exec c.mgr u mo (fun q hq e L hqe => ht e (by have := (hmo q hq).2; rw [hqe] at this; exact this)) w.mgr h.inv.toInvA hN
      rw [← e1] at this
      rcases this with g | g
      · exact lift g
      · exact absurd g dead

/-- **C76, how soon.** Once an actor has been set in motion, every stretch of time one timestep long contains a check that ends well, as long as the
manager's loop is alive after it. -/
theorem c76_delay (c : Cfg P) (t0 : Rat) (det : Obj → Bool) (radius : Obj → ℝ) (val : Obj → Nat → P) (os₁ os₂ : List (Op P)) (w₁ w : World P)
    (hw₁ : w₁ = run c (init t0 det radius val) os₁) (a : Obj) (n : Nat) (hcopy : c.copy a = false) (v : ℝ) (ws : List P)
    (hok : (step c w₁ (.activate a n v ws)).2 = .path .done) (hw : w = run c (step c w₁ (.activate a n v ws)).1 os₂) (hlive : w.mgr.loops ≠ [])
    (u : Rat) (hu : w₁.mgr.now ≤ u) (hend : u + c.mgr.timestep < w.mgr.now) :
    ∃ pre e post, os₂ = pre ++ .timer e :: post ∧ u ≤ (run c (step c w₁ (.activate a n v ws)).1 pre).mgr.now ∧
      (run c (step c w₁ (.activate a n v ws)).1 pre).mgr.now ≤ u + c.mgr.timestep ∧
      (step c (run c (step c w₁ (.activate a n v ws)).1 pre) (.timer e)).2 = .mgr .ok := by
  obtain ⟨hS, ⟨mo, hmo, e0⟩, -⟩ := run_does c os₁ _ (Sound.init c t0 det radius val) a n
  rw [← hw₁] at hS e0
  obtain ⟨-, -, hm, -⟩ := activate_done c w₁ a n v ws hcopy hok
  have hS' := (step_does c w₁ hS (.activate a n v ws) a n).sound
  have hnow : (step c w₁ (.activate a n v ws)).1.mgr.now = w₁.mgr.now := by rw [hm]; exact (Stepped.now_step c.mgr w₁.mgr hS.inv.toInvA _).2 (by simp)
  have hlast : (step c w₁ (.activate a n v ws)).1.mgr = Stepped.exec c.mgr (mo ++ [.startMover a true]) (Stepped.St.init det t0) := by
    rw [Stepped.exec_append, hm, e0]; rfl
  obtain ⟨-, ⟨mo', -, e1⟩, -⟩ := run_does c os₂ _ hS' a n
  have hdt : 0 ≤ c.mgr.timestep := by
    have hL := Stepped.exec_loop c.mgr (mo ++ [.startMover a true] ++ mo') _ (Stepped.init_invA det t0) _ (Stepped.init_loop c.mgr det t0)
    rw [Stepped.exec_append, ← hlast, ← e1, ← hw] at hL
    cases hl : w.mgr.loops with
    | nil => exact absurd hl hlive
    | cons l ls => exact hL.forward l (by rw [hl]; exact List.mem_cons_self ..)
  rcases Stepped.nextBy_asked c.mgr det t0 mo (.startMover a true) trivial _ hlast u (by rw [hnow]; exact hu) with hN | hO
  · exact delay c u os₂ _ hS' hN (by rw [← hw]; exact hend) (by rw [← hw]; linarith) (by rw [← hw]; exact hlive)
  · exact absurd (hw ▸ (over_run c _ hS' hO os₂).2) hlive

/-- **C76, noticed within a timestep (the part that holds).** As in `c76_position_partial`: if an actor in motion stays within the radius of a sensor
(wherever the two are, and by the `2 v 10^-12` more) from a time `u` on for one timestep, detectable all the while, then within that timestep the
sensor is told so or has been told before; if it stays outside, the sensor is told that, if it was told otherwise. The manager must be alive afterwards. Missing:
as there. -/
theorem c76_noticed_partial (k : ℝ) (c : Cfg Loc) (hk : c.kind = Path.cartesian k) (hline : ∀ x y, c.line x y = euclid (x.place k) (y.place k))
    (t0 : Rat) (det : Obj → Bool) (radius : Obj → ℝ) (val : Obj → Nat → Loc) (os₁ os₂ : List (Op Loc)) (w₁ w : World Loc)
    (hw₁ : w₁ = run c (init t0 det radius val) os₁) (s a : Obj) (hsa : s ≠ a) (m n : Nat) (hcopy : c.copy a = false) (hm : c.states s = [m]) (hn : c.states a = [n])
    (hs : s ∈ w₁.mgr.sensors) (v : ℝ) (hv : 0 < v) (p : Loc) (ws : List Loc) (hok : (step c w₁ (.activate a n v (p :: ws))).2 = .path .done)
    (hfirst : (w₁.loc a n).value.place k ≠ p.place k) (hno : Op.deactivate a n ∉ os₂)
    (hw : w = run c (step c w₁ (.activate a n v (p :: ws))).1 os₂) (hlive : w.mgr.loops ≠ []) (u : Rat) (hu : w₁.mgr.now < u)
    (hend : u + c.mgr.timestep < w.mgr.now)
    (hway : v * (((u + c.mgr.timestep : Rat) : ℝ) - (w₁.mgr.now : ℝ)) ≤ pathLen euclid ((w₁.loc a n).value.place k) ((p :: ws).map (Loc.place k))) :
    ∃ pre e post x, os₂ = pre ++ .timer e :: post ∧ x = run c (step c w₁ (.activate a n v (p :: ws))).1 pre ∧ u ≤ x.mgr.now ∧ x.mgr.now ≤ u + c.mgr.timestep ∧
      ((∀ pre' post' y, os₂ = pre' ++ post' → y = run c (step c w₁ (.activate a n v (p :: ws))).1 pre' → u ≤ y.mgr.now → y.mgr.now ≤ u + c.mgr.timestep →
          y.mgr.det a = true ∧ ∀ Y X, (step c y (.read s m)).2 = .path (.loc Y) →
            At euclid ((w₁.loc a n).value.place k) ((p :: ws).map (Loc.place k)) (v * ((y.mgr.now : ℝ) - (w₁.mgr.now : ℝ))) X → euclid (Y.place k) X + 2 * v * slack ≤ y.radius s) →
        Aware (step c x (.timer e)).1.mgr.log s a) ∧
      ((∀ pre' post' y, os₂ = pre' ++ post' → y = run c (step c w₁ (.activate a n v (p :: ws))).1 pre' → u ≤ y.mgr.now → y.mgr.now ≤ u + c.mgr.timestep →
          ∀ Y X, (step c y (.read s m)).2 = .path (.loc Y) →
            At euclid ((w₁.loc a n).value.place k) ((p :: ws).map (Loc.place k)) (v * ((y.mgr.now : ℝ) - (w₁.mgr.now : ℝ))) X → y.radius s + 2 * v * slack < euclid (Y.place k) X) →
        ¬ Aware (step c x (.timer e)).1.mgr.log s a) := by
  obtain ⟨pre, e, post, h1, h2, h3, h4⟩ := c76_delay c t0 det radius val os₁ os₂ w₁ w hw₁ a n hcopy v (p :: ws) hok hw hlive u hu.le hend
  obtain ⟨hS, -, -⟩ := run_does c os₁ _ (Sound.init c t0 det radius val) a n
  rw [← hw₁] at hS
  obtain ⟨-, -, hmgr, -⟩ := activate_done c w₁ a n v (p :: ws) hcopy hok
  have hS' := (step_does c w₁ hS (.activate a n v (p :: ws)) a n).sound
  refine ⟨pre, e, post, _, h1, rfl, h2, h3, ?_⟩
  generalize hx : run c (step c w₁ (.activate a n v (p :: ws))).1 pre = x at h2 h3 h4
  have hsx : s ∈ x.mgr.sensors := by
    obtain ⟨-, ⟨mo, -, e1⟩, -⟩ := run_does c pre _ hS' a n
    rw [← hx, e1]
    refine (Stepped.keeps_exec c.mgr mo _ hS'.inv.toInvA).1 s ?_
    rw [hmgr]
    exact (Stepped.keeps c.mgr w₁.mgr _ hS.inv.toInvA).1 s hs
  have h2' : (u : ℝ) ≤ (x.mgr.now : ℝ) := by exact_mod_cast h2
  have h3' : (x.mgr.now : ℝ) ≤ ((u + c.mgr.timestep : Rat) : ℝ) := by exact_mod_cast h3
  have hu' : (w₁.mgr.now : ℝ) < (u : ℝ) := by exact_mod_cast hu
  have hle : v * ((x.mgr.now : ℝ) - (w₁.mgr.now : ℝ)) ≤ v * (((u + c.mgr.timestep : Rat) : ℝ) - (w₁.mgr.now : ℝ)) :=
    mul_le_mul_of_nonneg_left (by linarith) hv.le
  have := c76_position_partial k c hk hline t0 det radius val os₁ pre w₁ x hw₁ s a hsa m n hcopy hm hn v hv p ws hok hfirst
    (fun hc => hno (by rw [h1]; simp [hc])) hx.symm hsx _ rfl (by linarith) (hle.trans hway) e h4
  constructor
  · intro hall
    obtain ⟨hd, hin⟩ := hall pre _ x h1 hx.symm h2 h3
    exact this.1 hd fun Y hY X hX => hin Y X hY hX
  · intro hall haw
    obtain ⟨-, Y, X, hY, hX, hd⟩ := this.2 haw
    linarith [hall pre _ x h1 hx.symm h2 h3 Y X hY hX]

end Verif.Patrol
