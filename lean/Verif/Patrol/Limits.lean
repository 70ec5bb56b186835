import Verif.Patrol.Props
import Verif.Stepped.Unseen

/-! # C76: where it fails -/

namespace Verif.Patrol

open Verif.Stepped (Obj Aware)
open Verif.Path (Loc At euclid pathLen slack)

variable {P : Type}

/-- **C76 is violated: an actor that stops between two checks is not noticed.** However near to a sensor it stands: as long as it does not move again and
is not added again, no sensor that has not been told of it will be. -/
theorem c76_stopped_unseen (c : Cfg P) (t0 : Rat) (det : Obj → Bool) (radius : Obj → ℝ) (val : Obj → Nat → P) (os₁ os₂ : List (Op P)) (w₁ w : World P)
    (hw₁ : w₁ = run c (init t0 det radius val) os₁) (s a : Obj) (n : Nat) (hcopy : c.copy a = false) (hok : (step c w₁ (.deactivate a n)).2 = .path .done)
    (hs : ¬ Aware w₁.mgr.log s a) (hno : ∀ o ∈ os₂, (∀ m v ws, o ≠ .activate a m v ws) ∧ ∀ m, o ≠ .addDetectable a m)
    (hw : w = run c (step c w₁ (.deactivate a n)).1 os₂) : ¬ Aware w.mgr.log s a := by
  obtain ⟨hS, ⟨mo₀, -, e₀⟩, -⟩ := run_does c os₁ _ (Sound.init c t0 det radius val) a n
  rw [← hw₁] at hS e₀
  have hone : w₁.mgr.detectables.Nodup := by rw [e₀]; exact Stepped.detectables_nodup c.mgr mo₀ _ (Sound.init c t0 det radius val).inv.toInvA List.nodup_nil
  have hm : (step c w₁ (.deactivate a n)).1.mgr = (Stepped.step c.mgr w₁.mgr (.stopMover a)).1 := by
    simp only [step, Op.uses] at hok ⊢
    by_cases hn : n ∈ c.states a
    · rw [if_pos hn] at hok ⊢
      simp only [act, deactivate] at hok ⊢
      cases hp : Path.step c.kind (w₁.loc a n) .deactivate with
      | mk τ o =>
        rw [hp] at hok
        cases o with
        | done => dsimp only; rw [hcopy]; rfl
        | error => cases hok
        | loc p => cases hok
        | list p => cases hok
    · rw [if_neg hn] at hok; cases hok
  have hS' := (step_does c w₁ hS (.deactivate a n) a n).sound
  obtain ⟨-, ⟨mo, hmo, e⟩, -⟩ := run_does c os₂ _ hS' a n
  rw [hw, e]
  have := Stepped.unseen_exec c.mgr mo _ hS'.inv.toInvA (fun q hq => (hmo q hq).1) a
    (by rw [hm]; exact hone.not_mem_erase)
    (fun q hq hW => by
      obtain ⟨-, o, ho, hf⟩ := hmo q hq
      cases q with
      | addDetectable b ok => obtain ⟨m, rfl⟩ := hf; cases hW; exact (hno _ ho).2 m rfl
      | startMover b ok => obtain ⟨-, m, v, ws, rfl⟩ := hf; cases hW; exact (hno _ ho).1 m v ws rfl
      | _ => exact absurd hW id)
  intro hc
  have := this.2 s hc
  rw [hm] at this
  exact hs this

/-- The state by which an object is watched changes only when it is added, or begins to move while it is not being watched. -/
theorem spots_step (c : Cfg P) (w : World P) (h : Sound c w) (o : Op P) (a : Obj) (ha : a ∈ w.mgr.detectables) (ho : ∀ m, o ≠ .addDetectable a m) :
    (step c w o).1.spots a = w.spots a := by
  have chk : ∀ μ req f, (check c w μ req f).1.spots a = w.spots a := fun μ req f => by
    show (scan c w μ req).1.spots a = _
    rw [(scan_spec c w h.ready μ req).1.spots]
  have key : (act c w o).1.spots a = w.spots a := by
    cases o with
    | activate b m v ws =>
      simp only [act, activate]
      split
      · split
        · rfl
        · show (if b ∈ w.mgr.detectables then w.spots else upd w.spots b ((c.states b).headD 0)) a = _
          split
          · rfl
          · rename_i hb
            simp only [upd]
            rw [if_neg (by rintro rfl; exact hb ha)]
      · rfl
    | deactivate b m =>
      simp only [act, deactivate]
      split
      · split <;> rfl
      · rfl
    | read b m => rfl
    | remaining b m => rfl
    | assign b m p => rfl
    | setRadius s r => rfl
    | detect b v => cases v <;> first | exact chk _ _ _ | rfl
    | addSensor s m => simp only [act]; split <;> rfl
    | addDetectable b m =>
      simp only [act]
      split
      · show upd w.spots b m a = _
        simp only [upd]
        rw [if_neg (by rintro rfl; exact ho m rfl)]
      · rfl
    | particular b => exact chk _ _ _
    | run => rfl
    | beginRun => rfl
    | timer e =>
      simp only [act]
      split
      · rfl
      · split
        · rfl
        · exact chk _ _ _
    | reorder view => rfl
    | mock b t => simp only [act]; split <;> rfl
    | advance t => simp only [act]; split <;> rfl
  unfold step
  split
  · exact key
  · split
    · exact key
    · rfl

theorem spots_run (c : Cfg P) (os : List (Op P)) (w : World P) (h : Sound c w) (a : Obj) (ha : a ∈ w.mgr.detectables)
    (ho : ∀ o ∈ os, (∀ m, o ≠ .deactivate a m) ∧ ∀ m, o ≠ .addDetectable a m) : a ∈ (run c w os).mgr.detectables ∧ (run c w os).spots a = w.spots a := by
  induction os generalizing w with
  | nil => exact ⟨ha, rfl⟩
  | cons o os ih =>
    obtain ⟨h1, ⟨mo, hmo, e1⟩, -⟩ := step_does c w h o a 0
    have h0 := ho o (List.mem_cons_self ..)
    have := ih _ h1 (by
      rw [e1]
      refine (Stepped.keeps_exec c.mgr mo _ h.inv.toInvA).2 a ha fun hc => ?_
      obtain ⟨-, m, -, rfl⟩ := hmo _ hc
      exact h0.1 m rfl) (fun o ho' => ho o (List.mem_cons_of_mem _ ho'))
    exact ⟨this.1, this.2.trans (spots_step c w h o a ha h0.2)⟩

/-- **C76 is violated: the manager does not look at the state that moves.** Of an actor with several location states the manager watches the first,
whichever of them is set in motion. If that one is far from a sensor and the moving one near, the sensor is not told. -/
theorem c76_second_state (c : Cfg P) (t0 : Rat) (det : Obj → Bool) (radius : Obj → ℝ) (val : Obj → Nat → P) (os₁ os₂ : List (Op P)) (w₁ w : World P)
    (hw₁ : w₁ = run c (init t0 det radius val) os₁) (s a : Obj) (hsa : s ≠ a) (n₀ n : Nat) (ns : List Nat) (hcopy : c.copy a = false) (hn : c.states a = n₀ :: ns)
    (hnew : a ∉ w₁.mgr.detectables) (v : ℝ) (ws : List P) (hok : (step c w₁ (.activate a n v ws)).2 = .path .done)
    (hno : ∀ o ∈ os₂, (∀ m, o ≠ .deactivate a m) ∧ ∀ m, o ≠ .addDetectable a m) (hw : w = run c (step c w₁ (.activate a n v ws)).1 os₂)
    (hs : s ∈ w.mgr.sensors) (empty : Bool) (hchk : (step c w (.timer empty)).2 = .mgr .ok) (Y X₀ : P)
    (hY : (step c w (.read s (w.eyes s))).2 = .path (.loc Y)) (hX₀ : (step c w (.read a n₀)).2 = .path (.loc X₀)) (hfar : w.radius s < c.line Y X₀) :
    ¬ Aware (step c w (.timer empty)).1.mgr.log s a := by
  obtain ⟨hS, -, -⟩ := run_does c os₁ _ (Sound.init c t0 det radius val) a n
  rw [← hw₁] at hS
  have hS' := (step_does c w₁ hS (.activate a n v ws) a n).sound
  obtain ⟨hmem, hl, hm, -⟩ := activate_done c w₁ a n v ws hcopy hok
  have hin : a ∈ (step c w₁ (.activate a n v ws)).1.mgr.detectables := by
    rw [hm]
    simp only [Stepped.step, Stepped.addMover]
    cases w₁.mgr.isRunning <;> simp [hnew, Stepped.addKey]
  have hsp : (step c w₁ (.activate a n v ws)).1.spots a = n₀ := by
    simp only [step, Op.uses, if_pos hmem, act, activate] at hok ⊢
    cases hp : Path.step c.kind (w₁.loc a n) (.activate v ws) with
    | mk τ o =>
      rw [hp] at hok
      cases o with
      | done => dsimp only; rw [hcopy]; simp [hnew, upd, hn]
      | error => cases hok
      | loc p => cases hok
      | list p => cases hok
  obtain ⟨hd, hsp'⟩ := spots_run c os₂ _ hS' a hin hno
  rw [← hw] at hd hsp'
  have hw' : w = run c (init t0 det radius val) (os₁ ++ .activate a n v ws :: os₂) := by rw [run_append, ← hw₁]; exact hw
  rw [c76_checked c t0 det radius val _ w hw' empty hchk s a hs hd hsa, hsp', hsp]
  rintro ⟨-, Y', X', hY', hX', hle⟩
  rw [hY] at hY'
  rw [hX₀] at hX'
  cases hY'
  cases hX'
  linarith

/-- If the check can read, it can read each of the objects. -/
theorem scan_reads (c : Cfg P) (w : World P) (hw : w.Ready) (μ : Stepped.St) (req : Option (List Obj)) (h : (scan c w μ req).2.reads = true) :
    ∀ a ∈ (req.getD μ.detectables).filter μ.det, ∃ X, (Path.read c.kind (w.loc a (w.spots a))).2 = .loc X := by
  intro a ha
  have h1 := readAll_reads c (μ.sensors.map fun s => (s, w.eyes s)) w hw
  unfold scan at h
  rcases hr : readAll c w (μ.sensors.map fun s => (s, w.eyes s)) with ⟨w1, o1⟩
  rw [hr] at h h1
  cases o1 with
  | none => cases h
  | some ys =>
    dsimp only at h
    split at h
    · have s2 := readAll_some c w1.spots ((req.getD μ.detectables).filter μ.det) w1 (h1.ready hw)
      rcases hr2 : readAll c w1 (((req.getD μ.detectables).filter μ.det).map fun a => (a, w1.spots a)) with ⟨w2, o2⟩
      rw [hr2] at h s2
      cases o2 with
      | none => cases h
      | some xs =>
        obtain ⟨X, -, hX⟩ := s2 xs rfl a ha
        refine ⟨X, ?_⟩
        rw [show w1.spots = w.spots from h1.spots] at hX
        rw [← h1.read hw]; exact hX
    · cases h

theorem readAll_ok (c : Cfg P) (l : List (Obj × Nat)) (w : World P) (hw : w.Ready) (h : ∀ p ∈ l, ∃ X, (Path.read c.kind (w.loc p.1 p.2)).2 = .loc X) :
    ∃ ps, (readAll c w l).2 = some ps := by
  induction l generalizing w with
  | nil => exact ⟨[], rfl⟩
  | cons p l ih =>
    obtain ⟨a, n⟩ := p
    obtain ⟨X, hX⟩ := h (a, n) (List.mem_cons_self ..)
    have h1 := reads_one c w a n
    obtain ⟨ps, hps⟩ := ih _ (h1.ready hw) (fun p hp => by
      obtain ⟨X, hX⟩ := h p (List.mem_cons_of_mem _ hp)
      exact ⟨X, by rw [h1.read hw]; exact hX⟩)
    rcases hr : Path.read c.kind (w.loc a n) with ⟨τ, o⟩
    rw [hr] at hX hps
    dsimp only at hX hps
    subst hX
    refine ⟨(a, X) :: ps, ?_⟩
    simp only [readAll, hr]
    rcases hq : readAll c (setLoc w a n τ) l with ⟨w2, o2⟩
    rw [hq] at hps
    dsimp only at hps
    subst hps
    rfl

/-- **C76, checks that raise.** A check of the loop raises only if reading the location of a sensor does, or that of a detectable object being
watched. -/
theorem c76_check_ends_well (c : Cfg P) (t0 : Rat) (det : Obj → Bool) (radius : Obj → ℝ) (val : Obj → Nat → P) (ops : List (Op P)) (w : World P)
    (hw : w = run c (init t0 det radius val) ops) (k : Int) (rest : List (Rat × Int)) (hdue : w.mgr.loops = (w.mgr.now, k) :: rest)
    (hs : ∀ s ∈ w.mgr.sensors, ∃ Y, (step c w (.read s (w.eyes s))).2 = .path (.loc Y))
    (ha : ∀ a ∈ w.mgr.detectables, w.mgr.det a = true → ∃ X, (step c w (.read a (w.spots a))).2 = .path (.loc X)) (empty : Bool) :
    (step c w (.timer empty)).2 = .mgr .ok := by
  obtain ⟨hS, -, -⟩ := run_does c ops _ (Sound.init c t0 det radius val) 0 0
  rw [← hw] at hS
  have hr : ∀ b n, n ∈ c.states b → (step c w (.read b n)).2 = .path (Path.read c.kind (w.loc b n)).2 := fun b n hn => by
    simp only [step, Op.uses, if_pos hn, act, plain, Path.step]
  have hc : step c w (.timer empty) = check c w w.mgr none (.timer empty) := by
    simp only [step, Op.uses, act, hdue, ne_eq, not_true_eq_false, if_false]
  have hreads : (scan c w w.mgr none).2.reads = true := by
    have h1 := readAll_reads c (w.mgr.sensors.map fun s => (s, w.eyes s)) w hS.ready
    obtain ⟨ys, hys⟩ := readAll_ok c (w.mgr.sensors.map fun s => (s, w.eyes s)) w hS.ready (fun p hp => by
      obtain ⟨s, hs', rfl⟩ := List.mem_map.1 hp
      obtain ⟨Y, hY⟩ := hs s hs'
      rw [hr s _ (hS.eyes s hs')] at hY
      exact ⟨Y, by simpa using hY⟩)
    unfold scan
    rcases hq : readAll c w (w.mgr.sensors.map fun s => (s, w.eyes s)) with ⟨w1, o1⟩
    rw [hq] at h1 hys
    dsimp only at hys
    subst hys
    dsimp only
    rw [if_pos (show ∀ a ∈ (none.getD w.mgr.detectables).filter w.mgr.det, a ∈ w.mgr.detectables from fun a ha => List.mem_of_mem_filter ha)]
    obtain ⟨xs, hxs⟩ := readAll_ok c (((none : Option (List Obj)).getD w.mgr.detectables |>.filter w.mgr.det).map fun a => (a, w1.spots a)) w1 (h1.ready hS.ready) (fun p hp => by
      obtain ⟨a, ha', rfl⟩ := List.mem_map.1 hp
      obtain ⟨hd, hdet⟩ := List.mem_filter.1 ha'
      obtain ⟨X, hX⟩ := ha a hd hdet
      rw [hr a _ (hS.spots a hd)] at hX
      refine ⟨X, ?_⟩
      rw [h1.read hS.ready]
      show (Path.read c.kind (w.loc a (w1.spots a))).2 = _
      rw [show w1.spots = w.spots from h1.spots]
      simpa using hX)
    rcases hq2 : readAll c w1 (((none : Option (List Obj)).getD w.mgr.detectables |>.filter w.mgr.det).map fun a => (a, w1.spots a)) with ⟨w2, o2⟩
    rw [hq2] at hxs
    dsimp only at hxs
    subst hxs
    rfl
  rw [hc]
  simp only [check]
  rw [Stepped.timer_ok c.mgr w.mgr empty _ k rest hdue hreads fun s hs a ha _ => by
    obtain ⟨Y, X, -, -, -, h⟩ := (scan_spec c w hS.ready w.mgr none).2.2 hreads s hs a ha
    exact h]

/-- A location state at rest. -/
def Rests (p : P) (σ : Path.St P) : Prop := σ.act = none ∧ σ.value = p

theorem rests_read {K : Path.Kind P} {p : P} {σ : Path.St P} (h : Rests p σ) : Path.read K σ = (σ, .loc p) := by
  simp only [Path.read, h.1, h.2]

theorem rests_path {K : Path.Kind P} {p : P} {σ : Path.St P} (h : Rests p σ) (o : Path.Op P) (h1 : ∀ v ws, o ≠ .activate v ws) (h2 : ∀ q, o ≠ .assign q) :
    Rests p (Path.step K σ o).1 := by
  cases o with
  | activate v ws => exact absurd rfl (h1 v ws)
  | deactivate =>
    simp only [Path.step]
    split
    · rw [rests_read (p := p) (show Rests p { σ with locked := false } from h)]; exact ⟨rfl, h.2⟩
    · exact h
  | read => simp only [Path.step]; rw [rests_read h]; exact h
  | remaining => exact h
  | assign q => exact absurd rfl (h2 q)
  | advance t => simp only [Path.step]; split <;> exact h

/-- What nobody moves stays where it is. -/
theorem rests_step (c : Cfg P) (w : World P) (hw : w.Ready) (o : Op P) (a : Obj) (n : Nat) (p : P) (h : Rests p (w.loc a n)) (h1 : ∀ v ws, o ≠ .activate a n v ws)
    (h2 : ∀ q, o ≠ .assign a n q) : Rests p ((step c w o).1.loc a n) := by
  have one : ∀ b m (po : Path.Op P), (b = a → m = n → (∀ v ws, po ≠ .activate v ws) ∧ ∀ q, po ≠ .assign q) →
      Rests p (if a = b ∧ n = m then (Path.step c.kind (w.loc b m) po).1 else w.loc a n) := fun b m po hpo => by
    split
    · rename_i hc
      obtain ⟨rfl, rfl⟩ := hc
      exact rests_path h po (hpo rfl rfl).1 (hpo rfl rfl).2
    · exact h
  have chk : ∀ μ req f, Rests p ((check c w μ req f).1.loc a n) := fun μ req f => by
    show Rests p ((scan c w μ req).1.loc a n)
    rcases (scan_spec c w hw μ req).1.loc a n with e | e <;> rw [e]
    · exact h
    · rw [rests_read h]; exact h
  have key : Rests p ((act c w o).1.loc a n) := by
    cases o with
    | activate b m v ws =>
      have := one b m (.activate v ws) (fun hb hm => absurd rfl (by rw [← hb, ← hm] at h1; exact h1 v ws))
      simp only [act, activate]
      rcases hp : Path.step c.kind (w.loc b m) (.activate v ws) with ⟨τ, o'⟩
      rw [hp] at this
      cases o' with
      | done => dsimp only; split <;> exact this
      | error => exact this
      | loc p => exact this
      | list p => exact this
    | deactivate b m =>
      have := one b m .deactivate (fun _ _ => ⟨by simp, by simp⟩)
      simp only [act, deactivate]
      rcases hp : Path.step c.kind (w.loc b m) .deactivate with ⟨τ, o'⟩
      rw [hp] at this
      cases o' with
      | done => dsimp only; split <;> exact this
      | error => exact this
      | loc p => exact this
      | list p => exact this
    | read b m => exact one b m .read (fun _ _ => ⟨by simp, by simp⟩)
    | remaining b m => exact one b m .remaining (fun _ _ => ⟨by simp, by simp⟩)
    | assign b m q => exact one b m (.assign q) (fun hb hm => absurd rfl (by rw [← hb, ← hm] at h2; exact h2 q))
    | setRadius s r => exact h
    | detect b v => cases v <;> first | exact chk _ _ _ | exact h
    | addSensor s m => simp only [act]; split <;> exact h
    | addDetectable b m => simp only [act]; split <;> exact h
    | particular b => exact chk _ _ _
    | run => exact h
    | beginRun => exact h
    | timer e =>
      simp only [act]
      split
      · exact h
      · split
        · exact h
        · exact chk _ _ _
    | reorder view => exact h
    | mock b t =>
      simp only [act]
      split
      · show Rests p (if a = b then (Path.step c.kind (w.loc b n) (.advance t)).1 else w.loc a n)
        split
        · rename_i hb
          subst hb
          exact rests_path h _ (by simp) (by simp)
        · exact h
      · exact h
    | advance t =>
      simp only [act]
      split
      · show Rests p (if c.copy a then w.loc a n else { w.loc a n with now := (t : ℝ) })
        split <;> exact h
      · exact h
  unfold step
  split
  · exact key
  · split
    · exact key
    · exact h

theorem rests_run (c : Cfg P) (os : List (Op P)) (w : World P) (hw : Sound c w) (a : Obj) (n : Nat) (p : P) (h : Rests p (w.loc a n))
    (ho : ∀ o ∈ os, (∀ v ws, o ≠ .activate a n v ws) ∧ ∀ q, o ≠ .assign a n q) : Rests p ((run c w os).loc a n) := by
  induction os generalizing w with
  | nil => exact h
  | cons o os ih =>
    have h0 := ho o (List.mem_cons_self ..)
    exact ih _ (step_does c w hw o a n).sound (rests_step c w hw.ready o a n p h h0.1 h0.2) (fun o h => ho o (List.mem_cons_of_mem _ h))

/-- **C76 is violated: an actor that is past its last waypoint ends the manager.** If a motion has not been stopped when its way has been over for more than the slack,
the next check raises, whoever asks, and there are no checks any more, of anything. -/
theorem c76_overrun (c : Cfg P) (hK : ∀ a b, 0 ≤ c.kind.dist a b) (ht : 0 ≤ c.kind.tol) (t0 : Rat) (det : Obj → Bool) (radius : Obj → ℝ) (val : Obj → Nat → P)
    (os₁ os₂ : List (Op P)) (w₁ w : World P) (hw₁ : w₁ = run c (init t0 det radius val) os₁) (a : Obj) (n : Nat) (hcopy : c.copy a = false) (hn : c.states a = [n]) (v : ℝ)
    (hv : 0 < v) (ws : List P) (hok : (step c w₁ (.activate a n v ws)).2 = .path .done) (hno : Op.deactivate a n ∉ os₂) (hw : w = run c (step c w₁ (.activate a n v ws)).1 os₂)
    (hdet : w.mgr.det a = true) (hlate : pathLen (fun x y => c.kind.dist y x) (w₁.loc a n).value ws / v + c.kind.tol < (w.mgr.now : ℝ) - (w₁.mgr.now : ℝ))
    (hdue : ∃ k, w.mgr.loops = [(w.mgr.now, k)]) (empty : Bool) (os : List (Op P)) :
    (step c w (.timer empty)).2 = .mgr .error ∧ (run c (step c w (.timer empty)).1 os).mgr.loops = [] ∧
      (run c (step c w (.timer empty)).1 os).mgr.checks = (step c w (.timer empty)).1.mgr.checks := by
  obtain ⟨hS, hd, hsp, hl, hnow, po, hpo, hloc⟩ := watched c t0 det radius val os₁ os₂ w₁ w hw₁ a n hcopy hn v ws hok hno hw
  obtain ⟨k, hdue⟩ := hdue
  have hc : step c w (.timer empty) = check c w w.mgr none (.timer empty) := by
    simp only [step, Op.uses, act, hdue, ne_eq, not_true_eq_false, if_false]
  have hblind : (scan c w w.mgr none).2.reads = false := by
    by_contra hr
    obtain ⟨X, hX⟩ := scan_reads c w hS.ready w.mgr none (by simpa using hr) a (List.mem_filter.2 ⟨hd, hdet⟩)
    rw [hsp, hloc] at hX
    have := Path.c18_past_end c.kind hK (w₁.loc a n) hl v hv ht ws po hpo (by rw [← hloc, hS.clock a n hcopy, hnow]; exact hlate)
    rw [Path.step] at this
    rw [hX] at this
    cases this
  have herr : (Stepped.step c.mgr w.mgr (.timer empty (scan c w w.mgr none).2)).2 = .error := by
    obtain ⟨τ, o, h1, h2, -⟩ := Stepped.timer_eq c.mgr w.mgr empty (scan c w w.mgr none).2 k [] hdue
    simp only [Stepped.runDetectable] at h1
    rw [if_neg (fun hc => by rw [hblind] at hc; exact absurd hc.2 (by decide))] at h1
    rw [h2, ← (Prod.mk.inj h1).2]
  have hrun : w.mgr.isRunning = true := by
    have hw' : w = run c (init t0 det radius val) (os₁ ++ .activate a n v ws :: os₂) := by rw [run_append, ← hw₁]; exact hw
    obtain ⟨-, ⟨mo, -, e⟩, -⟩ := run_does c (os₁ ++ .activate a n v ws :: os₂) _ (Sound.init c t0 det radius val) a n
    have hL := Stepped.exec_loop c.mgr mo _ (Stepped.init_invA det t0) _ (Stepped.init_loop c.mgr det t0)
    rw [← hw'] at e
    rw [show Stepped.exec c.mgr mo (Stepped.St.init det t0) = w.mgr from e.symm] at hL
    by_contra hr
    have := (hL.idle' (by simpa using hr)).1
    rw [hdue] at this; cases this
  have hO : Stepped.Over (step c w (.timer empty)).1.mgr := by
    rw [hc]
    obtain ⟨h1, h2⟩ := Stepped.loops_timer c.mgr w.mgr hS.inv.toInvA k hdue empty (scan c w w.mgr none).2
    refine ⟨h1.trans hrun, h2.resolve_right fun h => ?_⟩
    rw [herr] at h; cases h.1
  have hS' := (step_does c w hS (.timer empty) a n).sound
  obtain ⟨-, ⟨mo, -, e⟩, -⟩ := run_does c os _ hS' a n
  refine ⟨by rw [hc]; simp only [check, herr], ?_, ?_⟩
  · rw [e]; exact (Stepped.over_exec c.mgr mo _ hS'.inv.toInvA hO).2
  · rw [e]; exact Stepped.over_checks c.mgr mo _ hS'.inv.toInvA hO

/-- **C76 is violated: a rehearsed actor cannot appear.** Setting the `DetectabilityState` of a clone to `True` raises, whether or not the clone moves: the manager
does not know clones. -/
theorem c76_clone_shown (c : Cfg P) (t0 : Rat) (det : Obj → Bool) (radius : Obj → ℝ) (val : Obj → Nat → P) (ops : List (Op P)) (w : World P)
    (hw : w = run c (init t0 det radius val) ops) (b : Obj) (hcopy : c.copy b = true) (hno : ∀ m, Op.addDetectable b m ∉ ops) : (step c w (.detect b true)).2 = .mgr .error := by
  obtain ⟨-, ⟨mo, hmo, e⟩, -⟩ := run_does c ops _ (Sound.init c t0 det radius val) b 0
  rw [← hw] at e
  have hd : b ∉ w.mgr.detectables := by
    rw [e]
    refine (Stepped.unseen_exec c.mgr mo _ (Sound.init c t0 det radius val).inv.toInvA (fun q hq => (hmo q hq).1) b (by simp [init, Stepped.St.init]) (fun q hq hW => ?_)).1
    obtain ⟨-, o, ho, hf⟩ := hmo q hq
    cases q with
    | addDetectable x ok => obtain ⟨m, rfl⟩ := hf; cases hW; exact hno m ho
    | startMover x ok => obtain ⟨hx, -⟩ := hf; cases hW; rw [hcopy] at hx; cases hx
    | _ => exact absurd hW id
  simp only [step, Op.uses, act, if_true, check]
  rw [(Stepped.c57_appearing_fails c.mgr w.mgr b _ hd).1]

end Verif.Patrol
