import Verif.Drive.Frame
import Verif.Drive.Spec

/-! # C75: rehearsals do not concern the manager -/

namespace Verif.Drive

open Verif.Queued (upd)

variable {P : Type}

theorem run_append (c : Cfg P) (w : World P) (os os' : List (Op P)) : run c w (os ++ os') = run c (run c w os) os' := by
  induction os generalizing w with
  | nil => rfl
  | cons o os ih => exact ih _

/-- The stage with clones `w` and without them `v`. -/
structure Sim (n0 : Nat) (w v : World P) : Prop where
  count : v.count = n0
  le : n0 ≤ w.count
  real : ∀ a < n0, w.copy a = false ∧ v.copy a = false
  copies : ∀ a, n0 ≤ a → a < w.count → w.copy a = true
  loc : ∀ a < n0, w.loc a = v.loc a
  mgr : ∃ d, w.mgr = re v.mgr d ∧ ∀ a < n0, d a = v.mgr.detect a
  nokey : ∀ x, n0 ≤ x → NoKey x v.mgr

theorem setLoc_self (w : World P) (a n : Nat) (σ : Path.St P) : (setLoc w a n σ).loc a n = σ := by simp [setLoc]

theorem setLoc_ne (w : World P) (a n b : Nat) (σ : Path.St P) (h : b ≠ a) : (setLoc w a n σ).loc b = w.loc b := by
  funext m; simp [setLoc, h]

theorem Sim.setLoc {n0 : Nat} {w v : World P} (h : Sim n0 w v) (a n : Nat) (σ : Path.St P) : Sim n0 (setLoc w a n σ) (setLoc v a n σ) := by
  refine ⟨h.count, h.le, h.real, h.copies, ?_, h.mgr, h.nokey⟩
  intro b hb
  funext m
  simp only [Drive.setLoc, h.loc b hb]

theorem Sim.setLeft {n0 : Nat} {w v : World P} (h : Sim n0 w v) (a n : Nat) (ha : n0 ≤ a) (σ : Path.St P) : Sim n0 (Drive.setLoc w a n σ) v := by
  refine ⟨h.count, h.le, h.real, h.copies, ?_, h.mgr, h.nokey⟩
  intro b hb
  rw [setLoc_ne _ _ _ _ _ (by omega), h.loc b hb]

/-- The same operation of the manager on both sides. -/
theorem Sim.manager {n0 : Nat} {w v : World P} (h : Sim n0 w v) (I : Queued.Inter ℝ P) (o : Queued.Op ℝ P)
    (ho : ∀ a, (o = .stop a ∨ (∃ v, o = .detect a v) ∨ ∃ v ws, o = .start a v ws) → a < n0) :
    Sim n0 { w with mgr := (Queued.step I w.mgr o).1 } { v with mgr := (Queued.step I v.mgr o).1 } ∧
      (Queued.step I w.mgr o).2 = (Queued.step I v.mgr o).2 := by
  obtain ⟨d, hd, ha⟩ := h.mgr
  obtain ⟨d', h1, h2, -⟩ := step_re I n0 v.mgr d ha o ho
  rw [hd, h1]
  refine ⟨⟨h.count, h.le, h.real, h.copies, h.loc, ⟨d', rfl, h2⟩, ?_⟩, rfl⟩
  intro x hx
  refine step_noKey I x v.mgr (h.nokey x hx) o ⟨fun hc => ?_, fun b hc => ?_, fun b ws hc => ?_⟩
  · have := ho x (.inl hc); omega
  · have := ho x (.inr (.inl ⟨b, hc⟩)); omega
  · have := ho x (.inr (.inr ⟨b, ws, hc⟩)); omega

theorem readAll_rest (c : Cfg P) (a : Nat) (l : List Nat) (w : World P) :
    (readAll c w a l).1.mgr = w.mgr ∧ (readAll c w a l).1.count = w.count ∧ (readAll c w a l).1.copy = w.copy ∧
      ∀ b, b ≠ a → (readAll c w a l).1.loc b = w.loc b := by
  induction l generalizing w with
  | nil => exact ⟨rfl, rfl, rfl, fun _ _ => rfl⟩
  | cons n l ih =>
    simp only [readAll]
    have key : ∀ τ, (readAll c (setLoc w a n τ) a l).1.mgr = w.mgr ∧ (readAll c (setLoc w a n τ) a l).1.count = w.count ∧
        (readAll c (setLoc w a n τ) a l).1.copy = w.copy ∧ ∀ b, b ≠ a → (readAll c (setLoc w a n τ) a l).1.loc b = w.loc b := by
      intro τ
      obtain ⟨h1, h2, h3, h4⟩ := ih (setLoc w a n τ)
      exact ⟨h1, h2, h3, fun b hb => by rw [h4 b hb, setLoc_ne _ _ _ _ _ hb]⟩
    cases hr : Path.read c.kind (w.loc a n) with
    | mk τ o =>
      cases o with
      | error => exact ⟨rfl, rfl, rfl, fun b hb => setLoc_ne _ _ _ _ _ hb⟩
      | done => exact key τ
      | loc p => exact key τ
      | list q => exact key τ

theorem Sim.readAll {n0 : Nat} (c : Cfg P) (a : Nat) (ha : a < n0) (l : List Nat) {w v : World P} (h : Sim n0 w v) :
    Sim n0 (Drive.readAll c w a l).1 (Drive.readAll c v a l).1 ∧ (Drive.readAll c w a l).2 = (Drive.readAll c v a l).2 := by
  induction l generalizing w v with
  | nil => exact ⟨h, rfl⟩
  | cons n l ih =>
    simp only [Drive.readAll]
    rw [h.loc a ha]
    cases hr : Path.read c.kind (v.loc a n) with
    | mk τ o =>
      cases o with
      | error => exact ⟨h.setLoc a n τ, rfl⟩
      | done => exact ih (h.setLoc a n τ)
      | loc p => exact ih (h.setLoc a n τ)
      | list q => exact ih (h.setLoc a n τ)

theorem Sim.readLeft {n0 : Nat} (c : Cfg P) (a : Nat) (ha : n0 ≤ a) (l : List Nat) {w v : World P} (h : Sim n0 w v) :
    Sim n0 (Drive.readAll c w a l).1 v := by
  obtain ⟨h1, h2, h3, h4⟩ := readAll_rest c a l w
  refine ⟨h.count, by rw [h2]; exact h.le, by rw [h3]; exact h.real, by rw [h2, h3]; exact h.copies, ?_, by rw [h1]; exact h.mgr, h.nokey⟩
  intro b hb
  rw [h4 b (by omega), h.loc b hb]

/-- A new clone. -/
theorem Sim.born {n0 : Nat} {w v : World P} (h : Sim n0 w v) (f : Nat → Path.St P) (x : Option Bool) :
    Sim n0 { count := w.count + 1, copy := upd w.copy w.count true, loc := fun b n => if b = w.count then f n else w.loc b n,
             mgr := { w.mgr with detect := upd w.mgr.detect w.count x } } v := by
  have hle := h.le
  refine ⟨h.count, by show n0 ≤ w.count + 1; omega, ?_, ?_, ?_, ?_, h.nokey⟩
  · intro a ha
    exact ⟨by show upd w.copy w.count true a = false; rw [Queued.upd_ne _ _ (by omega)]; exact (h.real a ha).1, (h.real a ha).2⟩
  · intro a h1 h2
    show upd w.copy w.count true a = true
    by_cases hb : a = w.count
    · rw [hb, Queued.upd_self]
    · rw [Queued.upd_ne _ _ hb]
      have h2 : a < w.count + 1 := h2
      exact h.copies a h1 (by omega)
  · intro a ha
    funext n
    show (if a = w.count then f n else w.loc a n) = _
    rw [if_neg (by omega), h.loc a ha]
  · obtain ⟨d, hd, hda⟩ := h.mgr
    refine ⟨upd w.mgr.detect w.count x, ?_, ?_⟩
    · show { w.mgr with detect := upd w.mgr.detect w.count x } = _
      rw [hd]; rfl
    · intro a ha
      rw [Queued.upd_ne _ _ (by omega), hd]
      exact hda a ha

theorem Sim.clone {n0 : Nat} (c : Cfg P) (a : Nat) {w v : World P} (h : Sim n0 (Drive.readAll c w a c.states).1 v) : Sim n0 (Drive.clone c w a).1 v := by
  unfold Drive.clone
  cases hr : Drive.readAll c w a c.states with
  | mk w' b =>
    rw [hr] at h
    cases b with
    | false => exact h
    | true => exact h.born (fun n => ⟨(w'.loc a n).now, (w'.loc a n).value, none, false⟩) (w'.mgr.detect a)

theorem Sim.activate {n0 : Nat} (c : Cfg P) (a n : Nat) (ha : a < n0) (s : ℝ) (ws : List P) {w v : World P} (h : Sim n0 w v) :
    Sim n0 (Drive.activate c w a n s ws).1 (Drive.activate c v a n s ws).1 ∧ (Drive.activate c w a n s ws).2 = (Drive.activate c v a n s ws).2 := by
  unfold Drive.activate
  rw [h.loc a ha, (h.real a ha).1, (h.real a ha).2]
  cases hr : Path.step c.kind (v.loc a n) (.activate s ws) with
  | mk τ o =>
    cases o with
    | done =>
      simp only [Bool.false_eq_true, if_false]
      obtain ⟨h1, h2⟩ := (h.setLoc a n τ).manager c.inter (.start a s ((v.loc a n).value :: ws)) (by
        rintro b (h | ⟨_, h⟩ | ⟨_, _, h⟩)
        · simp at h
        · simp at h
        · rw [Queued.Op.start.injEq] at h; omega)
      simp only [Queued.step, Drive.setLoc] at h1 h2
      cases hw : Queued.startMover c.inter w.mgr a s ((v.loc a n).value :: ws) with
      | mk μ r =>
        cases hv : Queued.startMover c.inter v.mgr a s ((v.loc a n).value :: ws) with
        | mk ν r' =>
          rw [hw, hv] at h1 h2
          have h2 : r = r' := h2
          subst h2
          cases r <;> exact ⟨h1, rfl⟩
    | error => exact ⟨h.setLoc a n τ, rfl⟩
    | loc p => exact ⟨h.setLoc a n τ, rfl⟩
    | list q => exact ⟨h.setLoc a n τ, rfl⟩

theorem Sim.deactivate {n0 : Nat} (c : Cfg P) (a n : Nat) (ha : a < n0) {w v : World P} (h : Sim n0 w v) :
    Sim n0 (Drive.deactivate c w a n).1 (Drive.deactivate c v a n).1 ∧ (Drive.deactivate c w a n).2 = (Drive.deactivate c v a n).2 := by
  unfold Drive.deactivate
  rw [h.loc a ha, (h.real a ha).1, (h.real a ha).2]
  split
  · have key : ∀ τ : Path.St P, Sim n0 (match Queued.stopMover w.mgr a false with
          | (μ, .ok) => (({ Drive.setLoc w a n { τ with act := none } with mgr := μ }, .path .done) : World P × Out P)
          | (μ, _) => ({ Drive.setLoc w a n τ with mgr := μ }, .path .error)).1
        (match Queued.stopMover v.mgr a false with
          | (μ, .ok) => (({ Drive.setLoc v a n { τ with act := none } with mgr := μ }, .path .done) : World P × Out P)
          | (μ, _) => ({ Drive.setLoc v a n τ with mgr := μ }, .path .error)).1 ∧
        (match Queued.stopMover w.mgr a false with
          | (μ, .ok) => (({ Drive.setLoc w a n { τ with act := none } with mgr := μ }, .path .done) : World P × Out P)
          | (μ, _) => ({ Drive.setLoc w a n τ with mgr := μ }, .path .error)).2 =
        (match Queued.stopMover v.mgr a false with
          | (μ, .ok) => (({ Drive.setLoc v a n { τ with act := none } with mgr := μ }, .path .done) : World P × Out P)
          | (μ, _) => ({ Drive.setLoc v a n τ with mgr := μ }, .path .error)).2 := by
      intro τ
      have hm : ∀ σ, Sim n0 { Drive.setLoc w a n σ with mgr := (Queued.stopMover w.mgr a false).1 } { Drive.setLoc v a n σ with mgr := (Queued.stopMover v.mgr a false).1 } ∧
          (Queued.stopMover w.mgr a false).2 = (Queued.stopMover v.mgr a false).2 := fun σ => (h.setLoc a n σ).manager c.inter (.stop a) (by
        rintro b (h | ⟨_, h⟩ | ⟨_, _, h⟩)
        · rw [Queued.Op.stop.injEq] at h; omega
        · simp at h
        · simp at h)
      cases hw : Queued.stopMover w.mgr a false with
      | mk μ r =>
        cases hv : Queued.stopMover v.mgr a false with
        | mk ν r' =>
          rw [hw, hv] at hm
          have h2 : r = r' := (hm τ).2
          subst h2
          cases r with
          | ok => exact ⟨(hm _).1, rfl⟩
          | error => exact ⟨(hm _).1, rfl⟩
          | refused => exact ⟨(hm _).1, rfl⟩
    cases hr : Path.read c.kind { v.loc a n with locked := false } with
    | mk τ o =>
      simp only [Bool.false_eq_true, if_false]
      cases o with
      | error => exact ⟨h.setLoc a n τ, rfl⟩
      | done => exact key τ
      | loc p => exact key τ
      | list q => exact key τ
  · exact ⟨h, rfl⟩

theorem Sim.leftActivate {n0 : Nat} (c : Cfg P) (a n : Nat) (ha : n0 ≤ a) (s : ℝ) (ws : List P) {w v : World P} (hc : w.copy a = true) (h : Sim n0 w v) :
    Sim n0 (Drive.activate c w a n s ws).1 v := by
  unfold Drive.activate
  rw [hc]
  cases Path.step c.kind (w.loc a n) (.activate s ws) with
  | mk τ o => cases o <;> exact h.setLeft a n ha τ

theorem Sim.leftDeactivate {n0 : Nat} (c : Cfg P) (a n : Nat) (ha : n0 ≤ a) {w v : World P} (hc : w.copy a = true) (h : Sim n0 w v) :
    Sim n0 (Drive.deactivate c w a n).1 v := by
  unfold Drive.deactivate
  rw [hc]
  split
  · cases Path.read c.kind { w.loc a n with locked := false } with
    | mk τ o => cases o <;> exact h.setLeft a n ha _
  · exact h

theorem Sim.left {n0 : Nat} {w v : World P} (h : Sim n0 w v) (μ : Queued.St ℝ P) (hm : ∃ d, μ = re v.mgr d ∧ ∀ a < n0, d a = v.mgr.detect a) :
    Sim n0 { w with mgr := μ } v := ⟨h.count, h.le, h.real, h.copies, h.loc, hm, h.nokey⟩

theorem noKey_re {x : Nat} {μ : Queued.St ℝ P} (d) (h : NoKey x μ) : NoKey x (re μ d) := h

/-- A step. -/
theorem Sim.step {n0 : Nat} (c : Cfg P) {w v : World P} (h : Sim n0 w v) (o : Op P) :
    Sim n0 (Drive.step c w o).1 (run c v (erase n0 o)) ∧ answers c n0 w [o] = answers c n0 v (erase n0 o) := by
  have hle := h.le
  have hcnt := h.count
  cases o with
  | activate a n s ws =>
    by_cases ha : a < n0
    · obtain ⟨h1, h2⟩ := h.activate c a n ha s ws
      simp [erase, Op.actor, ha, run, answers, Visible, Drive.step, act, hcnt, show a < w.count by omega, h1, h2]
    · simp only [erase, Op.actor, ha, if_false, run, answers, Visible, Drive.step, act, decide_false]
      refine ⟨?_, rfl⟩
      split
      · exact h.leftActivate c a n (by omega) s ws (h.copies a (by omega) (by assumption))
      · exact h
  | deactivate a n =>
    by_cases ha : a < n0
    · obtain ⟨h1, h2⟩ := h.deactivate c a n ha
      simp [erase, Op.actor, ha, run, answers, Visible, Drive.step, act, hcnt, show a < w.count by omega, h1, h2]
    · simp only [erase, Op.actor, ha, if_false, run, answers, Visible, Drive.step, act, decide_false]
      refine ⟨?_, rfl⟩
      split
      · exact h.leftDeactivate c a n (by omega) (h.copies a (by omega) (by assumption))
      · exact h
  | read a n =>
    by_cases ha : a < n0
    · have h1 := h.setLoc a n (Path.step c.kind (v.loc a n) .read).1
      simp [erase, Op.actor, ha, run, answers, Visible, Drive.step, act, plain, hcnt, show a < w.count by omega, h1, h.loc a ha]
    · simp only [erase, Op.actor, ha, if_false, run, answers, Visible, Drive.step, act, decide_false, plain]
      refine ⟨?_, rfl⟩
      split
      · exact h.setLeft a n (by omega) _
      · exact h
  | remaining a n =>
    by_cases ha : a < n0
    · have h1 := h.setLoc a n (Path.step c.kind (v.loc a n) .remaining).1
      simp [erase, Op.actor, ha, run, answers, Visible, Drive.step, act, plain, hcnt, show a < w.count by omega, h1, h.loc a ha]
    · simp only [erase, Op.actor, ha, if_false, run, answers, Visible, Drive.step, act, decide_false, plain]
      refine ⟨?_, rfl⟩
      split
      · exact h.setLeft a n (by omega) _
      · exact h
  | assign a n p =>
    by_cases ha : a < n0
    · have h1 := h.setLoc a n (Path.step c.kind (v.loc a n) (.assign p)).1
      simp [erase, Op.actor, ha, run, answers, Visible, Drive.step, act, plain, hcnt, show a < w.count by omega, h1, h.loc a ha]
    · simp only [erase, Op.actor, ha, if_false, run, answers, Visible, Drive.step, act, decide_false, plain]
      refine ⟨?_, rfl⟩
      split
      · exact h.setLeft a n (by omega) _
      · exact h
  | values a =>
    by_cases ha : a < n0
    · obtain ⟨h1, h2⟩ := h.readAll c a ha c.states
      simp [erase, Op.actor, ha, run, answers, Visible, Drive.step, act, hcnt, show a < w.count by omega, h1]
    · simp only [erase, Op.actor, ha, if_false, run, answers, Visible, Drive.step, act]
      refine ⟨?_, rfl⟩
      split
      · exact h.readLeft c a (by omega) _
      · exact h
  | detect a b =>
    by_cases ha : a < n0
    · obtain ⟨h1, h2⟩ := h.manager c.inter (.detect a b) (by
        rintro x (h | ⟨_, h⟩ | ⟨_, _, h⟩)
        · simp at h
        · rw [Queued.Op.detect.injEq] at h; omega
        · simp at h)
      simp only [Queued.step] at h1 h2
      rw [hcnt] at h1
      simp [erase, Op.actor, ha, run, answers, Visible, Drive.step, act, Drive.detect, hcnt, show a < w.count by omega, h1, h2]
    · simp only [erase, Op.actor, ha, if_false, run, answers, Visible, Drive.step, act, decide_false, Drive.detect]
      refine ⟨?_, rfl⟩
      split
      · obtain ⟨d, hd, hda⟩ := h.mgr
        refine h.left _ ?_
        have hk : NoKey a w.mgr := by rw [hd]; exact noKey_re d (h.nokey a (by omega))
        obtain ⟨d', h1, h2⟩ := setDetect_noKey a b w.mgr hk
        refine ⟨d', ?_, fun x hx => ?_⟩
        · rw [h1, hd]; rfl
        · rw [h2 x (by omega), hd]; exact hda x hx
      · exact h
  | clone a =>
    by_cases ha : a < n0
    · obtain ⟨h1, h2⟩ := h.readAll c a ha c.states
      have h3 : Sim n0 (Drive.clone c w a).1 (Drive.readAll c v a c.states).1 := Sim.clone c a h1
      simp [erase, Op.actor, ha, run, answers, Visible, Drive.step, act, hcnt, show a < w.count by omega, h3]
    · simp only [erase, Op.actor, ha, if_false, run, answers, Visible, Drive.step, act]
      refine ⟨?_, rfl⟩
      split
      · exact Sim.clone c a (h.readLeft c a (by omega) _)
      · exact h
  | mock a t =>
    simp only [erase, Op.actor, run, answers, Visible, Drive.step, act]
    refine ⟨?_, rfl⟩
    split
    · split
      · rename_i h1 h2
        have ha : n0 ≤ a := by
          by_contra hc
          rw [(h.real a (by omega)).1] at h2
          exact absurd h2 (by simp)
        refine ⟨h.count, h.le, h.real, h.copies, ?_, h.mgr, h.nokey⟩
        intro b hb
        funext n
        show (if b = a then _ else w.loc b n) = _
        rw [if_neg (by omega), h.loc b hb]
      · exact h
    · exact h
  | addSensor s =>
    obtain ⟨h1, h2⟩ := h.manager c.inter (.addSensor s) (by rintro b (h | ⟨_, h⟩ | ⟨_, _, h⟩) <;> simp at h)
    simp only [Queued.step] at h1 h2
    simp [erase, Op.actor, run, answers, Visible, Drive.step, act, h1, h2]
  | fire i =>
    obtain ⟨h1, h2⟩ := h.manager c.inter (.fire i) (by rintro b (h | ⟨_, h⟩ | ⟨_, _, h⟩) <;> simp at h)
    simp only [Queued.step] at h1 h2
    simp [erase, Op.actor, run, answers, Visible, Drive.step, act, h1, h2]
  | advance t =>
    obtain ⟨h1, h2⟩ := h.manager c.inter (.advance t) (by rintro b (h | ⟨_, h⟩ | ⟨_, _, h⟩) <;> simp at h)
    have e1 : erase n0 (.advance t : Op P) = [.advance t] := rfl
    have e2 : ∀ u : World P, Drive.step c u (.advance t) = act c u (.advance t) := fun _ => rfl
    rw [e1]
    simp only [run, answers, Visible, Op.actor, e2, act, if_true, List.append_nil]
    cases hw : Queued.step c.inter w.mgr (.advance t) with
    | mk μ r =>
      cases hv : Queued.step c.inter v.mgr (.advance t) with
      | mk ν r' =>
        rw [hw, hv] at h1 h2
        have h2 : r = r' := h2
        subst h2
        cases r with
        | ok =>
          refine ⟨⟨h.count, h.le, h.real, h.copies, ?_, h1.mgr, h1.nokey⟩, rfl⟩
          intro b hb
          funext n
          simp only [(h.real b hb).1, (h.real b hb).2, h.loc b hb]
        | error => exact ⟨h, rfl⟩
        | refused => exact ⟨h, rfl⟩

theorem answers_append (c : Cfg P) (n0 : Nat) (w : World P) (os os' : List (Op P)) :
    answers c n0 w (os ++ os') = answers c n0 w os ++ answers c n0 (run c w os) os' := by
  induction os generalizing w with
  | nil => rfl
  | cons o os ih => simp only [List.cons_append, answers, run, ih, List.append_assoc]

theorem Sim.run {n0 : Nat} (c : Cfg P) (os : List (Op P)) {w v : World P} (h : Sim n0 w v) :
    Sim n0 (Drive.run c w os) (Drive.run c v (os.flatMap (erase n0))) ∧ answers c n0 w os = answers c n0 v (os.flatMap (erase n0)) := by
  induction os generalizing w v with
  | nil => exact ⟨h, rfl⟩
  | cons o os ih =>
    obtain ⟨h1, h2⟩ := h.step c o
    obtain ⟨h3, h4⟩ := ih h1
    rw [List.flatMap_cons, run_append, answers_append, ← h2, ← h4]
    exact ⟨h3, by simp [answers]⟩

theorem Sim.init (t0 : ℝ) (n0 : Nat) (det : Nat → Option Bool) (val : Nat → Nat → P) : Sim n0 (init t0 n0 det val) (init t0 n0 det val) :=
  ⟨rfl, le_refl _, fun _ _ => ⟨rfl, rfl⟩, fun a h1 h2 => absurd h2 (by show ¬ a < n0; omega), fun _ _ => rfl, ⟨det, rfl, fun _ _ => rfl⟩,
    fun _ _ => ⟨rfl, rfl, by intro p hp; cases hp⟩⟩

end Verif.Drive
