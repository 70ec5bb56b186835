import Verif.Drive.Others

/-! # C75: actors on a stage with a motion manager -/

namespace Verif.Drive

open Verif.Queued (upd)

variable {P : Type}

/-- **C75, rehearsals.** Whatever is rehearsed, and however often, when the clones are left out, and only the states that were copied are
read, the manager has told the sensors the same, the same sensors are believed to see the same actors, the actors are in the same state, and
every operation got the same answer. -/
theorem c75_rehearsal (c : Cfg P) (t0 : ℝ) (n0 : Nat) (det : Nat → Option Bool) (val : Nat → Nat → P) (ops : List (Op P)) :
    (run c (init t0 n0 det val) ops).mgr.log = (run c (init t0 n0 det val) (ops.flatMap (erase n0))).mgr.log ∧
      (run c (init t0 n0 det val) ops).mgr.now = (run c (init t0 n0 det val) (ops.flatMap (erase n0))).mgr.now ∧
      (∀ a < n0, (run c (init t0 n0 det val) ops).mgr.inView a = (run c (init t0 n0 det val) (ops.flatMap (erase n0))).mgr.inView a ∧
        (run c (init t0 n0 det val) ops).mgr.detect a = (run c (init t0 n0 det val) (ops.flatMap (erase n0))).mgr.detect a ∧
        (run c (init t0 n0 det val) ops).loc a = (run c (init t0 n0 det val) (ops.flatMap (erase n0))).loc a) ∧
      answers c n0 (init t0 n0 det val) ops = answers c n0 (init t0 n0 det val) (ops.flatMap (erase n0)) := by
  obtain ⟨h1, h2⟩ := (Sim.init t0 n0 det val).run c ops
  obtain ⟨d, hd, hda⟩ := h1.mgr
  refine ⟨by rw [hd]; rfl, by rw [hd]; rfl, fun a ha => ⟨by rw [hd]; rfl, by rw [hd]; exact hda a ha, h1.loc a ha⟩, h2⟩

/-- **C75, an actor on a stage with a manager moves like any other (the part that holds).** As long as actors are used properly (an actor with a
`DetectabilityState` starts a motion only when it has no active location state, and ends one during which it was made undetectable only while
undetectable) starting and ending motions has the result that it has without a manager. Missing: the other cases, in which the manager raises
(`c75_hidden_shown`, `c75_two_states`, `c75_overrun`). -/
theorem c75_transparent_partial (c : Cfg P) (t0 : ℝ) (n0 : Nat) (det : Nat → Option Bool) (val : Nat → Nat → P) (x : World P × (Nat → Bool))
    (hx : Course c (init t0 n0 det val) x) (a n : Nat) (ha : a < x.1.count) :
    (∀ v ws, Proper c x (.activate a n v ws) →
      (step c x.1 (.activate a n v ws)).2 = .path (Path.step c.kind (x.1.loc a n) (.activate v ws)).2 ∧
      ∀ b m, (step c x.1 (.activate a n v ws)).1.loc b m =
        if b = a ∧ m = n then (Path.step c.kind (x.1.loc a n) (.activate v ws)).1 else x.1.loc b m) ∧
    (Proper c x (.deactivate a n) →
      (step c x.1 (.deactivate a n)).2 = .path (Path.step c.kind (x.1.loc a n) .deactivate).2 ∧
      ∀ b m, (step c x.1 (.deactivate a n)).1.loc b m =
        if b = a ∧ m = n then (Path.step c.kind (x.1.loc a n) .deactivate).1 else x.1.loc b m) := by
  have hI := (Inv.init t0 n0 det val).course c hx
  constructor
  · intro v ws hp
    obtain ⟨h1, h2, -⟩ := activate_as c x hI a n v ws ha hp
    simp only [step, Op.actor, if_pos ha, act]
    exact ⟨h1, fun b m => by rw [h2]; rfl⟩
  · intro hp
    obtain ⟨h1, h2, -⟩ := deactivate_as c x hI a n ha hp
    simp only [step, Op.actor, if_pos ha, act]
    exact ⟨h1, fun b m => by rw [h2]; rfl⟩

/-- **C75, what the manager knows.** With actors used properly, the manager has an actor with a `DetectabilityState` among its movers exactly
when a location state of the actor is active on a path, and the actor was not made undetectable during its motion. -/
theorem c75_known (c : Cfg P) (t0 : ℝ) (n0 : Nat) (det : Nat → Option Bool) (val : Nat → Nat → P) (x : World P × (Nat → Bool))
    (hx : Course c (init t0 n0 det val) x) (a : Nat) (ha : a < x.1.count) (hc : x.1.copy a = false) (hd : x.1.mgr.detect a ≠ none) :
    a ∈ x.1.mgr.movers.keys ↔ (∃ n A, (x.1.loc a n).act = some A ∧ A.path ≠ none) ∧ x.2 a = false := by
  have := ((Inv.init t0 n0 det val).course c hx).known a ha hc hd
  rw [← show (∃ n, Driving (x.1.loc a n)) ↔ (∃ n A, (x.1.loc a n).act = some A ∧ A.path ≠ none) from .rfl, ← this]
  rw [← not_iff_not, Bool.not_eq_true, has_iff]
  constructor
  · rintro h k hk rfl; exact h hk
  · intro h hk; exact h a hk rfl

/-- **A motion during which the actor was undetectable for a while cannot be ended**, where without a manager it could: `deactivate_state`
raises, and the location state remains active. -/
theorem c75_hidden_shown (c : Cfg P) (w : World P) (a n : Nat) (ha : a < w.count) (hc : w.copy a = false) (hd : w.mgr.detect a ≠ none)
    (hact : (w.loc a n).act ≠ none) (hdone : (Path.step c.kind (w.loc a n) .deactivate).2 = .done) :
    (step c (run c w [.detect a false, .detect a true]) (.deactivate a n)).2 = .path .error ∧
      ((step c (run c w [.detect a false, .detect a true]) (.deactivate a n)).1.loc a n).act ≠ none := by
  have hl : (w.loc a n).locked = true := by
    by_contra hcon
    simp [Path.step, hcon] at hdone
  have e1 : step c w (.detect a false) = detect w a false := by simp only [step, Op.actor, if_pos ha, act]
  have e2 : step c (detect w a false).1 (.detect a true) = detect (detect w a false).1 a true := by
    simp only [step, Op.actor, act]
    rw [if_pos (show a < (detect w a false).1.count from ha)]
  obtain ⟨h1, -, -, h4, -⟩ := detect_effect w.mgr a false
  obtain ⟨h1', -, h3', -, -⟩ := detect_effect (Queued.setDetect w.mgr a false).1 a true
  have hd1 : (Queued.setDetect w.mgr a false).1.detect a ≠ none := fun hcon => hd ((h1 a).1 hcon)
  have hd2 : (Queued.setDetect (Queued.setDetect w.mgr a false).1 a true).1.detect a = some true := by
    unfold Queued.setDetect at hd1 ⊢
    split
    · rename_i hx; exact absurd hx hd1
    · exact Queued.upd_self _ _ _
  have hm2 : (Queued.setDetect (Queued.setDetect w.mgr a false).1 a true).1.movers.has a = false := by
    rw [h3' rfl]; exact h4 rfl hd
  have hrun : run c w [.detect a false, .detect a true] = { w with mgr := (Queued.setDetect (Queued.setDetect w.mgr a false).1 a true).1 } := by
    simp only [run, e1, e2]; rfl
  rw [hrun]
  have hra : (Path.read c.kind { w.loc a n with locked := false }).1.act ≠ none := read_active _ _ hact
  simp only [step, Op.actor, act, if_pos ha, Drive.deactivate, hl, if_true]
  simp only [Path.step, hl, if_true] at hdone
  cases hr : Path.read c.kind { w.loc a n with locked := false } with
  | mk τ o =>
    rw [hr] at hdone hra
    have hs : Queued.stopMover (Queued.setDetect (Queued.setDetect w.mgr a false).1 a true).1 a false = ((Queued.setDetect (Queued.setDetect w.mgr a false).1 a true).1, .error) := by
      simp [Queued.stopMover, hd2, hm2]
    cases o with
    | error => exact absurd hdone (by simp)
    | _ =>
      dsimp only
      rw [hc, hs]
      simp only [Bool.false_eq_true, if_false]
      exact ⟨trivial, by rw [setLoc_self]; exact hra⟩

/-- **An actor with two location states cannot use both**: starting a motion on the second while the first is active raises, where without a
manager it would not. -/
theorem c75_two_states (c : Cfg P) (t0 : ℝ) (n0 : Nat) (det : Nat → Option Bool) (val : Nat → Nat → P) (x : World P × (Nat → Bool))
    (hx : Course c (init t0 n0 det val) x) (a n m : Nat) (ha : a < x.1.count) (hc : x.1.copy a = false) (hd : x.1.mgr.detect a = some true) (hh : x.2 a = false)
    (A : Path.Act P) (hact : (x.1.loc a n).act = some A) (hA : A.path ≠ none) (hidle : (x.1.loc a m).act = none) (v : ℝ) (hv : v ≠ 0) (ws : List P) :
    (step c x.1 (.activate a m v ws)).2 = .path .error ∧ (Path.step c.kind (x.1.loc a m) (.activate v ws)).2 = .done := by
  have hI := (Inv.init t0 n0 det val).course c hx
  refine ⟨held c x.1 a m ha hc hd ((hI.known a ha hc (by rw [hd]; simp)).2 ⟨⟨n, A, hact, hA⟩, hh⟩) v ws, ?_⟩
  have hl : (x.1.loc a m).locked = false := by
    rcases hI.shape a ha hc m with hx | ⟨B, hB, -⟩
    · exact hx.2
    · rw [hidle] at hB; exact absurd hB (by simp)
  rcases start_idle c.kind _ hl v ws with ⟨h0, -⟩ | ⟨h, -⟩
  · exact absurd h0 hv
  · exact h

/-- **After a motion that took too long the actor cannot start another one**: reading the location past the end of the path raises, so
`deactivate_state` raises before it reaches the manager, which goes on believing that the actor moves. Whatever happens until the actor
starts its next motion or its detectability is set, that raises too, where without a manager it would not. -/
theorem c75_overrun (c : Cfg P) (t0 : ℝ) (n0 : Nat) (det : Nat → Option Bool) (val : Nat → Nat → P) (x : World P × (Nat → Bool))
    (hx : Course c (init t0 n0 det val) x) (a n : Nat) (ha : a < x.1.count) (hc : x.1.copy a = false) (hd : x.1.mgr.detect a = some true) (hh : x.2 a = false)
    (A : Path.Act P) (hact : (x.1.loc a n).act = some A) (hA : A.path ≠ none) (hl : (x.1.loc a n).locked = true)
    (hread : (Path.read c.kind (x.1.loc a n)).2 = .error) (ops : List (Op P)) (ho : ∀ o ∈ ops, ¬ o.Touches a) (v : ℝ) (hv : v ≠ 0) (ws : List P) :
    (step c x.1 (.deactivate a n)).2 = .path .error ∧
      (step c (run c (step c x.1 (.deactivate a n)).1 ops) (.activate a n v ws)).2 = .path .error ∧
      (Path.step c.kind ((run c (step c x.1 (.deactivate a n)).1 ops).loc a n) (.activate v ws)).2 = .done := by
  have hI := (Inv.init t0 n0 det val).course c hx
  have hm := (hI.known a ha hc (by rw [hd]; simp)).2 ⟨⟨n, A, hact, hA⟩, hh⟩
  have hread' : (Path.read c.kind { x.1.loc a n with locked := false }).2 = .error := by rw [read_unlock]; exact hread
  have hst : ∃ τ, step c x.1 (.deactivate a n) = (setLoc x.1 a n τ, .path .error) ∧ τ.locked = false := by
    simp only [step, Op.actor, act, if_pos ha, Drive.deactivate, hl, if_true]
    have h2 := read_locked c.kind { x.1.loc a n with locked := false }
    cases hr : Path.read c.kind { x.1.loc a n with locked := false } with
    | mk τ o =>
      rw [hr] at hread' h2
      dsimp only at hread'
      subst hread'
      exact ⟨τ, rfl, h2⟩
  obtain ⟨τ, h1, h2⟩ := hst
  rw [h1]
  have hs := Same.run c a ops (setLoc x.1 a n τ) ho ha
  refine ⟨rfl, held c _ a n (lt_of_lt_of_le ha hs.count) (by rw [hs.copy]; exact hc) (by rw [hs.detect]; exact hd) (by rw [hs.known]; exact hm) v ws, ?_⟩
  have hlk : ((run c (setLoc x.1 a n τ) ops).loc a n).locked = false := by rw [hs.locked n, setLoc_self]; exact h2
  rcases start_idle c.kind _ hlk v ws with ⟨h0, -⟩ | ⟨h, -⟩
  · exact absurd h0 hv
  · exact h

end Verif.Drive
