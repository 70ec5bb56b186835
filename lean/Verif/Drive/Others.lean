import Verif.Drive.Invariant
import Verif.Path.Props
import Verif.Queued.Cex

/-! # C75: what others do -/

namespace Verif.Drive

open Verif.Queued (upd)

variable {P : Type}

/-- Reading keeps the lock. -/
theorem read_locked (K : Path.Kind P) (σ : Path.St P) : (Path.read K σ).1.locked = σ.locked := by
  have h : ∀ (σ : Path.St P) A path t, (Path.onPath K σ A path t).1.locked = σ.locked := by
    intro σ A path t
    unfold Path.onPath
    dsimp only
    split
    · rfl
    · split
      · rfl
      · split
        · rfl
        · split
          · rfl
          · split <;> rfl
  unfold Path.read
  split
  · rfl
  · split
    · exact h _ _ _ _
    · split
      · rfl
      · exact h _ _ _ _

/-- Reading does not look at the lock. -/
theorem read_unlock (K : Path.Kind P) (σ : Path.St P) (b : Bool) : Path.read K { σ with locked := b } = ({ (Path.read K σ).1 with locked := b }, (Path.read K σ).2) := by
  have h : ∀ (σ : Path.St P) A path t, Path.onPath K { σ with locked := b } A path t = ({ (Path.onPath K σ A path t).1 with locked := b }, (Path.onPath K σ A path t).2) := by
    intro σ A path t
    unfold Path.onPath
    dsimp only
    split
    · rfl
    · split
      · rfl
      · split
        · rfl
        · split
          · rfl
          · split <;> rfl
  obtain ⟨now, value, act, locked⟩ := σ
  cases act with
  | none => rfl
  | some A =>
    simp only [Path.read]
    cases hp : A.path with
    | some path => exact h ⟨now, value, some A, locked⟩ _ _ _
    | none =>
      dsimp only
      have hs : Path.setup K ⟨now, value, some A, b⟩ A = Path.setup K ⟨now, value, some A, locked⟩ A := rfl
      rw [hs]
      cases Path.setup K ⟨now, value, some A, locked⟩ A with
      | none => rfl
      | some B => exact h ⟨now, value, some B, locked⟩ _ _ _

/-- Reading an active state leaves it active. -/
theorem read_active (K : Path.Kind P) (σ : Path.St P) (ha : σ.act ≠ none) : (Path.read K σ).1.act ≠ none := by
  have h : ∀ (σ : Path.St P) A path t, σ.act ≠ none → (Path.onPath K σ A path t).1.act ≠ none := by
    intro σ A path t hs
    unfold Path.onPath
    dsimp only
    split
    · exact hs
    · split
      · exact hs
      · split
        · exact hs
        · split
          · exact hs
          · split
            · exact hs
            · simp
  unfold Path.read
  split
  · exact ha
  · split
    · exact h _ _ _ _ ha
    · split
      · exact ha
      · exact h _ _ _ _ (by simp)

theorem readAll_locked (c : Cfg P) (a : Nat) (l : List Nat) (w : World P) (b n : Nat) : ((readAll c w a l).1.loc b n).locked = (w.loc b n).locked := by
  induction l generalizing w with
  | nil => rfl
  | cons m l ih =>
    have h1 : ∀ b n, ((setLoc w a m (Path.read c.kind (w.loc a m)).1).loc b n).locked = (w.loc b n).locked := by
      intro b n
      simp only [setLoc]
      split
      · rename_i h; rw [h.1, h.2, read_locked]
      · rfl
    simp only [readAll]
    cases hr : Path.read c.kind (w.loc a m) with
    | mk τ o =>
      rw [hr] at h1
      cases o with
      | error => exact h1 b n
      | done => rw [ih, h1]
      | loc p => rw [ih, h1]
      | list p => rw [ih, h1]

/-- The operation starts or ends a motion of the actor, or sets its detectability. -/
def Op.Touches (a : Nat) : Op P → Prop
  | .activate b _ _ _ => b = a
  | .deactivate b _ => b = a
  | .detect b _ => b = a
  | _ => False

theorem start_others (I : Queued.Inter ℝ P) (μ : Queued.St ℝ P) (b : Nat) (v : ℝ) (ws : List P) (a : Nat) (h : a ≠ b) :
    (Queued.startMover I μ b v ws).1.movers.has a = μ.movers.has a ∧ (Queued.startMover I μ b v ws).1.detect = μ.detect := by
  unfold Queued.startMover
  rcases μ.detect b with _ | _ | _
  · exact ⟨rfl, rfl⟩
  · exact ⟨has_set _ _ _ _ h, rfl⟩
  · dsimp only
    split
    · exact ⟨rfl, rfl⟩
    · exact ⟨by rw [find_movers]; exact has_set _ _ _ _ h, find_detect _ _ _⟩

theorem stop_others (μ : Queued.St ℝ P) (b : Nat) (f : Bool) (a : Nat) (h : a ≠ b) : (Queued.stopMover μ b f).1.movers.has a = μ.movers.has a := by
  rcases Queued.stopMover_cases μ b f with ⟨o, he⟩ | ⟨-, he⟩
  · rw [he]
  · rw [he]
    rw [Bool.eq_iff_iff, ← not_iff_not, Bool.not_eq_true, Bool.not_eq_true, has_iff, has_iff]
    simp only [Queued.taken, Dict.keys, Dict.del, List.mem_map, List.mem_filter]
    constructor
    · rintro hx k ⟨p, hp, rfl⟩ hc
      exact hx p.1 ⟨p, ⟨hp, by simp [hc, h]⟩, rfl⟩ hc
    · rintro hx k ⟨p, ⟨hp, -⟩, rfl⟩
      exact hx p.1 ⟨p, hp, rfl⟩

/-- What stays the same about an actor when others do something. -/
structure Same (a : Nat) (w v : World P) : Prop where
  count : w.count ≤ v.count
  copy : v.copy a = w.copy a
  detect : v.mgr.detect a = w.mgr.detect a
  known : v.mgr.movers.has a = w.mgr.movers.has a
  locked : ∀ n, (v.loc a n).locked = (w.loc a n).locked

theorem Same.refl (a : Nat) (w : World P) : Same a w w := ⟨le_refl _, rfl, rfl, rfl, fun _ => rfl⟩

theorem Same.trans {a : Nat} {u v w : World P} (h : Same a u v) (g : Same a v w) : Same a u w :=
  ⟨h.count.trans g.count, g.copy.trans h.copy, g.detect.trans h.detect, g.known.trans h.known, fun n => (g.locked n).trans (h.locked n)⟩

theorem same_setLoc (a : Nat) (w : World P) (b n : Nat) (τ : Path.St P) (μ : Queued.St ℝ P) (hd : μ.detect a = w.mgr.detect a) (hm : μ.movers.has a = w.mgr.movers.has a)
    (h : b = a → τ.locked = (w.loc a n).locked) : Same a w { setLoc w b n τ with mgr := μ } := by
  refine ⟨le_refl _, rfl, hd, hm, fun m => ?_⟩
  simp only [setLoc]
  split
  · rename_i hx; rw [h hx.1.symm, hx.2]
  · rfl

theorem Same.step (c : Cfg P) (a : Nat) (w : World P) (o : Op P) (ho : ¬ o.Touches a) (ha : a < w.count) : Same a w (Drive.step c w o).1 := by
  suffices h : Same a w (act c w o).1 by
    unfold Drive.step
    split
    · exact h
    · split
      · exact h
      · exact .refl _ _
  cases o with
  | activate b n v ws =>
    have hba : b ≠ a := ho
    have hm := start_others c.inter w.mgr b v ((w.loc b n).value :: ws) a (Ne.symm hba)
    simp only [act, Drive.activate]
    cases Path.step c.kind (w.loc b n) (.activate v ws) with
    | mk τ o =>
      cases o with
      | done =>
        dsimp only
        split
        · exact same_setLoc a w b n τ w.mgr rfl rfl (fun h => absurd h hba)
        · cases hq : Queued.startMover c.inter w.mgr b v ((w.loc b n).value :: ws) with
          | mk μ o =>
            rw [hq] at hm
            cases o <;> exact same_setLoc a w b n τ μ (congrFun hm.2 a) hm.1 (fun h => absurd h hba)
      | _ => exact same_setLoc a w b n τ w.mgr rfl rfl (fun h => absurd h hba)
  | deactivate b n =>
    have hba : b ≠ a := ho
    have hm := stop_others w.mgr b false a (Ne.symm hba)
    have hd := stopMover_detect w.mgr b false
    simp only [act, Drive.deactivate]
    split
    · cases Path.read c.kind { w.loc b n with locked := false } with
      | mk τ o =>
        have fin : Same a w (if w.copy b = true then (setLoc w b n { τ with act := none }, (Out.path .done : Out P))
            else match Queued.stopMover w.mgr b false with
              | (μ, .ok) => ({ setLoc w b n { τ with act := none } with mgr := μ }, .path .done)
              | (μ, _) => ({ setLoc w b n τ with mgr := μ }, .path .error)).1 := by
          split
          · exact same_setLoc a w b n _ w.mgr rfl rfl (fun h => absurd h hba)
          · cases hq : Queued.stopMover w.mgr b false with
            | mk μ o =>
              rw [hq] at hm hd
              cases o <;> exact same_setLoc a w b n _ μ (congrFun hd a) hm (fun h => absurd h hba)
        cases o with
        | error => exact same_setLoc a w b n τ w.mgr rfl rfl (fun h => absurd h hba)
        | done => exact fin
        | loc p => exact fin
        | list p => exact fin
    · exact .refl _ _
  | read b n => exact same_setLoc a w b n _ w.mgr rfl rfl (fun h => by rw [h]; exact read_locked _ _)
  | remaining b n => exact same_setLoc a w b n _ w.mgr rfl rfl (fun h => by rw [h]; rfl)
  | assign b n p => exact same_setLoc a w b n _ w.mgr rfl rfl (fun h => by rw [h]; rfl)
  | values b =>
    obtain ⟨h1, h2, h3, -⟩ := readAll_rest c b c.states w
    exact ⟨h2.ge, by simp only [act, h3], by simp only [act, h1], by simp only [act, h1], fun n => readAll_locked c b _ w a n⟩
  | detect b v =>
    have hba : b ≠ a := ho
    obtain ⟨-, h2, -⟩ := detect_effect w.mgr b v
    refine ⟨le_refl _, rfl, ?_, h2 a (Ne.symm hba), fun _ => rfl⟩
    simp only [act, Drive.detect]
    unfold Queued.setDetect
    split
    · rfl
    · dsimp only
      split
      · exact Queued.upd_ne _ _ (Ne.symm hba)
      · rw [stopMover_detect]; exact Queued.upd_ne _ _ (Ne.symm hba)
  | clone b =>
    obtain ⟨h1, h2, h3, -⟩ := readAll_rest c b c.states w
    have h4 := fun n => readAll_locked c b c.states w a n
    simp only [act, Drive.clone]
    cases hr : readAll c w b c.states with
    | mk u o =>
      rw [hr] at h1 h2 h3 h4
      dsimp only at h1 h2 h3 h4
      cases o with
      | false => exact ⟨h2.ge, by rw [h3], by rw [h1], by rw [h1], h4⟩
      | true =>
        have hne : a ≠ u.count := by omega
        refine ⟨by dsimp only; omega, ?_, ?_, by dsimp only; rw [h1], fun n => ?_⟩
        · dsimp only; rw [Queued.upd_ne _ _ hne, h3]
        · dsimp only; rw [Queued.upd_ne _ _ hne, h1]
        · dsimp only; rw [if_neg hne, h4]
  | mock b t =>
    simp only [act]
    split
    · refine ⟨le_refl _, rfl, rfl, rfl, fun n => ?_⟩
      dsimp only
      split
      · rename_i h; rw [h]; simp only [Path.step]; split <;> rfl
      · rfl
    · exact .refl _ _
  | addSensor s =>
    have hd := detect_same c.inter w.mgr (.addSensor s) (by simp)
    exact ⟨le_refl _, rfl, congrFun hd a, by simp only [act, addSensor_movers], fun _ => rfl⟩
  | fire i =>
    have hd := detect_same c.inter w.mgr (.fire i) (by simp)
    exact ⟨le_refl _, rfl, congrFun hd a, by simp only [act, fire_movers], fun _ => rfl⟩
  | advance t =>
    have hd := detect_same c.inter w.mgr (.advance t) (by simp)
    have hm : (Queued.step c.inter w.mgr (.advance t)).1.movers = w.mgr.movers := by
      simp only [Queued.step]; split <;> rfl
    simp only [act]
    cases hq : Queued.step c.inter w.mgr (.advance t) with
    | mk μ o =>
      rw [hq] at hd hm
      dsimp only at hd hm
      cases o with
      | ok =>
        refine ⟨le_refl _, rfl, congrFun hd a, by dsimp only; rw [hm], fun n => ?_⟩
        dsimp only
        split <;> rfl
      | _ => exact .refl _ _

theorem Same.run (c : Cfg P) (a : Nat) (ops : List (Op P)) (w : World P) (ho : ∀ o ∈ ops, ¬ o.Touches a) (ha : a < w.count) : Same a w (Drive.run c w ops) := by
  induction ops generalizing w with
  | nil => exact .refl _ _
  | cons o os ih =>
    have h := Same.step c a w o (ho o (by simp)) ha
    exact h.trans (ih _ (fun o h => ho o (by simp [h])) (lt_of_lt_of_le ha h.count))

/-- An actor that the manager believes to move, and that is detectable, cannot start a motion. -/
theorem held (c : Cfg P) (w : World P) (a n : Nat) (ha : a < w.count) (hc : w.copy a = false) (hd : w.mgr.detect a = some true) (hm : w.mgr.movers.has a = true)
    (v : ℝ) (ws : List P) : (step c w (.activate a n v ws)).2 = .path .error := by
  simp only [step, Op.actor, if_pos ha, act, Drive.activate]
  cases hp : Path.step c.kind (w.loc a n) (.activate v ws) with
  | mk τ o =>
    cases o with
    | done =>
      dsimp only
      rw [hc]
      simp only [Bool.false_eq_true, if_false, Queued.startMover, hd, hm, if_true]
    | error => rfl
    | loc p => exact absurd hp (by simp only [Path.step]; split <;> [skip; split] <;> simp)
    | list p => exact absurd hp (by simp only [Path.step]; split <;> [skip; split] <;> simp)

end Verif.Drive
