import Verif.Drive.Others
import Verif.Queued.Cartesian

/-! # C75: the runs of the manager and of a location state in a run without clones -/

namespace Verif.Drive

open Verif.Queued (upd)

variable {P : Type}

/-- The operation is not about the motion or detectability of `a`, nor the addition of sensor `s`. -/
def Op.Foreign (a s : Nat) : Op P → Prop
  | .activate b _ _ _ => b ≠ a
  | .deactivate b _ => b ≠ a
  | .detect b _ => b ≠ a
  | .addSensor s' => s' ≠ s
  | _ => True

/-- No rehearsal. -/
def Op.Earnest : Op P → Prop
  | .clone _ => False
  | .mock _ _ => False
  | _ => True

theorem read_now (K : Path.Kind P) (σ : Path.St P) : (Path.read K σ).1.now = σ.now := by
  have h : ∀ (σ : Path.St P) A path t, (Path.onPath K σ A path t).1.now = σ.now := by
    intro σ A path t
    unfold Path.onPath
    dsimp only
    split
    · rfl
    · split
      · rfl
      · split
        · rfl
        · split
          · rfl
          · split <;> rfl
  unfold Path.read
  split
  · rfl
  · split
    · exact h _ _ _ _
    · split
      · rfl
      · exact h _ _ _ _

theorem path_now (K : Path.Kind P) (σ : Path.St P) (o : Path.Op P) (ho : ∀ t, o ≠ .advance t) : (Path.step K σ o).1.now = σ.now := by
  cases o with
  | activate v ws =>
    simp only [Path.step]
    split
    · rfl
    · have := read_now K { σ with locked := true, act := some ⟨σ.now, v, ws, none⟩ }
      cases hr : Path.read K { σ with locked := true, act := some ⟨σ.now, v, ws, none⟩ } with
      | mk τ o =>
        rw [hr] at this
        cases o <;> exact this
  | deactivate =>
    simp only [Path.step]
    split
    · have := read_now K { σ with locked := false }
      cases hr : Path.read K { σ with locked := false } with
      | mk τ o =>
        rw [hr] at this
        cases o <;> exact this
    · rfl
  | read => exact read_now K σ
  | remaining => rfl
  | assign p => rfl
  | advance t => exact absurd rfl (ho t)

theorem find_now (I : Queued.Inter ℝ P) (l : List (Nat × Nat)) (μ : Queued.St ℝ P) : (Queued.find I l μ).1.now = μ.now := by
  have h1 : ∀ (m s : Nat) (ps : List (Queued.Entry ℝ × Queued.Entry ℝ)) (μ : Queued.St ℝ P), (ps.foldl (Queued.schedule m s) μ).now = μ.now := by
    intro m s ps
    induction ps with
    | nil => intro μ; rfl
    | cons p ps ih => intro μ; rw [List.foldl_cons, ih, Queued.schedule_now]
  have h2 : ∀ (μ : Queued.St ℝ P) m s, (Queued.findOne I μ m s).1.now = μ.now := by
    intro μ m s
    unfold Queued.findOne
    cases μ.movers.get? m with
    | none => rfl
    | some t =>
      dsimp only
      cases Queued.processPair I t s with
      | none => rfl
      | some ps => exact h1 _ _ _ _
  induction l generalizing μ with
  | nil => rfl
  | cons p l ih =>
    obtain ⟨m, s⟩ := p
    rw [Queued.find_cons]
    split
    · rw [ih, h2]
    · exact h2 _ _ _

theorem stopMover_now (μ : Queued.St ℝ P) (a : Nat) (f : Bool) : (Queued.stopMover μ a f).1.now = μ.now := by
  rcases Queued.stopMover_cases μ a f with ⟨o, h⟩ | ⟨-, h⟩ <;> rw [h] <;> rfl

theorem startMover_now (I : Queued.Inter ℝ P) (μ : Queued.St ℝ P) (a : Nat) (v : ℝ) (ws : List P) : (Queued.startMover I μ a v ws).1.now = μ.now := by
  unfold Queued.startMover
  rcases μ.detect a with _ | _ | _
  · rfl
  · rfl
  · dsimp only
    split
    · rfl
    · exact find_now _ _ _

theorem setDetect_now (μ : Queued.St ℝ P) (a : Nat) (v : Bool) : (Queued.setDetect μ a v).1.now = μ.now := by
  unfold Queued.setDetect
  split
  · rfl
  · dsimp only
    split
    · rfl
    · exact stopMover_now _ _ _

theorem fire_now (μ : Queued.St ℝ P) (i : Nat) : (Queued.fire μ i).1.now = μ.now := by
  have hae : ∀ (μ : Queued.St ℝ P) i p, (Queued.afterEntry μ i p).1.now = μ.now := by
    intro μ i p; unfold Queued.afterEntry; split
    · rfl
    · split <;> rfl
  have hav : ∀ (μ : Queued.St ℝ P) m s, (Queued.addToView μ m s).now = μ.now := by
    intro μ m s; unfold Queued.addToView; split <;> rfl
  have ht : ∀ (μ : Queued.St ℝ P) m s e, (Queued.tell μ m s e).now = μ.now := fun _ _ _ _ => rfl
  unfold Queued.fire
  cases μ.procs[i]? with
  | none => rfl
  | some p =>
    dsimp only
    cases p.stage with
    | over => rfl
    | fresh =>
      dsimp only
      unfold Queued.begins
      split
      · dsimp only; rw [hae]; split
        · rw [hav]
        · rw [ht, hav]
      · split <;> rfl
    | entry due =>
      dsimp only
      split
      · rfl
      · split
        · rw [hae, hav]; rfl
        · rfl
    | exit due =>
      dsimp only
      split
      · rfl
      · split
        · unfold Queued.leaves; dsimp only; split <;> rfl
        · rfl

/-- The actors are the `n0` actors of the beginning, and share the clock of the manager. -/
structure Real (n0 : Nat) (w : World P) : Prop where
  count : w.count = n0
  copy : ∀ a < n0, w.copy a = false
  clock : ∀ a < n0, ∀ n, (w.loc a n).now = w.mgr.now

theorem Real.init (t0 : ℝ) (n0 : Nat) (det : Nat → Option Bool) (val : Nat → Nat → P) : Real n0 (Drive.init t0 n0 det val) :=
  ⟨rfl, fun _ _ => rfl, fun _ _ _ => rfl⟩

theorem Real.set {n0 : Nat} {w : World P} (h : Real n0 w) (a n : Nat) (τ : Path.St P) (μ : Queued.St ℝ P) (hτ : τ.now = (w.loc a n).now) (hμ : μ.now = w.mgr.now) :
    Real n0 { setLoc w a n τ with mgr := μ } := by
  refine ⟨h.count, h.copy, fun b hb m => ?_⟩
  simp only [setLoc]
  split
  · rename_i hx; rw [hτ, hμ, ← hx.1]; exact h.clock b hb n
  · rw [hμ]; exact h.clock b hb m

/-- A step of the world, seen from the manager, and from the location state `n` of `a`. -/
structure Proj (c : Cfg P) (a s n : Nat) (w v : World P) (foreign : Prop) : Prop where
  mgr : ∃ qs, v.mgr = Queued.run c.inter w.mgr qs ∧ (foreign → ∀ q ∈ qs, Queued.Foreign a s q)
  loc : foreign → ∃ os, v.loc a n = Path.exec c.kind os (w.loc a n) ∧ ∀ o ∈ os, o.During

theorem Proj.refl (c : Cfg P) (a s n : Nat) (w : World P) (f : Prop) : Proj c a s n w w f := ⟨⟨[], rfl, by simp⟩, fun _ => ⟨[], rfl, by simp⟩⟩

theorem q_append (I : Queued.Inter ℝ P) (μ : Queued.St ℝ P) (os ps : List (Queued.Op ℝ P)) : Queued.run I μ (os ++ ps) = Queued.run I (Queued.run I μ os) ps := by
  induction os generalizing μ with
  | nil => rfl
  | cons o os ih => exact ih _

theorem Proj.trans {c : Cfg P} {a s n : Nat} {u v w : World P} {f g : Prop} (h : Proj c a s n u v f) (k : Proj c a s n v w g) : Proj c a s n u w (f ∧ g) := by
  obtain ⟨qs, h1, h2⟩ := h.mgr
  obtain ⟨rs, k1, k2⟩ := k.mgr
  refine ⟨⟨qs ++ rs, by rw [k1, h1, q_append], ?_⟩, ?_⟩
  · rintro ⟨hf, hg⟩ q hq
    rcases List.mem_append.1 hq with hq | hq
    · exact h2 hf q hq
    · exact k2 hg q hq
  · rintro ⟨hf, hg⟩
    obtain ⟨os, h3, h4⟩ := h.loc hf
    obtain ⟨ps, k3, k4⟩ := k.loc hg
    refine ⟨os ++ ps, by rw [k3, h3, Path.exec_append], ?_⟩
    intro o ho
    rcases List.mem_append.1 ho with ho | ho
    · exact h4 o ho
    · exact k4 o ho

theorem proj_set (c : Cfg P) (a s n : Nat) (w : World P) (b m : Nat) (τ : Path.St P) (qs : List (Queued.Op ℝ P)) (f : Prop) (μ : Queued.St ℝ P) (hμ : μ = Queued.run c.inter w.mgr qs)
    (hq : f → ∀ q ∈ qs, Queued.Foreign a s q) (hf : f → ¬ (a = b ∧ n = m)) : Proj c a s n w { setLoc w b m τ with mgr := μ } f := by
  refine ⟨⟨qs, hμ, hq⟩, fun h => ⟨[], ?_, by simp⟩⟩
  simp only [setLoc, if_neg (hf h)]
  rfl

theorem readAll_proj (c : Cfg P) (a s n b : Nat) (f : Prop) (l : List Nat) (w : World P) : Proj c a s n w (readAll c w b l).1 f ∧
    ∀ n0, Real n0 w → Real n0 (readAll c w b l).1 := by
  induction l generalizing w with
  | nil => exact ⟨.refl _ _ _ _ _ _, fun _ h => h⟩
  | cons m l ih =>
    have h0 : Proj c a s n w (setLoc w b m (Path.read c.kind (w.loc b m)).1) f := by
      refine ⟨⟨[], rfl, by simp⟩, fun _ => ?_⟩
      by_cases hx : a = b ∧ n = m
      · obtain ⟨rfl, rfl⟩ := hx
        exact ⟨[.read], by rw [setLoc_self]; rfl, by simp [Path.Op.During]⟩
      · exact ⟨[], by simp only [setLoc, if_neg hx]; rfl, by simp⟩
    have h1 : ∀ n0, Real n0 w → Real n0 (setLoc w b m (Path.read c.kind (w.loc b m)).1) := fun n0 h => h.set b m _ w.mgr (read_now _ _) rfl
    obtain ⟨h2, h3⟩ := ih (setLoc w b m (Path.read c.kind (w.loc b m)).1)
    have h4 := h0.trans h2
    simp only [readAll]
    cases hr : Path.read c.kind (w.loc b m) with
    | mk τ o =>
      rw [hr] at h0 h1 h2 h3 h4
      have h5 : Proj c a s n w (readAll c (setLoc w b m τ) b l).1 f := ⟨by
        obtain ⟨qs, g1, g2⟩ := h4.mgr
        exact ⟨qs, g1, fun hf => g2 ⟨hf, hf⟩⟩, fun hf => h4.loc ⟨hf, hf⟩⟩
      cases o with
      | error => exact ⟨h0, h1⟩
      | done => exact ⟨h5, fun n0 h => h3 n0 (h1 n0 h)⟩
      | loc p => exact ⟨h5, fun n0 h => h3 n0 (h1 n0 h)⟩
      | list p => exact ⟨h5, fun n0 h => h3 n0 (h1 n0 h)⟩

theorem plain_proj (c : Cfg P) (a s n : Nat) (w : World P) (b m : Nat) (o : Path.Op P) (ho : o.During) (f : Prop) :
    Proj c a s n w (plain c w b m o).1 f := by
  refine ⟨⟨[], rfl, by simp⟩, fun _ => ?_⟩
  by_cases hx : a = b ∧ n = m
  · obtain ⟨rfl, rfl⟩ := hx
    exact ⟨[o], by simp only [plain]; rw [setLoc_self]; rfl, by simpa using ho⟩
  · exact ⟨[], by simp only [plain, setLoc, if_neg hx]; rfl, by simp⟩

/-- **A run without clones is a run of the manager and of each location state.** -/
theorem Real.step (c : Cfg P) {n0 : Nat} {w : World P} (h : Real n0 w) (o : Op P) (he : o.Earnest) (a s n : Nat) (ha : a < n0) :
    Real n0 (Drive.step c w o).1 ∧ Proj c a s n w (Drive.step c w o).1 (o.Foreign a s) := by
  by_cases hr : ∃ b, o.actor = some b ∧ ¬ b < w.count
  · obtain ⟨b, hb, hlt⟩ := hr
    have hs : (Drive.step c w o).1 = w := by simp only [Drive.step, hb, if_neg hlt]
    rw [hs]
    exact ⟨h, .refl _ _ _ _ _ _⟩
  have hlt : ∀ b, o.actor = some b → b < w.count := fun b hb => by
    by_contra hc; exact hr ⟨b, hb, hc⟩
  have hs : Drive.step c w o = act c w o := by
    unfold Drive.step
    cases hb : o.actor with
    | none => rfl
    | some b => exact if_pos (hlt b hb)
  rw [hs]
  cases o with
  | activate b m v ws =>
    have hb : b < n0 := by have := hlt b rfl; rwa [h.count] at this
    have hn := path_now c.kind (w.loc b m) (.activate v ws) (by simp)
    have hq := startMover_now c.inter w.mgr b v ((w.loc b m).value :: ws)
    simp only [act, Drive.activate]
    cases hp : Path.step c.kind (w.loc b m) (.activate v ws) with
    | mk τ o =>
      rw [hp] at hn
      have hset : Real n0 (setLoc w b m τ) ∧ Proj c a s n w (setLoc w b m τ) ((Op.activate b m v ws).Foreign a s) :=
        ⟨h.set b m τ w.mgr hn rfl, proj_set c a s n w b m τ [] _ w.mgr rfl (by simp) (fun hf hx => hf hx.1.symm)⟩
      cases o with
      | done =>
        dsimp only
        rw [h.copy b hb]
        simp only [Bool.false_eq_true, if_false]
        cases hm : Queued.startMover c.inter w.mgr b v ((w.loc b m).value :: ws) with
        | mk μ o =>
          rw [hm] at hq
          have hset' : Real n0 { setLoc w b m τ with mgr := μ } ∧ Proj c a s n w { setLoc w b m τ with mgr := μ } ((Op.activate b m v ws).Foreign a s) := by
            refine ⟨h.set b m τ μ hn hq, proj_set c a s n w b m τ [.start b v ((w.loc b m).value :: ws)] _ μ ?_ ?_ (fun hf hx => hf hx.1.symm)⟩
            · simp only [Queued.run, Queued.step, hm]
            · intro hf q hq; rw [List.mem_singleton.1 hq]; exact hf
          cases o <;> exact hset'
      | _ => exact hset
  | deactivate b m =>
    have hb : b < n0 := by have := hlt b rfl; rwa [h.count] at this
    have hq := stopMover_now w.mgr b false
    simp only [act, Drive.deactivate]
    cases hl : (w.loc b m).locked with
    | false => exact ⟨h, .refl _ _ _ _ _ _⟩
    | true =>
      simp only [if_true]
      have hn := read_now c.kind { w.loc b m with locked := false }
      cases hp : Path.read c.kind { w.loc b m with locked := false } with
      | mk τ o =>
        rw [hp] at hn
        have fin : ∀ x : World P × Out P, x = (if w.copy b = true then (setLoc w b m { τ with act := none }, .path .done)
            else match Queued.stopMover w.mgr b false with
              | (μ, .ok) => ({ setLoc w b m { τ with act := none } with mgr := μ }, .path .done)
              | (μ, _) => ({ setLoc w b m τ with mgr := μ }, .path .error)) →
            Real n0 x.1 ∧ Proj c a s n w x.1 ((Op.deactivate (P := P) b m).Foreign a s) := by
          rintro x rfl
          rw [h.copy b hb]
          simp only [Bool.false_eq_true, if_false]
          cases hm : Queued.stopMover w.mgr b false with
          | mk μ o =>
            rw [hm] at hq
            have hset' : ∀ τ' : Path.St P, τ'.now = (w.loc b m).now → Real n0 { setLoc w b m τ' with mgr := μ } ∧
                Proj c a s n w { setLoc w b m τ' with mgr := μ } ((Op.deactivate (P := P) b m).Foreign a s) := by
              intro τ' hn
              refine ⟨h.set b m τ' μ hn hq, proj_set c a s n w b m τ' [.stop b] _ μ ?_ ?_ (fun hf hx => hf hx.1.symm)⟩
              · simp only [Queued.run, Queued.step, hm]
              · intro hf q hq; rw [List.mem_singleton.1 hq]; exact hf
            cases o with
            | ok => exact hset' _ hn
            | _ => exact hset' τ hn
        cases o with
        | error => exact ⟨h.set b m τ w.mgr hn rfl, proj_set c a s n w b m τ [] _ w.mgr rfl (by simp) (fun hf hx => hf hx.1.symm)⟩
        | done => exact fin _ rfl
        | loc p => exact fin _ rfl
        | list p => exact fin _ rfl
  | read b m => exact ⟨h.set b m _ w.mgr (read_now _ _) rfl, plain_proj c a s n w b m .read trivial _⟩
  | remaining b m => exact ⟨h.set b m _ w.mgr rfl rfl, plain_proj c a s n w b m .remaining trivial _⟩
  | assign b m p => exact ⟨h.set b m _ w.mgr rfl rfl, plain_proj c a s n w b m (.assign p) trivial _⟩
  | values b => exact ⟨(readAll_proj c a s n b True c.states w).2 n0 h, (readAll_proj c a s n b _ c.states w).1⟩
  | detect b v =>
    refine ⟨⟨h.count, h.copy, fun x hx m => ?_⟩, ⟨⟨[.detect b v], rfl, ?_⟩, fun _ => ⟨[], rfl, by simp⟩⟩⟩
    · simp only [act, Drive.detect, setDetect_now]; exact h.clock x hx m
    · intro hf q hq; rw [List.mem_singleton.1 hq]; exact hf
  | clone b => exact absurd he id
  | mock b t => exact absurd he id
  | addSensor s' =>
    refine ⟨⟨h.count, h.copy, fun x hx m => ?_⟩, ⟨⟨[.addSensor s'], rfl, ?_⟩, fun _ => ⟨[], rfl, by simp⟩⟩⟩
    · simp only [act, Queued.addSensor, find_now]; exact h.clock x hx m
    · intro hf q hq; rw [List.mem_singleton.1 hq]; exact hf
  | fire i =>
    refine ⟨⟨h.count, h.copy, fun x hx m => ?_⟩, ⟨⟨[.fire i], rfl, ?_⟩, fun _ => ⟨[], rfl, by simp⟩⟩⟩
    · simp only [act, fire_now]; exact h.clock x hx m
    · intro hf q hq; rw [List.mem_singleton.1 hq]; exact hf
  | advance t =>
    simp only [act]
    by_cases hc : w.mgr.now ≤ t ∧ ∀ p ∈ w.mgr.procs, Queued.Idle t p
    · have hst : Queued.step c.inter w.mgr (.advance t) = ({ w.mgr with now := t }, .ok) := by simp only [Queued.step, if_pos hc]
      rw [hst]
      dsimp only
      refine ⟨⟨h.count, h.copy, fun x hx m => ?_⟩, ⟨⟨[.advance t], ?_, ?_⟩, fun _ => ⟨[.advance t], ?_, by simp [Path.Op.During]⟩⟩⟩
      · dsimp only; rw [h.copy x hx]; rfl
      · simp only [Queued.run, hst]
      · intro _ q hq; rw [List.mem_singleton.1 hq]; trivial
      · dsimp only
        rw [h.copy a ha]
        simp only [Bool.false_eq_true, if_false, Path.exec, Path.step]
        rw [if_pos (by rw [h.clock a ha n]; exact hc.1)]
    · have hst : Queued.step c.inter w.mgr (.advance t) = (w.mgr, .refused) := by simp only [Queued.step, if_neg hc]
      rw [hst]
      exact ⟨h, .refl _ _ _ _ _ _⟩

theorem Real.run (c : Cfg P) {n0 : Nat} {w : World P} (h : Real n0 w) (os : List (Op P)) (he : ∀ o ∈ os, o.Earnest) (a s n : Nat) (ha : a < n0) :
    Real n0 (Drive.run c w os) ∧ Proj c a s n w (Drive.run c w os) (∀ o ∈ os, o.Foreign a s) := by
  induction os generalizing w with
  | nil => exact ⟨h, .refl _ _ _ _ _ _⟩
  | cons o os ih =>
    obtain ⟨h1, h2⟩ := h.step c o (he o (by simp)) a s n ha
    obtain ⟨h3, h4⟩ := ih h1 (fun o ho => he o (by simp [ho]))
    refine ⟨h3, ?_⟩
    have h5 := h2.trans h4
    obtain ⟨qs, g1, g2⟩ := h5.mgr
    exact ⟨⟨qs, g1, fun hf => g2 ⟨hf o (by simp), fun o ho => hf o (by simp [ho])⟩⟩, fun hf => h5.loc ⟨hf o (by simp), fun o ho => hf o (by simp [ho])⟩⟩

theorem erase_earnest (n0 : Nat) (o x : Op P) (h : x ∈ erase n0 o) : x.Earnest ∧ ∀ a s, o.Foreign a s → x.Foreign a s := by
  cases o with
  | clone b =>
    simp only [erase] at h
    split at h
    · rw [List.mem_singleton.1 h]; exact ⟨trivial, fun _ _ _ => trivial⟩
    · simp at h
  | mock b t => simp [erase] at h
  | addSensor s' => rw [List.mem_singleton.1 h]; exact ⟨trivial, fun _ _ hf => hf⟩
  | fire i => rw [List.mem_singleton.1 h]; exact ⟨trivial, fun _ _ hf => hf⟩
  | advance t => rw [List.mem_singleton.1 h]; exact ⟨trivial, fun _ _ hf => hf⟩
  | _ =>
    simp only [erase, Op.actor] at h
    split at h
    · rw [List.mem_singleton.1 h]; exact ⟨trivial, fun _ _ hf => hf⟩
    · simp at h

end Verif.Drive
