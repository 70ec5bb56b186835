import Verif.Patrol.Model
import Verif.Stepped.Run
import Verif.Drive.Clock
import Mathlib.Tactic.ByContra

/-! # Reading, and the part of the manager in a run -/

namespace Verif.Patrol

open Verif.Stepped (Obj)

variable {P : Type}

/-! ### Reading twice is reading once -/

/-- Only a state that cannot be set up has not been set up. -/
def Ready (σ : Path.St P) : Prop := ∀ b, σ.act = some b → b.path = none → b.speed = 0 ∧ b.waypoints ≠ []

theorem onPath_idem (K : Path.Kind P) (σ : Path.St P) (b : Path.Act P) (hb : σ.act = some b) (path : List (Path.Leg P)) (t : ℝ) :
    (Path.onPath K σ b path t).1.act = some b ∧ (Path.onPath K σ b path t).1.locked = σ.locked ∧
      Path.onPath K (Path.onPath K σ b path t).1 b path t = Path.onPath K σ b path t := by
  by_cases h1 : σ.now - t < 0
  · have : Path.onPath K σ b path t = (σ, .error) := by simp only [Path.onPath, if_pos h1]
    rw [this]; exact ⟨hb, rfl, this⟩
  by_cases h2 : σ.now - t = 0
  · have : Path.onPath K σ b path t = (σ, .loc σ.value) := by simp only [Path.onPath, if_neg h1, if_pos h2]
    rw [this]; exact ⟨hb, rfl, this⟩
  cases hg : Path.getIndex K.tol (σ.now - t) (path.map (·.time)) 0 0 with
  | none =>
    have : Path.onPath K σ b path t = (σ, .error) := by simp only [Path.onPath, if_neg h1, if_neg h2, hg]
    rw [this]; exact ⟨hb, rfl, this⟩
  | some p =>
    obtain ⟨i, ws⟩ := p
    cases hp : path[i]? with
    | none =>
      have : Path.onPath K σ b path t = (σ, .error) := by simp only [Path.onPath, if_neg h1, if_neg h2, hg, hp]
      rw [this]; exact ⟨hb, rfl, this⟩
    | some leg =>
      by_cases h3 : leg.time = 0
      · have : Path.onPath K σ b path t = (σ, .error) := by simp only [Path.onPath, if_neg h1, if_neg h2, hg, hp, if_pos h3]
        rw [this]; exact ⟨hb, rfl, this⟩
      · have : Path.onPath K σ b path t = ({ σ with value := K.move leg.start leg.target ((σ.now - t - ws) / leg.time), act := some b },
            .loc (K.move leg.start leg.target ((σ.now - t - ws) / leg.time))) := by
          simp only [Path.onPath, if_neg h1, if_neg h2, hg, hp, if_neg h3]
        rw [this]
        refine ⟨rfl, rfl, ?_⟩
        simp only [Path.onPath, if_neg h1, if_neg h2, hg, hp, if_neg h3]

theorem read_idem (K : Path.Kind P) (σ : Path.St P) (h : Ready σ) : Path.read K (Path.read K σ).1 = Path.read K σ := by
  cases ha : σ.act with
  | none =>
    have : Path.read K σ = (σ, .loc σ.value) := by simp only [Path.read, ha]
    rw [this]; exact this
  | some b =>
    cases hp : b.path with
    | some path =>
      have : Path.read K σ = Path.onPath K σ b path b.started := by simp only [Path.read, ha, hp]
      rw [this]
      obtain ⟨h1, -, h2⟩ := onPath_idem K σ b ha path b.started
      conv_rhs => rw [← h2]
      simp only [Path.read, h1, hp]
    | none =>
      obtain ⟨h0, hw⟩ := h b ha hp
      have hs : Path.setup K σ b = none := by simp only [Path.setup, h0, hw, ne_eq, not_false_eq_true, and_self, if_true]
      have : Path.read K σ = (σ, .error) := by simp only [Path.read, ha, hp, hs]
      rw [this]; exact this

theorem ready_onPath (K : Path.Kind P) (σ : Path.St P) (b : Path.Act P) (hb : σ.act = some b) (path : List (Path.Leg P)) (hp : b.path ≠ none) (t : ℝ) :
    Ready (Path.onPath K σ b path t).1 := by
  intro b' h1 h2
  rw [(onPath_idem K σ b hb path t).1] at h1
  cases h1
  exact absurd h2 hp

theorem ready_read (K : Path.Kind P) (σ : Path.St P) : Ready (Path.read K σ).1 := by
  cases ha : σ.act with
  | none => simp only [Path.read, ha]; intro b hb; rw [ha] at hb; cases hb
  | some b =>
    cases hp : b.path with
    | some path => simp only [Path.read, ha, hp]; exact ready_onPath K σ b ha path (by rw [hp]; simp) _
    | none =>
      by_cases hs : b.speed = 0 ∧ b.waypoints ≠ []
      · have : Path.setup K σ b = none := by simp only [Path.setup, if_pos hs]
        simp only [Path.read, ha, hp, this]
        intro b' hb' _
        rw [ha] at hb'; cases hb'; exact hs
      · have : Path.setup K σ b = some { b with started := σ.now, path := some (Path.legs K b.speed σ.value b.waypoints) } := by
          simp only [Path.setup, if_neg hs]
        simp only [Path.read, ha, hp, this]
        exact ready_onPath K _ _ rfl _ (by simp) _

theorem ready_step (K : Path.Kind P) (σ : Path.St P) (o : Path.Op P) (h : Ready σ) : Ready (Path.step K σ o).1 := by
  cases o with
  | activate v ws =>
    simp only [Path.step]
    split
    · exact h
    · have := ready_read K { σ with locked := true, act := some ⟨σ.now, v, ws, none⟩ }
      cases hr : Path.read K { σ with locked := true, act := some ⟨σ.now, v, ws, none⟩ } with
      | mk τ o => rw [hr] at this; cases o <;> exact this
  | deactivate =>
    simp only [Path.step]
    split
    · have := ready_read K { σ with locked := false }
      cases hr : Path.read K { σ with locked := false } with
      | mk τ o => rw [hr] at this; cases o <;> first | exact this | (intro b hb; cases hb)
    · exact h
  | read => exact ready_read K σ
  | remaining => exact h
  | assign p => exact h
  | advance t => simp only [Path.step]; split <;> exact h

/-! ### What a check reads -/

/-- The world after some reads: nothing but location states is touched, and these have been read or not. -/
structure Reads (c : Cfg P) (w w' : World P) : Prop where
  mgr : w'.mgr = w.mgr
  eyes : w'.eyes = w.eyes
  spots : w'.spots = w.spots
  radius : w'.radius = w.radius
  loc : ∀ a n, w'.loc a n = w.loc a n ∨ w'.loc a n = (Path.read c.kind (w.loc a n)).1

theorem Reads.refl (c : Cfg P) (w : World P) : Reads c w w := ⟨rfl, rfl, rfl, rfl, fun _ _ => .inl rfl⟩

/-- All location states are ready. -/
def World.Ready (w : World P) : Prop := ∀ a n, Patrol.Ready (w.loc a n)

theorem Reads.ready {c : Cfg P} {w w' : World P} (h : Reads c w w') (hw : w.Ready) : w'.Ready := fun a n => by
  rcases h.loc a n with e | e <;> rw [e]
  · exact hw a n
  · exact ready_read _ _

theorem Reads.read {c : Cfg P} {w w' : World P} (h : Reads c w w') (hw : w.Ready) (a : Obj) (n : Nat) :
    (Path.read c.kind (w'.loc a n)).2 = (Path.read c.kind (w.loc a n)).2 := by
  rcases h.loc a n with e | e <;> rw [e]
  rw [read_idem _ _ (hw a n)]

theorem Reads.trans {c : Cfg P} {w w' w'' : World P} (hw : w.Ready) (h : Reads c w w') (k : Reads c w' w'') : Reads c w w'' :=
  ⟨k.mgr.trans h.mgr, k.eyes.trans h.eyes, k.spots.trans h.spots, k.radius.trans h.radius, fun a n => by
    rcases h.loc a n with e | e <;> rcases k.loc a n with e' | e' <;> rw [e', e]
    · exact .inl rfl
    · exact .inr rfl
    · exact .inr rfl
    · rw [read_idem _ _ (hw a n)]; exact .inr rfl⟩

theorem reads_one (c : Cfg P) (w : World P) (a : Obj) (n : Nat) : Reads c w (setLoc w a n (Path.read c.kind (w.loc a n)).1) :=
  ⟨rfl, rfl, rfl, rfl, fun b m => by
    simp only [setLoc]
    split
    · rename_i h; obtain ⟨rfl, rfl⟩ := h; exact .inr rfl
    · exact .inl rfl⟩

theorem readAll_reads (c : Cfg P) (l : List (Obj × Nat)) (w : World P) (hw : w.Ready) : Reads c w (readAll c w l).1 := by
  induction l generalizing w with
  | nil => exact .refl c w
  | cons p l ih =>
    obtain ⟨a, n⟩ := p
    have h1 := reads_one c w a n
    have h2 := ih _ (h1.ready hw)
    cases hr : Path.read c.kind (w.loc a n) with
    | mk τ o =>
      rw [hr] at h1 h2
      simp only [readAll, hr]
      cases o with
      | loc q =>
        dsimp only
        cases hx : readAll c (setLoc w a n τ) l with
        | mk w' ps =>
          rw [hx] at h2
          cases ps with
          | some ps => exact Reads.trans hw h1 h2
          | none => exact Reads.trans hw h1 h2
      | done => exact h1
      | list q => exact h1
      | error => exact h1

theorem readAll_some (c : Cfg P) (f : Obj → Nat) (as : List Obj) (w : World P) (hw : w.Ready) (ps : Dict Obj P) (h : (readAll c w (as.map fun a => (a, f a))).2 = some ps) :
    ∀ a ∈ as, ∃ X, ps.get? a = some X ∧ (Path.read c.kind (w.loc a (f a))).2 = .loc X := by
  induction as generalizing w ps with
  | nil => intro a ha; cases ha
  | cons b as ih =>
    have h1 := reads_one c w b (f b)
    cases hr : Path.read c.kind (w.loc b (f b)) with
    | mk τ o =>
      rw [hr] at h1
      simp only [List.map_cons, readAll, hr] at h
      cases o with
      | loc q =>
        dsimp only at h
        cases hx : readAll c (setLoc w b (f b) τ) (as.map fun a => (a, f a)) with
        | mk w' ps' =>
          rw [hx] at h
          cases ps' with
          | none => cases h
          | some ps' =>
            dsimp only at h
            cases h
            intro a ha
            rw [Dict.get?_cons]
            by_cases hb : b = a
            · subst hb; rw [if_pos rfl, hr]; exact ⟨q, rfl, rfl⟩
            · rw [if_neg hb]
              obtain ⟨X, e1, e2⟩ := ih (setLoc w b (f b) τ) (h1.ready hw) ps' (by rw [hx]) a ((List.mem_cons.1 ha).resolve_left fun h => hb h.symm)
              refine ⟨X, e1, ?_⟩
              rw [← h1.read hw]; exact e2
      | done => cases h
      | list q => cases h
      | error => cases h

/-- What a check sees. -/
theorem scan_spec (c : Cfg P) (w : World P) (hw : w.Ready) (μ : Stepped.St) (req : Option (List Obj)) :
    Reads c w (scan c w μ req).1 ∧ Stepped.Quiet (scan c w μ req).2 ∧ ((scan c w μ req).2.reads = true → ∀ s ∈ μ.sensors, ∀ a ∈ (req.getD μ.detectables).filter μ.det,
      ∃ Y X, (Path.read c.kind (w.loc s (w.eyes s))).2 = .loc Y ∧ (Path.read c.kind (w.loc a (w.spots a))).2 = .loc X ∧
        ((scan c w μ req).2.sees s a = some true ↔ c.line Y X ≤ w.radius s) ∧ (scan c w μ req).2.sees s a ≠ none) := by
  have q : ∀ r y x, Stepped.Quiet (sight c r y x) := fun _ _ _ _ _ => rfl
  have qb : Stepped.Quiet blind := fun _ _ => rfl
  have h1 := readAll_reads c (μ.sensors.map fun s => (s, w.eyes s)) w hw
  have s1 := readAll_some c w.eyes μ.sensors w hw
  unfold scan
  cases hx : readAll c w (μ.sensors.map fun s => (s, w.eyes s)) with
  | mk w1 ys =>
    rw [hx] at h1 s1
    cases ys with
    | none => exact ⟨h1, qb, fun h => by cases h⟩
    | some ys =>
      dsimp only
      by_cases hk : ∀ a ∈ (req.getD μ.detectables).filter μ.det, a ∈ μ.detectables
      · rw [if_pos hk]
        have h2 := readAll_reads c (((req.getD μ.detectables).filter μ.det).map fun a => (a, w1.spots a)) w1 (h1.ready hw)
        have s2 := readAll_some c w1.spots ((req.getD μ.detectables).filter μ.det) w1 (h1.ready hw)
        cases hy : readAll c w1 (((req.getD μ.detectables).filter μ.det).map fun a => (a, w1.spots a)) with
        | mk w2 xs =>
          rw [hy] at h2 s2
          cases xs with
          | none => exact ⟨Reads.trans hw h1 h2, qb, fun h => by cases h⟩
          | some xs =>
            refine ⟨Reads.trans hw h1 h2, q _ _ _, fun _ s hs a ha => ?_⟩
            obtain ⟨Y, e1, e2⟩ := s1 ys rfl s hs
            obtain ⟨X, e3, e4⟩ := s2 xs rfl a ha
            rw [h1.read hw, h1.spots] at e4
            refine ⟨Y, X, e2, e4, ?_, ?_⟩
            · simp only [sight, e1, e3, Option.some.injEq, decide_eq_true_eq]
              rw [show w2.radius = w.radius from h2.radius.trans h1.radius]
            · simp only [sight, e1, e3]; simp
      · rw [if_neg hk]
        exact ⟨h1, qb, fun h => by cases h⟩

end Verif.Patrol
