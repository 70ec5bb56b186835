import Verif.Drive.Frame
import Verif.Drive.Spec

/-! # C75: what the manager knows of the motion of actors -/

namespace Verif.Drive

open Verif.Queued (upd)

variable {P : Type}

theorem fold_movers {α L : Type} [Field α] [LinearOrder α] (m s : Nat) (ps : List (Queued.Entry α × Queued.Entry α)) (μ : Queued.St α L) :
    (ps.foldl (Queued.schedule m s) μ).movers = μ.movers := by
  induction ps generalizing μ with
  | nil => rfl
  | cons p ps ih => rw [List.foldl_cons, ih]; unfold Queued.schedule; split <;> rfl

theorem findOne_movers (I : Queued.Inter ℝ P) (μ : Queued.St ℝ P) (m s : Nat) : (Queued.findOne I μ m s).1.movers = μ.movers := by
  unfold Queued.findOne
  cases μ.movers.get? m with
  | none => rfl
  | some t =>
    dsimp only
    cases Queued.processPair I t s with
    | none => rfl
    | some ps => exact fold_movers _ _ _ _

theorem find_movers (I : Queued.Inter ℝ P) (l : List (Nat × Nat)) (μ : Queued.St ℝ P) : (Queued.find I l μ).1.movers = μ.movers := by
  induction l generalizing μ with
  | nil => rfl
  | cons p l ih =>
    obtain ⟨m, s⟩ := p
    rw [Queued.find_cons]
    split
    · rw [ih, findOne_movers]
    · exact findOne_movers _ _ _ _

theorem find_ok (I : Queued.Inter ℝ P) (m : Nat) (t : Queued.Trip ℝ P) (l : List Nat) (hl : ∀ s ∈ l, (Queued.processPair I t s).isSome) (μ : Queued.St ℝ P)
    (hm : μ.movers.get? m = some t) : (Queued.find I (l.map fun s => (m, s)) μ).2 = .ok := by
  induction l generalizing μ with
  | nil => rfl
  | cons s l ih =>
    rw [List.map_cons, Queued.find_cons]
    have h1 : (Queued.findOne I μ m s).2 = .ok := by
      unfold Queued.findOne
      rw [hm]
      dsimp only
      obtain ⟨ps, hps⟩ := Option.isSome_iff_exists.1 (hl s (by simp))
      rw [hps]
    rw [if_pos h1]
    exact ih (fun s hs => hl s (by simp [hs])) _ (by rw [findOne_movers, hm])

theorem fire_movers (μ : Queued.St ℝ P) (i : Nat) : (Queued.fire μ i).1.movers = μ.movers := by
  have hae : ∀ (μ : Queued.St ℝ P) i p, (Queued.afterEntry μ i p).1.movers = μ.movers := by
    intro μ i p; unfold Queued.afterEntry; split
    · rfl
    · split <;> rfl
  have hav : ∀ (μ : Queued.St ℝ P) m s, (Queued.addToView μ m s).movers = μ.movers := by
    intro μ m s; unfold Queued.addToView; split <;> rfl
  have ht : ∀ (μ : Queued.St ℝ P) m s e, (Queued.tell μ m s e).movers = μ.movers := fun _ _ _ _ => rfl
  unfold Queued.fire
  cases μ.procs[i]? with
  | none => rfl
  | some p =>
    dsimp only
    cases p.stage with
    | over => rfl
    | fresh =>
      dsimp only
      unfold Queued.begins
      split
      · dsimp only; rw [hae]; split
        · rw [hav]
        · rw [ht, hav]
      · split <;> rfl
    | entry due =>
      dsimp only
      split
      · rfl
      · split
        · rw [hae, hav]; rfl
        · rfl
    | exit due =>
      dsimp only
      split
      · rfl
      · split
        · unfold Queued.leaves; dsimp only; split <;> rfl
        · rfl

/-- The kernel and new sensors do not change the detectability. -/
theorem detect_same (I : Queued.Inter ℝ P) (μ : Queued.St ℝ P) (o : Queued.Op ℝ P)
    (ho : ∀ a, ¬ (o = .stop a ∨ (∃ v, o = .detect a v) ∨ ∃ v ws, o = .start a v ws)) : (Queued.step I μ o).1.detect = μ.detect := by
  obtain ⟨d, h1, -, h3⟩ := step_re I 0 μ μ.detect (fun _ _ => rfl) o (fun a h => absurd h (ho a))
  have h2 : (Queued.step I μ o).1.detect = d := by
    have := congrArg (fun x => x.1.detect) h1
    exact this
  rw [h2]
  funext a
  exact h3 a (Nat.zero_le _)

/-- What the operations other than those on the hooks keep. -/
def Keeps (σ τ : Path.St P) : Prop := τ.act = σ.act ∧ τ.locked = σ.locked

theorem Keeps.refl (σ : Path.St P) : Keeps σ σ := ⟨rfl, rfl⟩

theorem Keeps.trans {σ τ ρ : Path.St P} (h : Keeps σ τ) (g : Keeps τ ρ) : Keeps σ ρ := ⟨g.1.trans h.1, g.2.trans h.2⟩

/-- A location state is idle and unlocked, or active on a path, or active without a path because its speed is zero. -/
def Shape (σ : Path.St P) : Prop :=
  (σ.act = none ∧ σ.locked = false) ∨ ∃ A, σ.act = some A ∧ (A.path ≠ none ∨ (A.speed = 0 ∧ A.waypoints ≠ []))

theorem Keeps.shape {σ τ : Path.St P} (h : Keeps σ τ) (hs : Shape σ) : Shape τ := by
  unfold Shape; rw [h.1, h.2]; exact hs

/-- The state is active on a path. -/
def Driving (σ : Path.St P) : Prop := ∃ A, σ.act = some A ∧ A.path ≠ none

theorem Keeps.driving {σ τ : Path.St P} (h : Keeps σ τ) : Driving τ ↔ Driving σ := by unfold Driving; rw [h.1]

theorem onPath_keeps (K : Path.Kind P) (σ : Path.St P) (A : Path.Act P) (path) (started : ℝ) (h : σ.act = some A) : Keeps σ (Path.onPath K σ A path started).1 := by
  unfold Path.onPath
  dsimp only
  split
  · exact .refl _
  · split
    · exact .refl _
    · split
      · exact .refl _
      · split
        · exact .refl _
        · split
          · exact .refl _
          · exact ⟨h.symm, rfl⟩

/-- Reading, whatever the lock. -/
theorem read_keeps (K : Path.Kind P) (σ : Path.St P) (hs : σ.act = none ∨ ∃ A, σ.act = some A ∧ (A.path ≠ none ∨ (A.speed = 0 ∧ A.waypoints ≠ []))) :
    Keeps σ (Path.read K σ).1 ∧ ((Path.read K σ).2 ≠ .error → σ.act = none ∨ Driving σ) := by
  unfold Path.read
  rcases hs with h | ⟨A, hA, h⟩
  · rw [h]; exact ⟨.refl _, fun _ => .inl rfl⟩
  · rw [hA]
    dsimp only
    cases hp : A.path with
    | some path => exact ⟨onPath_keeps K σ A path _ hA, fun _ => .inr ⟨A, hA, by rw [hp]; simp⟩⟩
    | none =>
      rcases h with h | h
      · exact absurd hp h
      · dsimp only
        rw [Path.setup, if_pos h]
        exact ⟨.refl _, fun hc => absurd rfl hc⟩

theorem Shape.readable {σ : Path.St P} (h : Shape σ) : σ.act = none ∨ ∃ A, σ.act = some A ∧ (A.path ≠ none ∨ (A.speed = 0 ∧ A.waypoints ≠ [])) := by
  rcases h with h | h
  · exact .inl h.1
  · exact .inr h

theorem read_shape (K : Path.Kind P) (σ : Path.St P) (hs : Shape σ) : Keeps σ (Path.read K σ).1 := (read_keeps K σ hs.readable).1

/-- Starting an idle state. -/
theorem start_idle (K : Path.Kind P) (σ : Path.St P) (hl : σ.locked = false) (v : ℝ) (ws : List P) :
    (v = 0 ∧ ws ≠ [] ∧ (Path.step K σ (.activate v ws)).2 = .error ∧ (Path.step K σ (.activate v ws)).1.act = some ⟨σ.now, v, ws, none⟩) ∨
    ((Path.step K σ (.activate v ws)).2 = .done ∧ Driving (Path.step K σ (.activate v ws)).1) := by
  simp only [Path.step, hl, Bool.false_eq_true, if_false, Path.read, Path.setup]
  by_cases h : v = 0 ∧ ws ≠ []
  · rw [if_pos h]; exact .inl ⟨h.1, h.2, rfl, rfl⟩
  · right
    rw [if_neg h]
    simp only [Path.onPath, sub_self, lt_irrefl, if_false, if_true]
    exact ⟨trivial, _, rfl, by simp⟩

/-- The invariant of proper runs. -/
structure Inv (x : World P × (Nat → Bool)) : Prop where
  shape : ∀ a < x.1.count, x.1.copy a = false → ∀ n, Shape (x.1.loc a n)
  one : ∀ a < x.1.count, x.1.copy a = false → x.1.mgr.detect a ≠ none → ∀ n m, (x.1.loc a n).act ≠ none → (x.1.loc a m).act ≠ none → n = m
  known : ∀ a < x.1.count, x.1.copy a = false → x.1.mgr.detect a ≠ none → (x.1.mgr.movers.has a = true ↔ (∃ n, Driving (x.1.loc a n)) ∧ x.2 a = false)

/-- Nothing happens to the hooks. -/
theorem Inv.same {w v : World P} {hid : Nat → Bool} (h : Inv (w, hid)) (hcp : ∀ a < v.count, v.copy a = false → a < w.count ∧ w.copy a = false)
    (hd : ∀ a < v.count, v.copy a = false → v.mgr.detect a = w.mgr.detect a) (hm : v.mgr.movers = w.mgr.movers)
    (hl : ∀ a < v.count, v.copy a = false → ∀ n, Keeps (w.loc a n) (v.loc a n)) : Inv (v, hid) := by
  refine ⟨?_, ?_, ?_⟩
  · intro a ha hc n
    obtain ⟨h1, h2⟩ := hcp a ha hc
    exact (hl a ha hc n).shape (h.shape a h1 h2 n)
  · intro a ha hc hdet n m
    obtain ⟨h1, h2⟩ := hcp a ha hc
    have := h.one a h1 h2 (by dsimp only; rw [← hd a ha hc]; exact hdet) n m
    dsimp only at this ⊢
    rw [(hl a ha hc n).1, (hl a ha hc m).1]
    exact this
  · intro a ha hc hdet
    obtain ⟨h1, h2⟩ := hcp a ha hc
    have := h.known a h1 h2 (by dsimp only; rw [← hd a ha hc]; exact hdet)
    dsimp only at this ⊢
    rw [hm, this]
    simp only [(hl a ha hc _).driving]

/-- The answers of the manager to a proper start. -/
theorem start_ok (I : Queued.Inter ℝ P) (μ : Queued.St ℝ P) (a : Nat) (v : ℝ) (ws : List P) (hno : μ.detect a ≠ none → μ.movers.has a = false)
    (hp : μ.detect a ≠ none → ∀ s ∈ μ.sensors, (Queued.processPair I ⟨v, ws, μ.now⟩ s).isSome) :
    (Queued.startMover I μ a v ws).2 = .ok ∧ (Queued.startMover I μ a v ws).1.detect = μ.detect ∧
      (μ.detect a ≠ none → (Queued.startMover I μ a v ws).1.movers.has a = true) ∧
      ∀ b, b ≠ a → (Queued.startMover I μ a v ws).1.movers.has b = μ.movers.has b := by
  unfold Queued.startMover
  cases hd : μ.detect a with
  | none => exact ⟨rfl, rfl, fun h => absurd rfl h, fun _ _ => rfl⟩
  | some d =>
    cases d with
    | false => exact ⟨rfl, rfl, fun _ => has_set_self _ _ _, fun b hb => has_set _ _ _ _ hb⟩
    | true =>
      dsimp only
      rw [hno (by rw [hd]; simp)]
      simp only [Bool.false_eq_true, if_false]
      refine ⟨?_, find_detect I _ _, fun _ => ?_, fun b hb => ?_⟩
      · exact find_ok I a ⟨v, ws, μ.now⟩ μ.sensors (hp (by rw [hd]; simp)) _ (by simp [Dict.get?_set])
      · rw [find_movers]; exact has_set_self _ _ _
      · rw [find_movers]; exact has_set _ _ _ _ hb

/-- The answers of the manager to a proper stop. -/
theorem stop_ok (μ : Queued.St ℝ P) (a : Nat) (h : μ.detect a ≠ none → μ.movers.has a = false → μ.detect a ≠ some true) :
    (Queued.stopMover μ a false).2 = .ok ∧ (μ.detect a ≠ none → (Queued.stopMover μ a false).1.movers.has a = false) ∧
      ∀ b, b ≠ a → (Queued.stopMover μ a false).1.movers.has b = μ.movers.has b := by
  have hdel : (μ.movers.del a).has a = false := by
    refine (has_iff _ _).2 fun k hk => ?_
    simp only [Dict.keys, Dict.del] at hk
    obtain ⟨p, hp, rfl⟩ := List.mem_map.1 hk
    simpa using (List.mem_filter.1 hp).2
  have hdel' : ∀ b, b ≠ a → (μ.movers.del a).has b = μ.movers.has b := by
    intro b hb
    rw [Bool.eq_iff_iff, ← not_iff_not, Bool.not_eq_true, Bool.not_eq_true, has_iff, has_iff]
    simp only [Dict.keys, Dict.del, List.mem_map, List.mem_filter]
    constructor
    · rintro h k ⟨p, hp, rfl⟩ hc
      exact h p.1 ⟨p, ⟨hp, by simp [hc, hb]⟩, rfl⟩ hc
    · rintro h k ⟨p, ⟨hp, -⟩, rfl⟩
      exact h p.1 ⟨p, hp, rfl⟩
  unfold Queued.stopMover
  cases hd : μ.detect a with
  | none => exact ⟨rfl, fun h => absurd rfl h, fun _ _ => rfl⟩
  | some d =>
    dsimp only
    cases hm : μ.movers.has a with
    | true => simpa [hdel] using hdel'
    | false =>
      have : d = false := by
        cases d with
        | false => rfl
        | true => exact absurd hd (h (by rw [hd]; simp) hm)
      simp [this, hm]

/-- Setting the detectability. -/
theorem detect_effect (μ : Queued.St ℝ P) (a : Nat) (v : Bool) :
    (∀ b, ((Queued.setDetect μ a v).1.detect b = none ↔ μ.detect b = none)) ∧
      (∀ b, b ≠ a → (Queued.setDetect μ a v).1.movers.has b = μ.movers.has b) ∧
      (v = true → (Queued.setDetect μ a v).1.movers = μ.movers) ∧ (v = false → μ.detect a ≠ none → (Queued.setDetect μ a v).1.movers.has a = false) ∧
      (μ.detect a ≠ none → (Queued.setDetect μ a v).2 = .ok) := by
  unfold Queued.setDetect
  cases hd : μ.detect a with
  | none => exact ⟨fun _ => Iff.rfl, fun _ _ => rfl, fun _ => rfl, fun _ h => absurd rfl h, fun h => absurd rfl h⟩
  | some d =>
    dsimp only
    have hu : ∀ b, upd μ.detect a (some v) b = none ↔ μ.detect b = none := by
      intro b
      by_cases hb : b = a
      · rw [hb, Queued.upd_self, hd]; simp
      · rw [Queued.upd_ne _ _ hb]
    cases v with
    | true => exact ⟨hu, fun _ _ => rfl, fun _ => rfl, fun h => absurd h (by simp), fun _ => rfl⟩
    | false =>
      simp only [Bool.false_eq_true, if_false]
      set ν : Queued.St ℝ P := { μ with detect := upd μ.detect a (some false), log := μ.log ++ (μ.inView a).map (fun s => ⟨μ.now, a, s, false⟩), inView := upd μ.inView a [] } with hν
      have hda : ν.detect a = some false := Queued.upd_self _ _ _
      have hs : Queued.stopMover ν a true = Queued.stopMover ν a false := by
        unfold Queued.stopMover
        rw [hda]
        dsimp only
        cases ν.movers.has a <;> simp
      rw [hs]
      obtain ⟨h1, h2, h3⟩ := stop_ok ν a (fun _ _ => by rw [hda]; simp)
      exact ⟨fun b => by rw [stopMover_detect]; exact hu b, h3, fun h => absurd h (by simp), fun _ _ => h2 (by rw [hda]; simp), fun _ => h1⟩

end Verif.Drive
