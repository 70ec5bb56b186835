import Verif.Predict.Props
import Verif.Path.Props

/-!
# Actors that move

The actor of `Verif.Path` with a `CartesianLocationChangingState` or a `GeodeticLocationChangingState` meets what `c77_predicts_partial` asks of an actor, and so does one with several states.
-/

namespace Verif.Predict

variable {K : Type} [Field K] [LinearOrder K] [IsStrictOrderedRing K]

/-! ## Actors with several states -/

/-- Two states of one actor, or two actors of one task. -/
def both {A₁ A₂ O₁ O₂ V₁ V₂ : Type} (M₁ : Methods K A₁ O₁ V₁) (M₂ : Methods K A₂ O₂ V₂) : Methods K (A₁ × A₂) (O₁ ⊕ O₂) (V₁ ⊕ V₂) where
  step t o x :=
    match o with
    | .inl o => (((M₁.step t o x.1).1, x.2), .inl (M₁.step t o x.1).2)
    | .inr o => ((x.1, (M₂.step t o x.2).1), .inr (M₂.step t o x.2).2)
  reads
    | .inl o => M₁.reads o
    | .inr o => M₂.reads o

theorem c77_both {A₁ A₂ O₁ O₂ V₁ V₂ : Type} {M₁ : Methods K A₁ O₁ V₁} {M₂ : Methods K A₂ O₂ V₂} {E₁ : K → A₁ → A₁ → Prop} {E₂ : K → A₂ → A₂ → Prop} (h₁ : Congruent M₁ E₁) (h₂ : Congruent M₂ E₂) :
    Congruent (both M₁ M₂) fun t x y => E₁ t x.1 y.1 ∧ E₂ t x.2 y.2 where
  later := fun t t' a b ht h => ⟨h₁.later _ _ _ _ ht h.1, h₂.later _ _ _ _ ht h.2⟩
  step := fun t o a b h => by
    cases o with
    | inl o => obtain ⟨g1, g2⟩ := h₁.step t o _ _ h.1; exact ⟨congrArg Sum.inl g1, g2, h.2⟩
    | inr o => obtain ⟨g1, g2⟩ := h₂.step t o _ _ h.2; exact ⟨congrArg Sum.inr g1, h.1, g2⟩
  read := fun t o a b ho h => by
    cases o with
    | inl o => exact ⟨h₁.read t o _ _ ho h.1, h.2⟩
    | inr o => exact ⟨h.1, h₂.read t o _ _ ho h.2⟩

/-! ## A location -/

/-- What a task does with the location of its actor. -/
inductive MOp (P : Type) where
  | activate (speed : ℝ) (waypoints : List P)
  | deactivate
  | read
  | remaining
  | assign (p : P)

def MOp.op {P : Type} : MOp P → Path.Op P
  | .activate v ws => .activate v ws
  | .deactivate => .deactivate
  | .read => .read
  | .remaining => .remaining
  | .assign p => .assign p

/-- An actor with a location. Simplified: once a deactivation has raised an exception, all other calls do too (`c77_late` tells why). -/
structure Mover (P : Type) where
  st : Path.St P
  failed : Bool

variable {P : Type}

/-- Whether a call has raised. -/
def isError : Path.Out P → Bool
  | .error => true
  | _ => false

def MOp.isDeactivate : MOp P → Bool
  | .deactivate => true
  | _ => false

/-- One call (`Verif.Path.step`: states.py 409-423, 542-699, actor.py 314-434, 1204-1221). Others read, or ask for the remaining waypoints. -/
noncomputable def mover (Kd : Path.Kind P) : Methods ℝ (Mover P) (MOp P) (Path.Out P) where
  step t o s :=
    if s.failed then (s, .error)
    else
      let r := Path.step Kd { s.st with now := t } o.op
      (⟨r.1, o.isDeactivate && isError r.2⟩, r.2)
  reads o := o = .read ∨ o = .remaining

/-- Where two actors are the same at `t` and from then on, though the location may have been stored at different times. -/
structure Level (t : ℝ) (a b : Path.St P) : Prop where
  act : a.act = b.act
  locked : a.locked = b.locked
  held : a.act ≠ none → a.locked = true
  unset : ∀ A, a.act = some A → A.path = none → A.speed = 0 ∧ A.waypoints ≠ []
  value : a.value = b.value ∨ ∃ A, a.act = some A ∧ A.path ≠ none ∧ A.started < t

/-- As `Level`, unless both have failed. -/
def Abreast (t : ℝ) (a b : Mover P) : Prop := (a.failed = true ∧ b.failed = true) ∨ (a.failed = false ∧ b.failed = false ∧ Level t a.st b.st)

theorem Level.later {t t' : ℝ} {a b : Path.St P} (h : Level t a b) (ht : t ≤ t') : Level t' a b :=
  { h with value := h.value.imp id fun ⟨A, h1, h2, h3⟩ => ⟨A, h1, h2, h3.trans_le ht⟩ }

theorem Level.clock {t : ℝ} {a b : Path.St P} (h : Level t a b) (u v : ℝ) : Level t { a with now := u } { b with now := v } := ⟨h.act, h.locked, h.held, h.unset, h.value⟩

/-- Following the path: either nothing is done, or the location of the path is stored. -/
theorem onPath_cases (Kd : Path.Kind P) (A : Path.Act P) (path : List (Path.Leg P)) (t : ℝ) :
    (∀ σ : Path.St P, σ.now = t → Path.onPath Kd σ A path A.started = (σ, .error)) ∨
      (A.started = t ∧ ∀ σ : Path.St P, σ.now = t → Path.onPath Kd σ A path A.started = (σ, .loc σ.value)) ∨
      (A.started < t ∧ ∃ p, ∀ σ : Path.St P, σ.now = t → Path.onPath Kd σ A path A.started = ({ σ with value := p, act := some A }, .loc p)) := by
  by_cases h1 : t - A.started < 0
  · exact .inl (fun σ hs => by simp only [Path.onPath, hs]; rw [if_pos h1])
  · by_cases h2 : t - A.started = 0
    · refine .inr (.inl ⟨by linarith, fun σ hs => ?_⟩)
      simp only [Path.onPath, hs]
      rw [if_neg h1, if_pos h2]
    · have h3 : A.started < t := by
        rcases lt_or_gt_of_ne h2 with h | h
        · exact absurd h h1
        · linarith
      cases hg : Path.getIndex Kd.tol (t - A.started) (path.map (·.time)) 0 0 with
      | none =>
        refine .inl fun σ hs => ?_
        simp only [Path.onPath, hs, hg]
        rw [if_neg h1, if_neg h2]
      | some g =>
        obtain ⟨i, w⟩ := g
        cases hp : path[i]? with
        | none =>
          refine .inl fun σ hs => ?_
          simp only [Path.onPath, hs, hg, hp]
          rw [if_neg h1, if_neg h2]
        | some leg =>
          by_cases h4 : leg.time = 0
          · refine .inl fun σ hs => ?_
            simp only [Path.onPath, hs, hg, hp]
            rw [if_neg h1, if_neg h2, if_pos h4]
          · refine .inr (.inr ⟨h3, Kd.move leg.start leg.target ((t - A.started - w) / leg.time), fun σ hs => ?_⟩)
            simp only [Path.onPath, hs, hg, hp]
            rw [if_neg h1, if_neg h2, if_neg h4]

/-- Reading an actor: it raises; or it is as stored; or it is on the path and the location is stored. -/
theorem read_cases (Kd : Path.Kind P) (A : Option (Path.Act P)) (hu : ∀ a, A = some a → a.path = none → a.speed = 0 ∧ a.waypoints ≠ []) (t : ℝ) :
    (A ≠ none ∧ ∀ σ : Path.St P, σ.act = A → σ.now = t → Path.read Kd σ = (σ, .error)) ∨
      ((∀ a, A = some a → a.started = t) ∧ ∀ σ : Path.St P, σ.act = A → σ.now = t → Path.read Kd σ = (σ, .loc σ.value)) ∨
      (∃ a p, A = some a ∧ a.path ≠ none ∧ a.started < t ∧ ∀ σ : Path.St P, σ.act = A → σ.now = t → Path.read Kd σ = ({ σ with value := p }, .loc p)) := by
  cases A with
  | none => exact .inr (.inl ⟨by simp, fun σ h _ => by simp only [Path.read, h]⟩)
  | some a =>
    cases hp : a.path with
    | none =>
      refine .inl ⟨by simp, fun σ h hs => ?_⟩
      simp only [Path.read, h, hp, Path.setup]
      rw [if_pos (hu a rfl hp)]
    | some path =>
      rcases onPath_cases Kd a path t with h2 | ⟨h1, h2⟩ | ⟨h1, p, h2⟩
      · exact .inl ⟨by simp, fun σ h hs => by simp only [Path.read, h, hp]; exact h2 σ hs⟩
      · exact .inr (.inl ⟨fun b hb => by cases hb; exact h1, fun σ h hs => by simp only [Path.read, h, hp]; exact h2 σ hs⟩)
      · refine .inr (.inr ⟨a, p, rfl, by rw [hp]; simp, h1, fun σ h hs => ?_⟩)
        simp only [Path.read, h, hp]
        rw [h2 σ hs, ← h]

theorem Level.read (Kd : Path.Kind P) {t : ℝ} {a b : Path.St P} (h : Level t a b) (ha : a.now = t) (hb : b.now = t) :
    (Path.read Kd a).2 = (Path.read Kd b).2 ∧ Level t (Path.read Kd a).1 (Path.read Kd b).1 ∧ (Path.read Kd a).1.locked = a.locked ∧
      (isError (Path.read Kd a).2 = false → (Path.read Kd a).1.value = (Path.read Kd b).1.value) := by
  rcases read_cases Kd a.act h.unset t with ⟨-, h2⟩ | ⟨h1, h2⟩ | ⟨A, p, h1, h1', h1'', h2⟩
  · rw [h2 a rfl ha, h2 b h.act.symm hb]
    exact ⟨rfl, h, rfl, fun he => by cases he⟩
  · have hv : a.value = b.value := by
      rcases h.value with hv | ⟨A, g1, g2, g3⟩
      · exact hv
      · exact absurd (h1 A g1) g3.ne
    rw [h2 a rfl ha, h2 b h.act.symm hb]
    exact ⟨congrArg Path.Out.loc hv, h, rfl, fun _ => hv⟩
  · rw [h2 a rfl ha, h2 b h.act.symm hb]
    exact ⟨rfl, ⟨h.act, h.locked, h.held, h.unset, .inl rfl⟩, rfl, fun _ => rfl⟩

/-- Others read. -/
theorem Level.look (Kd : Path.Kind P) {t : ℝ} {a b : Path.St P} (h : Level t a b) (ha : a.now = t) : Level t (Path.read Kd a).1 b := by
  rcases read_cases Kd a.act h.unset t with ⟨-, h2⟩ | ⟨h1, h2⟩ | ⟨A, p, h1, h1', h1'', h2⟩
  · rw [h2 a rfl ha]; exact h
  · rw [h2 a rfl ha]; exact h
  · rw [h2 a rfl ha]
    exact ⟨h.act, h.locked, h.held, h.unset, .inr ⟨A, h1, h1', h1''⟩⟩

theorem Level.step (Kd : Path.Kind P) {t : ℝ} {a b : Path.St P} (h : Level t a b) (ha : a.now = t) (hb : b.now = t) (o : MOp P) :
    (Path.step Kd a o.op).2 = (Path.step Kd b o.op).2 ∧ ((o.isDeactivate && isError (Path.step Kd a o.op).2) = false → Level t (Path.step Kd a o.op).1 (Path.step Kd b o.op).1) := by
  cases o with
  | read =>
    obtain ⟨h1, h2, -⟩ := h.read Kd ha hb
    exact ⟨h1, fun _ => h2⟩
  | remaining =>
    simp only [MOp.op, Path.step, Path.remaining, ← h.act, ha, hb]
    exact ⟨trivial, fun _ => h⟩
  | assign p => exact ⟨rfl, fun _ => ⟨h.act, h.locked, h.held, h.unset, .inl rfl⟩⟩
  | activate v ws =>
    simp only [MOp.op, Path.step]
    rw [← h.locked]
    cases hl : a.locked with
    | true => exact ⟨rfl, fun _ => h⟩
    | false =>
      have hn : a.act = none := by
        by_contra hc
        rw [h.held hc] at hl; cases hl
      have hv : a.value = b.value := by
        rcases h.value with hv | ⟨A, g1, -⟩
        · exact hv
        · rw [hn] at g1; cases g1
      by_cases hz : v = 0 ∧ ws ≠ []
      · have hl' : Level t { a with locked := true, act := some ⟨a.now, v, ws, none⟩ } { b with locked := true, act := some ⟨b.now, v, ws, none⟩ } :=
          ⟨by simp only [ha, hb], rfl, fun _ => rfl, fun A hA _ => by cases hA; exact hz, .inl hv⟩
        obtain ⟨g1, g2, -⟩ := hl'.read Kd ha hb
        rcases hA : Path.read Kd { a with locked := true, act := some ⟨a.now, v, ws, none⟩ } with ⟨a', o⟩
        rcases hB : Path.read Kd { b with locked := true, act := some ⟨b.now, v, ws, none⟩ } with ⟨b', o'⟩
        rw [hA] at g1 g2
        rw [hB] at g1 g2
        dsimp only at g1 g2
        subst g1
        cases o <;> exact ⟨rfl, fun _ => g2⟩
      · have hr : ∀ σ : Path.St P, Path.read Kd { σ with locked := true, act := some ⟨σ.now, v, ws, none⟩ } =
            ({ σ with locked := true, act := some ⟨σ.now, v, ws, some (Path.legs Kd v σ.value ws)⟩ }, .loc σ.value) := fun σ => by
          have hs : Path.setup Kd { σ with locked := true, act := some ⟨σ.now, v, ws, none⟩ } ⟨σ.now, v, ws, none⟩ = some ⟨σ.now, v, ws, some (Path.legs Kd v σ.value ws)⟩ := by
            unfold Path.setup; rw [if_neg hz]
          simp only [Path.read, hs, Path.onPath, sub_self, lt_irrefl, if_false, if_true]
        simp only [Bool.false_eq_true, if_false]
        rw [hr, hr]
        exact ⟨rfl, fun _ => ⟨by simp only [ha, hb, hv], rfl, fun _ => rfl, fun A hA hp => (by cases hA; cases hp), .inl hv⟩⟩
  | deactivate =>
    simp only [MOp.op, Path.step]
    rw [← h.locked]
    cases hl : a.locked with
    | false => exact ⟨rfl, fun hc => by simp [MOp.isDeactivate, isError] at hc⟩
    | true =>
      simp only [if_true]
      rcases read_cases Kd a.act h.unset t with ⟨-, h2⟩ | ⟨h1, h2⟩ | ⟨A, p, h1, h1', h1'', h2⟩
      · rw [h2 { a with locked := false } rfl ha, h2 { b with locked := false } h.act.symm hb]
        exact ⟨rfl, fun hc => by simp [MOp.isDeactivate, isError] at hc⟩
      · have hv : a.value = b.value := by
          rcases h.value with hv | ⟨A, g1, g2, g3⟩
          · exact hv
          · exact absurd (h1 A g1) g3.ne
        rw [h2 { a with locked := false } rfl ha, h2 { b with locked := false } h.act.symm hb]
        exact ⟨rfl, fun _ => ⟨rfl, rfl, fun hc => absurd rfl hc, fun A hA => (nomatch hA), .inl hv⟩⟩
      · rw [h2 { a with locked := false } rfl ha, h2 { b with locked := false } h.act.symm hb]
        exact ⟨rfl, fun _ => ⟨rfl, rfl, fun hc => absurd rfl hc, fun A hA => (nomatch hA), .inl rfl⟩⟩

/-- Reads by others of an actor that moves cannot be noticed, and so a rehearsal of a task that moves its actor predicts what happens. -/
theorem c77_moving (Kd : Path.Kind P) : Congruent (mover Kd) Abreast where
  later := fun t t' a b ht h => h.imp id fun ⟨h1, h2, h3⟩ => ⟨h1, h2, h3.later ht⟩
  step := fun t o a b h => by
    rcases h with ⟨h1, h2⟩ | ⟨h1, h2, h3⟩
    · simp only [mover, h1, h2, if_true]
      exact ⟨trivial, .inl ⟨h1, h2⟩⟩
    · obtain ⟨g1, g2⟩ := (h3.clock t t).step Kd rfl rfl o
      simp only [mover, h1, h2, Bool.false_eq_true, if_false]
      refine ⟨g1, ?_⟩
      rw [← g1]
      cases hf : (o.isDeactivate && isError (Path.step Kd { a.st with now := t } o.op).2) with
      | true => exact .inl ⟨rfl, rfl⟩
      | false => exact .inr ⟨rfl, rfl, g2 hf⟩
  read := fun t o a b ho h => by
    rcases h with ⟨h1, h2⟩ | ⟨h1, h2, h3⟩
    · simp only [mover, h1, if_true]
      exact .inl ⟨h1, h2⟩
    · simp only [mover, h1, Bool.false_eq_true, if_false]
      rcases ho with ho | ho
      · subst ho
        refine .inr ⟨rfl, h2, ?_⟩
        have := (h3.clock t b.st.now).look Kd rfl
        exact ⟨this.act, this.locked, this.held, this.unset, this.value⟩
      · subst ho
        exact .inr ⟨rfl, h2, h3.clock t b.st.now⟩

/-- A copy of an actor at rest, made at any time. -/
theorem c77_moving_understudy (t : ℝ) (p : P) (u v : ℝ) : Abreast t ⟨⟨u, p, none, false⟩, false⟩ ⟨⟨v, p, none, false⟩, false⟩ :=
  .inr ⟨rfl, rfl, rfl, rfl, fun h => absurd rfl h, fun A hA => (nomatch hA), .inl rfl⟩

end Verif.Predict
