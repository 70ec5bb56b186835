import Verif.Path.Model
import Verif.Path.Spec
import Mathlib.Tactic.Linarith
import Mathlib.Tactic.FieldSimp
import Mathlib.Tactic.Ring
import Mathlib.Tactic.Positivity
import Mathlib.Analysis.InnerProductSpace.PiL2

namespace Verif.Path

variable {P Q : Type}

theorem pathLen_append (d : Q → Q → ℝ) (p : Q) (as bs : List Q) : pathLen d p (as ++ bs) = pathLen d p as + pathLen d (as.getLastD p) bs := by
  induction as generalizing p with
  | nil => simp [pathLen]
  | cons a as ih => simp only [List.cons_append, pathLen, ih, List.getLastD_cons]; ring

theorem pathLen_nonneg (d : Q → Q → ℝ) (hd : ∀ a b, 0 ≤ d a b) (p : Q) (as : List Q) : 0 ≤ pathLen d p as := by
  induction as generalizing p with
  | nil => exact le_refl _
  | cons a as ih => have := hd p a; have := ih a; simp only [pathLen]; linarith

/-- The lengths along a prefix. -/
theorem pathLen_prefix (d : Q → Q → ℝ) (hd : ∀ a b, 0 ≤ d a b) (p : Q) (as bs : List Q) : pathLen d p as ≤ pathLen d p (as ++ bs) := by
  rw [pathLen_append]; have := pathLen_nonneg d hd (as.getLastD p) bs; linarith

theorem pathLen_map (d : Q → Q → ℝ) (f : P → Q) (p : P) (as : List P) : pathLen d (f p) (as.map f) = pathLen (fun a b => d (f a) (f b)) p as := by
  induction as generalizing p with
  | nil => rfl
  | cons a as ih => simp only [List.map_cons, pathLen, ih]

theorem getLastD_map (f : P → Q) (p : P) (as : List P) : (as.map f).getLastD (f p) = f (as.getLastD p) := by
  induction as generalizing p with
  | nil => rfl
  | cons a as ih => simpa only [List.map_cons, List.getLastD_cons] using ih a

/-- The length of the path in the model's terms. -/
noncomputable abbrev Kind.len (K : Kind P) : P → List P → ℝ := pathLen fun a b => K.dist b a

theorem legs_get (K : Kind P) (v : ℝ) (p : P) (pre : List P) (w : P) (post : List P) :
    (legs K v p (pre ++ w :: post))[pre.length]? = some ⟨K.dist w (pre.getLastD p) / v, pre.getLastD p, w⟩ := by
  induction pre generalizing p with
  | nil => rfl
  | cons a pre ih => simpa only [List.cons_append, legs, List.length_cons, List.getElem?_cons_succ, List.getLastD_cons] using ih a

theorem getIndex_split (K : Kind P) (v e : ℝ) (p : P) (ws : List P) (sum : ℝ) (i j : Nat) (b : ℝ)
    (h : getIndex K.tol e ((legs K v p ws).map (·.time)) sum i = some (j, b)) :
    ∃ pre w post, ws = pre ++ w :: post ∧ j = i + pre.length ∧ b = sum + K.len p pre / v ∧ e ≤ sum + K.len p (pre ++ [w]) / v + K.tol ∧
      ∀ q r, q ≠ [] → pre = q ++ r → sum + K.len p q / v + K.tol < e := by
  induction ws generalizing p sum i with
  | nil => simp [legs, getIndex] at h
  | cons w ws ih =>
    simp only [legs, List.map_cons, getIndex] at h
    split at h
    · rename_i he
      simp only [Option.some.injEq, Prod.mk.injEq] at h
      refine ⟨[], w, ws, rfl, by simpa using h.1.symm, ?_, ?_, ?_⟩
      · rw [← h.2]; simp [Kind.len, pathLen]
      · simpa [Kind.len, pathLen] using he
      · intro q r hq hc
        simp at hc; exact absurd hc.1 hq
    · rename_i he
      have he := not_le.1 he
      obtain ⟨pre, w', post, h1, h2, h3, h4, h5⟩ := ih _ _ _ h
      refine ⟨w :: pre, w', post, by rw [h1]; rfl, by rw [h2, List.length_cons]; omega, ?_, ?_, ?_⟩
      · rw [h3]; simp only [Kind.len, pathLen, add_div]; ring
      · simp only [List.cons_append, Kind.len, pathLen, add_div] at h4 ⊢; linarith
      · intro q r hq hc
        cases q with
        | nil => exact absurd rfl hq
        | cons a q =>
          simp only [List.cons_append, List.cons.injEq] at hc
          obtain ⟨rfl, hc⟩ := hc
          by_cases hq' : q = []
          · subst hq'; simpa [Kind.len, pathLen] using he
          · have := h5 q r hq' hc
            simp only [Kind.len, pathLen, add_div] at this ⊢; linarith

theorem getIndex_none (K : Kind P) (v e : ℝ) (p : P) (ws : List P) (sum : ℝ) (i : Nat)
    (h : getIndex K.tol e ((legs K v p ws).map (·.time)) sum i = none) : ws = [] ∨ sum + K.len p ws / v + K.tol < e := by
  induction ws generalizing p sum i with
  | nil => exact .inl rfl
  | cons w ws ih =>
    simp only [legs, List.map_cons, getIndex] at h
    split at h
    · cases h
    · rename_i he
      have he := not_le.1 he
      right
      rcases ih _ _ _ h with h1 | h1
      · subst h1; simpa [Kind.len, pathLen] using he
      · simp only [Kind.len, pathLen, add_div] at h1 ⊢; linarith

/-- Which leg is found. -/
theorem getIndex_eq (K : Kind P) (v e : ℝ) (p : P) (pre : List P) (w : P) (post : List P)
    (h1 : e ≤ K.len p (pre ++ [w]) / v + K.tol) (h2 : ∀ q r, q ≠ [] → pre = q ++ r → K.len p q / v + K.tol < e) (sum : ℝ) (i : Nat) :
    getIndex K.tol (sum + e) ((legs K v p (pre ++ w :: post)).map (·.time)) sum i = some (i + pre.length, sum + K.len p pre / v) := by
  induction pre generalizing p sum i e with
  | nil =>
    simp only [List.nil_append, legs, List.map_cons, getIndex]
    rw [if_pos (by simp [Kind.len, pathLen] at h1; linarith)]
    simp [Kind.len, pathLen]
  | cons a pre ih =>
    have h3 := h2 [a] pre (by simp) rfl
    simp only [Kind.len, pathLen, add_zero] at h3
    simp only [List.cons_append, legs, List.map_cons, getIndex]
    rw [if_neg (by linarith)]
    have := ih (e - K.dist a p / v) a ?_ ?_ (sum + K.dist a p / v) (i + 1)
    · rw [show sum + K.dist a p / v + (e - K.dist a p / v) = sum + e by ring] at this
      rw [this]
      simp only [List.length_cons, Kind.len, pathLen, add_div, Option.some.injEq, Prod.mk.injEq]
      exact ⟨by omega, by ring⟩
    · simp only [List.cons_append, Kind.len, pathLen, add_div] at h1 ⊢; linarith
    · intro q r hq hc
      have := h2 (a :: q) r (by simp) (by rw [hc]; rfl)
      simp only [Kind.len, pathLen, add_div] at this ⊢; linarith

/-! ### Histories -/

/-- Operations during a movement: not its end. -/
def Op.During : Op P → Prop
  | .deactivate => False
  | _ => True

/-- Operations other than assignments and the end of a movement. -/
def Op.Looks : Op P → Prop
  | .deactivate => False
  | .assign _ => False
  | _ => True

/-- In the movement begun at `t0` at `p`. -/
structure Moving (K : Kind P) (t0 v : ℝ) (p : P) (ws : List P) (σ : St P) : Prop where
  act : σ.act = some ⟨t0, v, ws, some (legs K v p ws)⟩
  later : t0 ≤ σ.now
  locked : σ.locked = true

theorem onPath_keeps (K : Kind P) (σ : St P) (a : Act P) (path : List (Leg P)) (t : ℝ) (h : σ.act = some a) :
    (onPath K σ a path t).1.act = some a ∧ (onPath K σ a path t).1.now = σ.now ∧ (onPath K σ a path t).1.locked = σ.locked ∧
      (σ.now = t → (onPath K σ a path t).1.value = σ.value) := by
  simp only [onPath]
  split
  · exact ⟨h, rfl, rfl, fun _ => rfl⟩
  · split
    · exact ⟨h, rfl, rfl, fun _ => rfl⟩
    · rename_i hne
      split
      · exact ⟨h, rfl, rfl, fun _ => rfl⟩
      · split
        · exact ⟨h, rfl, rfl, fun _ => rfl⟩
        · split
          · exact ⟨h, rfl, rfl, fun _ => rfl⟩
          · exact ⟨rfl, rfl, rfl, fun hc => absurd (by rw [hc]; exact sub_self _) hne⟩

theorem read_moving {K : Kind P} {t0 v : ℝ} {p : P} {ws : List P} {σ : St P} (h : Moving K t0 v p ws σ) :
    read K σ = onPath K σ ⟨t0, v, ws, some (legs K v p ws)⟩ (legs K v p ws) t0 := by
  simp only [read, h.act]

theorem activate_refused {K : Kind P} {σ : St P} (h : σ.locked = true) (s : ℝ) (w : List P) : step K σ (.activate s w) = (σ, .error) := by
  simp only [step, h, if_true]

theorem step_moving {K : Kind P} {t0 v : ℝ} {p : P} {ws : List P} {σ : St P} (h : Moving K t0 v p ws σ) (o : Op P) (ho : o.During) :
    Moving K t0 v p ws (step K σ o).1 := by
  cases o with
  | activate s w => rw [activate_refused h.locked]; exact h
  | deactivate => exact absurd ho id
  | read =>
    obtain ⟨h1, h2, h3, -⟩ := onPath_keeps K σ _ (legs K v p ws) t0 h.act
    rw [step, read_moving h]
    exact ⟨h1, by rw [h2]; exact h.later, by rw [h3]; exact h.locked⟩
  | remaining => exact h
  | assign q => exact ⟨h.act, h.later, h.locked⟩
  | advance t =>
    simp only [step]
    split
    · rename_i ht
      exact ⟨h.act, le_trans h.later ht, h.locked⟩
    · exact h

theorem exec_moving {K : Kind P} {t0 v : ℝ} {p : P} {ws : List P} (os : List (Op P)) (ho : ∀ o ∈ os, o.During) {σ : St P} (h : Moving K t0 v p ws σ) :
    Moving K t0 v p ws (exec K os σ) := by
  induction os generalizing σ with
  | nil => exact h
  | cons o os ih => exact ih (fun o' h' => ho o' (List.mem_cons_of_mem _ h')) (step_moving h o (ho o (List.mem_cons_self ..)))

/-- Activation. -/
theorem activate_moving (K : Kind P) (σ : St P) (hl : σ.locked = false) (v : ℝ) (hv : 0 < v) (ws : List P) :
    Moving K σ.now v σ.value ws (step K σ (.activate v ws)).1 ∧ (step K σ (.activate v ws)).2 = .done ∧
      (step K σ (.activate v ws)).1.value = σ.value ∧ (step K σ (.activate v ws)).1.now = σ.now := by
  have hs : setup K { σ with locked := true, act := some ⟨σ.now, v, ws, none⟩ } ⟨σ.now, v, ws, none⟩ =
      some ⟨σ.now, v, ws, some (legs K v σ.value ws)⟩ := by
    unfold setup; rw [if_neg (fun hc => absurd hc.1 (ne_of_gt hv))]
  have hr : read K { σ with locked := true, act := some ⟨σ.now, v, ws, none⟩ } =
      ({ σ with locked := true, act := some ⟨σ.now, v, ws, some (legs K v σ.value ws)⟩ }, .loc σ.value) := by
    simp only [read, hs, onPath, sub_self, lt_irrefl, if_false, if_true]
  have : step K σ (.activate v ws) = ({ σ with locked := true, act := some ⟨σ.now, v, ws, some (legs K v σ.value ws)⟩ }, .done) := by
    simp only [step, hl, Bool.false_eq_true, if_false, hr]
  rw [this]
  exact ⟨⟨rfl, le_refl _, rfl⟩, rfl, rfl, rfl⟩

theorem exec_append (K : Kind P) (os ps : List (Op P)) (σ : St P) : exec K (os ++ ps) σ = exec K ps (exec K os σ) := by
  induction os generalizing σ with
  | nil => rfl
  | cons o os ih => exact ih _

/-- Reading the position some time after the start. -/
theorem onPath_eq {K : Kind P} {t0 v : ℝ} {p : P} {σ : St P} (hnow : t0 < σ.now) (a : Act P)
    (pre : List P) (w : P) (post : List P) (h1 : σ.now - t0 ≤ K.len p (pre ++ [w]) / v + K.tol)
    (h2 : ∀ q r, q ≠ [] → pre = q ++ r → K.len p q / v + K.tol < σ.now - t0) (hw : K.dist w (pre.getLastD p) / v ≠ 0) :
    (onPath K σ a (legs K v p (pre ++ w :: post)) t0).2 =
      .loc (K.move (pre.getLastD p) w ((σ.now - t0 - K.len p pre / v) / (K.dist w (pre.getLastD p) / v))) := by
  have hi := getIndex_eq K v (σ.now - t0) p pre w post h1 h2 0 0
  rw [zero_add, zero_add, zero_add] at hi
  have hg := legs_get K v p pre w post
  simp only [onPath]
  rw [if_neg (by linarith), if_neg (by intro hc; linarith)]
  simp only [hi, hg]
  rw [if_neg hw]

end Verif.Path
