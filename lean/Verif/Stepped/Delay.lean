import Verif.Stepped.Run

/-! # C57: how long it takes until something is checked -/

namespace Verif.Stepped

/-- Operations that are not the end of a timeout leave the loops alone, but for the beginning of one. -/
theorem loops_step (c : Cfg) (σ : St) (h : InvA σ) (o : Op) (ht : ∀ e L, o ≠ .timer e L) :
    ((step c σ o).1.isRunning = σ.isRunning ∧ (step c σ o).1.loops = σ.loops ∧ (σ.isRunning = false → σ.pending ≤ (step c σ o).1.pending)) ∨
      (σ.isRunning = false ∧ (step c σ o).1.isRunning = true ∧ (step c σ o).1.loops = σ.loops ++ [(σ.now + c.timestep, 0)] ∧ 0 ≤ c.timestep) ∨
      (σ.isRunning = false ∧ (step c σ o).1.isRunning = true ∧ (step c σ o).1.loops = σ.loops) := by
  have same : ∀ τ, Same σ τ → τ.isRunning = σ.isRunning ∧ τ.loops = σ.loops ∧ (σ.isRunning = false → σ.pending ≤ τ.pending) :=
    fun τ hs => ⟨hs.isRunning, hs.loops, fun _ => hs.pending.ge⟩
  cases o with
  | addSensor s ok => cases ok <;> exact .inl ⟨rfl, rfl, fun _ => le_refl _⟩
  | addDetectable a ok => cases ok <;> exact .inl ⟨rfl, rfl, fun _ => le_refl _⟩
  | startMover a ok =>
    left
    simp only [step, addMover]
    split <;> split <;> (try split) <;> exact ⟨rfl, rfl, fun _ => by first | exact le_refl _ | exact Nat.le_succ _⟩
  | stopMover a => exact .inl ⟨rfl, rfl, fun _ => le_refl _⟩
  | setDetectable a v L =>
    cases v with
    | true =>
      have := (runDetectable_invA L (some [a]) { σ with det := fun b => if b = a then true else σ.det b } (h.frame rfl rfl)).2.1
      exact .inl ⟨this.isRunning, this.loops, fun _ => this.pending.ge⟩
    | false => exact .inl ⟨rfl, rfl, fun _ => le_refl _⟩
  | particular a L => exact .inl (same _ (runDetectable_invA L (some [a]) _ h).2.1)
  | run => exact .inl ⟨rfl, rfl, fun _ => Nat.le_succ _⟩
  | beginRun =>
    simp only [step]
    split
    · exact .inl ⟨rfl, rfl, fun _ => le_refl _⟩
    · split
      · rename_i hr
        exact .inl ⟨rfl, rfl, fun hc => absurd (hr.symm.trans hc) (by decide)⟩
      · rename_i hr
        have hr : σ.isRunning = false := by simpa using hr
        split
        · exact .inr (.inr ⟨hr, rfl, rfl⟩)
        · rename_i ht
          exact .inr (.inl ⟨hr, rfl, rfl, not_lt.1 ht⟩)
  | timer e L => exact absurd rfl (ht e L)
  | advance t => simp only [step]; split <;> exact .inl ⟨rfl, rfl, fun _ => le_refl _⟩
  | reorder view => simp only [step]; split <;> exact .inl ⟨rfl, rfl, fun _ => le_refl _⟩

/-- The clock does not run back. -/
theorem now_step (c : Cfg) (σ : St) (h : InvA σ) (o : Op) : σ.now ≤ (step c σ o).1.now ∧ ((∀ t, o ≠ .advance t) → (step c σ o).1.now = σ.now) := by
  have eq : ∀ τ : St, τ.now = σ.now → σ.now ≤ τ.now ∧ ((∀ t, o ≠ .advance t) → τ.now = σ.now) := fun τ hτ => ⟨hτ.ge, fun _ => hτ⟩
  cases o with
  | addSensor s ok => cases ok <;> exact eq _ rfl
  | addDetectable a ok => cases ok <;> exact eq _ rfl
  | startMover a ok =>
    apply eq
    simp only [step, addMover]
    split <;> split <;> (try split) <;> rfl
  | stopMover a => exact eq _ rfl
  | setDetectable a v L =>
    cases v with
    | true => exact eq _ (runDetectable_invA L (some [a]) { σ with det := fun b => if b = a then true else σ.det b } (h.frame rfl rfl)).2.1.now
    | false => exact eq _ rfl
  | particular a L => exact eq _ (runDetectable_invA L (some [a]) _ h).2.1.now
  | run => exact eq _ rfl
  | beginRun => apply eq; simp only [step]; split <;> (try split) <;> (try split) <;> rfl
  | timer e L =>
    apply eq
    rcases timer_cases σ with ⟨n, rest, hl⟩ | hl
    · obtain ⟨τ, o, hr, -, h1, -⟩ := timer_eq c σ e L n rest hl
      have := (runDetectable_invA L none { σ with loops := rest, checks := σ.checks ++ [(σ.now, e)] } (h.frame rfl rfl)).2.1.now
      rw [hr] at this
      rw [h1]
      split
      · unfold again; split <;> (try split) <;> exact this
      · exact this
    · rw [timer_other c σ e L hl]
  | advance t =>
    simp only [step]
    split
    · rename_i hc; exact ⟨hc.1, fun hn => absurd rfl (hn t)⟩
    · exact ⟨le_refl _, fun _ => rfl⟩
  | reorder view => apply eq; simp only [step]; split <;> rfl

theorem now_exec (c : Cfg) (os : List Op) (σ : St) (h : InvA σ) : σ.now ≤ (exec c os σ).now := by
  induction os generalizing σ with
  | nil => exact le_refl _
  | cons o os ih => exact (now_step c σ h o).1.trans (ih _ (step_invA c σ o h))

/-- What a timeout leaves. -/
theorem loops_timer (c : Cfg) (σ : St) (h : InvA σ) (n : Int) (hl : σ.loops = [(σ.now, n)]) (e : Bool) (L : Look) :
    (step c σ (.timer e L)).1.isRunning = σ.isRunning ∧
      ((step c σ (.timer e L)).1.loops = [] ∨ ((step c σ (.timer e L)).2 = .ok ∧ ∃ m, (step c σ (.timer e L)).1.loops = [(σ.now + c.timestep, m)])) := by
  obtain ⟨τ, o, hr, ho, h1, -⟩ := timer_eq c σ e L n [] hl
  have hs := (runDetectable_invA L none { σ with loops := [], checks := σ.checks ++ [(σ.now, e)] } (h.frame rfl rfl)).2.1
  rw [hr] at hs
  have hτ : τ.loops = [] := hs.loops
  have hn : τ.now = σ.now := hs.now
  rw [h1, ho]
  by_cases hok : o = .ok
  · rw [if_pos hok]
    unfold again
    split
    · split
      · exact ⟨hs.isRunning, .inl hτ⟩
      · exact ⟨hs.isRunning, .inr ⟨hok, n + 1, by simp only [hτ, hn, List.nil_append]⟩⟩
    · exact ⟨hs.isRunning, .inr ⟨hok, 0, by simp only [hτ, hn, List.nil_append]⟩⟩
  · rw [if_neg hok]
    exact ⟨hs.isRunning, .inl hτ⟩

/-- The loop has ended. -/
def Over (σ : St) : Prop := σ.isRunning = true ∧ σ.loops = []

theorem over_step (c : Cfg) (σ : St) (h : InvA σ) (hd : Over σ) (o : Op) : Over (step c σ o).1 := by
  by_cases ht : ∃ e L, o = .timer e L
  · obtain ⟨e, L, rfl⟩ := ht
    rw [timer_other c σ e L (by simp [hd.2])]
    exact hd
  · push Not at ht
    rcases loops_step c σ h o ht with ⟨h1, h2, -⟩ | ⟨h1, -⟩ | ⟨h1, -⟩
    · exact ⟨h1.trans hd.1, h2.trans hd.2⟩
    · exact absurd (hd.1.symm.trans h1) (by decide)
    · exact absurd (hd.1.symm.trans h1) (by decide)

theorem over_exec (c : Cfg) (os : List Op) (σ : St) (h : InvA σ) (hd : Over σ) : Over (exec c os σ) := by
  induction os generalizing σ with
  | nil => exact hd
  | cons o os ih => exact ih _ (step_invA c σ o h) (over_step c σ h hd o)

theorem checks_step (c : Cfg) (σ : St) (h : InvA σ) (o : Op) (ht : ∀ e L, o ≠ .timer e L) : (step c σ o).1.checks = σ.checks := by
  cases o with
  | addSensor s ok => cases ok <;> rfl
  | addDetectable a ok => cases ok <;> rfl
  | startMover a ok => simp only [step, addMover]; split <;> split <;> (try split) <;> rfl
  | stopMover a => rfl
  | setDetectable a v L =>
    cases v with
    | true => exact (runDetectable_invA L (some [a]) { σ with det := fun b => if b = a then true else σ.det b } (h.frame rfl rfl)).2.1.checks
    | false => rfl
  | particular a L => exact (runDetectable_invA L (some [a]) _ h).2.1.checks
  | run => rfl
  | beginRun => simp only [step]; split <;> (try split) <;> (try split) <;> rfl
  | timer e L => exact absurd rfl (ht e L)
  | advance t => simp only [step]; split <;> rfl
  | reorder view => simp only [step]; split <;> rfl

/-- There are no more checks. -/
theorem over_checks (c : Cfg) (os : List Op) (σ : St) (h : InvA σ) (hd : Over σ) : (exec c os σ).checks = σ.checks := by
  induction os generalizing σ with
  | nil => rfl
  | cons o os ih =>
    refine (ih _ (step_invA c σ o h) (over_step c σ h hd o)).trans ?_
    by_cases ht : ∃ e L, o = .timer e L
    · obtain ⟨e, L, rfl⟩ := ht
      rw [timer_other c σ e L (by simp [hd.2])]
    · push Not at ht
      exact checks_step c σ h o ht

/-- The next check is not later than a timestep after `u`. -/
def NextBy (c : Cfg) (u : Rat) (σ : St) : Prop :=
  (σ.isRunning = false ∧ 0 < σ.pending ∧ σ.now ≤ u ∧ σ.loops = []) ∨ (σ.isRunning = true ∧ 0 ≤ c.timestep ∧ ∃ l k, σ.loops = [(l, k)] ∧ l ≤ u + c.timestep ∧ σ.now ≤ l)

/-- Whatever happens, the next check stays where it is, until it takes place. -/
theorem nextBy_step (c : Cfg) (u : Rat) (σ : St) (hσ : InvA σ) (h : NextBy c u σ) (o : Op) (ht : ∀ e L, o ≠ .timer e L) :
    NextBy c u (step c σ o).1 ∨ Over (step c σ o).1 := by
  obtain ⟨n1, n2⟩ := now_step c σ hσ o
  rcases loops_step c σ hσ o ht with ⟨h1, h2, h3⟩ | ⟨h1, h2, h3, h4⟩ | ⟨h1, h2, h3⟩
  · rcases h with ⟨r, p, n, l⟩ | ⟨r, hdt, l, k, hl, hu, hn⟩
    · refine .inl (.inl ⟨h1.trans r, lt_of_lt_of_le p (h3 r), ?_, h2.trans l⟩)
      by_cases ha : ∃ t, o = .advance t
      · obtain ⟨t, rfl⟩ := ha
        simp only [step]
        rw [if_neg (by omega)]
        exact n
      · push Not at ha
        rw [n2 ha]; exact n
    · refine .inl (.inr ⟨h1.trans r, hdt, l, k, h2.trans hl, hu, ?_⟩)
      by_cases ha : ∃ t, o = .advance t
      · obtain ⟨t, rfl⟩ := ha
        simp only [step]
        split
        · rename_i hc
          exact hc.2.2 (l, k) (by rw [hl]; exact List.mem_singleton.2 rfl)
        · exact hn
      · push Not at ha
        rw [n2 ha]; exact hn
  · rcases h with ⟨r, p, n, l⟩ | ⟨r, -⟩
    · have ha : ∀ t, o ≠ .advance t := by
        rintro t rfl
        simp only [step] at h2
        rw [if_neg (by omega)] at h2
        rw [r] at h2; cases h2
      refine .inl (.inr ⟨h2, h4, _, _, by rw [h3, l]; rfl, by linarith, ?_⟩)
      rw [n2 ha]; linarith
    · exact absurd (r.symm.trans h1) (by decide)
  · rcases h with ⟨r, p, n, l⟩ | ⟨r, -⟩
    · exact .inr ⟨h2, h3.trans l⟩
    · exact absurd (r.symm.trans h1) (by decide)

theorem nextBy_exec (c : Cfg) (u : Rat) (os : List Op) (hos : ∀ o ∈ os, ∀ e L, o ≠ .timer e L) (σ : St) (hσ : InvA σ) (h : NextBy c u σ) :
    NextBy c u (exec c os σ) ∨ Over (exec c os σ) := by
  induction os generalizing σ with
  | nil => exact .inl h
  | cons o os ih =>
    rcases nextBy_step c u σ hσ h o (hos o (List.mem_cons_self ..)) with h | h
    · exact ih (fun o ho => hos o (List.mem_cons_of_mem _ ho)) _ (step_invA c σ o hσ) h
    · exact .inr (over_exec c os _ (step_invA c σ o hσ) h)

/-- A timeout is the check, or the next one is still not too late, or there is none. -/
theorem nextBy_timer (c : Cfg) (u : Rat) (σ : St) (hσ : InvA σ) (h : NextBy c u σ) (e : Bool) (L : Look) :
    NextBy c u (step c σ (.timer e L)).1 ∨ Over (step c σ (.timer e L)).1 ∨
      (u ≤ σ.now ∧ σ.now ≤ u + c.timestep ∧ (step c σ (.timer e L)).2 = .ok) := by
  rcases timer_cases σ with ⟨n, rest, hl⟩ | hl
  · rcases h with ⟨-, -, -, l⟩ | ⟨r, hdt, l, k, hl', hu, hn⟩
    · rw [l] at hl; cases hl
    · rw [hl'] at hl
      obtain ⟨⟨rfl, rfl⟩, rfl⟩ : (l = σ.now ∧ k = n) ∧ rest = [] := by simpa using hl
      obtain ⟨h1, h2⟩ := loops_timer c σ hσ _ hl' e L
      rcases h2 with h2 | ⟨h2, m, h3⟩
      · exact .inr (.inl ⟨h1.trans r, h2⟩)
      · by_cases hx : u ≤ σ.now
        · exact .inr (.inr ⟨hx, hu, h2⟩)
        · have hnow := (now_step c σ hσ (.timer e L)).2 (by simp)
          exact .inl (.inr ⟨h1.trans r, hdt, _, m, h3, by linarith, by rw [hnow]; linarith⟩)
  · rw [timer_other c σ e L hl]; exact .inl h

/-- The timeout is set when the clock is a timestep before. -/
def Soon (c : Cfg) (σ : St) : Prop := ∀ l ∈ σ.loops, l.1 ≤ σ.now + c.timestep

theorem soon_step (c : Cfg) (σ : St) (hσ : InvA σ) (h1 : σ.loops.length ≤ 1) (h : Soon c σ) (o : Op) : Soon c (step c σ o).1 := by
  obtain ⟨n1, n2⟩ := now_step c σ hσ o
  by_cases ht : ∃ e L, o = .timer e L
  · obtain ⟨e, L, rfl⟩ := ht
    rcases timer_cases σ with ⟨n, rest, hl⟩ | hl
    · have hrest : rest = [] := by
        rw [hl] at h1
        cases rest with
        | nil => rfl
        | cons _ _ => simp at h1
      subst hrest
      obtain ⟨-, h2⟩ := loops_timer c σ hσ n hl e L
      rw [Soon, n2 (by simp)]
      rcases h2 with h2 | ⟨-, m, h2⟩ <;> rw [h2] <;> simp
    · rw [timer_other c σ e L hl]; exact h
  · push Not at ht
    rcases loops_step c σ hσ o ht with ⟨-, h2, -⟩ | ⟨-, -, h2, -⟩ | ⟨-, -, h2⟩
    · intro l hl
      rw [h2] at hl
      linarith [h l hl]
    · intro l hl
      rw [h2, List.mem_append, List.mem_singleton] at hl
      rcases hl with hl | rfl
      · linarith [h l hl]
      · show σ.now + c.timestep ≤ _; linarith
    · intro l hl
      rw [h2] at hl
      linarith [h l hl]

theorem soon_exec (c : Cfg) (os : List Op) (σ : St) (hσ : InvA σ) (P : Prop) (hL : LoopInv c σ P) (h : Soon c σ) : Soon c (exec c os σ) := by
  induction os generalizing σ P with
  | nil => exact h
  | cons o os ih => exact ih _ (step_invA c σ o hσ) _ (step_loop c σ o hσ P hL) (soon_step c σ hσ hL.one h o)

/-- After the loop has been asked for, the next check is not later than a timestep after any later time. -/
theorem nextBy_asked (c : Cfg) (det : Obj → Bool) (now : Rat) (os : List Op) (o : Op) (ho : o.Asks) (σ : St) (hσ : σ = exec c (os ++ [o]) (St.init det now))
    (u : Rat) (hu : σ.now ≤ u) : NextBy c u σ ∨ Over σ := by
  have hI : InvA σ := by rw [hσ]; exact exec_invA c _ _ (init_invA det now)
  have hL := exec_loop c (os ++ [o]) _ (init_invA det now) _ (init_loop c det now)
  have hS : Soon c σ := by rw [hσ]; exact soon_exec c _ _ (init_invA det now) _ (init_loop c det now) (fun l hl => (by cases hl))
  rw [← hσ] at hL
  have hp : σ.isRunning = false → 0 < σ.pending := by
    rw [hσ, exec_append]
    generalize exec c os (St.init det now) = τ
    cases o with
    | run => intro _; exact Nat.succ_pos _
    | startMover a ok =>
      simp only [exec, step, addMover]
      cases hr : τ.isRunning <;> simp only [if_true, Bool.false_eq_true, if_false] <;> split <;> (try split) <;> simp_all
    | _ => exact absurd ho id
  cases hr : σ.isRunning with
  | false => exact .inl (.inl ⟨hr, hp hr, hu, (hL.idle' hr).1⟩)
  | true =>
    cases hl : σ.loops with
    | nil => exact .inr ⟨hr, hl⟩
    | cons l ls =>
      have : ls = [] := by
        have := hL.one
        rw [hl] at this
        cases ls with
        | nil => rfl
        | cons _ _ => simp at this
      subst this
      have hm : l ∈ σ.loops := by rw [hl]; exact List.mem_singleton.2 rfl
      exact .inl (.inr ⟨hr, hL.forward l hm, l.1, l.2, hl, by linarith [hS l hm], hL.ahead l hm⟩)

theorem delay (c : Cfg) (u : Rat) (os : List Op) (σ : St) (hσ : InvA σ) (h : NextBy c u σ) (hend : u + c.timestep < (exec c os σ).now) (hu : u < (exec c os σ).now)
    (hlive : (exec c os σ).loops ≠ []) :
    ∃ pre e L post, os = pre ++ .timer e L :: post ∧ u ≤ (exec c pre σ).now ∧ (exec c pre σ).now ≤ u + c.timestep ∧ (step c (exec c pre σ) (.timer e L)).2 = .ok := by
  induction os generalizing σ with
  | nil =>
    rcases h with ⟨-, -, h, -⟩ | ⟨-, -, l, k, -, h1, h2⟩
    · simp only [exec] at hu; linarith
    · simp only [exec] at hend; linarith
  | cons o os ih =>
    have hI := step_invA c σ o hσ
    have lift : NextBy c u (step c σ o).1 → ∃ pre e L post, o :: os = pre ++ .timer e L :: post ∧ u ≤ (exec c pre σ).now ∧ (exec c pre σ).now ≤ u + c.timestep ∧
        (step c (exec c pre σ) (.timer e L)).2 = .ok := fun hN => by
      obtain ⟨pre, e, L, post, h1, h2, h3, h4⟩ := ih _ hI hN hend hu hlive
      exact ⟨o :: pre, e, L, post, by rw [h1]; rfl, h2, h3, h4⟩
    have dead : ¬ Over (step c σ o).1 := fun hO => hlive (over_exec c os _ hI hO).2
    by_cases ht : ∃ e L, o = .timer e L
    · obtain ⟨e, L, rfl⟩ := ht
      rcases nextBy_timer c u σ hσ h e L with h | h | ⟨h1, h2, h3⟩
      · exact lift h
      · exact absurd h dead
      · exact ⟨[], e, L, os, rfl, h1, h2, h3⟩
    · push Not at ht
      rcases nextBy_step c u σ hσ h o ht with h | h
      · exact lift h
      · exact absurd h dead

/-- **C57, how long it takes.** From the moment something is set in motion or `run` is called, every stretch of time one timestep long contains a check
that ends well, as long as the loop is found alive after it. -/
theorem c57_delay (c : Cfg) (det : Obj → Bool) (now : Rat) (os₁ os₂ : List Op) (o : Op) (ho : o.Asks) (σ₁ σ : St) (hσ₁ : σ₁ = exec c (os₁ ++ [o]) (St.init det now))
    (hσ : σ = exec c os₂ σ₁) (u : Rat) (hu : σ₁.now ≤ u) (hend : u + c.timestep < σ.now) (hlive : σ.loops ≠ []) :
    ∃ pre e L post, os₂ = pre ++ .timer e L :: post ∧ u ≤ (exec c pre σ₁).now ∧ (exec c pre σ₁).now ≤ u + c.timestep ∧ (step c (exec c pre σ₁) (.timer e L)).2 = .ok := by
  have hI : InvA σ₁ := by rw [hσ₁]; exact exec_invA c _ _ (init_invA det now)
  have hL := exec_loop c (os₁ ++ [o] ++ os₂) _ (init_invA det now) _ (init_loop c det now)
  rw [exec_append, ← hσ₁, ← hσ] at hL
  have hdt : 0 ≤ c.timestep := by
    cases hl : σ.loops with
    | nil => exact absurd hl hlive
    | cons l ls => exact hL.forward l (by rw [hl]; exact List.mem_cons_self ..)
  subst hσ
  rcases nextBy_asked c det now os₁ o ho σ₁ hσ₁ u hu with h | h
  · exact delay c u os₂ σ₁ hI h hend (by linarith) hlive
  · exact absurd (over_exec c os₂ σ₁ hI h).2 hlive

/-- The loop begun at 0 with timestep 2 checks between 3 and 5. -/
example : ∃ pre e L post, [Op.beginRun, .advance 2, .timer false ⟨fun _ _ => some true, fun _ _ => [], true⟩, .advance 4, .timer false ⟨fun _ _ => some true, fun _ _ => [], true⟩, .advance (11/2)] =
      pre ++ .timer e L :: post ∧ (3 : Rat) ≤ (exec ⟨2, 5⟩ pre (exec ⟨2, 5⟩ ([] ++ [.startMover 1 true]) (St.init (fun _ => true) 0))).now ∧
      (exec ⟨2, 5⟩ pre (exec ⟨2, 5⟩ ([] ++ [.startMover 1 true]) (St.init (fun _ => true) 0))).now ≤ 5 ∧
      (step ⟨2, 5⟩ (exec ⟨2, 5⟩ pre (exec ⟨2, 5⟩ ([] ++ [.startMover 1 true]) (St.init (fun _ => true) 0))) (.timer e L)).2 = .ok := by
  have h5 : (3 : Rat) + 2 = 5 := by norm_num
  have := c57_delay ⟨2, 5⟩ (fun _ => true) 0 [] [Op.beginRun, .advance 2, .timer false ⟨fun _ _ => some true, fun _ _ => [], true⟩, .advance 4, .timer false ⟨fun _ _ => some true, fun _ _ => [], true⟩, .advance (11/2)]
    (.startMover 1 true) trivial _ _ rfl rfl 3 (by decide +kernel) (by decide +kernel) (by decide +kernel)
  simpa only [h5] using this

end Verif.Stepped
