import Verif.Stepped.Props
import Mathlib.Tactic.Linarith
import Mathlib.Tactic.Ring

/-! # C57: what is checked, and when -/

namespace Verif.Stepped

/-- The number of checks at the end of the list that found nothing else scheduled. -/
def idle (checks : List (Rat × Bool)) : Nat := (checks.reverse.takeWhile (·.2)).length

theorem idle_snoc (l : List (Rat × Bool)) (t : Rat) (e : Bool) : idle (l ++ [(t, e)]) = if e then idle l + 1 else 0 := by
  cases e <;> simp [idle]

/-- The times `t0 + timestep`, `t0 + 2 timestep`, … -/
def grid (c : Cfg) (t0 : Rat) (k : Nat) : List Rat := (List.range k).map fun i : Nat => t0 + (i + 1) * c.timestep

theorem grid_succ (c : Cfg) (t0 : Rat) (k : Nat) : grid c t0 (k + 1) = grid c t0 k ++ [t0 + (k + 1) * c.timestep] := by
  simp [grid, List.range_succ]

/-- The loop. `failed` says whether an exception has ended it. -/
structure LoopInv (c : Cfg) (σ : St) (failed : Prop) : Prop where
  idle' : σ.isRunning = false → σ.loops = [] ∧ σ.checks = []
  grid' : ∃ t0, σ.checks.map (·.1) = grid c t0 σ.checks.length ∧ ∀ l ∈ σ.loops, l.1 = t0 + (σ.checks.length + 1) * c.timestep
  one : σ.loops.length ≤ 1
  ahead : ∀ l ∈ σ.loops, σ.now ≤ l.1
  count : ∀ l ∈ σ.loops, l.2 = idle σ.checks
  forward : ∀ l ∈ σ.loops, 0 ≤ c.timestep
  alive : ∀ l ∈ σ.loops, (idle σ.checks : Int) < max 1 c.maxEmpty
  ended : σ.isRunning = true → σ.loops = [] → failed ∨ (0 < idle σ.checks ∧ c.maxEmpty ≤ idle σ.checks)

theorem LoopInv.frame {c : Cfg} {σ τ : St} {P Q : Prop} (h : LoopInv c σ P) (hpq : P → Q) (h1 : τ.isRunning = σ.isRunning) (h2 : τ.loops = σ.loops)
    (h3 : τ.checks = σ.checks) (h4 : τ.now = σ.now) : LoopInv c τ Q :=
  ⟨by rw [h1, h2, h3]; exact h.idle', by rw [h2, h3]; exact h.grid', by rw [h2]; exact h.one, by rw [h2, h4]; exact h.ahead,
    by rw [h2, h3]; exact h.count, by rw [h2]; exact h.forward, by rw [h2, h3]; exact h.alive, by rw [h1, h2, h3]; exact fun a b => (h.ended a b).imp hpq id⟩

theorem run_same {c : Cfg} {σ τ : St} {P Q : Prop} (h : LoopInv c σ P) (hpq : P → Q) (hs : Same σ τ) : LoopInv c τ Q :=
  h.frame hpq hs.isRunning hs.loops hs.checks hs.now

theorem step_loop (c : Cfg) (σ : St) (o : Op) (hσ : InvA σ) (P : Prop) (h : LoopInv c σ P) : LoopInv c (step c σ o).1 (P ∨ (step c σ o).2 = .error) := by
  cases o with
  | addSensor s ok => cases ok <;> exact h.frame .inl rfl rfl rfl rfl
  | addDetectable a ok => cases ok <;> exact h.frame .inl rfl rfl rfl rfl
  | startMover a ok =>
    simp only [step, addMover]
    split <;> split <;> (try split) <;> exact h.frame .inl rfl rfl rfl rfl
  | stopMover a => exact h.frame .inl rfl rfl rfl rfl
  | setDetectable a v L =>
    cases v with
    | true =>
      have hs := (runDetectable_invA L (some [a]) { σ with det := fun b => if b = a then true else σ.det b } (hσ.frame rfl rfl)).2.1
      exact run_same (σ := { σ with det := fun b => if b = a then true else σ.det b }) (h.frame (Q := P) id rfl rfl rfl rfl) .inl hs
    | false => exact h.frame .inl rfl rfl rfl rfl
  | particular a L => exact run_same h .inl (runDetectable_invA L (some [a]) _ hσ).2.1
  | run => exact h.frame .inl rfl rfl rfl rfl
  | beginRun =>
    simp only [step]
    split
    · exact h.frame .inl rfl rfl rfl rfl
    · split
      · exact h.frame .inl rfl rfl rfl rfl
      · rename_i hr
        obtain ⟨h1, h2⟩ := h.idle' (by simpa using hr)
        split
        · exact ⟨fun hc => (by cases hc), by simpa [h1, h2, grid] using ⟨σ.now, trivial⟩, by simp [h1], by simp [h1], by simp [h1], by simp [h1], by simp [h1], fun _ _ => .inl (.inr rfl)⟩
        · rename_i hdt
          have hdt := not_lt.1 hdt
          refine ⟨fun hc => (by cases hc), ⟨σ.now, by simp [h2, grid], ?_⟩, by simp [h1], ?_, ?_, by simpa [h1] using hdt, by simp [h1, h2, idle], fun _ hc => ?_⟩
          · simp [h1, h2]
          · simp only [h1, List.nil_append, List.mem_singleton, forall_eq]; linarith
          · simp [h1, h2, idle]
          · simp [h1] at hc
  | timer empty L =>
    rcases timer_cases σ with ⟨n, rest, hl⟩ | hl
    · obtain ⟨τ, o, hr, ho, hst, -⟩ := timer_eq c σ empty L n rest hl
      have hs := (runDetectable_invA L none { σ with loops := rest, checks := σ.checks ++ [(σ.now, empty)] } (hσ.frame rfl rfl)).2.1
      have hnr := (runDetectable_invA L none { σ with loops := rest, checks := σ.checks ++ [(σ.now, empty)] } (hσ.frame rfl rfl)).2.2
      rw [hr] at hs hnr
      have hrest : rest = [] := by
        have := h.one
        rw [hl] at this
        cases rest with
        | nil => rfl
        | cons _ _ => simp at this
      subst hrest
      obtain ⟨t0, g1, g2⟩ := h.grid'
      have hnow : σ.now = t0 + (σ.checks.length + 1) * c.timestep := g2 _ (by rw [hl]; exact List.mem_cons_self ..)
      have hn : n = idle σ.checks := h.count _ (by rw [hl]; exact List.mem_cons_self ..)
      have hrun : σ.isRunning = true := by
        by_contra hc
        have := (h.idle' (by simpa using hc)).1
        rw [hl] at this; cases this
      have hsl : τ.loops = [] := hs.loops
      have hsc : τ.checks = σ.checks ++ [(σ.now, empty)] := hs.checks
      have hsn : τ.now = σ.now := hs.now
      have hsr : τ.isRunning = true := hs.isRunning.trans hrun
      have hgrid : τ.checks.map (·.1) = grid c t0 τ.checks.length := by
        rw [hsc, List.map_append, List.length_append, List.length_singleton, grid_succ, g1, ← hnow]; rfl
      have hidle : idle τ.checks = if empty then idle σ.checks + 1 else 0 := by rw [hsc, idle_snoc]
      have hdead : ∀ Q : Prop, (Q ∨ (0 < idle τ.checks ∧ c.maxEmpty ≤ idle τ.checks)) → LoopInv c τ Q := fun Q hq =>
        ⟨by rw [hsr]; exact fun hc => Bool.noConfusion hc, ⟨t0, hgrid, by simp [hsl]⟩, by simp [hsl], by simp [hsl], by simp [hsl], by simp [hsl], by simp [hsl], fun _ _ => hq⟩
      have hdt : 0 ≤ c.timestep := h.forward _ (by rw [hl]; exact List.mem_cons_self ..)
      have hlive : ∀ (Q : Prop) (m : Int), m = idle τ.checks → (idle τ.checks : Int) < max 1 c.maxEmpty → LoopInv c { τ with loops := τ.loops ++ [(τ.now + c.timestep, m)] } Q := by
        intro Q m hm hal
        refine ⟨by rw [hsr]; exact fun hc => Bool.noConfusion hc, ⟨t0, hgrid, ?_⟩, by simp [hsl], ?_, by simp [hsl, hm], by simpa [hsl] using hdt, fun _ _ => hal, fun _ hc => (by simp [hsl] at hc)⟩
        · simp only [hsl, List.nil_append, List.mem_singleton, forall_eq, hsn, hnow, hsc, List.length_append, List.length_singleton]
          push_cast; ring
        · simp only [hsl, List.nil_append, List.mem_singleton, forall_eq]; linarith
      rw [hst, ho]
      by_cases hok : o = .ok
      · rw [if_pos hok]
        unfold again
        cases empty with
        | true =>
          rw [if_pos rfl]
          rw [if_pos rfl] at hidle
          split
          · rename_i hmax
            refine hdead _ (.inr ?_)
            rw [hidle]
            exact ⟨by omega, by omega⟩
          · exact hlive _ _ (by rw [hidle, hn]; push_cast; rfl) (by rw [hidle]; omega)
        | false =>
          rw [if_neg (by decide)]
          rw [if_neg (by decide)] at hidle
          exact hlive _ _ (by rw [hidle]; rfl) (by rw [hidle]; omega)
      · rw [if_neg hok]
        refine hdead _ (.inl (.inr ?_))
        cases o with
        | ok => exact absurd rfl hok
        | error => rfl
        | refused => exact absurd rfl hnr
    · rw [timer_other c σ empty L hl]; exact h.frame .inl rfl rfl rfl rfl
  | advance t =>
    simp only [step]
    split
    · rename_i hc
      exact ⟨h.idle', h.grid', h.one, hc.2.2, h.count, h.forward, h.alive, fun a b => (h.ended a b).imp .inl id⟩
    · exact h.frame .inl rfl rfl rfl rfl
  | reorder view =>
    simp only [step]
    split <;> exact h.frame .inl rfl rfl rfl rfl

theorem exec_append (c : Cfg) (os ps : List Op) (σ : St) : exec c (os ++ ps) σ = exec c ps (exec c os σ) := by
  induction os generalizing σ with
  | nil => rfl
  | cons o os ih => exact ih _

/-- The answers of a history. -/
def outs (c : Cfg) : List Op → St → List Out
  | [], _ => []
  | o :: os, σ => (step c σ o).2 :: outs c os (step c σ o).1

theorem exec_loop (c : Cfg) (os : List Op) (σ : St) (hσ : InvA σ) (P : Prop) (h : LoopInv c σ P) :
    LoopInv c (exec c os σ) (P ∨ Out.error ∈ outs c os σ) := by
  induction os generalizing σ P with
  | nil => exact h.frame .inl rfl rfl rfl rfl
  | cons o os ih =>
    refine (ih _ (step_invA c σ o hσ) _ (step_loop c σ o hσ P h)).frame ?_ rfl rfl rfl rfl
    simp only [outs, List.mem_cons]
    rintro ((h | h) | h)
    · exact .inl h
    · exact .inr (.inl h.symm)
    · exact .inr (.inr h)

theorem init_loop (c : Cfg) (det : Obj → Bool) (now : Rat) : LoopInv c (St.init det now) False :=
  ⟨fun _ => ⟨rfl, rfl⟩, ⟨now, rfl, by simp [St.init]⟩, by simp [St.init], by simp [St.init], by simp [St.init], by simp [St.init], by simp [St.init], fun h => (by cases h)⟩

/-- **C57, when.** In every history there is at most one loop, however often `run` is called and things start moving. It checks at
`t0 + timestep`, `t0 + 2 timestep`, … once each; while it lives, no such time is passed without a check; and it ends only by an
exception or after `max_empty_events` checks in a row that found nothing else scheduled, and then it does end. -/
theorem c57_grid (c : Cfg) (det : Obj → Bool) (now : Rat) (os : List Op) (σ : St) (hσ : σ = exec c os (St.init det now)) :
    σ.loops.length ≤ 1 ∧
    (∃ t0, σ.checks.map (·.1) = grid c t0 σ.checks.length ∧ (∀ l ∈ σ.loops, σ.now ≤ t0 + (σ.checks.length + 1) * c.timestep)) ∧
    (max 1 c.maxEmpty ≤ idle σ.checks → σ.loops = []) ∧
    (σ.isRunning = true → Out.error ∉ outs c os (St.init det now) → idle σ.checks < max 1 c.maxEmpty → σ.loops ≠ []) := by
  have h := exec_loop c os _ (init_invA det now) _ (init_loop c det now)
  rw [← hσ] at h
  obtain ⟨t0, g1, g2⟩ := h.grid'
  refine ⟨h.one, ⟨t0, g1, fun l hl => ?_⟩, fun hm => ?_, fun hr he hi hl => ?_⟩
  · rw [← g2 l hl]; exact h.ahead l hl
  · refine List.eq_nil_iff_forall_not_mem.2 fun l hl => ?_
    have := h.alive l hl
    omega
  · rcases h.ended hr hl with (hf | hf) | ⟨h1, h2⟩
    · exact hf
    · exact he hf
    · omega

/-! ### When it starts -/

/-- Asking for the loop. -/
def Op.Asks : Op → Prop
  | .run => True
  | .startMover _ _ => True
  | _ => False

/-- The loop was asked for at `t0`. -/
structure Asked (c : Cfg) (t0 : Rat) (σ : St) : Prop where
  waits : σ.isRunning = false → 0 < σ.pending ∧ σ.now = t0 ∧ σ.loops = [] ∧ σ.checks = []
  runs : σ.isRunning = true → σ.checks.map (·.1) = grid c t0 σ.checks.length ∧ ∀ l ∈ σ.loops, l.1 = t0 + (σ.checks.length + 1) * c.timestep

theorem Asked.frame {c : Cfg} {σ τ : St} {t0 : Rat} (h : Asked c t0 σ) (h1 : τ.isRunning = σ.isRunning) (h2 : τ.loops = σ.loops)
    (h3 : τ.checks = σ.checks) (h4 : τ.now = σ.now) (h5 : σ.pending ≤ τ.pending) : Asked c t0 τ :=
  ⟨fun hr => by
    obtain ⟨a, b, c, d⟩ := h.waits (h1.symm.trans hr)
    exact ⟨by omega, h4.trans b, h2.trans c, h3.trans d⟩, by rw [h1, h2, h3]; exact h.runs⟩

theorem Asked.same {c : Cfg} {σ τ : St} {t0 : Rat} (h : Asked c t0 σ) (hs : Same σ τ) : Asked c t0 τ :=
  h.frame hs.isRunning hs.loops hs.checks hs.now hs.pending.ge

theorem step_asked (c : Cfg) (t0 : Rat) (σ : St) (o : Op) (hσ : InvA σ) (P : Prop) (hL : LoopInv c σ P) (h : Asked c t0 σ) : Asked c t0 (step c σ o).1 := by
  cases o with
  | addSensor s ok => cases ok <;> exact h.frame rfl rfl rfl rfl (le_refl _)
  | addDetectable a ok => cases ok <;> exact h.frame rfl rfl rfl rfl (le_refl _)
  | startMover a ok =>
    simp only [step, addMover]
    split <;> split <;> (try split) <;> exact h.frame rfl rfl rfl rfl (by first | exact le_refl _ | exact Nat.le_succ _)
  | stopMover a => exact h.frame rfl rfl rfl rfl (le_refl _)
  | setDetectable a v L =>
    cases v with
    | true =>
      exact Asked.same (σ := { σ with det := fun b => if b = a then true else σ.det b }) (h.frame rfl rfl rfl rfl (le_refl _))
        (runDetectable_invA L (some [a]) { σ with det := fun b => if b = a then true else σ.det b } (hσ.frame rfl rfl)).2.1
    | false => exact h.frame rfl rfl rfl rfl (le_refl _)
  | particular a L => exact h.same (runDetectable_invA L (some [a]) _ hσ).2.1
  | run => exact h.frame rfl rfl rfl rfl (Nat.le_succ _)
  | beginRun =>
    simp only [step]
    split
    · exact h
    · split
      · rename_i hr
        exact ⟨fun hc => absurd (hr.symm.trans hc) (by decide), h.runs⟩
      · rename_i hr
        obtain ⟨-, h1, h2, h3⟩ := h.waits (by simpa using hr)
        split
        · exact ⟨fun hc => (by cases hc), fun _ => ⟨by simp [h3, grid], by simp [h2]⟩⟩
        · exact ⟨fun hc => (by cases hc), fun _ => ⟨by simp [h3, grid], by simp [h1, h2, h3]⟩⟩
  | timer empty L =>
    rcases timer_cases σ with ⟨n, rest, hl⟩ | hl
    · obtain ⟨τ, o, hr, ho, hst, -⟩ := timer_eq c σ empty L n rest hl
      have hs := (runDetectable_invA L none { σ with loops := rest, checks := σ.checks ++ [(σ.now, empty)] } (hσ.frame rfl rfl)).2.1
      rw [hr] at hs
      have hrest : rest = [] := by
        have := hL.one
        rw [hl] at this
        cases rest with
        | nil => rfl
        | cons _ _ => simp at this
      subst hrest
      have hrun : σ.isRunning = true := by
        by_contra hc
        have := (h.waits (by simpa using hc)).2.2.1
        rw [hl] at this; cases this
      obtain ⟨g1, g2⟩ := h.runs hrun
      have hnow : σ.now = t0 + (σ.checks.length + 1) * c.timestep := g2 _ (by rw [hl]; exact List.mem_cons_self ..)
      have hsl : τ.loops = [] := hs.loops
      have hsc : τ.checks = σ.checks ++ [(σ.now, empty)] := hs.checks
      have hsn : τ.now = σ.now := hs.now
      have hsr : τ.isRunning = true := hs.isRunning.trans hrun
      have hgrid : τ.checks.map (·.1) = grid c t0 τ.checks.length := by
        rw [hsc, List.map_append, List.length_append, List.length_singleton, grid_succ, g1, ← hnow]; rfl
      have hdead : Asked c t0 τ := ⟨by rw [hsr]; exact fun hc => Bool.noConfusion hc, fun _ => ⟨hgrid, by simp [hsl]⟩⟩
      have hlive : ∀ m : Int, Asked c t0 { τ with loops := τ.loops ++ [(τ.now + c.timestep, m)] } := fun m => by
        refine ⟨by rw [hsr]; exact fun hc => Bool.noConfusion hc, fun _ => ⟨hgrid, ?_⟩⟩
        simp only [hsl, List.nil_append, List.mem_singleton, forall_eq, hsn, hnow, hsc, List.length_append, List.length_singleton]
        push_cast; ring
      rw [hst]
      split
      · unfold again
        split
        · split
          · exact hdead
          · exact hlive _
        · exact hlive _
      · exact hdead
    · rw [timer_other c σ empty L hl]; exact h
  | advance t =>
    simp only [step]
    split
    · rename_i hc
      exact ⟨fun hr => absurd (h.waits hr).1 (by have := hc.2.1; omega), h.runs⟩
    · exact h
  | reorder view =>
    simp only [step]
    split <;> exact h.frame rfl rfl rfl rfl (le_refl _)

theorem exec_asked (c : Cfg) (t0 : Rat) (os : List Op) (σ : St) (hσ : InvA σ) (P : Prop) (hL : LoopInv c σ P) (h : Asked c t0 σ) : Asked c t0 (exec c os σ) := by
  induction os generalizing σ P with
  | nil => exact h
  | cons o os ih => exact ih _ (step_invA c σ o hσ) _ (step_loop c σ o hσ P hL) (step_asked c t0 σ o hσ P hL h)

/-- Nothing runs before it is asked for. -/
theorem unasked (c : Cfg) (os : List Op) (σ : St) (hσ : InvA σ) (hn : ∀ o ∈ os, ¬ o.Asks) (h1 : σ.isRunning = false) (h2 : σ.pending = 0)
    (h3 : σ.loops = []) : (exec c os σ).isRunning = false := by
  induction os generalizing σ with
  | nil => exact h1
  | cons o os ih =>
    have ho := hn o (List.mem_cons_self ..)
    have ih := fun τ hτ => ih τ hτ fun o' h' => hn o' (List.mem_cons_of_mem _ h')
    have same : ∀ τ, InvA τ → Same σ τ → (exec c os τ).isRunning = false :=
      fun τ hτ h => ih τ hτ (h.isRunning.trans h1) (h.pending.trans h2) (h.loops.trans h3)
    have hI := step_invA c σ o hσ
    refine ih _ hI ?_ ?_ ?_
    all_goals
      cases o with
      | addSensor s ok => cases ok <;> assumption
      | addDetectable a ok => cases ok <;> assumption
      | startMover a ok => exact absurd trivial ho
      | stopMover a => assumption
      | setDetectable a v L =>
        cases v with
        | true =>
          have := (runDetectable_invA L (some [a]) { σ with det := fun b => if b = a then true else σ.det b } (hσ.frame rfl rfl)).2.1
          first | exact this.isRunning.trans h1 | exact this.pending.trans h2 | exact this.loops.trans h3
        | false => assumption
      | particular a L =>
        have := (runDetectable_invA L (some [a]) _ hσ).2.1
        first | exact this.isRunning.trans h1 | exact this.pending.trans h2 | exact this.loops.trans h3
      | run => exact absurd trivial ho
      | beginRun => simp only [step, if_pos h2]; assumption
      | timer empty L => rw [timer_other c σ empty L (by simp [h3])]; assumption
      | advance t => simp only [step]; split <;> assumption
      | reorder view => simp only [step]; split <;> assumption

/-- **C57, the start.** The loop starts when `run` is called or something starts moving for the first time: from that moment `t0` on
(once the kernel has run what was asked for, which it does before time goes on) the manager is running, and its checks are those of
`t0 + timestep`, `t0 + 2 timestep`, … without gaps. -/
theorem c57_start (c : Cfg) (det : Obj → Bool) (now : Rat) (os₁ os₂ : List Op) (o : Op) (hfirst : ∀ o' ∈ os₁, ¬ o'.Asks) (ho : o.Asks)
    (σ : St) (hσ : σ = exec c (os₁ ++ o :: os₂) (St.init det now)) (hp : σ.pending = 0) :
    σ.isRunning = true ∧ σ.checks.map (·.1) = grid c (exec c os₁ (St.init det now)).now σ.checks.length := by
  rw [exec_append] at hσ
  have hI := exec_invA c os₁ _ (init_invA det now)
  have hL := exec_loop c os₁ _ (init_invA det now) _ (init_loop c det now)
  have hr := unasked c os₁ _ (init_invA det now) hfirst rfl rfl rfl
  generalize exec c os₁ (St.init det now) = τ at hσ hI hL hr ⊢
  obtain ⟨h1, h2⟩ := hL.idle' hr
  have h0 : Asked c τ.now (step c τ o).1 := by
    cases o with
    | run => exact ⟨fun _ => ⟨Nat.succ_pos _, rfl, h1, h2⟩, fun hc => absurd (hr.symm.trans hc) (by decide)⟩
    | startMover a ok =>
      have hb : Asked c τ.now { τ with pending := τ.pending + 1 } :=
        ⟨fun _ => ⟨Nat.succ_pos _, rfl, h1, h2⟩, fun hc => absurd (hr.symm.trans hc) (by decide)⟩
      rw [show step c τ (.startMover a ok) = addMover (if τ.isRunning = true then τ else { τ with pending := τ.pending + 1 }) a ok from rfl,
        if_neg (show ¬ τ.isRunning = true by rw [hr]; decide)]
      simp only [addMover]
      split
      · exact hb
      · split <;> exact hb.frame rfl rfl rfl rfl (le_refl _)
    | _ => exact absurd ho id
  have h := exec_asked c τ.now os₂ _ (step_invA c τ o hI) _ (step_loop c τ o hI _ hL) h0
  rw [show exec c os₂ (step c τ o).1 = σ from hσ.symm] at h
  cases hrun : σ.isRunning with
  | false => have := (h.waits hrun).1; omega
  | true => exact ⟨rfl, (h.runs hrun).1⟩

example : (exec cfg ([.addSensor 0 true, .advance 5] ++ .startMover 2 true :: [.beginRun, .advance 6, .timer false near, .run, .beginRun, .advance 7, .timer true near])
    (St.init (fun _ => true) 0)).checks = [(6, false), (7, true)] := by decide +kernel

/-! ### What is checked -/

theorem mem_addKey {l : List Obj} {k x : Obj} : x ∈ addKey l k ↔ x ∈ l ∨ x = k := by
  unfold addKey
  split
  · rename_i h
    exact ⟨.inl, fun hc => hc.elim id fun e => by rw [e]; exact h⟩
  · simp

theorem keeps (c : Cfg) (σ : St) (o : Op) (hσ : InvA σ) :
    (∀ s ∈ σ.sensors, s ∈ (step c σ o).1.sensors) ∧ ∀ a ∈ σ.detectables, o ≠ .stopMover a → a ∈ (step c σ o).1.detectables := by
  have same : ∀ τ, Same σ τ → (∀ s ∈ σ.sensors, s ∈ τ.sensors) ∧ ∀ a ∈ σ.detectables, o ≠ .stopMover a → a ∈ τ.detectables :=
    fun τ h => ⟨fun s hs => by rw [h.sensors]; exact hs, fun a ha _ => by rw [h.detectables]; exact ha⟩
  cases o with
  | addSensor s ok =>
    cases ok
    · exact ⟨fun s hs => hs, fun a ha _ => ha⟩
    · exact ⟨fun s hs => mem_addKey.2 (.inl hs), fun a ha _ => ha⟩
  | addDetectable a ok =>
    cases ok
    · exact ⟨fun s hs => hs, fun a ha _ => ha⟩
    · exact ⟨fun s hs => hs, fun a ha _ => mem_addKey.2 (.inl ha)⟩
  | startMover a ok =>
    simp only [step, addMover]
    split <;> split <;> (try split) <;>
      first | exact ⟨fun s hs => hs, fun a ha _ => ha⟩ | exact ⟨fun s hs => hs, fun a ha _ => mem_addKey.2 (.inl ha)⟩
  | stopMover a => exact ⟨fun s hs => hs, fun b hb hne => (List.mem_erase_of_ne (fun hc => hne (by rw [hc]))).2 hb⟩
  | setDetectable a v L =>
    cases v with
    | true =>
      have := (runDetectable_invA L (some [a]) { σ with det := fun b => if b = a then true else σ.det b } (hσ.frame rfl rfl)).2.1
      exact ⟨fun s hs => by rw [step, if_pos rfl, this.sensors]; exact hs, fun b hb _ => by rw [step, if_pos rfl, this.detectables]; exact hb⟩
    | false => exact ⟨fun s hs => hs, fun a ha _ => ha⟩
  | particular a L => exact same _ (runDetectable_invA L (some [a]) _ hσ).2.1
  | run => exact ⟨fun s hs => hs, fun a ha _ => ha⟩
  | beginRun =>
    simp only [step]
    split
    · exact ⟨fun s hs => hs, fun a ha _ => ha⟩
    · split
      · exact ⟨fun s hs => hs, fun a ha _ => ha⟩
      · split <;> exact ⟨fun s hs => hs, fun a ha _ => ha⟩
  | timer empty L =>
    rcases timer_cases σ with ⟨n, rest, hl⟩ | hl
    · obtain ⟨τ, o, hr, ho, hst, -⟩ := timer_eq c σ empty L n rest hl
      have hs := (runDetectable_invA L none { σ with loops := rest, checks := σ.checks ++ [(σ.now, empty)] } (hσ.frame rfl rfl)).2.1
      rw [hr] at hs
      have h1 : (step c σ (.timer empty L)).1.sensors = σ.sensors ∧ (step c σ (.timer empty L)).1.detectables = σ.detectables := by
        rw [hst, ← hs.sensors, ← hs.detectables]
        split
        · unfold again
          split <;> (try split) <;> exact ⟨rfl, rfl⟩
        · exact ⟨rfl, rfl⟩
      exact ⟨fun s hs => by rw [h1.1]; exact hs, fun a ha _ => by rw [h1.2]; exact ha⟩
    · rw [timer_other c σ empty L hl]; exact ⟨fun s hs => hs, fun a ha _ => ha⟩
  | advance t =>
    simp only [step]
    split <;> exact ⟨fun s hs => hs, fun a ha _ => ha⟩
  | reorder view =>
    simp only [step]
    split <;> exact ⟨fun s hs => hs, fun a ha _ => ha⟩

theorem keeps_exec (c : Cfg) (os : List Op) (σ : St) (hσ : InvA σ) :
    (∀ s ∈ σ.sensors, s ∈ (exec c os σ).sensors) ∧ ∀ a ∈ σ.detectables, Op.stopMover a ∉ os → a ∈ (exec c os σ).detectables := by
  induction os generalizing σ with
  | nil => exact ⟨fun s hs => hs, fun a ha _ => ha⟩
  | cons o os ih =>
    obtain ⟨h1, h2⟩ := keeps c σ o hσ
    obtain ⟨h3, h4⟩ := ih _ (step_invA c σ o hσ)
    refine ⟨fun s hs => h3 s (h1 s hs), fun a ha hn => h4 a (h2 a ha fun hc => hn ?_) fun hc => hn (List.mem_cons_of_mem _ hc)⟩
    rw [hc]; exact List.mem_cons_self ..

/-- **C57, what is checked (the part that holds).** A sensor once added is checked for good; an object added, or moving, is checked
at every step until it stops moving. Missing: an object added by `add_detectable` is no longer checked once a movement of it has
ended (`c57_stopped_forgotten`), and sensors that hide objects (`c42_hidden_by_callback`). -/
theorem c57_checked_partial (c : Cfg) (det : Obj → Bool) (now : Rat) (os₁ os₂ : List Op) (s a : Obj) (hsa : s ≠ a) (o : Op)
    (ho : o = .addDetectable a true ∨ o = .startMover a true) (hs : Op.addSensor s true ∈ os₁ ++ os₂) (hn : Op.stopMover a ∉ os₂)
    (hq : ∀ o' ∈ os₁ ++ o :: os₂, o'.Quiet) (empty : Bool) (L : Look) (hL : Quiet L) (σ : St) (hσ : σ = exec c (os₁ ++ o :: os₂) (St.init det now))
    (hok : (step c σ (.timer empty L)).2 = .ok) :
    Aware (step c σ (.timer empty L)).1.log s a ↔ σ.det a = true ∧ L.sees s a = some true := by
  refine c42_after_check_partial c det now _ hq empty L hL σ hσ hok s a ?_ ?_ hsa
  · have hmem : Op.addSensor s true ∈ os₁ ++ o :: os₂ := by
      rcases List.mem_append.1 hs with hs | hs
      · exact List.mem_append_left _ hs
      · exact List.mem_append_right _ (List.mem_cons_of_mem _ hs)
    obtain ⟨p, q, hpq⟩ := List.append_of_mem hmem
    rw [hσ, hpq, exec_append]
    have hp := exec_invA c p _ (init_invA det now)
    refine (keeps_exec c q _ (step_invA c _ (.addSensor s true) hp)).1 s ?_
    exact mem_addKey.2 (.inr rfl)
  · rw [hσ, exec_append]
    have hp := exec_invA c os₁ _ (init_invA det now)
    refine (keeps_exec c os₂ _ (step_invA c _ o hp)).2 a ?_ hn
    rcases ho with rfl | rfl
    · exact mem_addKey.2 (.inr rfl)
    · simp only [step, addMover]
      split <;> split <;> first | assumption | exact mem_addKey.2 (.inr rfl)

example : (step cfg (exec cfg ([.addSensor 0 true] ++ .startMover 3 true :: [.addDetectable 2 true, .beginRun, .advance 1]) (St.init (fun _ => true) 0))
    (.timer false near)).2 = .ok := by decide +kernel

/-- **C57 is violated: an object that was added is forgotten when a movement of it ends.** Sensor 0 sees everything at the check, and
is told of object 3, which has not moved, but not of object 2, which was added in the same way. -/
theorem c57_stopped_forgotten :
    (exec cfg [.addSensor 0 true, .addDetectable 2 true, .addDetectable 3 true, .startMover 2 true, .beginRun, .stopMover 2, .advance 1, .timer false near]
      (St.init (fun _ => true) 0)).log = [⟨0, 3, true⟩] := by decide +kernel

/-- **C57 is violated: what a sensor sees is not withdrawn when a movement ends.** Object 2 comes into view and stops; it is then
taken far away, and sensor 0 is not told at any later check. -/
theorem c57_stays_in_view :
    (exec cfg [.addSensor 0 true, .startMover 2 true, .beginRun, .advance 1, .timer false near, .stopMover 2, .advance 2, .timer false far, .advance 3, .timer false far]
      (St.init (fun _ => true) 0)).log = [⟨0, 2, true⟩] := by decide +kernel

/-- **C57 is violated: a manager whose loop has ended never checks again**, whatever starts moving. -/
theorem c57_not_restarted (c : Cfg) (σ : St) (hσ : InvA σ) (h1 : σ.isRunning = true) (h2 : σ.loops = []) (os : List Op) :
    (exec c os σ).checks = σ.checks ∧ (exec c os σ).loops = [] := by
  induction os generalizing σ with
  | nil => exact ⟨rfl, h2⟩
  | cons o os ih =>
    have key : (step c σ o).1.isRunning = true ∧ (step c σ o).1.loops = [] ∧ (step c σ o).1.checks = σ.checks := by
      have same : ∀ τ, Same σ τ → τ.isRunning = true ∧ τ.loops = [] ∧ τ.checks = σ.checks := fun τ h => ⟨h.isRunning.trans h1, h.loops.trans h2, h.checks⟩
      cases o with
      | addSensor s ok => cases ok <;> exact ⟨h1, h2, rfl⟩
      | addDetectable a ok => cases ok <;> exact ⟨h1, h2, rfl⟩
      | startMover a ok =>
        simp only [step, addMover]
        split <;> split <;> (try split) <;> exact ⟨h1, h2, rfl⟩
      | stopMover a => exact ⟨h1, h2, rfl⟩
      | setDetectable a v L =>
        cases v with
        | true =>
          have := (runDetectable_invA L (some [a]) { σ with det := fun b => if b = a then true else σ.det b } (hσ.frame rfl rfl)).2.1
          exact ⟨this.isRunning.trans h1, this.loops.trans h2, this.checks⟩
        | false => exact ⟨h1, h2, rfl⟩
      | particular a L => exact same _ (runDetectable_invA L (some [a]) _ hσ).2.1
      | run => exact ⟨h1, h2, rfl⟩
      | beginRun =>
        simp only [step]
        split
        · exact ⟨h1, h2, rfl⟩
        · exact ⟨by simp [h1], by simp [h1, h2], by simp [h1]⟩
      | timer empty L => rw [timer_other c σ empty L (by simp [h2])]; exact ⟨h1, h2, rfl⟩
      | advance t =>
        simp only [step]
        split <;> exact ⟨h1, h2, rfl⟩
      | reorder view =>
        simp only [step]
        split <;> exact ⟨h1, h2, rfl⟩
    obtain ⟨k1, k2, k3⟩ := key
    obtain ⟨q1, q2⟩ := ih _ (step_invA c σ o hσ) k1 k2
    exact ⟨q1.trans k3, q2⟩

/-- Such a state: three checks with nothing else scheduled. -/
example : (exec cfg (setup ++ [.timer true far, .advance 2, .timer true far, .advance 3, .timer true far]) (St.init (fun _ => true) 0)).loops = [] ∧
    (exec cfg (setup ++ [.timer true far, .advance 2, .timer true far, .advance 3, .timer true far]) (St.init (fun _ => true) 0)).isRunning = true := by decide +kernel

/-- **C57 is violated: making an object detectable that is not being checked raises**, for example one that has stopped moving, or a
clone in a rehearsal. No sensor is told anything. -/
theorem c57_appearing_fails (c : Cfg) (σ : St) (a : Obj) (L : Look) (ha : a ∉ σ.detectables) :
    (step c σ (.setDetectable a true L)).2 = .error ∧ (step c σ (.setDetectable a true L)).1.log = σ.log := by
  have h : ¬ ((∀ b ∈ ([a] : List Obj).filter (fun b => if b = a then true else σ.det b), b ∈ σ.detectables) ∧ L.reads = true) := by
    intro hc
    exact ha (hc.1 a (by simp))
  have : step c σ (.setDetectable a true L) = ({ σ with det := fun b => if b = a then true else σ.det b }, .error) := by
    simp only [step, if_true, runDetectable, Option.getD_some, if_neg h]
  rw [this]; exact ⟨rfl, rfl⟩

/-- Making an object detectable that is being checked raises only if asking a sensor or reading a location does. -/
theorem c57_appearing_partial (c : Cfg) (σ : St) (a : Obj) (L : Look) (hr : L.reads = true) (ha : a ∈ σ.detectables)
    (hl : ∀ s ∈ σ.sensors, s ≠ a → L.sees s a ≠ none) : (step c σ (.setDetectable a true L)).2 = .ok := by
  have h : ∀ b ∈ ([a] : List Obj).filter (fun b => if b = a then true else σ.det b), b ∈ σ.detectables := by simp [ha]
  have hf : ([a] : List Obj).filter (fun b => if b = a then true else σ.det b) = [a] := by simp
  have key : ∀ ss, (∀ s ∈ ss, s ≠ a → L.sees s a ≠ none) → ∀ τ : St, (checkSensors L [a] ss τ).2 = .ok := by
    intro ss
    induction ss with
    | nil => intro _ τ; rfl
    | cons s ss ih =>
      intro hss τ
      have ih := ih fun s hs => hss s (List.mem_cons_of_mem _ hs)
      by_cases hsa : a = s
      · simp only [checkSensors, checkObjects, if_pos hsa]; exact ih τ
      · have := hss s (List.mem_cons_self ..) (fun hc => hsa hc.symm)
        cases hlk : L.sees s a with
        | none => exact absurd hlk this
        | some v => simp only [checkSensors, checkObjects, if_neg hsa, hlk]; exact ih _
  rw [hf] at h
  simp only [step, if_true, runDetectable, Option.getD_some, hf]
  rw [if_pos ⟨h, hr⟩]
  exact key _ hl _

example : (step cfg (exec cfg setup (St.init (fun _ => false) 0)) (.setDetectable 2 true near)).2 = .ok :=
  c57_appearing_partial _ _ _ _ rfl (by decide +kernel) (by simp [near])

end Verif.Stepped
