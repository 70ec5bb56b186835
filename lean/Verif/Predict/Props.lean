import Verif.Predict.Run

/-!
# C77: a rehearsal predicts what happens

If nobody else changes the actor, a task that is executed does what it did in a rehearsal begun at the same time with the same actor: sees the same, at the same times, and
leaves an actor like the understudy. `a` is the actor and `b` the understudy, at the time at which the rehearsal and the task begin.

What is missing from the full statement (see `Limits.lean` for executions where it is false): actions and `env.now` in a routine after time has passed
there, events that are yielded again, completion of events that are not directly below the last one yielded, multi-events of nothing.
-/

namespace Verif.Predict

variable {K : Type} [Field K] [LinearOrder K] [IsStrictOrderedRing K] {A Op Val : Type}

/-- Every state of the simulation goes with one of the rehearsal. When the task executes or is over, it has seen the same, has come as far, has the same time, and the actors cannot be told
apart. When it waits, it will go on at the time of the rehearsal or before, and something is going to happen. -/
theorem c77_predicts_partial {M : Methods K A Op Val} {Eqv : K → A → A → Prop} (hM : Congruent M Eqv) (code : Code K Op Val) (t0 : K) (a b : A) (h0 : Eqv t0 a b) (hp : Plain M code t0 b)
    (q : List (Item K)) (hq : Before t0 q) (fs : List (Other K Op)) (hfs : ∀ f ∈ fs, Harmless M f) :
    ∃ n, let r := rehearse M code t0 b n
      let s := simulate M code (init t0 a q) fs
      Eqv s.now s.actor r.actor ∧ (s.waiting = none → s.hist = r.hist ∧ s.status = r.status ∧ (s.status = .running → s.now = r.time)) ∧
        (s.waiting.isSome → s.hist ++ [.resumed] = r.hist ∧ s.status = .running ∧ r.status = .running ∧ s.now ≤ r.time ∧ s.queue ≠ []) := by
  obtain ⟨n, h⟩ := follows hM code t0 b hp fs hfs 0 (init t0 a q) (Follows.init t0 a b h0 q hq)
  refine ⟨n, h.actor, fun hw => ?_, fun hw => ?_⟩
  · obtain ⟨h1, h2, -, h4⟩ := h.free hw
    exact ⟨h1.symm, h2.symm, fun hr => (h4 hr).1⟩
  · obtain ⟨c, hc⟩ := Option.isSome_iff_exists.1 hw
    obtain ⟨h1, h2, h3, h4, h5, -⟩ := h.waits c hc
    obtain ⟨i, hi, hle⟩ := bound _ _ _ _ c h4.ok h4.unp
    refine ⟨h1.symm, h3, h2, ?_, List.ne_nil_of_mem hi⟩
    rw [h5]
    exact (h4.queue.ahead i hi).trans hle

theorem one_end (M : Methods K A Op Val) (code : Code K Op Val) (t0 : K) (a : A) (n m : Nat) (hn : (rehearse M code t0 a n).status ≠ .running)
    (hm : (rehearse M code t0 a m).status ≠ .running) : rehearse M code t0 a n = rehearse M code t0 a m := by
  rcases Nat.le_total n m with h | h
  · exact (rehearse_over M code t0 a n m h hn).symm
  · exact rehearse_over M code t0 a m n h hm

/-- A task that is over has seen what was rehearsed, and the actor is like the understudy, whenever one looks. -/
theorem c77_outcome_partial {M : Methods K A Op Val} {Eqv : K → A → A → Prop} (hM : Congruent M Eqv) (code : Code K Op Val) (t0 : K) (a b : A) (h0 : Eqv t0 a b) (hp : Plain M code t0 b)
    (q : List (Item K)) (hq : Before t0 q) (fs : List (Other K Op)) (hfs : ∀ f ∈ fs, Harmless M f) (N : Nat) (hN : (rehearse M code t0 b N).status ≠ .running)
    (hs : (simulate M code (init t0 a q) fs).status ≠ .running) :
    let s := simulate M code (init t0 a q) fs
    let r := rehearse M code t0 b N
    s.status = r.status ∧ s.hist = r.hist ∧ Eqv s.now s.actor r.actor := by
  obtain ⟨n, h1, h2, h3⟩ := c77_predicts_partial hM code t0 a b h0 hp q hq fs hfs
  have hw : (simulate M code (init t0 a q) fs).waiting = none := by
    cases hw : (simulate M code (init t0 a q) fs).waiting with
    | none => rfl
    | some c => exact absurd (h3 (by rw [hw]; rfl)).2.1 hs
  obtain ⟨g1, g2, -⟩ := h2 hw
  have he := one_end M code t0 b n N (by rw [← g2]; exact hs) hN
  rw [he] at g1 g2 h1
  exact ⟨g2, g1, h1⟩

theorem process_status (s : St K A Val) (x : Ent) : (process s x).status = s.status := by
  unfold process
  cases s.waiting with
  | none => rfl
  | some c =>
    dsimp only
    split <;> rfl

theorem tick_status (M : Methods K A Op Val) (f : Other K Op) (s : St K A Val) : (tick M f s).status = s.status := by
  unfold tick
  cases s.queue with
  | nil => rfl
  | cons i q =>
    dsimp only
    split
    · rfl
    · rw [process_status]
    · rw [process_status]

theorem exec_end (M : Methods K A Op Val) (s : St K A Val) (c : Cmd K Op) (hs : s.status = .running) (h : (exec M s c).status = .finished) : c = .ret := by
  obtain ⟨now, q, act, ws, nx, wt, rt, hist, st⟩ := s
  dsimp only at hs
  subst hs
  cases c with
  | yield e =>
    simp only [exec] at h
    split at h
    · split at h <;> cases h
    · cases h
  | complete k => simp only [exec] at h; split at h <;> cases h
  | enter => simp only [exec] at h; split at h <;> cases h
  | leave => simp only [exec] at h; split at h <;> cases h
  | ret => rfl
  | act o => cases h
  | clock => cases h

/-- The task is over at the time at which the rehearsal was. -/
theorem c77_end_partial {M : Methods K A Op Val} {Eqv : K → A → A → Prop} (hM : Congruent M Eqv) (code : Code K Op Val) (t0 : K) (a b : A) (h0 : Eqv t0 a b) (hp : Plain M code t0 b)
    (q : List (Item K)) (hq : Before t0 q) (fs : List (Other K Op)) (hfs : ∀ f ∈ fs, Harmless M f) (f : Other K Op) (N : Nat)
    (hN : (rehearse M code t0 b N).status = .finished) (hr : (simulate M code (init t0 a q) fs).status = .running)
    (hs : (step M code f (simulate M code (init t0 a q) fs)).status = .finished) : (step M code f (simulate M code (init t0 a q) fs)).now = (rehearse M code t0 b N).now := by
  obtain ⟨n, -, h2, -⟩ := c77_predicts_partial hM code t0 a b h0 hp q hq fs hfs
  unfold step at hs ⊢
  by_cases hx : (simulate M code (init t0 a q) fs).status = .running ∧ (simulate M code (init t0 a q) fs).waiting.isNone = true
  · rw [if_pos hx] at hs ⊢
    have hw : (simulate M code (init t0 a q) fs).waiting = none := by simpa using hx.2
    obtain ⟨g1, g2, g3⟩ := h2 hw
    have hc := exec_end M _ _ hr hs
    have hrn : (rehearse M code t0 b n).status = .running := by rw [← g2]; exact hr
    have e : rehearse M code t0 b (n + 1) = rstep M (rehearse M code t0 b n) (code (rehearse M code t0 b n).hist) := by
      show (if _ then _ else _) = _
      rw [if_pos hrn]
    rw [← g1, hc] at e
    have ht : (rehearse M code t0 b (n + 1)).time = (rehearse M code t0 b n).time := by
      rw [e]
      simp only [rstep]
      split <;> rfl
    have hnr : (rehearse M code t0 b (n + 1)).status ≠ .running := by
      rw [e]
      simp only [rstep]
      split <;> simp
    have hone := one_end M code t0 b (n + 1) N hnr (by rw [hN]; simp)
    have hrt := rehearse_done M code t0 b N hN
    have hNt : (rehearse M code t0 b N).time = (rehearse M code t0 b N).now := by
      simp only [RSt.time, hrt, Option.getD_none, add_zero]
    rw [hc, ← hNt, ← hone, ht, ← g3 hr]
    simp only [exec]
    split <;> rfl
  · rw [if_neg hx, tick_status, hr] at hs
    cases hs

/-- Once that time is past, the task is over. -/
theorem c77_by_then_partial {M : Methods K A Op Val} {Eqv : K → A → A → Prop} (hM : Congruent M Eqv) (code : Code K Op Val) (t0 : K) (a b : A) (h0 : Eqv t0 a b) (hp : Plain M code t0 b)
    (q : List (Item K)) (hq : Before t0 q) (fs : List (Other K Op)) (hfs : ∀ f ∈ fs, Harmless M f) (N : Nat)
    (hN : (rehearse M code t0 b N).status = .finished) (hlate : (rehearse M code t0 b N).now < (simulate M code (init t0 a q) fs).now) :
    (simulate M code (init t0 a q) fs).status = .finished := by
  obtain ⟨n, -, h2, h3⟩ := c77_predicts_partial hM code t0 a b h0 hp q hq fs hfs
  have hrt := rehearse_done M code t0 b N hN
  have hNt : (rehearse M code t0 b N).time = (rehearse M code t0 b N).now := by
    simp only [RSt.time, hrt, Option.getD_none, add_zero]
  have hrun : (rehearse M code t0 b n).status = .running → (rehearse M code t0 b n).time ≤ (rehearse M code t0 b N).now := fun hr => by
    rw [← hNt]
    rcases Nat.le_total n N with h | h
    · exact rehearse_mono M code t0 b hp n N h
    · rw [rehearse_over M code t0 b N n h (by rw [hN]; simp)]
  cases hw : (simulate M code (init t0 a q) fs).waiting with
  | some c =>
    obtain ⟨-, -, g3, g4, -⟩ := h3 (by rw [hw]; rfl)
    exact absurd (g4.trans (hrun g3)) (not_le.2 hlate)
  | none =>
    obtain ⟨-, g2, g3⟩ := h2 hw
    by_cases hs : (simulate M code (init t0 a q) fs).status = .running
    · have := hrun (by rw [← g2]; exact hs)
      rw [← g3 hs] at this
      exact absurd this (not_le.2 hlate)
    · have := one_end M code t0 b n N (by rw [← g2]; exact hs) (by rw [hN]; simp)
      rw [g2, this, hN]

end Verif.Predict
