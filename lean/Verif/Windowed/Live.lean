import Verif.Windowed.Props

/-! # C41: the routine goes on -/

namespace Verif.Windowed

open Verif.Store (Cfg St Ev doGet doPut doInterrupt doProcess doAdvance Ids getIds putIds inflight trigPut trigGet enqPut enqGet fifoCfg)

variable {ι γ ν : Type} [DecidableEq ν]

theorem put_evq (c : Cfg ι γ ν) (s : St ι γ ν) (x : ι) : ∃ l, (doPut c s x).evq = s.evq ++ l := (trigPut_same c (enqPut s x)).2.2.2.2.2.2.1
theorem get_evq (c : Cfg ι γ ν) (s : St ι γ ν) (g : γ) : ∃ l, (doGet c s g).evq = s.evq ++ l := (trigGet_same c (enqGet s g)).2.2.2.2.2.2.1

theorem process_evq (c : Cfg ι γ ν) {s : St ι γ ν} {e : Ev ι} {q : List (Ev ι)} (h : s.evq = e :: q) : ∃ l, (doProcess c s).evq = q ++ l := by
  cases e with
  | put i => simp only [doProcess, h]; exact (trigGet_same c { s with evq := q }).2.2.2.2.2.2.1
  | got i x =>
    obtain ⟨l, hl⟩ := (trigPut_same c { s with evq := q }).2.2.2.2.2.2.1
    simp only [doProcess, h]
    split <;> exact ⟨l, hl⟩

/-- The condition is among the events of this instant. -/
def InQueue (w : W ι γ ν) : Prop := ∀ k, w.cond = some k → k ≤ w.st.evq.length

theorem InQueue.grow {w w' : W ι γ ν} (h : InQueue w) (hc : w'.cond = w.cond) (hq : ∃ l, w'.st.evq = w.st.evq ++ l) : InQueue w' := by
  intro k hk
  obtain ⟨l, hl⟩ := hq
  rw [hc] at hk
  rw [hl, List.length_append]
  exact Nat.le_add_right_of_le (h k hk)

theorem InQueue.giveBack {c : Cfg ι γ ν} {w : W ι γ ν} (h : InQueue w) : InQueue (giveBack c w) := by
  unfold Verif.Windowed.giveBack
  split
  · exact h.grow rfl ⟨[], by simp⟩
  · exact h.grow rfl (put_evq c w.st _)

theorem InQueue.round (c : Cfg ι γ ν) (p : Par γ) {w : W ι γ ν} (h : InQueue w) : InQueue (round c p w) := by
  have hreq : ∀ w : W ι γ ν, InQueue (request c p w) := by
    intro w k hk
    simp only [request] at hk ⊢
    split at hk
    · cases hk; exact le_refl _
    · cases hk
  unfold Verif.Windowed.round
  split
  · split
    · exact h
    · exact hreq _
  · exact hreq _

theorem InQueue.step {c : Cfg ι γ ν} {p : Par γ} {w : W ι γ ν} (h : InQueue w) (op : Op ι γ) : InQueue (step c p w op) := by
  unfold Verif.Windowed.step
  split
  · exact h
  · cases op with
    | start => simp only; split; exacts [h.round c p, h]
    | put x => exact h.grow rfl (put_evq c w.st x)
    | get g => exact h.grow rfl (get_evq c w.st g)
    | interrupt id => simp only; split; exacts [h, h.grow rfl ⟨[], by simp [doInterrupt]⟩]
    | process =>
      simp only [process]
      split
      · exact h
      · rename_i h0
        cases hq : w.st.evq with
        | nil => exact h
        | cons e q =>
          obtain ⟨l, hl⟩ := process_evq c hq
          have h1 : InQueue { w with st := doProcess c w.st, cond := w.cond.map (· - 1) } := by
            intro k hk
            obtain ⟨k0, hk0, rfl⟩ := Option.map_eq_some_iff.1 hk
            have := h k0 hk0
            rw [hq] at this
            show k0 - 1 ≤ (doProcess c w.st).evq.length
            rw [hl, List.length_append]
            simp at this; omega
          cases e with
          | put i => simp only; split; exacts [h1.giveBack, h1]
          | got i x =>
            simp only
            split
            · intro k hk; cases hk; exact le_refl _
            · exact h1
    | timer =>
      simp only [timer]
      split
      · intro k hk
        simp only at hk
        split at hk
        · cases hk; exact le_refl _
        · exact h k hk
      · exact h
    | resume =>
      simp only
      split
      · unfold resume
        split
        · intro k hk; cases hk
        · exact InQueue.round c p h
      · exact h
    | advance t =>
      simp only [advance]
      split
      · rename_i hc; intro k hk; rw [hc.1] at hk; cases hk
      · exact h
    | cancel =>
      simp only [cancel]
      split
      · split
        · exact InQueue.giveBack (h.grow rfl ⟨[], by simp [doInterrupt]⟩)
        · exact h
      · exact h
      · exact h

theorem run_inQueue (c : Cfg ι γ ν) (p : Par γ) {w : W ι γ ν} (h : InQueue w) (ops : List (Op ι γ)) : InQueue (run c p w ops) := by
  induction ops generalizing w with
  | nil => exact h
  | cons op ops ih => exact ih (h.step op)

/-- The requests made so far, by the phase reached: the routine has asked again, or it is over. -/
def wentOn (before after : W ι γ ν) : Prop :=
  after.phase = .finished ∨ after.phase = .crashed ∨ (after.phase = .waiting ∧ after.mine.length = before.mine.length + 1)

theorem resume_wentOn (c : Cfg ι γ ν) (p : Par γ) (w : W ι γ ν) : wentOn w (resume c p w) := by
  unfold resume
  split
  · exact .inl rfl
  · unfold round
    split
    · split
      · exact .inr (.inl rfl)
      · exact .inr (.inr ⟨rfl, by simp [request]⟩)
    · exact .inr (.inr ⟨rfl, by simp [request]⟩)

/-- **C41, no deadlock.** Once an item was handed to the routine or its window is over, the routine goes on in the same instant:
there is a number of events after which it has returned or asked for the next item (or raised for a negative timeout). -/
theorem c41_goes_on (c : Cfg ι γ ν) (p : Par γ) (cap : Option Nat) (t0 : Rat) (ops : List (Op ι γ)) :
    let w := run c p (fresh c cap t0) ops
    w.phase = .waiting → ((∃ x, (w.cur, x) ∈ w.st.delivered) ∨ w.fired = true) →
      ∃ n, wentOn w (run c p w (List.replicate n .process ++ [.resume])) ∧
        (run c p w (List.replicate n .process ++ [.resume])).st.now = w.st.now := by
  intro w hp hor
  have hi : Inv p w := run_inv c p cap t0 ops hp (by decide)
  have hq : InQueue w := run_inQueue c p (by intro k hk; cases hk) ops
  have hc : w.cond ≠ none := by
    intro hn
    rcases hor with ⟨x, hx⟩ | hf
    · exact hi.condN hp hn (List.mem_map.2 ⟨_, hx, rfl⟩)
    · exact hi.condF hp hf hn
  obtain ⟨k, hk⟩ := Option.ne_none_iff_exists'.1 hc
  clear hor hc hi
  clear_value w
  refine ⟨k, ?_⟩
  have hres : ∀ w : W ι γ ν, (resume c p w).st.now = w.st.now := by
    intro w
    unfold resume
    split
    · rfl
    · unfold round
      split
      · split
        · rfl
        · exact get_now c w.st p.g
      · exact get_now c w.st p.g
  induction k generalizing w with
  | zero =>
    have : run c p w [.resume] = resume c p w := by
      simp only [run, List.foldl_cons, List.foldl_nil, step]
      rw [if_neg (by rw [hp]; decide), if_pos ⟨hp, hk⟩]
    rw [List.replicate_zero, List.nil_append, this]
    exact ⟨resume_wentOn c p w, hres w⟩
  | succ k ih =>
    have hle := hq _ hk
    cases hev : w.st.evq with
    | nil => rw [hev] at hle; simp at hle
    | cons e q =>
      have hst : step c p w .process = { w with st := doProcess c w.st, cond := some k } := by
        simp only [step, process]
        rw [if_neg (by rw [hp]; decide), if_neg (by rw [hk]; simp), hev]
        cases e with
        | put i => simp [hp, hk]
        | got i x => simp [hk]
      have hq' : InQueue (step c p w .process) := hq.step _
      rw [hst] at hq'
      obtain ⟨h1, h2⟩ := ih { w with st := doProcess c w.st, cond := some k } hp hq' rfl
      rw [List.replicate_succ, List.cons_append, run_cons, hst]
      exact ⟨h1, h2.trans (process_now c w.st)⟩

example : let w := run fifoCfg demoPar (fresh fifoCfg none 0) (demoOps ++ [.advance 5, .put 9, .timer])
    w.phase = .waiting ∧ w.fired = true ∧ (run fifoCfg demoPar w [.process, .resume]).phase = .finished := by decide +kernel

end Verif.Windowed
