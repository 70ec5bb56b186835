import Verif.WaitEv.Model
import Verif.Units.Props

/-!
# C51: `Wait`
-/

namespace Verif.WaitEv

open Units

/-- When a process first waited for the event. -/
def firstYield : Trace → Option Rat
  | [] => none
  | (t, .yield_, .impossible) :: tr => firstYield tr
  | (t, .yield_, _) :: _ => some t
  | _ :: tr => firstYield tr

/-- When the latest wait for the event began (an ignored interrupt does not begin a new one). -/
def lastYield : Trace → Option Rat
  | [] => none
  | (t, .yield_, o) :: tr => match lastYield tr with
    | some u => some u
    | none => if o = .impossible then none else some t
  | _ :: tr => lastYield tr

theorem firstYield_append (a b : Trace) :
    firstYield (a ++ b) = match firstYield a with
      | some t => some t
      | none => firstYield b := by
  induction a with
  | nil => rfl
  | cons x a ih =>
    obtain ⟨t, op, o⟩ := x
    cases op <;> cases o <;> simp [firstYield, ih]

theorem lastYield_append (a b : Trace) :
    lastYield (a ++ b) = match lastYield b with
      | some t => some t
      | none => lastYield a := by
  induction a with
  | nil => cases h : lastYield b <;> simp [lastYield, h]
  | cons x a ih =>
    obtain ⟨t, op, o⟩ := x
    cases op <;> simp only [List.cons_append, lastYield, ih]
    cases lastYield b <;> rfl

theorem run_append (d : Rat) (s : St) (a b : List Op) :
    run d s (a ++ b) = ((run d (run d s a).1 b).1, (run d s a).2 ++ (run d (run d s a).1 b).2) := by
  induction a generalizing s with
  | nil => rfl
  | cons op ops ih => simp only [List.cons_append, run, ih]

/-- Invariant of the state and the trace so far. -/
structure Inv (d : Rat) (s : St) (tr : Trace) : Prop where
  first : s.due = (firstYield tr).map (· + d)
  last : (firstYield tr).isSome = (lastYield tr).isSome
  proc : s.processed = true → ∃ u, s.due = some u ∧ u ≤ s.now
  unproc : s.processed = false → ∀ u, s.due = some u → s.now ≤ u
  wait : s.waiting = true → s.processed = false ∧ ∃ u y, s.due = some u ∧ lastYield tr = some y ∧ y ≤ u

theorem inv_step {d : Rat} (hd : 0 ≤ d) {s : St} {tr : Trace} (h : Inv d s tr) (op : Op) :
    Inv d (step d s op).1 (tr ++ [((step d s op).1.now, op, (step d s op).2)]) ∧
    ((step d s op).2 = .resumed → ∃ f y,
      firstYield (tr ++ [((step d s op).1.now, op, (step d s op).2)]) = some f ∧
      lastYield (tr ++ [((step d s op).1.now, op, (step d s op).2)]) = some y ∧
      (step d s op).1.now = max y (f + d)) := by
  have keep : ∀ (s' : St) (x : Rat × Op × Out), x.2.1 ≠ .yield_ ∨ x.2.2 = .impossible →
      s'.due = s.due → (s'.processed = true → ∃ u, s'.due = some u ∧ u ≤ s'.now) →
      (s'.processed = false → ∀ u, s'.due = some u → s'.now ≤ u) →
      (s'.waiting = true → s.waiting = true ∧ s'.processed = false) →
      Inv d s' (tr ++ [x]) ∧ firstYield (tr ++ [x]) = firstYield tr ∧ lastYield (tr ++ [x]) = lastYield tr := by
    intro s' x hx hd' hp hu hw
    obtain ⟨t, op, o⟩ := x
    have h1 : firstYield (tr ++ [(t, op, o)]) = firstYield tr := by
      rw [firstYield_append]
      cases hf : firstYield tr with
      | some f => rfl
      | none =>
        simp only at hx ⊢
        cases op <;> cases o <;> simp_all [firstYield]
    have h2 : lastYield (tr ++ [(t, op, o)]) = lastYield tr := by
      rw [lastYield_append]
      have : lastYield [(t, op, o)] = none := by
        simp only at hx
        cases op <;> cases o <;> simp_all [lastYield]
      rw [this]
    refine ⟨⟨?_, ?_, hp, hu, ?_⟩, h1, h2⟩
    · rw [hd', h1, h.first]
    · rw [h1, h2, h.last]
    · intro hw'
      obtain ⟨a1, a2⟩ := hw hw'
      obtain ⟨b1, u, y, b2, b3, b4⟩ := h.wait a1
      exact ⟨a2, u, y, by rw [hd', b2], by rw [h2, b3], b4⟩
  cases op with
  | left =>
    obtain ⟨k, -, -⟩ := keep { s with waiting := false } (s.now, .left, .quiet) (by simp) rfl h.proc h.unproc (by simp)
    exact ⟨k, by simp [step]⟩
  | ignored =>
    have hs : step d s .ignored = (s, .quiet) := by
      simp only [step]
      split
      · rename_i hw
        obtain ⟨-, u, y, hu, -, -⟩ := h.wait hw
        simp [asEvent, hu]
      · rfl
    rw [hs]
    obtain ⟨k, -, -⟩ := keep s (s.now, .ignored, .quiet) (by simp) rfl h.proc h.unproc
      (fun hw => ⟨hw, (h.wait hw).1⟩)
    exact ⟨k, by simp⟩
  | advance dt =>
    simp only [step]
    split
    · rename_i hc
      obtain ⟨k, -, -⟩ := keep { s with now := s.now + dt } (s.now + dt, .advance dt, .quiet) (by simp) rfl
        (fun hp => by
          obtain ⟨u, h1, h2⟩ := h.proc hp
          exact ⟨u, h1, by simp only; linarith [hc.1]⟩)
        (fun hp u hu => hc.2 hp u hu) (fun hw => ⟨hw, (h.wait hw).1⟩)
      exact ⟨k, by simp⟩
    · obtain ⟨k, -, -⟩ := keep s (s.now, .advance dt, .quiet) (by simp) rfl h.proc h.unproc
        (fun hw => ⟨hw, (h.wait hw).1⟩)
      exact ⟨k, by simp⟩
  | process =>
    cases hdue : s.due with
    | none =>
      simp only [step, hdue]
      obtain ⟨k, -, -⟩ := keep s (s.now, .process, .quiet) (by simp) rfl h.proc h.unproc
        (fun hw => ⟨hw, (h.wait hw).1⟩)
      exact ⟨k, by simp⟩
    | some u =>
      simp only [step, hdue]
      split
      · rename_i hc
        obtain ⟨k, k1, k2⟩ := keep { s with processed := true, waiting := false }
          (s.now, .process, if s.waiting then .resumed else .quiet) (by simp) rfl
          (fun _ => ⟨u, hdue, by simp only; exact hc.1.symm.le⟩) (by simp) (by simp)
        simp only [hdue] at k
        refine ⟨k, ?_⟩
        intro hr
        have hw : s.waiting = true := by
          by_contra hw
          simp only [Bool.not_eq_true] at hw
          simp [hw] at hr
        obtain ⟨b1, u', y, b2, b3, b4⟩ := h.wait hw
        rw [hdue] at b2
        obtain rfl := Option.some.inj b2
        have hf := h.first
        rw [hdue] at hf
        cases hff : firstYield tr with
        | none => simp [hff] at hf
        | some f =>
          simp only [hff, Option.map_some, Option.some.injEq] at hf
          refine ⟨f, y, by rw [k1, hff], by rw [k2, b3], ?_⟩
          rw [← hf, max_eq_right b4, hc.1]
      · obtain ⟨k, -, -⟩ := keep s (s.now, .process, .quiet) (by simp) rfl h.proc h.unproc
          (fun hw => ⟨hw, (h.wait hw).1⟩)
        exact ⟨k, by simp⟩
  | yield_ =>
    by_cases hw : s.waiting = true
    · have hs : step d s .yield_ = (s, .impossible) := by simp [step, hw]
      rw [hs]
      obtain ⟨k, -, -⟩ := keep s (s.now, .yield_, .impossible) (by simp) rfl h.proc h.unproc
        (fun hw => ⟨hw, (h.wait hw).1⟩)
      exact ⟨k, by simp⟩
    · have hly : ∀ o : Out, o ≠ .impossible → lastYield (tr ++ [(s.now, .yield_, o)]) = some s.now := by
        intro o ho
        rw [lastYield_append]
        simp [lastYield, ho]
      cases hdue : s.due with
      | some u =>
        have hf := h.first
        rw [hdue] at hf
        cases hff : firstYield tr with
        | none => simp [hff] at hf
        | some f =>
          simp only [hff, Option.map_some, Option.some.injEq] at hf
          have hfy : ∀ o : Out, firstYield (tr ++ [(s.now, .yield_, o)]) = some f := by
            intro o; rw [firstYield_append, hff]
          cases hp : s.processed with
          | true =>
            have hs : step d s .yield_ = (s, .resumed) := by simp [step, hw, asEvent, hdue, hp]
            rw [hs]
            obtain ⟨u', hu', hle⟩ := h.proc hp
            rw [hdue] at hu'
            obtain rfl := Option.some.inj hu'
            refine ⟨⟨by rw [hfy, hdue, hf]; rfl, by rw [hfy, hly _ (by simp)]; rfl, h.proc, h.unproc, ?_⟩, ?_⟩
            · intro h'; exact absurd h' hw
            · intro _
              exact ⟨f, s.now, hfy _, hly _ (by simp), by rw [← hf, max_eq_left hle]⟩
          | false =>
            have hs : step d s .yield_ = ({ s with waiting := true }, .quiet) := by
              simp [step, hw, asEvent, hdue, hp]
            rw [hs]
            refine ⟨⟨by simp only [hfy, hdue, hf]; rfl, by simp only [hfy, hly _ (show Out.quiet ≠ .impossible by simp)]; rfl,
              h.proc, h.unproc, ?_⟩, by simp⟩
            intro _
            exact ⟨hp, u, s.now, hdue, hly _ (by simp), h.unproc hp u hdue⟩
      | none =>
        have hf := h.first
        rw [hdue] at hf
        have hff : firstYield tr = none := by
          cases hff : firstYield tr with
          | none => rfl
          | some f => simp [hff] at hf
        have hp : s.processed = false := by
          cases hp : s.processed with
          | false => rfl
          | true =>
            obtain ⟨u, hu, -⟩ := h.proc hp
            rw [hdue] at hu; cases hu
        have hs : step d s .yield_ = ({ s with due := some (s.now + d), waiting := true }, .quiet) := by
          simp [step, hw, asEvent, hdue, hp]
        rw [hs]
        have hfy : firstYield (tr ++ [(s.now, .yield_, .quiet)]) = some s.now := by
          rw [firstYield_append, hff]; rfl
        have hy := hly .quiet (by simp)
        refine ⟨⟨by simp only [hfy]; rfl, by simp only [hfy, hy], ?_, ?_, ?_⟩, by simp⟩
        · intro h'; simp only [hp] at h'; cases h'
        · intro _ u hu
          simp only [Option.some.injEq] at hu
          simp only
          linarith
        · intro _
          exact ⟨hp, s.now + d, s.now, rfl, hy, by linarith⟩

theorem inv_run {d : Rat} (hd : 0 ≤ d) (t0 : Rat) (ops : List Op) :
    Inv d (run d (init t0) ops).1 (run d (init t0) ops).2 := by
  have : ∀ (l : List Op), Inv d (run d (init t0) l.reverse).1 (run d (init t0) l.reverse).2 := by
    intro l
    induction l with
    | nil => exact ⟨rfl, rfl, by simp [run, init], by simp [run, init], by simp [run, init]⟩
    | cons op l ih =>
      rw [List.reverse_cons, run_append]
      exact (inv_step hd ih op).1
  have h := this ops.reverse
  rwa [List.reverse_reverse] at h

/-- **C51 (when it completes).** However a `Wait` is yielded, interrupted, ignored, abandoned and yielded again: a process
waiting for it is resumed exactly at the time the `Wait` was first yielded plus its delay — or at once, if it only
began to wait after that. Ignored interrupts do not matter. -/
theorem c51_resume_time (d : Rat) (hd : 0 ≤ d) (t0 : Rat) (ops : List Op) (op : Op) :
    let s := (run d (init t0) ops).1
    let tr := (run d (init t0) (ops ++ [op])).2
    (step d s op).2 = .resumed → ∃ f y, firstYield tr = some f ∧ lastYield tr = some y ∧
      (step d s op).1.now = max y (f + d) := by
  intro s tr
  have h := (inv_step hd (inv_run hd t0 ops) op).2
  have htr : tr = (run d (init t0) ops).2 ++ [((step d s op).1.now, op, (step d s op).2)] := by
    simp only [tr, run_append]; rfl
  rw [htr]
  exact h

example : (run 5 (init 2) [.advance 1, .yield_, .advance 2, .ignored, .advance 2, .ignored, .advance 1, .process]) =
    (⟨8, some 8, true, false⟩, [(3, .advance 1, .quiet), (3, .yield_, .quiet), (5, .advance 2, .quiet),
      (5, .ignored, .quiet), (7, .advance 2, .quiet), (7, .ignored, .quiet), (8, .advance 1, .quiet),
      (8, .process, .resumed)]) := by decide +kernel

/-- **C51 (it does complete).** While a process waits, the clock has not passed the due time, and at the due time SimPy's
processing of the timeout resumes it. -/
theorem c51_not_late (d : Rat) (hd : 0 ≤ d) (t0 : Rat) (ops : List Op) :
    let s := (run d (init t0) ops).1
    s.waiting = true → ∃ f, firstYield (run d (init t0) ops).2 = some f ∧ s.now ≤ f + d ∧
      (s.now = f + d → (step d s .process).2 = .resumed) := by
  intro s hw
  have h := inv_run hd t0 ops
  obtain ⟨hp, u, y, hu, -, -⟩ := h.wait hw
  have hf := h.first
  rw [hu] at hf
  cases hff : firstYield (run d (init t0) ops).2 with
  | none => simp [hff] at hf
  | some f =>
    simp only [hff, Option.map_some, Option.some.injEq] at hf
    refine ⟨f, rfl, by rw [← hf]; exact h.unproc hp u hu, ?_⟩
    intro hn
    have hp' : s.processed = false := hp
    have hu' : s.due = some u := hu
    simp [step, hu', hp', hn, hf, hw]

example : (run 5 (init 2) [.yield_, .advance 5, .ignored]).1.waiting = true ∧
    (run 5 (init 2) [.yield_, .advance 5, .ignored, .advance 1]).1.now = 7 := by decide +kernel

/-- **C51 (negative times).** A `Wait` can be created exactly if its timeout is not negative and its unit (if the stage
has a time unit too) can be converted; its delay is then the converted timeout, and never negative. -/
theorem c51_delay (lower : String → String) (timeout : Rat) (unit stage : Option String) (d : Rat) :
    (delay lower timeout unit stage = some d → 0 ≤ d ∧ 0 ≤ timeout) ∧
    (timeout < 0 → delay lower timeout unit stage = none) ∧
    ((unit = none ∨ stage = none) → 0 ≤ timeout → delay lower timeout unit stage = some timeout) ∧
    (∀ u b, unit = some u → stage = some b → 0 ≤ timeout →
      delay lower timeout unit stage = unitConvert lower timeout u b) := by
  refine ⟨?_, ?_, ?_, ?_⟩
  · intro h
    unfold delay at h
    cases stage with
    | none =>
      simp only [Option.bind_some] at h
      split at h
      · cases h
      · rename_i hn
        obtain rfl := Option.some.inj h
        exact ⟨le_of_not_gt hn, le_of_not_gt hn⟩
    | some b =>
      cases unit with
      | none =>
        simp only [Option.bind_some] at h
        split at h
        · cases h
        · rename_i hn
          obtain rfl := Option.some.inj h
          exact ⟨le_of_not_gt hn, le_of_not_gt hn⟩
      | some u =>
        simp only at h
        cases hc : unitConvert lower timeout u b with
        | none => simp [hc] at h
        | some w =>
          simp only [hc, Option.bind_some] at h
          split at h
          · cases h
          · rename_i hn
            obtain rfl := Option.some.inj h
            obtain ⟨x, hx, hw, -⟩ := c48_positive_factor lower u b timeout w hc
            refine ⟨le_of_not_gt hn, ?_⟩
            by_contra ht
            apply hn
            rw [hw]
            exact mul_neg_of_neg_of_pos (lt_of_not_ge ht) hx
  · intro ht
    unfold delay
    cases stage with
    | none => simp [ht]
    | some b =>
      cases unit with
      | none => simp [ht]
      | some u =>
        simp only
        cases hc : unitConvert lower timeout u b with
        | none => rfl
        | some w =>
          obtain ⟨x, hx, hw, -⟩ := c48_positive_factor lower u b timeout w hc
          have : w < 0 := by rw [hw]; exact mul_neg_of_neg_of_pos ht hx
          simp [this]
  · intro h ht
    have : ¬ timeout < 0 := not_lt_of_ge ht
    unfold delay
    cases stage <;> cases unit <;> simp_all
  · rintro u b rfl rfl ht
    unfold delay
    simp only
    cases hc : unitConvert lower timeout u b with
    | none => rfl
    | some w =>
      obtain ⟨x, hx, hw, -⟩ := c48_positive_factor lower u b timeout w hc
      have : ¬ w < 0 := by
        rw [hw]; exact not_lt_of_ge (mul_nonneg ht hx.le)
      simp [this]

example : delay id 2 (some "hours") (some "min") = some 120 ∧ delay id (-2) (some "hours") (some "min") = none ∧
    delay id 3 none (some "min") = some 3 := by decide +kernel

/-- **C51 (random waits).** A wait drawn from `[low, high]` with `0 ≤ low` lasts between `low` and `high`, converted. -/
theorem c51_uniform (lower : String → String) (low high x d : Rat) (unit stage : Option String)
    (h : fromUniform lower low high x unit stage = some d) (h0 : 0 ≤ low) :
    ∃ l u, delay lower low unit stage = some l ∧ delay lower high unit stage = some u ∧ l ≤ d ∧ d ≤ u := by
  unfold fromUniform at h
  split at h
  · rename_i hx
    have hx0 : 0 ≤ x := le_trans h0 hx.1
    have hh0 : 0 ≤ high := le_trans hx0 hx.2
    by_cases hu : unit = none ∨ stage = none
    · rw [(c51_delay lower x unit stage 0).2.2.1 hu hx0] at h
      obtain rfl := Option.some.inj h
      exact ⟨low, high, (c51_delay lower low unit stage 0).2.2.1 hu h0,
        (c51_delay lower high unit stage 0).2.2.1 hu hh0, hx.1, hx.2⟩
    · cases unit with
      | none => exact absurd (Or.inl rfl) hu
      | some u =>
        cases stage with
        | none => exact absurd (Or.inr rfl) hu
        | some b =>
          rw [(c51_delay lower x (some u) (some b) 0).2.2.2 u b rfl rfl hx0] at h
          obtain ⟨f, hf, hd, hall⟩ := c48_positive_factor lower u b x d h
          refine ⟨low * f, high * f, ?_, ?_, ?_, ?_⟩
          · rw [(c51_delay lower low (some u) (some b) 0).2.2.2 u b rfl rfl h0, hall]
          · rw [(c51_delay lower high (some u) (some b) 0).2.2.2 u b rfl rfl hh0, hall]
          · rw [hd]; exact mul_le_mul_of_nonneg_right hx.1 hf.le
          · rw [hd]; exact mul_le_mul_of_nonneg_right hx.2 hf.le
  · cases h

example : fromUniform id 1 3 2 (some "hr") (some "min") = some 120 := by decide +kernel

end Verif.WaitEv
