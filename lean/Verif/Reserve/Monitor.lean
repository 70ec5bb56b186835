import Verif.Reserve.Model
import Verif.Util.Log
import Mathlib.Data.List.Chain

/-!
# `SelfMonitoringReserveContainer` (resources/monitoring.py:277-337) and property C06 for it
-/

namespace Verif.Reserve

/-- The container with its log `_quantities` (monitoring.py:305). -/
structure MSt where
  st : St
  log : List (Rat × Rat)
deriving DecidableEq, Repr

/-- `__init__` (monitoring.py:305-307). -/
def minit (capacity : Option Rat) (level now : Rat) : MSt := ⟨init capacity level now, [(now, level)]⟩

/-- `_record` (monitoring.py:309-314): the *real* level. -/
def mrecord (s : MSt) : MSt :=
  if (s.st.now, s.st.real) ≠ s.log.getLast?.getD (0, 0) ∨ s.log = [] then
    { s with log := s.log ++ [(s.st.now, s.st.real)] }
  else s

/-- The overridden methods (monitoring.py:314-337). -/
def monitored : Op → Bool
  | .take _ => true
  | .put _ _ => true
  | _ => false

/-- `take` and `put` record after the parent's method returned normally (monitoring.py:314-337); the other
calls are inherited. -/
def mstep (s : MSt) (op : Op) : MSt × Out :=
  let r := step s.st op
  let s1 : MSt := { s with st := r.1 }
  if monitored op = true ∧ r.2 ≠ .raised then (mrecord s1, r.2) else (s1, r.2)

/-- A history. -/
def mrun (s : MSt) (ops : List Op) : MSt := ops.foldl (fun s op => (mstep s op).1) s

/-- The amount in the container after each operation, with the time. -/
def msnaps (s : MSt) : List Op → List (Rat × Rat)
  | [] => [(s.st.now, s.st.real)]
  | op :: ops => (s.st.now, s.st.real) :: msnaps (mstep s op).1 ops

theorem mstep_st (s : MSt) (op : Op) : (mstep s op).1.st = (step s.st op).1 := by
  have h : ∀ s : MSt, (mrecord s).st = s.st := by intro s; unfold mrecord; split <;> rfl
  unfold mstep
  simp only
  split <;> simp [h]

theorem nextTimer_due {ts : List Timer} {t : Timer} {us : List Timer} (h : nextTimer ts = some (t, us)) :
    t ∈ ts ∧ ∀ u ∈ us, u ∈ ts := by
  induction ts generalizing t us with
  | nil => simp [nextTimer] at h
  | cons a ts ih =>
    simp only [nextTimer] at h
    split at h
    · simp at h; obtain ⟨rfl, rfl⟩ := h; simp
    · rename_i u us' hu
      obtain ⟨i1, i2⟩ := ih hu
      split at h
      · simp at h; obtain ⟨rfl, rfl⟩ := h
        refine ⟨List.mem_cons_of_mem _ i1, ?_⟩
        intro v hv
        rcases List.mem_cons.mp hv with rfl | hv
        · simp
        · exact List.mem_cons_of_mem _ (i2 v hv)
      · simp at h; obtain ⟨rfl, rfl⟩ := h
        exact ⟨by simp, fun v hv => List.mem_cons_of_mem _ hv⟩

theorem cancel_fields (s : St) (r : Req) : (cancel s r).1.now = s.now ∧ (cancel s r).1.real = s.real ∧
    (cancel s r).1.timers = s.timers := by
  unfold cancel
  split
  · exact ⟨rfl, rfl, rfl⟩
  · split <;> exact ⟨rfl, rfl, rfl⟩

/-- Timers are in the future; the clock does not go back; only successful `take`/`put` change the real
level. -/
theorem step_clock (s : St) (op : Op) (h : ∀ t ∈ s.timers, s.now ≤ t.due) :
    s.now ≤ (step s op).1.now ∧
    (step s op).1.real = s.real ∨ ((∃ r, op = .take r) ∨ ∃ a i, op = .put a i) ∧ (step s op).1.now = s.now := by
  cases op with
  | reserve r q e =>
    left
    simp only [step, reserve]
    split
    · exact ⟨le_refl _, rfl⟩
    · split
      · split <;> exact ⟨le_refl _, rfl⟩
      · exact ⟨le_refl _, rfl⟩
  | cancel r =>
    left
    obtain ⟨a, b, _⟩ := cancel_fields s r
    exact ⟨le_of_eq a.symm, b⟩
  | take r =>
    right
    refine ⟨Or.inl ⟨r, rfl⟩, ?_⟩
    simp only [step, take]
    split <;> rfl
  | put a i =>
    right
    refine ⟨Or.inr ⟨a, i, rfl⟩, ?_⟩
    simp only [step, put]
    split <;> rfl
  | tick t =>
    left
    simp only [step, tick]
    split
    · rename_i ht; exact ⟨ht.1, rfl⟩
    · exact ⟨le_refl _, rfl⟩
  | fire =>
    left
    simp only [step, fire]
    split
    · exact ⟨le_refl _, rfl⟩
    · rename_i t ts ht
      have hd := h t (nextTimer_due ht).1
      split
      · exact ⟨hd, rfl⟩
      · obtain ⟨a, b, _⟩ := cancel_fields { s with now := t.due, timers := ts } t.req
        split
        · rename_i s2 bb heq
          rw [heq] at a b
          exact ⟨by simp only at a ⊢; rw [a]; exact hd, b⟩
        · rename_i s2 bb hx heq
          rw [heq] at a b
          exact ⟨by simp only at a ⊢; rw [a]; exact hd, b⟩

theorem nextTimer_min {ts : List Timer} {t : Timer} {us : List Timer} (h : nextTimer ts = some (t, us)) :
    ∀ u ∈ us, t.due ≤ u.due := by
  have key : ∀ {ts : List Timer} {t : Timer} {us : List Timer}, nextTimer ts = some (t, us) →
      ∀ u ∈ ts, t.due ≤ u.due := by
    intro ts
    induction ts with
    | nil => intro t us h; simp [nextTimer] at h
    | cons a ts ih =>
      intro t us h
      simp only [nextTimer] at h
      split at h
      · rename_i hn
        simp at h; obtain ⟨rfl, rfl⟩ := h
        intro u hu
        rcases List.mem_cons.mp hu with rfl | hu
        · exact le_refl _
        · cases ts with
          | nil => simp at hu
          | cons b ts =>
            exfalso
            simp only [nextTimer] at hn
            split at hn
            · simp at hn
            · split at hn <;> simp at hn
      · rename_i u us' hu
        have := ih hu
        split at h
        · rename_i hlt
          simp at h; obtain ⟨rfl, rfl⟩ := h
          intro v hv
          rcases List.mem_cons.mp hv with rfl | hv
          · exact le_of_lt hlt
          · exact this v hv
        · rename_i hlt
          simp at h; obtain ⟨rfl, rfl⟩ := h
          intro v hv
          rcases List.mem_cons.mp hv with rfl | hv
          · exact le_refl _
          · exact le_trans (not_lt.mp hlt) (this v hv)
  intro u hu
  exact key h u ((nextTimer_due h).2 u hu)

theorem step_timers (s : St) (op : Op) (h : ∀ t ∈ s.timers, s.now ≤ t.due) :
    ∀ t ∈ (step s op).1.timers, (step s op).1.now ≤ t.due := by
  cases op with
  | reserve r q e =>
    simp only [step, reserve]
    split
    · exact h
    · split
      · split
        · exact h
        · rename_i e
          intro t ht
          simp only [List.mem_append, List.mem_singleton] at ht
          rcases ht with ht | rfl
          · exact h t ht
          · simp only
            have := le_max_left 0 e
            linarith
      · exact h
  | cancel r =>
    obtain ⟨a, _, c⟩ := cancel_fields s r
    intro t ht
    simp only [step] at ht ⊢
    rw [c] at ht; rw [a]; exact h t ht
  | take r =>
    simp only [step, take]
    split <;> exact h
  | put a i =>
    simp only [step, put]
    split <;> exact h
  | tick t =>
    simp only [step, tick]
    split
    · rename_i ht; exact ht.2
    · exact h
  | fire =>
    simp only [step, fire]
    split
    · exact h
    · rename_i t ts ht
      have hd := nextTimer_min ht
      split
      · exact hd
      · obtain ⟨a, _, c⟩ := cancel_fields { s with now := t.due, timers := ts } t.req
        split
        · rename_i s2 bb heq
          rw [heq] at a c
          intro u hu
          simp only at a c hu ⊢
          rw [c] at hu; rw [a]; exact hd u hu
        · rename_i s2 bb hx heq
          rw [heq] at a c
          intro u hu
          simp only at a c hu ⊢
          rw [c] at hu; rw [a]; exact hd u hu

/-- What one operation does to the log. -/
theorem mstep_log (s : MSt) (op : Op) (h : ∀ t ∈ s.st.timers, s.st.now ≤ t.due)
    (hl : s.log.getLast?.map (·.2) = some s.st.real) (hc : s.log.IsChain (fun a b => a ≠ b)) :
    let s' := (mstep s op).1
    s.st.now ≤ s'.st.now ∧ (∃ e, s'.log = s.log ++ e ∧ ∀ x ∈ e, x.1 = s'.st.now) ∧
    s'.log.getLast?.map (·.2) = some s'.st.real ∧ s'.log.IsChain (fun a b => a ≠ b) := by
  have hrec : ∀ m : MSt, m.log = s.log →
      (∃ e, (mrecord m).log = s.log ++ e ∧ ∀ x ∈ e, x.1 = (mrecord m).st.now) ∧
      (mrecord m).log.getLast?.map (·.2) = some (mrecord m).st.real ∧
      (mrecord m).log.IsChain (fun a b => a ≠ b) ∧ (mrecord m).st = m.st := by
    intro m hm
    unfold mrecord
    split
    · rename_i hne
      refine ⟨⟨[(m.st.now, m.st.real)], by rw [hm], by simp⟩, by simp, ?_, rfl⟩
      rw [hm, List.isChain_append]
      refine ⟨hc, List.IsChain.singleton _, ?_⟩
      intro y hy z hz he
      simp at hz
      rw [hm] at hne
      rcases hne with hne | hne
      · apply hne
        rw [hy, hz, ← he]; rfl
      · rw [hne] at hy; simp at hy
    · rename_i hne
      simp only [ne_eq, not_or, not_not] at hne
      refine ⟨⟨[], by simp [hm], by simp⟩, ?_, by rw [hm]; exact hc, rfl⟩
      obtain ⟨x, hx⟩ : ∃ x, m.log.getLast? = some x := by
        cases hg : m.log.getLast? with
        | none => exact absurd (List.getLast?_eq_none_iff.mp hg) hne.2
        | some x => exact ⟨x, rfl⟩
      have := hne.1
      rw [hx] at this ⊢
      simp at this
      rw [← this]; rfl
  have hst := mstep_st s op
  have hcl := step_clock s.st op h
  cases op with
  | take r =>
    have hnow : (step s.st (.take r)).1.now = s.st.now := by
      simp only [step, take]; split <;> rfl
    have hraise : (step s.st (.take r)).2 = .raised → (step s.st (.take r)).1 = s.st := by
      simp only [step, take]; split <;> simp
    simp only [mstep]
    split
    · obtain ⟨a, b, c, d⟩ := hrec { s with st := (step s.st (.take r)).1 } rfl
      exact ⟨by rw [d]; exact le_of_eq hnow.symm, a, b, c⟩
    · rename_i hx
      have heq : (step s.st (.take r)).2 = .raised := by
        by_contra hne; exact hx ⟨rfl, hne⟩
      simp only [hraise heq]
      exact ⟨le_refl _, ⟨[], by simp, by simp⟩, hl, hc⟩
  | put x i =>
    have hnow : (step s.st (.put x i)).1.now = s.st.now := by
      simp only [step, put]; split <;> rfl
    have hraise : (step s.st (.put x i)).2 = .raised → (step s.st (.put x i)).1 = s.st := by
      simp only [step, put]; split <;> simp
    simp only [mstep]
    split
    · obtain ⟨a, b, c, d⟩ := hrec { s with st := (step s.st (.put x i)).1 } rfl
      exact ⟨by rw [d]; exact le_of_eq hnow.symm, a, b, c⟩
    · rename_i hx
      have heq : (step s.st (.put x i)).2 = .raised := by
        by_contra hne; exact hx ⟨rfl, hne⟩
      simp only [hraise heq]
      exact ⟨le_refl _, ⟨[], by simp, by simp⟩, hl, hc⟩
  | reserve r q e =>
    rcases hcl with ⟨a, b⟩ | ⟨hh, _⟩
    · exact ⟨a, ⟨[], by simp [mstep, monitored], by simp⟩, (by show Option.map _ s.log.getLast? = _; simp only [mstep, monitored]; simp [b, hl]), hc⟩
    · simp at hh
  | cancel r =>
    rcases hcl with ⟨a, b⟩ | ⟨hh, _⟩
    · exact ⟨a, ⟨[], by simp [mstep, monitored], by simp⟩, (by show Option.map _ s.log.getLast? = _; simp only [mstep, monitored]; simp [b, hl]), hc⟩
    · simp at hh
  | tick t =>
    rcases hcl with ⟨a, b⟩ | ⟨hh, _⟩
    · exact ⟨a, ⟨[], by simp [mstep, monitored], by simp⟩, (by show Option.map _ s.log.getLast? = _; simp only [mstep, monitored]; simp [b, hl]), hc⟩
    · simp at hh
  | fire =>
    rcases hcl with ⟨a, b⟩ | ⟨hh, _⟩
    · exact ⟨a, ⟨[], by simp [mstep, monitored], by simp⟩, (by show Option.map _ s.log.getLast? = _; simp only [mstep, monitored]; simp [b, hl]), hc⟩
    · simp at hh

/-- **C06 (reserve containers).** After any history of calls, clock moves and expiries the log is in time
order, never repeats an entry, ends with the amount now in the container, and at *every* instant gives the
amount that was in it then (reservations are not withdrawals). -/
theorem c06_reserve_log (cap : Option Rat) (lvl t0 : Rat) (ops : List Op) :
    let s := mrun (minit cap lvl t0) ops
    Log.Ordered s.log ∧ s.log.IsChain (fun a b => a ≠ b) ∧
    s.log.getLast?.map (·.2) = some s.st.real ∧
    ∀ t, Log.lookup s.log t = Log.lookup (msnaps (minit cap lvl t0) ops) t := by
  have key : ∀ (ops : List Op) (s : MSt) (snaps : List (Rat × Rat)),
      (∀ t ∈ s.st.timers, s.st.now ≤ t.due) → s.log.IsChain (fun a b => a ≠ b) →
      Log.Faithful s.log (snaps ++ [(s.st.now, s.st.real)]) s.st.now s.st.real →
      (mrun s ops).log.IsChain (fun a b => a ≠ b) ∧
        Log.Faithful (mrun s ops).log (snaps ++ msnaps s ops) (mrun s ops).st.now (mrun s ops).st.real := by
    intro ops
    induction ops with
    | nil => intro s snaps _ hc h; exact ⟨hc, h⟩
    | cons op ops ih =>
      intro s snaps ht hc h
      obtain ⟨a, ⟨e, he1, he2⟩, c, d⟩ := mstep_log s op ht h.cur hc
      have h' := h.extend a (ext := e) he2 (v' := (mstep s op).1.st.real) (by rw [← he1]; exact c)
      rw [← he1] at h'
      have hts : ∀ t ∈ (mstep s op).1.st.timers, (mstep s op).1.st.now ≤ t.due := by
        rw [mstep_st]; exact step_timers s.st op ht
      obtain ⟨i1, i2⟩ := ih (mstep s op).1 (snaps ++ [(s.st.now, s.st.real)]) hts d h'
      refine ⟨i1, ?_⟩
      have : snaps ++ msnaps s (op :: ops) = snaps ++ [(s.st.now, s.st.real)] ++ msnaps (mstep s op).1 ops := by
        simp [msnaps]
      rw [this]; exact i2
  obtain ⟨c, f⟩ := key ops (minit cap lvl t0) [] (by simp [minit, init]) (List.IsChain.singleton _)
    (Log.Faithful.start _ _)
  exact ⟨f.ordered, c, f.cur, fun t => f.same t⟩

example : (mrun (minit (some 10) 5 0) [.reserve ⟨0, 0⟩ 3 none, .tick 2, .take ⟨0, 0⟩, .put 4 false,
    .put 9 false, .tick 5, .put 0 false]).log = [(0, 5), (2, 2), (2, 6), (5, 6)] := by decide +kernel

end Verif.Reserve
