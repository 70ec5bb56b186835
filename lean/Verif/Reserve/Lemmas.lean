import Verif.Reserve.Model

/-! Helper lemmas for `Verif.Reserve.Props`. -/

namespace Verif.Reserve

/-- Total of all slots. -/
def qsum (d : Dict Nat Slot) : Rat := (d.map (fun p => p.2.qty)).sum

theorem qsum_append (d e : Dict Nat Slot) : qsum (d ++ e) = qsum d + qsum e := by
  simp [qsum]

theorem qsum_del {d : Dict Nat Slot} (wf : d.WF) {k : Nat} {sl : Slot} (h : d.get? k = some sl) :
    qsum (d.del k) = qsum d - sl.qty := by
  induction d with
  | nil => simp at h
  | cons p d ih =>
    simp only [Dict.WF, Dict.keys, List.map_cons, List.nodup_cons] at wf
    rw [Dict.get?_cons] at h
    by_cases hk : p.1 = k
    · simp only [hk, ↓reduceIte, Option.some.injEq] at h
      have hn : Dict.get? d k = none := by
        rw [Dict.get?_eq_none_iff]; subst hk; exact wf.1
      have : Dict.del (p :: d) k = Dict.del d k := by simp [Dict.del, hk]
      rw [this, Dict.del_absent hn]
      simp [qsum, ← h]
    · simp only [hk, ↓reduceIte] at h
      have : Dict.del (p :: d) k = p :: Dict.del d k := by simp [Dict.del, hk]
      rw [this]
      have := ih wf.2 h
      simp only [qsum, List.map_cons, List.sum_cons] at this ⊢
      linarith

/-- Cases of a single operation, as a relation used by all the inductions. -/
inductive Eff : St → Op → St → Out → Prop
  | noop (s op o) (hb : ∀ q, o ≠ .amt q) (hp : ∀ a i, op = .put a i → o ≠ .unit)
      (hg : ∀ r q e, op = .reserve r q e → o ≠ .bool true) : Eff s op s o
  | grant (s r q e s') (hq : q ≤ s.level) (hn : s.queued.get? r.key = none)
      (hs : s' = { s with
        level := s.level - q
        queued := s.queued ++ [(r.key, ⟨r.obj, q, s.now⟩)]
        timers := s.timers ++ (e.map (fun e =>
          (⟨s.now + max 0 e, r, decide (e < 0)⟩ : Timer))).toList }) :
      Eff s (.reserve r q e) s' (.bool true)
  | free (s r sl s') (hg : s.queued.get? r.key = some sl) (hob : sl.obj = r.obj)
      (hs : s' = { s with level := s.level + sl.qty, queued := s.queued.del r.key }) :
      Eff s (.cancel r) s' (.bool true)
  | taken (s r sl s') (hg : s.queued.get? r.key = some sl)
      (hs : s' = { s with real := s.real - sl.qty, queued := s.queued.del r.key }) :
      Eff s (.take r) s' (.amt sl.qty)
  | put (s a inc s') (hs : s' = { s with level := s.level + a, real := s.real + a })
      (hc : inc = true ∨ over (s.level + a) s.capacity = false) : Eff s (.put a inc) s' .unit
  | tick (s t s') (h1 : s.now ≤ t) (h2 : ∀ u ∈ s.timers, t ≤ u.due)
      (hs : s' = { s with now := t }) : Eff s (.tick t) s' .unit
  | fireFree (s t ts sl s') (ht : nextTimer s.timers = some (t, ts)) (hb : t.bad = false)
      (hg : s.queued.get? t.req.key = some sl) (hob : sl.obj = t.req.obj)
      (hs : s' = { s with
        now := t.due, timers := ts, level := s.level + sl.qty, queued := s.queued.del t.req.key }) :
      Eff s .fire s' (.expired t.req.key true)
  | fireMiss (s t ts s') (ht : nextTimer s.timers = some (t, ts)) (hb : t.bad = false)
      (hg : s.queued.get? t.req.key = none) (hs : s' = { s with now := t.due, timers := ts }) :
      Eff s .fire s' (.expired t.req.key false)
  | fireRaise (s t ts s') (ht : nextTimer s.timers = some (t, ts))
      (hc : t.bad = true ∨ ∃ sl, s.queued.get? t.req.key = some sl ∧ sl.obj ≠ t.req.obj)
      (hs : s' = { s with now := t.due, timers := ts }) :
      Eff s .fire s' (.expireRaised t.req.key)

theorem step_eff (s : St) (op : Op) : Eff s op (step s op).1 (step s op).2 := by
  cases op with
  | reserve r q e =>
    simp only [step, reserve, available]
    split
    · exact .noop _ _ _ (by simp) (by simp) (by simp)
    · split
      · rename_i h1 h2
        have hn : s.queued.get? r.key = none := by
          simpa [Dict.has] using h2
        cases e with
        | none =>
          refine .grant _ _ _ _ _ (by linarith) hn ?_
          simp [Dict.mem_set_new hn]
        | some e =>
          refine .grant _ _ _ _ _ (by linarith) hn ?_
          simp [Dict.mem_set_new hn]
      · exact .noop _ _ _ (by simp) (by simp) (by simp)
  | cancel r =>
    simp only [step, cancel]
    split
    · exact .noop _ _ _ (by simp) (by simp) (by simp)
    · rename_i sl h
      split
      · exact .noop _ _ _ (by simp) (by simp) (by simp)
      · rename_i h2
        exact .free s r sl _ h (by simpa using h2) rfl
  | take r =>
    simp only [step, take]
    split
    · exact .noop _ _ _ (by simp) (by simp) (by simp)
    · rename_i sl h
      exact .taken _ _ _ _ h rfl
  | put a inc =>
    simp only [step, put]
    split
    · exact .noop _ _ _ (by simp) (by simp) (by simp)
    · rename_i h
      refine .put _ _ _ _ rfl ?_
      cases inc <;> simp_all
  | tick t =>
    simp only [step, tick]
    split
    · rename_i h; exact .tick _ _ _ h.1 h.2 rfl
    · exact .noop _ _ _ (by simp) (by simp) (by simp)
  | fire =>
    simp only [step, fire]
    split
    · exact .noop _ _ _ (by simp) (by simp) (by simp)
    · rename_i t ts ht
      simp only [cancel]
      by_cases hb : t.bad = true
      · simp only [hb, ↓reduceIte]
        exact .fireRaise _ t ts _ ht (Or.inl hb) rfl
      · have hb' : t.bad = false := by simpa using hb
        simp only [hb', Bool.false_eq_true, ↓reduceIte]
        cases hg : s.queued.get? t.req.key with
        | none => simp only; exact .fireMiss _ t ts _ ht hb' hg rfl
        | some sl =>
          simp only
          by_cases ho : sl.obj = t.req.obj
          · simp only [ho, ne_eq, not_true_eq_false, ↓reduceIte]
            exact .fireFree _ t ts sl _ ht hb' hg ho rfl
          · simp only [ne_eq, ho, not_false_eq_true, ↓reduceIte]
            exact .fireRaise _ t ts _ ht (Or.inr ⟨sl, hg, ho⟩) rfl

theorem nextTimer_perm {l : List Timer} {t : Timer} {ts : List Timer}
    (h : nextTimer l = some (t, ts)) : (∀ u, u ∈ l ↔ u = t ∨ u ∈ ts) ∧ (∀ u ∈ l, t.due ≤ u.due) := by
  induction l generalizing t ts with
  | nil => simp [nextTimer] at h
  | cons a l ih =>
    simp only [nextTimer] at h
    cases hn : nextTimer l with
    | none =>
      have hl : l = [] := by
        cases l with
        | nil => rfl
        | cons b l =>
          simp only [nextTimer] at hn
          split at hn
          · cases hn
          · split at hn <;> cases hn
      simp only [hn, Option.some.injEq, Prod.mk.injEq] at h
      obtain ⟨rfl, rfl⟩ := h
      subst hl; simp
    | some p =>
      obtain ⟨u, us⟩ := p
      have ih' := ih hn
      simp only [hn] at h
      split at h
      · rename_i hlt
        simp only [Option.some.injEq, Prod.mk.injEq] at h
        obtain ⟨rfl, rfl⟩ := h
        constructor
        · intro x; simp only [List.mem_cons, ih'.1]; tauto
        · intro x hx
          rcases List.mem_cons.mp hx with rfl | hx
          · exact le_of_lt hlt
          · exact ih'.2 x hx
      · rename_i hlt
        simp only [Option.some.injEq, Prod.mk.injEq] at h
        obtain ⟨rfl, rfl⟩ := h
        constructor
        · intro x; simp
        · intro x hx
          rcases List.mem_cons.mp hx with rfl | hx
          · exact le_refl _
          · exact le_trans (not_lt.mp hlt) (ih'.2 x hx)

/-- Structural invariant: unique keys, and the accounting equation. -/
structure Inv (s : St) : Prop where
  wf : s.queued.WF
  acc : s.real = s.level + qsum s.queued

theorem wf_append {d : Dict Nat Slot} (wf : d.WF) {k : Nat} {v : Slot} (h : d.get? k = none) :
    Dict.WF (d ++ [(k, v)]) := by
  rw [← Dict.mem_set_new h]; exact Dict.WF_set wf _ _

theorem inv_step {s s' : St} {op : Op} {o : Out} (h : Inv s) (e : Eff s op s' o) : Inv s' := by
  have hw := h.wf
  have ha := h.acc
  cases e with
  | noop => exact h
  | grant r q e _ hq hn hs =>
    subst hs
    refine ⟨wf_append hw hn, ?_⟩
    simp only [qsum_append]; simp [qsum] at *; linarith
  | free r sl _ hg hob hs =>
    subst hs
    exact ⟨Dict.WF_del hw _, by simp only [qsum_del hw hg]; linarith⟩
  | taken r sl _ hg hs =>
    subst hs
    exact ⟨Dict.WF_del hw _, by simp only [qsum_del hw hg]; linarith⟩
  | put a inc _ hs hc => subst hs; exact ⟨hw, by simp only; linarith⟩
  | tick t _ h1 h2 hs => subst hs; exact ⟨hw, ha⟩
  | fireFree t ts sl _ ht hb hg hob hs =>
    subst hs
    exact ⟨Dict.WF_del hw _, by simp only [qsum_del hw hg]; linarith⟩
  | fireMiss t ts _ ht hb hg hs => subst hs; exact ⟨hw, ha⟩
  | fireRaise t ts _ ht hc hs => subst hs; exact ⟨hw, ha⟩

theorem inv_init (c : Option Rat) (l n : Rat) : Inv (init c l n) :=
  ⟨Dict.WF_nil, by simp [init, qsum]⟩

/-- Lift a one-step invariant to every history. -/
theorem run_induct {P : St → Prop} (hs : ∀ s op s' o, P s → Eff s op s' o → P s') {s : St}
    (h : P s) (ops : List Op) : P (run s ops).1 := by
  induction ops generalizing s with
  | nil => exact h
  | cons op ops ih => exact ih (hs _ _ _ _ h (step_eff s op))

theorem inv_run {s : St} (h : Inv s) (ops : List Op) : Inv (run s ops).1 :=
  run_induct (fun _ _ _ _ => inv_step) h ops

theorem run_append (s : St) (a b : List Op) :
    run s (a ++ b) = ((run (run s a).1 b).1, (run s a).2 ++ (run (run s a).1 b).2) := by
  induction a generalizing s with
  | nil => simp [run]
  | cons op a ih => simp [run, ih]

theorem mem_get?_iff {d : Dict Nat Slot} (wf : d.WF) {k : Nat} {v : Slot} :
    (k, v) ∈ d ↔ d.get? k = some v := ⟨Dict.get?_of_mem wf, Dict.mem_of_get?⟩

theorem get?_append_new {d : Dict Nat Slot} {k k' : Nat} {v : Slot} (h : d.get? k = none) :
    Dict.get? (d ++ [(k, v)]) k' = if k = k' then some v else d.get? k' := by
  rw [← Dict.mem_set_new h, Dict.get?_set]

/-- Timers are never in the past. -/
def TimersOK (s : St) : Prop := ∀ t ∈ s.timers, s.now ≤ t.due

theorem timersOK_step {s s' : St} {op : Op} {o : Out} (h : TimersOK s) (e : Eff s op s' o) :
    TimersOK s' ∧ s.now ≤ s'.now := by
  cases e with
  | noop => exact ⟨h, le_refl _⟩
  | grant r q e _ hq hn hs =>
    subst hs
    refine ⟨?_, le_refl _⟩
    intro t ht
    simp only [List.mem_append] at ht
    rcases ht with ht | ht
    · exact h t ht
    · cases e with
      | none => simp at ht
      | some e =>
        simp at ht; subst ht; simp
  | free r sl _ hg hob hs => subst hs; exact ⟨h, le_refl _⟩
  | taken r sl _ hg hs => subst hs; exact ⟨h, le_refl _⟩
  | put a inc _ hs hc => subst hs; exact ⟨h, le_refl _⟩
  | tick t _ h1 h2 hs => subst hs; exact ⟨h2, h1⟩
  | fireFree t ts sl _ ht hb hg hob hs =>
    subst hs
    have hp := nextTimer_perm ht
    exact ⟨fun u hu => hp.2 u ((hp.1 u).mpr (Or.inr hu)), h t ((hp.1 t).mpr (Or.inl rfl))⟩
  | fireMiss t ts _ ht hb hg hs =>
    subst hs
    have hp := nextTimer_perm ht
    exact ⟨fun u hu => hp.2 u ((hp.1 u).mpr (Or.inr hu)), h t ((hp.1 t).mpr (Or.inl rfl))⟩
  | fireRaise t ts _ ht hc' hs =>
    subst hs
    have hp := nextTimer_perm ht
    exact ⟨fun u hu => hp.2 u ((hp.1 u).mpr (Or.inr hu)), h t ((hp.1 t).mpr (Or.inl rfl))⟩

theorem timersOK_run (cap : Option Rat) (lvl t : Rat) (ops : List Op) :
    TimersOK (run (init cap lvl t) ops).1 :=
  run_induct (P := TimersOK) (fun _ _ _ _ h e => (timersOK_step h e).1) (by simp [TimersOK, init]) ops

end Verif.Reserve
