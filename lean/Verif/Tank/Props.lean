import Verif.Tank.Model
import Mathlib.Data.List.Chain

/-!
# Properties C06 and C39 for monitored containers
-/

namespace Verif.Tank

/-- Amounts of triggered gets whose task has not been resumed. -/
def onTheirWay : List Ev → Rat
  | [] => 0
  | .put _ :: q => onTheirWay q
  | .got _ x :: q => x + onTheirWay q

/-- Total of a list of (request, amount). -/
def total (l : List (Nat × Rat)) : Rat := (l.map (·.2)).sum

theorem onTheirWay_append (a b : List Ev) : onTheirWay (a ++ b) = onTheirWay a + onTheirWay b := by
  induction a with
  | nil => simp [onTheirWay]
  | cons e a ih => cases e <;> simp [onTheirWay, ih]; ring

theorem total_append (a b : List (Nat × Rat)) : total (a ++ b) = total a + total b := by simp [total]

/-- Everything that matters about one state: accounting, bounds, positive amounts, log facts. -/
structure Inv (lvl : Rat) (s : St) : Prop where
  acc : lvl + total s.accepted = s.level + onTheirWay s.evq + total s.delivered + total s.lost
  lo : 0 ≤ s.level
  hi : ∀ c, s.cap = some c → s.level ≤ c
  posP : ∀ p ∈ s.putQ, 0 < p.2
  posG : ∀ p ∈ s.getQ, 0 < p.2
  chain : s.log.IsChain (fun a b => a ≠ b)

theorem chain_append {l : List (Rat × Rat)} {x : Rat × Rat} (h : l.IsChain (fun a b => a ≠ b))
    (hne : l.getLast? ≠ some x) : (l ++ [x]).IsChain (fun a b => a ≠ b) := by
  rw [List.isChain_append]
  refine ⟨h, List.IsChain.singleton _, ?_⟩
  intro y hy z hz
  simp at hz; subst hz
  intro he
  exact hne (he ▸ hy)

theorem Inv.record {lvl : Rat} {s : St} (h : Inv lvl s) : Inv lvl (record s) := by
  unfold Tank.record
  split
  · rename_i hne
    exact ⟨h.acc, h.lo, h.hi, h.posP, h.posG, chain_append h.chain hne⟩
  · exact h

theorem record_queues (s : St) : (record s).getQ = s.getQ ∧ (record s).putQ = s.putQ := by
  unfold record; split <;> exact ⟨rfl, rfl⟩

theorem putLoop_inv (lvl : Rat) (q : List (Nat × Rat)) (s : St) (h : Inv lvl s) (hq : ∀ p ∈ q, 0 < p.2) :
    Inv lvl (putLoop q s).2 ∧ ∀ p ∈ (putLoop q s).1, p ∈ q := by
  induction q generalizing s with
  | nil => exact ⟨h, by simp [putLoop]⟩
  | cons p q ih =>
    obtain ⟨i, x⟩ := p
    simp only [putLoop]
    have hx : 0 < x := hq (i, x) (by simp)
    split
    · rename_i hf
      have h1 : Inv lvl { s with
          level := s.level + x
          evq := s.evq ++ [.put i]
          accepted := s.accepted ++ [(i, x)] } := by
        refine ⟨?_, ?_, ?_, h.posP, h.posG, h.chain⟩
        · have := h.acc
          simp only [total_append, onTheirWay_append, onTheirWay]
          simp only [total, List.map_cons, List.map_nil, List.sum_cons, List.sum_nil] at this ⊢
          linarith
        · have := h.lo
          simp only; linarith
        · intro c hc
          simp only at hc ⊢
          unfold fits at hf
          rw [hc] at hf
          simp only [decide_eq_true_eq] at hf
          linarith
      obtain ⟨h2, h3⟩ := ih _ h1.record (fun p hp => hq p (List.mem_cons_of_mem _ hp))
      exact ⟨h2, fun p hp => List.mem_cons_of_mem _ (h3 p hp)⟩
    · exact ⟨h, fun p hp => hp⟩

theorem getLoop_inv (lvl : Rat) (q : List (Nat × Rat)) (s : St) (h : Inv lvl s) (hq : ∀ p ∈ q, 0 < p.2) :
    Inv lvl (getLoop q s).2 ∧ ∀ p ∈ (getLoop q s).1, p ∈ q := by
  induction q generalizing s with
  | nil => exact ⟨h, by simp [getLoop]⟩
  | cons p q ih =>
    obtain ⟨i, x⟩ := p
    simp only [getLoop]
    have hx : 0 < x := hq (i, x) (by simp)
    split
    · rename_i hf
      have h1 : Inv lvl { s with
          level := s.level - x
          evq := s.evq ++ [.got i x] } := by
        refine ⟨?_, ?_, ?_, h.posP, h.posG, h.chain⟩
        · have := h.acc
          simp only [onTheirWay_append, onTheirWay]
          linarith
        · simp only; linarith
        · intro c hc
          have := h.hi c hc
          simp only; linarith
      obtain ⟨h2, h3⟩ := ih _ h1.record (fun p hp => hq p (List.mem_cons_of_mem _ hp))
      exact ⟨h2, fun p hp => List.mem_cons_of_mem _ (h3 p hp)⟩
    · exact ⟨h, fun p hp => hp⟩

theorem trigPut_inv (lvl : Rat) (s : St) (h : Inv lvl s) : Inv lvl (trigPut s) := by
  obtain ⟨h1, h2⟩ := putLoop_inv lvl s.putQ s h h.posP
  unfold trigPut
  refine Inv.record ⟨h1.acc, h1.lo, h1.hi, ?_, h1.posG, h1.chain⟩
  intro p hp
  exact h.posP p (h2 p hp)

theorem trigGet_inv (lvl : Rat) (s : St) (h : Inv lvl s) : Inv lvl (trigGet s) := by
  obtain ⟨h1, h2⟩ := getLoop_inv lvl s.getQ s h h.posG
  unfold trigGet
  refine Inv.record ⟨h1.acc, h1.lo, h1.hi, h1.posP, ?_, h1.chain⟩
  intro p hp
  exact h.posG p (h2 p hp)

theorem mem_concat_pos {l : List (Nat × Rat)} (h : ∀ p ∈ l, 0 < p.2) {i : Nat} {x : Rat} (hx : ¬ x ≤ 0) :
    ∀ p ∈ l ++ [(i, x)], 0 < p.2 := by
  intro p hp
  rcases List.mem_append.mp hp with hp | hp
  · exact h p hp
  · simp at hp; subst hp; exact not_le.mp hx

/-- `trigPut` for the processing of a get: the accounting is off by the processed amount. -/
theorem step_inv (lvl : Rat) (s : St) (op : Op) (h : Inv lvl s) : Inv lvl (step s op) := by
  cases op with
  | put x =>
    simp only [step, doPut]
    split
    · exact h
    · rename_i hx
      exact trigPut_inv lvl _ ⟨h.acc, h.lo, h.hi, mem_concat_pos h.posP hx, h.posG, h.chain⟩
  | get x =>
    simp only [step, doGet]
    split
    · exact h
    · rename_i hx
      exact trigGet_inv lvl _ ⟨h.acc, h.lo, h.hi, h.posP, mem_concat_pos h.posG hx, h.chain⟩
  | interrupt id =>
    exact ⟨h.acc, h.lo, h.hi, fun p hp => h.posP p (List.mem_filter.mp hp).1,
      fun p hp => h.posG p (List.mem_filter.mp hp).1, h.chain⟩
  | process =>
    simp only [step, doProcess]
    split
    · exact h
    · rename_i i q hq
      refine trigGet_inv lvl _ ⟨?_, h.lo, h.hi, h.posP, h.posG, h.chain⟩
      have := h.acc
      rw [hq] at this
      exact this
    · rename_i i x q hq
      have h1 : Inv (lvl - x) { s with evq := q } := by
        refine ⟨?_, h.lo, h.hi, h.posP, h.posG, h.chain⟩
        have := h.acc
        rw [hq] at this
        simp only [onTheirWay] at this ⊢
        linarith
      have h2 := trigPut_inv (lvl - x) _ h1
      split
      · refine ⟨?_, h2.lo, h2.hi, h2.posP, h2.posG, h2.chain⟩
        have := h2.acc
        simp only [total_append]
        simp only [total, List.map_cons, List.map_nil, List.sum_cons, List.sum_nil] at this ⊢
        linarith
      · refine ⟨?_, h2.lo, h2.hi, h2.posP, h2.posG, h2.chain⟩
        have := h2.acc
        simp only [total_append]
        simp only [total, List.map_cons, List.map_nil, List.sum_cons, List.sum_nil] at this ⊢
        linarith
  | advance t =>
    simp only [step, doAdvance]
    split
    · exact ⟨h.acc, h.lo, h.hi, h.posP, h.posG, h.chain⟩
    · exact h

theorem run_inv (cap : Option Rat) (lvl t0 : Rat) (h0 : 0 ≤ lvl) (h1 : ∀ c, cap = some c → lvl ≤ c)
    (ops : List Op) : Inv lvl (run (init cap lvl t0) ops) := by
  have key : ∀ (ops : List Op) (s : St), Inv lvl s → Inv lvl (run s ops) := by
    intro ops
    induction ops with
    | nil => intro s h; exact h
    | cons op ops ih => intro s h; exact ih _ (step_inv lvl s op h)
  refine key ops _ ⟨?_, h0, h1, by simp [init], by simp [init], List.IsChain.singleton _⟩
  simp [init, total, onTheirWay]

/-- **C39 (containers, conservation).** In every history, what the container started with plus everything
accepted equals what it holds, what is on its way to a task, what tasks received and what was lost; and the
level stays within `[0, capacity]`. -/
theorem c39_container_conservation (cap : Option Rat) (lvl t0 : Rat) (h0 : 0 ≤ lvl)
    (h1 : ∀ c, cap = some c → lvl ≤ c) (ops : List Op) :
    let s := run (init cap lvl t0) ops
    lvl + (s.accepted.map (·.2)).sum =
      s.level + onTheirWay s.evq + (s.delivered.map (·.2)).sum + (s.lost.map (·.2)).sum ∧
    0 ≤ s.level ∧ ∀ c, s.cap = some c → s.level ≤ c := by
  have h := run_inv cap lvl t0 h0 h1 ops
  exact ⟨h.acc, h.lo, h.hi⟩

/-- **C39 is false of the code for containers too**: an amount triggered but not yet processed when its
task is interrupted is gone. -/
theorem c39_container_lost :
    let s := run (init none 0 0) [.get 3, .put 5, .process, .interrupt 0, .process]
    s.level = 2 ∧ s.delivered = [] ∧ s.lost = [(0, 3)] ∧ s.evq = [] := by decide +kernel

/-- No interrupt hits a get that is triggered but not yet processed. -/
def NoLateInterrupt : St → List Op → Bool
  | _, [] => true
  | s, op :: ops =>
    (match op with
      | .interrupt id => s.evq.all (fun e => match e with | .got i _ => decide (i ≠ id) | _ => true)
      | _ => true) && NoLateInterrupt (step s op) ops

/-- Waiting bookkeeping. -/
def W (s : St) : Prop :=
  s.lost = [] ∧ (∀ i x, Ev.got i x ∈ s.evq → i ∈ s.waiting) ∧ ∀ p ∈ s.getQ, p.1 ∈ s.waiting

theorem W.record {s : St} (h : W s) : W (record s) := by
  unfold Tank.record; split <;> exact h

theorem putLoop_W (q : List (Nat × Rat)) (s : St) (h : W s) : W (putLoop q s).2 := by
  induction q generalizing s with
  | nil => exact h
  | cons p q ih =>
    obtain ⟨i, x⟩ := p
    simp only [putLoop]
    split
    · refine ih _ (W.record ⟨h.1, ?_, h.2.2⟩)
      intro j y hj
      simp only [List.mem_append, List.mem_singleton, reduceCtorEq, or_false] at hj
      exact h.2.1 j y hj
    · exact h

theorem getLoop_W (q : List (Nat × Rat)) (s : St) (h : W s) (hq : ∀ p ∈ q, p.1 ∈ s.waiting) :
    W (getLoop q s).2 ∧ (getLoop q s).2.waiting = s.waiting ∧ ∀ p ∈ (getLoop q s).1, p ∈ q := by
  induction q generalizing s with
  | nil => exact ⟨h, rfl, by simp [getLoop]⟩
  | cons p q ih =>
    obtain ⟨i, x⟩ := p
    simp only [getLoop]
    split
    · have hw : ∀ s' : St, (Tank.record s').waiting = s'.waiting := by
        intro s'; unfold Tank.record; split <;> rfl
      have h1 : W (Tank.record { s with
          level := s.level - x
          evq := s.evq ++ [.got i x] }) := by
        refine W.record ⟨h.1, ?_, h.2.2⟩
        intro j y hj
        simp only [List.mem_append, List.mem_singleton] at hj
        rcases hj with hj | hj
        · exact h.2.1 j y hj
        · cases hj; exact hq (i, x) (by simp)
      obtain ⟨a, b, c⟩ := ih _ h1 (by
        intro p hp
        rw [hw]
        exact hq p (List.mem_cons_of_mem _ hp))
      exact ⟨a, by rw [b, hw], fun p hp => List.mem_cons_of_mem _ (c p hp)⟩
    · exact ⟨h, rfl, fun p hp => hp⟩

theorem trigPut_W (s : St) (h : W s) : W (trigPut s) := by
  unfold trigPut
  exact W.record (putLoop_W s.putQ s h)

theorem trigGet_W (s : St) (h : W s) : W (trigGet s) := by
  obtain ⟨a, b, c⟩ := getLoop_W s.getQ s h h.2.2
  unfold trigGet
  refine W.record ⟨a.1, a.2.1, ?_⟩
  intro p hp
  simp only at hp ⊢
  rw [b]
  exact h.2.2 p (c p hp)

/-- **C39 (containers), the part that holds.** Without interrupts between trigger and processing nothing is
lost. -/
theorem c39_container_no_loss_partial (cap : Option Rat) (lvl t0 : Rat) (ops : List Op)
    (h : NoLateInterrupt (init cap lvl t0) ops = true) : (run (init cap lvl t0) ops).lost = [] := by
  have key : ∀ (ops : List Op) (s : St), NoLateInterrupt s ops = true → W s → W (run s ops) := by
    intro ops
    induction ops with
    | nil => intro s _ h; exact h
    | cons op ops ih =>
      intro s hn hW
      simp only [NoLateInterrupt, Bool.and_eq_true] at hn
      refine ih _ hn.2 ?_
      obtain ⟨h1, h2, h3⟩ := hW
      cases op with
      | put x =>
        simp only [step, doPut]
        split
        · exact ⟨h1, h2, h3⟩
        · exact trigPut_W _ ⟨h1, fun i x hi => List.mem_append_left _ (h2 i x hi),
            fun p hp => List.mem_append_left _ (h3 p hp)⟩
      | get x =>
        simp only [step, doGet]
        split
        · exact ⟨h1, h2, h3⟩
        · refine trigGet_W _ ⟨h1, fun i x hi => List.mem_append_left _ (h2 i x hi), ?_⟩
          intro p hp
          simp only [List.mem_append, List.mem_singleton] at hp ⊢
          rcases hp with hp | rfl
          · left; exact h3 p hp
          · right; rfl
      | interrupt id =>
        have hg : ∀ i x, Ev.got i x ∈ s.evq → i ≠ id := by
          intro i x hi
          have := List.all_eq_true.mp hn.1 _ hi
          simpa using this
        refine ⟨h1, ?_, ?_⟩
        · intro i x hi
          simp only [step, doInterrupt, List.mem_filter, decide_eq_true_eq] at hi ⊢
          exact ⟨h2 i x hi, hg i x hi⟩
        · intro p hp
          simp only [step, doInterrupt, List.mem_filter, decide_eq_true_eq] at hp ⊢
          exact ⟨h3 p hp.1, hp.2⟩
      | process =>
        simp only [step, doProcess]
        split
        · exact ⟨h1, h2, h3⟩
        · rename_i i q hq
          exact trigGet_W _ ⟨h1, fun i x hi => h2 i x (by rw [hq]; exact List.mem_cons_of_mem _ hi), h3⟩
        · rename_i i x q hq
          have hw := trigPut_W { s with evq := q }
            ⟨h1, fun i x hi => h2 i x (by rw [hq]; exact List.mem_cons_of_mem _ hi), h3⟩
          have hwait : (trigPut { s with evq := q }).waiting = s.waiting := by
            have hr : ∀ s' : St, (Tank.record s').waiting = s'.waiting := by
              intro s'; unfold Tank.record; split <;> rfl
            have hl : ∀ (l : List (Nat × Rat)) (s' : St), (putLoop l s').2.waiting = s'.waiting := by
              intro l
              induction l with
              | nil => intro s'; rfl
              | cons p l ih =>
                intro s'
                simp only [putLoop]
                split
                · rw [ih, hr]
                · rfl
            unfold trigPut
            rw [hr]
            exact hl _ _
          have hi : i ∈ (trigPut { s with evq := q }).waiting := by
            rw [hwait]; exact h2 i x (by rw [hq]; simp)
          rw [if_pos hi]
          exact hw
      | advance t =>
        simp only [step, doAdvance]
        split <;> exact ⟨h1, h2, h3⟩
  exact (key ops _ h ⟨rfl, by simp [init], by simp [init]⟩).1

example : NoLateInterrupt (init (some 6) 1 0)
    [.get 3, .put 5, .process, .process, .put 9, .interrupt 2, .get 1, .process] = true ∧
    (run (init (some 6) 1 0)
      [.get 3, .put 5, .process, .process, .put 9, .interrupt 2, .get 1, .process]).delivered =
      [(0, 3), (3, 1)] := by decide +kernel

/-! ## C06 -/

/-- The log is extended only with entries at the current time, the last one being the current level. -/
def Ext (s s' : St) : Prop :=
  (∃ e, s'.log = s.log ++ e ∧ ∀ x ∈ e, x.1 = s'.now) ∧ s'.now = s.now ∧
  s'.log.getLast?.map (·.2) = some s'.level

theorem record_ext (s : St) : Ext s (record s) := by
  unfold record
  split
  · exact ⟨⟨_, rfl, by simp⟩, rfl, by simp⟩
  · rename_i h
    simp only [ne_eq, not_not] at h
    exact ⟨⟨[], by simp, by simp⟩, rfl, by rw [h]; rfl⟩

theorem Ext.trans' {a b c : St} (h1 : Ext a b) (h2 : Ext b c) : Ext a c := by
  obtain ⟨⟨e1, x1, y1⟩, n1, _⟩ := h1
  obtain ⟨⟨e2, x2, y2⟩, n2, l2⟩ := h2
  refine ⟨⟨e1 ++ e2, by rw [x2, x1, List.append_assoc], ?_⟩, by rw [n2, n1], l2⟩
  intro x hx
  rcases List.mem_append.mp hx with hx | hx
  · rw [n2]; exact y1 x hx
  · exact y2 x hx

theorem putLoop_ext (q : List (Nat × Rat)) (s : St) (h : s.log.getLast?.map (·.2) = some s.level) :
    Ext s (putLoop q s).2 := by
  induction q generalizing s with
  | nil => exact ⟨⟨[], by simp [putLoop], by simp⟩, rfl, h⟩
  | cons p q ih =>
    obtain ⟨i, x⟩ := p
    simp only [putLoop]
    split
    · have h1 := record_ext { s with
          level := s.level + x
          evq := s.evq ++ [.put i]
          accepted := s.accepted ++ [(i, x)] }
      exact Ext.trans' (show Ext s _ from h1) (ih _ h1.2.2)
    · exact ⟨⟨[], by simp, by simp⟩, rfl, h⟩

theorem getLoop_ext (q : List (Nat × Rat)) (s : St) (h : s.log.getLast?.map (·.2) = some s.level) :
    Ext s (getLoop q s).2 := by
  induction q generalizing s with
  | nil => exact ⟨⟨[], by simp [getLoop], by simp⟩, rfl, h⟩
  | cons p q ih =>
    obtain ⟨i, x⟩ := p
    simp only [getLoop]
    split
    · have h1 := record_ext { s with
          level := s.level - x
          evq := s.evq ++ [.got i x] }
      exact Ext.trans' (show Ext s _ from h1) (ih _ h1.2.2)
    · exact ⟨⟨[], by simp, by simp⟩, rfl, h⟩

theorem trigPut_ext (s : St) (h : s.log.getLast?.map (·.2) = some s.level) : Ext s (trigPut s) :=
  Ext.trans' (putLoop_ext s.putQ s h) (record_ext _)

theorem trigGet_ext (s : St) (h : s.log.getLast?.map (·.2) = some s.level) : Ext s (trigGet s) :=
  Ext.trans' (getLoop_ext s.getQ s h) (record_ext _)

theorem ofExt {s s' s'' : St} (hl : s'.log = s.log) (hn : s'.now = s.now) (h : Ext s' s'') :
    s.now ≤ s''.now ∧ (∃ e, s''.log = s.log ++ e ∧ ∀ x ∈ e, x.1 = s''.now) ∧
    s''.log.getLast?.map (·.2) = some s''.level := by
  obtain ⟨a, b, c⟩ := h
  rw [hl] at a
  exact ⟨le_of_eq (by rw [b, hn]), a, c⟩

theorem step_ext (s : St) (op : Op) (h : s.log.getLast?.map (·.2) = some s.level) :
    s.now ≤ (step s op).now ∧ (∃ e, (step s op).log = s.log ++ e ∧ ∀ x ∈ e, x.1 = (step s op).now) ∧
    (step s op).log.getLast?.map (·.2) = some (step s op).level := by
  have same : s.now ≤ s.now ∧ (∃ e, s.log = s.log ++ e ∧ ∀ x ∈ e, x.1 = s.now) ∧
      s.log.getLast?.map (·.2) = some s.level := ⟨le_refl _, ⟨[], by simp, by simp⟩, h⟩
  cases op with
  | put x =>
    simp only [step, doPut]
    split
    · exact same
    · exact ofExt rfl rfl (trigPut_ext _ (by exact h))
  | get x =>
    simp only [step, doGet]
    split
    · exact same
    · exact ofExt rfl rfl (trigGet_ext _ (by exact h))
  | interrupt id => exact same
  | process =>
    simp only [step, doProcess]
    split
    · exact same
    · exact ofExt rfl rfl (trigGet_ext _ (by exact h))
    · rename_i i x q hq
      obtain ⟨a, b, c⟩ := trigPut_ext { s with evq := q } (by exact h)
      split <;> exact ⟨le_of_eq b.symm, a, c⟩
  | advance t =>
    simp only [step, doAdvance]
    split
    · rename_i ht
      exact ⟨ht.1, ⟨[], by simp, by simp⟩, h⟩
    · exact same

/-- **C06 (containers).** After any history the log is in time order, never repeats an entry, ends with the
current level, and at *every* instant gives the level the container had then. -/
theorem c06_container_log (cap : Option Rat) (lvl t0 : Rat) (h0 : 0 ≤ lvl)
    (h1 : ∀ c, cap = some c → lvl ≤ c) (ops : List Op) :
    let s := run (init cap lvl t0) ops
    Log.Ordered s.log ∧ s.log.IsChain (fun a b => a ≠ b) ∧
    s.log.getLast?.map (·.2) = some s.level ∧
    ∀ t, Log.lookup s.log t = Log.lookup (snapshots (init cap lvl t0) ops) t := by
  have key : ∀ (ops : List Op) (s : St) (snaps : List (Rat × Rat)),
      Log.Faithful s.log (snaps ++ [(s.now, s.level)]) s.now s.level →
      ∃ snaps', snaps' = snaps ++ snapshots s ops ∧
        Log.Faithful (run s ops).log snaps' (run s ops).now (run s ops).level := by
    intro ops
    induction ops with
    | nil => intro s snaps h; exact ⟨_, rfl, h⟩
    | cons op ops ih =>
      intro s snaps h
      obtain ⟨a, ⟨e, he1, he2⟩, c⟩ := step_ext s op h.cur
      have h' := h.extend a (ext := e) he2 (v' := (step s op).level) (by rw [← he1]; exact c)
      rw [← he1] at h'
      obtain ⟨snaps', b1, b2⟩ := ih (step s op) (snaps ++ [(s.now, s.level)]) h'
      refine ⟨snaps', ?_, b2⟩
      rw [b1]; simp [snapshots]
  obtain ⟨snaps', b1, b2⟩ := key ops (init cap lvl t0) [] (Log.Faithful.start _ _)
  simp only [List.nil_append] at b1
  exact ⟨b2.ordered, (run_inv cap lvl t0 h0 h1 ops).chain, b2.cur, fun t => by rw [b2.same, b1]⟩

example : (run (init (some 6) 1 0)
    [.get 3, .put 5, .advance 1, .process, .advance 2, .process, .advance 2, .put 2, .get 1]).log =
      [(0, 1), (0, 6), (0, 3), (2, 5), (2, 4)] := by decide +kernel

end Verif.Tank
