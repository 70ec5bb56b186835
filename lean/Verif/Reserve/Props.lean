import Verif.Reserve.Lemmas
import Mathlib.Tactic.Ring
import Mathlib.Tactic.NormNum

/-!
# Properties C01–C04: `ReserveContainer`

Specification vocabulary (independent of the model's helpers): what was deposited and what was handed
out according to the *observed trace* of calls and results, and the outstanding total.
-/

namespace Verif.Reserve

/-- Total deposited by the puts that did not raise. -/
def deposited : List (Op × Out) → Rat
  | [] => 0
  | (.put a _, .unit) :: tr => a + deposited tr
  | _ :: tr => deposited tr

/-- Total handed out by successful takes. -/
def handedOut : List (Op × Out) → Rat
  | [] => 0
  | (_, .amt q) :: tr => q + handedOut tr
  | _ :: tr => handedOut tr

/-- Sum of the outstanding reservations. -/
def outstanding (s : St) : Rat := (s.queued.map (fun p => p.2.qty)).sum

/-- Every amount named in the history is non-negative. -/
def AmountsNonneg (ops : List Op) : Prop :=
  ∀ op ∈ ops, match op with
    | .reserve _ q _ => 0 ≤ q
    | .put a _ => 0 ≤ a
    | _ => True

/-- **C01 (accounting).**  After every history, the stock equals available + outstanding, and it equals
the initial stock plus everything deposited minus everything handed out. -/
theorem c01_accounting (cap : Option Rat) (lvl t : Rat) (ops : List Op) :
    let s := (run (init cap lvl t) ops).1
    let tr := (run (init cap lvl t) ops).2
    s.real = available s + outstanding s ∧ s.real = lvl + deposited tr - handedOut tr := by
  refine ⟨(inv_run (inv_init cap lvl t) ops).acc, ?_⟩
  have key : ∀ (ops : List Op) (s : St), (run s ops).1.real
      = s.real + deposited (run s ops).2 - handedOut (run s ops).2 := by
    intro ops
    induction ops with
    | nil => intro s; simp [run, deposited, handedOut]
    | cons op ops ih =>
      intro s
      simp only [run]
      rw [ih]
      have e := step_eff s op
      generalize (step s op).1 = s' at e
      generalize (step s op).2 = o at e
      cases e with
      | noop _ _ hb hp hg =>
        have h1 : ∀ tr, deposited ((op, o) :: tr) = deposited tr := by
          intro tr; cases op <;> cases o <;> simp_all [deposited]
        have h2 : ∀ tr, handedOut ((op, o) :: tr) = handedOut tr := by
          intro tr; cases o <;> simp_all [handedOut]
        rw [h1, h2]
      | grant r q e _ hq hn hs => subst hs; simp [deposited, handedOut]
      | free r sl _ hg hob hs =>
        subst hs; simp [deposited, handedOut]
      | taken r sl _ hg hs => subst hs; simp only [deposited, handedOut]; linarith
      | put a inc _ hs hc => subst hs; simp only [deposited, handedOut]; linarith
      | tick t _ h1 h2 hs => subst hs; simp [deposited, handedOut]
      | fireFree t ts sl _ ht hb hg hob hs => subst hs; simp [deposited, handedOut]
      | fireMiss t ts _ ht hb hg hs => subst hs; simp [deposited, handedOut]
      | fireRaise t ts _ ht hc hs => subst hs; simp [deposited, handedOut]
  exact key ops _

/-- Results that mean "refused" or "raised". -/
def Refused : Out → Prop
  | .bool false | .raised | .expired _ false | .expireRaised _ | .disabled => True
  | _ => False

/-- **C01 (refusals).** In every reachable state a call that is refused or raises changes no amount and
no reservation. -/
theorem c01_refused_unchanged (s : St) (op : Op) (h : Refused (step s op).2) :
    (step s op).1.level = s.level ∧ (step s op).1.real = s.real ∧
    (step s op).1.queued = s.queued ∧ (step s op).1.capacity = s.capacity := by
  have e := step_eff s op
  generalize (step s op).1 = s' at e ⊢
  generalize (step s op).2 = o at e h
  cases e with
  | noop => simp
  | fireMiss t ts _ ht hb hg hs => subst hs; simp
  | fireRaise t ts _ ht hc hs => subst hs; simp
  | _ => simp [Refused] at h

/-- **C01 (non-negativity).** With non-negative amounts nothing ever becomes negative: neither the
available amount, nor the stock, nor any reservation. -/
theorem c01_nonneg (cap : Option Rat) (lvl t : Rat) (ops : List Op) (hl : 0 ≤ lvl)
    (ha : AmountsNonneg ops) :
    let s := (run (init cap lvl t) ops).1
    0 ≤ available s ∧ 0 ≤ s.real ∧ ∀ p ∈ s.queued, 0 ≤ p.2.qty := by
  have key : ∀ (ops : List Op) (s : St), AmountsNonneg ops →
      (0 ≤ s.level ∧ ∀ p ∈ s.queued, 0 ≤ p.2.qty) →
      (0 ≤ (run s ops).1.level ∧ ∀ p ∈ (run s ops).1.queued, 0 ≤ p.2.qty) := by
    intro ops
    induction ops with
    | nil => intro s _ h; exact h
    | cons op ops ih =>
      intro s ha ⟨h1, h2⟩
      have ha' : AmountsNonneg ops := fun o ho => ha o (List.mem_cons_of_mem _ ho)
      have hop := ha op (List.mem_cons_self ..)
      refine ih _ ha' ?_
      have e := step_eff s op
      generalize (step s op).1 = s' at e ⊢
      generalize (step s op).2 = o at e
      cases e with
      | noop => exact ⟨h1, h2⟩
      | grant r q e _ hq hn hs =>
        subst hs
        refine ⟨by simp only; linarith, ?_⟩
        intro p hp
        simp only [List.mem_append, List.mem_singleton] at hp
        rcases hp with hp | hp
        · exact h2 p hp
        · subst hp; exact hop
      | free r sl _ hg hob hs =>
        subst hs
        have := h2 _ (Dict.mem_of_get? hg)
        refine ⟨by simp only at *; linarith, fun p hp => h2 p ((List.mem_filter.mp hp).1)⟩
      | taken r sl _ hg hs =>
        subst hs
        exact ⟨h1, fun p hp => h2 p ((List.mem_filter.mp hp).1)⟩
      | put a inc _ hs hc =>
        subst hs
        have := hop
        exact ⟨by simp only; linarith, h2⟩
      | tick t _ h1' h2' hs => subst hs; exact ⟨h1, h2⟩
      | fireFree t ts sl _ ht hb hg hob hs =>
        subst hs
        have := h2 _ (Dict.mem_of_get? hg)
        refine ⟨by simp only at *; linarith, fun p hp => h2 p ((List.mem_filter.mp hp).1)⟩
      | fireMiss t ts _ ht hb hg hs => subst hs; exact ⟨h1, h2⟩
      | fireRaise t ts _ ht hc hs => subst hs; exact ⟨h1, h2⟩
  have h := key ops (init cap lvl t) ha ⟨hl, by simp [init]⟩
  refine ⟨h.1, ?_, h.2⟩
  rw [(inv_run (inv_init cap lvl t) ops).acc]
  have : 0 ≤ qsum (run (init cap lvl t) ops).1.queued := by
    have : ∀ d : Dict Nat Slot, (∀ p ∈ d, 0 ≤ p.2.qty) → 0 ≤ qsum d := by
      intro d
      induction d with
      | nil => intro _; simp [qsum]
      | cons p d ih =>
        intro hd
        have h1 := ih (fun x hx => hd x (List.mem_cons_of_mem _ hx))
        have h2 := hd p (List.mem_cons_self ..)
        simp only [qsum, List.map_cons, List.sum_cons] at h1 ⊢
        linarith
    exact this _ h.2
  linarith [h.1]

/-- A concrete history with a grant, a refusal, a take, a cancellation and an expiry. -/
def demoOps : List Op :=
  [.reserve ⟨1, 1⟩ 4 none, .reserve ⟨2, 2⟩ 7 none, .reserve ⟨2, 2⟩ 3 (some 5), .take ⟨1, 1⟩,
   .reserve ⟨3, 3⟩ 1 none, .cancel ⟨3, 3⟩, .put 2 false, .tick 4, .fire]

example : AmountsNonneg demoOps ∧
    (run (init (some 10) 10 0) demoOps).2.map (·.2) =
      [.bool true, .bool false, .bool true, .amt 4, .bool true, .bool true, .unit, .unit,
       .expired 2 true] ∧ (run (init (some 10) 10 0) demoOps).1.level = 8 := by
  refine ⟨?_, by decide +kernel, by decide +kernel⟩
  intro op h; simp [demoOps] at h
  rcases h with rfl | rfl | rfl | rfl | rfl | rfl | rfl | rfl | rfl <;> norm_num

example : Refused (step (init (some 10) 3 0) (.reserve ⟨1, 1⟩ 4 none)).2 := by
  simp [step, reserve, available, init, Refused]; norm_num [Refused]

/-! ## C02 -/

/-- **C02 (granting rule).** A reservation is granted exactly when the available amount covers it and
the requester has none outstanding; granting moves exactly `q` from available to reserved and leaves the
stock and every other reservation alone; otherwise nothing changes and the answer is `False`. -/
theorem c02_grant_iff (s : St) (r : Req) (q : Rat) (e : Option Rat) :
    ((step s (.reserve r q e)).2 = .bool true ↔ q ≤ available s ∧ r.key ∉ s.queued.keys) ∧
    ((step s (.reserve r q e)).2 = .bool true →
      available (step s (.reserve r q e)).1 = available s - q ∧
      (step s (.reserve r q e)).1.real = s.real ∧
      (step s (.reserve r q e)).1.queued = s.queued ++ [(r.key, ⟨r.obj, q, s.now⟩)]) ∧
    ((step s (.reserve r q e)).2 ≠ .bool true →
      step s (.reserve r q e) = (s, .bool false)) := by
  have hk : r.key ∉ s.queued.keys ↔ s.queued.get? r.key = none := Dict.get?_eq_none_iff.symm
  rw [hk]
  simp only [step, reserve, available, Dict.has]
  by_cases h1 : s.level < q
  · have : ¬ q ≤ s.level := not_le.mpr h1
    simp [h1, this]
  · have h1' : q ≤ s.level := not_lt.mp h1
    by_cases hg : s.queued.get? r.key = none
    · cases e <;> simp [h1, h1', hg, Dict.mem_set_new hg]
    · simp [h1, hg]

/-- The entry of a trace ends requester `k`'s reservation: it took it, cancelled it, or it expired. -/
def Ends (k : Nat) : Op × Out → Prop
  | (.take r, _) => r.key = k
  | (.cancel r, _) => r.key = k
  | (.fire, .expired k' _) => k' = k
  | _ => False

/-- **C02 (honoured).** Once granted, and whatever everybody else does and however time passes, as long
as the requester did not take or cancel and the reservation did not expire, `take` succeeds with exactly
the reserved quantity and lowers the stock by exactly that. -/
theorem c02_honoured (s : St) (r : Req) (q : Rat) (e : Option Rat) (ops : List Op)
    (hg : (step s (.reserve r q e)).2 = .bool true)
    (hother : ∀ x ∈ (run (step s (.reserve r q e)).1 ops).2, ¬ Ends r.key x) (r' : Req)
    (hr : r'.key = r.key) :
    let s2 := (run (step s (.reserve r q e)).1 ops).1
    (step s2 (.take r')).2 = .amt q ∧ (step s2 (.take r')).1.real = s2.real - q ∧
    available (step s2 (.take r')).1 = available s2 := by
  have key : ∀ (ops : List Op) (s : St) (o : Nat) (a : Rat),
      s.queued.get? r.key = some ⟨o, q, a⟩ → (∀ x ∈ (run s ops).2, ¬ Ends r.key x) →
      (run s ops).1.queued.get? r.key = some ⟨o, q, a⟩ := by
    intro ops
    induction ops with
    | nil => intro s o a h _; exact h
    | cons op ops ih =>
      intro s o a h hx
      simp only [run, List.mem_cons, forall_eq_or_imp] at hx
      refine ih _ o a ?_ hx.2
      have e := step_eff s op
      have hx1 := hx.1
      generalize (step s op).1 = s' at e ⊢
      generalize (step s op).2 = out at e hx1
      cases e with
      | noop => exact h
      | grant r2 q2 e2 _ hq hn hs =>
        subst hs
        simp only [get?_append_new hn]
        split
        · rename_i hk; rw [hk] at hn; simp [hn] at h
        · exact h
      | free r2 sl _ hg hob hs =>
        subst hs
        simp only [Ends] at hx1
        simp only [Dict.get?_del_ne _ hx1]; exact h
      | taken r2 sl _ hg hs =>
        subst hs
        simp only [Ends] at hx1
        simp only [Dict.get?_del_ne _ hx1]; exact h
      | put a inc _ hs hc => subst hs; exact h
      | tick t _ h1 h2 hs => subst hs; exact h
      | fireFree t ts sl _ ht hb hg hob hs =>
        subst hs
        simp only [Ends] at hx1
        simp only [Dict.get?_del_ne _ hx1]; exact h
      | fireMiss t ts _ ht hb hg hs => subst hs; exact h
      | fireRaise t ts _ ht hc hs => subst hs; exact h
  have h0 : (step s (.reserve r q e)).1.queued.get? r.key = some ⟨r.obj, q, s.now⟩ := by
    have hc := c02_grant_iff s r q e
    have hn := (hc.1.mp hg).2
    rw [(hc.2.1 hg).2.2, get?_append_new (Dict.get?_eq_none_iff.mpr hn)]
    simp
  have h1 := key ops _ _ _ h0 hother
  simp only [step, take, hr]
  simp only [step] at h1
  rw [h1]
  simp [available]

example : (step (init (some 10) 10 0) (.reserve ⟨1, 1⟩ 4 none)).2 = .bool true ∧
    ∀ x ∈ (run (step (init (some 10) 10 0) (.reserve ⟨1, 1⟩ 4 none)).1
      [.reserve ⟨2, 2⟩ 6 (some 1), .reserve ⟨3, 3⟩ 1 none, .fire, .put 3 false, .take ⟨3, 3⟩]).2,
      ¬ Ends 1 x := by
  have h : (run (step (init (some 10) 10 0) (.reserve ⟨1, 1⟩ 4 none)).1
      [.reserve ⟨2, 2⟩ 6 (some 1), .reserve ⟨3, 3⟩ 1 none, .fire, .put 3 false, .take ⟨3, 3⟩]).2
      = [(.reserve ⟨2, 2⟩ 6 (some 1), .bool true), (.reserve ⟨3, 3⟩ 1 none, .bool false),
         (.fire, .expired 2 true), (.put 3 false, .unit), (.take ⟨3, 3⟩, .raised)] := by decide +kernel
  rw [h]
  exact ⟨by decide +kernel, by simp [Ends]⟩

/-! ## C03 -/

/-- The stock is within capacity. -/
def WithinCap (x : Rat) : Option Rat → Prop
  | none => True
  | some c => x ≤ c

/-- **C03 is false of the code.** A deposit into the space freed by a reservation that is later cancelled
leaves more than the capacity: here 12 in a container of capacity 10, both as stock and as available. -/
theorem c03_capacity_violated :
    let s := (run (init (some 10) 10 0)
      [.reserve ⟨1, 1⟩ 2 none, .put 2 false, .cancel ⟨1, 1⟩]).1
    s.real = 12 ∧ available s = 12 ∧ s.capacity = some 10 := by decide +kernel

/-- **C03 is false of the code, without bound.** For a container of capacity 1, and any `n`, there is a
history of reserves and unforced deposits that puts more than `n` units in it. -/
theorem c03_capacity_unbounded (n : Nat) : ∃ ops : List Op,
    (∀ op ∈ ops, ∀ a, op ≠ .put a true) ∧
    (run (init (some 1) 1 0) ops).1.capacity = some 1 ∧
    (n : Rat) < (run (init (some 1) 1 0) ops).1.real := by
  have key : ∀ n : Nat, ∃ ops : List Op, (∀ op ∈ ops, ∀ a, op ≠ .put a true) ∧
      (run (init (some 1) 1 0) ops).1.capacity = some 1 ∧
      (run (init (some 1) 1 0) ops).1.level = 1 ∧
      (∀ k ∈ (run (init (some 1) 1 0) ops).1.queued.keys, k < n) ∧
      (run (init (some 1) 1 0) ops).1.real = n + 1 := by
    intro n
    induction n with
    | zero => exact ⟨[], by simp [run, init, Dict.keys]⟩
    | succ n ih =>
      obtain ⟨ops, h0, h1, h2, h3, h4⟩ := ih
      refine ⟨ops ++ [.reserve ⟨n, n⟩ 1 none, .put 1 false], ?_, ?_⟩
      · intro op hop a
        simp only [List.mem_append, List.mem_cons, List.not_mem_nil, or_false] at hop
        rcases hop with h | rfl | rfl
        · exact h0 op h a
        · simp
        · simp
      · rw [run_append]
        generalize (run (init (some 1) 1 0) ops).1 = s at *
        have hn : s.queued.get? n = none := by
          rw [Dict.get?_eq_none_iff]; intro hc; exact absurd (h3 n hc) (by omega)
        have hk : Dict.keys (s.queued ++ [(n, (⟨n, 1, s.now⟩ : Slot))]) = s.queued.keys ++ [n] := by
          simp [Dict.keys]
        simp only [run, step, reserve, available, h2, Dict.has, hn, put, over, h1]
        norm_num [h4]
        intro k hk'
        rw [Dict.mem_set_new hn, hk] at hk'
        simp only [List.mem_append, List.mem_singleton] at hk'
        rcases hk' with h | h
        · have := h3 k h; omega
        · omega
  obtain ⟨ops, h0, h1, _, _, h4⟩ := key n
  exact ⟨ops, h0, h1, by rw [h4]; linarith⟩

/-- Deposits happen only while nothing is reserved, and never force the capacity. -/
def PutsWhenIdle : St → List Op → Bool
  | _, [] => true
  | s, op :: ops =>
    (match op with
      | .put _ inc => s.queued.isEmpty && !inc
      | _ => true) && PutsWhenIdle (step s op).1 ops

/-- **C03, the part that holds.** If every deposit is made while no reservation is outstanding, the stock
never exceeds the capacity, whatever is reserved, cancelled, taken or expires in between.
Missing for the full statement: deposits made while something is reserved (false, see
`c03_capacity_violated`). -/
theorem c03_capacity_partial (cap : Option Rat) (lvl t : Rat) (ops : List Op)
    (hl : WithinCap lvl cap) (ha : AmountsNonneg ops) (hi : PutsWhenIdle (init cap lvl t) ops) :
    WithinCap (run (init cap lvl t) ops).1.real cap := by
  have key : ∀ (ops : List Op) (s : St), Inv s → s.capacity = cap → AmountsNonneg ops →
      PutsWhenIdle s ops → (∀ p ∈ s.queued, 0 ≤ p.2.qty) → WithinCap s.real cap →
      WithinCap (run s ops).1.real cap := by
    intro ops
    induction ops with
    | nil => intro s _ _ _ _ _ h; exact h
    | cons op ops ih =>
      intro s hI hc ha hi hq h
      have ha' : AmountsNonneg ops := fun o ho => ha o (List.mem_cons_of_mem _ ho)
      have hop := ha op (List.mem_cons_self ..)
      have e := step_eff s op
      have hI' := inv_step hI e
      simp only [PutsWhenIdle, Bool.and_eq_true] at hi
      obtain ⟨hi1, hi2⟩ := hi
      simp only [run]
      generalize (step s op).1 = s' at e hI' hi2 ⊢
      generalize (step s op).2 = o at e
      cases e with
      | noop => exact ih _ hI' hc ha' hi2 hq h
      | grant r q e _ hq' hn hs =>
        refine ih _ hI' (by subst hs; exact hc) ha' hi2 ?_ (by subst hs; exact h)
        subst hs
        intro p hp
        simp only [List.mem_append, List.mem_singleton] at hp
        rcases hp with hp | hp
        · exact hq p hp
        · subst hp; exact hop
      | free r sl _ hg hob hs =>
        exact ih _ hI' (by subst hs; exact hc) ha' hi2
          (by subst hs; exact fun p hp => hq p ((List.mem_filter.mp hp).1)) (by subst hs; exact h)
      | taken r sl _ hg hs =>
        refine ih _ hI' (by subst hs; exact hc) ha' hi2
          (by subst hs; exact fun p hp => hq p ((List.mem_filter.mp hp).1)) ?_
        subst hs
        have := hq _ (Dict.mem_of_get? hg)
        cases cap with
        | none => trivial
        | some c => simp only [WithinCap] at h ⊢; linarith
      | put a inc _ hs hov =>
        refine ih _ hI' (by subst hs; exact hc) ha' hi2 (by subst hs; exact hq) ?_
        obtain ⟨he, hf⟩ : s.queued = [] ∧ inc = false := by simpa using hi1
        subst hs
        have hacc := hI.acc
        rw [he] at hacc
        simp only [qsum, List.map_nil, List.sum_nil] at hacc
        cases cap with
        | none => trivial
        | some c =>
          rw [hc] at hov
          rcases hov with hov | hov
          · simp [hov] at hf
          · simp only [over, decide_eq_false_iff_not, not_lt] at hov
            simp only [WithinCap]; linarith
      | tick t _ h1 h2 hs =>
        exact ih _ hI' (by subst hs; exact hc) ha' hi2 (by subst hs; exact hq) (by subst hs; exact h)
      | fireFree t ts sl _ ht hb hg hob hs =>
        exact ih _ hI' (by subst hs; exact hc) ha' hi2
          (by subst hs; exact fun p hp => hq p ((List.mem_filter.mp hp).1)) (by subst hs; exact h)
      | fireMiss t ts _ ht hb hg hs =>
        exact ih _ hI' (by subst hs; exact hc) ha' hi2 (by subst hs; exact hq) (by subst hs; exact h)
      | fireRaise t ts _ ht hc' hs =>
        exact ih _ hI' (by subst hs; exact hc) ha' hi2 (by subst hs; exact hq) (by subst hs; exact h)
  exact key ops _ (inv_init cap lvl t) rfl ha hi (by simp [init]) hl

example : PutsWhenIdle (init (some 10) 9 0)
    [.put 1 false, .reserve ⟨1, 1⟩ 5 none, .take ⟨1, 1⟩, .put 3 false] = true := by decide +kernel

/-- **C03 (no needless refusal).** With non-negative amounts a deposit is refused only if it would bring
the stock above the capacity, and only if it does not force the capacity; a refused deposit changes
nothing. -/
theorem c03_refused_only_if_full (cap : Option Rat) (lvl t : Rat) (ops : List Op) (hl : 0 ≤ lvl)
    (ha : AmountsNonneg ops) (a : Rat) (inc : Bool) :
    let s := (run (init cap lvl t) ops).1
    (step s (.put a inc)).2 = .raised →
      inc = false ∧ (∃ c, cap = some c ∧ c < s.real + a) ∧ (step s (.put a inc)).1 = s := by
  intro s hr
  have hn := (c01_nonneg cap lvl t ops hl ha).2.2
  have hI : Inv s := inv_run (inv_init cap lvl t) ops
  have hcap : s.capacity = cap := by
    refine run_induct (P := fun s => s.capacity = cap) ?_ rfl ops
    intro s op s' o h e
    have hs : s'.capacity = s.capacity := by
      cases e <;> first | rfl | (rename_i hs; rw [hs]) | (rename_i hs _; rw [hs])
    exact hs.trans h
  have hq : 0 ≤ qsum s.queued := by
    have : ∀ d : Dict Nat Slot, (∀ p ∈ d, 0 ≤ p.2.qty) → 0 ≤ qsum d := by
      intro d
      induction d with
      | nil => intro _; simp [qsum]
      | cons p d ih =>
        intro hd
        have h1 := ih (fun x hx => hd x (List.mem_cons_of_mem _ hx))
        have h2 := hd p (List.mem_cons_self ..)
        simp only [qsum, List.map_cons, List.sum_cons] at h1 ⊢
        linarith
    exact this _ hn
  have hacc := hI.acc
  simp only [step, put] at hr ⊢
  split at hr
  · rename_i hc
    rw [if_pos hc]
    simp only [Bool.and_eq_true, Bool.not_eq_true'] at hc
    refine ⟨hc.2, ?_, rfl⟩
    rw [hcap] at hc
    cases cap with
    | none => simp [over] at hc
    | some c =>
      simp only [over, decide_eq_true_eq] at hc
      exact ⟨c, rfl, by linarith [hc.1]⟩
  · simp at hr

/-- A deposit that would overflow is refused; one that fills the container is not. -/
example : (step (init (some 10) 9 0) (.put 2 false)).2 = .raised ∧
    (step (init (some 10) 9 0) (.put 1 false)).2 = .unit := by decide +kernel

/-! ## C04 -/

/-- **C04 is false of the code.** The requester's first, timed, reservation was taken; its second one has
no expiration, yet the first one's timer cancels it. -/
theorem c04_stale_timer_cancels_later :
    let tr := run (init none 10 0)
      [.reserve ⟨1, 1⟩ 5 (some 10), .tick 2, .take ⟨1, 1⟩, .reserve ⟨1, 1⟩ 3 none, .fire]
    tr.2.map (·.2) = [.bool true, .unit, .amt 5, .bool true, .expired 1 true] ∧
    (1 : Nat) ∉ tr.1.queued.keys ∧ (step tr.1 (.take ⟨1, 1⟩)).2 = .raised := by decide +kernel

/-- Each reservation is made while no expiry timer of the same requester is pending. -/
def NoStale : St → List Op → Bool
  | _, [] => true
  | s, op :: ops =>
    (match op with
      | .reserve r _ _ => s.timers.all (fun t => decide (t.req.key ≠ r.key))
      | _ => true) && NoStale (step s op).1 ops

/-- The expiry instant of a reservation made at `t` lies after `now` (never, without expiration). -/
def NotYetDue (t now : Rat) : Option Rat → Prop
  | none => True
  | some e => now < t + e

/-- The requester with key `k` neither takes nor cancels in the history. -/
def LeavesAlone (k : Nat) (ops : List Op) : Prop :=
  ∀ op ∈ ops, ∀ r, (op = .take r ∨ op = .cancel r) → r.key ≠ k

/-- **C04, the part that holds (not too early).** In every history where nobody reserves while an older
timer of the same requester is pending, a granted reservation stays outstanding, with its quantity, until
its own expiry time: nothing but the requester or its own timer ends it.
Missing for the full statement: re-reserving while an old timer is pending (false, see
`c04_stale_timer_cancels_later`). -/
theorem c04_not_cancelled_early_partial (cap : Option Rat) (lvl t : Rat) (pre post : List Op) (r : Req)
    (q : Rat) (e : Option Rat)
    (hs : NoStale (run (init cap lvl t) pre).1 (.reserve r q e :: post))
    (hg : (step (run (init cap lvl t) pre).1 (.reserve r q e)).2 = .bool true)
    (hl : LeavesAlone r.key post)
    (hd : NotYetDue (run (init cap lvl t) pre).1.now
      (run (step (run (init cap lvl t) pre).1 (.reserve r q e)).1 post).1.now e) :
    (run (step (run (init cap lvl t) pre).1 (.reserve r q e)).1 post).1.queued.get? r.key =
      some ⟨r.obj, q, (run (init cap lvl t) pre).1.now⟩ := by
  have hT := timersOK_run cap lvl t pre
  generalize (run (init cap lvl t) pre).1 = s0 at *
  have key : ∀ (ops : List Op) (s : St), TimersOK s → NoStale s ops → LeavesAlone r.key ops →
      (s.queued.get? r.key = some ⟨r.obj, q, s0.now⟩ ∧
        ∀ u ∈ s.timers, u.req.key = r.key → ∃ x, e = some x ∧ s0.now + x ≤ u.due) →
      NotYetDue s0.now (run s ops).1.now e →
      (run s ops).1.queued.get? r.key = some ⟨r.obj, q, s0.now⟩ := by
    intro ops
    induction ops with
    | nil => intro s _ _ _ h _; exact h.1
    | cons op ops ih =>
      intro s hT hst hl ⟨h1, h2⟩ hd
      simp only [run] at hd ⊢
      have ef := step_eff s op
      have hT' := timersOK_step hT ef
      simp only [NoStale, Bool.and_eq_true] at hst
      obtain ⟨hst1, hst2⟩ := hst
      have hl' : LeavesAlone r.key ops := fun o ho => hl o (List.mem_cons_of_mem _ ho)
      have hlo := hl op (List.mem_cons_self ..)
      generalize (step s op).1 = s' at ef hT' hst2 hd ⊢
      generalize (step s op).2 = o at ef
      -- the clock never runs back
      have mono : s'.now ≤ (run s' ops).1.now := by
        have : ∀ (ops : List Op) (s : St), TimersOK s → s.now ≤ (run s ops).1.now := by
          intro ops
          induction ops with
          | nil => intro s _; exact le_refl _
          | cons op ops ih =>
            intro s hs
            have := timersOK_step hs (step_eff s op)
            exact le_trans this.2 (ih _ this.1)
        exact this ops s' hT'.1
      -- if a timer of this requester fired, the reservation is already due
      have fired : ∀ u ∈ s.timers, u.req.key = r.key → s'.now = u.due → False := by
        intro u hu hk hnow
        obtain ⟨x, hx, hdue⟩ := h2 u hu hk
        subst hx
        simp only [NotYetDue] at hd
        linarith
      cases ef with
      | noop => exact ih _ hT hst2 hl' ⟨h1, h2⟩ hd
      | grant r2 q2 e2 _ hq hn hs =>
        refine ih _ hT'.1 hst2 hl' ⟨?_, ?_⟩ hd
        · subst hs
          simp only [get?_append_new hn]
          split
          · rename_i hk; rw [hk] at hn; simp [hn] at h1
          · exact h1
        · subst hs
          intro u hu hk
          simp only [List.mem_append] at hu
          rcases hu with hu | hu
          · exact h2 u hu hk
          · cases e2 with
            | none => simp at hu
            | some e2 =>
              simp at hu; subst hu
              simp only at hk; rw [hk] at hn; simp [hn] at h1
      | free r2 sl _ hg hob hs =>
        refine ih _ hT'.1 hst2 hl' ?_ hd
        subst hs
        exact ⟨by simp only [Dict.get?_del_ne _ (hlo r2 (Or.inr rfl))]; exact h1, h2⟩
      | taken r2 sl _ hg hs =>
        refine ih _ hT'.1 hst2 hl' ?_ hd
        subst hs
        exact ⟨by simp only [Dict.get?_del_ne _ (hlo r2 (Or.inl rfl))]; exact h1, h2⟩
      | put a inc _ hs hc =>
        refine ih _ hT'.1 hst2 hl' ?_ hd
        subst hs; exact ⟨h1, h2⟩
      | tick t _ h1' h2' hs =>
        refine ih _ hT'.1 hst2 hl' ?_ hd
        subst hs; exact ⟨h1, h2⟩
      | fireFree u ts sl _ ht hb hg hob hs =>
        have hp := nextTimer_perm ht
        have hu : u ∈ s.timers := (hp.1 u).mpr (Or.inl rfl)
        by_cases hk : u.req.key = r.key
        · exact (fired u hu hk (by subst hs; rfl)).elim
        · refine ih _ hT'.1 hst2 hl' ?_ hd
          subst hs
          exact ⟨by simp only [Dict.get?_del_ne _ hk]; exact h1,
            fun v hv => h2 v ((hp.1 v).mpr (Or.inr hv))⟩
      | fireMiss u ts _ ht hb hg hs =>
        have hp := nextTimer_perm ht
        refine ih _ hT'.1 hst2 hl' ?_ hd
        subst hs
        exact ⟨h1, fun v hv => h2 v ((hp.1 v).mpr (Or.inr hv))⟩
      | fireRaise u ts _ ht hc hs =>
        have hp := nextTimer_perm ht
        refine ih _ hT'.1 hst2 hl' ?_ hd
        subst hs
        exact ⟨h1, fun v hv => h2 v ((hp.1 v).mpr (Or.inr hv))⟩
  have hc := c02_grant_iff s0 r q e
  have hn := Dict.get?_eq_none_iff.mpr (hc.1.mp hg).2
  simp only [NoStale, Bool.and_eq_true] at hs
  have hno : ∀ t ∈ s0.timers, t.req.key ≠ r.key := by simpa using hs.1
  refine key post _ (timersOK_step hT (step_eff s0 _)).1 hs.2 hl ⟨?_, ?_⟩ hd
  · rw [(hc.2.1 hg).2.2, get?_append_new hn]; simp
  · intro u hu hk
    have ef := step_eff s0 (.reserve r q e)
    rw [hg] at ef
    generalize (step s0 (.reserve r q e)).1 = s1 at ef hu
    cases ef with
    | noop _ _ hb hp hgr => exact absurd rfl (hgr r q e rfl)
    | grant _ _ _ _ _ _ hss =>
      subst hss
      simp only [List.mem_append] at hu
      rcases hu with hu | hu
      · exact absurd hk (hno u hu)
      · cases e with
        | none => simp at hu
        | some x =>
          simp at hu; subst hu
          exact ⟨x, rfl, by simp⟩

/-- **C04 (not too late), full strength.** In *every* history, a reservation granted with a non-negative
expiration is gone once the clock has passed its expiry time, unless the requester made a new one. -/
theorem c04_expires_on_time (cap : Option Rat) (lvl t : Rat) (pre post : List Op) (r : Req)
    (q e : Rat) (he : 0 ≤ e)
    (hg : (step (run (init cap lvl t) pre).1 (.reserve r q (some e))).2 = .bool true)
    (hno : ∀ op ∈ post, ∀ r' q' e', op = .reserve r' q' e' → r'.key ≠ r.key)
    (hd : (run (init cap lvl t) pre).1.now + e <
      (run (step (run (init cap lvl t) pre).1 (.reserve r q (some e))).1 post).1.now) :
    r.key ∉ (run (step (run (init cap lvl t) pre).1 (.reserve r q (some e))).1 post).1.queued.keys := by
  have hT := timersOK_run cap lvl t pre
  generalize (run (init cap lvl t) pre).1 = s0 at *
  rw [← Dict.get?_eq_none_iff]
  have key : ∀ (ops : List Op) (s : St), TimersOK s →
      (∀ op ∈ ops, ∀ r' q' e', op = .reserve r' q' e' → r'.key ≠ r.key) →
      (s.queued.get? r.key = none ∨ ∃ sl u, s.queued.get? r.key = some sl ∧ u ∈ s.timers ∧
        u.req.key = r.key ∧ u.req.obj = sl.obj ∧ u.due = s0.now + e ∧ u.bad = false) →
      s0.now + e < (run s ops).1.now → (run s ops).1.queued.get? r.key = none := by
    intro ops
    induction ops with
    | nil =>
      intro s hT _ h hlt
      simp only [run] at hlt ⊢
      rcases h with h | ⟨sl, u, h1, h2, h3, h4, h5, h6⟩
      · exact h
      · have := hT u h2; linarith
    | cons op ops ih =>
      intro s hT hno h hd
      simp only [run] at hd ⊢
      have ef := step_eff s op
      have hT' := timersOK_step hT ef
      have hno' : ∀ op ∈ ops, ∀ r' q' e', op = .reserve r' q' e' → r'.key ≠ r.key :=
        fun o ho => hno o (List.mem_cons_of_mem _ ho)
      have hop := hno op (List.mem_cons_self ..)
      generalize (step s op).1 = s' at ef hT' hd ⊢
      generalize (step s op).2 = o at ef
      have del_case : ∀ k, (s.queued.get? r.key = none ∨ ∃ sl u, s.queued.get? r.key = some sl ∧
          u ∈ s.timers ∧ u.req.key = r.key ∧ u.req.obj = sl.obj ∧ u.due = s0.now + e ∧ u.bad = false) →
          (Dict.get? (s.queued.del k) r.key = none ∨ ∃ sl u, (s.queued.del k).get? r.key = some sl ∧
          u ∈ s.timers ∧ u.req.key = r.key ∧ u.req.obj = sl.obj ∧ u.due = s0.now + e ∧ u.bad = false)
          := by
        intro k h
        by_cases hk : k = r.key
        · left; rw [hk]; simp
        · simpa only [Dict.get?_del_ne _ hk] using h
      cases ef with
      | noop => exact ih _ hT hno' h hd
      | grant r2 q2 e2 _ hq hn hs =>
        refine ih _ hT'.1 hno' ?_ hd
        subst hs
        have hk := hop r2 q2 e2 rfl
        simp only [get?_append_new hn, hk, ↓reduceIte]
        rcases h with h | ⟨sl, u, h1, h2, h3⟩
        · exact Or.inl h
        · exact Or.inr ⟨sl, u, h1, List.mem_append_left _ h2, h3⟩
      | free r2 sl _ hg hob hs =>
        refine ih _ hT'.1 hno' ?_ hd
        subst hs; exact del_case _ h
      | taken r2 sl _ hg hs =>
        refine ih _ hT'.1 hno' ?_ hd
        subst hs; exact del_case _ h
      | put a inc _ hs hc => subst hs; exact ih _ hT'.1 hno' h hd
      | tick t _ h1' h2' hs => subst hs; exact ih _ hT'.1 hno' h hd
      | fireFree v ts sl _ ht hb hg hob hs =>
        have hp := nextTimer_perm ht
        refine ih _ hT'.1 hno' ?_ hd
        subst hs
        by_cases hk : v.req.key = r.key
        · left; simp only [hk]; simp
        · simp only [Dict.get?_del_ne _ hk]
          rcases h with h | ⟨sl, u, h1, h2, h3, h4⟩
          · exact Or.inl h
          · refine Or.inr ⟨sl, u, h1, ?_, h3, h4⟩
            rcases (hp.1 u).mp h2 with rfl | h
            · exact absurd h3 hk
            · exact h
      | fireMiss v ts _ ht hb hg hs =>
        have hp := nextTimer_perm ht
        refine ih _ hT'.1 hno' ?_ hd
        subst hs
        rcases h with h | ⟨sl, u, h1, h2, h3, h4⟩
        · exact Or.inl h
        · refine Or.inr ⟨sl, u, h1, ?_, h3, h4⟩
          rcases (hp.1 u).mp h2 with rfl | h
          · rw [h3, h1] at hg; cases hg
          · exact h
      | fireRaise v ts _ ht hc hs =>
        have hp := nextTimer_perm ht
        refine ih _ hT'.1 hno' ?_ hd
        subst hs
        rcases h with h | ⟨sl, u, h1, h2, h3, h4, h5, h6⟩
        · exact Or.inl h
        · refine Or.inr ⟨sl, u, h1, ?_, h3, h4, h5, h6⟩
          rcases (hp.1 u).mp h2 with rfl | h
          · rcases hc with hc | ⟨sl2, hc1, hc2⟩
            · simp [hc] at h6
            · rw [h3, h1] at hc1; cases hc1; exact absurd h4.symm hc2
          · exact h
  refine key post _ (timersOK_step hT (step_eff s0 _)).1 hno (Or.inr ?_) hd
  have hc := c02_grant_iff s0 r q (some e)
  have hn := Dict.get?_eq_none_iff.mpr (hc.1.mp hg).2
  refine ⟨⟨r.obj, q, s0.now⟩, ⟨s0.now + max 0 e, r, decide (e < 0)⟩, ?_, ?_, rfl, rfl, ?_, ?_⟩
  · rw [(hc.2.1 hg).2.2, get?_append_new hn]; simp
  · have hlt : ¬ s0.level < q := not_lt.mpr (hc.1.mp hg).1
    simp [step, reserve, available, hlt, Dict.has, hn]
  · simp only [max_eq_right he]
  · simp [he]

/-- The hypotheses of both C04 theorems are met by a non-trivial history: two timed reservations by
different requesters, the first taken, the second left to expire. -/
example :
    NoStale (run (init none 10 0) [.reserve ⟨2, 2⟩ 1 (some 3)]).1
      [.reserve ⟨1, 1⟩ 5 (some 10), .fire, .tick 9] ∧
    (run (step (run (init none 10 0) [.reserve ⟨2, 2⟩ 1 (some 3)]).1
      (.reserve ⟨1, 1⟩ 5 (some 10))).1 [.fire, .tick 9]).1.now = 9 ∧
    (run (step (run (init none 10 0) [.reserve ⟨2, 2⟩ 1 (some 3)]).1
      (.reserve ⟨1, 1⟩ 5 (some 10))).1 [.fire, .fire, .tick 20]).1.now = 20 := by
  decide +kernel

end Verif.Reserve
