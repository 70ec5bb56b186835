import Verif.Store.Lemmas
import Mathlib.Data.List.Chain
import Mathlib.Data.List.Perm.Basic

/-!
# Properties C05 (sorted store), C06 (store monitoring), C39 (no item lost)
-/

namespace Verif.Store

variable {ι γ ν κ : Type}

/-! ## C05 -/

/-- Python's `==` on the items of the list is identity. -/
def EqIsIdentity (eqv : ι → ι → Bool) (items : List ι) : Prop :=
  ∀ a ∈ items, ∀ b ∈ items, (eqv a b = true ↔ a = b)

/-- **C05, soundness (all contents, filters, keys, directions; items may be falsy).** Whatever a sorted
get hands out is the first best matching item, and exactly that item leaves the store. -/
theorem c05_returns_first_best [LinearOrder κ] (eqv : ι → ι → Bool) (truthy : ι → Bool) (r : SReq ι κ)
    (key : ι → κ) (hk : r.sorter = some key) (items : List ι) (he : EqIsIdentity eqv items) (x : ι)
    (rest : List ι) (h : sortedSel eqv truthy r items = some (x, rest)) :
    FirstBest r.filter key r.reverse items x rest := by
  unfold sortedSel at h
  rcases scan_sorted r key hk items with ⟨h1, _⟩ | ⟨pre, y, post, h1, h2, h3, h4, h5⟩
  · simp [h1] at h
  · simp only [h2] at h
    split at h
    · simp only [Option.some.injEq, Prod.mk.injEq] at h
      obtain ⟨rfl, rfl⟩ := h
      refine ⟨pre, post, h1, ?_, h3, h4, h5⟩
      have hy : y ∈ items := by rw [h1]; simp
      rw [h1]
      apply removeFirst_split
      · exact (he y hy y hy).mpr rfl
      · intro z hz
        have hz' : z ∈ items := by rw [h1]; simp [hz]
        rw [← Bool.not_eq_true, he z hz' y hy]
        rintro rfl
        have := h4 z hz h3
        unfold Lt at this; split at this <;> exact lt_irrefl _ this
    · cases h

/-- **C05, soundness without a sorter.** -/
theorem c05_returns_first_match [LinearOrder κ] (eqv : ι → ι → Bool) (truthy : ι → Bool) (r : SReq ι κ)
    (hk : r.sorter = none) (items : List ι) (he : EqIsIdentity eqv items) (x : ι) (rest : List ι)
    (h : sortedSel eqv truthy r items = some (x, rest)) : FirstMatch r.filter items x rest := by
  unfold sortedSel at h
  rcases scan_unsorted r hk items with ⟨h1, _⟩ | ⟨pre, y, post, h1, h2, h3, h4⟩
  · simp [h1] at h
  · simp only [h2] at h
    split at h
    · simp only [Option.some.injEq, Prod.mk.injEq] at h
      obtain ⟨rfl, rfl⟩ := h
      refine ⟨pre, post, h1, ?_, h3, h4⟩
      have hy : y ∈ items := by rw [h1]; simp
      rw [h1]
      apply removeFirst_split
      · exact (he y hy y hy).mpr rfl
      · intro z hz
        have hz' : z ∈ items := by rw [h1]; simp [hz]
        rw [← Bool.not_eq_true, he z hz' y hy]
        rintro rfl
        simp [h4 z hz] at h3
    · cases h

/-- **C05, completeness (partial).** If all matching items are truthy, a request is served exactly when
some stored item matches. Missing for the full statement: falsy items (false, see
`c05_falsy_item_never_served`). -/
theorem c05_served_iff_partial [LinearOrder κ] (eqv : ι → ι → Bool) (truthy : ι → Bool) (r : SReq ι κ)
    (items : List ι) (ht : ∀ y ∈ items, r.filter y = true → truthy y = true) :
    (∃ x rest, sortedSel eqv truthy r items = some (x, rest)) ↔ ∃ y ∈ items, r.filter y = true := by
  have common : ∀ {P : Prop}, ((scan r items none none = none ∧ ∀ y ∈ items, r.filter y = false) ∨
      (∃ pre x post, items = pre ++ x :: post ∧ scan r items none none = some x ∧ r.filter x = true
        ∧ P)) ∨ (scan r items none none = none ∧ ∀ y ∈ items, r.filter y = false) ∨
      (∃ pre x post, items = pre ++ x :: post ∧ scan r items none none = some x ∧ r.filter x = true) →
      ((∃ x rest, sortedSel eqv truthy r items = some (x, rest)) ↔ ∃ y ∈ items, r.filter y = true) := by
    intro P h
    have h' : (scan r items none none = none ∧ ∀ y ∈ items, r.filter y = false) ∨
      (∃ pre x post, items = pre ++ x :: post ∧ scan r items none none = some x ∧
        r.filter x = true) := by
      rcases h with (h | ⟨a, b, c, d, e, f, _⟩) | h
      · exact Or.inl h
      · exact Or.inr ⟨a, b, c, d, e, f⟩
      · exact h
    unfold sortedSel
    rcases h' with ⟨h1, h2⟩ | ⟨pre, x, post, h1, h2, h3⟩
    · simp only [h1, reduceCtorEq, exists_false, false_iff, not_exists, not_and]
      intro y hy; simp [h2 y hy]
    · have hx : x ∈ items := by rw [h1]; simp
      simp only [h2, ht x hx h3, ↓reduceIte, Option.some.injEq, Prod.mk.injEq]
      exact ⟨fun _ => ⟨x, hx, h3⟩, fun _ => ⟨x, _, rfl, rfl⟩⟩
  rcases hk : r.sorter with _ | key
  · refine common (P := True) (Or.inr ?_)
    rcases scan_unsorted r hk items with h | ⟨pre, x, post, h1, h2, h3, _⟩
    · exact Or.inl h
    · exact Or.inr ⟨pre, x, post, h1, h2, h3⟩
  · refine common (P := True) (Or.inr ?_)
    rcases scan_sorted r key hk items with h | ⟨pre, x, post, h1, h2, h3, _⟩
    · exact Or.inl h
    · exact Or.inr ⟨pre, x, post, h1, h2, h3⟩

/-- Identity on integers; Python's truth value of a number. -/
def intEq (a b : Int) : Bool := decide (a = b)
/-- Python truth value of an integer. -/
def intTruthy (a : Int) : Bool := decide (a ≠ 0)

example : sortedSel intEq intTruthy (κ := Int) ⟨fun x => decide (x < 9), some (fun x => x % 4), true⟩
    [5, 3, 10, 7, 8] = some (3, [5, 10, 7, 8]) ∧ EqIsIdentity intEq [5, 3, 10, 7, 8] := by
  refine ⟨by decide, ?_⟩
  intro a _ b _; simp [intEq]

/-- **C05 is false of the code for falsy items.** The store holds the item `0`, which matches and is the
best; the request is not served, and neither is any other matching item. -/
theorem c05_falsy_item_never_served :
    sortedSel intEq intTruthy (κ := Int) ⟨fun _ => true, some id, false⟩ [4, 0, 7] = none ∧
    sortedSel intEq intTruthy (κ := Int) ⟨fun x => decide (x = 0), none, false⟩ [0] = none := by decide

/-- **C05 is false of the code for items that are `==` but distinct.** Items are pairs (identity, payload),
compared by payload only; the get hands out the item with the smaller sort key but removes the other one,
so an item is lost and the other is in two places. -/
theorem c05_equal_items_confused :
    sortedSel (fun a b : Nat × Nat => decide (a.2 = b.2)) (fun _ => true) (κ := Nat)
      ⟨fun _ => true, some (·.1), false⟩ [(2, 7), (1, 7)] = some ((1, 7), [(1, 7)]) := by decide

/-- `FilterGet`: served iff some item matches, with the first match, the others kept in order. -/
theorem c05_filter_get (eqv : ι → ι → Bool) (f : ι → Bool) (items : List ι)
    (he : EqIsIdentity eqv items) :
    (∀ x rest, filterSel eqv f items = some (x, rest) → FirstMatch f items x rest) ∧
    (filterSel eqv f items = none ↔ ∀ y ∈ items, f y = false) := by
  constructor
  · intro x rest h
    unfold filterSel at h
    split at h
    · cases h
    · rename_i y hy
      simp only [Option.some.injEq, Prod.mk.injEq] at h
      obtain ⟨rfl, rfl⟩ := h
      obtain ⟨h1, pre, post, h2, h3⟩ := List.find?_eq_some_iff_append.mp hy
      have hmem : y ∈ items := by rw [h2]; simp
      have h3' : ∀ z ∈ pre, f z = false := fun z hz => by simpa using h3 z hz
      refine ⟨pre, post, h2, ?_, h1, h3'⟩
      rw [h2]
      apply removeFirst_split
      · exact (he y hmem y hmem).mpr rfl
      · intro z hz
        have hz' : z ∈ items := by rw [h2]; simp [hz]
        rw [← Bool.not_eq_true, he z hz' y hmem]
        rintro rfl
        simp [h3' z hz] at h1
  · unfold filterSel
    cases h : items.find? f with
    | none => simp only [true_iff]; simpa using List.find?_eq_none.mp h
    | some y =>
      simp only [reduceCtorEq, false_iff, not_forall, Bool.not_eq_false]
      exact ⟨y, List.mem_of_find?_eq_some h, List.find?_some h⟩

/-! ## C06 (stores) -/

section
variable [DecidableEq ν]

/-- **C06 (stores).** After any history of puts, gets, interruptions, kernel steps and clock advances, on
any kind of store and any recording function: the log is in time order, never repeats a value
consecutively, ends with the current quantity, and at *every* instant it attributes the quantity the store
really had (the last one observed up to that instant). -/
theorem c06_store_log (c : Cfg ι γ ν) (cap : Option Nat) (t0 : Rat) (ops : List (Op ι γ)) :
    let s := run c (init c cap t0) ops
    Log.Ordered s.log ∧ s.log.IsChain (fun a b => a.2 ≠ b.2) ∧
    s.log.getLast?.map (·.2) = some (c.itemFunc s.items) ∧
    ∀ t, Log.lookup s.log t = Log.lookup (snapshots c (init c cap t0) ops) t := by
  have key : ∀ (ops : List (Op ι γ)) (s : St ι γ ν) (snaps : List (Rat × ν)),
      Log.Faithful s.log (snaps ++ [(s.now, c.itemFunc s.items)]) s.now (c.itemFunc s.items) →
      ∃ snaps', snaps' = snaps ++ snapshots c s ops ∧
        Log.Faithful (run c s ops).log snaps' (run c s ops).now
          (c.itemFunc (run c s ops).items) := by
    intro ops
    induction ops with
    | nil => intro s snaps h; exact ⟨_, rfl, h⟩
    | cons op ops ih =>
      intro s snaps h
      have hst := step_log c s op h.cur
      obtain ⟨e, he1, he2⟩ := hst.2.1
      have h' := h.extend hst.1 (ext := e) he2 (v' := c.itemFunc (step c s op).items)
        (by rw [← he1]; exact hst.2.2)
      rw [← he1] at h'
      obtain ⟨snaps', h1, h2⟩ := ih (step c s op) (snaps ++ [(s.now, c.itemFunc s.items)]) h'
      refine ⟨snaps', ?_, h2⟩
      rw [h1]; simp [snapshots]
  obtain ⟨snaps', h1, h2⟩ := key ops (init c cap t0) [] (Log.Faithful.start _ _)
  simp only [List.nil_append] at h1
  refine ⟨h2.ordered, ?_, h2.cur, ?_⟩
  · refine run_induct c (P := fun s => s.log.IsChain (fun a b => a.2 ≠ b.2)) ?_
      (s := init c cap t0) (List.IsChain.singleton _) ops
    have hrec : ∀ s : St ι γ ν, s.log.IsChain (fun a b => a.2 ≠ b.2) →
        (record c s).log.IsChain (fun a b => a.2 ≠ b.2) := by
      intro s h
      unfold record
      simp only
      split
      · rename_i hne
        rw [List.isChain_append]
        refine ⟨h, by simp, ?_⟩
        intro x hx y hy
        simp at hy; subst hy
        intro he
        apply hne
        rw [Option.mem_def] at hx
        simp [hx, he]
      · exact h
    have hput : ∀ s : St ι γ ν, s.log.IsChain (fun a b => a.2 ≠ b.2) →
        (trigPut c s).log.IsChain (fun a b => a.2 ≠ b.2) := by
      intro s h
      unfold trigPut
      split
      · exact hrec _ h
      · split
        · exact hrec _ (hrec _ h)
        · exact hrec _ h
    have hloop : ∀ (q : List (Nat × γ)) (s : St ι γ ν), s.log.IsChain (fun a b => a.2 ≠ b.2) →
        (getLoop c q s).2.log.IsChain (fun a b => a.2 ≠ b.2) := by
      intro q
      induction q with
      | nil => intro s h; exact h
      | cons p q ih =>
        intro s h
        obtain ⟨i, g⟩ := p
        simp only [getLoop]
        split
        · split
          · exact ih _ (hrec _ h)
          · exact hrec _ h
        · split
          · exact ih _ h
          · exact h
    have hget : ∀ s : St ι γ ν, s.log.IsChain (fun a b => a.2 ≠ b.2) →
        (trigGet c s).log.IsChain (fun a b => a.2 ≠ b.2) := by
      intro s h
      exact hrec _ (hloop _ _ h)
    intro s op h
    cases op with
    | put x => exact hput _ h
    | get g => exact hget _ h
    | interrupt id => exact h
    | process =>
      simp only [step, doProcess]
      split
      · exact h
      · exact hget _ h
      · split <;> exact hput _ h
    | advance t =>
      simp only [step, doAdvance]
      split <;> exact h
  · intro t; rw [h2.same, h1]

/-- A plain FIFO store of numbers, recording its length. -/
def fifoCfg : Cfg Nat Unit Nat := ⟨fifoSel, false, List.length⟩

example : (run fifoCfg (init fifoCfg (some 2) 0)
    [.put 5, .put 6, .process, .advance 1, .process, .advance 3, .put 7, .get (), .process, .process]).log
    = [(0, 0), (0, 1), (0, 2), (3, 1), (3, 2)] := by decide +kernel

end

/-! ## C39 -/

section
variable [DecidableEq ν]

/-- Items of gets that are triggered but whose task has not been resumed yet. -/
def onTheirWay (s : St ι γ ν) : List ι := (inflight s.evq).map (·.2)

/-- **C39 (conservation), full strength.** In every history, each item that entered the store is in
exactly one place: in the store, on its way to a task, received by a task, or lost. -/
theorem c39_conservation [DecidableEq ι] (c : Cfg ι γ ν) (hsel : SelPerm c) (cap : Option Nat) (t0 : Rat)
    (ops : List (Op ι γ)) :
    let s := run c (init c cap t0) ops
    (s.accepted.map (·.2)).Perm
      (s.items ++ onTheirWay s ++ s.delivered.map (·.2) ++ s.lost.map (·.2)) := by
  refine run_induct c (P := fun s => (s.accepted.map (·.2)).Perm
      (s.items ++ onTheirWay s ++ s.delivered.map (·.2) ++ s.lost.map (·.2))) ?_
      (by simp [init, onTheirWay, inflight]) ops
  have hput : ∀ s : St ι γ ν, (s.accepted.map (·.2)).Perm
      (s.items ++ onTheirWay s ++ s.delivered.map (·.2) ++ s.lost.map (·.2)) →
      ((trigPut c s).accepted.map (·.2)).Perm
      ((trigPut c s).items ++ onTheirWay (trigPut c s) ++ (trigPut c s).delivered.map (·.2) ++
        (trigPut c s).lost.map (·.2)) := by
    intro s h
    have e := trigPut_eff c s
    generalize trigPut c s = s' at e ⊢
    cases e with
    | none h' => rw [h']; exact h
    | one i x q hq hr h' =>
      rw [h']
      rw [List.perm_iff_count] at h ⊢
      intro a
      have := h a
      simp only [onTheirWay, List.map_append, List.count_append, inflight_append, inflight,
        List.append_nil, List.map_cons, List.map_nil] at this ⊢
      omega
  have hget : ∀ s : St ι γ ν, (s.accepted.map (·.2)).Perm
      (s.items ++ onTheirWay s ++ s.delivered.map (·.2) ++ s.lost.map (·.2)) →
      ((trigGet c s).accepted.map (·.2)).Perm
      ((trigGet c s).items ++ onTheirWay (trigGet c s) ++ (trigGet c s).delivered.map (·.2) ++
        (trigGet c s).lost.map (·.2)) := by
    intro s h
    obtain ⟨served, h1, h2, h3, _, _⟩ := trigGet_eff c s
    generalize trigGet c s = s' at *
    have h3 := h3 hsel
    rw [List.perm_iff_count] at h h3 ⊢
    intro a
    have ha := h a
    have h3a := h3 a
    have e1 : s'.accepted = s.accepted := by rw [h1]
    have e2 : s'.delivered = s.delivered := by rw [h1]
    have e3 : s'.lost = s.lost := by rw [h1]
    simp only [onTheirWay, h2, e1, e2, e3, inflight_append, inflight_got, List.map_append,
      List.count_append] at ha h3a ⊢
    omega
  intro s op h
  cases op with
  | put x => exact hput (enqPut s x) h
  | get g => exact hget (enqGet s g) h
  | interrupt id => exact h
  | process =>
    simp only [step, doProcess]
    split
    · exact h
    · rename_i i q hq
      exact hget { s with evq := q } (by simpa [onTheirWay, hq, inflight] using h)
    · rename_i i x q hq
      -- count the processed item apart
      have hc : ∀ a, List.count a ((trigPut c { s with evq := q }).accepted.map (·.2)) =
          List.count a ((trigPut c { s with evq := q }).items ++
            onTheirWay (trigPut c { s with evq := q }) ++
            (trigPut c { s with evq := q }).delivered.map (·.2) ++
            (trigPut c { s with evq := q }).lost.map (·.2)) + List.count a [x] := by
        intro a
        have ha := (List.perm_iff_count.mp h) a
        have e := trigPut_eff c { s with evq := q }
        generalize trigPut c { s with evq := q } = s' at e ⊢
        cases e with
        | none h' =>
          rw [h']
          simp only [onTheirWay, hq, inflight, List.map_cons, List.count_append] at ha ⊢
          rw [← List.singleton_append, List.count_append] at ha
          omega
        | one i x' q' hq' hr h' =>
          rw [h']
          simp only [onTheirWay, hq, inflight, List.map_cons, List.count_append, inflight_append,
            List.map_append, List.map_nil, List.append_nil] at ha ⊢
          rw [← List.singleton_append, List.count_append] at ha
          omega
      rw [List.perm_iff_count]
      split
      · intro a
        have := hc a
        simp only [onTheirWay, List.map_append, List.count_append, List.map_cons, List.map_nil]
          at this ⊢
        omega
      · intro a
        have := hc a
        simp only [onTheirWay, List.map_append, List.count_append, List.map_cons, List.map_nil]
          at this ⊢
        omega
  | advance t =>
    simp only [step, doAdvance]
    split <;> exact h

/-- All three kinds of get used by the library satisfy the selection hypothesis. -/
theorem fifo_selPerm (f : List ι → ν) : SelPerm (⟨fifoSel, false, f⟩ : Cfg ι Unit ν) := by
  intro g items x rest h
  cases items with
  | nil => simp [fifoSel] at h
  | cons a items =>
    simp only [fifoSel, Option.some.injEq, Prod.mk.injEq] at h
    obtain ⟨rfl, rfl⟩ := h
    exact List.Perm.refl _

/-- The same for filter gets when `==` is identity. -/
theorem filter_selPerm [DecidableEq ι] (f : List ι → ν) :
    SelPerm (⟨filterSel (fun a b => decide (a = b)), true, f⟩ : Cfg ι (ι → Bool) ν) := by
  intro g items x rest h
  obtain ⟨pre, post, h1, h2, _⟩ :=
    (c05_filter_get (fun a b => decide (a = b)) g items (by intro a _ b _; simp)).1 x rest h
  subst h1 h2
  exact List.perm_middle

/-- The same for sorted gets when `==` is identity. -/
theorem sorted_selPerm [DecidableEq ι] [LinearOrder κ] (truthy : ι → Bool) (f : List ι → ν) :
    SelPerm (⟨sortedSel (κ := κ) (fun a b => decide (a = b)) truthy, true, f⟩ : Cfg ι (SReq ι κ) ν) := by
  intro g items x rest h
  have hid : EqIsIdentity (fun a b => decide (a = b)) items := by intro a _ b _; simp
  rcases hk : g.sorter with _ | key
  · obtain ⟨pre, post, h1, h2, _⟩ := c05_returns_first_match _ truthy g hk items hid x rest h
    subst h1 h2; exact List.perm_middle
  · obtain ⟨pre, post, h1, h2, _⟩ := c05_returns_first_best _ truthy g key hk items hid x rest h
    subst h1 h2; exact List.perm_middle

/-- **C39 is false of the code.** A task waiting on a `Get` is interrupted after the item was put but
before the kernel resumed the task: the cancellation does nothing and the item is gone, neither in the
store nor with any task. -/
theorem c39_item_lost :
    let s := run fifoCfg (init fifoCfg none 0) [.get (), .put 5, .process, .interrupt 0, .process]
    s.accepted = [(1, 5)] ∧ s.items = [] ∧ onTheirWay s = [] ∧ s.delivered = [] ∧ s.lost = [(0, 5)] := by
  decide +kernel

/-- No interrupt hits a get that is triggered but not yet processed. -/
def NoLateInterrupt (c : Cfg ι γ ν) : St ι γ ν → List (Op ι γ) → Bool
  | _, [] => true
  | s, op :: ops =>
    (match op with
      | .interrupt id => (inflight s.evq).all (fun p => decide (p.1 ≠ id))
      | _ => true) && NoLateInterrupt c (step c s op) ops

/-- **C39, the part that holds.** If no interrupt falls between the trigger and the processing of the
interrupted get, no item is ever lost: together with `c39_conservation`, every item that entered is in the
store, on its way, or received. Missing for the full statement: interrupts in that window (false, see
`c39_item_lost`). -/
theorem c39_no_loss_partial (c : Cfg ι γ ν) (cap : Option Nat) (t0 : Rat) (ops : List (Op ι γ))
    (h : NoLateInterrupt c (init c cap t0) ops = true) :
    (run c (init c cap t0) ops).lost = [] := by
  have key : ∀ (ops : List (Op ι γ)) (s : St ι γ ν), NoLateInterrupt c s ops = true →
      (s.lost = [] ∧ (∀ p ∈ inflight s.evq, p.1 ∈ s.waiting) ∧ ∀ p ∈ s.getQ, p.1 ∈ s.waiting) →
      (run c s ops).lost = [] := by
    intro ops
    induction ops with
    | nil => intro s _ h; exact h.1
    | cons op ops ih =>
      intro s hn ⟨h1, h2, h3⟩
      simp only [NoLateInterrupt, Bool.and_eq_true] at hn
      refine ih (step c s op) hn.2 ?_
      have hput : ∀ s : St ι γ ν, (s.lost = [] ∧ (∀ p ∈ inflight s.evq, p.1 ∈ s.waiting) ∧
          ∀ p ∈ s.getQ, p.1 ∈ s.waiting) → ((trigPut c s).lost = [] ∧
          (∀ p ∈ inflight (trigPut c s).evq, p.1 ∈ (trigPut c s).waiting) ∧
          ∀ p ∈ (trigPut c s).getQ, p.1 ∈ (trigPut c s).waiting) := by
        intro s h
        have e := trigPut_eff c s
        generalize trigPut c s = s' at e ⊢
        cases e with
        | none h' => rw [h']; exact h
        | one i x q hq hr h' =>
          rw [h']; simpa only [inflight_append, inflight, List.append_nil] using h
      have hget : ∀ s : St ι γ ν, (s.lost = [] ∧ (∀ p ∈ inflight s.evq, p.1 ∈ s.waiting) ∧
          ∀ p ∈ s.getQ, p.1 ∈ s.waiting) → ((trigGet c s).lost = [] ∧
          (∀ p ∈ inflight (trigGet c s).evq, p.1 ∈ (trigGet c s).waiting) ∧
          ∀ p ∈ (trigGet c s).getQ, p.1 ∈ (trigGet c s).waiting) := by
        intro s ⟨h1, h2, h3⟩
        obtain ⟨served, e1, e2, _, e4, e5⟩ := trigGet_eff c s
        generalize trigGet c s = s' at *
        have w : s'.waiting = s.waiting := by rw [e1]
        have l : s'.lost = s.lost := by rw [e1]
        refine ⟨by rw [l]; exact h1, ?_, ?_⟩
        · intro p hp
          rw [e2, inflight_append, inflight_got] at hp
          rw [w]
          rcases List.mem_append.mp hp with hp | hp
          · exact h2 p hp
          · have : p.1 ∈ s.getQ.map (·.1) :=
              e4.mem_iff.mpr (List.mem_append_left _ (List.mem_map.mpr ⟨p, hp, rfl⟩))
            obtain ⟨p', hp', he⟩ := List.mem_map.mp this
            rw [← he]; exact h3 p' hp'
        · intro p hp; rw [w]; exact h3 p (e5.subset hp)
      cases op with
      | put x =>
        refine hput (enqPut s x) ⟨h1, ?_, ?_⟩
        · intro p hp; exact List.mem_append_left _ (h2 p hp)
        · intro p hp; exact List.mem_append_left _ (h3 p hp)
      | get g =>
        refine hget (enqGet s g) ⟨h1, ?_, ?_⟩
        · intro p hp; exact List.mem_append_left _ (h2 p hp)
        · intro p hp
          simp only [enqGet, List.mem_append, List.mem_singleton] at hp ⊢
          rcases hp with hp | rfl
          · exact Or.inl (h3 p hp)
          · right; rfl
      | interrupt id =>
        have hg : ∀ p ∈ inflight s.evq, p.1 ≠ id := by simpa using hn.1
        refine ⟨h1, ?_, ?_⟩
        · intro p hp
          simp only [step, doInterrupt, List.mem_filter, ne_eq, decide_not, Bool.not_eq_eq_eq_not,
            Bool.not_true, decide_eq_false_iff_not]
          exact ⟨h2 p hp, hg p hp⟩
        · intro p hp
          simp only [step, doInterrupt, List.mem_filter, ne_eq, decide_not, Bool.not_eq_eq_eq_not,
            Bool.not_true, decide_eq_false_iff_not] at hp ⊢
          exact ⟨h3 p hp.1, hp.2⟩
      | process =>
        simp only [step, doProcess]
        split
        · exact ⟨h1, h2, h3⟩
        · rename_i i q hq
          refine hget { s with evq := q } ⟨h1, ?_, h3⟩
          intro p hp; exact h2 p (by rw [hq]; exact hp)
        · rename_i i x q hq
          have h2' : ∀ p ∈ inflight q, p.1 ∈ s.waiting := by
            intro p hp; exact h2 p (by rw [hq]; exact List.mem_cons_of_mem _ hp)
          have := hput { s with evq := q } ⟨h1, h2', h3⟩
          have hi : i ∈ s.waiting := h2 (i, x) (by rw [hq]; simp [inflight])
          simp only [hi, ↓reduceIte]
          exact this
      | advance t =>
        simp only [step, doAdvance]
        split <;> exact ⟨h1, h2, h3⟩
  exact key ops _ h ⟨rfl, by simp [init, inflight], by simp [init]⟩

example : NoLateInterrupt fifoCfg (init fifoCfg (some 1) 0)
    [.get (), .get (), .put 5, .process, .interrupt 1, .process, .put 6, .put 7, .interrupt 4, .process] =
      true ∧
    (run fifoCfg (init fifoCfg (some 1) 0)
    [.get (), .get (), .put 5, .process, .interrupt 1, .process, .put 6, .put 7, .interrupt 4,
      .process]).items = [6] := by decide +kernel

/-- **C39 (cancelled puts), full strength.** Once a waiting put has been interrupted its item never enters
the store, whatever happens later. -/
theorem c39_cancelled_put_never_enters (c : Cfg ι γ ν) (cap : Option Nat) (t0 : Rat)
    (pre post : List (Op ι γ)) (id : Nat)
    (hw : id ∈ (run c (init c cap t0) pre).putQ.map (·.1)) :
    id ∉ (run c (init c cap t0) (pre ++ .interrupt id :: post)).accepted.map (·.1) := by
  -- ids of waiting puts are new, unique, and not yet accepted
  have hfresh : ∀ s op, (∀ i ∈ s.putQ.map (·.1), i < s.nextId ∧ i ∉ s.accepted.map (·.1)) ∧
        (s.putQ.map (·.1)).Nodup ∧ (∀ i ∈ s.accepted.map (·.1), i < s.nextId) →
      (∀ i ∈ (step c s op).putQ.map (·.1), i < (step c s op).nextId ∧
        i ∉ (step c s op).accepted.map (·.1)) ∧ ((step c s op).putQ.map (·.1)).Nodup ∧
        (∀ i ∈ (step c s op).accepted.map (·.1), i < (step c s op).nextId) := by
    have hput : ∀ s : St ι γ ν, (∀ i ∈ s.putQ.map (·.1), i < s.nextId ∧ i ∉ s.accepted.map (·.1)) ∧
        (s.putQ.map (·.1)).Nodup ∧ (∀ i ∈ s.accepted.map (·.1), i < s.nextId) →
        (∀ i ∈ (trigPut c s).putQ.map (·.1), i < (trigPut c s).nextId ∧
          i ∉ (trigPut c s).accepted.map (·.1)) ∧ ((trigPut c s).putQ.map (·.1)).Nodup ∧
          (∀ i ∈ (trigPut c s).accepted.map (·.1), i < (trigPut c s).nextId) := by
      intro s h
      have e := trigPut_eff c s
      generalize trigPut c s = s' at e ⊢
      cases e with
      | none h' => rw [h']; exact h
      | one i x q hq hr h' =>
        rw [h']
        obtain ⟨h1, h2, h3⟩ := h
        rw [hq] at h1 h2
        simp only [List.map_cons, List.nodup_cons] at h2
        refine ⟨?_, h2.2, ?_⟩
        · intro j hj
          have := h1 j (by simp only [List.map_cons]; exact List.mem_cons_of_mem _ hj)
          refine ⟨this.1, ?_⟩
          simp only [List.map_append, List.map_cons, List.map_nil, List.mem_append, List.mem_singleton,
            not_or]
          exact ⟨this.2, fun e => h2.1 (e ▸ hj)⟩
        · intro j hj
          simp only [List.map_append, List.map_cons, List.map_nil, List.mem_append,
            List.mem_singleton] at hj
          rcases hj with hj | rfl
          · exact h3 j hj
          · exact (h1 j (by simp)).1
    have hget : ∀ s : St ι γ ν, (∀ i ∈ s.putQ.map (·.1), i < s.nextId ∧ i ∉ s.accepted.map (·.1)) ∧
        (s.putQ.map (·.1)).Nodup ∧ (∀ i ∈ s.accepted.map (·.1), i < s.nextId) →
        (∀ i ∈ (trigGet c s).putQ.map (·.1), i < (trigGet c s).nextId ∧
          i ∉ (trigGet c s).accepted.map (·.1)) ∧ ((trigGet c s).putQ.map (·.1)).Nodup ∧
          (∀ i ∈ (trigGet c s).accepted.map (·.1), i < (trigGet c s).nextId) := by
      intro s h
      obtain ⟨_, e1, _⟩ := trigGet_eff c s
      generalize trigGet c s = s' at *
      rw [e1]; exact h
    intro s op h
    cases op with
    | put x =>
      apply hput
      obtain ⟨h1, h2, h3⟩ := h
      refine ⟨?_, ?_, ?_⟩
      · intro i hi
        simp only [enqPut, List.map_append, List.map_cons, List.map_nil, List.mem_append,
          List.mem_singleton] at hi ⊢
        rcases hi with hi | rfl
        · exact ⟨by have := (h1 i hi).1; omega, (h1 i hi).2⟩
        · refine ⟨by omega, fun hc => ?_⟩
          have := h3 _ hc; omega
      · simp only [enqPut, List.map_append, List.map_cons, List.map_nil]
        rw [List.nodup_append]
        refine ⟨h2, by simp, ?_⟩
        intro a ha b hb
        simp at hb; subst hb
        have := (h1 a ha).1; omega
      · intro i hi
        have := h3 i hi
        simp only [enqPut]; omega
    | get g =>
      apply hget
      obtain ⟨h1, h2, h3⟩ := h
      refine ⟨fun i hi => ⟨?_, (h1 i hi).2⟩, h2, fun i hi => ?_⟩
      · have := (h1 i hi).1; simp only [enqGet]; omega
      · have := h3 i hi; simp only [enqGet]; omega
    | interrupt id =>
      obtain ⟨h1, h2, h3⟩ := h
      have hs : ((s.putQ.filter (fun p => p.1 ≠ id)).map (·.1)).Sublist (s.putQ.map (·.1)) :=
        (List.filter_sublist).map _
      exact ⟨fun i hi => h1 i (hs.subset hi), h2.sublist hs, h3⟩
    | process =>
      simp only [step, doProcess]
      split
      · exact h
      · exact hget _ h
      · split
        · exact hput _ h
        · exact hput _ h
    | advance t =>
      simp only [step, doAdvance]
      split <;> exact h
  have hF := run_induct c (P := fun s => (∀ i ∈ s.putQ.map (·.1), i < s.nextId ∧
      i ∉ s.accepted.map (·.1)) ∧ (s.putQ.map (·.1)).Nodup ∧
      (∀ i ∈ s.accepted.map (·.1), i < s.nextId)) hfresh
    (by simp [init] : _) (s := init c cap t0) pre
  rw [run_append]
  generalize run c (init c cap t0) pre = s at *
  show id ∉ (run c (doInterrupt s id) post).accepted.map (·.1)
  refine (run_induct c (P := fun s => id < s.nextId ∧ id ∉ s.putQ.map (·.1) ∧
    id ∉ s.accepted.map (·.1)) ?_ ?_ post).2.2
  · have hput : ∀ s : St ι γ ν, (id < s.nextId ∧ id ∉ s.putQ.map (·.1) ∧ id ∉ s.accepted.map (·.1)) →
        (id < (trigPut c s).nextId ∧ id ∉ (trigPut c s).putQ.map (·.1) ∧
          id ∉ (trigPut c s).accepted.map (·.1)) := by
      intro s h
      have e := trigPut_eff c s
      generalize trigPut c s = s' at e ⊢
      cases e with
      | none h' => rw [h']; exact h
      | one i x q hq hr h' =>
        rw [h']
        obtain ⟨h1, h2, h3⟩ := h
        rw [hq] at h2
        simp only [List.map_cons, List.mem_cons, not_or] at h2
        refine ⟨h1, h2.2, ?_⟩
        simp only [List.map_append, List.map_cons, List.map_nil, List.mem_append, List.mem_singleton,
          not_or]
        exact ⟨h3, h2.1⟩
    have hget : ∀ s : St ι γ ν, (id < s.nextId ∧ id ∉ s.putQ.map (·.1) ∧ id ∉ s.accepted.map (·.1)) →
        (id < (trigGet c s).nextId ∧ id ∉ (trigGet c s).putQ.map (·.1) ∧
          id ∉ (trigGet c s).accepted.map (·.1)) := by
      intro s h
      obtain ⟨_, e1, _⟩ := trigGet_eff c s
      generalize trigGet c s = s' at *
      rw [e1]; exact h
    intro s op h
    cases op with
    | put x =>
      apply hput
      obtain ⟨h1, h2, h3⟩ := h
      refine ⟨by simp only [enqPut]; omega, ?_, h3⟩
      simp only [enqPut, List.map_append, List.map_cons, List.map_nil, List.mem_append,
        List.mem_singleton, not_or]
      exact ⟨h2, by omega⟩
    | get g =>
      apply hget
      exact ⟨by simp only [enqGet]; omega, h.2⟩
    | interrupt id' =>
      obtain ⟨h1, h2, h3⟩ := h
      refine ⟨h1, ?_, h3⟩
      intro hc
      exact h2 (((List.filter_sublist (p := fun p => decide (p.1 ≠ id')) (l := s.putQ)).map
        (·.1)).subset hc)
    | process =>
      simp only [step, doProcess]
      split
      · exact h
      · exact hget _ h
      · split
        · exact hput _ h
        · exact hput _ h
    | advance t =>
      simp only [step, doAdvance]
      split <;> exact h
  · refine ⟨(hF.1 id hw).1, ?_, (hF.1 id hw).2⟩
    simp [doInterrupt]

example : (2 : Nat) ∈ (run fifoCfg (init fifoCfg (some 1) 0) [.put 5, .put 6, .put 7]).putQ.map (·.1) := by
  decide +kernel

/-- **C39 (FIFO), plain stores.** As long as nothing is lost, items reach tasks in exactly the order they
entered, and requests are served in exactly the order they were made. -/
theorem c39_fifo (f : List ι → ν) (cap : Option Nat) (t0 : Rat) (ops : List (Op ι Unit))
    (hl : (run ⟨fifoSel, false, f⟩ (init ⟨fifoSel, false, f⟩ cap t0) ops).lost = []) :
    let s := run ⟨fifoSel, false, f⟩ (init ⟨fifoSel, false, f⟩ cap t0) ops
    s.accepted.map (·.2) = s.delivered.map (·.2) ++ onTheirWay s ++ s.items ∧
    (s.delivered.map (·.1) ++ (inflight s.evq).map (·.1) ++ s.getQ.map (·.1)).Pairwise (· < ·) := by
  let c : Cfg ι Unit ν := ⟨fifoSel, false, f⟩
  let J : St ι Unit ν → Prop := fun s => s.lost = [] →
    s.accepted.map (·.2) = s.delivered.map (·.2) ++ onTheirWay s ++ s.items ∧
    (s.delivered.map (·.1) ++ (inflight s.evq).map (·.1) ++ s.getQ.map (·.1)).Pairwise (· < ·) ∧
    (∀ i ∈ s.delivered.map (·.1) ++ (inflight s.evq).map (·.1) ++ s.getQ.map (·.1), i < s.nextId)
  have hput : ∀ (s : St ι Unit ν) (d : List (Nat × ι)), (s.lost = [] →
      s.accepted.map (·.2) = (s.delivered ++ d).map (·.2) ++ onTheirWay s ++ s.items ∧
      ((s.delivered ++ d).map (·.1) ++ (inflight s.evq).map (·.1) ++ s.getQ.map (·.1)).Pairwise (· < ·) ∧
      (∀ i ∈ (s.delivered ++ d).map (·.1) ++ (inflight s.evq).map (·.1) ++ s.getQ.map (·.1),
        i < s.nextId)) →
      ((trigPut c s).lost = [] →
      (trigPut c s).accepted.map (·.2) = ((trigPut c s).delivered ++ d).map (·.2) ++
        onTheirWay (trigPut c s) ++ (trigPut c s).items ∧
      (((trigPut c s).delivered ++ d).map (·.1) ++ (inflight (trigPut c s).evq).map (·.1) ++
        (trigPut c s).getQ.map (·.1)).Pairwise (· < ·) ∧
      (∀ i ∈ ((trigPut c s).delivered ++ d).map (·.1) ++ (inflight (trigPut c s).evq).map (·.1) ++
        (trigPut c s).getQ.map (·.1), i < (trigPut c s).nextId)) := by
    intro s d h
    have e := trigPut_eff c s
    generalize trigPut c s = s' at e ⊢
    cases e with
    | none h' => rw [h']; exact h
    | one i x q hq hr h' =>
      rw [h']
      intro hl'
      obtain ⟨h1, h2, h3⟩ := h hl'
      simp only [onTheirWay, inflight_append, inflight, List.append_nil] at h1 h2 h3 ⊢
      refine ⟨?_, h2, h3⟩
      rw [List.map_append, h1]; simp
  have hget : ∀ s : St ι Unit ν, J s → J (trigGet c s) := by
    intro s h
    have hcase : (trigGet c s = { s with log := (trigGet c s).log }) ∨
        (∃ i g q x rest, s.getQ = (i, g) :: q ∧ s.items = x :: rest ∧
          trigGet c s = { s with
            items := rest
            getQ := q
            evq := s.evq ++ [.got i x]
            log := (trigGet c s).log }) := by
      unfold trigGet
      rcases hgq : s.getQ with _ | ⟨⟨i, g⟩, q⟩
      · left
        simp only [getLoop]
        rw [record_fields]
      · rcases hit : s.items with _ | ⟨x, rest⟩
        · left
          simp only [getLoop, c, hit, fifoSel, Bool.false_eq_true, ↓reduceIte]
          rw [record_fields]
        · right
          refine ⟨i, g, q, x, rest, rfl, rfl, ?_⟩
          simp only [getLoop, c, hit, fifoSel, Bool.false_eq_true, ↓reduceIte]
          rw [record_fields]
          simp only
          rw [record_fields]
    rcases hcase with hc | ⟨i, g, q, x, rest, h1, h2, hc⟩
    · rw [hc]; exact h
    · rw [hc]
      intro hl'
      obtain ⟨a1, a2, a3⟩ := h hl'
      simp only [onTheirWay, h1, h2, inflight_append, inflight, List.map_append, List.map_cons,
        List.map_nil] at a1 a2 a3 ⊢
      refine ⟨by rw [a1]; simp, by simpa using a2, by simpa using a3⟩
  have hJ : J (run c (init c cap t0) ops) := by
    refine run_induct c (P := J) ?_ ?_ ops
    · intro s op h
      cases op with
      | put x =>
        have := hput (enqPut s x) [] (by
          intro hl'
          obtain ⟨a1, a2, a3⟩ := h hl'
          simp only [List.append_nil]
          refine ⟨a1, a2, fun i hi => ?_⟩
          have := a3 i hi
          simp only [enqPut]; omega)
        simp only [List.append_nil] at this
        exact this
      | get g =>
        refine hget (enqGet s g) ?_
        intro hl'
        obtain ⟨a1, a2, a3⟩ := h hl'
        refine ⟨a1, ?_, ?_⟩
        · simp only [enqGet, List.map_append, List.map_cons, List.map_nil]
          rw [← List.append_assoc, List.pairwise_append]
          refine ⟨a2, by simp, ?_⟩
          intro a ha b hb
          simp at hb; subst hb
          exact a3 a ha
        · intro i hi
          simp only [enqGet, List.map_append, List.map_cons, List.map_nil] at hi ⊢
          rw [← List.append_assoc] at hi
          rcases List.mem_append.mp hi with hi | hi
          · have := a3 i hi; omega
          · simp at hi; omega
      | interrupt id =>
        intro hl'
        obtain ⟨a1, a2, a3⟩ := h hl'
        have hs : ((s.getQ.filter (fun p => p.1 ≠ id)).map (·.1)).Sublist (s.getQ.map (·.1)) :=
          (List.filter_sublist).map _
        have hs' : (s.delivered.map (·.1) ++ (inflight s.evq).map (·.1) ++
          (s.getQ.filter (fun p => p.1 ≠ id)).map (·.1)).Sublist
          (s.delivered.map (·.1) ++ (inflight s.evq).map (·.1) ++ s.getQ.map (·.1)) :=
          (List.Sublist.refl _).append hs
        exact ⟨a1, a2.sublist hs', fun i hi => a3 i (hs'.subset hi)⟩
      | process =>
        simp only [step, doProcess]
        split
        · exact h
        · rename_i i q hq
          refine hget { s with evq := q } ?_
          intro hl'
          have := h hl'
          simpa only [onTheirWay, hq, inflight] using this
        · rename_i i x q hq
          have := hput { s with evq := q } [(i, x)] (by
            intro hl'
            have := h hl'
            simp only [onTheirWay, hq, inflight, List.map_cons] at this
            simpa [onTheirWay] using this)
          split
          · exact this
          · intro hl'; simp at hl'
      | advance t =>
        simp only [step, doAdvance]
        split <;> exact h
    · intro _; simp [init, onTheirWay, inflight]
  obtain ⟨a1, a2, _⟩ := hJ hl
  exact ⟨a1, a2⟩

/-- A history with a full store, a waiting put and two gets. -/
def fifoDemo : St Nat Unit Nat := run fifoCfg (init fifoCfg (some 2) 0)
  [.get (), .put 5, .put 6, .put 7, .get (), .process, .process, .process, .process, .process]

example : let s := fifoDemo
    s.lost = [] ∧ s.delivered = [(0, 5), (4, 6)] ∧ s.items = [7] := by decide +kernel

end
end Verif.Store
