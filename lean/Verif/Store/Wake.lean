import Verif.Store.Props

/-!
# Properties C58 (no missed wake-ups) and C59 (capacity) for stores

`doPut`/`doGet` and the processing of requests try only *one* queue; the claims below say that this is
enough: at an instant in which no triggered request is left to process, nobody waits for something that is
there.
-/

namespace Verif.Store

variable {ι γ κ ν : Type}

/-- Triggered puts not yet processed. -/
def putsPending (evq : List (Ev ι)) : Nat := evq.countP fun e => match e with | .put _ => true | .got _ _ => false

/-- Triggered gets not yet processed. -/
def getsPending (evq : List (Ev ι)) : Nat := evq.countP fun e => match e with | .put _ => false | .got _ _ => true

/-- A request that is served takes exactly one item out. -/
def TakesOne (c : Cfg ι γ ν) : Prop :=
  ∀ g items x rest, c.sel g items = some (x, rest) → items.length = rest.length + 1

/-- What is not there for a request is not there either after another request took its item. -/
def Mono (c : Cfg ι γ ν) : Prop :=
  ∀ g h items x rest, c.sel g items = none → c.sel h items = some (x, rest) → c.sel g rest = none

section
variable [DecidableEq ν]

/-! ## One pass over the get queue -/

theorem got_pending (l : List (Nat × ι)) :
    getsPending (l.map fun p => Ev.got p.1 p.2) = l.length ∧
    putsPending (l.map fun p => Ev.got p.1 p.2) = 0 := by
  induction l with
  | nil => exact ⟨rfl, rfl⟩
  | cons p l ih =>
    simp only [getsPending, putsPending] at ih ⊢
    simp [ih.1]

theorem putsPending_append (a b : List (Ev ι)) : putsPending (a ++ b) = putsPending a + putsPending b := by
  simp [putsPending]

theorem getsPending_append (a b : List (Ev ι)) : getsPending (a ++ b) = getsPending a + getsPending b := by
  simp [getsPending]

theorem getLoop_len (c : Cfg ι γ ν) (hc : TakesOne c) (q : List (Nat × γ)) (s : St ι γ ν) :
    (getLoop c q s).2.items.length + getsPending (getLoop c q s).2.evq =
      s.items.length + getsPending s.evq := by
  induction q generalizing s with
  | nil => rfl
  | cons p q ih =>
    obtain ⟨i, g⟩ := p
    simp only [getLoop]
    split
    · rename_i x rest hsel
      have hl := hc _ _ _ _ hsel
      have hrec := record_fields c { s with items := rest, evq := s.evq ++ [Ev.got i x] }
      have h1 : (record c { s with items := rest, evq := s.evq ++ [Ev.got i x] }).items.length +
          getsPending (record c { s with items := rest, evq := s.evq ++ [Ev.got i x] }).evq =
          s.items.length + getsPending s.evq := by
        rw [hrec]
        simp only [getsPending_append, hl]
        have : getsPending [Ev.got i x] = 1 := rfl
        omega
      split
      · rw [ih, h1]
      · exact h1
    · split
      · exact ih s
      · rfl

theorem trigGet_len (c : Cfg ι γ ν) (hc : TakesOne c) (s : St ι γ ν) :
    (trigGet c s).items.length + getsPending (trigGet c s).evq = s.items.length + getsPending s.evq := by
  have hrec := record_fields c { (getLoop c s.getQ s).2 with getQ := (getLoop c s.getQ s).1 }
  unfold trigGet
  simp only
  rw [hrec]
  exact getLoop_len c hc s.getQ s

theorem trigGet_puts (c : Cfg ι γ ν) (s : St ι γ ν) : putsPending (trigGet c s).evq = putsPending s.evq := by
  obtain ⟨served, -, h2, -⟩ := trigGet_eff c s
  rw [h2, putsPending_append, (got_pending served).2, Nat.add_zero]

/-- No request is left waiting by a pass over the queue though an item is there for it. -/
theorem getLoop_none (c : Cfg ι γ ν) (hp : c.proceed = true) (hm : Mono c) (q : List (Nat × γ))
    (s : St ι γ ν) :
    (∀ g, c.sel g s.items = none → c.sel g (getLoop c q s).2.items = none) ∧
    ∀ p ∈ (getLoop c q s).1, c.sel p.2 (getLoop c q s).2.items = none := by
  induction q generalizing s with
  | nil => exact ⟨fun _ h => h, by simp [getLoop]⟩
  | cons p q ih =>
    obtain ⟨i, g⟩ := p
    simp only [getLoop, hp, if_true]
    split
    · rename_i x rest hsel
      have hrec := record_fields c { s with items := rest, evq := s.evq ++ [Ev.got i x] }
      have hi : (record c { s with items := rest, evq := s.evq ++ [Ev.got i x] }).items = rest := by rw [hrec]
      obtain ⟨h1, h2⟩ := ih (record c { s with items := rest, evq := s.evq ++ [Ev.got i x] })
      exact ⟨fun g' hg' => h1 g' (by rw [hi]; exact hm _ _ _ _ _ hg' hsel), h2⟩
    · rename_i hsel
      obtain ⟨h1, h2⟩ := ih s
      refine ⟨h1, ?_⟩
      intro p hp
      rcases List.mem_cons.1 hp with rfl | hp
      · exact h1 _ hsel
      · exact h2 p hp

theorem trigGet_none (c : Cfg ι γ ν) (hp : c.proceed = true) (hm : Mono c) (s : St ι γ ν) :
    ∀ p ∈ (trigGet c s).getQ, c.sel p.2 (trigGet c s).items = none := by
  have hrec := record_fields c { (getLoop c s.getQ s).2 with getQ := (getLoop c s.getQ s).1 }
  unfold trigGet
  simp only
  rw [hrec]
  exact (getLoop_none c hp hm s.getQ s).2

/-- One attempt of a plain store: the oldest request gets the oldest item. -/
theorem trigGet_fifo (f : List ι → ν) (s : St ι Unit ν) :
    ((trigGet ⟨fifoSel, false, f⟩ s).getQ = s.getQ ∧ (trigGet ⟨fifoSel, false, f⟩ s).items = s.items ∧
      (s.getQ = [] ∨ s.items = [])) ∨
    (∃ p x, s.getQ = p :: (trigGet ⟨fifoSel, false, f⟩ s).getQ ∧
      s.items = x :: (trigGet ⟨fifoSel, false, f⟩ s).items) := by
  have hrec := record_fields (⟨fifoSel, false, f⟩ : Cfg ι Unit ν)
    { (getLoop ⟨fifoSel, false, f⟩ s.getQ s).2 with getQ := (getLoop ⟨fifoSel, false, f⟩ s.getQ s).1 }
  unfold trigGet
  simp only
  rw [hrec]
  simp only
  cases hq : s.getQ with
  | nil => exact .inl ⟨rfl, rfl, .inl rfl⟩
  | cons p q =>
    obtain ⟨i, g⟩ := p
    cases hi : s.items with
    | nil => left; simp [getLoop, fifoSel, hi]
    | cons x rest =>
      right
      refine ⟨(i, g), x, ?_, ?_⟩
      · simp [getLoop, fifoSel, hi]
      · have hr := record_fields (⟨fifoSel, false, f⟩ : Cfg ι Unit ν)
          { s with items := rest, evq := s.evq ++ [Ev.got i x] }
        simp only [getLoop, fifoSel, hi, Bool.false_eq_true, if_false]
        rw [hr]

/-! ## Invariants -/

/-- Everything about room: the store is never over its capacity, and a put waits only if the store is
full but for the items whose removal has not been processed. -/
structure Room (s : St ι γ ν) : Prop where
  cap : ∀ n, s.cap = some n → s.items.length ≤ n
  free : s.cap = none → s.putQ = []
  full : ∀ n, s.cap = some n → s.putQ = [] ∨ n ≤ s.items.length + getsPending s.evq

/-- `Room` with one put or one removal not yet looked at. -/
structure Room' (s : St ι γ ν) : Prop where
  cap : ∀ n, s.cap = some n → s.items.length ≤ n
  free : s.cap = none → s.putQ.length ≤ 1
  full : ∀ n, s.cap = some n → s.putQ.length ≤ 1 ∨ n ≤ s.items.length + getsPending s.evq + 1

theorem Room'.trigPut {c : Cfg ι γ ν} {s : St ι γ ν} (h : Room' s) : Room (trigPut c s) := by
  unfold Verif.Store.trigPut
  split
  · rename_i hq
    rw [record_fields]
    exact ⟨h.cap, fun _ => hq, fun n _ => .inl hq⟩
  · rename_i i x q hq
    split
    · rename_i hr
      rw [record_fields, record_fields]
      refine ⟨?_, ?_, ?_⟩
      · intro n hn
        simp only at hn ⊢
        simp only [hasRoom, hn, decide_eq_true_eq] at hr
        simp only [List.length_append, List.length_singleton]; omega
      · intro hn
        have := h.free hn
        rw [hq] at this
        simp only [List.length_cons] at this
        exact List.length_eq_zero_iff.1 (Nat.le_zero.1 (Nat.le_of_succ_le_succ this))
      · intro n hn
        simp only at hn ⊢
        rcases h.full n hn with h1 | h1
        · rw [hq] at h1
          simp only [List.length_cons] at h1
          exact .inl (List.length_eq_zero_iff.1 (by omega))
        · right
          rw [getsPending_append]
          simp only [List.length_append, List.length_singleton]
          omega
    · rename_i hr
      rw [record_fields]
      refine ⟨h.cap, ?_, ?_⟩
      · intro hn
        simp only at hn
        simp [hasRoom, hn] at hr
      · intro n hn
        simp only at hn ⊢
        simp only [hasRoom, hn, decide_eq_true_eq] at hr
        right; omega

theorem Room.trigGet {c : Cfg ι γ ν} (hc : TakesOne c) {s : St ι γ ν} (h : Room s) :
    Room (trigGet c s) := by
  have hl := trigGet_len c hc s
  obtain ⟨served, h1, h2, -⟩ := trigGet_eff c s
  have hev := congrArg getsPending h2
  rw [getsPending_append, (got_pending served).1] at hev
  generalize Verif.Store.trigGet c s = s' at h1 hl hev
  have hcap : s'.cap = s.cap := by rw [h1]
  have hq : s'.putQ = s.putQ := by rw [h1]
  refine ⟨?_, ?_, ?_⟩
  · intro n hn
    have := h.cap n (hcap ▸ hn)
    omega
  · intro hn; rw [hq]; exact h.free (hcap ▸ hn)
  · intro n hn
    rw [hq, hl]; exact h.full n (hcap ▸ hn)

theorem Room.step {c : Cfg ι γ ν} (hc : TakesOne c) (s : St ι γ ν) (op : Op ι γ) (h : Room s) :
    Room (step c s op) := by
  cases op with
  | put x =>
    refine Room'.trigPut ⟨h.cap, ?_, ?_⟩
    · intro hn
      have := h.free hn
      simp [enqPut, this]
    · intro n hn
      rcases h.full n hn with h1 | h1
      · left; simp [enqPut, h1]
      · right
        simp only [enqPut]; omega
  | get g => exact Room.trigGet hc ⟨h.cap, h.free, h.full⟩
  | interrupt id =>
    refine ⟨h.cap, ?_, ?_⟩
    · intro hn
      have := h.free hn
      simp [Verif.Store.step, doInterrupt, this]
    · intro n hn
      rcases h.full n hn with h1 | h1
      · left; simp [Verif.Store.step, doInterrupt, h1]
      · exact .inr h1
  | process =>
    simp only [Verif.Store.step, doProcess]
    split
    · exact h
    · rename_i i q hq
      refine Room.trigGet hc ⟨h.cap, h.free, ?_⟩
      intro n hn
      have := h.full n hn
      rw [hq] at this
      simpa [getsPending] using this
    · rename_i i x q hq
      have h1 : Room (trigPut c { s with evq := q }) := by
        refine Room'.trigPut ⟨h.cap, fun hn => by simp [h.free hn], ?_⟩
        intro n hn
        have := h.full n hn
        rw [hq] at this
        simp only [getsPending, List.countP_cons_of_pos] at this
        rcases this with h1 | h1
        · left; simp [h1]
        · right; simp only [getsPending]; omega
      split <;> exact ⟨h1.cap, h1.free, h1.full⟩
  | advance t =>
    simp only [Verif.Store.step, doAdvance]
    split <;> exact ⟨h.cap, h.free, h.full⟩

theorem Room.init (c : Cfg ι γ ν) (cap : Option Nat) (t0 : Rat) : Room (init c cap t0) :=
  ⟨by simp [Verif.Store.init], by simp [Verif.Store.init], by simp [Verif.Store.init]⟩

/-- A plain store: if somebody waits there are at most as many items as puts to be processed. -/
def Fed (s : St ι Unit ν) : Prop := s.getQ = [] ∨ s.items.length ≤ putsPending s.evq

theorem trigPut_cases (c : Cfg ι γ ν) (s : St ι γ ν) :
    (trigPut c s).getQ = s.getQ ∧
    (((trigPut c s).items = s.items ∧ (trigPut c s).evq = s.evq) ∨
      ((trigPut c s).items.length = s.items.length + 1 ∧
        putsPending (trigPut c s).evq = putsPending s.evq + 1)) := by
  have e := trigPut_eff c s
  generalize trigPut c s = s' at e ⊢
  cases e with
  | none h' => rw [h']; exact ⟨rfl, .inl ⟨rfl, rfl⟩⟩
  | one i x q hq hr h' =>
    rw [h']
    refine ⟨rfl, .inr ⟨by simp, ?_⟩⟩
    rw [putsPending_append]; rfl

theorem Fed.trigPut {c : Cfg ι Unit ν} {s : St ι Unit ν} (h : Fed s) : Fed (trigPut c s) := by
  obtain ⟨h1, h2⟩ := trigPut_cases c s
  unfold Fed at h ⊢
  rw [h1]
  rcases h with h | h
  · exact .inl h
  · rcases h2 with ⟨h2, h3⟩ | ⟨h2, h3⟩
    · rw [h2, h3]; exact .inr h
    · right; omega

/-- A pass over the get queue re-establishes `Fed` after one more request or one put less. -/
theorem Fed.trigGet {f : List ι → ν} {s : St ι Unit ν}
    (h : s.getQ.length ≤ 1 ∨ s.items.length ≤ putsPending s.evq + 1) :
    Fed (trigGet ⟨fifoSel, false, f⟩ s) := by
  have hp := trigGet_puts (⟨fifoSel, false, f⟩ : Cfg ι Unit ν) s
  unfold Fed
  rw [hp]
  rcases trigGet_fifo f s with ⟨h1, h2, h3⟩ | ⟨p, x, h1, h2⟩
  · rw [h1, h2]
    rcases h3 with h3 | h3
    · exact .inl h3
    · right; simp [h3]
  · rw [h1, h2] at h
    simp only [List.length_cons] at h
    rcases h with h | h
    · exact .inl (List.length_eq_zero_iff.1 (by omega))
    · right; omega

theorem Fed.step {f : List ι → ν} (s : St ι Unit ν) (op : Op ι Unit) (h : Fed s) :
    Fed (step ⟨fifoSel, false, f⟩ s op) := by
  cases op with
  | put x => exact Fed.trigPut h
  | get g =>
    refine Fed.trigGet ?_
    rcases h with h | h
    · left; simp [enqGet, h]
    · right; simp only [enqGet]; omega
  | interrupt id =>
    rcases h with h | h
    · left; simp [Verif.Store.step, doInterrupt, h]
    · exact .inr h
  | process =>
    simp only [Verif.Store.step, doProcess]
    split
    · exact h
    · rename_i i q hq
      refine Fed.trigGet ?_
      rcases h with h | h
      · left; simp [h]
      · right
        rw [hq] at h
        simpa [putsPending] using h
    · rename_i i x q hq
      have h1 : Fed (Verif.Store.trigPut ⟨fifoSel, false, f⟩ { s with evq := q }) := by
        refine Fed.trigPut ?_
        rcases h with h | h
        · exact .inl h
        · right
          rw [hq] at h
          simpa [putsPending] using h
      split <;> exact h1
  | advance t =>
    simp only [Verif.Store.step, doAdvance]
    split <;> exact h

/-- A filtering store: whoever waits finds nothing, or a put is still to be processed. -/
def Sought (c : Cfg ι γ ν) (s : St ι γ ν) : Prop :=
  (∀ p ∈ s.getQ, c.sel p.2 s.items = none) ∨ 0 < putsPending s.evq

theorem Sought.trigPut {c : Cfg ι γ ν} {s : St ι γ ν} (h : Sought c s) : Sought c (trigPut c s) := by
  obtain ⟨h1, h2⟩ := trigPut_cases c s
  unfold Sought at h ⊢
  rcases h2 with ⟨h2, h3⟩ | ⟨h2, h3⟩
  · rw [h1, h2, h3]; exact h
  · right; omega

theorem Sought.step {c : Cfg ι γ ν} (hp : c.proceed = true) (hm : Mono c) (s : St ι γ ν) (op : Op ι γ)
    (h : Sought c s) : Sought c (step c s op) := by
  cases op with
  | put x => exact Sought.trigPut h
  | get g => exact .inl (trigGet_none c hp hm _)
  | interrupt id =>
    rcases h with h | h
    · exact .inl fun p hp => h p (List.mem_of_mem_filter hp)
    · exact .inr h
  | process =>
    simp only [Verif.Store.step, doProcess]
    split
    · exact h
    · exact .inl (trigGet_none c hp hm _)
    · rename_i i x q hq
      have h1 : Sought c (Verif.Store.trigPut c { s with evq := q }) := by
        refine Sought.trigPut ?_
        rcases h with h | h
        · exact .inl h
        · right
          rw [hq] at h
          simpa [putsPending] using h
      split <;> exact h1
  | advance t =>
    simp only [Verif.Store.step, doAdvance]
    split <;> exact h

/-! ## The selections of the three stores -/

theorem fifo_takesOne (f : List ι → ν) : TakesOne (⟨fifoSel, false, f⟩ : Cfg ι Unit ν) := by
  intro g items x rest h
  cases items with
  | nil => simp [fifoSel] at h
  | cons y ys => simp only [fifoSel, Option.some.injEq, Prod.mk.injEq] at h; simp [h.2]

theorem removeFirst_sub (eqv : ι → ι → Bool) (x : ι) (l : List ι) : (removeFirst eqv x l).Sublist l := by
  induction l with
  | nil => exact List.Sublist.refl _
  | cons y ys ih =>
    simp only [removeFirst]
    split
    · exact List.sublist_cons_self _ _
    · exact ih.cons₂ _

theorem removeFirst_len (eqv : ι → ι → Bool) (hr : ∀ x, eqv x x = true) (x : ι) (l : List ι) (hx : x ∈ l) :
    l.length = (removeFirst eqv x l).length + 1 := by
  induction l with
  | nil => simp at hx
  | cons y ys ih =>
    simp only [removeFirst]
    split
    · simp
    · rename_i he
      rcases List.mem_cons.1 hx with rfl | hx
      · exact absurd (hr x) he
      · simp only [List.length_cons]; have := ih hx; omega

theorem filter_takesOne (eqv : ι → ι → Bool) (hr : ∀ x, eqv x x = true) (f : List ι → ν) :
    TakesOne (⟨filterSel eqv, true, f⟩ : Cfg ι (ι → Bool) ν) := by
  intro g items x rest h
  simp only [filterSel] at h
  split at h
  · simp at h
  · rename_i y hy
    simp only [Option.some.injEq, Prod.mk.injEq] at h
    rw [← h.2]
    exact removeFirst_len eqv hr _ _ (List.mem_of_find?_eq_some hy)

theorem filter_mono (eqv : ι → ι → Bool) (f : List ι → ν) :
    Mono (⟨filterSel eqv, true, f⟩ : Cfg ι (ι → Bool) ν) := by
  intro g h items x rest hg hh
  simp only [filterSel] at hg hh ⊢
  split at hh
  · simp at hh
  · simp only [Option.some.injEq, Prod.mk.injEq] at hh
    have hn : items.find? g = none := by
      split at hg
      · assumption
      · simp at hg
    have : rest.find? g = none := by
      rw [List.find?_eq_none] at hn ⊢
      intro y hy
      exact hn y ((removeFirst_sub eqv _ items).subset (hh.2 ▸ hy))
    rw [this]

/-- The scan of the sorted store finds something as soon as an item matches. -/
theorem scan_isSome [LinearOrder κ] (r : SReq ι κ) (l : List ι) (m : Option ι) (v : Option κ)
    (hv : v.isSome → m.isSome) :
    (scan r l m v).isSome = (m.isSome || l.any r.filter) := by
  induction l generalizing m v with
  | nil => simp [scan]
  | cons x xs ih =>
    simp only [scan]
    split
    · rename_i hf
      split
      · rename_i key hk
        split
        · rw [ih (some x) (some (key x)) (by simp)]; simp [hf]
        · rename_i hb
          rw [ih m v hv]
          have : m.isSome = true := by
            apply hv
            cases v with
            | none => simp [better] at hb
            | some _ => rfl
          simp [this]
      · simp [hf]
    · rename_i hf
      rw [ih m v hv]
      simp [hf]

theorem scan_mem [LinearOrder κ] (r : SReq ι κ) (l : List ι) (m : Option ι) (v : Option κ) (x : ι)
    (h : scan r l m v = some x) : m = some x ∨ x ∈ l := by
  induction l generalizing m v with
  | nil => exact .inl h
  | cons y ys ih =>
    simp only [scan] at h
    split at h
    · split at h
      · split at h
        · rcases ih _ _ h with h1 | h1
          · simp only [Option.some.injEq] at h1
            subst h1
            exact .inr (by simp)
          · exact .inr (List.mem_cons_of_mem _ h1)
        · rcases ih _ _ h with h1 | h1
          · exact .inl h1
          · exact .inr (List.mem_cons_of_mem _ h1)
      · simp only [Option.some.injEq] at h
        subst h
        exact .inr (by simp)
    · rcases ih _ _ h with h1 | h1
      · exact .inl h1
      · exact .inr (List.mem_cons_of_mem _ h1)

theorem sortedSel_none [LinearOrder κ] (eqv : ι → ι → Bool) (truthy : ι → Bool) (ht : ∀ x, truthy x = true)
    (r : SReq ι κ) (items : List ι) :
    sortedSel eqv truthy r items = none ↔ ∀ x ∈ items, r.filter x = false := by
  have h := scan_isSome r items none none (by simp)
  simp only [Option.isSome_none, Bool.false_or] at h
  unfold sortedSel
  split
  · rename_i hs
    rw [hs] at h
    simp only [Option.isSome_none] at h
    simpa using h.symm
  · rename_i x hs
    rw [hs] at h
    simp only [Option.isSome_some] at h
    simp only [ht, if_true, reduceCtorEq, false_iff]
    intro hc
    have := List.any_eq_true.1 h.symm
    obtain ⟨y, hy, hf⟩ := this
    rw [hc y hy] at hf
    exact absurd hf (by simp)

theorem sorted_takesOne [LinearOrder κ] (eqv : ι → ι → Bool) (hr : ∀ x, eqv x x = true) (truthy : ι → Bool)
    (f : List ι → ν) : TakesOne (⟨sortedSel (κ := κ) eqv truthy, true, f⟩ : Cfg ι (SReq ι κ) ν) := by
  intro g items x rest h
  simp only [sortedSel] at h
  split at h
  · simp at h
  · rename_i y hy
    split at h
    · simp only [Option.some.injEq, Prod.mk.injEq] at h
      rw [← h.2]
      rcases scan_mem _ _ _ _ _ hy with h1 | h1
      · simp at h1
      · exact removeFirst_len eqv hr _ _ h1
    · simp at h

theorem sorted_mono [LinearOrder κ] (eqv : ι → ι → Bool) (truthy : ι → Bool) (ht : ∀ x, truthy x = true)
    (f : List ι → ν) : Mono (⟨sortedSel (κ := κ) eqv truthy, true, f⟩ : Cfg ι (SReq ι κ) ν) := by
  intro g h items x rest hg hh
  simp only at hg hh ⊢
  rw [sortedSel_none eqv truthy ht] at hg ⊢
  intro y hy
  refine hg y ?_
  simp only [sortedSel] at hh
  split at hh
  · simp at hh
  · split at hh
    · simp only [Option.some.injEq, Prod.mk.injEq] at hh
      exact (removeFirst_sub eqv _ items).subset (hh.2 ▸ hy)
    · simp at hh

/-! ## Histories -/

theorem trigPut_cap (c : Cfg ι γ ν) (s : St ι γ ν) : (trigPut c s).cap = s.cap ∧ (trigPut c s).now = s.now := by
  have e := trigPut_eff c s
  generalize trigPut c s = s' at e ⊢
  cases e with
  | none h' => rw [h']; exact ⟨rfl, rfl⟩
  | one i x q hq hr h' => rw [h']; exact ⟨rfl, rfl⟩

theorem trigGet_cap (c : Cfg ι γ ν) (s : St ι γ ν) : (trigGet c s).cap = s.cap ∧ (trigGet c s).now = s.now := by
  obtain ⟨served, h1, -⟩ := trigGet_eff c s
  generalize trigGet c s = s' at h1 ⊢
  rw [h1]; exact ⟨rfl, rfl⟩

theorem step_cap (c : Cfg ι γ ν) (s : St ι γ ν) (op : Op ι γ) : (step c s op).cap = s.cap := by
  cases op with
  | put x => exact (trigPut_cap c _).1
  | get g => exact (trigGet_cap c _).1
  | interrupt id => rfl
  | process =>
    simp only [step, doProcess]
    split
    · rfl
    · exact (trigGet_cap c _).1
    · split <;> exact (trigPut_cap c _).1
  | advance t => simp only [step, doAdvance]; split <;> rfl

theorem process_now (c : Cfg ι γ ν) (s : St ι γ ν) : (doProcess c s).now = s.now := by
  simp only [doProcess]
  split
  · rfl
  · exact (trigGet_cap c _).2
  · split <;> exact (trigPut_cap c _).2

theorem room_run {c : Cfg ι γ ν} (hc : TakesOne c) (cap : Option Nat) (t0 : Rat) (ops : List (Op ι γ))
    (he : (run c (init c cap t0) ops).evq = []) :
    (run c (init c cap t0) ops).putQ = [] ∨ cap = some (run c (init c cap t0) ops).items.length := by
  have h := run_induct c (P := fun s => Room s ∧ s.cap = cap) ?_ (s := init c cap t0)
    ⟨Room.init c _ t0, rfl⟩ ops
  · generalize run c (init c cap t0) ops = s at h he ⊢
    obtain ⟨h1, h2⟩ := h
    cases cap with
    | none => exact .inl (h1.free h2)
    | some n =>
      rcases h1.full n h2 with h3 | h3
      · exact .inl h3
      · have := h1.cap n h2
        rw [he] at h3
        simp only [getsPending, List.countP_nil] at h3
        right
        congr 1
        omega
  · intro s op hs
    exact ⟨Room.step hc s op hs.1, by rw [step_cap]; exact hs.2⟩

/-- Twice the waiting requests and once the triggered ones. -/
def measure (s : St ι γ ν) : Nat := 2 * (s.putQ.length + s.getQ.length) + s.evq.length

theorem measure_trigPut (c : Cfg ι γ ν) (s : St ι γ ν) : measure (trigPut c s) ≤ measure s := by
  have e := trigPut_eff c s
  generalize trigPut c s = s' at e ⊢
  cases e with
  | none h' => rw [h']; exact le_refl _
  | one i x q hq hr h' =>
    rw [h']
    simp only [measure, hq, List.length_append, List.length_cons, List.length_nil]
    omega

theorem measure_trigGet (c : Cfg ι γ ν) (s : St ι γ ν) : measure (trigGet c s) ≤ measure s := by
  obtain ⟨served, h1, h2, -, h4, -⟩ := trigGet_eff c s
  generalize trigGet c s = s' at h1 h2 h4 ⊢
  have hp : s'.putQ = s.putQ := by rw [h1]
  have hl := h4.length_eq
  simp only [List.length_map, List.length_append] at hl
  simp only [measure, hp, h2, List.length_append, List.length_map]
  omega

theorem measure_process (c : Cfg ι γ ν) (s : St ι γ ν) (he : s.evq ≠ []) : measure (doProcess c s) < measure s := by
  simp only [doProcess]
  split
  · contradiction
  · rename_i i q hq
    have := measure_trigGet c { s with evq := q }
    have h2 : measure { s with evq := q } < measure s := by simp [measure, hq]
    omega
  · rename_i i x q hq
    have := measure_trigPut c { s with evq := q }
    have h2 : measure { s with evq := q } < measure s := by simp [measure, hq]
    split <;> exact lt_of_le_of_lt this h2

/-! ## C59 -/

/-- **C59** (stores). Whatever is put, taken and interrupted, in whatever order, a store never holds more
items than its capacity. For every kind of store (`TakesOne` holds for all of them, see the examples). -/
theorem c59_store_capacity (c : Cfg ι γ ν) (hc : TakesOne c) (n : Nat) (t0 : Rat) (ops : List (Op ι γ)) :
    (run c (init c (some n) t0) ops).items.length ≤ n := by
  have h := run_induct c (P := fun s => Room s ∧ s.cap = some n) ?_ (s := init c (some n) t0)
    ⟨Room.init c _ t0, rfl⟩ ops
  · exact h.1.cap n h.2
  · intro s op hs
    exact ⟨Room.step hc s op hs.1, by rw [step_cap]; exact hs.2⟩

/-- **C59** (stores). A put that finds room enters the store within the call, if no other put waits; the
others wait. -/
theorem c59_put_enters_iff (c : Cfg ι γ ν) (hc : TakesOne c) (n : Nat) (t0 : Rat) (ops : List (Op ι γ))
    (x : ι) (hq : (run c (init c (some n) t0) ops).putQ = []) :
    (run c (init c (some n) t0) (ops ++ [.put x])).items =
      (run c (init c (some n) t0) ops).items ++ (if (run c (init c (some n) t0) ops).items.length < n then [x] else []) ∧
    (x ∈ (run c (init c (some n) t0) (ops ++ [.put x])).putQ.map (·.2) ↔
      (run c (init c (some n) t0) ops).items.length = n) := by
  have hle := c59_store_capacity c hc n t0 ops
  have hcap : (run c (init c (some n) t0) ops).cap = some n :=
    run_induct c (P := fun s => s.cap = some n) (fun s op hs => by rw [step_cap]; exact hs) rfl ops
  rw [run_append]
  generalize run c (init c (some n) t0) ops = s at *
  show (doPut c s x).items = _ ∧ (x ∈ (doPut c s x).putQ.map (·.2) ↔ _)
  unfold doPut trigPut
  simp only [enqPut, hq, List.nil_append, hasRoom, hcap, decide_eq_true_eq]
  split
  · rename_i hr
    rw [record_fields, record_fields]
    simp; omega
  · rename_i hr
    rw [record_fields]
    simp; omega

/-- `TakesOne` holds for the three kinds of store, and a second put into a store for one waits. -/
example : TakesOne (⟨fifoSel, false, List.length⟩ : Cfg Nat Unit Nat) ∧
    TakesOne (⟨filterSel (fun a b => a == b), true, List.length⟩ : Cfg Nat (Nat → Bool) Nat) ∧
    TakesOne (⟨sortedSel (κ := Nat) (fun a b => a == b) (fun x => x != 0), true, List.length⟩ : Cfg Nat _ Nat) :=
  ⟨fifo_takesOne _, filter_takesOne _ (by simp) _, sorted_takesOne _ (by simp) _ _⟩

example : let c : Cfg Nat Unit Nat := ⟨fifoSel, false, List.length⟩
    let s := run c (init c (some 1) 0) [.put 5, .put 7]
    s.items = [5] ∧ s.putQ = [(1, 7)] := by decide +kernel

/-! ## C58 -/

/-- **C58** (plain stores). Whatever is put, taken and interrupted, at every instant in which the kernel
has no triggered request left to process: if a get waits the store is empty, and if a put waits the store
is full. -/
theorem c58_store (f : List ι → ν) (cap : Option Nat) (t0 : Rat) (ops : List (Op ι Unit)) :
    let s := run ⟨fifoSel, false, f⟩ (init ⟨fifoSel, false, f⟩ cap t0) ops
    s.evq = [] → (s.getQ = [] ∨ s.items = []) ∧ (s.putQ = [] ∨ cap = some s.items.length) := by
  intro s he
  have hroom := room_run (fifo_takesOne f) cap t0 ops
  have hfed : Fed s := run_induct _ (P := Fed) (fun s op hs => Fed.step s op hs) (.inl rfl) ops
  refine ⟨?_, hroom he⟩
  rcases hfed with h | h
  · exact .inl h
  · rw [he] at h
    exact .inr (List.length_eq_zero_iff.1 (Nat.le_zero.1 h))

/-- A full store with a waiting put; then a get is served and, once processed, the put enters. -/
example : let c : Cfg Nat Unit Nat := ⟨fifoSel, false, List.length⟩
    let s := run c (init c (some 1) 0) [.put 5, .put 7, .process]
    let s' := run c s [.get (), .process, .process]
    s.evq = [] ∧ s.putQ = [(1, 7)] ∧ s'.evq = [] ∧ s'.putQ = [] ∧ s'.items = [7] ∧ s'.delivered = [(2, 5)] := by
  decide +kernel

/-- **C58** (`FilterStore`). At every instant with nothing left to process, no waiting get has a matching
item in the store, and if a put waits the store is full. `==` need only be reflexive. -/
theorem c58_filter_store (eqv : ι → ι → Bool) (hr : ∀ x, eqv x x = true) (f : List ι → ν)
    (cap : Option Nat) (t0 : Rat) (ops : List (Op ι (ι → Bool))) :
    let s := run ⟨filterSel eqv, true, f⟩ (init ⟨filterSel eqv, true, f⟩ cap t0) ops
    s.evq = [] → (∀ p ∈ s.getQ, ∀ x ∈ s.items, p.2 x = false) ∧ (s.putQ = [] ∨ cap = some s.items.length) := by
  intro s he
  have hroom := room_run (filter_takesOne eqv hr f) cap t0 ops
  have hs : Sought ⟨filterSel eqv, true, f⟩ s :=
    run_induct _ (P := Sought ⟨filterSel eqv, true, f⟩)
      (fun s op hs => Sought.step rfl (filter_mono eqv f) s op hs) (.inl (by simp [init])) ops
  refine ⟨?_, hroom he⟩
  rcases hs with h | h
  · intro p hp x hx
    have h1 := h p hp
    simp only [filterSel] at h1
    split at h1
    · rename_i hn
      have := List.find?_eq_none.1 hn x hx
      simpa using this
    · simp at h1
  · rw [he] at h
    simp [putsPending] at h

/-- Two gets wait; a put serves the younger one, whose filter matches. -/
example : let c : Cfg Nat (Nat → Bool) Nat := ⟨filterSel (fun a b => a == b), true, List.length⟩
    let s := run c (init c none 0) [.get (fun x => x == 3), .get (fun x => x == 5), .put 5, .put 6, .process,
      .process, .process]
    s.evq = [] ∧ s.getQ.map (·.1) = [0] ∧ s.items = [6] ∧ s.delivered = [(1, 5)] := by decide +kernel

/-- **C58** (`SortedFilterStore`), full statement: as for `FilterStore`. *Missing*: items whose truth value
is `False` (`c58_falsy_waits`). -/
theorem c58_sorted_store_partial [LinearOrder κ] (eqv : ι → ι → Bool) (hr : ∀ x, eqv x x = true)
    (truthy : ι → Bool) (ht : ∀ x, truthy x = true) (f : List ι → ν) (cap : Option Nat) (t0 : Rat)
    (ops : List (Op ι (SReq ι κ))) :
    let s := run ⟨sortedSel eqv truthy, true, f⟩ (init ⟨sortedSel eqv truthy, true, f⟩ cap t0) ops
    s.evq = [] → (∀ p ∈ s.getQ, ∀ x ∈ s.items, p.2.filter x = false) ∧
      (s.putQ = [] ∨ cap = some s.items.length) := by
  intro s he
  have hroom := room_run (sorted_takesOne (κ := κ) eqv hr truthy f) cap t0 ops
  have hs : Sought ⟨sortedSel eqv truthy, true, f⟩ s :=
    run_induct _ (P := Sought ⟨sortedSel eqv truthy, true, f⟩)
      (fun s op hs => Sought.step rfl (sorted_mono eqv truthy ht f) s op hs) (.inl (by simp [init])) ops
  refine ⟨?_, hroom he⟩
  rcases hs with h | h
  · intro p hp x hx
    exact (sortedSel_none eqv truthy ht p.2 s.items).1 (h p hp) x hx
  · rw [he] at h
    simp [putsPending] at h

/-- **C58** fails for a `SortedFilterStore` holding an item with truth value `False` (here the number 0):
the get that accepts everything waits although the store is not empty and nothing is left to process. -/
theorem c58_falsy_waits :
    let c : Cfg Nat (SReq Nat Nat) Nat := ⟨sortedSel (fun a b => a == b) (fun x => x != 0), true, List.length⟩
    let s := run c (init c none 0) [.put 0, .process, .get ⟨fun _ => true, none, false⟩]
    s.evq = [] ∧ s.getQ.map (·.1) = [1] ∧ s.items = [0] := by decide +kernel

/-- The hypotheses of `c58_sorted_store_partial` are met by items that are always true. -/
example : let c : Cfg Nat (SReq Nat Nat) Nat := ⟨sortedSel (fun a b => a == b) (fun _ => true), true, List.length⟩
    let s := run c (init c (some 2) 0) [.put 0, .put 4, .put 6, .process, .process,
      .get ⟨fun x => x == 6, some id, true⟩, .get ⟨fun x => x < 5, some id, true⟩, .process, .process, .process]
    s.evq = [] ∧ s.getQ = [] ∧ s.items = [0] ∧ s.delivered.map (·.2) = [4, 6] := by decide +kernel

/-- **C58** (settling). Every triggered request is processed within the instant: however many requests are
waiting, finitely many kernel steps leave nothing to process, and the clock has not moved. -/
theorem c58_store_settles (c : Cfg ι γ ν) (s : St ι γ ν) :
    ∃ k, (run c s (List.replicate k .process)).evq = [] ∧
      (run c s (List.replicate k .process)).now = s.now := by
  generalize hm : measure s = m
  induction m using Nat.strongRecOn generalizing s with
  | ind m ih =>
    by_cases he : s.evq = []
    · exact ⟨0, he, rfl⟩
    · have hlt := measure_process c s he
      obtain ⟨k, h1, h2⟩ := ih _ (hm ▸ hlt) (doProcess c s) rfl
      refine ⟨k + 1, ?_, ?_⟩
      · rw [List.replicate_succ]; exact h1
      · rw [List.replicate_succ]
        show (run c (doProcess c s) (List.replicate k .process)).now = _
        rw [h2, process_now]

end
end Verif.Store
