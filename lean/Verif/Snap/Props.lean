import Verif.Snap.Model

/-! # C81: data recorded with a copy is a snapshot -/

namespace Verif.Snap

/-! ## What can be seen -/

/-- What is found when the keys of a path are followed from a value: `some (some a)` for an atom, `some none` for an object, `none` if
there is no such key on the way. -/
def look (h : Nat → Nat → Option Val) : Val → List Nat → Option (Option Nat)
  | .atom a, [] => some (some a)
  | .ref _, [] => some none
  | .atom _, _ :: _ => none
  | .ref i, k :: p =>
    match h i k with
    | none => none
    | some v => look h v p

/-- Two values look the same, at all depths, each at its time. -/
def Same (h h' : Nat → Nat → Option Val) (v v' : Val) : Prop := ∀ p, look h' v' p = look h v p

/-- The operation does not hand the recorded list to the program. -/
def Op.private : Op → Bool
  | .take _ _ | .append _ _ | .clear => false
  | _ => true

/-! ## The list -/

/-- What the operation adds to the record. -/
def Op.adds (s : St) : Op → List Rat
  | .record _ copy fails => if copy && fails then [] else [s.now]
  | _ => []

/-- The times of what is recorded in a history. -/
def times (s : St) : List Op → List Rat
  | [] => []
  | o :: r => Op.adds s o ++ times (step s o).1 r

/-- What was there stays. -/
theorem step_prefix (s : St) (o : Op) (ho : o.private = true) :
    ∃ l, (step s o).1.recorded = s.recorded ++ l ∧ l.map (·.1) = o.adds s := by
  have none : ∀ t : St, t.recorded = s.recorded → ∃ l, t.recorded = s.recorded ++ l ∧ l.map (·.1) = ([] : List Rat) :=
    fun t h => ⟨[], by simp [h], rfl⟩
  cases o with
  | record x copy fails =>
    cases copy with
    | false => exact ⟨[(s.now, s.vars x)], rfl, rfl⟩
    | true =>
      cases fails with
      | true => exact none _ rfl
      | false => exact ⟨[(s.now, shift s.next (s.vars x))], rfl, rfl⟩
  | take x i => cases ho
  | append t x => cases ho
  | clear => cases ho
  | atom x a => exact none _ rfl
  | new x => exact none _ rfl
  | move x y => exact none _ rfl
  | write x k y =>
    simp only [step, Op.adds]
    split <;> exact none _ rfl
  | del x k =>
    simp only [step, Op.adds]
    split
    · exact none _ rfl
    · split <;> exact none _ rfl
  | read x y k =>
    simp only [step, Op.adds]
    split
    · exact none _ rfl
    · split <;> exact none _ rfl
  | advance t =>
    simp only [step, Op.adds]
    split <;> exact none _ rfl

/-- **C81.** What is recorded stays recorded, in the order of the calls, each with the time of its call, and nothing else is
recorded: a call whose copy fails records nothing. For programs that leave alone the list they get; `c81_list` is about the others. -/
theorem c81_recorded (ops : List Op) (hp : ∀ o ∈ ops, o.private = true) (s : St) :
    ∃ l, (run s ops).recorded = s.recorded ++ l ∧ l.map (·.1) = times s ops := by
  induction ops generalizing s with
  | nil => exact ⟨[], by simp [run], rfl⟩
  | cons o r ih =>
    obtain ⟨a, ha, ta⟩ := step_prefix s o (hp o List.mem_cons_self)
    obtain ⟨b, hb, tb⟩ := ih (fun o ho => hp o (List.mem_cons_of_mem _ ho)) (step s o).1
    refine ⟨a ++ b, ?_, ?_⟩
    · rw [show run s (o :: r) = run (step s o).1 r from rfl, hb, ha, List.append_assoc]
    · rw [List.map_append, ta, tb]
      rfl

/-! ## Snapshots -/

/-- The value is an atom or one of the objects there are. -/
def Val.below (n : Nat) : Val → Prop
  | .atom _ => True
  | .ref i => i < n

/-- All references are to objects there are. -/
structure Wf (s : St) : Prop where
  vars : ∀ x, (s.vars x).below s.next
  heap : ∀ i k v, s.heap i k = some v → v.below s.next
  void : ∀ i k, s.next ≤ i → s.heap i k = none
  recorded : ∀ e ∈ s.recorded, e.2.below s.next

theorem Val.below.mono {n m : Nat} (h : n ≤ m) {v : Val} (hv : v.below n) : v.below m := by
  cases v with
  | atom a => trivial
  | ref i => exact Nat.lt_of_lt_of_le hv h

theorem shift_below {n : Nat} {v : Val} (hv : v.below n) : (shift n v).below (n + n) := by
  cases v with
  | atom a => trivial
  | ref i => exact Nat.add_lt_add_left hv n

theorem wf_init (t : Rat) : Wf (init t) :=
  ⟨fun _ => trivial, fun _ _ _ h => (nomatch h), fun _ _ _ => rfl, fun _ h => (nomatch h)⟩

theorem wf_vars {s : St} (h : Wf s) (x : Nat) {v : Val} (hv : v.below s.next) : Wf { s with vars := upd s.vars x v } := by
  refine ⟨fun y => ?_, h.heap, h.void, h.recorded⟩
  simp only [upd]
  split
  · exact hv
  · exact h.vars y

theorem wf_heap {s : St} (h : Wf s) {i : Nat} (hi : i < s.next) (k : Nat) {v : Option Val} (hv : ∀ w, v = some w → w.below s.next) :
    Wf { s with heap := upd s.heap i (upd (s.heap i) k v) } := by
  refine ⟨h.vars, fun j l w hw => ?_, fun j l hj => ?_, h.recorded⟩
  · simp only [upd] at hw
    split at hw
    · simp only [upd] at hw
      split at hw
      · exact hv w hw
      · exact h.heap i l w hw
    · exact h.heap j l w hw
  · simp only [upd]
    rw [if_neg (Nat.ne_of_gt (Nat.lt_of_lt_of_le hi hj))]
    exact h.void j l hj

theorem wf_record {s : St} (h : Wf s) (t : Rat) {v : Val} (hv : v.below s.next) : Wf { s with recorded := s.recorded ++ [(t, v)] } := by
  refine ⟨h.vars, h.heap, h.void, fun e he => ?_⟩
  rcases List.mem_append.1 he with he | he
  · exact h.recorded e he
  · rw [List.mem_singleton.1 he]
    exact hv

theorem wf_copy {s : St} (h : Wf s) : Wf (deepcopy s) := by
  have le : s.next ≤ s.next + s.next := Nat.le_add_right _ _
  refine ⟨fun x => (h.vars x).mono le, fun i k v hv => ?_, fun i k hi => ?_, fun e he => (h.recorded e he).mono le⟩
  · simp only [deepcopy] at hv ⊢
    split at hv
    · exact (h.heap i k v hv).mono le
    · split at hv
      · obtain ⟨w, hw, rfl⟩ := Option.map_eq_some_iff.1 hv
        exact shift_below (h.heap _ k w hw)
      · exact (h.heap i k v hv).mono le
  · simp only [deepcopy] at hi ⊢
    rw [if_neg (by omega), if_neg (by omega)]
    exact h.void i k (by omega)

theorem wf_step {s : St} (h : Wf s) (o : Op) : Wf (step s o).1 := by
  cases o with
  | atom x a => exact wf_vars h x trivial
  | new x =>
    have le : s.next ≤ s.next + 1 := Nat.le_succ _
    refine ⟨fun y => ?_, fun i k v hv => ?_, fun i k hi => ?_, fun e he => (h.recorded e he).mono le⟩
    · simp only [step, upd]
      split
      · exact Nat.lt_succ_self _
      · exact (h.vars y).mono le
    · simp only [step, upd] at hv ⊢
      split at hv
      · cases hv
      · exact (h.heap i k v hv).mono le
    · simp only [step, upd] at hi ⊢
      split
      · rfl
      · exact h.void i k (by omega)
  | move x y => exact wf_vars h x (h.vars y)
  | write x k y =>
    have hx := h.vars x
    simp only [step]
    split
    · exact h
    · rename_i i e
      rw [e] at hx
      exact wf_heap h hx k (fun w hw => Option.some.inj hw ▸ h.vars y)
  | del x k =>
    have hx := h.vars x
    simp only [step]
    split
    · exact h
    · rename_i i e
      rw [e] at hx
      split
      · exact wf_heap h hx k (fun w hw => by cases hw)
      · exact h
  | read x y k =>
    simp only [step]
    split
    · exact h
    · split
      · exact h
      · rename_i v e
        exact wf_vars h x (h.heap _ k v e)
  | record x copy fails =>
    simp only [step, record]
    split
    · split
      · exact h
      · exact wf_record (wf_copy h) s.now (shift_below (h.vars x))
    · exact wf_record h s.now (h.vars x)
  | take x i =>
    simp only [step]
    split
    · exact h
    · rename_i e he
      exact wf_vars h x (h.recorded e (List.mem_of_getElem? he))
  | append t x => exact wf_record h t (h.vars x)
  | clear => exact ⟨h.vars, h.heap, h.void, fun e he => by cases he⟩
  | advance t =>
    simp only [step]
    split
    · exact ⟨h.vars, h.heap, h.void, h.recorded⟩
    · exact h

theorem wf_run (ops : List Op) : ∀ {s : St}, Wf s → Wf (run s ops) := by
  induction ops with
  | nil => exact fun h => h
  | cons o r ih => exact fun h => ih (wf_step h o)

/-- The copy looks like the original, at all depths. -/
theorem look_copy {s : St} (h : Wf s) : ∀ (p : List Nat) (v : Val), v.below s.next →
    look (deepcopy s).heap (shift s.next v) p = look s.heap v p
  | [], .atom _, _ => rfl
  | [], .ref _, _ => rfl
  | _ :: _, .atom _, _ => rfl
  | k :: p, .ref i, hv => by
    have hv' : i < s.next := hv
    have e : (deepcopy s).heap (s.next + i) k = (s.heap i k).map (shift s.next) := by
      simp only [deepcopy]
      rw [if_neg (by omega), if_pos (by omega), Nat.add_sub_cancel_left]
    simp only [shift, look, e]
    cases hk : s.heap i k with
    | none => rfl
    | some w => exact look_copy h p w (h.heap i k w hk)

/-- The objects from `a` to `b` are sealed: nobody outside refers to them, and they are as in `h0`. -/
structure Sealed (a b : Nat) (h0 : Nat → Nat → Option Val) (i : Nat) (v : Val) (s : St) : Prop where
  room : b ≤ s.next
  same : ∀ j, a ≤ j → j < b → s.heap j = h0 j
  vars : ∀ x j, s.vars x = .ref j → j < a ∨ b ≤ j
  outside : ∀ x k j, x < a ∨ b ≤ x → s.heap x k = some (.ref j) → j < a ∨ b ≤ j
  entry : ∃ t, s.recorded[i]? = some (t, v)
  others : ∀ j e n, j ≠ i → s.recorded[j]? = some e → e.2 = .ref n → n < a ∨ b ≤ n

/-- The operation does not hand out entry `i` of the record. -/
def Op.leaves (i : Nat) : Op → Bool
  | .take _ j => j != i
  | .append _ _ | .clear => false
  | _ => true

theorem seal_vars {a b : Nat} {h0 : Nat → Nat → Option Val} {i : Nat} {v : Val} {s : St} (h : Sealed a b h0 i v s) (x : Nat) {w : Val}
    (hw : ∀ j, w = .ref j → j < a ∨ b ≤ j) : Sealed a b h0 i v { s with vars := upd s.vars x w } := by
  refine ⟨h.room, h.same, fun y j e => ?_, h.outside, h.entry, h.others⟩
  simp only [upd] at e
  split at e
  · exact hw j e
  · exact h.vars y j e

theorem seal_heap {a b : Nat} {h0 : Nat → Nat → Option Val} {i : Nat} {v : Val} {s : St} (h : Sealed a b h0 i v s) {n : Nat}
    (hn : n < a ∨ b ≤ n) (k : Nat) {w : Option Val} (hw : ∀ j, w = some (.ref j) → j < a ∨ b ≤ j) :
    Sealed a b h0 i v { s with heap := upd s.heap n (upd (s.heap n) k w) } := by
  refine ⟨h.room, fun j h1 h2 => ?_, h.vars, fun x l j hx e => ?_, h.entry, h.others⟩
  · simp only [upd]
    rw [if_neg (by omega)]
    exact h.same j h1 h2
  · simp only [upd] at e
    split at e
    · rename_i hxn
      simp only [upd] at e
      split at e
      · exact hw j e
      · exact h.outside n l j (hxn ▸ hx) e
    · exact h.outside x l j hx e

theorem seal_record {a b : Nat} {h0 : Nat → Nat → Option Val} {i : Nat} {v : Val} {s : St} (h : Sealed a b h0 i v s) (t : Rat) {w : Val}
    (hw : ∀ j, w = .ref j → j < a ∨ b ≤ j) : Sealed a b h0 i v { s with recorded := s.recorded ++ [(t, w)] } := by
  obtain ⟨t0, e0⟩ := h.entry
  have hi : i < s.recorded.length := (List.getElem?_eq_some_iff.1 e0).1
  refine ⟨h.room, h.same, h.vars, h.outside, ⟨t0, by simp only; rw [List.getElem?_append_left hi]; exact e0⟩, fun j e n hj he hn => ?_⟩
  simp only at he
  by_cases hl : j < s.recorded.length
  · rw [List.getElem?_append_left hl] at he
    exact h.others j e n hj he hn
  · rw [List.getElem?_append_right (Nat.le_of_not_lt hl)] at he
    have : e = (t, w) := by
      rcases hd : j - s.recorded.length with _ | m
      · rw [hd] at he; exact (Option.some.inj he).symm
      · rw [hd] at he; simp at he
    subst this
    exact hw n hn

theorem seal_copy {a b : Nat} {h0 : Nat → Nat → Option Val} {i : Nat} {v : Val} {s : St} (h : Sealed a b h0 i v s) :
    Sealed a b h0 i v (deepcopy s) := by
  have hr := h.room
  refine ⟨by simp only [deepcopy]; omega, fun j h1 h2 => ?_, h.vars, fun x k j hx e => ?_, h.entry, h.others⟩
  · rw [← h.same j h1 h2]
    funext k
    simp only [deepcopy]
    rw [if_pos (by omega)]
  · simp only [deepcopy] at e
    split at e
    · exact h.outside x k j hx e
    · split at e
      · obtain ⟨w, _, ew⟩ := Option.map_eq_some_iff.1 e
        cases w with
        | atom a => cases ew
        | ref m =>
          simp only [shift, Val.ref.injEq] at ew
          omega
      · exact h.outside x k j hx e

theorem seal_step {a b : Nat} {h0 : Nat → Nat → Option Val} {i : Nat} {v : Val} {s : St} (hw : Wf s) (h : Sealed a b h0 i v s) (o : Op)
    (ho : o.leaves i = true) : Sealed a b h0 i v (step s o).1 := by
  have hr := h.room
  cases o with
  | atom x a => exact seal_vars h x (fun j e => by cases e)
  | new x =>
    refine ⟨by simp only [step]; omega, fun j h1 h2 => ?_, fun y j e => ?_, fun y k j hy e => ?_, h.entry, h.others⟩
    · simp only [step, upd]
      rw [if_neg (by omega)]
      exact h.same j h1 h2
    · simp only [step, upd] at e
      split at e
      · simp only [Val.ref.injEq] at e
        omega
      · exact h.vars y j e
    · simp only [step, upd] at e
      split at e
      · cases e
      · exact h.outside y k j hy e
  | move x y => exact seal_vars h x (h.vars y)
  | write x k y =>
    simp only [step]
    split
    · exact h
    · rename_i n e
      exact seal_heap h (h.vars x n e) k (fun j e => h.vars y j (Option.some.inj e))
  | del x k =>
    simp only [step]
    split
    · exact h
    · rename_i n e
      split
      · exact seal_heap h (h.vars x n e) k (fun j e => by cases e)
      · exact h
  | read x y k =>
    simp only [step]
    split
    · exact h
    · rename_i n e
      split
      · exact h
      · rename_i w ew
        exact seal_vars h x (fun j ej => h.outside n k j (h.vars y n e) (ej ▸ ew))
  | record x copy fails =>
    simp only [step, record]
    split
    · split
      · exact h
      · refine seal_record (seal_copy h) s.now (fun j e => ?_)
        cases ev : s.vars x with
        | atom a => rw [ev] at e; cases e
        | ref m =>
          rw [ev] at e
          simp only [shift, Val.ref.injEq] at e
          omega
    · exact seal_record h s.now (h.vars x)
  | take x j =>
    have hj : j ≠ i := by simpa [Op.leaves] using ho
    simp only [step]
    split
    · exact h
    · rename_i e he
      exact seal_vars h x (fun n en => h.others j e n hj he en)
  | append t x => cases ho
  | clear => cases ho
  | advance t =>
    simp only [step]
    split
    · exact ⟨h.room, h.same, h.vars, h.outside, h.entry, h.others⟩
    · exact h

theorem seal_run {a b : Nat} {h0 : Nat → Nat → Option Val} {i : Nat} {v : Val} (ops : List Op) : ∀ {s : St}, Wf s → Sealed a b h0 i v s →
    (∀ o ∈ ops, o.leaves i = true) → Sealed a b h0 i v (run s ops) := by
  induction ops with
  | nil => exact fun _ h _ => h
  | cons o r ih =>
    exact fun hw h ho => ih (wf_step hw o) (seal_step hw h o (ho o List.mem_cons_self)) (fun o h => ho o (List.mem_cons_of_mem _ h))

/-- What is sealed is looked at inside. -/
theorem look_sealed {a b : Nat} {h0 h1 : Nat → Nat → Option Val} (hs : ∀ j, a ≤ j → j < b → h1 j = h0 j)
    (hc : ∀ j k m, a ≤ j → j < b → h0 j k = some (.ref m) → a ≤ m ∧ m < b) : ∀ (p : List Nat) (v : Val),
    (∀ j, v = .ref j → a ≤ j ∧ j < b) → look h1 v p = look h0 v p
  | [], .atom _, _ => rfl
  | [], .ref _, _ => rfl
  | _ :: _, .atom _, _ => rfl
  | k :: p, .ref i, hv => by
    obtain ⟨h2, h3⟩ := hv i rfl
    simp only [look, hs i h2 h3]
    cases hk : h0 i k with
    | none => rfl
    | some w => exact look_sealed hs hc p w (fun j e => hc i k j h2 h3 (e ▸ hk))

/-- **C81.** Data recorded with a copy is a snapshot: whatever the program does before and after, to the data and to anything it
refers to, at any depth, with any sharing and cycles, the entry shows for ever what the data showed when it was recorded. For programs that leave that
very entry, and the list, alone; `c81_taken` and `c81_list` are about the others. -/
theorem c81_snapshot (t : Rat) (before after : List Op) (x : Nat)
    (ha : ∀ o ∈ after, o.leaves (run (init t) before).recorded.length = true) :
    let s := run (init t) before
    let s' := run (step s (.record x true false)).1 after
    ∃ v, s'.recorded[s.recorded.length]? = some (s.now, v) ∧ Same s.heap s'.heap (s.vars x) v := by
  intro s s'
  have hw : Wf s := wf_run before (wf_init t)
  have hw1 := wf_step hw (.record x true false)
  have lt : ∀ n : Nat, n < s.next + s.next → ¬ n < s.next → n - s.next < s.next := by intro n; omega
  have hS : Sealed s.next (s.next + s.next) (deepcopy s).heap s.recorded.length (shift s.next (s.vars x)) (step s (.record x true false)).1 := by
    refine ⟨Nat.le_refl _, fun _ _ _ => rfl, fun y j e => ?_, fun y k j hy e => ?_, ⟨s.now, ?_⟩, fun j e n hj he hn => ?_⟩
    · have := hw.vars y
      rw [show s.vars y = .ref j from e] at this
      exact Or.inl this
    · rcases hy with hy | hy
      · have e' : s.heap y k = some (.ref j) := by
          have : (deepcopy s).heap y k = some (.ref j) := e
          simp only [deepcopy] at this
          rwa [if_pos hy] at this
        exact Or.inl (hw.heap y k _ e')
      · have e' : (deepcopy s).heap y k = some (.ref j) := e
        simp only [deepcopy] at e'
        rw [if_neg (by omega), if_neg (by omega), hw.void y k (by omega)] at e'
        cases e'
    · simp [step, record]
    · have he' : (s.recorded ++ [(s.now, shift s.next (s.vars x))])[j]? = some e := he
      by_cases hl : j < s.recorded.length
      · rw [List.getElem?_append_left hl] at he'
        have := hw.recorded e (List.mem_of_getElem? he')
        rw [hn] at this
        exact Or.inl this
      · rw [List.getElem?_append_right (Nat.le_of_not_lt hl)] at he'
        rcases hd : j - s.recorded.length with _ | m
        · omega
        · rw [hd] at he'; simp at he'
  have hS' := seal_run after hw1 hS ha
  have inside : ∀ j, shift s.next (s.vars x) = .ref j → s.next ≤ j ∧ j < s.next + s.next := by
    intro j e
    have := hw.vars x
    cases ev : s.vars x with
    | atom a => rw [ev] at e; cases e
    | ref m =>
      rw [ev] at e this
      simp only [shift, Val.ref.injEq] at e
      have : m < s.next := this
      omega
  have closed : ∀ j k m, s.next ≤ j → j < s.next + s.next → (deepcopy s).heap j k = some (.ref m) → s.next ≤ m ∧ m < s.next + s.next := by
    intro j k m h1 h2 e
    simp only [deepcopy] at e
    rw [if_neg (by omega), if_pos h2] at e
    obtain ⟨w, hk, ew⟩ := Option.map_eq_some_iff.1 e
    have := hw.heap _ k w hk
    cases w with
    | atom a => cases ew
    | ref q =>
      simp only [shift, Val.ref.injEq] at ew
      have : q < s.next := this
      omega
  obtain ⟨t', e'⟩ := hS'.entry
  have ht : t' = s.now := by
    -- the entry stays where it is
    have : ∀ (ops : List Op) (r : St), Wf r → (∀ o ∈ ops, o.leaves s.recorded.length = true) →
        r.recorded[s.recorded.length]? = some (s.now, shift s.next (s.vars x)) →
        (run r ops).recorded[s.recorded.length]? = some (s.now, shift s.next (s.vars x)) := by
      intro ops
      induction ops with
      | nil => exact fun r _ _ h => h
      | cons o l ih =>
        intro r hr ho h
        refine ih _ (wf_step hr o) (fun o h => ho o (List.mem_cons_of_mem _ h)) ?_
        have hl := ho o List.mem_cons_self
        have keep : ∀ r' : St, r'.recorded = r.recorded → r'.recorded[s.recorded.length]? = some (s.now, shift s.next (s.vars x)) :=
          fun r' e => by rw [e]; exact h
        by_cases hpv : o.private = true
        · obtain ⟨l, e, _⟩ := step_prefix r o hpv
          rw [e, List.getElem?_append_left (List.getElem?_eq_some_iff.1 h).1]
          exact h
        · cases o with
          | take y j =>
            simp only [step]
            split
            · exact h
            · exact keep _ rfl
          | append _ _ => cases hl
          | clear => cases hl
          | _ => exact absurd rfl hpv
    have h1 := this after _ hw1 ha (by simp [step, record])
    exact congrArg Prod.fst (Option.some.inj (e'.symm.trans h1))
  subst ht
  refine ⟨_, e', fun p => ?_⟩
  rw [look_sealed hS'.same closed p _ inside]
  exact look_copy hw p _ (hw.vars x)

/-- **C81.** Data recorded without a copy is the object itself: the entry shows whatever the object shows, at any later time. -/
theorem c81_live (s : St) (x : Nat) (after : List Op) (hp : ∀ o ∈ after, o.private = true) (fails : Bool) :
    (run (step s (.record x false fails)).1 after).recorded[s.recorded.length]? = some (s.now, s.vars x) := by
  obtain ⟨l, e, _⟩ := c81_recorded after hp (step s (.record x false fails)).1
  rw [e, List.getElem?_append_left (by simp [step, record])]
  simp [step, record]

/-- Recording, with or without a copy, changes nothing for the program: its variables show what they did. -/
theorem c81_harmless (t : Rat) (ops : List Op) (x : Nat) (copy fails : Bool) :
    let s := run (init t) ops
    let s' := (step s (.record x copy fails)).1
    s'.now = s.now ∧ ∀ y, s'.vars y = s.vars y ∧ Same s.heap s'.heap (s.vars y) (s'.vars y) := by
  intro s s'
  have hw : Wf s := wf_run ops (wf_init t)
  have hl : ∀ (p : List Nat) (v : Val), v.below s.next → look (deepcopy s).heap v p = look s.heap v p := by
    intro p
    induction p with
    | nil => intro v _; cases v <;> rfl
    | cons k p ih =>
      intro v hv
      cases v with
      | atom a => rfl
      | ref i =>
        have e : (deepcopy s).heap i k = s.heap i k := by simp only [deepcopy]; rw [if_pos (show i < s.next from hv)]
        simp only [look, e]
        cases hk : s.heap i k with
        | none => rfl
        | some w => exact ih w (hw.heap i k w hk)
  cases copy with
  | false => exact ⟨rfl, fun y => ⟨rfl, fun p => rfl⟩⟩
  | true =>
    cases fails with
    | true => exact ⟨rfl, fun y => ⟨rfl, fun p => rfl⟩⟩
    | false => exact ⟨rfl, fun y => ⟨rfl, fun p => hl p _ (hw.vars y)⟩⟩

/-- A basket in a shop that is in the basket's shop again: `basket = {}; shop = {1: basket}; basket[2] = shop; basket[3] = 7`. -/
def demo : List Op := [.new 0, .new 1, .write 1 1 0, .write 0 2 1, .atom 2 7, .write 0 3 2, .advance 5]

/-- It is recorded with a copy, then emptied, the shop too; another entry is taken and written to. -/
def later : List Op := [.record 0 false false, .del 0 3, .del 1 1, .take 4 1, .write 4 9 4, .record 1 true false, .new 0, .record 0 true true]

example : ∀ o ∈ later, o.leaves (run (init 0) demo).recorded.length = true := by decide

example : let s := run (step (run (init 0) demo) (.record 0 true false)).1 later
    s.recorded.length = 3 ∧ (∃ v, s.recorded[0]? = some (5, v) ∧ look s.heap v [2, 1, 2, 1, 3] = some (some 7)) ∧
      ∃ v, s.recorded[1]? = some (5, v) ∧ look s.heap v [3] = none ∧ look s.heap v [9, 9, 9] = some none :=
  ⟨by decide +kernel, ⟨.ref 2, by decide +kernel, by decide +kernel⟩, ⟨.ref 0, by decide +kernel, by decide +kernel, by decide +kernel⟩⟩

/-- **C81: the copy is needed.** Without a copy, what is recorded changes with the object. -/
theorem c81_changes : ∃ (ops after : List Op) (x : Nat), (∀ o ∈ after, o.private = true) ∧
    let s := run (init 0) ops
    let s' := run (step s (.record x false false)).1 after
    look s.heap (s.vars x) [3] = some (some 7) ∧ ∃ v, s'.recorded[0]? = some (5, v) ∧ look s'.heap v [3] = none :=
  ⟨demo, [.del 0 3], 0, by decide, by decide +kernel, .ref 0, by decide +kernel, by decide +kernel⟩

/-- **C81: the guard is needed.** Who asks for the data gets the copy itself, and may change it. -/
theorem c81_taken : ∃ (ops after : List Op) (x : Nat), (∀ o ∈ after, o ≠ .clear ∧ ∀ t y, o ≠ .append t y) ∧
    let s := run (init 0) ops
    let s' := run (step s (.record x true false)).1 after
    look s.heap (s.vars x) [3] = some (some 7) ∧ ∃ v, s'.recorded[0]? = some (5, v) ∧ look s'.heap v [3] = none :=
  ⟨demo, [.take 5 0, .del 5 3], 0, by simp, by decide +kernel, .ref 2, by decide +kernel, by decide +kernel⟩

/-- **C81: the guard is needed.** The list is handed out itself: changing it changes what is recorded, also with times that never were. -/
theorem c81_list : ∃ ops : List Op, (∀ o ∈ ops, ∀ x c f, o ≠ .record x c f) ∧ (run (init 0) ops).recorded = [(100, .atom 0)] :=
  ⟨[.append 100 0], by simp, by decide +kernel⟩

end Verif.Snap
