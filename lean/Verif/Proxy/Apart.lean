import Verif.Proxy.Step

/-!
# Whose object is whose

What holds of every program, without conditions: a proxy goes on looking at the object of its state, and no two dictionary
states have one dictionary.
-/

namespace Verif.Proxy

open Spec (Declared)

variable {V : Type} [DecidableEq V] {C : Cfg V} {σ τ : St V}

/-- The ways to read. -/
def reads : POp V → Bool
  | .getItem _ | .has _ | .len | .keys | .items | .getAttr _ => true
  | _ => false

/-- What a read says of an object. -/
def told (C : Cfg V) (σ : St V) (x : Px V) (op : POp V) : Option (Obj V) → Out V
  | none => .impossible
  | some (.dict d) => (dictOp σ x d op).2
  | some (.data c d) => (dataOp C σ x c d op).2

/-- A read depends on the object only. -/
theorem pop_told {q : Nat} {y : Px V} (hy : σ.px[q]? = some y) (τ : St V) (z : Px V) {op : POp V} (h : reads op = true) :
    (pop C σ q op).2 = told C τ z op σ.heap[y.ref]? := by
  unfold pop
  rw [hy]
  simp only
  cases hh : σ.heap[y.ref]? with
  | none => rfl
  | some o => cases o <;> cases op <;> first | rfl | cases h

/-- Only the object at one address, histories and the program's hands differ. -/
structure Only (r : Nat) (σ τ : St V) : Prop where
  px : τ.px = σ.px
  heap : ∀ q, q ≠ r → τ.heap[q]? = σ.heap[q]?
  len : τ.heap.length = σ.heap.length
  kind : ∀ (q : Nat) (d : Dict String V), σ.heap[q]? = some (.dict d) → ∃ e, τ.heap[q]? = some (.dict e)
  actl : τ.actors.length = σ.actors.length
  attr : ∀ (i : Nat) (a : Actor V), τ.actors[i]? = some a → ∃ a0, σ.actors[i]? = some a0 ∧ a.attr = a0.attr

theorem Only.refl (r : Nat) (σ : St V) : Only r σ σ := ⟨rfl, fun _ _ => rfl, rfl, fun _ d h => ⟨d, h⟩, rfl, fun _ a h => ⟨a, h, rfl⟩⟩

theorem Only.trans {r : Nat} {σ τ υ : St V} (h : Only r σ τ) (h' : Only r τ υ) : Only r σ υ := by
  refine ⟨h'.px.trans h.px, fun q hq => (h'.heap q hq).trans (h.heap q hq), h'.len.trans h.len, ?_, h'.actl.trans h.actl, ?_⟩
  · intro q d hd
    obtain ⟨e, he⟩ := h.kind q d hd
    exact h'.kind q e he
  · intro i a ha
    obtain ⟨b, hb, h1⟩ := h'.attr i a ha
    obtain ⟨c, hc, h2⟩ := h.attr i b hb
    exact ⟨c, hc, h1.trans h2⟩

theorem Only.store (σ : St V) (r : Nat) (k : String) (v : V) : Only r σ (store σ r k v) := by
  unfold Verif.Proxy.store
  have key : ∀ o o' : Obj V, σ.heap[r]? = some o → ((∃ d, o = .dict d) → ∃ d, o' = .dict d) →
      Only r σ { σ with heap := σ.heap.set r o' } := by
    intro o o' ho hd
    refine ⟨rfl, ?_, by simp, ?_, rfl, fun _ a h => ⟨a, h, rfl⟩⟩
    · intro q hq
      exact heap_set_ne _ hq
    · intro q d hq
      by_cases hqr : q = r
      · subst hqr
        rw [ho] at hq
        obtain ⟨e, rfl⟩ := hd ⟨d, Option.some.inj hq⟩
        exact ⟨e, heap_set_eq _ ho⟩
      · exact ⟨d, by rw [← hq]; exact heap_set_ne _ hqr⟩
  cases ho : σ.heap[r]? with
  | none => exact Only.refl r σ
  | some o =>
    cases o with
    | dict d => exact key _ _ ho (fun _ => ⟨_, rfl⟩)
    | data c d => exact key _ _ ho (by rintro ⟨e, he⟩; cases he)

theorem recordKey_attr (df : Def V) (now : Rat) (n : Nat) (k : String) (v : V) (a : Actor V) :
    (recordKey df now n k v a).attr = a.attr := by unfold recordKey; split <;> rfl

theorem Only.record (r : Nat) (σ : St V) (x : Px V) (k : String) : Only r σ (recordWrite σ x k) := by
  unfold recordWrite
  split
  · exact Only.refl r σ
  · rename_i a ha
    split
    · exact Only.refl r σ
    · refine ⟨rfl, fun _ _ => rfl, rfl, fun _ d h => ⟨d, h⟩, by simp, ?_⟩
      intro i b hb
      simp only at hb
      by_cases hi : x.actor = i
      · subst hi
        rw [List.getElem?_set_self (List.getElem?_eq_some_iff.mp ha).1] at hb
        obtain rfl := Option.some.inj hb
        exact ⟨a, ha, recordKey_attr ..⟩
      · rw [List.getElem?_set_ne hi] at hb
        exact ⟨b, hb, rfl⟩

theorem Only.setItem (σ : St V) (x : Px V) (k : String) (v : V) : Only x.ref σ (setItem σ x k v).1 := by
  unfold Verif.Proxy.setItem
  split
  · exact (Only.store σ x.ref k v).trans (Only.record _ _ x k)
  · exact Only.store σ x.ref k v

theorem Only.setDefault (σ : St V) (x : Px V) (d : Dict String V) (k : String) (v : V) :
    Only x.ref σ (setDefault σ x d k v).1 := by
  have h := Only.setItem σ x k v
  unfold Verif.Proxy.setDefault
  split
  · exact Only.refl _ σ
  · split
    · rename_i τ hτ
      rw [hτ] at h; exact h
    · exact h

theorem Only.setAttr (C : Cfg V) (σ : St V) (x : Px V) (c : Nat) (d : Dict String V) (k : String) (v : V) :
    Only x.ref σ (setAttr C σ x c d k v).1 := by
  unfold Verif.Proxy.setAttr
  repeat' split
  all_goals first
    | exact Only.refl _ σ
    | exact (Only.store σ x.ref k v).trans (Only.record _ _ x k)

theorem Only.pop (C : Cfg V) (σ : St V) {p : Nat} {x : Px V} (hx : σ.px[p]? = some x) (op : POp V) :
    Only x.ref σ (pop C σ p op).1 := by
  have hraw : ∀ l, Only x.ref σ { σ with mine := l } := fun l =>
    ⟨rfl, fun _ _ => rfl, rfl, fun _ d h => ⟨d, h⟩, rfl, fun _ a h => ⟨a, h, rfl⟩⟩
  unfold Verif.Proxy.pop
  rw [hx]
  simp only
  split
  · exact Only.refl _ σ
  · rename_i d hd
    cases op <;> simp only [dictOp] <;> (try repeat' split) <;>
      first | exact Only.refl _ σ | exact Only.setItem .. | exact Only.setDefault .. | exact hraw _
  · rename_i c d hd
    cases op <;> simp only [dataOp] <;> (try repeat' split) <;>
      first | exact Only.refl _ σ | exact Only.setAttr .. | exact hraw _

/-- Reading through a proxy of another object. -/
theorem pop_apart (C : Cfg V) {p q : Nat} {x y : Px V} (hx : σ.px[p]? = some x) (hy : σ.px[q]? = some y) (hne : y.ref ≠ x.ref)
    (op rd : POp V) (hrd : reads rd = true) : (pop C (pop C σ p op).1 q rd).2 = (pop C σ q rd).2 := by
  have O := Only.pop C σ hx op
  rw [pop_told (σ := (pop C σ p op).1) (y := y) (by rw [O.px]; exact hy) σ y hrd, pop_told hy σ y hrd, O.heap _ hne]

/-- What every program keeps. -/
structure Inv (C : Cfg V) (σ : St V) : Prop where
  px : ∀ (p : Nat) (x : Px V), σ.px[p]? = some x → C.states.get? x.state = some x.df ∧
    ∃ a, σ.actors[x.actor]? = some a ∧ a.attr.get? x.state = some x.ref
  dict : ∀ (i n r : Nat) (a : Actor V) (df : Def V), σ.actors[i]? = some a → a.attr.get? n = some r →
    C.states.get? n = some df → df.kind = .dict → ∃ d, σ.heap[r]? = some (.dict d)
  uniq : ∀ (i j n m r : Nat) (a b : Actor V) (df dg : Def V), σ.actors[i]? = some a → σ.actors[j]? = some b →
    a.attr.get? n = some r → b.attr.get? m = some r → C.states.get? n = some df → C.states.get? m = some dg →
    df.kind = .dict → dg.kind = .dict → i = j ∧ n = m

theorem Inv.init (C : Cfg V) (t0 : Rat) : Inv C (Verif.Proxy.init t0) := by
  refine ⟨?_, ?_, ?_⟩
  · intro p x h; simp [Verif.Proxy.init] at h
  · intro i n r a df h; simp [Verif.Proxy.init] at h
  · intro i j n m r a b df dg h; simp [Verif.Proxy.init] at h

theorem Inv.only (I : Inv C σ) {r : Nat} (O : Only r σ τ) : Inv C τ := by
  have back : ∀ {i : Nat} {a : Actor V}, σ.actors[i]? = some a → ∃ a', τ.actors[i]? = some a' ∧ a'.attr = a.attr := by
    intro i a ha
    obtain ⟨a', ha'⟩ := some_of_len O.actl.symm ha
    obtain ⟨a0, h0, h1⟩ := O.attr i a' ha'
    rw [ha] at h0
    obtain rfl := Option.some.inj h0
    exact ⟨a', ha', h1⟩
  refine ⟨?_, ?_, ?_⟩
  · intro p x hx
    rw [O.px] at hx
    obtain ⟨h1, a, h2, h3⟩ := I.px p x hx
    obtain ⟨a', h4, h5⟩ := back h2
    exact ⟨h1, a', h4, by rw [h5]; exact h3⟩
  · intro i n q a df ha hn hdf hk
    obtain ⟨a0, h0, h1⟩ := O.attr i a ha
    obtain ⟨d, hd⟩ := I.dict i n q a0 df h0 (by rw [← h1]; exact hn) hdf hk
    exact O.kind q d hd
  · intro i j n m q a b df dg ha hb hn hm
    obtain ⟨a0, h0, h1⟩ := O.attr i a ha
    obtain ⟨b0, h2, h3⟩ := O.attr j b hb
    exact I.uniq i j n m q a0 b0 df dg h0 h2 (by rw [← h1]; exact hn) (by rw [← h3]; exact hm)

/-- New objects, and nothing else that matters. -/
theorem Inv.more (I : Inv C σ) (l : List (Obj V)) (m : List Nat) (t : Rat) :
    Inv C { σ with now := t, heap := σ.heap ++ l, mine := m } := by
  refine ⟨I.px, ?_, I.uniq⟩
  intro i n r a df ha hn hdf hk
  obtain ⟨d, hd⟩ := I.dict i n r a df ha hn hdf hk
  exact ⟨d, by rw [← hd]; exact List.getElem?_append_left (List.getElem?_eq_some_iff.mp hd).1⟩

/-- An actor being built. -/
structure Made (C : Cfg V) (σ τ : St V) (a : Actor V) : Prop where
  frame : ∃ l, τ = { σ with heap := σ.heap ++ l }
  dict : ∀ (n r : Nat) (df : Def V), a.attr.get? n = some r → C.states.get? n = some df → df.kind = .dict →
    σ.heap.length ≤ r ∧ ∃ d, τ.heap[r]? = some (.dict d)
  uniq : ∀ (n m r : Nat) (df dg : Def V), a.attr.get? n = some r → a.attr.get? m = some r → C.states.get? n = some df →
    C.states.get? m = some dg → df.kind = .dict → dg.kind = .dict → n = m

theorem Made.init (C : Cfg V) (σ : St V) : Made C σ σ fresh := by
  refine ⟨⟨[], by simp⟩, ?_, ?_⟩
  · intro n r df h; simp [Verif.Proxy.fresh] at h
  · intro n m r df dg h; simp [Verif.Proxy.fresh] at h

theorem Made.extend {a : Actor V} (W : Made C σ τ a) (o : Obj V) : Made C σ { τ with heap := τ.heap ++ [o] } a := by
  obtain ⟨l, hl⟩ := W.frame
  refine ⟨⟨l ++ [o], ?_⟩, ?_, W.uniq⟩
  · subst hl; simp
  · intro n r df h1 h2 h3
    obtain ⟨h4, d, hd⟩ := W.dict n r df h1 h2 h3
    exact ⟨h4, d, by rw [← hd]; exact List.getElem?_append_left (List.getElem?_eq_some_iff.mp hd).1⟩

theorem Made.le {a : Actor V} (W : Made C σ τ a) : σ.heap.length ≤ τ.heap.length := by
  obtain ⟨l, rfl⟩ := W.frame
  simp

theorem Made.setDict {a a' : Actor V} {τ' : St V} (W : Made C σ τ a) {n : Nat} {df : Def V} {d : Dict String V}
    (hdf : C.states.get? n = some df) (hk : df.kind = .dict)
    (h : setDict df τ n d a = some (τ', a')) : Made C σ τ' a' := by
  unfold Verif.Proxy.setDict at h
  split at h
  · cases h
  · split at h
    · cases h
    · rename_i e he
      simp only [Option.some.injEq, Prod.mk.injEq] at h
      obtain ⟨rfl, rfl⟩ := h
      have W' := W.extend (.dict e)
      refine ⟨W'.frame, ?_, ?_⟩
      · intro m r dg h1 h2 h3
        rw [recordAll_attr] at h1
        simp only [Dict.get?_set] at h1
        by_cases hm : n = m
        · rw [if_pos hm] at h1
          obtain rfl := Option.some.inj h1
          exact ⟨W.le, e, by simp⟩
        · rw [if_neg hm] at h1
          exact W'.dict m r dg h1 h2 h3
      · intro m m' r dg dh h1 h2 h3 h4 h5 h6
        rw [recordAll_attr] at h1 h2
        simp only [Dict.get?_set] at h1 h2
        by_cases hm : n = m <;> by_cases hm' : n = m'
        · exact hm.symm.trans hm'
        · rw [if_pos hm] at h1
          rw [if_neg hm'] at h2
          obtain rfl := Option.some.inj h1
          obtain ⟨-, d', hd'⟩ := W.dict m' _ dh h2 h4 h6
          have := (List.getElem?_eq_some_iff.mp hd').1
          omega
        · rw [if_neg hm] at h1
          rw [if_pos hm'] at h2
          obtain rfl := Option.some.inj h2
          obtain ⟨-, d', hd'⟩ := W.dict m _ dg h1 h3 h5
          have := (List.getElem?_eq_some_iff.mp hd').1
          omega
        · rw [if_neg hm] at h1
          rw [if_neg hm'] at h2
          exact W.uniq m m' r dg dh h1 h2 h3 h4 h5 h6

theorem Made.setData {a a' : Actor V} {τ' : St V} (W : Made C σ τ a) {n r : Nat} {df : Def V}
    (hdf : C.states.get? n = some df) (hk : df.kind = .data)
    (h : setData df τ n r a = some (τ', a')) : Made C σ τ' a' := by
  have key : ∀ b : Actor V, b.attr = a.attr.set n r → Made C σ τ b := by
    intro b hb
    have hne : ∀ m dg, C.states.get? m = some dg → dg.kind = .dict → ¬ n = m := by
      rintro m dg h1 h2 rfl
      rw [hdf] at h1
      obtain rfl := Option.some.inj h1
      rw [hk] at h2
      cases h2
    refine ⟨W.frame, ?_, ?_⟩
    · intro m q dg h1 h2 h3
      rw [hb, Dict.get?_set, if_neg (hne m dg h2 h3)] at h1
      exact W.dict m q dg h1 h2 h3
    · intro m m' q dg dh h1 h2 h3 h4 h5 h6
      rw [hb, Dict.get?_set, if_neg (hne m dg h3 h5)] at h1
      rw [hb, Dict.get?_set, if_neg (hne m' dh h4 h6)] at h2
      exact W.uniq m m' q dg dh h1 h2 h3 h4 h5 h6
  unfold Verif.Proxy.setData at h
  split at h
  · cases h
  · split at h
    · cases h
    · split at h
      · simp only [Option.some.injEq, Prod.mk.injEq] at h
        obtain ⟨rfl, rfl⟩ := h
        exact key _ rfl
      · cases h
    · split at h
      · simp only [Option.some.injEq, Prod.mk.injEq] at h
        obtain ⟨rfl, rfl⟩ := h
        exact key _ (by rw [recordAll_attr])
      · cases h

theorem Made.setAll : ∀ (l : List (Nat × Arg)) (τ : St V) (a : Actor V), Made C σ τ a →
    ∀ τ' a', setAll C l τ a = some (τ', a') → Made C σ τ' a' := by
  intro l
  induction l with
  | nil => intro τ a W τ' a' h; simp only [Verif.Proxy.setAll, Option.some.injEq, Prod.mk.injEq] at h; obtain ⟨rfl, rfl⟩ := h; exact W
  | cons p l ih =>
    obtain ⟨n, x⟩ := p
    intro τ a W τ' a' h
    simp only [Verif.Proxy.setAll] at h
    cases hdf : C.states.get? n with
    | none => simp only [hdf] at h; cases h
    | some df =>
      simp only [hdf] at h
      cases hs : setArg df τ n x a with
      | none => simp only [hs] at h; cases h
      | some q =>
        simp only [hs] at h
        refine ih q.1 q.2 ?_ τ' a' h
        unfold setArg at hs
        split at hs
        · cases hs
        · split at hs
          · exact W.setDict hdf (by assumption) hs
          · cases hs
          · exact W.setData hdf (by assumption) hs
          · cases hs

theorem Made.cloneAll (src : Actor V) : ∀ (l : List (Nat × Def V)) (τ : St V) (a : Actor V), Made C σ τ a →
    (∀ p ∈ l, C.states.get? p.1 = some p.2) → ∀ τ' a', cloneAll C src l τ a = some (τ', a') → Made C σ τ' a' := by
  intro l
  induction l with
  | nil => intro τ a W _ τ' a' h; simp only [Verif.Proxy.cloneAll, Option.some.injEq, Prod.mk.injEq] at h; obtain ⟨rfl, rfl⟩ := h; exact W
  | cons p l ih =>
    obtain ⟨n, df⟩ := p
    intro τ a W hst τ' a' h
    have hdf : C.states.get? n = some df := hst (n, df) (List.mem_cons_self ..)
    simp only [Verif.Proxy.cloneAll] at h
    cases hr : src.attr.get? n with
    | none => simp only [hr] at h; cases h
    | some r =>
      simp only [hr] at h
      cases hs : cloneState C τ n r df a with
      | none => simp only [hs] at h; cases h
      | some q =>
        simp only [hs] at h
        refine ih q.1 q.2 ?_ (fun p hp => hst p (List.mem_cons_of_mem _ hp)) τ' a' h
        unfold cloneState at hs
        split at hs
        · rename_i hk _; exact W.setDict hdf hk hs
        · rename_i hk _; exact (W.extend _).setData hdf hk hs
        · cases hs

theorem Made.born (I : Inv C σ) {a : Actor V} (W : Made C σ τ a) : Inv C { τ with actors := τ.actors ++ [a] } := by
  obtain ⟨l, rfl⟩ := W.frame
  have J := I.more l σ.mine σ.now
  have old : ∀ {i : Nat} {b : Actor V}, i < σ.actors.length → (σ.actors ++ [a])[i]? = some b → σ.actors[i]? = some b := by
    intro i b hi h; rwa [List.getElem?_append_left hi] at h
  have new : ∀ {i : Nat} {b : Actor V}, ¬ i < σ.actors.length → (σ.actors ++ [a])[i]? = some b → i = σ.actors.length ∧ b = a := by
    intro i b hi h
    have := (List.getElem?_eq_some_iff.mp h).1
    simp only [List.length_append, List.length_singleton] at this
    obtain rfl : i = σ.actors.length := by omega
    simp only [List.getElem?_concat_length, Option.some.injEq] at h
    exact ⟨rfl, h.symm⟩
  have below : ∀ {i n r : Nat} {b : Actor V} {df : Def V}, σ.actors[i]? = some b → b.attr.get? n = some r →
      C.states.get? n = some df → df.kind = .dict → r < σ.heap.length := by
    intro i n r b df h1 h2 h3 h4
    obtain ⟨d, hd⟩ := I.dict i n r b df h1 h2 h3 h4
    exact (List.getElem?_eq_some_iff.mp hd).1
  refine ⟨?_, ?_, ?_⟩
  · intro p x hx
    obtain ⟨h1, b, h2, h3⟩ := I.px p x hx
    refine ⟨h1, b, ?_, h3⟩
    rw [← h2]
    exact List.getElem?_append_left (List.getElem?_eq_some_iff.mp h2).1
  · intro i n r b df hb hn hdf hk
    by_cases hi : i < σ.actors.length
    · exact J.dict i n r b df (old hi hb) hn hdf hk
    · obtain ⟨-, rfl⟩ := new hi hb
      exact (W.dict n r df hn hdf hk).2
  · intro i j n m r b c df dg hb hc hn hm h1 h2 h3 h4
    by_cases hi : i < σ.actors.length <;> by_cases hj : j < σ.actors.length
    · exact I.uniq i j n m r b c df dg (old hi hb) (old hj hc) hn hm h1 h2 h3 h4
    · obtain ⟨-, rfl⟩ := new hj hc
      have := below (old hi hb) hn h1 h3
      have := (W.dict m r dg hm h2 h4).1
      omega
    · obtain ⟨-, rfl⟩ := new hi hb
      have := below (old hj hc) hm h2 h4
      have := (W.dict n r df hn h1 h3).1
      omega
    · obtain ⟨rfl, rfl⟩ := new hi hb
      obtain ⟨rfl, rfl⟩ := new hj hc
      exact ⟨rfl, W.uniq n m r df dg hn hm h1 h2 h3 h4⟩

theorem Inv.step (hC : Declared C) (I : Inv C σ) (op : Op V) : Inv C (step C σ op).1 := by
  cases op with
  | newDict d =>
    simp only [Verif.Proxy.step]
    split
    · exact I.more [_] _ σ.now
    · exact I
  | newData c vals => exact I.more [_] _ σ.now
  | write h k v =>
    simp only [Verif.Proxy.step, write]
    split
    · exact I
    · exact I.only (Only.store ..)
    · split
      · exact I
      · split
        · exact I
        · exact I.only (Only.store ..)
  | read h k =>
    simp only [Verif.Proxy.step]
    split <;> exact I
  | build args =>
    simp only [Verif.Proxy.step, build]
    split
    · exact I
    · rename_i τ a h
      split
      · exact I
      · exact (Made.setAll args σ fresh (Made.init C σ) τ a h).born I
  | clone i =>
    simp only [Verif.Proxy.step, clone]
    split
    · exact I
    · rename_i src hs
      split
      · exact I
      · rename_i τ a h
        exact (Made.cloneAll src C.states σ fresh (Made.init C σ) (fun p hp => Dict.get?_of_mem hC.1 hp) τ a h).born I
  | get i n =>
    simp only [Verif.Proxy.step, getState]
    split
    · exact I
    · rename_i a ha
      split
      · exact I
      · exact I
      · rename_i r df hr hdf
        split
        · exact I
        · refine ⟨?_, I.dict, I.uniq⟩
          intro p x hx
          by_cases hl : p < σ.px.length
          · simp only at hx
            rw [List.getElem?_append_left hl] at hx
            exact I.px p x hx
          · have hl' := (List.getElem?_eq_some_iff.mp hx).1
            simp only [List.length_append, List.length_singleton] at hl'
            obtain rfl : p = σ.px.length := by omega
            simp only [List.getElem?_concat_length, Option.some.injEq] at hx
            subst hx
            exact ⟨hdf, a, ha, hr⟩
  | use p op =>
    simp only [Verif.Proxy.step]
    cases hx : σ.px[p]? with
    | none => simp only [pop, hx]; exact I
    | some x => exact I.only (Only.pop C σ hx op)
  | advance dt =>
    simp only [Verif.Proxy.step]
    split
    · have := I.more [] σ.mine (σ.now + dt)
      simpa using this
    · exact I

theorem Inv.run (hC : Declared C) : ∀ (ops : List (Op V)) (σ : St V), Inv C σ → Inv C (run C ops σ).1 := by
  intro ops
  induction ops with
  | nil => intro σ I; exact I
  | cons op l ih => intro σ I; exact ih _ (I.step hC op)

end Verif.Proxy
