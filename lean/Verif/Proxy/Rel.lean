import Verif.Proxy.Lemmas

/-!
# Heap and values

Every address of the heap has at most one owner: a state of an actor, or the program. That is what makes objects behind
proxies behave like values.
-/

namespace Verif.Proxy

open Spec (Declared put putObj same sameObj note suits)

variable {V : Type} [DecidableEq V]

inductive Owner where
  | state (i n : Nat)
  | hand (h : Nat)

/-- The object is one that the state may hold. -/
def KindOK (df : Def V) : Obj V → Prop
  | .dict _ => df.kind = .dict
  | .data c _ => df.kind = .data ∧ df.okCls (some c) = true

structure ActorRel (C : Cfg V) (heap : List (Obj V)) (own : Nat → Option Owner) (i : Nat) (a : Actor V)
    (b : Spec.Actor V) : Prop where
  hist : ∀ n k, a.hist n k = b.hist n k
  obj : ∀ n, b.obj n = (a.attr.get? n).bind fun r => heap[r]?
  ref : ∀ n r, a.attr.get? n = some r → own r = some (.state i n) ∧
    ∃ o df, heap[r]? = some o ∧ C.states.get? n = some df ∧ KindOK df o
  full : ∀ n df, C.states.get? n = some df → ∃ r, a.attr.get? n = some r

/-- What a handle refers to. -/
def HandRel (σ : St V) (own : Nat → Option Owner) (h r : Nat) : Spec.Hand V → Prop
  | .own o => σ.heap[r]? = some o ∧ own r = some (.hand h)
  | .of i n => ∃ a, σ.actors[i]? = some a ∧ a.attr.get? n = some r

structure Rel (C : Cfg V) (σ : St V) (s : Spec.St V) (own : Nat → Option Owner) : Prop where
  now : σ.now = s.now
  len : σ.actors.length = s.actors.length
  actor : ∀ (i : Nat) (a : Actor V) (b : Spec.Actor V), σ.actors[i]? = some a → s.actors[i]? = some b →
    ActorRel C σ.heap own i a b
  pxl : σ.px.length = s.px.length
  px : ∀ (p : Nat) (x : Px V), σ.px[p]? = some x → s.px[p]? = some (x.actor, x.state) ∧ C.states.get? x.state = some x.df ∧
    ∃ a, σ.actors[x.actor]? = some a ∧ a.attr.get? x.state = some x.ref
  handl : σ.mine.length = s.hands.length
  hand : ∀ (h r : Nat) (x : Spec.Hand V), σ.mine[h]? = some r → s.hands[h]? = some x → HandRel σ own h r x
  wf : ∀ (r : Nat) (o : Obj V), σ.heap[r]? = some o → ObjOK C o

theorem some_of_len {α β : Type} {l : List α} {m : List β} (h : l.length = m.length) {i : Nat} {x : α} (hx : l[i]? = some x) :
    ∃ y, m[i]? = some y := by
  have hi := (List.getElem?_eq_some_iff.mp hx).1
  exact ⟨m[i]'(h ▸ hi), List.getElem?_eq_getElem _⟩

theorem none_of_len {α β : Type} {l : List α} {m : List β} (h : l.length = m.length) {i : Nat} (hx : l[i]? = none) :
    m[i]? = none := by
  rw [List.getElem?_eq_none_iff] at hx ⊢
  omega

variable {C : Cfg V} {σ : St V} {s : Spec.St V} {own : Nat → Option Owner}

/-- The value of a state is the object at its address. -/
theorem Rel.val (R : Rel C σ s own) {i n r : Nat} {a : Actor V} (ha : σ.actors[i]? = some a) (hr : a.attr.get? n = some r) :
    s.val i n = σ.heap[r]? := by
  obtain ⟨b, hb⟩ := some_of_len R.len ha
  unfold Spec.St.val
  rw [hb, Option.bind_some, (R.actor i a b ha hb).obj n, hr]
  rfl

theorem look_mine (σ : St V) {h r : Nat} (hr : σ.mine[h]? = some r) : look σ (.mine h) = (σ.heap[r]?).map (r, ·) := by
  simp only [look, hr, Option.bind_some]

theorem Rel.held (R : Rel C σ s own) (h : Nat) : s.held h = (look σ (.mine h)).map Prod.snd := by
  unfold Spec.St.held
  cases hr : σ.mine[h]? with
  | none => rw [none_of_len R.handl hr]; simp only [look, hr]; rfl
  | some r =>
    obtain ⟨x, hx⟩ := some_of_len R.handl hr
    have hR := R.hand h r x hr hx
    rw [hx, look_mine σ hr]
    cases x with
    | own o =>
      simp only [HandRel] at hR
      simp [hR.1]
    | of i n =>
      obtain ⟨a, ha, hn⟩ := hR
      simp only
      rw [R.val ha hn]
      cases σ.heap[r]? <;> rfl

theorem Rel.arg (R : Rel C σ s own) (x : Arg) : s.arg x = (look σ x).map Prod.snd := by
  cases x with
  | mine h => exact R.held h
  | proxy p =>
    simp only [Spec.St.arg, look]
    cases hx : σ.px[p]? with
    | none => rw [none_of_len R.pxl hx]; rfl
    | some x =>
      obtain ⟨hp, -, a, ha, hr⟩ := R.px p x hx
      rw [hp, Option.bind_some, Option.bind_some]
      rw [R.val ha hr]
      cases σ.heap[x.ref]? <;> rfl

/-- Storing replaces the object at the address. -/
theorem store_heap (hC : Declared C) {r : Nat} {o : Obj V} (h : σ.heap[r]? = some o) (ho : ObjOK C o) (k : String) (v : V) :
    store σ r k v = { σ with heap := σ.heap.set r (putObj o k v) } := by
  unfold store
  rw [h]
  cases o with
  | dict d => simp only [putObj]; rw [set_put (d := d) (ho.nodup hC)]
  | data c d => simp only [putObj]; rw [set_put (d := d) (ho.nodup hC)]

theorem heap_set_ne {heap : List (Obj V)} {r q : Nat} (o : Obj V) (h : q ≠ r) : (heap.set r o)[q]? = heap[q]? := by
  rw [List.getElem?_set_ne (Ne.symm h)]

theorem heap_set_eq {heap : List (Obj V)} {r : Nat} {o : Obj V} (o' : Obj V) (h : heap[r]? = some o) :
    (heap.set r o')[r]? = some o' := by
  have hi := (List.getElem?_eq_some_iff.mp h).1
  simp [hi]

theorem KindOK.put {df : Def V} {o : Obj V} (h : KindOK df o) (k : String) (v : V) : KindOK df (putObj o k v) := by
  cases o <;> exact h

/-- Writing to the object of a state changes the value of that state and no other. -/
theorem Rel.storeState (R : Rel C σ s own) (hC : Declared C) {i n r : Nat} {a : Actor V} {o : Obj V}
    (ha : σ.actors[i]? = some a) (hr : a.attr.get? n = some r) (ho : σ.heap[r]? = some o) (k : String) (v : V)
    (hk : Spec.lacks k o = false) : Rel C (store σ r k v) (Spec.alter s i n k v) own := by
  have hok := R.wf r o ho
  obtain ⟨b0, hb0⟩ := some_of_len R.len ha
  have hown := ((R.actor i a b0 ha hb0).ref n r hr).1
  rw [store_heap hC ho hok]
  have hget : ∀ j, (s.actors.modify i fun b =>
      { b with obj := fun m => if m = n then (b.obj n).map (putObj · k v) else b.obj m })[j]? =
      (s.actors[j]?).map fun b => if i = j then
        { b with obj := fun m => if m = n then (b.obj n).map (putObj · k v) else b.obj m } else b := by
    intro j; rw [List.getElem?_modify]
    cases s.actors[j]? <;> rfl
  refine ⟨R.now, ?_, ?_, R.pxl, R.px, R.handl, ?_, ?_⟩
  · simp only [Spec.alter, List.length_modify]; exact R.len
  · intro j a' b' ha' hb'
    simp only [Spec.alter] at hb'
    rw [hget j] at hb'
    obtain ⟨b, hb⟩ := some_of_len R.len ha'
    rw [hb] at hb'
    have A := R.actor j a' b ha' hb
    simp only [Option.map_some, Option.some.injEq] at hb'
    have hheap : ∀ m q, a'.attr.get? m = some q → ¬ (j = i ∧ m = n) →
        (σ.heap.set r (putObj o k v))[q]? = σ.heap[q]? := by
      intro m q hq hne
      apply heap_set_ne
      rintro rfl
      have := (A.ref m q hq).1
      rw [hown] at this
      injection this with h1
      injection h1 with h2 h3
      exact hne ⟨h2.symm, h3.symm⟩
    refine ⟨?_, ?_, ?_, A.full⟩
    · intro m k'
      rw [A.hist m k', ← hb']
      split <;> rfl
    · intro m
      by_cases hj : i = j
      · rw [if_pos hj] at hb'
        subst hj
        have haa : a' = a := by rw [ha] at ha'; exact (Option.some.inj ha').symm
        subst haa
        rw [← hb']
        by_cases hm : m = n
        · subst hm
          simp only [if_true]
          rw [A.obj m, hr]
          simp only [Option.bind_some]
          rw [ho, heap_set_eq _ ho]
          rfl
        · simp only [if_neg hm]
          rw [A.obj m]
          cases hq : a'.attr.get? m with
          | none => rfl
          | some q => simp only [Option.bind_some]; rw [hheap m q hq (fun h => hm h.2)]
      · rw [if_neg hj] at hb'
        subst hb'
        rw [A.obj m]
        cases hq : a'.attr.get? m with
        | none => rfl
        | some q => simp only [Option.bind_some]; rw [hheap m q hq (fun h => hj h.1.symm)]
    · intro m q hq
      obtain ⟨h1, o', df, h2, h3, h4⟩ := A.ref m q hq
      refine ⟨h1, ?_⟩
      by_cases hqr : q = r
      · subst hqr
        rw [ho] at h2
        obtain rfl := Option.some.inj h2
        exact ⟨_, df, heap_set_eq _ ho, h3, h4.put k v⟩
      · exact ⟨o', df, by rw [heap_set_ne _ hqr]; exact h2, h3, h4⟩
  · intro h q x hq hx
    have H := R.hand h q x hq hx
    cases x with
    | own o' =>
      refine ⟨?_, H.2⟩
      rw [heap_set_ne]
      · exact H.1
      · rintro rfl
        have := H.2
        rw [hown] at this
        cases this
    | of j m => exact H
  · intro q o' hq
    by_cases hqr : q = r
    · subst hqr
      rw [heap_set_eq _ ho] at hq
      obtain rfl := Option.some.inj hq
      exact hok.put k v hk
    · rw [heap_set_ne _ hqr] at hq
      exact R.wf q o' hq

/-- Writing to an object of the program's own changes that object and no state. -/
theorem Rel.storeHand (R : Rel C σ s own) (hC : Declared C) {h r : Nat} {o : Obj V}
    (hm : σ.mine[h]? = some r) (hh : s.hands[h]? = some (.own o)) (k : String) (v : V)
    (hk : Spec.lacks k o = false) : Rel C (store σ r k v) { s with hands := s.hands.set h (.own (putObj o k v)) } own := by
  obtain ⟨ho, hown⟩ := R.hand h r _ hm hh
  have hok := R.wf r o ho
  rw [store_heap hC ho hok]
  refine ⟨R.now, R.len, ?_, R.pxl, R.px, ?_, ?_, ?_⟩
  · intro j a b ha hb
    have A := R.actor j a b ha hb
    have hheap : ∀ m q, a.attr.get? m = some q → (σ.heap.set r (putObj o k v))[q]? = σ.heap[q]? := by
      intro m q hq
      apply heap_set_ne
      rintro rfl
      have := (A.ref m q hq).1
      rw [hown] at this
      cases this
    refine ⟨A.hist, ?_, ?_, A.full⟩
    · intro m
      rw [A.obj m]
      cases hq : a.attr.get? m with
      | none => rfl
      | some q => simp only [Option.bind_some]; rw [hheap m q hq]
    · intro m q hq
      obtain ⟨h1, o', df, h2, h3, h4⟩ := A.ref m q hq
      exact ⟨h1, o', df, by rw [hheap m q hq]; exact h2, h3, h4⟩
  · simp only [List.length_set]; exact R.handl
  · intro j q x hq hx
    by_cases hj : j = h
    · subst hj
      rw [hm] at hq
      obtain rfl := Option.some.inj hq
      have hi := (List.getElem?_eq_some_iff.mp hh).1
      have : (s.hands.set j (Spec.Hand.own (putObj o k v)))[j]? = some (.own (putObj o k v)) := by simp [hi]
      rw [this] at hx
      obtain rfl := Option.some.inj hx
      exact ⟨heap_set_eq _ ho, hown⟩
    · rw [List.getElem?_set_ne (Ne.symm hj)] at hx
      have H := R.hand j q x hq hx
      cases x with
      | own o' =>
        refine ⟨?_, H.2⟩
        rw [heap_set_ne]
        · exact H.1
        · rintro rfl
          have := H.2
          rw [hown] at this
          injection this with h1
          injection h1 with h2
          exact hj h2.symm
      | of i n => exact H
  · intro q o' hq
    by_cases hqr : q = r
    · subst hqr
      rw [heap_set_eq _ ho] at hq
      obtain rfl := Option.some.inj hq
      exact hok.put k v hk
    · rw [heap_set_ne _ hqr] at hq
      exact R.wf q o' hq

/-- Writing down a value. -/
def noteAt (s : Spec.St V) (df : Def V) (a n : Nat) (k : String) (v : V) : Spec.St V :=
  { s with actors := s.actors.modify a fun b =>
      { b with hist := fun m k' => if m = n ∧ k' = k ∧ df.recording = true then note s.now (b.hist n k) v else b.hist m k' } }

theorem assign_eq (s : Spec.St V) (df : Def V) (a n : Nat) (k : String) (v : V) :
    Spec.assign s df a n k v = noteAt (Spec.alter s a n k v) df a n k v := by
  unfold Spec.assign noteAt Spec.alter
  simp only [List.modify_modify_eq]
  rfl

theorem Rel.record (R : Rel C σ s own) {i n r : Nat} {a : Actor V} {o : Obj V} {df : Def V} (ha : σ.actors[i]? = some a)
    (hr : a.attr.get? n = some r) (ho : σ.heap[r]? = some o) {k : String} {v : V} (hv : Dict.get? (entries o) k = some v)
    (hdf : C.states.get? n = some df) (p : Nat) :
    Rel C (recordWrite σ ⟨i, n, df, p⟩ k) (noteAt s df i n k v) own := by
  have hw : recordWrite σ ⟨i, n, df, p⟩ k = { σ with actors := σ.actors.set i (recordKey df σ.now n k v a) } := by
    unfold recordWrite
    simp only [ha, hr, Option.bind_some, ho, hv]
  rw [hw]
  have hattr : (recordKey df σ.now n k v a).attr = a.attr := by unfold recordKey; split <;> rfl
  have hi := (List.getElem?_eq_some_iff.mp ha).1
  have hset : ∀ (j : Nat) (a' : Actor V), (σ.actors.set i (recordKey df σ.now n k v a))[j]? = some a' →
      ∃ a0, σ.actors[j]? = some a0 ∧ a'.attr = a0.attr ∧ (j = i → a0 = a ∧ a' = recordKey df σ.now n k v a) ∧ (j ≠ i → a' = a0) := by
    intro j a' h
    by_cases hj : j = i
    · subst hj
      rw [List.getElem?_set_self hi] at h
      obtain rfl := Option.some.inj h
      exact ⟨a, ha, hattr, fun _ => ⟨rfl, rfl⟩, fun h => absurd rfl h⟩
    · rw [List.getElem?_set_ne (Ne.symm hj)] at h
      exact ⟨a', h, rfl, fun h' => absurd h' hj, fun _ => rfl⟩
  have hback : ∀ (j : Nat) (a0 : Actor V), σ.actors[j]? = some a0 →
      ∃ a', (σ.actors.set i (recordKey df σ.now n k v a))[j]? = some a' ∧ a'.attr = a0.attr := by
    intro j a0 h
    by_cases hj : j = i
    · subst hj
      rw [ha] at h
      obtain rfl := Option.some.inj h
      exact ⟨_, List.getElem?_set_self hi, hattr⟩
    · exact ⟨a0, by rw [List.getElem?_set_ne (Ne.symm hj)]; exact h, rfl⟩
  refine ⟨R.now, ?_, ?_, R.pxl, ?_, R.handl, ?_, R.wf⟩
  · simp only [noteAt, List.length_modify, List.length_set]; exact R.len
  · intro j a' b' ha' hb'
    obtain ⟨a0, h0, h1, h2, h3⟩ := hset j a' ha'
    obtain ⟨b, hb⟩ := some_of_len R.len h0
    have A := R.actor j a0 b h0 hb
    simp only [noteAt] at hb'
    rw [List.getElem?_modify, hb] at hb'
    have hb'' := Option.some.inj hb'
    simp only at hb''
    refine ⟨?_, ?_, ?_, ?_⟩
    · intro m k'
      by_cases hj : i = j
      · rw [if_pos hj] at hb''
        obtain ⟨h4, h5⟩ := h2 hj.symm
        rw [h5, ← hb'']
        unfold recordKey
        by_cases hrec : df.recording = true
        · rw [if_pos hrec]
          subst h4
          by_cases hm : m = n
          · subst hm
            by_cases hk' : k' = k
            · subst hk'
              simp only [upd, hrec, if_true, and_self]
              rw [recordSingle_note, A.hist, R.now]
            · simp only [upd, if_true, if_neg hk']
              rw [if_neg (fun h => hk' h.2.1)]
              exact A.hist _ _
          · simp only [upd, if_neg hm]
            rw [if_neg (fun h => hm h.1)]
            exact A.hist _ _
        · rw [if_neg hrec]
          simp only
          rw [if_neg (fun h => hrec h.2.2), ← h4]
          exact A.hist _ _
      · rw [if_neg hj] at hb''
        rw [h3 (Ne.symm hj), ← hb'']
        exact A.hist _ _
    · intro m
      rw [h1, ← A.obj m, ← hb'']
      split <;> rfl
    · intro m q hq
      rw [h1] at hq
      exact A.ref m q hq
    · intro m dg hm
      rw [h1]
      exact A.full m dg hm
  · intro p x hx
    obtain ⟨h1, h2, a0, h3, h4⟩ := R.px p x hx
    obtain ⟨a', h5, h6⟩ := hback x.actor a0 h3
    exact ⟨h1, h2, a', h5, by rw [h6]; exact h4⟩
  · intro h q x hq hx
    have H := R.hand h q x hq hx
    cases x with
    | own o' => exact H
    | of j m =>
      obtain ⟨a0, h3, h4⟩ := H
      obtain ⟨a', h5, h6⟩ := hback j a0 h3
      exact ⟨a', h5, by rw [h6]; exact h4⟩

end Verif.Proxy
