import Verif.Proxy.Make

/-!
# Every step does to the heap what it does to the values
-/

namespace Verif.Proxy

open Spec (Declared put putObj same sameObj note suits)

variable {V : Type} [DecidableEq V] {C : Cfg V} {σ : St V} {s : Spec.St V} {own : Nat → Option Owner}

theorem get_put {d : Dict String V} (h : d.keys.Nodup) (k : String) (v : V) : Dict.get? (put d k v) k = some v := by
  rw [← set_put h, Dict.get?_set, if_pos rfl]

theorem get_putObj (hC : Declared C) {o : Obj V} (h : ObjOK C o) (k : String) (v : V) :
    Dict.get? (entries (putObj o k v)) k = some v := by
  cases o <;> exact get_put (h.nodup hC) k v

/-- Writing through a proxy. -/
theorem Rel.assign (R : Rel C σ s own) (hC : Declared C) {x : Px V} {a : Actor V} {o : Obj V}
    (hdf : C.states.get? x.state = some x.df) (ha : σ.actors[x.actor]? = some a) (hr : a.attr.get? x.state = some x.ref)
    (ho : σ.heap[x.ref]? = some o) (k : String) (v : V) (hk : Spec.lacks k o = false) :
    Rel C (recordWrite (store σ x.ref k v) x k) (Spec.assign s x.df x.actor x.state k v) own := by
  have R1 := R.storeState hC ha hr ho k v hk
  have hst := store_heap hC ho (R.wf _ _ ho) k v
  rw [assign_eq]
  refine R1.record (a := a) (o := putObj o k v) (by rw [hst]; exact ha) hr ?_ (get_putObj hC (R.wf _ _ ho) k v) hdf x.ref
  rw [hst]
  exact heap_set_eq _ ho

theorem Rel.raw (R : Rel C σ s own) {i n r : Nat} {a : Actor V} (ha : σ.actors[i]? = some a) (hr : a.attr.get? n = some r) :
    Rel C { σ with mine := σ.mine ++ [r] } { s with hands := s.hands ++ [.of i n] } own := by
  refine ⟨R.now, R.len, R.actor, R.pxl, R.px, by simp [R.handl], ?_, R.wf⟩
  intro h q x hq hx
  by_cases hl : h < σ.mine.length
  · rw [List.getElem?_append_left hl] at hq
    rw [List.getElem?_append_left (R.handl ▸ hl)] at hx
    have := R.hand h q x hq hx
    cases x <;> exact this
  · have hl' := (List.getElem?_eq_some_iff.mp hq).1
    simp only [List.length_append, List.length_singleton] at hl'
    obtain rfl : h = σ.mine.length := by omega
    simp only [List.getElem?_concat_length, Option.some.injEq] at hq
    rw [R.handl] at hx
    simp only [List.getElem?_concat_length, Option.some.injEq] at hx
    subst hq hx
    exact ⟨a, ha, hr⟩

/-- A new object of the program's own. -/
theorem Rel.fresh (R : Rel C σ s own) {o : Obj V} (ho : ObjOK C o) :
    ∃ own', Rel C { σ with heap := σ.heap ++ [o], mine := σ.mine ++ [σ.heap.length] } { s with hands := s.hands ++ [.own o] } own' := by
  have old : ∀ {r : Nat} {x : Obj V}, σ.heap[r]? = some x → r ≠ σ.heap.length := by
    intro r x h
    have := (List.getElem?_eq_some_iff.mp h).1
    omega
  refine ⟨fun r => if r = σ.heap.length then some (.hand σ.mine.length) else own r,
    R.now, R.len, ?_, R.pxl, R.px, by simp [R.handl], ?_, append_wf R.wf ho⟩
  · intro i a b ha hb
    have A := R.actor i a b ha hb
    refine ⟨A.hist, ?_, ?_, A.full⟩
    · intro n
      rw [A.obj n]
      cases hr : a.attr.get? n with
      | none => rfl
      | some r =>
        obtain ⟨-, x, -, hx, -⟩ := A.ref n r hr
        simp only [Option.bind_some]
        rw [hx, append_pre o r x hx]
    · intro n r hr
      obtain ⟨h1, x, df, hx, h2⟩ := A.ref n r hr
      exact ⟨by rw [if_neg (old hx)]; exact h1, x, df, append_pre o r x hx, h2⟩
  · intro h q x hq hx
    by_cases hl : h < σ.mine.length
    · rw [List.getElem?_append_left hl] at hq
      rw [List.getElem?_append_left (R.handl ▸ hl)] at hx
      have := R.hand h q x hq hx
      cases x with
      | own y => exact ⟨append_pre o q y this.1, (if_neg (old this.1)).trans this.2⟩
      | of i n => exact this
    · have hl' := (List.getElem?_eq_some_iff.mp hq).1
      simp only [List.length_append, List.length_singleton] at hl'
      obtain rfl : h = σ.mine.length := by omega
      simp only [List.getElem?_concat_length, Option.some.injEq] at hq
      rw [R.handl] at hx
      simp only [List.getElem?_concat_length, Option.some.injEq] at hx
      subst hq hx
      exact ⟨by simp, if_pos rfl⟩

theorem made_ok (C : Cfg V) (c : Nat) (vals : String → V) : ObjOK C (.data c (made (C.cls c) vals)) := by
  simp [ObjOK, made, Dict.keys, Function.comp_def]

/-- `actor.state`. -/
theorem Rel.get (R : Rel C σ s own) (i n : Nat) :
    (step C σ (.get i n)).2 = (Spec.step C s (.get i n)).2 ∧
    Rel C (step C σ (.get i n)).1 (Spec.step C s (.get i n)).1 own := by
  simp only [step, Spec.step, getState]
  cases ha : σ.actors[i]? with
  | none => rw [none_of_len R.len ha]; exact ⟨rfl, R⟩
  | some a =>
    obtain ⟨b, hb⟩ := some_of_len R.len ha
    have A := R.actor i a b ha hb
    rw [hb]
    simp only
    rw [A.obj n]
    cases hr : a.attr.get? n with
    | none => exact ⟨rfl, R⟩
    | some r =>
      obtain ⟨-, o, df, ho, hdf, hk⟩ := A.ref n r hr
      simp only [hdf, Option.bind_some, ho, Option.isSome_some, if_true]
      have key : Rel C { σ with px := σ.px ++ [⟨i, n, df, r⟩] } { s with px := s.px ++ [(i, n)] } own := by
        refine ⟨R.now, R.len, R.actor, by simp [R.pxl], ?_, R.handl, ?_, R.wf⟩
        · intro p x hx
          by_cases hl : p < σ.px.length
          · rw [List.getElem?_append_left hl] at hx
            simp only
            rw [List.getElem?_append_left (R.pxl ▸ hl)]
            exact R.px p x hx
          · have hl' := (List.getElem?_eq_some_iff.mp hx).1
            simp only [List.length_append, List.length_singleton] at hl'
            obtain rfl : p = σ.px.length := by omega
            simp only [List.getElem?_concat_length, Option.some.injEq] at hx
            subst hx
            exact ⟨by rw [R.pxl]; simp, hdf, a, ha, hr⟩
        · intro h q x hq hx
          have := R.hand h q x hq hx
          cases x <;> exact this
      cases o with
      | dict d =>
        have hkd : df.kind = .dict := hk
        simp only [hkd]
        exact ⟨by rw [R.pxl], key⟩
      | data c d =>
        simp only [hk.1]
        exact ⟨by rw [R.pxl], key⟩

theorem valueAt_item (o : Obj V) (k : String) : valueAt (entries o) k = Spec.item o k := by
  unfold valueAt Spec.item
  cases Dict.get? (entries o) k <;> rfl

/-- Using a proxy of a dictionary. -/
theorem Rel.dictOp (R : Rel C σ s own) (hC : Declared C) {x : Px V} {a : Actor V} {d : Dict String V}
    (hdf : C.states.get? x.state = some x.df) (ha : σ.actors[x.actor]? = some a) (hr : a.attr.get? x.state = some x.ref)
    (ho : σ.heap[x.ref]? = some (.dict d)) (op : POp V) (hF : Spec.FineUse C s x.df (.dict d) op) :
    (Verif.Proxy.dictOp σ x d op).2 = (Spec.use C s x.df x.actor x.state (.dict d) op).2 ∧
    Rel C (Verif.Proxy.dictOp σ x d op).1 (Spec.use C s x.df x.actor x.state (.dict d) op).1 own := by
  have hwf : d.keys.Nodup := R.wf _ _ ho
  cases op with
  | setItem k v =>
    have hok : x.df.okVal v = true := hF
    simp only [Verif.Proxy.dictOp, setItem, Spec.use, hok, if_true]
    exact ⟨trivial, R.assign hC hdf ha hr ho k v rfl⟩
  | setDefault k v =>
    have hok : x.df.okVal v = true := hF
    simp only [Verif.Proxy.dictOp, setDefault, Spec.use]
    cases hg : Dict.get? d k with
    | some w => exact ⟨rfl, R⟩
    | none =>
      simp only [setItem, hok, if_true]
      exact ⟨trivial, R.assign hC hdf ha hr ho k v rfl⟩
  | getItem k => exact ⟨valueAt_item (.dict d) k, R⟩
  | has k => exact ⟨congrArg Out.bool (has_mem d k), R⟩
  | len => exact ⟨rfl, R⟩
  | keys => exact ⟨rfl, R⟩
  | items => exact ⟨rfl, R⟩
  | setAttr k v => exact ⟨rfl, R⟩
  | getAttr k => exact ⟨rfl, R⟩
  | eqMine h =>
    simp only [Verif.Proxy.dictOp, Spec.use]
    rw [R.held h]
    cases hl : look σ (.mine h) with
    | none => exact ⟨rfl, R⟩
    | some q =>
      obtain ⟨r, o⟩ := q
      simp only [Option.map_some]
      cases o with
      | dict e =>
        refine ⟨congrArg Out.bool (dictEq_same ?_ hwf), R⟩
        simp only [look] at hl
        cases hm : σ.mine[h]? with
        | none => rw [hm] at hl; cases hl
        | some r' =>
          rw [hm, Option.bind_some] at hl
          cases hh : σ.heap[r']? with
          | none => rw [hh] at hl; cases hl
          | some o' =>
            rw [hh] at hl
            simp only [Option.map_some, Option.some.injEq, Prod.mk.injEq] at hl
            have := R.wf r' o' hh
            rw [hl.2] at this
            exact this
      | data c e => exact ⟨rfl, R⟩
  | eqProxy q =>
    simp only [Verif.Proxy.dictOp, Spec.use]
    by_cases hq : q < σ.px.length
    · rw [if_pos hq]
      obtain ⟨y, hy⟩ : ∃ y, σ.px[q]? = some y := ⟨_, List.getElem?_eq_getElem hq⟩
      obtain ⟨-, -, b, hb, hrb⟩ := R.px q y hy
      obtain ⟨b', hb'⟩ := some_of_len R.len hb
      obtain ⟨-, o, -, ho', -⟩ := (R.actor _ _ _ hb hb').ref _ _ hrb
      have hl : s.arg (.proxy q) = some o := by
        rw [R.arg]; simp only [look, hy, Option.bind_some, ho', Option.map_some]
      rw [hl]
      cases o with
      | dict e => exact absurd hl (hF e)
      | data c e => exact ⟨rfl, R⟩
    · rw [if_neg hq]
      have : s.arg (.proxy q) = none := by
        rw [R.arg]
        simp only [look]
        rw [List.getElem?_eq_none_iff.mpr (by omega)]
        rfl
      rw [this]
      exact ⟨rfl, R⟩
  | raw => exact ⟨congrArg Out.handle R.handl, R.raw ha hr⟩

/-- Using a proxy of a data object. -/
theorem Rel.dataOp (R : Rel C σ s own) (hC : Declared C) {x : Px V} {a : Actor V} {c : Nat} {d : Dict String V}
    (hdf : C.states.get? x.state = some x.df) (ha : σ.actors[x.actor]? = some a) (hr : a.attr.get? x.state = some x.ref)
    (ho : σ.heap[x.ref]? = some (.data c d)) (op : POp V) (hF : Spec.FineUse C s x.df (.data c d) op) :
    (Verif.Proxy.dataOp C σ x c d op).2 = (Spec.use C s x.df x.actor x.state (.data c d) op).2 ∧
    Rel C (Verif.Proxy.dataOp C σ x c d op).1 (Spec.use C s x.df x.actor x.state (.data c d) op).1 own := by
  have hwf : d.keys = (C.cls c).fields.map (·.name) := R.wf _ _ ho
  have heq : ∀ c' e, objEq (.data c' e) (.data c d) = sameObj (.data c d) (.data c' e) := by
    intro c' e
    simp only [objEq, sameObj]
    rw [Bool.eq_iff_iff]
    simp only [Bool.and_eq_true, decide_eq_true_eq]
    exact ⟨fun h => ⟨h.1.symm, h.2.symm⟩, fun h => ⟨h.1.symm, h.2.symm⟩⟩
  have heq' : ∀ c' e, objEq (.data c d) (.data c' e) = sameObj (.data c d) (.data c' e) := by
    intro c' e
    simp only [objEq, sameObj]
    rw [Bool.eq_iff_iff]
    simp only [Bool.and_eq_true, decide_eq_true_eq]
  cases op with
  | setAttr k v =>
    obtain ⟨f, hf, hfk, hown⟩ := hF
    have hmem : k ∈ d.map (·.1) := by
      show k ∈ d.keys
      rw [hwf, ← hfk]
      exact List.mem_map_of_mem hf
    have hfind : (C.cls c).fields.find? (fun g => g.name == k) = some f := by
      have hnd := hC.2 c
      generalize (C.cls c).fields = l at hf hnd
      induction l with
      | nil => cases hf
      | cons g l ih =>
        simp only [List.map_cons, List.nodup_cons] at hnd
        rw [List.find?_cons]
        rcases List.mem_cons.mp hf with rfl | hf'
        · simp [hfk]
        · have hne : (g.name == k) = false := by
            rw [beq_eq_false_iff_ne]
            rintro h
            apply hnd.1
            rw [h, ← hfk]
            exact List.mem_map_of_mem hf'
          rw [hne]
          exact ih hf' hnd.2
    have hany : ((C.cls c).fields.any fun g => decide (g.name = k)) = true := by
      rw [List.any_eq_true]
      exact ⟨f, hf, by simpa using hfk⟩
    have hhas : d.has k = true := Dict.has_iff.mpr hmem
    simp only [Verif.Proxy.dataOp, setAttr, Spec.use, hhas, if_true, hfind, hown, Spec.fits, hany, Bool.true_and,
      Bool.not_true, Bool.false_eq_true, if_false]
    by_cases h1 : (C.cls c).ok k v = true
    · by_cases h2 : (C.cls c).frozen = true
      · simp only [h1, h2, Bool.not_true, Bool.false_eq_true, if_false, if_true, Bool.true_and]
        exact ⟨trivial, R⟩
      · simp only [Bool.not_eq_true] at h2
        simp only [h1, h2, Bool.not_true, Bool.not_false, Bool.false_eq_true, if_false, if_true, Bool.true_and]
        refine ⟨trivial, R.assign hC hdf ha hr ho k v ?_⟩
        simp only [Spec.lacks, decide_eq_false_iff_not, not_not]
        exact hmem
    · simp only [Bool.not_eq_true] at h1
      simp only [h1, Bool.not_false, if_true, Bool.false_and, Bool.false_eq_true, if_false]
      exact ⟨trivial, R⟩
  | getAttr k => exact ⟨valueAt_item (.data c d) k, R⟩
  | eqMine h =>
    simp only [Verif.Proxy.dataOp, Spec.use]
    rw [R.held h]
    cases hl : look σ (.mine h) with
    | none => exact ⟨rfl, R⟩
    | some q =>
      obtain ⟨r, o⟩ := q
      cases o with
      | dict e => exact ⟨rfl, R⟩
      | data c' e => exact ⟨congrArg Out.bool (heq c' e), R⟩
  | eqProxy q =>
    simp only [Verif.Proxy.dataOp, Spec.use]
    rw [R.arg]
    cases hl : look σ (.proxy q) with
    | none => exact ⟨rfl, R⟩
    | some q =>
      obtain ⟨r, o⟩ := q
      cases o with
      | dict e => exact ⟨rfl, R⟩
      | data c' e => exact ⟨congrArg Out.bool (heq' c' e), R⟩
  | raw => exact ⟨congrArg Out.handle R.handl, R.raw ha hr⟩
  | setItem k v => exact ⟨rfl, R⟩
  | setDefault k v => exact ⟨rfl, R⟩
  | getItem k => exact ⟨rfl, R⟩
  | has k => exact ⟨rfl, R⟩
  | len => exact ⟨rfl, R⟩
  | keys => exact ⟨rfl, R⟩
  | items => exact ⟨rfl, R⟩

/-- Using a proxy. -/
theorem Rel.pop (R : Rel C σ s own) (hC : Declared C) (p : Nat) (op : POp V) (hF : Spec.Fine C s (.use p op)) :
    (step C σ (.use p op)).2 = (Spec.step C s (.use p op)).2 ∧
    Rel C (step C σ (.use p op)).1 (Spec.step C s (.use p op)).1 own := by
  simp only [step, Spec.step, Verif.Proxy.pop]
  cases hx : σ.px[p]? with
  | none => rw [none_of_len R.pxl hx]; exact ⟨rfl, R⟩
  | some x =>
    obtain ⟨h1, h2, a, h3, h4⟩ := R.px p x hx
    obtain ⟨b, hb⟩ := some_of_len R.len h3
    obtain ⟨-, o, -, ho, -, -⟩ := (R.actor _ _ _ h3 hb).ref _ _ h4
    have hv : s.val x.actor x.state = some o := by rw [R.val h3 h4, ho]
    have hf := hF _ _ _ _ h1 hv h2
    simp only [h1, hv, h2, ho]
    cases o with
    | dict d => exact R.dictOp hC h2 h3 h4 ho op hf
    | data c d => exact R.dataOp hC h2 h3 h4 ho op hf

/-- Writing to what is in the program's hands. -/
theorem Rel.write (R : Rel C σ s own) (hC : Declared C) (h : Nat) (k : String) (v : V) :
    (Verif.Proxy.write C σ h k v).2 = (Spec.write C s h k v).2 ∧
    Rel C (Verif.Proxy.write C σ h k v).1 (Spec.write C s h k v).1 own := by
  unfold Verif.Proxy.write Spec.write
  rw [R.held h]
  cases hm : σ.mine[h]? with
  | none => simp only [look, hm]; exact ⟨rfl, R⟩
  | some r =>
    obtain ⟨x, hx⟩ := some_of_len R.handl hm
    have H := R.hand h r x hm hx
    rw [look_mine σ hm]
    cases ho : σ.heap[r]? with
    | none => exact ⟨rfl, R⟩
    | some o =>
      simp only [Option.map_some, hx]
      have main : Spec.lacks k o = false →
          Rel C (store σ r k v) (match (generalizing := false) x with
            | .of a n => Spec.alter s a n k v
            | .own _ => { s with hands := s.hands.set h (.own (putObj o k v)) }) own := by
        intro hk
        cases x with
        | own o' =>
          have : o' = o := by
            have := H.1
            rw [ho] at this
            exact (Option.some.inj this).symm
          subst this
          exact R.storeHand hC hm hx k v hk
        | of i n =>
          obtain ⟨a, ha, hr⟩ := H
          exact R.storeState hC ha hr ho k v hk
      cases o with
      | dict d =>
        simp only [Spec.lacks, Spec.frozen, Bool.false_eq_true, if_false]
        have := main rfl
        cases x <;> exact ⟨rfl, this⟩
      | data c d =>
        simp only [Spec.lacks, Spec.frozen]
        by_cases hd : k ∈ d.map (·.1)
        · have hhas : d.has k = true := Dict.has_iff.mpr hd
          have hl : Spec.lacks k (.data c d) = false := by simp only [Spec.lacks, decide_eq_false_iff_not, not_not]; exact hd
          have := main hl
          simp only [hhas, hd, Bool.not_true, Bool.false_eq_true, if_false, not_true, decide_false]
          by_cases hf : (C.cls c).frozen = true
          · simp only [hf, if_true]; exact ⟨trivial, R⟩
          · simp only [Bool.not_eq_true] at hf
            simp only [hf, Bool.false_eq_true, if_false]
            cases x <;> exact ⟨rfl, this⟩
        · have hhas : d.has k = false := by rw [has_mem]; simpa using hd
          simp only [hhas, hd, Bool.not_false, if_true, not_false_eq_true, decide_true]
          exact ⟨trivial, R⟩

/-- Every operation. -/
theorem Rel.step (R : Rel C σ s own) (hC : Declared C) (op : Op V) (hF : Spec.Fine C s op) :
    (Verif.Proxy.step C σ op).2 = (Spec.step C s op).2 ∧
    ∃ own', Rel C (Verif.Proxy.step C σ op).1 (Spec.step C s op).1 own' := by
  cases op with
  | newDict d =>
    simp only [Verif.Proxy.step, Spec.step]
    by_cases h : d.keys.Nodup
    · rw [if_pos h, if_pos h]
      exact ⟨congrArg Out.handle R.handl, R.fresh h⟩
    · rw [if_neg h, if_neg h]
      exact ⟨rfl, own, R⟩
  | newData c vals => exact ⟨congrArg Out.handle R.handl, R.fresh (made_ok C c vals)⟩
  | write h k v => exact ⟨(R.write hC h k v).1, own, (R.write hC h k v).2⟩
  | read h k =>
    simp only [Verif.Proxy.step, Spec.step]
    rw [R.held h]
    cases hl : look σ (.mine h) with
    | none => exact ⟨rfl, own, R⟩
    | some q => exact ⟨valueAt_item q.2 k, own, R⟩
  | build args => exact R.build hC hF
  | clone i => exact R.clone hC hF
  | get i n => exact ⟨(R.get i n).1, own, (R.get i n).2⟩
  | use p op => exact ⟨(R.pop hC p op hF).1, own, (R.pop hC p op hF).2⟩
  | advance dt =>
    simp only [Verif.Proxy.step, Spec.step]
    by_cases h : 0 ≤ dt
    · rw [if_pos h, if_pos h]
      refine ⟨rfl, own, congrArg (· + dt) R.now, R.len, R.actor, R.pxl, R.px, R.handl, ?_, R.wf⟩
      intro h' q x hq hx
      have := R.hand h' q x hq hx
      cases x <;> exact this
    · rw [if_neg h, if_neg h]
      exact ⟨rfl, own, R⟩

theorem Rel.init (C : Cfg V) (t0 : Rat) : Rel C (Verif.Proxy.init t0) (Spec.init t0) (fun _ => none) := by
  refine ⟨rfl, rfl, ?_, rfl, ?_, rfl, ?_, ?_⟩
  · intro i a b ha; simp [Verif.Proxy.init] at ha
  · intro i a ha; simp [Verif.Proxy.init] at ha
  · intro i a b ha; simp [Verif.Proxy.init] at ha
  · intro i a ha; simp [Verif.Proxy.init] at ha

theorem Rel.run (hC : Declared C) : ∀ (ops : List (Op V)) (σ : St V) (s : Spec.St V) (own : Nat → Option Owner),
    Rel C σ s own → Spec.AllFine C ops s →
    (Verif.Proxy.run C ops σ).2 = (Spec.run C ops s).2 ∧
    ∃ own', Rel C (Verif.Proxy.run C ops σ).1 (Spec.run C ops s).1 own' := by
  intro ops
  induction ops with
  | nil => intro σ s own R _; exact ⟨rfl, own, R⟩
  | cons op l ih =>
    intro σ s own R hF
    obtain ⟨h1, own', R'⟩ := R.step hC op hF.1
    obtain ⟨h2, h3⟩ := ih _ _ own' R' hF.2
    exact ⟨by simp only [Verif.Proxy.run, Spec.run, h1, h2], h3⟩

end Verif.Proxy
