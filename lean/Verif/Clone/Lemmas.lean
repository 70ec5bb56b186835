import Verif.Clone.Spec
import Mathlib.Data.List.Nodup

/-! # Which objects the operations touch -/

namespace Verif.Clone

/-- Only new objects were made. -/
structure Grow (w w' : World) : Prop where
  next : w.nextObj ≤ w'.nextObj
  obj : ∀ o, o < w.nextObj → w'.obj o = w.obj o
  lst : w'.lst = w.lst
  nextL : w'.nextLst = w.nextLst
  actors : w'.actors = w.actors

theorem Grow.refl (w : World) : Grow w w := ⟨Nat.le_refl _, fun _ _ => rfl, rfl, rfl, rfl⟩

theorem Grow.trans {a b c : World} (h : Grow a b) (k : Grow b c) : Grow a c :=
  ⟨Nat.le_trans h.next k.next, fun o ho => (k.obj o (Nat.lt_of_lt_of_le ho h.next)).trans (h.obj o ho),
    k.lst.trans h.lst, k.nextL.trans h.nextL, k.actors.trans h.actors⟩

theorem alloc_grow (w : World) (c : List Val) : Grow w (alloc w c).1 := by
  refine ⟨Nat.le_succ _, fun o ho => ?_, rfl, rfl, rfl⟩
  simp [alloc, upd, Nat.ne_of_lt ho]

theorem copyVal_grow (w : World) (v : Val) : Grow w (copyVal w v).1 := by
  cases v with
  | atom => exact Grow.refl w
  | ref a => exact alloc_grow w _

theorem mk_grow (w : World) (x : New) : Grow w (mk w x).1 := by
  cases x with
  | atom => exact Grow.refl w
  | obj c => exact alloc_grow w _

/-- Objects that hold only atoms. -/
def FlatObj (w : World) (o : Nat) : Prop := ∀ v ∈ w.obj o, ∃ x, v = Val.atom x

/-- A value that is an atom or an object made since `w`. -/
def NewVal (w w' : World) (v : Val) : Prop := ∀ o, v = .ref o → w.nextObj ≤ o ∧ o < w'.nextObj ∧ FlatObj w' o

/-- Values whose object exists and holds atoms. -/
def Good (w : World) (v : Val) : Prop := ∀ o, v = .ref o → o < w.nextObj ∧ FlatObj w o

theorem Good.grow {w w' : World} {v : Val} (g : Grow w w') (h : Good w v) : Good w' v := by
  intro o ho
  obtain ⟨h1, h2⟩ := h o ho
  refine ⟨Nat.lt_of_lt_of_le h1 g.next, ?_⟩
  simpa [FlatObj, g.obj o h1] using h2

theorem NewVal.grow {w w' w'' : World} {v : Val} (g : Grow w' w'') (h : NewVal w w' v) : NewVal w w'' v := by
  intro o ho
  obtain ⟨h1, h2, h3⟩ := h o ho
  refine ⟨h1, Nat.lt_of_lt_of_le h2 g.next, ?_⟩
  simpa [FlatObj, g.obj o h2] using h3

theorem NewVal.back {w w' w'' : World} {v : Val} (g : Grow w w') (h : NewVal w' w'' v) : NewVal w w'' v :=
  fun o ho => ⟨Nat.le_trans g.next (h o ho).1, (h o ho).2⟩

theorem copyVal_new {w : World} {v : Val} (h : Good w v) : NewVal w (copyVal w v).1 (copyVal w v).2 := by
  intro o ho
  cases v with
  | atom => simp [copyVal] at ho
  | ref a =>
    simp only [copyVal, alloc, Val.ref.injEq] at ho ⊢
    subst ho
    refine ⟨Nat.le_refl _, Nat.lt_succ_self _, ?_⟩
    have := (h a rfl).2
    simpa [FlatObj, upd] using this

theorem mk_new (w : World) (x : New) : NewVal w (mk w x).1 (mk w x).2 := by
  intro o ho
  cases x with
  | atom => simp [mk] at ho
  | obj c =>
    simp only [mk, alloc, Val.ref.injEq] at ho ⊢
    subst ho
    refine ⟨Nat.le_refl _, Nat.lt_succ_self _, ?_⟩
    intro v hv
    simp only [upd, if_true, List.mem_map] at hv
    obtain ⟨x, _, rfl⟩ := hv
    exact ⟨x, rfl⟩

theorem NewVal.good {w w' : World} {v : Val} (h : NewVal w w' v) : Good w' v := fun o ho => (h o ho).2

theorem cloneStates_grow (d : Dict Nat Slot) : ∀ w, Grow w (cloneStates w d).1 := by
  induction d with
  | nil => intro w; exact Grow.refl w
  | cons p r ih =>
    intro w
    obtain ⟨n, s⟩ := p
    have g := (copyVal_grow w s.val).trans (ih (copyVal w s.val).1)
    unfold cloneStates
    split
    · exact Grow.refl w
    · split <;> rename_i heq <;> simpa [heq] using g

theorem cloneKnow_grow (d : Dict Nat Val) : ∀ w, Grow w (cloneKnow w d).1 := by
  induction d with
  | nil => intro w; exact Grow.refl w
  | cons p r ih =>
    intro w
    exact (copyVal_grow w p.2).trans (ih _)

theorem addKnow_grow (l : List (Nat × New)) : ∀ w k, Grow w (addKnow w k l).1 := by
  induction l with
  | nil => intro w k; exact Grow.refl w
  | cons p r ih =>
    intro w k
    exact ((mk_grow w p.2).trans (copyVal_grow _ _)).trans (ih _ _)

theorem cloneStates_new (d : Dict Nat Slot) : ∀ w w' d', (∀ p ∈ d, Good w p.2.val) → cloneStates w d = (w', some d') →
    ∀ p ∈ d', NewVal w w' p.2.val := by
  induction d with
  | nil =>
    intro w w' d' _ h
    simp only [cloneStates, Prod.mk.injEq, Option.some.injEq] at h
    obtain ⟨_, rfl⟩ := h
    simp
  | cons p r ih =>
    intro w w' d' hg h q hq
    obtain ⟨n, s⟩ := p
    unfold cloneStates at h
    split at h
    · simp at h
    · split at h
      · rename_i w2 r' heq
        simp only [Prod.mk.injEq, Option.some.injEq] at h
        obtain ⟨rfl, rfl⟩ := h
        have gr := copyVal_grow w s.val
        have gw2 : Grow (copyVal w s.val).1 w2 := by
          have := cloneStates_grow r (copyVal w s.val).1
          rwa [heq] at this
        rcases List.mem_cons.mp hq with rfl | hq
        · exact (copyVal_new (hg (n, s) (by simp))).grow gw2
        · exact (ih _ _ _ (fun p hp => (hg p (List.mem_cons_of_mem _ hp)).grow gr) heq q hq).back gr
      · simp at h

theorem cloneKnow_new (d : Dict Nat Val) : ∀ w, (∀ p ∈ d, Good w p.2) →
    ∀ p ∈ (cloneKnow w d).2, NewVal w (cloneKnow w d).1 p.2 := by
  induction d with
  | nil => intro w _; simp [cloneKnow]
  | cons p r ih =>
    intro w hg q hq
    obtain ⟨n, v⟩ := p
    have gr := copyVal_grow w v
    simp only [cloneKnow] at hq ⊢
    rcases List.mem_cons.mp hq with rfl | hq
    · exact (copyVal_new (hg (n, v) (by simp))).grow (cloneKnow_grow r _)
    · exact (ih _ (fun p hp => (hg p (List.mem_cons_of_mem _ hp)).grow gr) q hq).back gr

theorem addKnow_new (w0 : World) (l : List (Nat × New)) : ∀ w k, Grow w0 w → (∀ p ∈ k, NewVal w0 w p.2) →
    ∀ p ∈ (addKnow w k l).2, NewVal w0 (addKnow w k l).1 p.2 := by
  induction l with
  | nil => intro w k _ h; exact h
  | cons q r ih =>
    intro w k g h
    obtain ⟨n, x⟩ := q
    have g2 := copyVal_grow (mk w x).1 (mk w x).2
    have g1 := (mk_grow w x).trans g2
    refine ih _ _ (g.trans g1) ?_
    intro p hp
    rcases Dict.mem_set hp with rfl | hp
    · exact (copyVal_new (mk_new w x).good).back (g.trans (mk_grow w x))
    · exact (h p hp).grow g1

/-! ## The starting conditions are kept -/

theorem mem_held {a : Actor} {v : Val} : v ∈ held a ↔ (∃ p ∈ a.states, p.2.val = v) ∨ ∃ p ∈ a.know, p.2 = v := by
  simp [held, Dict.vals]

theorem Start.good {w : World} (h : Start w) {i : Nat} {a : Actor} (ha : w.actors[i]? = some a) {v : Val}
    (hv : v ∈ held a) : Good w v := by
  intro o ho
  subst ho
  exact h.flat i a ha o hv

theorem Start.update {w w' : World} (h : Start w) {i : Nat} {a a' : Actor} (ha : w.actors[i]? = some a)
    (hact : w'.actors = w.actors.set i a') (hnext : w.nextObj ≤ w'.nextObj)
    (hobj : ∀ o, o < w.nextObj → Val.ref o ∉ held a → w'.obj o = w.obj o)
    (hgood : ∀ v ∈ held a', Good w' v)
    (hsub : ∀ o, Val.ref o ∈ held a' → Val.ref o ∈ held a ∨ w.nextObj ≤ o)
    (hq : ∀ q ∈ a'.queues.vals, q < w'.nextLst) (hl : w.nextLst ≤ w'.nextLst) : Start w' := by
  have hi : i < w.actors.length := (List.getElem?_eq_some_iff.mp ha).1
  have self : w'.actors[i]? = some a' := by rw [hact]; simp [hi]
  have other : ∀ j, j ≠ i → w'.actors[j]? = w.actors[j]? := by
    intro j hj; rw [hact, List.getElem?_set_ne (Ne.symm hj)]
  refine ⟨?_, ?_, ?_⟩
  · intro j b hb o ho
    by_cases hj : j = i
    · subst hj
      rw [self] at hb; cases hb
      exact hgood _ ho o rfl
    · rw [other j hj] at hb
      obtain ⟨h1, h2⟩ := h.flat j b hb o ho
      have hn : Val.ref o ∉ held a := fun hh => h.apart i j a b ha hb (Ne.symm hj) o hh ho
      refine ⟨Nat.lt_of_lt_of_le h1 hnext, ?_⟩
      rw [hobj o h1 hn]; exact h2
  · intro j k b c hb hc hjk o ho hoc
    by_cases hj : j = i
    · subst hj
      rw [self] at hb; cases hb
      rw [other k (Ne.symm hjk)] at hc
      rcases hsub o ho with hh | hh
      · exact h.apart j k a c ha hc hjk o hh hoc
      · exact absurd (h.flat k c hc o hoc).1 (Nat.not_lt.mpr hh)
    · rw [other j hj] at hb
      by_cases hk : k = i
      · subst hk
        rw [self] at hc; cases hc
        rcases hsub o hoc with hh | hh
        · exact h.apart j k b a hb ha hjk o ho hh
        · exact absurd (h.flat j b hb o ho).1 (Nat.not_lt.mpr hh)
      · rw [other k hk] at hc
        exact h.apart j k b c hb hc hjk o ho hoc
  · intro j b hb q hqm
    by_cases hj : j = i
    · subst hj
      rw [self] at hb; cases hb
      exact hq q hqm
    · rw [other j hj] at hb
      exact Nat.lt_of_lt_of_le (h.lists j b hb q hqm) hl

theorem Start.grow {w w' : World} (h : Start w) (g : Grow w w') : Start w' := by
  refine ⟨?_, ?_, ?_⟩
  · intro i a ha o ho
    rw [g.actors] at ha
    exact (h.good ha ho).grow g o rfl
  · intro i j a b ha hb hij o ho
    rw [g.actors] at ha hb
    exact h.apart i j a b ha hb hij o ho
  · intro i a ha q hq
    rw [g.actors] at ha
    rw [g.nextL]
    exact h.lists i a ha q hq

theorem Start.append {w w' : World} (h : Start w) {b : Actor} (hact : w'.actors = w.actors ++ [b])
    (hnext : w.nextObj ≤ w'.nextObj) (hobj : ∀ o, o < w.nextObj → w'.obj o = w.obj o)
    (hnew : ∀ v ∈ held b, NewVal w w' v) (hq : ∀ q ∈ b.queues.vals, q < w'.nextLst)
    (hl : w'.nextLst = w.nextLst) : Start w' := by
  have key : ∀ j c, w'.actors[j]? = some c → w.actors[j]? = some c ∨ (j = w.actors.length ∧ c = b) := by
    intro j c hc
    rw [hact] at hc
    by_cases hj : j < w.actors.length
    · left; rwa [List.getElem?_append_left hj] at hc
    · right
      rw [List.getElem?_append_right (Nat.not_lt.mp hj)] at hc
      rcases Nat.eq_zero_or_pos (j - w.actors.length) with h0 | h0
      · rw [h0] at hc; simp at hc
        exact ⟨by omega, hc.symm⟩
      · obtain ⟨m, hm⟩ := Nat.exists_eq_add_of_lt h0
        rw [hm] at hc; simp at hc
  refine ⟨?_, ?_, ?_⟩
  · intro j c hc o ho
    rcases key j c hc with hc | ⟨_, rfl⟩
    · obtain ⟨h1, h2⟩ := h.flat j c hc o ho
      exact ⟨Nat.lt_of_lt_of_le h1 hnext, by rw [hobj o h1]; exact h2⟩
    · exact (hnew _ ho o rfl).2
  · intro j k c d hc hd hjk o ho hod
    rcases key j c hc with hc | ⟨hj, rfl⟩
    · rcases key k d hd with hd | ⟨_, rfl⟩
      · exact h.apart j k c d hc hd hjk o ho hod
      · exact absurd (h.flat j c hc o ho).1 (Nat.not_lt.mpr (hnew _ hod o rfl).1)
    · rcases key k d hd with hd | ⟨hk, rfl⟩
      · exact absurd (h.flat k d hd o hod).1 (Nat.not_lt.mpr (hnew _ ho o rfl).1)
      · omega
  · intro j c hc q hqm
    rcases key j c hc with hc | ⟨_, rfl⟩
    · rw [hl]; exact h.lists j c hc q hqm
    · exact hq q hqm

/-! ## What a step by one actor leaves alone -/

/-- A step by actor `i`: the other actors are as they were, and only objects held by `i` or new ones were written. -/
structure Leaves (w : World) (i : Nat) (a : Actor) (w' : World) : Prop where
  start : Start w'
  other : ∀ j, j ≠ i → j < w.actors.length → w'.actors[j]? = w.actors[j]?
  len : w.actors.length ≤ w'.actors.length
  obj : ∀ o, o < w.nextObj → Val.ref o ∉ held a → w'.obj o = w.obj o

theorem Leaves.same {w : World} (h : Start w) (i : Nat) (a : Actor) : Leaves w i a w :=
  ⟨h, fun _ _ _ => rfl, Nat.le_refl _, fun _ _ _ => rfl⟩

theorem Leaves.ofUpdate {w w' : World} (h : Start w) {i : Nat} {a a' : Actor} (ha : w.actors[i]? = some a)
    (hact : w'.actors = w.actors.set i a') (hnext : w.nextObj ≤ w'.nextObj)
    (hobj : ∀ o, o < w.nextObj → Val.ref o ∉ held a → w'.obj o = w.obj o)
    (hgood : ∀ v ∈ held a', Good w' v)
    (hsub : ∀ o, Val.ref o ∈ held a' → Val.ref o ∈ held a ∨ w.nextObj ≤ o)
    (hq : ∀ q ∈ a'.queues.vals, q < w'.nextLst) (hl : w.nextLst ≤ w'.nextLst) : Leaves w i a w' := by
  refine ⟨h.update ha hact hnext hobj hgood hsub hq hl, ?_, ?_, hobj⟩
  · intro j hj _; rw [hact, List.getElem?_set_ne (Ne.symm hj)]
  · rw [hact]; simp

/-- The actor's record is replaced by one that holds the same values. -/
theorem Leaves.ofSameHeld {w w' : World} (h : Start w) {i : Nat} {a a' : Actor} (ha : w.actors[i]? = some a)
    (hact : w'.actors = w.actors.set i a') (hn : w'.nextObj = w.nextObj) (ho : w'.obj = w.obj)
    (hh : ∀ v, v ∈ held a' → v ∈ held a) (hq : ∀ q ∈ a'.queues.vals, q < w'.nextLst) (hl : w.nextLst ≤ w'.nextLst) :
    Leaves w i a w' := by
  refine Leaves.ofUpdate h ha hact (Nat.le_of_eq hn.symm) (fun o _ _ => by rw [ho]) ?_ ?_ hq hl
  · intro v hv o hvo
    have := h.good ha (hh v hv) o hvo
    rw [hn]
    simpa [FlatObj, ho] using this
  · intro o hm; exact Or.inl (hh _ hm)

theorem set_same {w : World} {i : Nat} {a : Actor} (ha : w.actors[i]? = some a) : w.actors.set i a = w.actors := by
  obtain ⟨hi, rfl⟩ := List.getElem?_eq_some_iff.mp ha
  simp

theorem eval_good {w w1 : World} (h : Start w) {i : Nat} {a : Actor} (ha : w.actors[i]? = some a) {x : Src} {v : Val}
    (he : eval w a x = some (w1, v)) :
    Grow w w1 ∧ Good w1 v ∧ ∀ o, v = .ref o → Val.ref o ∈ held a ∨ w.nextObj ≤ o := by
  cases x with
  | new x =>
    simp only [eval, Option.some.injEq] at he
    have e1 : (mk w x).1 = w1 := by rw [he]
    have e2 : (mk w x).2 = v := by rw [he]
    have := mk_new w x
    rw [e1, e2] at this
    exact ⟨e1 ▸ mk_grow w x, this.good, fun o ho => Or.inr (this o ho).1⟩
  | state m =>
    simp only [eval, Option.map_eq_some_iff, Prod.mk.injEq] at he
    obtain ⟨s, hs, rfl, rfl⟩ := he
    have hm : s.val ∈ held a := mem_held.mpr (Or.inl ⟨(m, s), Dict.mem_of_get? hs, rfl⟩)
    exact ⟨Grow.refl _, h.good ha hm, fun o ho => Or.inl (ho ▸ hm)⟩
  | know m =>
    simp only [eval, Option.map_eq_some_iff, Prod.mk.injEq] at he
    obtain ⟨s, hs, rfl, rfl⟩ := he
    have hm : s ∈ held a := mem_held.mpr (Or.inr ⟨(m, s), Dict.mem_of_get? hs, rfl⟩)
    exact ⟨Grow.refl _, h.good ha hm, fun o ho => Or.inl (ho ▸ hm)⟩

theorem follow_flat {w : World} {v : Val} (g : Good w v) {p : List Nat} {o : Nat} (h : follow w v p = some o) :
    v = .ref o := by
  cases v with
  | atom => simp [follow] at h
  | ref b =>
    cases p with
    | nil => simp [follow] at h; rw [h]
    | cons k p =>
      simp only [follow] at h
      split at h
      · rename_i u hu
        obtain ⟨x, rfl⟩ := (g b rfl).2 u (List.mem_of_getElem? hu)
        simp [follow] at h
      · simp at h

theorem vals_set_lt {d : Dict Nat Nat} {n x b : Nat} (h : ∀ q ∈ d.vals, q < b) (hx : x < b) :
    ∀ q ∈ (d.set n x).vals, q < b := by
  intro q hq
  simp only [Dict.vals, List.mem_map] at hq
  obtain ⟨p, hp, rfl⟩ := hq
  rcases Dict.mem_set hp with rfl | hp
  · exact hx
  · exact h _ (List.mem_map.mpr ⟨p, hp, rfl⟩)

/-- Giving network `n` of actor `i` a new list. -/
theorem Leaves.newList {w w' : World} (h : Start w) {i : Nat} {a : Actor} (ha : w.actors[i]? = some a) (n : Nat)
    (hact : w'.actors = w.actors.set i { a with queues := a.queues.set n w.nextLst })
    (hn : w'.nextObj = w.nextObj) (ho : w'.obj = w.obj) (hl : w'.nextLst = w.nextLst + 1) : Leaves w i a w' := by
  refine Leaves.ofSameHeld h ha hact hn ho (fun v hv => hv) ?_ (by omega)
  rw [hl]
  exact vals_set_lt (fun q hq => Nat.lt_succ_of_lt (h.lists i a ha q hq)) (Nat.lt_succ_self _)

/-- Only lists changed. -/
theorem Leaves.ofLists {w w' : World} (h : Start w) {i : Nat} {a : Actor} (ha : w.actors[i]? = some a)
    (hact : w'.actors = w.actors) (hn : w'.nextObj = w.nextObj) (ho : w'.obj = w.obj)
    (hl : w'.nextLst = w.nextLst) : Leaves w i a w' :=
  Leaves.ofSameHeld h ha (by rw [set_same ha, hact]) hn ho (fun _ hv => hv)
    (fun q hq => by rw [hl]; exact h.lists i a ha q hq) (Nat.le_of_eq hl.symm)

theorem Leaves.ofClone {w : World} (h : Start w) {i : Nat} {a : Actor} (ha : w.actors[i]? = some a)
    (extra : List (Nat × New)) : Leaves w i a (clone w i a extra).1 := by
  have gs := cloneStates_grow a.states w
  unfold clone
  split
  · rename_i w1 heq
    rw [heq] at gs
    exact ⟨h.grow gs, fun j _ _ => by rw [gs.actors], by rw [gs.actors]; exact Nat.le_refl _, fun o ho _ => gs.obj o ho⟩
  · rename_i w1 sts heq
    rw [heq] at gs
    have hi : i < w.actors.length := (List.getElem?_eq_some_iff.mp ha).1
    have hst : ∀ p ∈ a.states, Good w p.2.val := fun p hp => h.good ha (mem_held.mpr (Or.inl ⟨p, hp, rfl⟩))
    have hs := cloneStates_new a.states w w1 sts hst heq
    generalize hw2 : setActor w1 i { a with clones := a.clones + 1 } = w2
    have e2 : w2.nextObj = w1.nextObj ∧ w2.obj = w1.obj ∧ w2.nextLst = w1.nextLst ∧
        w2.actors = w1.actors.set i { a with clones := a.clones + 1 } := by subst hw2; exact ⟨rfl, rfl, rfl, rfl⟩
    obtain ⟨e21, e22, e23, e24⟩ := e2
    rw [gs.actors] at e24
    have hkn : ∀ p ∈ a.know, Good w2 p.2 := by
      intro p hp o ho
      have := (h.good ha (mem_held.mpr (Or.inr ⟨p, hp, rfl⟩))).grow gs o ho
      rw [e21]
      simpa [FlatObj, e22] using this
    have g3 := cloneKnow_grow a.know w2
    have hk := addKnow_new w2 extra _ _ g3 (cloneKnow_new a.know w2 hkn)
    have g := g3.trans (addKnow_grow extra (cloneKnow w2 a.know).1 (cloneKnow w2 a.know).2)
    dsimp only
    generalize addKnow (cloneKnow w2 a.know).1 (cloneKnow w2 a.know).2 extra = r4 at g hk ⊢
    generalize hB : ({ w with actors := w.actors.set i { a with clones := a.clones + 1 } } : World) = B
    have b1 : B.nextObj = w.nextObj := by subst hB; rfl
    have b2 : B.obj = w.obj := by subst hB; rfl
    have b3 : B.nextLst = w.nextLst := by subst hB; rfl
    have b4 : B.actors = w.actors.set i { a with clones := a.clones + 1 } := by subst hB; rfl
    have LB : Leaves w i a B := Leaves.ofSameHeld h ha b4 b1 b2 (fun _ hv => hv)
      (fun q hq => by rw [b3]; exact h.lists i a ha q hq) (Nat.le_of_eq b3.symm)
    have hn : w.nextObj ≤ r4.1.nextObj := Nat.le_trans gs.next (by rw [← e21]; exact g.next)
    have hobj : ∀ o, o < w.nextObj → r4.1.obj o = w.obj o := by
      intro o ho
      have h1 : o < w1.nextObj := Nat.lt_of_lt_of_le ho gs.next
      rw [g.obj o (by rw [e21]; exact h1), e22, gs.obj o ho]
    have hl : r4.1.nextLst = w.nextLst := by rw [g.nextL, e23, gs.nextL]
    have hact : r4.1.actors = B.actors := by rw [g.actors, e24, b4]
    refine ⟨?_, ?_, ?_, fun o ho _ => hobj o ho⟩
    · refine LB.start.append (b := ⟨sts, r4.2, a.queues, 0⟩) (by simp [hact]) (by rw [b1]; exact hn)
        (fun o ho => by rw [b2]; exact hobj o (by rwa [b1] at ho)) ?_ ?_ (by rw [b3]; exact hl)
      · intro v hv o ho
        rcases mem_held.mp hv with ⟨p, hp, rfl⟩ | ⟨p, hp, rfl⟩
        · obtain ⟨h1, h2, h3⟩ := hs p hp o ho
          refine ⟨by rw [b1]; exact h1, Nat.lt_of_lt_of_le h2 (by rw [← e21]; exact g.next), ?_⟩
          have := g.obj o (by rw [e21]; exact h2)
          simpa [FlatObj, this, e22] using h3
        · obtain ⟨h1, h2⟩ := hk p hp o ho
          refine ⟨Nat.le_trans ?_ h1, h2⟩
          rw [b1, e21]; exact gs.next
      · intro q hq
        show q < r4.1.nextLst
        rw [hl]; exact h.lists i a ha q hq
    · intro j hj hlt
      show (r4.1.actors ++ _)[j]? = _
      rw [hact, List.getElem?_append_left (by rw [b4]; simpa using hlt)]
      exact LB.other j hj hlt
    · show _ ≤ (r4.1.actors ++ _).length
      rw [hact, b4]; simp

theorem step_leaves {w : World} (h : Start w) {i : Nat} {a : Actor} (ha : w.actors[i]? = some a) (op : AOp) :
    Leaves w i a (stepA w i a op).1 := by
  have same := Leaves.same h i a
  have newQ : ∀ n c, Leaves w i a (setActor (allocL w c).1 i { a with queues := a.queues.set n w.nextLst }) :=
    fun n c => Leaves.newList h ha n rfl rfl rfl rfl
  cases op with
  | setState n x =>
    simp only [stepA]
    split
    · exact same
    · rename_i s hs
      split
      · exact same
      · split
        · exact same
        · rename_i w1 v he
          obtain ⟨g, hgood, hsub⟩ := eval_good h ha he
          refine Leaves.ofUpdate (a' := { a with states := a.states.set n { s with val := v } }) h ha
            (by simp [setActor, g.actors]) g.next (fun o ho _ => g.obj o ho) ?_ ?_ ?_
            (Nat.le_of_eq g.nextL.symm)
          · intro u hu
            show Good w1 u
            rcases mem_held.mp hu with ⟨p, hp, rfl⟩ | ⟨p, hp, rfl⟩
            · rcases Dict.mem_set hp with rfl | hp
              · exact hgood
              · exact (h.good ha (mem_held.mpr (Or.inl ⟨p, hp, rfl⟩))).grow g
            · exact (h.good ha (mem_held.mpr (Or.inr ⟨p, hp, rfl⟩))).grow g
          · intro o ho
            rcases mem_held.mp ho with ⟨p, hp, hpo⟩ | ⟨p, hp, hpo⟩
            · rcases Dict.mem_set hp with rfl | hp
              · exact hsub o hpo
              · exact Or.inl (mem_held.mpr (Or.inl ⟨p, hp, hpo⟩))
            · exact Or.inl (mem_held.mpr (Or.inr ⟨p, hp, hpo⟩))
          · intro q hq
            show q < w1.nextLst
            rw [g.nextL]; exact h.lists i a ha q hq
  | setKnow n x =>
    simp only [stepA]
    split
    · exact same
    · rename_i w1 v he
      obtain ⟨g, hgood, hsub⟩ := eval_good h ha he
      refine Leaves.ofUpdate (a' := { a with know := a.know.set n v }) h ha
        (by simp [setActor, g.actors]) g.next (fun o ho _ => g.obj o ho) ?_ ?_ ?_
        (Nat.le_of_eq g.nextL.symm)
      · intro u hu
        show Good w1 u
        rcases mem_held.mp hu with ⟨p, hp, rfl⟩ | ⟨p, hp, rfl⟩
        · exact (h.good ha (mem_held.mpr (Or.inl ⟨p, hp, rfl⟩))).grow g
        · rcases Dict.mem_set hp with rfl | hp
          · exact hgood
          · exact (h.good ha (mem_held.mpr (Or.inr ⟨p, hp, rfl⟩))).grow g
      · intro o ho
        rcases mem_held.mp ho with ⟨p, hp, hpo⟩ | ⟨p, hp, hpo⟩
        · exact Or.inl (mem_held.mpr (Or.inl ⟨p, hp, hpo⟩))
        · rcases Dict.mem_set hp with rfl | hp
          · exact hsub o hpo
          · exact Or.inl (mem_held.mpr (Or.inr ⟨p, hp, hpo⟩))
      · intro q hq
        show q < w1.nextLst
        rw [g.nextL]; exact h.lists i a ha q hq
  | clearKnow n =>
    simp only [stepA]
    split
    · refine Leaves.ofSameHeld h ha rfl rfl rfl ?_ (fun q hq => h.lists i a ha q hq) (Nat.le_refl _)
      intro v hv
      rcases mem_held.mp hv with ⟨p, hp, hpo⟩ | ⟨p, hp, hpo⟩
      · exact mem_held.mpr (Or.inl ⟨p, hp, hpo⟩)
      · exact mem_held.mpr (Or.inr ⟨p, (List.mem_filter.mp hp).1, hpo⟩)
    · exact same
  | poke l p c =>
    simp only [stepA]
    split
    · exact same
    · rename_i o ho
      obtain ⟨v, hv, hf⟩ := Option.bind_eq_some_iff.mp ho
      have hm : v ∈ held a := by
        cases l with
        | state n =>
          simp only [locVal, Option.map_eq_some_iff] at hv
          obtain ⟨s, hs, rfl⟩ := hv
          exact mem_held.mpr (Or.inl ⟨(n, s), Dict.mem_of_get? hs, rfl⟩)
        | know n => exact mem_held.mpr (Or.inr ⟨(n, v), Dict.mem_of_get? hv, rfl⟩)
      have hvo := follow_flat (h.good ha hm) hf
      subst hvo
      refine Leaves.ofUpdate h ha (set_same ha).symm (Nat.le_refl _) ?_ ?_ (fun o ho => Or.inl ho)
        (fun q hq => h.lists i a ha q hq) (Nat.le_refl _)
      · intro o' _ hn
        have : o' ≠ o := by rintro rfl; exact hn hm
        simp [upd, this]
      · intro u hu o' ho'
        obtain ⟨h1, h2⟩ := h.good ha hu o' ho'
        refine ⟨h1, ?_⟩
        by_cases he : o' = o
        · subst he
          intro v hv
          simp only [upd, if_true, List.mem_map] at hv
          obtain ⟨x, _, rfl⟩ := hv
          exact ⟨x, rfl⟩
        · simpa [FlatObj, upd, he] using h2
  | addNet n => exact newQ n []
  | clearQ n => exact newQ n []
  | setQ n ts =>
    simp only [stepA, setQ]
    split
    · exact same
    · split
      · exact same
      · exact newQ n ts
  | appendQ n t =>
    simp only [stepA]
    split
    · exact same
    · exact Leaves.ofLists h ha rfl rfl rfl rfl
  | beginTask n t =>
    simp only [stepA, beginTask]
    split
    · exact same
    · split
      · split
        · exact same
        · exact Leaves.ofLists h ha rfl rfl rfl rfl
      · exact Leaves.newList h ha n rfl rfl rfl rfl
  | clearTask n =>
    simp only [stepA, clearTask]
    split
    · exact same
    · split
      · exact same
      · exact Leaves.ofLists h ha rfl rfl rfl rfl
  | clone extra => exact Leaves.ofClone h ha extra

theorem step_start {w : World} (h : Start w) (i : Nat) (op : AOp) : Start (step w i op).1 := by
  unfold step
  split
  · exact h
  · rename_i a ha
    exact (step_leaves h ha op).start

theorem run_start {w : World} (h : Start w) (ops : List (Nat × AOp)) : Start (run w ops) := by
  induction ops generalizing w with
  | nil => exact h
  | cons p r ih => exact ih (step_start h p.1 p.2)

theorem view_congr {w w' : World} {v : Val} (hg : Good w v) (h : ∀ o, v = .ref o → w'.obj o = w.obj o) (d : Nat) :
    view w' d v = view w d v := by
  cases v with
  | atom a => cases d <;> rfl
  | ref o =>
    cases d with
    | zero => rfl
    | succ d =>
      simp only [view]
      rw [h o rfl]
      congr 2
      have hf := (hg o rfl).2
      unfold FlatObj at hf
      revert hf
      generalize w.obj o = l
      intro hf
      induction l with
      | nil => rfl
      | cons u r ih =>
        obtain ⟨x, rfl⟩ := hf u (by simp)
        simp only [List.flatMap_cons]
        rw [ih (fun v hv => hf v (List.mem_cons_of_mem _ hv))]
        cases d <;> rfl

end Verif.Clone
