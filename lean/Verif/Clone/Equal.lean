import Verif.Clone.Props

/-!
# C30: what a clone starts with, and the ways in which clones are not independent
-/

namespace Verif.Clone

/-- The reference, if any, exists. -/
def Known (w : World) (v : Val) : Prop := ∀ o, v = .ref o → o < w.nextObj

/-- Every reference exists; nothing is said about how deep values go. -/
structure Closed (w : World) : Prop where
  objs : ∀ o, o < w.nextObj → ∀ v ∈ w.obj o, Known w v
  vals : ∀ (i : Nat) a, w.actors[i]? = some a → ∀ v ∈ held a, Known w v
  lists : ∀ (i : Nat) a, w.actors[i]? = some a → ∀ q ∈ a.queues.vals, q < w.nextLst

theorem Known.grow {w w' : World} {v : Val} (g : w.nextObj ≤ w'.nextObj) (h : Known w v) : Known w' v :=
  fun o ho => Nat.lt_of_lt_of_le (h o ho) g

theorem view_grow {w w' : World} (hc : ∀ o, o < w.nextObj → ∀ v ∈ w.obj o, Known w v)
    (ho : ∀ o, o < w.nextObj → w'.obj o = w.obj o) (d : Nat) : ∀ v, Known w v → view w' d v = view w d v := by
  induction d with
  | zero => intro v _; cases v <;> rfl
  | succ d ih =>
    intro v hv
    cases v with
    | atom => rfl
    | ref o =>
      have hlt := hv o rfl
      simp only [view]
      rw [ho o hlt]
      congr 2
      have := hc o hlt
      revert this
      generalize w.obj o = l
      intro hl
      induction l with
      | nil => rfl
      | cons u r ihr =>
        simp only [List.flatMap_cons]
        rw [ih u (hl u (by simp)), ihr (fun v hv => hl v (List.mem_cons_of_mem _ hv))]

/-- Objects exist and hold existing references. -/
def ClosedObj (w : World) : Prop := ∀ o, o < w.nextObj → ∀ v ∈ w.obj o, Known w v

theorem alloc_closed {w : World} (h : ClosedObj w) {c : List Val} (hc : ∀ v ∈ c, Known w v) :
    ClosedObj (alloc w c).1 := by
  intro o ho v hv
  by_cases he : o = w.nextObj
  · subst he
    simp only [alloc, upd, if_true] at hv
    exact (hc v hv).grow (Nat.le_succ _)
  · simp only [alloc, upd, he, if_false] at hv
    simp only [alloc] at ho
    exact (h o (by omega) v hv).grow (Nat.le_succ _)

theorem copyVal_closed {w : World} (h : ClosedObj w) {v : Val} (hv : Known w v) : ClosedObj (copyVal w v).1 := by
  cases v with
  | atom => exact h
  | ref o => exact alloc_closed h (h o (hv o rfl))

theorem copyVal_known {w : World} {v : Val} : Known (copyVal w v).1 (copyVal w v).2 := by
  intro o ho
  cases v with
  | atom => simp [copyVal] at ho
  | ref a =>
    simp only [copyVal, alloc, Val.ref.injEq] at ho ⊢
    omega

/-- A copy looks like the original, to any depth. -/
theorem copyVal_view {w : World} (h : ClosedObj w) {v : Val} (hv : Known w v) (d : Nat) :
    view (copyVal w v).1 d (copyVal w v).2 = view w d v := by
  cases v with
  | atom => cases d <;> rfl
  | ref o =>
    cases d with
    | zero => rfl
    | succ d =>
      simp only [copyVal, view]
      have hl := h o (hv o rfl)
      have e : (alloc w (w.obj o)).1.obj w.nextObj = w.obj o := by simp [alloc, upd]
      simp only [alloc] at e ⊢
      simp only [view, e]
      congr 2
      revert hl
      generalize w.obj o = l
      intro hl
      have key : ∀ v ∈ l, view (alloc w l).1 d v = view w d v := fun v hv =>
        view_grow h (alloc_grow w l).obj d v (hl v hv)
      simp only [alloc] at key
      generalize view ({ w with obj := upd w.obj w.nextObj l, nextObj := w.nextObj + 1 } : World) d = f at key ⊢
      clear hl e
      induction l with
      | nil => rfl
      | cons u r ihr =>
        simp only [List.flatMap_cons]
        rw [key u (by simp), ihr (fun v hv => key v (List.mem_cons_of_mem _ hv))]

theorem mk_closed {w : World} (h : ClosedObj w) (x : New) : ClosedObj (mk w x).1 := by
  cases x with
  | atom => exact h
  | obj c =>
    refine alloc_closed h ?_
    intro v hv o ho
    subst ho
    simp at hv

theorem mk_known {w : World} (x : New) : Known (mk w x).1 (mk w x).2 := fun o ho => (mk_new w x o ho).2.1

theorem cloneStates_equal (d : Dict Nat Slot) : ∀ w w' d', ClosedObj w → (∀ p ∈ d, Known w p.2.val) →
    cloneStates w d = (w', some d') →
    ClosedObj w' ∧ (∀ p ∈ d', Known w' p.2.val) ∧
    ∀ n k, (d'.get? n).map (fun s => view w' k s.val) = (d.get? n).map (fun s => view w k s.val) := by
  induction d with
  | nil =>
    intro w w' d' hc _ h
    simp only [cloneStates, Prod.mk.injEq, Option.some.injEq] at h
    obtain ⟨rfl, rfl⟩ := h
    exact ⟨hc, by simp, fun _ _ => rfl⟩
  | cons p r ih =>
    intro w w' d' hc hk h
    obtain ⟨m, s⟩ := p
    unfold cloneStates at h
    split at h
    · simp at h
    · split at h
      · rename_i w2 r' heq
        simp only [Prod.mk.injEq, Option.some.injEq] at h
        obtain ⟨rfl, rfl⟩ := h
        have gr := copyVal_grow w s.val
        have hks := hk (m, s) (by simp)
        have hkr : ∀ p ∈ r, Known w p.2.val := fun p hp => hk p (List.mem_cons_of_mem _ hp)
        have gw2 : Grow (copyVal w s.val).1 w2 := by
          have := cloneStates_grow r (copyVal w s.val).1
          rwa [heq] at this
        have hc1 := copyVal_closed hc hks
        obtain ⟨i1, i2, i3⟩ := ih _ _ _ hc1 (fun p hp => (hkr p hp).grow gr.next) heq
        refine ⟨i1, ?_, ?_⟩
        · intro q hq
          rcases List.mem_cons.mp hq with rfl | hq
          · exact copyVal_known.grow gw2.next
          · exact i2 q hq
        · intro n k
          simp only [Dict.get?_cons]
          split
          · simp only [Option.map_some]
            rw [view_grow hc1 gw2.obj k _ copyVal_known, copyVal_view hc hks]
          · rw [i3 n k]
            cases hg : Dict.get? r n with
            | none => rfl
            | some u =>
              simp only [Option.map_some]
              rw [view_grow hc gr.obj k _ (hkr (n, u) (Dict.mem_of_get? hg))]
      · simp at h

theorem cloneKnow_equal (d : Dict Nat Val) : ∀ w, ClosedObj w → (∀ p ∈ d, Known w p.2) →
    ClosedObj (cloneKnow w d).1 ∧ (∀ p ∈ (cloneKnow w d).2, Known (cloneKnow w d).1 p.2) ∧
    ∀ n k, ((cloneKnow w d).2.get? n).map (view (cloneKnow w d).1 k) = (d.get? n).map (view w k) := by
  induction d with
  | nil => intro w hc _; exact ⟨hc, by simp [cloneKnow], fun _ _ => rfl⟩
  | cons p r ih =>
    intro w hc hk
    obtain ⟨m, v⟩ := p
    have gr := copyVal_grow w v
    have hks := hk (m, v) (by simp)
    have hkr : ∀ p ∈ r, Known w p.2 := fun p hp => hk p (List.mem_cons_of_mem _ hp)
    have gw2 := cloneKnow_grow r (copyVal w v).1
    have hc1 := copyVal_closed hc hks
    obtain ⟨i1, i2, i3⟩ := ih _ hc1 (fun p hp => (hkr p hp).grow gr.next)
    simp only [cloneKnow]
    refine ⟨i1, ?_, ?_⟩
    · intro q hq
      rcases List.mem_cons.mp hq with rfl | hq
      · exact copyVal_known.grow gw2.next
      · exact i2 q hq
    · intro n k
      simp only [Dict.get?_cons]
      split
      · simp only [Option.map_some]
        rw [view_grow hc1 gw2.obj k _ copyVal_known, copyVal_view hc hks]
      · rw [i3 n k]
        cases hg : Dict.get? r n with
        | none => rfl
        | some u =>
          simp only [Option.map_some]
          rw [view_grow hc gr.obj k _ (hkr (n, u) (Dict.mem_of_get? hg))]

/-- A value made by the caller, written out to depth `d`. -/
def newView : Nat → New → List Tok
  | _, .atom a => [.atom a]
  | 0, .obj _ => [.cut]
  | _ + 1, .obj c => .open :: (c.map .atom ++ [.close])

theorem mk_view (w : World) (x : New) (d : Nat) : view (mk w x).1 d (mk w x).2 = newView d x := by
  cases x with
  | atom a => cases d <;> rfl
  | obj c =>
    cases d with
    | zero => rfl
    | succ d =>
      simp only [mk, alloc, view, newView, upd, if_true]
      congr 2
      generalize ({ w with obj := _, nextObj := _ } : World) = w'
      induction c with
      | nil => rfl
      | cons a r ih =>
        simp only [List.map_cons, List.flatMap_cons]
        rw [ih]
        cases d <;> rfl

/-- The last entry for `n` in the additional knowledge. -/
def given (extra : List (Nat × New)) (n : Nat) : Option New :=
  ((extra.reverse).find? fun p => p.1 = n).map (·.2)

theorem addKnow_equal (l : List (Nat × New)) : ∀ w k, ClosedObj w → (∀ p ∈ k, Known w p.2) →
    ClosedObj (addKnow w k l).1 ∧ (∀ p ∈ (addKnow w k l).2, Known (addKnow w k l).1 p.2) ∧
    ∀ n d, ((addKnow w k l).2.get? n).map (view (addKnow w k l).1 d) =
      match given l n with
      | some x => some (newView d x)
      | none => (k.get? n).map (view w d) := by
  induction l with
  | nil => intro w k hc hk; exact ⟨hc, hk, fun _ _ => rfl⟩
  | cons q r ih =>
    intro w k hc hk
    obtain ⟨m, x⟩ := q
    have g2 := copyVal_grow (mk w x).1 (mk w x).2
    have g1 := (mk_grow w x).trans g2
    have hc1 := mk_closed hc x
    have hc2 := copyVal_closed hc1 (mk_known x)
    obtain ⟨i1, i2, i3⟩ := ih (copyVal (mk w x).1 (mk w x).2).1 (k.set m (copyVal (mk w x).1 (mk w x).2).2) hc2 (by
      intro p hp
      rcases Dict.mem_set hp with rfl | hp
      · exact copyVal_known
      · exact (hk p hp).grow g1.next)
    refine ⟨i1, i2, ?_⟩
    intro n d
    simp only [addKnow]
    rw [i3 n d]
    have hg : given ((m, x) :: r) n = (given r n).or (if m = n then some x else none) := by
      simp only [given, List.reverse_cons, List.find?_append]
      cases (r.reverse.find? fun p => decide (p.1 = n)) with
      | none => by_cases hm : m = n <;> simp [hm]
      | some y => simp
    rw [hg]
    cases hgr : given r n with
    | some y => rfl
    | none =>
      by_cases hm : m = n
      · subst hm
        simp only [Dict.get?_set_self, Option.map_some, Option.none_or, if_true]
        rw [copyVal_view hc1 (mk_known x), mk_view]
      · simp only [Option.none_or, if_neg hm]
        rw [Dict.get?_set_ne _ _ hm]
        cases hk' : k.get? n with
        | none => rfl
        | some v =>
          simp only [Option.map_some]
          rw [view_grow hc g1.obj d v (hk (n, v) (Dict.mem_of_get? hk'))]

/-- A clone starts with the states of the original, with its knowledge overridden by the additional knowledge, and with its
task queues; and nothing that can be seen of the original changes. Values may be of any depth. -/
theorem c30_equal (w w' : World) (hw : Closed w) (i k : Nat) (extra : List (Nat × New))
    (h : step w i (.clone extra) = (w', .made k)) (n d : Nat) :
    k = w.actors.length ∧
    stateView w' k n d = stateView w i n d ∧
    knowView w' k n d = (match given extra n with
      | some x => some (newView d x)
      | none => knowView w i n d) ∧
    queueView w' k n = queueView w i n ∧
    stateView w' i n d = stateView w i n d ∧
    knowView w' i n d = knowView w i n d ∧
    queueView w' i n = queueView w i n := by
  unfold step at h
  split at h
  · simp at h
  · rename_i a ha
    have hi : i < w.actors.length := (List.getElem?_eq_some_iff.mp ha).1
    simp only [stepA, clone] at h
    split at h
    · simp at h
    · rename_i w1 sts heq
      have gs := cloneStates_grow a.states w
      rw [heq] at gs
      have hst : ∀ p ∈ a.states, Known w p.2.val := fun p hp =>
        hw.vals i a ha _ (mem_held.mpr (Or.inl ⟨p, hp, rfl⟩))
      have hkn : ∀ p ∈ a.know, Known w p.2 := fun p hp => hw.vals i a ha _ (mem_held.mpr (Or.inr ⟨p, hp, rfl⟩))
      obtain ⟨c1, k1, v1⟩ := cloneStates_equal a.states w w1 sts hw.objs hst heq
      revert h
      generalize hw2 : setActor w1 i { a with clones := a.clones + 1 } = w2
      intro h
      have e21 : w2.nextObj = w1.nextObj := by subst hw2; rfl
      have e22 : w2.obj = w1.obj := by subst hw2; rfl
      have e23 : w2.lst = w1.lst := by subst hw2; rfl
      have e24 : w2.actors = w.actors.set i { a with clones := a.clones + 1 } := by
        subst hw2; show w1.actors.set i _ = _; rw [gs.actors]
      have c2 : ClosedObj w2 := by
        intro o ho v hv p hp
        rw [e21] at ho ⊢
        rw [e22] at hv
        exact c1 o ho v hv p hp
      obtain ⟨c3, k3, v3⟩ := cloneKnow_equal a.know w2 c2 (fun p hp =>
        ((hkn p hp).grow gs.next).grow (Nat.le_of_eq e21.symm))
      obtain ⟨c4, k4, v4⟩ := addKnow_equal extra (cloneKnow w2 a.know).1 (cloneKnow w2 a.know).2 c3 k3
      have g := (cloneKnow_grow a.know w2).trans (addKnow_grow extra (cloneKnow w2 a.know).1 (cloneKnow w2 a.know).2)
      generalize hr4 : addKnow (cloneKnow w2 a.know).1 (cloneKnow w2 a.know).2 extra = r4 at h c4 k4 v4 g
      simp only [Prod.mk.injEq, Out.made.injEq] at h
      obtain ⟨rfl, rfl⟩ := h
      have hlen : r4.1.actors.length = w.actors.length := by rw [g.actors, e24]; simp
      have hobj2 : ∀ o, o < w.nextObj → w2.obj o = w.obj o := fun o ho => by rw [e22, gs.obj o ho]
      have hobj : ∀ o, o < w.nextObj → r4.1.obj o = w.obj o := fun o ho => by
        rw [g.obj o (by rw [e21]; exact Nat.lt_of_lt_of_le ho gs.next), hobj2 o ho]
      have hlst : r4.1.lst = w.lst := by rw [g.lst, e23, gs.lst]
      have hself : (r4.1.actors ++ [(⟨sts, r4.2, a.queues, 0⟩ : Actor)])[r4.1.actors.length]? =
          some ⟨sts, r4.2, a.queues, 0⟩ := by simp
      have horig : (r4.1.actors ++ [(⟨sts, r4.2, a.queues, 0⟩ : Actor)])[i]? =
          some { a with clones := a.clones + 1 } := by
        rw [List.getElem?_append_left (by rw [hlen]; exact hi), g.actors, e24]
        simp [hi]
      have vw : ∀ v, view ({ r4.1 with actors := r4.1.actors ++ [(⟨sts, r4.2, a.queues, 0⟩ : Actor)] } : World) d v
          = view r4.1 d v := by
        have : ∀ d v, view ({ r4.1 with actors := r4.1.actors ++ [(⟨sts, r4.2, a.queues, 0⟩ : Actor)] } : World) d v
          = view r4.1 d v := by
          intro d
          induction d with
          | zero => intro v; cases v <;> rfl
          | succ d ih =>
            intro v
            cases v with
            | atom => rfl
            | ref o => simp only [view]; rw [funext ih]
        exact this d
      have v12 : ∀ v, Known w v → view w2 d v = view w d v := fun v hv => view_grow hw.objs hobj2 d v hv
      refine ⟨hlen, ?_, ?_, ?_, ?_, ?_, ?_⟩
      · simp only [stateView, hself, ha, Option.bind_some]
        rw [← v1 n d]
        cases hg : sts.get? n with
        | none => rfl
        | some s =>
          have hks := k1 (n, s) (Dict.mem_of_get? hg)
          simp only [Option.map_some]
          rw [vw, view_grow c2 g.obj d _ (hks.grow (Nat.le_of_eq e21.symm)),
            view_grow c1 (fun o _ => congrFun e22 o) d _ hks]
      · simp only [knowView, hself, Option.bind_some]
        rw [funext vw, v4 n d]
        cases given extra n with
        | some x => rfl
        | none =>
          simp only [ha, Option.bind_some]
          rw [v3 n d]
          cases hg : a.know.get? n with
          | none => rfl
          | some v => simp only [Option.map_some]; rw [v12 v (hkn (n, v) (Dict.mem_of_get? hg))]
      · simp only [queueView, hself, ha, Option.bind_some, hlst]
      · simp only [stateView, horig, ha, Option.bind_some]
        cases hg : a.states.get? n with
        | none => rfl
        | some s =>
          simp only [Option.map_some]
          rw [vw, view_grow hw.objs hobj d _ (hst (n, s) (Dict.mem_of_get? hg))]
      · simp only [knowView, horig, ha, Option.bind_some]
        cases hg : a.know.get? n with
        | none => rfl
        | some v =>
          simp only [Option.map_some]
          rw [vw, view_grow hw.objs hobj d _ (hkn (n, v) (Dict.mem_of_get? hg))]
      · simp only [queueView, horig, ha, Option.bind_some, hlst]

/-! ## Cases -/

/-- An actor with a plain state holding a list, a resource made from a dictionary, a dictionary state, some knowledge, and a
network with a queue. -/
def sample : World :=
  { obj := fun o => if o = 0 then [.atom 5, .atom 6] else if o = 1 then [.atom 7] else if o = 2 then [.atom 8] else []
    nextObj := 4
    lst := fun q => if q = 0 then [1, 2] else []
    nextLst := 1
    actors := [⟨[(0, ⟨.plain, false, .ref 0⟩), (1, ⟨.resource, true, .ref 1⟩), (2, ⟨.keyed, false, .ref 2⟩),
      (3, ⟨.plain, false, .atom 9⟩)], [(0, .ref 3), (1, .atom 4)], [(0, 0)], 0⟩] }

theorem sample_actor {i : Nat} {a : Actor} (h : sample.actors[i]? = some a) :
    i = 0 ∧ sample.actors = [a] := by
  have : i < 1 := (List.getElem?_eq_some_iff.mp h).1
  obtain rfl : i = 0 := by omega
  have e : sample.actors[0]? = some sample.actors[0] := rfl
  rw [e] at h
  cases h
  exact ⟨rfl, rfl⟩

theorem sample_start : Start sample := by
  refine ⟨?_, ?_, ?_⟩
  · intro i a ha o ho
    obtain ⟨_, h⟩ := sample_actor ha
    simp only [sample, List.cons.injEq, and_true] at h
    subst h
    simp [held, Dict.vals] at ho
    rcases ho with rfl | rfl | rfl | rfl <;> simp [sample]
  · intro i j a b ha hb hij
    exact absurd ((sample_actor ha).1.trans (sample_actor hb).1.symm) hij
  · intro i a ha q hq
    obtain ⟨_, h⟩ := sample_actor ha
    simp only [sample, List.cons.injEq, and_true] at h
    subst h
    simp [Dict.vals] at hq
    subst hq
    decide

theorem sample_closed : Closed sample := by
  refine ⟨?_, fun i a ha v hv o ho => (sample_start.flat i a ha o (ho ▸ hv)).1, sample_start.lists⟩
  intro o _ v hv p hp
  subst hp
  simp only [sample] at hv
  split at hv
  · simp at hv
  · split at hv
    · simp at hv
    · split at hv <;> simp at hv

/-- Cloned, then both sides change the list in state 0, the store, knowledge and queue. -/
example : Start sample ∧
    (step sample 0 (.clone [(1, .obj [3])])).2 = .made 1 ∧
    stateView (run sample [(0, .clone []), (1, .poke (.state 0) [] [1]), (0, .poke (.state 1) [] [])]) 0 0 3
      = some [.open, .atom 5, .atom 6, .close] ∧
    stateView (run sample [(0, .clone []), (1, .poke (.state 0) [] [1]), (0, .poke (.state 1) [] [])]) 1 0 3
      = some [.open, .atom 1, .close] ∧
    stateView (run sample [(0, .clone []), (1, .poke (.state 0) [] [1]), (0, .poke (.state 1) [] [])]) 1 1 3
      = some [.open, .atom 7, .close] ∧
    queueView (run sample [(0, .clone []), (1, .clearQ 0), (1, .setQ 0 [4]), (1, .beginTask 0 4)]) 0 0 = some [1, 2] :=
  ⟨sample_start, by decide +kernel, by decide +kernel, by decide +kernel, by decide +kernel, by decide +kernel⟩

example : Closed sample ∧ ∃ w', step sample 0 (.clone [(1, .obj [3])]) = (w', .made 1) ∧
    knowView w' 1 1 2 = some [.open, .atom 3, .close] :=
  ⟨sample_closed, _, by rfl, by decide +kernel⟩

/-- The hypotheses of `c30_queue_own_list`. -/
example : (step (run sample [(0, .clone [])]) 1 (.clearQ 0)).2 = .done ∧
    0 < (run sample [(0, .clone [])]).actors.length := by decide +kernel

/-! ## Where the code does not keep the property -/

/-- The queue lists are shared: `_begin_next_task` on the clone takes the task away from the original. -/
theorem c30_queue_shared : ∃ (w : World), Start w ∧
    queueView w 0 0 = some [1, 2] ∧ (step (run w [(0, .clone [])]) 1 (.beginTask 0 1)).2 = .done ∧
    queueView (run w [(0, .clone []), (1, .beginTask 0 1)]) 0 0 = some [2] :=
  ⟨sample, sample_start, by decide +kernel, by decide +kernel, by decide +kernel⟩

/-- A state that holds a list of lists. -/
def nested : World :=
  { obj := fun o => if o = 0 then [.ref 1] else if o = 1 then [.atom 7] else []
    nextObj := 2
    lst := fun _ => []
    nextLst := 0
    actors := [⟨[(0, ⟨.plain, false, .ref 0⟩)], [], [], 0⟩] }

theorem nested_closed : Closed nested := by
  have key : ∀ (i : Nat) a, nested.actors[i]? = some a → nested.actors = [a] := by
    intro i a h
    have : i < 1 := (List.getElem?_eq_some_iff.mp h).1
    obtain rfl : i = 0 := by omega
    have e : nested.actors[0]? = some nested.actors[0] := rfl
    rw [e] at h
    cases h
    rfl
  refine ⟨?_, ?_, ?_⟩
  · intro o _ v hv p hp
    subst hp
    simp only [nested] at hv ⊢
    split at hv
    · simp at hv; omega
    · split at hv <;> simp at hv
  · intro i a ha v hv p hp
    have h := key i a ha
    simp only [nested, List.cons.injEq, and_true] at h
    subst h
    simp [held, Dict.vals] at hv
    subst hv
    cases hp
    decide
  · intro i a ha q hq
    have h := key i a ha
    simp only [nested, List.cons.injEq, and_true] at h
    subst h
    simp [Dict.vals] at hq

/-- Copies are shallow: an object inside a state's object is shared, and a change to it through the clone shows on the
original. -/
theorem c30_nested_shared : ∃ (w : World), Closed w ∧
    stateView w 0 0 2 = some [.open, .open, .atom 7, .close, .close] ∧
    stateView (run w [(0, .clone []), (1, .poke (.state 0) [0] [8])]) 0 0 2
      = some [.open, .open, .atom 8, .close, .close] :=
  ⟨nested, nested_closed, by decide +kernel, by decide +kernel⟩

/-- An actor with a `ResourceState` can be cloned, but the clone cannot be. -/
theorem c30_clone_of_clone : ∃ (w : World), Start w ∧
    (step w 0 (.clone [])).2 = .made 1 ∧ (step (step w 0 (.clone [])).1 1 (.clone [])).2 = .raised :=
  ⟨sample, sample_start, by decide +kernel, by decide +kernel⟩

/-- In general: an actor with a resource state that was given a resource object cannot be cloned. -/
theorem c30_resource_object (w : World) (i : Nat) (a : Actor) (ha : w.actors[i]? = some a) (n : Nat) (s : Slot)
    (hs : (n, s) ∈ a.states) (hk : s.kind = .resource) (hm : s.memory = false) (extra : List (Nat × New)) :
    (step w i (.clone extra)).2 = .raised := by
  have key : ∀ (d : Dict Nat Slot) (w : World), (n, s) ∈ d → (cloneStates w d).2 = none := by
    intro d
    induction d with
    | nil => intro w h; simp at h
    | cons p r ih =>
      intro w h
      obtain ⟨m, t⟩ := p
      unfold cloneStates
      split
      · rfl
      · rename_i hne
        rcases List.mem_cons.mp h with he | h
        · cases he; exact absurd ⟨hk, hm⟩ hne
        · split
          · rename_i w2 r' heq
            have := ih (copyVal w t.val).1 h
            rw [heq] at this
            simp at this
          · rfl
  unfold step
  rw [ha]
  simp only [stepA, clone]
  split
  · rfl
  · rename_i w1 sts heq
    have := key a.states w hs
    rw [heq] at this
    simp at this

end Verif.Clone
