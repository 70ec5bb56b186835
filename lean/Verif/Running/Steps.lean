import Verif.Running.Enter

/-! # The invariant is kept -/

namespace Verif.Running

open Spec
open Verif.Network (Net Kind)

theorem has_set_same (d : Dict String Net) (n : String) (x : Net) : (d.set n x).has n = true := by
  unfold Dict.has; rw [Dict.get?_set]; simp

theorem has_set_ne (d : Dict String Net) {n m : String} (x : Net) (h : m ≠ n) : (d.set n x).has m = d.has m := by
  unfold Dict.has; rw [Dict.get?_set_ne _ _ (fun e => h e.symm)]

theorem has_del_same (d : Dict String Net) (n : String) : (d.del n).has n = false := by
  unfold Dict.has; rw [Dict.get?_del]; simp

theorem has_del_ne (d : Dict String Net) {n m : String} (h : m ≠ n) : (d.del n).has m = d.has m := by
  unfold Dict.has; rw [Dict.get?_del_ne _ (fun e => h e.symm)]

theorem Base.withQ {s : St} {tr : Trace} (h : Base s tr) {q : Network.St} (hq : q.nets = s.q.nets) : Base { s with q := q } tr :=
  { h with
    bound := fun n => by simp only [hq]; exact h.bound n
    objLt := fun n hn => by simp only [hq] at hn; exact h.objLt n hn }

theorem Inv.withQ {s : St} {tr : Trace} (h : Inv s tr) {q : Network.St} (hq : q.nets = s.q.nets) : Inv { s with q := q } tr :=
  { h with toBase := h.toBase.withQ hq }

theorem Base.withActive {s : St} {tr : Trace} (h : Base s tr) (a : Active) : Base { s with active := a } tr := { h with }

/-- A call whose outcome tells nothing. -/
theorem dull_call (τ : Rat) (c : Call) (x : Out) (tr : Trace)
    (hx : x = .raised ∨ x = .impossible ∨ (∃ r, x = .report r) ∨ (∃ l, x = .reports l) ∨ (∃ m t, x = .marker m t) ∨
      (∃ o, x = .queued o ∧ ∀ n, c ≠ .delNet n)) : Dull (τ, .call c, x) tr := by
  rcases hx with rfl | rfl | ⟨r, rfl⟩ | ⟨r, rfl⟩ | ⟨m, t, rfl⟩ | ⟨o, rfl, hc⟩
  · cases c <;> exact ⟨⟨fun _ => rfl, fun _ => rfl, by simp, by simp, fun _ => rfl, fun _ => rfl, rfl, rfl, fun _ => rfl, fun _ => rfl, rfl, rfl⟩, rfl⟩
  · cases c <;> exact ⟨⟨fun _ => rfl, fun _ => rfl, by simp, by simp, fun _ => rfl, fun _ => rfl, rfl, rfl, fun _ => rfl, fun _ => rfl, rfl, rfl⟩, rfl⟩
  · cases c <;> exact ⟨⟨fun _ => rfl, fun _ => rfl, by simp, by simp, fun _ => rfl, fun _ => rfl, rfl, rfl, fun _ => rfl, fun _ => rfl, rfl, rfl⟩, rfl⟩
  · cases c <;> exact ⟨⟨fun _ => rfl, fun _ => rfl, by simp, by simp, fun _ => rfl, fun _ => rfl, rfl, rfl, fun _ => rfl, fun _ => rfl, rfl, rfl⟩, rfl⟩
  · cases c <;> exact ⟨⟨fun _ => rfl, fun _ => rfl, by simp, by simp, fun _ => rfl, fun _ => rfl, rfl, rfl, fun _ => rfl, fun _ => rfl, rfl, rfl⟩, rfl⟩
  · cases c with
    | delNet n => exact absurd rfl (hc n)
    | _ => exact ⟨⟨fun _ => rfl, fun _ => rfl, by simp, by simp, fun _ => rfl, fun _ => rfl, rfl, rfl, fun _ => rfl, fun _ => rfl, rfl, rfl⟩, rfl⟩

theorem dull_impossible (τ : Rat) (op : Op) (tr : Trace) : Dull (τ, op, .impossible) tr := by
  cases op with
  | call c => exact dull_call τ c _ tr (.inr (.inl rfl))
  | _ => exact ⟨⟨fun _ => rfl, fun _ => rfl, by simp, by simp, fun _ => rfl, fun _ => rfl, rfl, rfl, fun _ => rfl, fun _ => rfl, rfl, rfl⟩, rfl⟩

/-- Other entries that tell only who runs. -/
theorem dull_op (τ : Rat) {op : Op} (hop : ∀ c, op ≠ .call c) (x : Out) (tr : Trace) (hx : x = .done ∨ (∃ p, x = .runs p)) :
    Dull0 (τ, op, x) tr := by
  have hb := bound_op hop τ x tr
  have hm := fun i => mark_op hop τ x tr i
  rcases hx with rfl | ⟨p, rfl⟩ <;>
    exact ⟨hb, fun _ => rfl, by simp, by simp, fun _ => rfl, fun _ => rfl, rfl, rfl, fun i => hm i (by simp) (by simp), fun _ => rfl, rfl, rfl⟩

theorem addNet_nets (q : Network.St) (n : String) (net : Net) :
    Network.addNet q n net = if q.nets.has n then (q, .raised) else ({ q with nets := q.nets.set n net, queues := q.queues.set n [] }, .done) := rfl

theorem inv_addNet {s : St} {tr : Trace} (h : Inv s tr) (n : String) (net : Net) :
    Inv (addNet s n net).1 ((s.now, .call (.addNet n net), (addNet s n net).2) :: tr) := by
  unfold addNet
  rw [addNet_nets]
  by_cases hn : s.q.nets.has n = true
  · rw [if_pos hn]
    exact (h.withQ rfl).dull (dull_call _ _ _ _ (.inl rfl))
  · rw [if_neg hn]
    simp only
    have hlast : ∀ o, s.nObj ≤ o → lastBegun tr o = none := by
      intro o ho
      cases hb : lastBegun tr o with
      | none => rfl
      | some x => exact absurd (h.begunLt o x.1 x.2 hb).1 (by omega)
    have hne : ∀ {o}, o < s.nObj → o ≠ s.nObj := fun ho => by omega
    exact {
      bound := fun m => by
        simp only [Spec.bound]
        by_cases e : n = m
        · subst e; simp [has_set_same]
        · rw [if_neg e, h.bound m, has_set_ne _ _ (fun x => e x.symm)]
          simp only [show ¬ m = n from fun x => e x.symm, if_false]
      objLt := fun m hm => by
        simp only at hm ⊢
        by_cases e : m = n
        · rw [if_pos e]; exact Nat.lt_succ_self _
        · rw [if_neg e]
          rw [has_set_ne _ _ e] at hm
          exact Nat.lt_succ_of_lt (h.objLt m hm)
      curProc := fun o ho => by
        simp only [lastBegun]
        by_cases e : o = s.nObj
        · subst e; rw [hlast _ (Nat.le_refl _)]; simp [upd]
        · rw [upd_ne _ _ e]; exact h.curProc o (by simp only at ho; omega)
      begunLt := fun o t p hb => ⟨Nat.lt_succ_of_lt (h.begunLt o t p hb).1, (h.begunLt o t p hb).2⟩
      loopLt := fun l hl => Nat.lt_succ_of_lt (h.loopLt l hl)
      waits := h.waits
      fin := fun p => by rw [finished_cons]; simpa using h.fin p
      made := h.made
      instLt := h.instLt
      closing := h.closing
      noClosing := h.noClosing
      arrivals := h.arrivals
      nInt := h.nInt
      intLt := h.intLt
      startLt := h.startLt
      loopIn := h.loopIn
      freshIn := h.freshIn
      startsNd := h.startsNd
      ordered := h.ordered
      marks := h.marks
      insts := h.insts
      instsNd := h.instsNd
      procs := h.procs
      procsNd := h.procsNd
      begunAt := fun o p hb => by
        rw [begun_cons] at hb
        exact h.begunAt o p (hb.resolve_left (by simp))
      count := h.count
      who := h.who
      actTask := h.actTask
      handler := h.handler
      actDec := h.actDec
      dec := h.dec
      curName := fun o t p hb => by
        have := (h.begunLt o t p hb).1
        simp only [upd_ne _ _ (hne this)]
        exact h.curName o t p hb
      holder := h.holder
      own := fun o p hb => by
        rw [begun_cons] at hb
        exact h.own o p (hb.resolve_left (by simp)) }

theorem inv_delNet {s : St} {tr : Trace} (h : Inv s tr) (n : String) :
    Inv { s with q := (Network.delNet s.q n).1 } ((s.now, .call (.delNet n), .queued (Network.delNet s.q n).2) :: tr) := by
  unfold Network.delNet
  by_cases hn : s.q.nets.has n = true
  · simp only [hn, Bool.not_true, Bool.false_eq_true, if_false]
    exact { h with
      bound := fun m => by
        simp only [Spec.bound]
        by_cases e : n = m
        · subst e; simp [has_del_same]
        · rw [if_neg e, h.bound m, has_del_ne _ (fun x => e x.symm)]
      objLt := fun m hm => by
        by_cases e : m = n
        · subst e; simp [has_del_same] at hm
        · rw [has_del_ne _ e] at hm
          exact h.objLt m hm
      fin := fun p => by rw [finished_cons]; simpa using h.fin p
      begunAt := fun o p hb => by
        rw [begun_cons] at hb
        exact h.begunAt o p (hb.resolve_left (by simp))
      own := fun o p hb => by
        rw [begun_cons] at hb
        exact h.own o p (hb.resolve_left (by simp)) }
  · have hd : Dull (s.now, Op.call (.delNet n), Out.queued .raised) tr :=
      ⟨⟨fun _ => rfl, fun _ => rfl, by simp, by simp, fun _ => rfl, fun _ => rfl, rfl, rfl, fun _ => rfl, fun _ => rfl, rfl, rfl⟩, rfl⟩
    simp only [hn, Bool.not_false, if_true]
    exact (h.withQ rfl).dull hd

theorem inv_startLoop {s : St} {tr : Trace} (h : Inv s tr) (n : String) (init : Option String) :
    Inv (startLoop s n init).1 ((s.now, .call (.startLoop n init), (startLoop s n init).2) :: tr) := by
  unfold startLoop
  by_cases hn : s.q.nets.has n = true
  · simp only [hn, Bool.not_true, Bool.false_eq_true, if_false]
    have hne : ∀ {l}, l < s.nLoop → l ≠ s.nLoop := fun ho => by omega
    have hmem : ∀ {u}, u ∈ s.urgent ++ [Urgent.startLoop s.nLoop] ↔ u ∈ s.urgent ∨ u = .startLoop s.nLoop := by simp
    exact { h with
      loopLt := fun l hl => by
        simp only
        by_cases e : l = s.nLoop
        · subst e; simp only [upd_same]; exact h.objLt n hn
        · rw [upd_ne _ _ e]; exact h.loopLt l (by simp only at hl; omega)
      waits := fun l hl p t hp => by
        by_cases e : l = s.nLoop
        · subst e; simp [upd] at hp
        · simp only [upd_ne _ _ e] at hp; exact h.waits l (by simp only at hl; omega) p t hp
      fin := fun p => by rw [finished_cons]; simpa using h.fin p
      arrivals := by
        simp only [Spec.issued, Spec.arrived, pend_append, pend, List.append_nil]
        exact h.arrivals
      intLt := fun p k c hm => by
        rcases hmem.1 hm with x | x
        · exact h.intLt p k c x
        · cases x
      startLt := fun p hm => by
        rcases hmem.1 hm with x | x
        · exact h.startLt p x
        · cases x
      loopIn := fun l hm => by
        rcases hmem.1 hm with x | x
        · exact Nat.lt_succ_of_lt (h.loopIn l x)
        · cases x; exact Nat.lt_succ_self _
      freshIn := fun p hp hf => hmem.2 (.inl (h.freshIn p hp hf))
      startsNd := by simp only [starts_append, starts, List.append_nil]; exact h.startsNd
      ordered := ordered_append_other (by simp) h.ordered
      begunAt := fun o p hb => by
        rw [begun_cons] at hb
        exact h.begunAt o p (hb.resolve_left (by simp))
      count := fun o => by
        have hc : ((List.range s.nLoop).filter fun l => decide ((upd s.loop s.nLoop ⟨n, s.obj n, .fresh init⟩ l).obj = o)) =
            ((List.range s.nLoop).filter fun l => decide ((s.loop l).obj = o)) := by
          refine List.filter_congr (fun l hl => ?_)
          rw [upd_ne _ _ (hne (List.mem_range.1 hl))]
        simp only [Spec.loops, List.range_succ, List.filter_append, List.length_append]
        rw [hc, ← h.count o]
        by_cases e : s.obj n = o
        · rw [if_pos e]
          simp [upd, e]
        · rw [if_neg e]
          simp [upd, e]
      who := by
        show Spec.who tr = _
        rw [h.who]
        unfold whoOf
        cases ha : s.active with
        | decision l => simp only [upd_ne _ _ (hne (h.actDec l ha).1)]
        | _ => rfl
      actDec := fun l hl => by
        obtain ⟨h1, t, h2⟩ := h.actDec l hl
        exact ⟨Nat.lt_succ_of_lt h1, t, by simp only [upd_ne _ _ (hne h1)]; exact h2⟩
      dec := fun l hl t ht => by
        by_cases e : l = s.nLoop
        · subst e; simp [upd] at ht
        · simp only [upd_ne _ _ e] at ht; exact h.dec l (by simp only at hl; omega) t ht
      holder := fun o t p hb hd => by
        obtain ⟨l, h1, h2, h3⟩ := h.holder o t p hb hd
        exact ⟨l, Nat.lt_succ_of_lt h1, by simp only [upd_ne _ _ (hne h1)]; exact h2, by simp only [upd_ne _ _ (hne h1)]; exact h3⟩
      own := fun o p hb => by
        rw [begun_cons] at hb
        rcases h.own o p (hb.resolve_left (by simp)) with x | ⟨l, t, h1, h2, h3⟩
        · exact .inl x
        · exact .inr ⟨l, t, Nat.lt_succ_of_lt h1, by simp only [upd_ne _ _ (hne h1)]; exact h2, by simp only [upd_ne _ _ (hne h1)]; exact h3⟩ }
  · simp only [hn, Bool.not_false, if_true]
    exact h.dull (dull_call _ _ _ _ (.inl rfl))

theorem getRunning_some {s : St} {n : String} {t : String} {p : Nat} (h : getRunning s n = .report (some (t, p))) :
    s.q.nets.has n = true ∧ s.curProc (s.obj n) = some p ∧ s.curName (s.obj n) = some t := by
  unfold getRunning at h
  by_cases hn : s.q.nets.has n = true
  · refine ⟨hn, ?_⟩
    simp only [hn, Bool.not_true, Bool.false_eq_true, if_false] at h
    cases hp : s.curProc (s.obj n) with
    | none => simp [hp] at h
    | some p' =>
      cases ht : s.curName (s.obj n) with
      | none => simp [hp, ht] at h
      | some t' =>
        simp only [hp, ht, Out.report.injEq, Option.some.injEq, Prod.mk.injEq] at h
        exact ⟨by rw [h.2], by rw [h.1]⟩
  · simp [hn] at h

theorem inv_interruptNet {s : St} {tr : Trace} (h : Inv s tr) (n : String) (c : Nat) :
    Inv (interruptNet s n c).1 ((s.now, .call (.interruptNet n c), (interruptNet s n c).2) :: tr) := by
  unfold interruptNet
  split
  · rename_i t p hr
    by_cases hc : s.phase p = .over ∨ s.active.proc = some p
    · rw [if_pos hc]
      exact h.dull (dull_call _ _ _ _ (.inl rfl))
    · rw [if_neg hc]
      have hp : p < s.nProc := by
        obtain ⟨h1, h2, -⟩ := getRunning_some hr
        rw [h.curProc _ (h.objLt n h1)] at h2
        cases hb : lastBegun tr (s.obj n) with
        | none => rw [hb] at h2; simp at h2
        | some x =>
          rw [hb] at h2
          simp only [Option.map_some, Option.some.injEq] at h2
          exact h2 ▸ (h.begunLt _ x.1 x.2 hb).2
      have hmem : ∀ {u}, u ∈ s.urgent ++ [Urgent.interrupt p s.nInt c] ↔ u ∈ s.urgent ∨ u = .interrupt p s.nInt c := by simp
      exact { h with
        fin := fun p => by rw [finished_cons]; simpa using h.fin p
        arrivals := by
          simp only [Spec.issued, Spec.arrived, pend_append, pend, List.map_append, List.map_cons, List.map_nil]
          rw [h.arrivals, List.append_assoc]
        nInt := by
          simp only [Spec.issued, List.map_append, List.map_cons, List.map_nil]
          rw [h.nInt, List.range_succ]
        intLt := fun q k c hm => by
          rcases hmem.1 hm with x | x
          · exact h.intLt q k c x
          · cases x; exact hp
        startLt := fun p hm => by
          rcases hmem.1 hm with x | x
          · exact h.startLt p x
          · cases x
        loopIn := fun l hm => by
          rcases hmem.1 hm with x | x
          · exact h.loopIn l x
          · cases x
        freshIn := fun p hp hf => hmem.2 (.inl (h.freshIn p hp hf))
        startsNd := by simp only [starts_append, starts, List.append_nil]; exact h.startsNd
        ordered := ordered_append_int (h.freshIn p hp) h.ordered
        begunAt := fun o p hb => by
          rw [begun_cons] at hb
          exact h.begunAt o p (hb.resolve_left (by simp))
        own := fun o p hb => by
          rw [begun_cons] at hb
          exact h.own o p (hb.resolve_left (by simp)) }
  · exact h.dull (dull_call _ _ _ _ (.inl rfl))

theorem inv_setMarker {s : St} {tr : Trace} (h : Inv s tr) (i : Nat) (m : String) (a : Action) :
    Inv (setMarker s i m a) ((s.now, .call (.setMarker i m a), .done) :: tr) :=
  { h with
    fin := fun p => by rw [finished_cons]; simpa [setMarker, clearMarker] using h.fin p
    marks := fun j hj => by
      simp only [mark, setMarker]
      by_cases e : i = j
      · subst e; simp [upd]
      · rw [if_neg e, upd_ne _ _ (fun x => e x.symm)]; exact h.marks j hj
    begunAt := fun o p hb => by
      rw [begun_cons] at hb
      exact h.begunAt o p (hb.resolve_left (by simp))
    own := fun o p hb => by
      rw [begun_cons] at hb
      exact h.own o p (hb.resolve_left (by simp)) }

theorem inv_clearMarker {s : St} {tr : Trace} (h : Inv s tr) (i : Nat) :
    Inv (clearMarker s i) ((s.now, .call (.clearMarker i), .done) :: tr) :=
  { h with
    fin := fun p => by rw [finished_cons]; simpa [setMarker, clearMarker] using h.fin p
    marks := fun j hj => by
      simp only [mark, clearMarker]
      by_cases e : i = j
      · subst e; simp [upd]
      · rw [if_neg e, upd_ne _ _ (fun x => e x.symm)]; exact h.marks j hj
    begunAt := fun o p hb => by
      rw [begun_cons] at hb
      exact h.begunAt o p (hb.resolve_left (by simp))
    own := fun o p hb => by
      rw [begun_cons] at hb
      exact h.own o p (hb.resolve_left (by simp)) }

theorem getRunning_out (s : St) (n : String) : getRunning s n = .raised ∨ ∃ r, getRunning s n = .report r := by
  unfold getRunning
  split
  · exact .inl rfl
  · split
    · split
      · exact .inr ⟨_, rfl⟩
      · exact .inl rfl
    · exact .inr ⟨_, rfl⟩

theorem appendQ_nets (q : Network.St) (n t : String) : (Network.appendQ q n t).1.nets = q.nets := by
  unfold Network.appendQ
  split <;> rfl

theorem inv_call {s : St} {tr : Trace} (h : Inv s tr) (c : Call) :
    Inv (doCall s c).1 ((s.now, .call c, (doCall s c).2) :: tr) := by
  cases c with
  | addNet n net => exact inv_addNet h n net
  | delNet n => exact inv_delNet h n
  | setQ n l => exact (h.withQ (setQ_nets _ _ _)).dull (dull_call _ _ _ _ (.inr (.inr (.inr (.inr (.inr ⟨_, rfl, by simp⟩))))))
  | clearQ n => exact (h.withQ (q := (Network.clearQ s.q n).1) rfl).dull (dull_call _ _ _ _ (.inr (.inr (.inr (.inr (.inr ⟨_, rfl, by simp⟩))))))
  | appendQ n t => exact (h.withQ (appendQ_nets _ _ _)).dull (dull_call _ _ _ _ (.inr (.inr (.inr (.inr (.inr ⟨_, rfl, by simp⟩))))))
  | startLoop n init => exact inv_startLoop h n init
  | getRunning n =>
    rcases getRunning_out s n with x | ⟨r, x⟩
    · exact h.dull (dull_call _ _ _ _ (.inl x))
    · exact h.dull (dull_call _ _ _ _ (.inr (.inr (.inl ⟨r, x⟩))))
  | getAll => exact h.dull (dull_call _ _ _ _ (.inr (.inr (.inr (.inl ⟨_, rfl⟩)))))
  | interruptNet n c => exact inv_interruptNet h n c
  | setMarker i m a =>
    simp only [doCall]
    split
    · exact inv_setMarker h i m a
    · exact h.dull (dull_impossible _ _ _)
  | clearMarker i =>
    simp only [doCall]
    split
    · exact inv_clearMarker h i
    · exact h.dull (dull_impossible _ _ _)
  | getMarker i =>
    simp only [doCall]
    split
    · exact h.dull (dull_call _ _ _ _ (.inr (.inr (.inr (.inr (.inl ⟨_, _, rfl⟩))))))
    · exact h.dull (dull_impossible _ _ _)

/-- `deciding` when no loop runs. -/
theorem deciding_none {tr : Trace} (h : ∀ o t, who tr ≠ .decision o t) (o : Nat) : deciding tr o = none := by
  unfold deciding
  split
  · rename_i o' t hw; exact absurd hw (h o' t)
  · rfl

/-- What is needed when nobody, or a task, runs before and after. -/
theorem inv_rest {s s' : St} {tr tr' : Trace} (h : Inv s tr) (hb : Base s' tr')
    (hw : who tr' = whoOf s') (hnd : ∀ l, s.active ≠ .decision l) (hnd' : ∀ l, s'.active ≠ .decision l)
    (hact : ∀ p, s'.active.proc = some p → p < s'.nProc ∧ s'.phase p ≠ .over ∧ s'.phase p ≠ .fresh)
    (hhan : ∀ p, s'.active = .handler p → s'.phase p = .live ∧ (s'.proc p).kind ≠ .decision)
    (hl : s'.loop = s.loop) (hnl : s'.nLoop = s.nLoop) (hc : s'.curName = s.curName)
    (hlast : ∀ o, lastBegun tr' o = lastBegun tr o) (hbe : ∀ o p, Begun tr' o p → Begun tr o p)
    (hov : ∀ p, s.phase p = .over → s'.phase p = .over) : Inv s' tr' := by
  have hd : ∀ o, deciding tr o = none := deciding_none (fun o t x => by
    rw [h.who] at x
    unfold whoOf at x
    cases ha : s.active with
    | decision l => exact hnd l ha
    | _ => simp [ha] at x)
  have hd' : ∀ o, deciding tr' o = none := deciding_none (fun o t x => by
    rw [hw] at x
    unfold whoOf at x
    cases ha : s'.active with
    | decision l => exact hnd' l ha
    | _ => simp [ha] at x)
  exact { hb with
    who := hw
    actTask := hact
    handler := hhan
    actDec := fun l hl' => absurd hl' (hnd' l)
    dec := fun l hl' t ht => by
      rw [hl] at ht; rw [hnl] at hl'
      exact absurd (h.dec l hl' t ht) (hnd l)
    curName := fun o t p hb' => by
      rw [hlast] at hb'
      rw [hd', hc, h.curName o t p hb', hd]
    holder := fun o t p hb' _ => by
      rw [hlast] at hb'
      rw [hl, hnl]
      exact h.holder o t p hb' (hd o)
    own := fun o p hb' => by
      rw [hl, hnl]
      rcases h.own o p (hbe o p hb') with x | x
      · exact .inl (hov p x)
      · exact .inr x }

theorem begun_of {e : Rat × Op × Out} {tr : Trace} (he : ∀ o p t k i, e.2.2 ≠ .began o p t k i) (o p : Nat) :
    Begun (e :: tr) o p → Begun tr o p := by
  intro hb
  rw [begun_cons] at hb
  exact hb.resolve_left (fun ⟨t, k, i, x⟩ => he o p t k i x)

theorem inv_sleep {s : St} {tr : Trace} (h : Inv s tr) {p : Nat} (ha : s.active = .task p) :
    Inv { s with active := .idle } ((s.now, .sleep, .done) :: tr) :=
  inv_rest h ((h.toBase.dull (dull_op _ (by simp) _ _ (.inl rfl))).withActive _) (who_op (op := .sleep) (by simp) _ (.done) _ (by simp))
    (by simp [ha]) (by simp) (by simp [Active.proc]) (by simp) rfl rfl rfl (fun _ => rfl) (begun_of (by simp)) (fun _ => id)

/-- A process of a task changes its phase, but is not made, and not started. -/
theorem Base.phase {s : St} {tr : Trace} (h : Base s tr) {p : Nat} (hf : s.phase p ≠ .fresh) {x : Phase} (hx : x ≠ .fresh)
    {op : Op} (hop : ∀ c, op ≠ .call c) {y : Out} (hp : p < s.nProc) (hno : s.phase p ≠ .over)
    (hy : (y = .finished p ∧ x = .over) ∨ (y = .restarted p ∧ x = .live) ∨ (∃ a b, y = .answered p a ∧ some a = ending (.closing b) ∧ x = .closing b)) :
    Base { s with phase := upd s.phase p x } ((s.now, op, y) :: tr) := by
  have hb : ∀ o q t k i, y ≠ .began o q t k i := by
    rintro o q t k i rfl
    rcases hy with ⟨e, -⟩ | ⟨e, -⟩ | ⟨a, b, e, -⟩ <;> cases e
  have hd : ∀ o t j, y ≠ .decides o t j := by
    rintro o t j rfl
    rcases hy with ⟨e, -⟩ | ⟨e, -⟩ | ⟨a, b, e, -⟩ <;> cases e
  refine ⟨?_, ?_, ?_, ?_, ?_, ?_, ?_, ?_, ?_, ?_, ?_, ?_, ?_, ?_, ?_, ?_, ?_, ?_, ?_, ?_, ?_, ?_, ?_, ?_, ?_, ?_⟩
  · intro n; rw [bound_op hop]; exact h.bound n
  · exact h.objLt
  · intro o ho
    rcases hy with ⟨rfl, -⟩ | ⟨rfl, -⟩ | ⟨a, b, rfl, -, -⟩ <;> exact h.curProc o ho
  · intro o t q hq
    rcases hy with ⟨rfl, -⟩ | ⟨rfl, -⟩ | ⟨a, b, rfl, -, -⟩ <;> exact h.begunLt o t q hq
  · exact h.loopLt
  · exact h.waits
  · intro q
    rw [finished_cons, h.fin q]
    simp only
    by_cases e : q = p
    · subst e
      simp only [upd_same]
      rcases hy with ⟨rfl, rfl⟩ | ⟨rfl, rfl⟩ | ⟨a, b, rfl, -, rfl⟩ <;> simp [hp, hno]
    · rw [upd_ne _ _ e]
      rcases hy with ⟨rfl, rfl⟩ | ⟨rfl, rfl⟩ | ⟨a, b, rfl, -, rfl⟩
      · simp [show ¬ p = q from fun x => e x.symm]
      · simp
      · simp
  · intro q hq
    rcases hy with ⟨rfl, -⟩ | ⟨rfl, -⟩ | ⟨a, b, rfl, -, -⟩ <;> exact h.made q hq
  · exact h.instLt
  · intro q hq
    simp only
    by_cases e : q = p
    · subst e
      simp only [upd_same]
      rcases hy with ⟨rfl, rfl⟩ | ⟨rfl, rfl⟩ | ⟨a, b, rfl, ha, rfl⟩
      · simp [Spec.closing, ending]
      · simp [Spec.closing, ending]
      · cases b <;> simp only [ending, Option.some.injEq] at ha <;> subst ha <;> simp [Spec.closing, ending]
    · rw [upd_ne _ _ e]
      have e' : ¬ p = q := fun x => e x.symm
      rcases hy with ⟨rfl, rfl⟩ | ⟨rfl, rfl⟩ | ⟨a, b, rfl, ha, rfl⟩ <;> simp only [Spec.closing, e', false_and, if_false] <;> exact h.closing q hq
  · intro q hq
    have e : ¬ p = q := by simp only at hq; omega
    rcases hy with ⟨rfl, rfl⟩ | ⟨rfl, rfl⟩ | ⟨a, b, rfl, ha, rfl⟩ <;> simp only [Spec.closing, e, false_and, if_false] <;> exact h.noClosing q hq
  · rcases hy with ⟨rfl, -⟩ | ⟨rfl, -⟩ | ⟨a, b, rfl, -, -⟩ <;> exact h.arrivals
  · rcases hy with ⟨rfl, -⟩ | ⟨rfl, -⟩ | ⟨a, b, rfl, -, -⟩ <;> exact h.nInt
  · exact h.intLt
  · intro q hq
    have := h.startLt q hq
    have e : q ≠ p := fun e => hf (e ▸ this.2)
    exact ⟨this.1, by simp only [upd_ne _ _ e]; exact this.2⟩
  · exact h.loopIn
  · intro q hq hfr
    have e : q ≠ p := by rintro rfl; simp [upd] at hfr; exact hx hfr
    simp only [upd_ne _ _ e] at hfr
    exact h.freshIn q hq hfr
  · exact h.startsNd
  · refine ordered_congr (fun q => ?_) h.ordered
    by_cases e : q = p
    · subst e; simp [upd, hf, hx]
    · simp only [upd_ne _ _ e]
  · intro i hi; rw [mark_op hop _ _ _ _ hb hd]; exact h.marks i hi
  · intro i hi
    rcases hy with ⟨rfl, -⟩ | ⟨rfl, -⟩ | ⟨a, b, rfl, -, -⟩ <;> exact h.insts i hi
  · rcases hy with ⟨rfl, -⟩ | ⟨rfl, -⟩ | ⟨a, b, rfl, -, -⟩ <;> exact h.instsNd
  · rcases hy with ⟨rfl, -⟩ | ⟨rfl, -⟩ | ⟨a, b, rfl, -, -⟩ <;> exact h.procs
  · rcases hy with ⟨rfl, -⟩ | ⟨rfl, -⟩ | ⟨a, b, rfl, -, -⟩ <;> exact h.procsNd
  · intro o q hq; exact h.begunAt o q (begun_of (fun o p t k i => hb o p t k i) o q hq)
  · rcases hy with ⟨rfl, -⟩ | ⟨rfl, -⟩ | ⟨a, b, rfl, -, -⟩ <;> exact h.count

theorem inv_finish {s : St} {tr : Trace} (h : Inv s tr) {p : Nat} (ha : s.active = .task p) :
    Inv { s with phase := upd s.phase p .over, active := .idle } ((s.now, .finish, .finished p) :: tr) := by
  have hp := h.actTask p (by simp [ha, Active.proc])
  refine inv_rest h ((h.toBase.phase hp.2.2 (x := .over) (by simp) (by simp) hp.1 hp.2.1 (.inl ⟨rfl, rfl⟩)).withActive .idle)
    (who_op (op := .finish) (by simp) _ (.finished p) _ (by simp)) (by simp [ha]) (by simp) (by simp [Active.proc]) (by simp) rfl rfl rfl (fun _ => rfl) (begun_of (by simp)) ?_
  intro q hq
  by_cases e : q = p
  · subst e; simp [upd]
  · simp only [upd_ne _ _ e]; exact hq

theorem inv_restart {s : St} {tr : Trace} (h : Inv s tr) {p : Nat} (ha : s.active = .task p) :
    Inv { s with phase := upd s.phase p .live } ((s.now, .finish, .restarted p) :: tr) := by
  have hp := h.actTask p (by simp [ha, Active.proc])
  refine inv_rest h (h.toBase.phase hp.2.2 (x := .live) (by simp) (by simp) hp.1 hp.2.1 (.inr (.inl ⟨rfl, rfl⟩)))
    ((who_op (op := .finish) (by simp) _ (.restarted p) _ (by simp)).trans (by simp [after, whoOf, ha])) (by simp [ha]) (by simp [ha]) ?_ (by simp [ha]) rfl rfl rfl
    (fun _ => rfl) (begun_of (by simp)) ?_
  · intro q hq
    simp only [ha, Active.proc, Option.some.injEq] at hq
    subst hq
    exact ⟨hp.1, by simp [upd], by simp [upd]⟩
  · intro q hq
    have e : q ≠ p := fun e => hp.2.1 (e ▸ hq)
    simp only [upd_ne _ _ e]; exact hq

theorem inv_close {s : St} {tr : Trace} (h : Inv s tr) {p : Nat} (ha : s.active = .handler p) (a : Option Answer) (x : Action)
    (b : Bool) (hx : some x = ending (.closing b)) : Inv { s with phase := upd s.phase p (.closing b), active := .task p } ((s.now, .answer a, .answered p x) :: tr) := by
  have hp := h.actTask p (by simp [ha, Active.proc])
  refine inv_rest h ((h.toBase.phase hp.2.2 (x := .closing b) (by simp) (by simp) hp.1 hp.2.1 (.inr (.inr ⟨x, b, rfl, hx, rfl⟩))).withActive _)
    ((who_op (op := .answer a) (by simp) _ (.answered p x) _ (by simp)).trans (by cases b <;> simp only [ending, Option.some.injEq] at hx <;> subst hx <;> simp [after, whoOf])) (by simp [ha]) (by simp) ?_ (by simp) rfl rfl rfl
    (fun _ => rfl) (begun_of (by simp)) ?_
  · intro q hq
    simp only [Active.proc, Option.some.injEq] at hq
    subst hq
    exact ⟨hp.1, by simp [upd], by simp [upd]⟩
  · intro q hq
    have e : q ≠ p := fun e => hp.2.1 (e ▸ hq)
    simp only [upd_ne _ _ e]; exact hq

theorem dull_ignore (τ : Rat) (a : Option Answer) (p : Nat) (tr : Trace) : Dull0 (τ, .answer a, .answered p .ignore) tr :=
  ⟨fun _ => rfl, fun _ => rfl, by simp, by simp, fun _ => rfl, fun q => by simp [Spec.closing], rfl, rfl, fun _ => rfl, fun _ => rfl, rfl, rfl⟩

theorem inv_ignore {s : St} {tr : Trace} (h : Inv s tr) {p : Nat} (ha : s.active = .handler p) (a : Option Answer) :
    Inv { s with active := .idle } ((s.now, .answer a, .answered p .ignore) :: tr) :=
  inv_rest h ((h.toBase.dull (dull_ignore _ _ _ _)).withActive _) (who_op (op := .answer a) (by simp) _ (.answered p .ignore) _ (by simp))
    (by simp [ha]) (by simp) (by simp [Active.proc]) (by simp) rfl rfl rfl (fun _ => rfl) (begun_of (by simp)) (fun _ => id)

theorem inv_apply {s : St} {tr : Trace} (h : Inv s tr) {p : Nat} (ha : s.active = .handler p) (a : Option Answer) (x : Answer) :
    (apply s p x).1.crashed = true ∨ Inv (apply s p x).1 ((s.now, .answer a, (apply s p x).2) :: tr) := by
  cases x with
  | bad => exact .inl rfl
  | act x =>
    cases x with
    | end_ => exact .inr (inv_close h ha a .end_ false rfl)
    | ignore => exact .inr (inv_ignore h ha a)
    | restart => exact .inr (inv_close h ha a .restart true rfl)

theorem inv_wake {s : St} {tr : Trace} (h : Inv s tr) (ha : s.active = .idle) {p : Nat} (hp : p < s.nProc) (h1 : s.phase p ≠ .over)
    (h2 : s.phase p ≠ .fresh) : Inv { s with active := .task p } ((s.now, .wake p, .runs p) :: tr) := by
  refine inv_rest h ((h.toBase.dull (dull_op _ (by simp) _ _ (.inr ⟨p, rfl⟩))).withActive _) (who_op (op := .wake p) (by simp) _ (.runs p) _ (by simp))
    (by simp [ha]) (by simp) ?_ (by simp) rfl rfl rfl (fun _ => rfl) (begun_of (by simp)) (fun _ => id)
  intro q hq
  simp only [Active.proc, Option.some.injEq] at hq
  subst hq
  exact ⟨hp, h1, h2⟩

theorem inv_advance {s : St} {tr : Trace} (h : Inv s tr) (ha : s.active = .idle) (hu : s.urgent = []) (dt : Rat) :
    Inv { s with now := s.now + dt } ((s.now, .advance dt, .done) :: tr) := by
  have hb := h.toBase.dull (dull_op s.now (op := .advance dt) (by simp) .done tr (.inl rfl))
  refine inv_rest h { hb with arrivals := by have := hb.arrivals; simp only [hu, pend, List.map_nil] at this ⊢; exact this }
    ((who_op (op := .advance dt) (by simp) _ (.done) _ (by simp)).trans (by simp [after, whoOf, ha])) (by simp [ha]) (by simp [ha]) (by simp [Active.proc, ha]) (by simp [ha]) rfl rfl rfl
    (fun _ => rfl) (begun_of (by simp)) (fun _ => id)

/-- The oldest urgent event starts a task. -/
theorem inv_startTask {s : St} {tr : Trace} (h : Inv s tr) (ha : s.active = .idle) {p : Nat} {r : List Urgent} (hu : s.urgent = .startTask p :: r) :
    Inv { s with urgent := r, phase := upd s.phase p .live, active := .task p } ((s.now, .urgent, .runs p) :: tr) := by
  have hp := h.startLt p (by rw [hu]; exact List.mem_cons_self)
  have hb := h.toBase.dull (dull_op s.now (op := .urgent) (by simp) (.runs p) tr (.inr ⟨p, rfl⟩))
  have hsub : ∀ {u}, u ∈ r → u ∈ s.urgent := fun hm => by rw [hu]; exact List.mem_cons_of_mem _ hm
  have hnd := h.startsNd
  rw [hu] at hnd
  simp only [starts, List.nodup_cons] at hnd
  have hord := h.ordered
  rw [hu] at hord
  have hov : s.phase p ≠ .over := by rw [hp.2]; simp
  refine inv_rest h (s' := { s with urgent := r, phase := upd s.phase p .live, active := .task p })
    { hb with
      fin := fun q => by
        rw [hb.fin q]
        by_cases e : q = p
        · subst e; simp [upd, hov]
        · simp only [upd_ne _ _ e]
      closing := fun q hq => by
        rw [hb.closing q hq]
        by_cases e : q = p
        · subst e; simp [upd, hp.2, ending]
        · simp only [upd_ne _ _ e]
      arrivals := by have := hb.arrivals; simp only [hu, pend] at this; exact this
      intLt := fun q k c hm => h.intLt q k c (hsub hm)
      startLt := fun q hm => by
        have e : q ≠ p := by rintro rfl; exact hnd.1 (mem_starts.2 hm)
        have := h.startLt q (hsub hm)
        exact ⟨this.1, by simp only [upd_ne _ _ e]; exact this.2⟩
      loopIn := fun l hm => h.loopIn l (hsub hm)
      freshIn := fun q hq hf => by
        have e : q ≠ p := by rintro rfl; simp [upd] at hf
        simp only [upd_ne _ _ e] at hf
        have := h.freshIn q hq hf
        rw [hu] at this
        simp only [List.mem_cons, Urgent.startTask.injEq] at this
        exact this.resolve_left e
      startsNd := hnd.2
      ordered := hord }
    (who_op (op := .urgent) (by simp) _ (.runs p) _ (by simp)) (by simp [ha]) (by simp) ?_ (by simp) rfl rfl rfl (fun _ => rfl) (begun_of (by simp)) ?_
  · intro q hq
    simp only [Active.proc, Option.some.injEq] at hq
    subst hq
    exact ⟨hp.1, by simp [upd], by simp [upd]⟩
  · intro q hq
    have e : q ≠ p := fun e => hov (e ▸ hq)
    simp only [upd_ne _ _ e]; exact hq

/-- The oldest urgent event is an interruption. -/
theorem Base.arrive {s : St} {tr : Trace} (h : Base s tr) {p k c : Nat} {r : List Urgent} (hu : s.urgent = .interrupt p k c :: r)
    {x : Out} (hx : x = .called k p c ∨ x = .dropped k p c) : Base { s with urgent := r } ((s.now, .urgent, x) :: tr) := by
  have hsub : ∀ {u}, u ∈ r → u ∈ s.urgent := fun hm => by rw [hu]; exact List.mem_cons_of_mem _ hm
  have hnd := h.startsNd
  rw [hu] at hnd
  have hord := h.ordered
  rw [hu] at hord
  have harr := h.arrivals
  rw [hu] at harr
  simp only [pend, List.map_cons] at harr
  have hb : ∀ o q t k i, x ≠ .began o q t k i := by
    rintro o q t k i rfl
    rcases hx with e | e <;> cases e
  have hfr : ∀ q, q < s.nProc → s.phase q = .fresh → .startTask q ∈ r := fun q hq hf => by
    have := h.freshIn q hq hf
    rw [hu] at this
    simpa using this
  rcases hx with rfl | rfl
  · exact { h with
      fin := fun q => by rw [finished_cons]; simpa using h.fin q
      arrivals := by simp only [Spec.issued, Spec.arrived, List.append_assoc, List.singleton_append]; exact harr
      intLt := fun q k c hm => h.intLt q k c (hsub hm)
      startLt := fun q hm => h.startLt q (hsub hm)
      loopIn := fun l hm => h.loopIn l (hsub hm)
      freshIn := hfr
      startsNd := hnd
      ordered := hord.2
      begunAt := fun o q hq => h.begunAt o q (begun_of (fun o p t k i => hb o p t k i) o q hq) }
  · exact { h with
      fin := fun q => by rw [finished_cons]; simpa using h.fin q
      arrivals := by simp only [Spec.issued, Spec.arrived, List.append_assoc, List.singleton_append]; exact harr
      intLt := fun q k c hm => h.intLt q k c (hsub hm)
      startLt := fun q hm => h.startLt q (hsub hm)
      loopIn := fun l hm => h.loopIn l (hsub hm)
      freshIn := hfr
      startsNd := hnd
      ordered := hord.2
      begunAt := fun o q hq => h.begunAt o q (begun_of (fun o p t k i => hb o p t k i) o q hq) }

theorem inv_deliver {s : St} {tr : Trace} (h : Inv s tr) (ha : s.active = .idle) {p k c : Nat} {r : List Urgent} (hu : s.urgent = .interrupt p k c :: r) :
    (deliver { s with urgent := r } p k c).1.crashed = true ∨
      Inv (deliver { s with urgent := r } p k c).1 ((s.now, .urgent, (deliver { s with urgent := r } p k c).2) :: tr) := by
  have hp := h.intLt p k c (by rw [hu]; exact List.mem_cons_self)
  unfold deliver
  simp only
  split
  · refine .inr (inv_rest h (h.toBase.arrive hu (.inr rfl)) ((who_op (op := .urgent) (by simp) _ (.dropped k p c) _ (by simp)).trans (by simp [after, whoOf, ha]))
      (by simp [ha]) (by simp [ha]) (by simp [Active.proc, ha]) (by simp [ha]) rfl rfl rfl (fun _ => rfl) (begun_of (by simp)) (fun _ => id))
  · rename_i hl
    split
    · exact .inl rfl
    · rename_i hk
      refine .inr (inv_rest h ((h.toBase.arrive hu (.inl rfl)).withActive _) (who_op (op := .urgent) (by simp) _ (.called k p c) _ (by simp))
        (by simp [ha]) (by simp) ?_ ?_ rfl rfl rfl (fun _ => rfl) (begun_of (by simp)) (fun _ => id))
      · intro q hq
        simp only [Active.proc, Option.some.injEq] at hq
        subst hq
        exact ⟨hp, by simp only [hl]; simp, by simp only [hl]; simp⟩
      · intro q hq
        simp only [Active.handler.injEq] at hq
        subst hq
        exact ⟨hl, hk⟩
  · exact .inl rfl

theorem inv_loopNext {s : St} {l : Nat} {tr : Trace} (h : Pre s l tr) (t : String) {op : Op} (hop : ∀ c, op ≠ .call c) :
    (loopNext s l t).1.crashed = true ∨ Inv (loopNext s l t).1 ((s.now, op, (loopNext s l t).2) :: tr) := by
  unfold loopNext
  split
  · exact inv_enter h _ hop
  · exact .inl rfl

theorem inv_loopStart {s : St} {l : Nat} {tr : Trace} (h : Pre s l tr) (i : Option String) {op : Op} (hop : ∀ c, op ≠ .call c) :
    (loopStart s l i).1.crashed = true ∨ Inv (loopStart s l i).1 ((s.now, op, (loopStart s l i).2) :: tr) := by
  unfold loopStart
  split
  · exact inv_enter h _ hop
  · split
    · exact inv_enter h _ hop
    · exact .inl rfl
  · exact .inl rfl

theorem pre_idle {s : St} {tr : Trace} (h : Inv s tr) (ha : s.active = .idle) {l : Nat} (hl : l < s.nLoop)
    (hw : ∀ p t, (s.loop l).pos = .waits p t → s.phase p = .over) : Pre s l tr := by
  have hd : ∀ o, deciding tr o = none := deciding_none (fun o t x => by rw [h.who] at x; simp [whoOf, ha] at x)
  exact {
    toBase := h.toBase
    lt := hl
    idle := ha
    dec := fun l' hl' t ht => by have := h.dec l' hl' t ht; rw [ha] at this; cases this
    curName := fun o t p _ hb => by have := h.curName o t p hb; rwa [hd] at this
    holder := fun o t p _ hb => h.holder o t p hb (hd o)
    own := fun o p hb => by
      rcases h.own o p hb with x | ⟨l', t, h1, h2, h3⟩
      · exact .inl x
      · by_cases e : l' = l
        · subst e; exact .inl (hw p t h3)
        · exact .inr ⟨l', t, h1, e, h2, h3⟩ }

theorem pre_decided {s : St} {tr : Trace} (h : Inv s tr) {l : Nat} (ha : s.active = .decision l) {t : String} (ht : (s.loop l).pos = .decides t) :
    Pre { s with active := .idle } l tr := by
  have hl := h.actDec l ha
  have hwho : who tr = .decision (s.loop l).obj t := by rw [h.who]; simp [whoOf, ha, ht]
  have hd : ∀ o, o ≠ (s.loop l).obj → deciding tr o = none := by
    intro o ho; unfold deciding; rw [hwho]; simp [show ¬ (s.loop l).obj = o from fun x => ho x.symm]
  exact {
    toBase := h.toBase.withActive _
    lt := hl.1
    idle := rfl
    dec := fun l' hl' t' ht' => by
      have := h.dec l' hl' t' ht'
      rw [ha] at this
      simp only [Active.decision.injEq] at this
      exact this.symm
    curName := fun o t' p ho hb => by have := h.curName o t' p hb; rwa [hd o ho] at this
    holder := fun o t' p ho hb => h.holder o t' p hb (hd o ho)
    own := fun o p hb => by
      rcases h.own o p hb with x | ⟨l', t', h1, h2, h3⟩
      · exact .inl x
      · refine .inr ⟨l', t', h1, fun e => ?_, h2, h3⟩
        subst e
        rw [ht] at h3; cases h3 }

theorem inv_doUrgent {s : St} {tr : Trace} (h : Inv s tr) (ha : s.active = .idle) :
    (doUrgent s).1.crashed = true ∨ Inv (doUrgent s).1 ((s.now, .urgent, (doUrgent s).2) :: tr) := by
  unfold doUrgent
  cases hu : s.urgent with
  | nil => exact .inr (h.dull (dull_impossible _ _ _))
  | cons u r =>
    cases u with
    | startTask p => exact .inr (inv_startTask h ha hu)
    | interrupt p k c => exact inv_deliver h ha hu
    | startLoop l =>
      have hsub : ∀ {u}, u ∈ r → u ∈ s.urgent := fun hm => by rw [hu]; exact List.mem_cons_of_mem _ hm
      have hI : Inv { s with urgent := r } tr :=
        { h with
          arrivals := by have := h.arrivals; rw [hu] at this; exact this
          intLt := fun q k c hm => h.intLt q k c (hsub hm)
          startLt := fun q hm => h.startLt q (hsub hm)
          loopIn := fun l hm => h.loopIn l (hsub hm)
          freshIn := fun q hq hf => by
            have := h.freshIn q hq hf
            rw [hu] at this
            simpa using this
          startsNd := by have := h.startsNd; rw [hu] at this; exact this
          ordered := by have := h.ordered; rw [hu] at this; exact this }
      simp only
      split
      · rename_i init hpos
        have hl := h.loopIn l (by rw [hu]; exact List.mem_cons_self)
        exact inv_loopStart (s := { s with urgent := r }) (pre_idle hI ha hl (fun p t hx => by rw [hpos] at hx; cases hx)) init (by simp)
      · exact .inr (hI.dull (dull_impossible _ _ _))

theorem inv_step {s : St} {tr : Trace} (h : Inv s tr) (op : Op) :
    (step s op).1.crashed = true ∨ Inv (step s op).1 ((s.now, op, (step s op).2) :: tr) := by
  unfold step
  by_cases hc : s.crashed = true
  · rw [if_pos hc]; exact .inl hc
  rw [if_neg hc]
  have himp : ∀ op, Inv s ((s.now, op, .impossible) :: tr) := fun op => h.dull (dull_impossible _ _ _)
  cases op with
  | call c => exact .inr (inv_call h c)
  | sleep =>
    simp only
    split
    · rename_i p ha; exact .inr (inv_sleep h ha)
    · exact .inr (himp _)
  | finish =>
    simp only [finish]
    split
    · rename_i p ha
      split
      · exact .inr (inv_restart h ha)
      · exact .inr (inv_finish h ha)
      · split
        · exact .inl rfl
        · exact .inr (inv_finish h ha)
    · exact .inr (himp _)
  | raise =>
    simp only
    split
    · exact .inr (himp _)
    · exact .inl rfl
  | answer a =>
    simp only [answer]
    split
    · rename_i p ha
      split
      · exact .inl rfl
      · exact inv_apply h ha a _
    · exact .inr (himp _)
  | decided =>
    simp only
    split
    · rename_i l ha
      split
      · rename_i t ht
        exact inv_loopNext (s := { s with active := .idle }) (pre_decided h ha ht) t (by simp)
      · exact .inr (himp _)
    · exact .inr (himp _)
  | urgent =>
    simp only
    split
    · rename_i ha; exact inv_doUrgent h ha
    · exact .inr (himp _)
  | wake p =>
    simp only
    split
    · rename_i hh
      simp only [quiet, Bool.and_eq_true, decide_eq_true_eq] at hh
      exact .inr (inv_wake h hh.1.1.1.1 hh.1.1.2 hh.1.2 hh.2)
    · exact .inr (himp _)
  | resume l =>
    simp only
    split
    · rename_i hh
      simp only [quiet, Bool.and_eq_true, decide_eq_true_eq] at hh
      have hdue := hh.2
      split
      · rename_i p t hpos
        refine inv_loopNext (pre_idle h hh.1.1.1 hh.1.2 (fun p' t' hx => ?_)) t (by simp)
        rw [hpos] at hx
        cases hx
        simpa [due, hpos] using hdue
      · exact .inr (himp _)
    · exact .inr (himp _)
  | advance dt =>
    simp only
    split
    · rename_i hh
      simp only [quiet, Bool.and_eq_true, decide_eq_true_eq, List.isEmpty_iff] at hh
      exact .inr (inv_advance h hh.1.1.1 hh.1.1.2 dt)
    · exact .inr (himp _)

theorem inv_init (t0 : Rat) : Inv (init t0) [] where
  bound n := rfl
  objLt n h := by simp [init, Network.init, Dict.has] at h
  curProc o h := by simp [init] at h
  begunLt o t p h := by simp [lastBegun] at h
  loopLt l h := by simp [init] at h
  waits l h := by simp [init] at h
  fin p := by simp [Finished, init]
  made p h := by simp [init] at h
  instLt p h := by simp [init] at h
  closing p h := by simp [init] at h
  noClosing p _ := rfl
  arrivals := rfl
  nInt := rfl
  intLt p k c h := by simp [init] at h
  startLt p h := by simp [init] at h
  loopIn p h := by simp [init] at h
  freshIn p h := by simp [init] at h
  startsNd := List.nodup_nil
  ordered := trivial
  marks i h := by simp [init] at h
  insts i h := by simp [Spec.insts] at h
  instsNd := List.nodup_nil
  procs p := by simp [Spec.procs, init]
  procsNd := List.nodup_nil
  begunAt o p h := by simp [Begun] at h
  count o := rfl
  who := rfl
  actTask p h := by simp [init, Active.proc] at h
  handler p h := by simp [init] at h
  actDec l h := by simp [init] at h
  dec l h := by simp [init] at h
  curName o t p h := by simp [lastBegun] at h
  holder o t p h := by simp [lastBegun] at h
  own o p h := by simp [Begun] at h

theorem crashed_step {s : St} (h : s.crashed = true) (op : Op) : (step s op).1.crashed = true := by
  unfold step; rw [if_pos h]; exact h

theorem inv_run {s : St} {tr : Trace} (h : s.crashed = true ∨ Inv s tr) (ops : List Op) :
    (run s tr ops).1.crashed = true ∨ Inv (run s tr ops).1 (run s tr ops).2 := by
  induction ops generalizing s tr with
  | nil => exact h
  | cons op ops ih =>
    refine ih ?_
    rcases h with h | h
    · exact .inl (crashed_step h op)
    · exact inv_step h op

end Verif.Running
