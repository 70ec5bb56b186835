import Verif.Listen.Inv

/-! # The invariants hold in every execution -/

namespace Verif.Listen

open Spec

/-- Somebody else made a request. -/
def Others (tr : Trace) : Prop := Op.get ∈ tr.map (·.1)

theorem Core.mono {s : St} {E : List Eff} {G G' : Prop} (h : Core s E G) (hG : G → G') : Core s E G' :=
  ⟨h.flow, h.ids, h.lt, h.past, h.nd, h.rlt, h.wait, h.own, h.busy, h.fresh, h.begun, h.ended, fun g hg ho => hG (h.other g hg ho),
    fun g p hm => hG (h.taken g p hm), h.lost⟩

theorem core_put {cap : Option Nat} {s : St} {E : List Eff} {G : Prop} (h : Core s E G) (o : Obj) :
    Core (step cap s (.put o)).1 (E ++ (step cap s (.put o)).2) G := by
  refine Core.tryPut (s := { s with putQ := s.putQ ++ [(s.nPut, o)], nPut := s.nPut + 1 })
    ⟨h.flow, ?_, fun p hp => ?_, h.past, h.nd, h.rlt, h.wait, h.own, h.busy, h.fresh, h.begun, h.ended, h.other, h.taken, h.lost⟩
  · have := h.ids
    simp only [List.map_append, List.map_cons, List.map_nil]
    rw [← List.append_assoc, List.nodup_append]
    refine ⟨this, by simp, fun a ha b hb => ?_⟩
    rw [List.mem_singleton.1 hb]
    exact Nat.ne_of_lt (h.lt a ha)
  · simp only [List.map_append, List.map_cons, List.map_nil, List.mem_append, List.mem_singleton] at hp
    show p < s.nPut + 1
    rcases hp with hp | hp | hp
    · exact Nat.lt_succ_of_lt (h.lt p (List.mem_append_left _ hp))
    · exact Nat.lt_succ_of_lt (h.lt p (List.mem_append_right _ hp))
    · omega

theorem core_kill {s : St} {E : List Eff} {G : Prop} (h : Core s E G) {i : Nat} (busy : Option Nat) (hi : s.lst i ≠ .made) (hi' : s.lst i ≠ .dead)
    (hbusy : ∀ j, busy = some j ↔ s.lst j = .calling ∧ j ≠ i) :
    Core { s with busy := busy, lst := upd s.lst i .dead } (E ++ [.ended i]) G := by
  have hr : reqs { s with busy := busy, lst := upd s.lst i .dead } = reqs s := rfl
  refine ⟨?_, ?_, ?_, ?_, h.nd, h.rlt, fun j g hj => ?_, fun g hg j hj => ?_, fun j => ?_, fun j hj => ?_, fun j => ?_, fun j => ?_, h.other,
    fun g p hm => ?_, fun p hm => ?_⟩
  · simpa [acc, hand, accOf, handOf, List.filterMap_cons, flow] using h.flow
  · simpa [acc, accOf, List.filterMap_cons] using h.ids
  · simpa [acc, accOf, List.filterMap_cons] using h.lt
  · simpa [acc, accOf, List.filterMap_cons] using h.past
  · by_cases e : j = i
    · subst e; simp [upd] at hj
    · simp only [upd_ne _ _ e] at hj; exact h.wait j g hj
  · by_cases e : j = i
    · subst e; simp [upd]
    · simp only [upd_ne _ _ e]; exact h.own g hg j hj
  · show busy = some j ↔ _
    rw [hbusy]
    by_cases e : j = i
    · subst e; simp [upd]
    · simp only [upd_ne _ _ e]; simp [e]
  · by_cases e : j = i
    · subst e; exact absurd (h.fresh j hj) hi
    · simp only [upd_ne _ _ e]; exact h.fresh j hj
  · by_cases e : j = i
    · subst e; simp [upd, (h.begun j).2 hi]
    · simp only [upd_ne _ _ e, List.mem_append, List.mem_singleton]
      rw [h.begun]; simp
  · by_cases e : j = i
    · subst e; simp [upd]
    · simp only [upd_ne _ _ e, List.mem_append, List.mem_singleton, Eff.ended.injEq, e, or_false]
      exact h.ended j
  · exact h.taken g p (by simpa using hm)
  · exact ⟨i, by simp⟩

theorem core_ask {s : St} {E : List Eff} {G : Prop} (h : Core s E G) {i : Nat} (hn : i < s.nLst) (hi : s.lst i = .made ∨ s.lst i = .calling)
    {e : List Eff} (he : e = if s.lst i = .made then [.begun i] else []) (hb : s.lst i = .made → s.busy = none) :
    Core (ask { s with busy := none } i) (E ++ e) G := by
  refine h.request (E' := E ++ e) (upd s.lst i (.waiting s.nGet)) (some i) none ?_ ?_ (fun j => ?_) (fun j hj => ?_) (fun j hj => ?_) (fun j => ?_)
    (fun j => ?_) (fun j => ?_) (fun g p => ?_) (fun p => ?_) (by simp)
  · subst he; split <;> simp [acc, accOf, List.filterMap_cons]
  · subst he; split <;> simp [hand, handOf, List.filterMap_cons]
  · by_cases e : j = i
    · subst e; simp [upd]
    · simp only [upd_ne _ _ e, Option.some.injEq, show ¬ i = j from fun x => e x.symm, iff_false]
      intro hw
      exact Nat.lt_irrefl _ (h.rlt _ (h.wait j _ hw).2)
  · rw [upd_ne _ _ (fun e => hj (by rw [e]))]
  · cases hj
    rcases hi with hi | hi <;> rw [hi] <;> simp [hn]
  · by_cases e : j = i
    · subst e; simp [upd]
    · simp only [upd_ne _ _ e]
      have := h.busy j
      rcases hi with hi | hi
      · rw [hb hi] at this; exact this
      · have h2 := (h.busy i).2 hi
        rw [h2] at this
        simp only [Option.some.injEq, show ¬ i = j from fun x => e x.symm, false_iff] at this
        simp [this]
  · by_cases e' : j = i
    · subst e'
      simp only [upd_same]
      rcases hi with hi | hi
      · rw [he, if_pos hi]; simp
      · have := (h.begun j).2 (by rw [hi]; simp)
        simp [this]
    · simp only [upd_ne _ _ e']
      rw [← h.begun]
      subst he
      split <;> simp [e']
  · subst he; split <;> simp
  · subst he; split <;> simp
  · subst he; split <;> simp

theorem seen_clean (o : Obj) : Seen o (clean o) := by
  cases o <;> simp [Seen, clean]

theorem core_deliver {cap : Option Nat} {s : St} {E : List Eff} {G : Prop} (h : Core s E G) {g : Nat} {x : Item} {r : List Ev}
    (hev : s.evs = .got g x :: r) (hb : s.busy = none) :
    Core (deliver cap { s with evs := r } g x).1 (E ++ (deliver cap { s with evs := r } g x).2) G := by
  have hg : g ∈ reqs s := by simp [reqs, hev, reqOf]
  have hx : x ∈ acc E := by
    obtain ⟨A, h1, _⟩ := h.flow
    rw [h1]; simp [flow, hev, gotOf]
  obtain ⟨e1, e2, e3, e4⟩ := tryPut_rest cap { s with evs := r }
  have swap : ∀ (s' : St) (e : Eff), accOf e = none → Core s' (E ++ [e] ++ (tryPut cap { s with evs := r }).2) G →
      Core s' (E ++ ((tryPut cap { s with evs := r }).2 ++ [e])) G := by
    intro s' e he hc
    have hh : hand (tryPut cap { s with evs := r }).2 = [] := by
      rcases tryPut_cases cap { s with evs := r } with ⟨_, e⟩ | ⟨p, o, r', _, _, e⟩ <;> rw [e] <;> rfl
    simp only [hand] at hh
    refine hc.congr ?_ ?_ (fun e' => ?_)
    · simp [acc, he, List.filterMap_cons]
    · simp only [hand, List.filterMap_append, hh, List.nil_append, List.append_nil]
    · simp only [List.mem_append, List.mem_singleton]; tauto
  simp only [deliver, e2, e3, e1]
  cases ho : s.owner g with
  | none =>
    simp only
    refine swap _ _ rfl ?_
    have := h.hand (e := .taken g x.put) hev s.lst s.busy rfl rfl rfl (fun _ _ => rfl) (fun i hw => by rw [(h.wait i g hw).1] at ho; cases ho) h.busy
      (fun _ _ _ => ho) (fun p hp => by cases hp)
    exact this.tryPut
  | some i =>
    simp only
    rcases h.own g hg i ho with hw | hd
    · rw [if_pos hw]
      refine swap _ _ rfl ?_
      have hu : ∀ j, s.lst j = .waiting g → j = i := fun j hj => by
        have := (h.wait j g hj).1
        rw [ho] at this; cases this; rfl
      have := h.hand (e := .called i x.put (clean x.obj) s.now) hev (upd s.lst i .calling) (some i) rfl rfl ⟨rfl, seen_clean _, h.past x hx⟩
        (fun j hj => upd_ne _ _ (fun e => hj (by rw [e]; exact hw))) (fun j hj => by rw [hu j hj, upd_same])
        (fun j => by
          by_cases e : j = i
          · subst e; simp [upd]
          · rw [upd_ne _ _ e]
            have := h.busy j
            rw [hb] at this
            simp only [reduceCtorEq, false_iff] at this
            simp [this, show ¬ i = j from fun x => e x.symm])
        (fun _ _ e => by cases e) (fun _ e => by cases e)
      have := this.tryPut (cap := cap)
      have e := tryPut_comm cap { s with evs := r } (upd s.lst i .calling) (some i)
      have e2' : (tryPut cap { s with evs := r, lst := upd s.lst i .calling, busy := some i }) = _ := e
      rw [e2'] at this
      simp only [e1, e2, e3] at this ⊢
      exact this
    · rw [if_neg (by rw [hd]; simp)]
      refine swap _ _ rfl ?_
      have := h.hand (e := .lost x.put) hev s.lst s.busy rfl rfl rfl (fun _ _ => rfl)
        (fun j hj => by
          have := (h.wait j g hj).1
          rw [ho] at this
          cases this
          rw [hd] at hj; cases hj) h.busy (fun _ _ e => by cases e) (fun _ _ => ⟨i, hd⟩)
      exact this.tryPut

theorem core_step {cap : Option Nat} {s : St} {tr : Trace} (h : Core s (effs tr) (Others tr)) (op : Op) :
    Core (step cap s op).1 (effs ((op, (step cap s op).2) :: tr)) (Others ((op, (step cap s op).2) :: tr)) := by
  have hm : Others tr → Others ((op, (step cap s op).2) :: tr) := fun hx => List.mem_cons_of_mem _ hx
  have imp : Core s (effs tr ++ [.impossible]) (Others tr) := h.impossible
  have nil : Core s (effs tr ++ []) (Others tr) := by rw [List.append_nil]; exact h
  simp only [effs]
  cases op with
  | put o => exact (core_put h o).mono hm
  | get =>
    have := (h.mono hm).request (E' := effs tr ++ []) s.lst none s.busy (by simp) (by simp)
      (fun i => by simp only [reduceCtorEq, iff_false]; intro hw; exact Nat.lt_irrefl _ (h.rlt _ (h.wait i _ hw).2))
      (fun _ _ => rfl) (fun i hi => by cases hi) h.busy (fun i => by simpa using h.begun i) (by simp) (by simp) (by simp)
      (fun _ => List.mem_cons_self)
    exact this
  | cancelPut p =>
    refine Core.mono ?_ hm
    simp only [step, List.append_nil]
    have hsub : ((s.putQ.filter (fun x => decide (x.1 ≠ p))).map (·.1)).Sublist (s.putQ.map (·.1)) := List.filter_sublist.map _
    refine ⟨h.flow, ?_, fun q hq => ?_, h.past, h.nd, h.rlt, h.wait, h.own, h.busy, h.fresh, h.begun, h.ended, h.other, h.taken, h.lost⟩
    · exact h.ids.sublist ((List.Sublist.refl _).append hsub)
    · exact h.lt q (((List.Sublist.refl _).append hsub).subset hq)
  | cancelGet g =>
    refine Core.mono ?_ hm
    simp only [step]
    split
    · rename_i hg
      have hsub : (reqs { s with getQ := s.getQ.filter (fun x => decide (x ≠ g)) }).Sublist (reqs s) :=
        List.filter_sublist.append (List.Sublist.refl _)
      rw [List.append_nil]
      refine ⟨h.flow, h.ids, h.lt, h.past, h.nd.sublist hsub, fun g' hm => h.rlt g' (hsub.subset hm), fun i g' hi => ?_,
        fun g' hm => h.own g' (hsub.subset hm), h.busy, h.fresh, h.begun, h.ended, fun g' hm => h.other g' (hsub.subset hm), h.taken, h.lost⟩
      obtain ⟨h1, h2⟩ := h.wait i g' hi
      refine ⟨h1, ?_⟩
      have hne : g' ≠ g := fun e => by rw [e] at h1; rw [hg.2] at h1; cases h1
      rcases List.mem_append.1 h2 with h2 | h2
      · exact List.mem_append_left _ (List.mem_filter.2 ⟨h2, by simpa using hne⟩)
      · exact List.mem_append_right _ h2
    · exact imp
  | listen =>
    refine Core.mono ?_ hm
    simp only [step, List.append_nil]
    have hf : upd s.lst s.nLst .made = s.lst := by
      funext i
      by_cases e : i = s.nLst
      · subst e; rw [upd_same, h.fresh _ (Nat.le_refl _)]
      · rw [upd_ne _ _ e]
    rw [hf]
    exact ⟨h.flow, h.ids, h.lt, h.past, h.nd, h.rlt, h.wait, h.own, h.busy, fun i hi => h.fresh i (by simp only at hi; omega), h.begun, h.ended, h.other,
      h.taken, h.lost⟩
  | begin i =>
    refine Core.mono ?_ hm
    simp only [step]
    split
    · rename_i hi
      have := core_ask h hi.1 (.inl hi.2.1) rfl (fun _ => hi.2.2)
      rw [if_pos hi.2.1] at this
      have e : { s with busy := none } = s := by
        obtain ⟨_, _, hb⟩ := hi
        cases s; simp only at hb; subst hb; rfl
      rwa [e] at this
    · exact imp
  | process =>
    refine Core.mono ?_ hm
    simp only [step]
    split
    · exact imp
    · rename_i hb
      simp only [ne_eq, Decidable.not_not] at hb
      cases hev : s.evs with
      | nil => exact imp
      | cons e r =>
        cases e with
        | put p =>
          simp only [List.append_nil]
          refine Core.tryGet (s := { s with evs := r }) ?_
          have hr : reqs { s with evs := r } = reqs s := by simp [reqs, hev, reqOf, List.filterMap_cons]
          refine ⟨?_, h.ids, h.lt, h.past, by rw [hr]; exact h.nd, by rw [hr]; exact h.rlt, by rw [hr]; exact h.wait, by rw [hr]; exact h.own, h.busy, h.fresh,
            h.begun, h.ended, by rw [hr]; exact h.other, h.taken, h.lost⟩
          obtain ⟨A, h1, h2⟩ := h.flow
          refine ⟨A, ?_, h2⟩
          rw [h1]; simp [flow, hev, gotOf, List.filterMap_cons]
        | got g x => exact core_deliver h hev hb
  | ret =>
    refine Core.mono ?_ hm
    simp only [step]
    cases hb : s.busy with
    | none => exact imp
    | some i =>
      have hc := (h.busy i).1 hb
      have hlt : i < s.nLst := by
        by_contra hn
        rw [h.fresh i (by omega)] at hc; cases hc
      have := core_ask h hlt (.inr hc) rfl (fun hx => by rw [hc] at hx; cases hx)
      rw [if_neg (by rw [hc]; simp)] at this
      exact this
  | raise =>
    refine Core.mono ?_ hm
    simp only [step]
    cases hb : s.busy with
    | none => exact imp
    | some i =>
      have hc := (h.busy i).1 hb
      refine core_kill h none (by rw [hc]; simp) (by rw [hc]; simp) (fun j => ?_)
      simp only [reduceCtorEq, false_iff, not_and, Decidable.not_not]
      intro hj
      have := (h.busy j).2 hj
      rw [hb] at this
      cases this
      rfl
  | stop i =>
    refine Core.mono ?_ hm
    simp only [step]
    split
    · exact imp
    · rename_i hb
      simp only [ne_eq, Decidable.not_not] at hb
      cases hw : s.lst i with
      | waiting g =>
        have := core_kill h (i := i) s.busy (by rw [hw]; simp) (by rw [hw]; simp) (fun j => by
          rw [h.busy j]
          constructor
          · intro hj
            exact ⟨hj, fun e => by rw [e, hw] at hj; cases hj⟩
          · exact fun hj => hj.1)
        exact this
      | made => exact imp
      | calling => exact imp
      | dead => exact imp
  | advance d =>
    refine Core.mono ?_ hm
    simp only [step]
    split
    · rename_i hd
      rw [List.append_nil]
      refine ⟨h.flow, h.ids, h.lt, fun x hx => ?_, h.nd, h.rlt, h.wait, h.own, h.busy, h.fresh, h.begun, h.ended, h.other, h.taken, h.lost⟩
      have := h.past x hx
      show x.time ≤ s.now + d
      linarith [hd.1]
    · exact imp

theorem nPuts_cons_put {s : St} {p : Nat} {r : List Ev} (h : s.evs = .put p :: r) :
    nPuts s = nPuts { s with evs := r } + 1 ∧ nGots s = nGots { s with evs := r } := by
  simp [nPuts, nGots, h, List.filter_cons, gotOf_put]

theorem nPuts_cons_got {s : St} {g : Nat} {x : Item} {r : List Ev} (h : s.evs = .got g x :: r) :
    nPuts s = nPuts { s with evs := r } ∧ nGots s = nGots { s with evs := r } + 1 := by
  simp [nPuts, nGots, h, List.filter_cons, gotOf_got]

theorem owed_step {cap : Option Nat} {s : St} (h : Owed cap s 0 0) (op : Op) : Owed cap (step cap s op).1 0 0 := by
  cases op with
  | put o =>
    refine Owed.tryPut (s := { s with putQ := s.putQ ++ [(s.nPut, o)], nPut := s.nPut + 1 }) ⟨h.gets, fun c hc => ?_, fun hc => ?_⟩
    · have := h.puts c hc
      simp only [List.length_append, List.length_singleton, nGots] at this ⊢
      omega
    · have := h.free hc
      simp only [List.length_append, List.length_singleton]
      omega
  | get => exact h.request s.lst none s.busy
  | cancelPut p =>
    have hl : (s.putQ.filter (fun x => decide (x.1 ≠ p))).length ≤ s.putQ.length := List.length_filter_le _ _
    refine ⟨h.gets, fun c hc => ?_, fun hc => ?_⟩
    · have := h.puts c hc
      simp only [step, nGots] at this ⊢
      omega
    · have := h.free hc
      simp only [step]
      omega
  | cancelGet g =>
    simp only [step]
    split
    · have hl : (s.getQ.filter (fun x => decide (x ≠ g))).length ≤ s.getQ.length := List.length_filter_le _ _
      refine ⟨?_, h.puts, h.free⟩
      have := h.gets
      simp only [nPuts] at this ⊢
      omega
    · exact h
  | listen => exact ⟨h.gets, h.puts, h.free⟩
  | begin i =>
    simp only [step]
    split
    · exact h.request _ (some i) s.busy
    · exact h
  | process =>
    simp only [step]
    split
    · exact h
    · cases hev : s.evs with
      | nil => exact h
      | cons e r =>
        cases e with
        | put p =>
          obtain ⟨h1, h2⟩ := nPuts_cons_put hev
          refine Owed.tryGet (s := { s with evs := r }) ⟨?_, fun c hc => ?_, h.free⟩
          · have := h.gets; rw [h1] at this; exact this
          · have := h.puts c hc; rw [h2] at this; exact this
        | got g x =>
          obtain ⟨h1, h2⟩ := nPuts_cons_got hev
          have key : Owed cap (tryPut cap { s with evs := r }).1 0 0 := by
            refine Owed.tryPut (s := { s with evs := r }) ⟨?_, fun c hc => ?_, fun hc => ?_⟩
            · have := h.gets; rw [h1] at this; exact this
            · have := h.puts c hc; rw [h2] at this; exact this
            · have := h.free hc
              simp only
              omega
          simp only [deliver]
          split
          · exact key
          · split
            · exact ⟨key.gets, key.puts, key.free⟩
            · exact key
  | ret =>
    simp only [step]
    cases hb : s.busy with
    | none => exact h
    | some i => exact h.request _ (some i) none
  | raise =>
    simp only [step]
    cases hb : s.busy with
    | none => exact h
    | some i => exact ⟨h.gets, h.puts, h.free⟩
  | stop i =>
    simp only [step]
    split
    · exact h
    · split
      · exact ⟨h.gets, h.puts, h.free⟩
      · exact h
  | advance d =>
    simp only [step]
    split
    · exact ⟨h.gets, h.puts, h.free⟩
    · exact h

/-- State and trace after some operations. -/
def Reached (cap : Option Nat) (t : Rat) (s : St) (tr : Trace) : Prop := ∃ ops, run cap (init t) [] ops = (s, tr)

theorem Reached.inv {cap : Option Nat} {t : Rat} {s : St} {tr : Trace} (h : Reached cap t s tr) :
    Core s (effs tr) (Others tr) ∧ Owed cap s 0 0 := by
  obtain ⟨ops, e⟩ := h
  have H : ∀ (ops : List Op) (s : St) (tr : Trace), Core s (effs tr) (Others tr) ∧ Owed cap s 0 0 →
      Core (run cap s tr ops).1 (effs (run cap s tr ops).2) (Others (run cap s tr ops).2) ∧ Owed cap (run cap s tr ops).1 0 0 := by
    intro ops
    induction ops with
    | nil => intro s tr h; exact h
    | cons op ops ih => intro s tr h; exact ih _ _ ⟨core_step h.1 op, owed_step h.2 op⟩
  have := H ops (init t) [] ⟨⟨⟨[], rfl, .nil⟩, by simp [effs, acc, init], by simp [effs, acc, init], by simp [effs, acc], by simp [reqs, init],
    by simp [reqs, init], by simp [init], by simp [reqs, init], by simp [init], by simp [init], by simp [effs, init], by simp [effs, init],
    by simp [reqs, init], by simp [effs], by simp [effs]⟩, ⟨by simp [init], by simp [init], by simp [init]⟩⟩
  rw [e] at this
  exact this

end Verif.Listen
