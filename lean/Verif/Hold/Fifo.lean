import Verif.Hold.Props

/-!
# C40: first come, first served
-/

namespace Verif.Hold

/-- The holds that asked, in order. -/
def askedOrder (tr : List (Op × Out)) : List Nat :=
  tr.filterMap fun x => match x with
    | (.yield h _, .requested) => some h
    | _ => none

/-- SimPy's plain `Resource`: requests are appended to the queue. `n` bounds the length of the queue. -/
def Plain (n : Nat) (ops : List Op) : Prop := ∀ h pos, Op.yield h pos ∈ ops → n ≤ pos

structure FInv (s : St) (tr : List (Op × Out)) : Prop where
  sub : s.queue.Sublist (askedOrder tr)
  nd : (askedOrder tr).Nodup
  mem : ∀ h, h ∈ askedOrder tr ↔ s.req h ≠ .none
  first : (askedOrder tr).Pairwise fun a b => a ∈ s.queue → s.req b = .waiting
  kept : ∀ h, s.req h = .waiting → (∀ o, (Op.cancel h, o) ∉ tr) → h ∈ s.queue

theorem askedOrder_snoc (tr : List (Op × Out)) (x : Op × Out) : askedOrder (tr ++ [x]) = askedOrder tr ++ askedOrder [x] :=
  List.filterMap_append ..

theorem FInv.init (cap : Nat) : FInv (init cap) [] := by
  constructor <;> simp [Hold.init, askedOrder]

theorem before_of_sublist {k a : Nat} {r l : List Nat} (hs : (k :: r).Sublist l) (hnd : l.Nodup) (ha : a ∈ r) {P : Nat → Nat → Prop}
    (hp : l.Pairwise P) : P k a := by
  exact (List.pairwise_cons.1 (hp.sublist hs)).1 a ha

theorem FInv.trigger {s : St} {tr : List (Op × Out)} (i : FInv s tr) (hw : ∀ h ∈ s.queue, s.req h = .waiting) : FInv (trigger s) tr := by
  unfold Hold.trigger
  split
  · exact i
  · rename_i k r hq
    split
    · have hkr : k ∉ r := by
        have := i.nd.sublist i.sub
        rw [hq] at this
        exact (List.nodup_cons.1 this).1
      have hk := hw k (by rw [hq]; exact List.mem_cons_self)
      have hsub := i.sub
      rw [hq] at hsub
      refine ⟨(List.sublist_cons_self k r).trans hsub, i.nd, ?_, ?_, ?_⟩
      · intro h
        rw [i.mem]
        by_cases e : h = k
        · subst e; simp [upd_self, hk]
        · simp only [upd_ne _ _ e]
      · have h1 : (askedOrder tr).Pairwise fun a b => a ≠ b := i.nd
        have hlt : (askedOrder tr).Pairwise fun a b => ¬ (a ∈ r ∧ b = k) := by
          rw [List.pairwise_iff_getElem]
          rintro x y hx hy hxy ⟨ha, hb⟩
          have hsp : (askedOrder tr) = (askedOrder tr).take y ++ (askedOrder tr)[y] :: (askedOrder tr).drop (y + 1) := by
            rw [List.getElem_cons_drop, List.take_append_drop]
          have hin : (askedOrder tr)[x] ∈ (askedOrder tr).take y := by
            rw [List.mem_take_iff_getElem]
            exact ⟨x, by omega, rfl⟩
          have hafter : (askedOrder tr)[x] ∈ (askedOrder tr).drop (y + 1) := by
            have hs2 := hsub
            rw [hsp, hb] at hs2
            obtain ⟨l1, l2, e, s1, s2⟩ := List.sublist_append_iff.1 hs2
            have hknot : k ∉ (askedOrder tr).take y := by
              have := i.nd
              rw [hsp, hb] at this
              intro hc
              exact (List.nodup_append.1 this).2.2 k hc k List.mem_cons_self rfl
            cases l1 with
            | nil =>
              simp only [List.nil_append] at e
              subst e
              have := List.Sublist.of_cons_cons s2
              exact this.subset ha
            | cons z l1' =>
              simp only [List.cons_append, List.cons.injEq] at e
              exact absurd (s1.subset (e.1 ▸ List.mem_cons_self)) hknot
          have := i.nd
          rw [hsp] at this
          exact (List.nodup_append.1 this).2.2 _ hin _ (List.mem_cons_of_mem _ hafter) rfl
        refine (i.first.and hlt).imp ?_
        intro a b ⟨f1, f2⟩ ha
        have e : b ≠ k := fun e => f2 ⟨ha, e⟩
        simp only [upd_ne _ _ e]
        exact f1 (by rw [hq]; exact List.mem_cons_of_mem _ ha)
      · intro h hh hc
        by_cases e : h = k
        · subst e; simp [upd_self] at hh
        · simp only [upd_ne _ _ e] at hh
          have := i.kept h hh hc
          rw [hq] at this
          exact (List.mem_cons.1 this).resolve_left e
    · exact i

theorem FInv.step {s : St} {tr : List (Op × Out)} (i : FInv s tr) (v : Inv s tr) (op : Op)
    (hp : ∀ h pos, op = .yield h pos → s.queue.length ≤ pos) : FInv (step s op).1 (tr ++ [(op, (step s op).2)]) := by
  have keep : ∀ (o : Out) (op : Op), askedOrder [(op, o)] = [] → FInv s (tr ++ [(op, o)]) := by
    intro o op h0
    refine ⟨by rw [askedOrder_snoc, h0, List.append_nil]; exact i.sub, by rw [askedOrder_snoc, h0, List.append_nil]; exact i.nd,
      by rw [askedOrder_snoc, h0, List.append_nil]; exact i.mem, by rw [askedOrder_snoc, h0, List.append_nil]; exact i.first, ?_⟩
    intro h hh hc
    exact i.kept h hh fun o hm => hc o (List.mem_append_left _ hm)
  cases op with
  | yield h pos =>
    simp only [Hold.step, asEvent]
    cases hst : s.stage h with
    | request =>
      have hreq := v.fresh h hst
      have hnm : h ∉ askedOrder tr := fun hc => (i.mem h).1 hc hreq
      have hl := hp h pos rfl
      have hq : s.queue.take pos ++ h :: s.queue.drop pos = s.queue ++ [h] := by
        rw [List.take_of_length_le hl, List.drop_of_length_le hl]
      rw [hq]
      have hnq : h ∉ s.queue := fun hc => hnm (i.sub.subset hc)
      apply FInv.trigger
      · have ha : askedOrder (tr ++ [(Op.yield h pos, Out.requested)]) = askedOrder tr ++ [h] := by
          rw [askedOrder_snoc]; rfl
        refine ⟨?_, ?_, ?_, ?_, ?_⟩
        · rw [ha]; exact i.sub.append (List.Sublist.refl _)
        · rw [ha, List.nodup_append]
          refine ⟨i.nd, List.nodup_singleton h, ?_⟩
          intro a ha' b hb
          obtain rfl := List.mem_singleton.1 hb
          rintro rfl
          exact hnm ha'
        · intro k
          rw [ha]
          by_cases e : k = h
          · subst e; simp [upd_self]
          · simp only [List.mem_append, List.mem_singleton, e, or_false, upd_ne _ _ e]; exact i.mem k
        · rw [ha, List.pairwise_append]
          refine ⟨?_, List.pairwise_singleton .., ?_⟩
          · refine (List.Pairwise.and_mem.1 i.first).imp ?_
            intro a b ⟨ha, hb, f⟩ hm
            have eb : b ≠ h := fun e => hnm (e ▸ hb)
            have ea : a ≠ h := fun e => hnm (e ▸ ha)
            simp only [upd_ne _ _ eb]
            exact f ((List.mem_append.1 hm).resolve_right (by simpa using ea))
          · intro a _ b hb _
            obtain rfl := List.mem_singleton.1 hb
            exact upd_self ..
        · intro k hk hc
          by_cases e : k = h
          · subst e; simp
          · simp only [upd_ne _ _ e] at hk
            exact List.mem_append_left _ (i.kept k hk fun o hm => hc o (List.mem_append_left _ hm))
      · intro k hk
        by_cases e : k = h
        · subst e; exact upd_self ..
        · simp only [upd_ne _ _ e]
          exact (v.queue k ((List.mem_append.1 hk).resolve_right (by simpa using e))).2
    | release =>
      dsimp only
      split
      · have := keep .released (.yield h pos) rfl
        exact ⟨this.sub, this.nd, this.mem, this.first, this.kept⟩
      · exact keep .raised (.yield h pos) rfl
    | completed => exact keep .raised (.yield h pos) rfl
  | cancel h =>
    simp only [Hold.step, cancel]
    have g := keep .done (.cancel h) rfl
    split
    · refine ⟨List.filter_sublist.trans g.sub, g.nd, g.mem, ?_, ?_⟩
      · refine g.first.imp ?_
        intro a b f hm
        exact f (List.mem_filter.1 hm).1
      · intro k hk hc
        have e : k ≠ h := by rintro rfl; exact hc .done (by simp)
        exact List.mem_filter.2 ⟨g.kept k hk hc, by simpa using e⟩
    · exact g
  | rehearse h =>
    simp only [Hold.step, rehearse]
    split
    · have g := keep .done (.rehearse h) rfl
      exact ⟨g.sub, g.nd, g.mem, g.first, g.kept⟩
    · exact keep .done (.rehearse h) rfl
    · exact keep .raised (.rehearse h) rfl
  | granted h =>
    simp only [Hold.step]
    split
    · rename_i hreq
      have g := keep .done (.granted h) rfl
      refine ⟨g.sub, g.nd, ?_, ?_, ?_⟩
      · intro k
        by_cases e : k = h
        · subst e; simp [upd_self, g.mem, hreq]
        · simp only [upd_ne _ _ e]; exact g.mem k
      · refine g.first.imp ?_
        intro a b f hm
        have := f hm
        have e : b ≠ h := by rintro rfl; simp [hreq] at this
        simp only [upd_ne _ _ e]; exact this
      · intro k hk hc
        have e : k ≠ h := by rintro rfl; simp [upd_self] at hk
        simp only [upd_ne _ _ e] at hk
        exact g.kept k hk hc
    · exact keep .raised (.granted h) rfl
  | gaveBack h =>
    simp only [Hold.step]
    split
    · have g := keep .done (.gaveBack h) rfl
      apply FInv.trigger
      · exact ⟨g.sub, g.nd, g.mem, g.first, g.kept⟩
      · intro k hk; exact (v.queue k hk).2
    · exact keep .raised (.gaveBack h) rfl

theorem trigger_queue (s : St) : (trigger s).queue.length ≤ s.queue.length := by
  unfold trigger
  split
  · exact Nat.le_refl _
  · rename_i h
    split
    · simp [h]
    · exact Nat.le_refl _

theorem step_queue (s : St) (op : Op) : (step s op).1.queue.length ≤ s.queue.length + 1 := by
  cases op with
  | yield h pos =>
    simp only [step, asEvent]
    split
    · refine Nat.le_trans (trigger_queue _) ?_
      simp only [List.length_append, List.length_cons, List.length_take, List.length_drop]
      omega
    · split <;> simp
    · simp
  | cancel h =>
    simp only [step, cancel]
    split
    · exact Nat.le_succ_of_le (List.length_filter_le _ _)
    · simp
  | rehearse h => simp only [step, rehearse]; split <;> simp
  | granted h => simp only [step]; split <;> simp
  | gaveBack h =>
    simp only [step]
    split
    · exact Nat.le_succ_of_le (trigger_queue _)
    · simp

theorem FInv.run (ops : List Op) : ∀ {s : St} {tr : List (Op × Out)}, FInv s tr → Inv s tr → Plain (s.queue.length + ops.length) ops →
    FInv (run s ops).1 (tr ++ (run s ops).2) := by
  induction ops with
  | nil => intro s tr h _ _; simpa [Hold.run] using h
  | cons op r ih =>
    intro s tr h v hp
    have h1 := h.step v op fun k pos e => by
      have := hp k pos (e ▸ List.mem_cons_self)
      omega
    have := ih h1 (v.step op) fun k pos hm => by
      have h2 := hp k pos (List.mem_cons_of_mem _ hm)
      have h3 := step_queue s op
      simp only [List.length_cons] at h2
      omega
    simpa [Hold.run] using this

/-- C40: on a plain resource, holds get the resource in the order in which they asked: when a hold has been granted the
resource, so has every hold that asked before it and was not cancelled. -/
theorem c40_first_come (cap : Nat) (ops : List Op) (hp : Plain ops.length ops) (a b : Nat) (pre post : List Nat)
    (ho : askedOrder (run (init cap) ops).2 = pre ++ a :: post) (hb : b ∈ post)
    (hg : .got ∈ acts b (run (init cap) ops).2) (hc : Op.cancel a ∉ ops) :
    .got ∈ acts a (run (init cap) ops).2 ∨ (step (run (init cap) ops).1 (.granted a)).2 = .done := by
  have v := reach cap ops
  have i : FInv (run (init cap) ops).1 (run (init cap) ops).2 := by
    simpa using FInv.run ops (FInv.init cap) (Inv.init cap) (by simpa [init] using hp)
  have htr : ∀ (ops : List Op) (s : St) o, (Op.cancel a, o) ∈ (run s ops).2 → Op.cancel a ∈ ops := by
    intro ops
    induction ops with
    | nil => intro s o h; simp [run] at h
    | cons op r ih =>
      intro s o h
      simp only [run, List.mem_cons, Prod.mk.injEq] at h
      rcases h with h | h
      · exact h.1 ▸ List.mem_cons_self
      · exact List.mem_cons_of_mem _ (ih _ o h)
  have hcan : ∀ o, (Op.cancel a, o) ∉ (run (init cap) ops).2 := fun o hm => hc (htr ops _ o hm)
  generalize (run (init cap) ops).1 = s at *
  generalize (run (init cap) ops).2 = tr at *
  have hf := i.first
  rw [ho, List.pairwise_append] at hf
  have hab := (List.pairwise_cons.1 hf.2.1).1 b hb
  have hbw : s.req b ≠ .waiting := by
    intro e
    rw [v.acts b] at hg
    simp [phase, e] at hg
  have haq : a ∉ s.queue := fun h => hbw (hab h)
  have haw : s.req a ≠ .waiting := fun e => haq (i.kept a e hcan)
  have han : s.req a ≠ .none := (i.mem a).1 (by rw [ho]; simp)
  cases hr : s.req a with
  | none => exact absurd hr han
  | waiting => exact absurd hr haw
  | granted => right; simp [step, hr]
  | processed =>
    left
    rw [v.acts a]
    simp only [phase, hr]
    split
    · simp
    · split <;> simp

/-- Three holds on one slot, asking in the order 1, 3, 2. -/
def queue3 : List Op :=
  [.yield 1 10, .yield 3 10, .yield 2 10, .granted 1, .yield 1 10, .gaveBack 1, .granted 3, .yield 3 10, .gaveBack 3, .granted 2]

example : Plain queue3.length queue3 ∧ askedOrder (run (init 1) queue3).2 = [1] ++ 3 :: [2] ∧ Op.cancel 3 ∉ queue3 ∧
    .got ∈ acts 2 (run (init 1) queue3).2 :=
  ⟨by intro h pos hm; simp [queue3] at hm; simp [queue3]; omega, by decide, by decide, by decide⟩

end Verif.Hold
