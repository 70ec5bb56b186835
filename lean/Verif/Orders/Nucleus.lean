import Verif.Nucleus.Props

/-! # C80: the order in which a nucleus goes through its sets

`remove_network` goes through the set of the states of a network, `send_change` through the set of the networks of a state (nucleus.py 91, 102). -/

namespace Verif.Orders.Nucleus

open Verif.Nucleus

/-- The orders in the operation are orders of the sets of the nucleus. -/
def Possible (s : St) : Op → Prop
  | .unwatch n ord => ord.Perm (look s.nmap n)
  | .change _ x _ ord => ord.Perm (look s.smap x)
  | _ => True

/-- Every operation of the history has orders of the sets of its time. -/
def PossibleRun (s : St) : List Op → Prop
  | [] => True
  | o :: r => Possible s o ∧ PossibleRun (step s o).1 r

/-- No change of a state fails. -/
def Quiet (s : St) : List Op → Prop
  | [] => True
  | o :: r => ((∃ self x v ord, o = .change self x v ord) → (step s o).2 = .ok) ∧ Quiet (step s o).1 r

/-- The results of the calls. -/
def outs (s : St) : List Op → List Out
  | [] => []
  | o :: r => (step s o).2 :: outs (step s o).1 r

/-- The same call, perhaps with another order. -/
inductive Alike : Op → Op → Prop
  | same (o : Op) (h1 : ∀ n ord, o ≠ .unwatch n ord) (h2 : ∀ self x v ord, o ≠ .change self x v ord) : Alike o o
  | unwatch (n : Nat) (ord ord' : List Nat) (h : ord.Perm ord') : Alike (.unwatch n ord) (.unwatch n ord')
  | change (self : Option Nat) (x : Nat) (v : Int) (ord ord' : List Nat) (h : ord.Perm ord') : Alike (.change self x v ord) (.change self x v ord')

structure R (sp : Sp) (s s' : St) : Prop where
  inv : Inv s sp
  inv' : Inv s' sp
  nets : s'.nets = s.nets
  cur : s'.cur = s.cur
  ended : s'.ended = s.ended
  sent : s'.sent.Perm s.sent

theorem R.look {sp : Sp} {s s' : St} (h : R sp s s') (x : Nat) : (look s'.smap x).Perm (look s.smap x) :=
  (List.perm_ext_iff_of_nodup (h.inv'.sN x) (h.inv.sN x)).2 fun n => (h.inv'.sW n x).trans (h.inv.sW n x).symm

theorem R.look' {sp : Sp} {s s' : St} (h : R sp s s') (n : Nat) : (Verif.Nucleus.look s'.nmap n).Perm (Verif.Nucleus.look s.nmap n) :=
  (List.perm_ext_iff_of_nodup (h.inv'.nN n) (h.inv.nN n)).2 fun x => (h.inv'.nW n x).trans (h.inv.nW n x).symm

theorem send_iff (self : Option Nat) (x : Nat) (v : Int) (l : List Nat) (s : St) :
    (send s self x v l).2 = .ok ↔ ∀ n ∈ l, n ∈ s.nets ∧ ∀ p, s.cur n = some p → s.ended p = false ∧ self ≠ some p := by
  refine ⟨?_, send_succeeds self x v l s⟩
  induction l generalizing s with
  | nil => intro _ n hn; simp at hn
  | cons n r ih =>
    intro h
    unfold send at h
    split at h
    · rename_i hn
      cases hc : s.cur n with
      | none =>
        rw [hc] at h
        intro m hm
        rcases List.mem_cons.1 hm with rfl | hm
        · exact ⟨hn, by simp [hc]⟩
        · exact ih s h m hm
      | some p =>
        rw [hc] at h
        dsimp only at h
        split at h
        · simp at h
        · rename_i he
          rw [not_or] at he
          intro m hm
          rcases List.mem_cons.1 hm with rfl | hm
          · exact ⟨hn, fun q hq => by rw [hc] at hq; cases hq; exact ⟨by simpa using he.1, he.2⟩⟩
          · exact ih _ h m hm
    · simp at h

/-- The change goes through the set, wherever the map has an entry. -/
theorem change_eq {s : St} {self : Option Nat} {x : Nat} {v : Int} {ord : List Nat} (h : ord.Perm (look s.smap x)) :
    step s (.change self x v ord) = send s self x v ord := by
  simp only [step, sendChange]
  split
  · rename_i hl
    have : ord = [] := by simpa [look, hl] using h
    subst this; rfl
  · rename_i l hl
    rw [if_pos (List.isPerm_iff.2 (by simpa [look, hl] using h))]

theorem order_congr {l l' : List Nat} (h : l.Perm l') (S : Nat → Prop) : Order l S ↔ Order l' S := by
  unfold Order
  rw [h.nodup_iff]
  exact and_congr_right fun _ => forall_congr' fun x => by rw [h.mem_iff]

theorem Alike.sp {o o' : Op} (h : Alike o o') (sp : Sp) : sp.step o' = sp.step o := by
  cases h with
  | same => rfl
  | unwatch n ord ord' h => simp only [Sp.step, order_congr h]
  | change => rfl

theorem want_perm (s : St) (x : Nat) (v : Int) {l l' : List Nat} (h : l.Perm l') : (want s x v l).Perm (want s x v l') := h.filterMap _

theorem out_cases (o : Out) : o = .ok ∨ o = .raised := by cases o <;> simp

theorem R.step {sp : Sp} {s s' : St} (h : R sp s s') {o o' : Op} (ha : Alike o o') (hp : Possible s o) :
    (Verif.Nucleus.step s' o').2 = (Verif.Nucleus.step s o).2 ∧
      (((∃ self x v ord, o = .change self x v ord) → (Verif.Nucleus.step s o).2 = .ok) →
        R (sp.step o) (Verif.Nucleus.step s o).1 (Verif.Nucleus.step s' o').1) := by
  have i1 := step_inv h.inv o
  have i2 := step_inv h.inv' o'
  rw [ha.sp] at i2
  cases ha with
  | same o h1 h2 =>
    cases o with
    | addNet n =>
      simp only [Verif.Nucleus.step] at i1 i2 ⊢
      rw [h.nets] at i2 ⊢
      split
      · rename_i hn
        rw [if_pos hn] at i1 i2
        exact ⟨rfl, fun _ => ⟨i1, i2, h.nets, h.cur, h.ended, h.sent⟩⟩
      · rename_i hn
        rw [if_neg hn] at i1 i2
        exact ⟨rfl, fun _ => ⟨i1, i2, rfl, h.cur, h.ended, h.sent⟩⟩
    | delNet n =>
      simp only [Verif.Nucleus.step] at i1 i2 ⊢
      rw [h.nets] at i2 ⊢
      split
      · rename_i hn
        rw [if_pos hn] at i1 i2
        exact ⟨rfl, fun _ => ⟨i1, i2, rfl, h.cur, h.ended, h.sent⟩⟩
      · rename_i hn
        rw [if_neg hn] at i1 i2
        exact ⟨rfl, fun _ => ⟨i1, i2, h.nets, h.cur, h.ended, h.sent⟩⟩
    | watch n states =>
      have g1 := (register_inv n states s sp h.inv).2
      have g2 := (register_inv n states s' sp h.inv').2
      simp only [Verif.Nucleus.step, addNetwork] at i1 i2 ⊢
      rw [h.nets] at i2 ⊢
      split
      · rename_i hn
        rw [if_pos hn] at i1 i2
        refine ⟨rfl, fun _ => ⟨i1, i2, ?_, ?_, ?_, ?_⟩⟩
        · rw [g2.nets, g1.nets, h.nets]
        · rw [g2.cur, g1.cur, h.cur]
        · rw [g2.ended, g1.ended, h.ended]
        · rw [g2.sent, g1.sent]; exact h.sent
      · rename_i hn
        rw [if_neg hn] at i1 i2
        exact ⟨rfl, fun _ => ⟨i1, i2, h.nets, h.cur, h.ended, h.sent⟩⟩
    | unwatch n ord => exact absurd rfl (h1 n ord)
    | start n p => exact ⟨rfl, fun _ => ⟨i1, i2, h.nets, by simp only [Verif.Nucleus.step, h.cur], by simp only [Verif.Nucleus.step, h.ended], h.sent⟩⟩
    | finish p => exact ⟨rfl, fun _ => ⟨i1, i2, h.nets, h.cur, by simp only [Verif.Nucleus.step, h.ended], h.sent⟩⟩
    | change self x v ord => exact absurd rfl (h2 self x v ord)
  | unwatch n ord ord' hperm =>
    have hp1 : ord.Perm (Verif.Nucleus.look s.nmap n) := hp
    have hp2 : ord'.Perm (Verif.Nucleus.look s'.nmap n) := (hperm.symm.trans hp1).trans (h.look' n).symm
    have u1 := unregister_ok n ord { s with nmap := (entry s.nmap n).1 } (hp1.nodup_iff.2 (h.inv.nN n))
      (fun x hx => (h.inv.sW n x).2 ((h.inv.nW n x).1 (hp1.mem_iff.1 hx))) h.inv.sN
    have u2 := unregister_ok n ord' { s' with nmap := (entry s'.nmap n).1 } (hp2.nodup_iff.2 (h.inv'.nN n))
      (fun x hx => (h.inv'.sW n x).2 ((h.inv'.nW n x).1 (hp2.mem_iff.1 hx))) h.inv'.sN
    simp only [Verif.Nucleus.step, removeNetwork, entry_snd] at i1 i2 ⊢
    rw [h.nets] at i2 ⊢
    split
    · rename_i hn
      rw [if_pos hn, if_pos (List.isPerm_iff.2 hp1)] at i1
      rw [if_pos hn, if_pos (List.isPerm_iff.2 hp2)] at i2
      rw [if_pos (List.isPerm_iff.2 hp1), if_pos (List.isPerm_iff.2 hp2)]
      rcases e1 : unregister { s with nmap := (entry s.nmap n).1 } n ord with ⟨a, oa⟩
      rcases e2 : unregister { s' with nmap := (entry s'.nmap n).1 } n ord' with ⟨b, ob⟩
      rw [e1] at u1 i1
      have e2' : unregister { nets := s.nets, cur := s'.cur, ended := s'.ended, smap := s'.smap, nmap := (entry s'.nmap n).1, sent := s'.sent } n ord' = (b, ob) := by
        rw [← h.nets]; exact e2
      rw [e2] at u2
      rw [e2'] at i2 ⊢
      obtain ⟨o1, s1, -⟩ := u1
      obtain ⟨o2, s2, -⟩ := u2
      dsimp only at o1 o2 s1 s2
      subst o1 o2
      refine ⟨rfl, fun _ => ⟨i1, i2, ?_, ?_, ?_, ?_⟩⟩
      · show b.nets = a.nets; rw [s2.nets, s1.nets]; exact h.nets
      · show b.cur = a.cur; rw [s2.cur, s1.cur]; exact h.cur
      · show b.ended = a.ended; rw [s2.ended, s1.ended]; exact h.ended
      · show b.sent.Perm a.sent; rw [s2.sent, s1.sent]; exact h.sent
    · rename_i hn
      rw [if_neg hn] at i1 i2
      exact ⟨rfl, fun _ => ⟨i1, i2, h.nets, h.cur, h.ended, h.sent⟩⟩
  | change self x v ord ord' hperm =>
    have hp1 : ord.Perm (Verif.Nucleus.look s.smap x) := hp
    have hp2 : ord'.Perm (Verif.Nucleus.look s'.smap x) := (hperm.symm.trans hp1).trans (h.look x).symm
    rw [change_eq hp1] at i1 ⊢
    rw [change_eq hp2] at i2 ⊢
    have hiff : (send s' self x v ord').2 = .ok ↔ (send s self x v ord).2 = .ok := by
      rw [send_iff, send_iff, h.nets, h.cur, h.ended]
      exact forall_congr' fun n => by rw [hperm.mem_iff]
    have hout : (send s' self x v ord').2 = (send s self x v ord).2 := by
      rcases out_cases (send s self x v ord).2 with e | e
      · rw [e]; exact hiff.2 e
      · rw [e]
        rcases out_cases (send s' self x v ord').2 with e' | e'
        · rw [hiff.1 e'] at e; cases e
        · exact e'
    refine ⟨hout, fun hok => ?_⟩
    have ok1 : (send s self x v ord).2 = .ok := hok ⟨self, x, v, ord, rfl⟩
    have ok2 : (send s' self x v ord').2 = .ok := hout.trans ok1
    obtain ⟨a1, -, -, a4, a5⟩ := send_same self x v ord s
    obtain ⟨b1, -, -, b4, b5⟩ := send_same self x v ord' s'
    refine ⟨i1, i2, by rw [a1, b1, h.nets], by rw [a4, b4, h.cur], by rw [a5, b5, h.ended], ?_⟩
    rw [send_ok self x v ord s ok1, send_ok self x v ord' s' ok2]
    have : want s' x v ord' = want s x v ord' := by unfold want; rw [h.cur]
    rw [this]
    exact h.sent.append (want_perm s x v hperm.symm)

theorem R.run {sp : Sp} (ops : List Op) : ∀ {sp : Sp} {s s' : St} (ops' : List Op), R sp s s' → List.Forall₂ Alike ops ops' → PossibleRun s ops → Quiet s ops →
    outs s' ops' = outs s ops ∧ R (Sp.run sp ops) (Verif.Nucleus.run s ops) (Verif.Nucleus.run s' ops') := by
  induction ops with
  | nil => intro sp s s' ops' h ha _ _; cases ha; exact ⟨rfl, h⟩
  | cons o ops ih =>
    intro sp s s' ops' h ha hp hq
    cases ha with
    | cons h1 h2 =>
      obtain ⟨g1, g2⟩ := h.step h1 hp.1
      obtain ⟨k1, k2⟩ := ih _ (g2 hq.1) h2 hp.2 hq.2
      exact ⟨by simp only [outs, g1, k1], k2⟩

/-! ## The theorems -/

/-- **C80, the nucleus.** Two histories with the same calls, in which no change of a state fails, whatever the orders in which the sets are gone through: the calls have
the same results, the same networks watch the same states, and the same interrupts were sent, up to their order. -/
theorem c80_nucleus (ops ops' : List Op) (h : List.Forall₂ Alike ops ops') (hp : PossibleRun init ops) (hq : Quiet init ops) :
    outs init ops' = outs init ops ∧ (∀ n x, Watching ops' n x ↔ Watching ops n x) ∧ (run init ops').sent.Perm (run init ops).sent := by
  have h0 : R Sp.init init init := ⟨init_inv, init_inv, rfl, rfl, rfl, List.Perm.refl _⟩
  obtain ⟨h1, h2⟩ := R.run (sp := Sp.init) ops ops' h0 h hp hq
  refine ⟨h1, fun n x => ?_, h2.sent⟩
  have i := run_inv ops' init_inv
  exact (i.sW n x).symm.trans (h2.inv'.sW n x)

/-- **C80, whether a change fails.** It does in one order exactly if it does in another. -/
theorem c80_change_fails (ops : List Op) (self : Option Nat) (x : Nat) (v : Int) (ord ord' : List Nat) (ho : ord.Perm (look (run init ops).smap x)) (h : ord.Perm ord') :
    (step (run init ops) (.change self x v ord')).2 = (step (run init ops) (.change self x v ord)).2 :=
  (R.step ⟨run_inv ops init_inv, run_inv ops init_inv, rfl, rfl, rfl, List.Perm.refl _⟩ (.change self x v ord ord' h) ho).1

/-- Two networks watch state 7 and run processes 11 and 12. -/
def duo : List Op := [.addNet 1, .addNet 2, .watch 1 [7, 8], .watch 2 [7], .start 1 11, .start 2 12]

example : outs init (duo ++ [.change none 7 5 [2, 1], .unwatch 1 [8, 7]]) = outs init (duo ++ [.change none 7 5 [1, 2], .unwatch 1 [7, 8]]) ∧
    (∀ n x, Watching (duo ++ [.change none 7 5 [2, 1], .unwatch 1 [8, 7]]) n x ↔ Watching (duo ++ [.change none 7 5 [1, 2], .unwatch 1 [7, 8]]) n x) ∧
    (run init (duo ++ [.change none 7 5 [2, 1], .unwatch 1 [8, 7]])).sent.Perm (run init (duo ++ [.change none 7 5 [1, 2], .unwatch 1 [7, 8]])).sent := by
  refine c80_nucleus _ _ ?_ ?_ ?_
  · refine .cons (.same _ (by simp) (by simp)) (.cons (.same _ (by simp) (by simp)) (.cons (.same _ (by simp) (by simp)) (.cons (.same _ (by simp) (by simp))
      (.cons (.same _ (by simp) (by simp)) (.cons (.same _ (by simp) (by simp)) (.cons (.change _ _ _ _ _ ?_) (.cons (.unwatch _ _ _ ?_) .nil)))))))
    · decide
    · decide
  · simp only [duo, List.cons_append, List.nil_append, PossibleRun, Possible, and_true, true_and]
    decide +kernel
  · simp only [duo, List.cons_append, List.nil_append, Quiet, and_true]
    simp only [reduceCtorEq, exists_false, false_implies, true_and]
    exact ⟨fun _ => by decide +kernel, trivial⟩

/-- **C80 is false of the order of the interrupts**: the one process is interrupted first, or the other. -/
theorem c80_interrupt_order : ∃ ord ord' : List Nat, ord.Perm ord' ∧ ord.Perm (look (run init duo).smap 7) ∧
    (step (run init duo) (.change none 7 5 ord)).1.sent.map (·.proc) = [11, 12] ∧ (step (run init duo) (.change none 7 5 ord')).1.sent.map (·.proc) = [12, 11] :=
  ⟨[1, 2], [2, 1], by decide, by decide +kernel, by decide +kernel, by decide +kernel⟩

/-- **C80 is false when the change fails**: who has been interrupted before that depends on the order. -/
theorem c80_interrupted_before : ∃ ord ord' : List Nat, ord.Perm ord' ∧ ord.Perm (look (run init (duo ++ [.finish 12])).smap 7) ∧
    (step (run init (duo ++ [.finish 12])) (.change none 7 5 ord)).1.sent.map (·.proc) = [11] ∧ (step (run init (duo ++ [.finish 12])) (.change none 7 5 ord')).1.sent = [] :=
  ⟨[1, 2], [2, 1], by decide, by decide +kernel, by decide +kernel, by decide +kernel⟩

end Verif.Orders.Nucleus
