import Verif.Active.Props

/-! # C80: the order in which the states of a task are deactivated

`deactivate_all_states` goes through a set of names (actor.py 427-434). Whatever the order, the actor is the same afterwards. -/

namespace Verif.Orders

open Verif.Active

/-! ## What happens to one state depends on that state only -/

theorem record_congr (c : Cfg) {s s' : St} {n : Nat} (e : Entry) (h : Same n s s') : Same n (record c s n e) (record c s' n e) := by
  unfold record
  rw [h.hist, h.now]
  split
  · exact ⟨rfl, h.value, h.active, h.tbs, by simp only [upd_self]⟩
  · exact h

theorem setVal_congr (c : Cfg) {s s' : St} {n : Nat} (v : Rat) (h : Same n s s') : Same n (setVal c s n v) (setVal c s' n v) :=
  record_congr c _ ⟨h.now, by simp only [upd_self], h.active, h.tbs, h.hist⟩

theorem setActive_congr {s s' : St} {n : Nat} (a : Rat) (b : Option Nat) (d : Option Rat) (e : Option (List (Nat × Rat))) (f : Option Rat) (h : Same n s s') :
    Same n (setActive s n a b d e f) (setActive s' n a b d e f) := by
  unfold setActive
  exact ⟨h.now, h.value, by simp only [upd_self, h.active], h.tbs, h.hist⟩

theorem read_congr (c : Cfg) {s s' : St} {n : Nat} (h : Same n s s') : Same n (Active.read c s n).1 (Active.read c s' n).1 ∧ (Active.read c s' n).2 = (Active.read c s n).2 := by
  unfold Active.read
  split
  · exact ⟨h, rfl⟩
  · rw [h.value]
    split
    · exact ⟨h, rfl⟩
    · exact ⟨h, rfl⟩
  · unfold readLinear
    rw [h.value, h.active, h.now]
    split
    · exact ⟨h, rfl⟩
    · split
      · exact ⟨h, rfl⟩
      · split
        · exact ⟨h, rfl⟩
        · split
          · exact ⟨h, rfl⟩
          · exact ⟨setActive_congr _ _ _ _ _ (setVal_congr c _ h), rfl⟩
  · unfold readShared
    rw [h.value, h.active, h.now]
    split
    · exact ⟨h, rfl⟩
    · split
      · exact ⟨h, rfl⟩
      · simp only
        split
        · exact ⟨setActive_congr _ _ _ _ _ (setVal_congr c _ h), rfl⟩
        · split
          · exact ⟨h, rfl⟩
          · split
            · exact ⟨h, rfl⟩
            · exact ⟨setActive_congr _ _ _ _ _ (setVal_congr c _ h), rfl⟩

theorem unlock_congr {s s' : St} {n : Nat} (t : Nat) (h : Same n s s') : Same n (unlock s n t) (unlock s' n t) :=
  ⟨h.now, h.value, h.active, by simp only [unlock, upd_self, h.tbs], h.hist⟩

theorem drop_congr {s s' : St} {n : Nat} (h : Same n s s') : Same n (drop s n) (drop s' n) :=
  ⟨h.now, h.value, by simp only [drop, upd_self], h.tbs, h.hist⟩

theorem offShared_congr (c : Cfg) {s s' : St} {n : Nat} (t : Nat) (h : Same n s s') :
    Same n (offShared c s n t).1 (offShared c s' n t).1 ∧ (offShared c s' n t).2 = (offShared c s n t).2 := by
  unfold offShared
  rw [h.active, h.now]
  simp only
  split
  · obtain ⟨h1, h2⟩ := read_congr c (setActive_congr s.now none none (some ((((s.active n).bind (·.rateTasks)).getD []).filter fun p => p.1 ≠ t)) none h)
    generalize Active.read c (setActive s n s.now none none (some ((((s.active n).bind (·.rateTasks)).getD []).filter fun p => p.1 ≠ t)) none) n = r at h1 h2
    generalize Active.read c (setActive s' n s.now none none (some ((((s.active n).bind (·.rateTasks)).getD []).filter fun p => p.1 ≠ t)) none) n = r' at h1 h2
    obtain ⟨a, o⟩ := r
    obtain ⟨a', o'⟩ := r'
    dsimp only at h1 h2
    subst h2
    cases o' with
    | val v =>
      dsimp only
      refine ⟨?_, rfl⟩
      split
      · exact drop_congr h1
      · exact h1
    | ok => exact ⟨h1, rfl⟩
    | raised => exact ⟨h1, rfl⟩
    | all d f => exact ⟨h1, rfl⟩
  · exact ⟨h, rfl⟩

theorem deactivate_congr (c : Cfg) {s s' : St} {n : Nat} (t : Nat) (h : Same n s s') :
    Same n (deactivate c s n t).1 (deactivate c s' n t).1 ∧ (deactivate c s' n t).2 = (deactivate c s n t).2 := by
  unfold deactivate
  split
  · exact ⟨h, rfl⟩
  · rename_i k hk
    rw [h.tbs]
    split
    · obtain ⟨h1, h2⟩ := read_congr c (unlock_congr t h)
      generalize Active.read c (unlock s n t) n = r at h1 h2
      generalize Active.read c (unlock s' n t) n = r' at h1 h2
      obtain ⟨a, o⟩ := r
      obtain ⟨a', o'⟩ := r'
      dsimp only at h1 h2
      subst h2
      cases o' with
      | val v =>
        cases k with
        | plain => exact ⟨h1, rfl⟩
        | linear => exact ⟨drop_congr (record_congr c _ h1), rfl⟩
        | shared => exact offShared_congr c t h1
      | ok => exact ⟨h1, rfl⟩
      | raised => exact ⟨h1, rfl⟩
      | all d f => exact ⟨h1, rfl⟩
    · exact ⟨h, rfl⟩

/-! ## Two deactivations can be exchanged -/

theorem deactivate_ok_sbt {c : Cfg} {s s1 : St} {m t : Nat} (h : deactivate c s m t = (s1, .ok)) : s1.sbt = upd s.sbt t ((s.sbt t).filter (· ≠ m)) := by
  by_cases hk : c.kind m = none ∨ t ∉ s.tbs m
  · rw [deactivate_refused c s m t hk] at h; cases h
  · rw [not_or, not_not] at hk
    have := (deactivate_locks c s m t hk.1 hk.2).sbt
    rw [h] at this
    exact this

theorem st_ext {a b : St} (h1 : a.now = b.now) (h2 : ∀ n, Same n a b) (h3 : a.sbt = b.sbt) : a = b := by
  obtain ⟨n1, v1, a1, t1, s1, i1⟩ := a
  obtain ⟨n2, v2, a2, t2, s2, i2⟩ := b
  simp only at h1 h3
  have e1 : v1 = v2 := funext fun n => (h2 n).value.symm
  have e2 : a1 = a2 := funext fun n => (h2 n).active.symm
  have e3 : t1 = t2 := funext fun n => (h2 n).tbs.symm
  have e4 : i1 = i2 := funext fun n => (h2 n).hist.symm
  subst h1 h3 e1 e2 e3 e4
  rfl

theorem Same.symm {n : Nat} {s s' : St} (h : Same n s s') : Same n s' s := ⟨h.now.symm, h.value.symm, h.active.symm, h.tbs.symm, h.hist.symm⟩

theorem exchange {c : Cfg} {s s1 s2 : St} {a b t : Nat} (hab : a ≠ b) (ha : deactivate c s a t = (s1, .ok)) (hb : deactivate c s1 b t = (s2, .ok)) :
    ∃ s1', deactivate c s b t = (s1', .ok) ∧ deactivate c s1' a t = (s2, .ok) := by
  have e1 : ∀ n, n ≠ a → Same n s s1 := fun n hn => by have := deactivate_same c s t hn; rwa [ha] at this
  have e2 : ∀ n, n ≠ b → Same n s1 s2 := fun n hn => by have := deactivate_same c s1 t hn; rwa [hb] at this
  obtain ⟨g1, g2⟩ := deactivate_congr c t (e1 b hab.symm)
  rw [hb] at g1 g2
  rcases h1 : deactivate c s b t with ⟨s1', o⟩
  rw [h1] at g1 g2
  have ho : o = .ok := g2.symm
  subst ho
  have e3 : ∀ n, n ≠ b → Same n s s1' := fun n hn => by have := deactivate_same c s t hn; rwa [h1] at this
  obtain ⟨k1, k2⟩ := deactivate_congr c t (e3 a hab)
  rw [ha] at k1 k2
  rcases h2 : deactivate c s1' a t with ⟨s2', o⟩
  rw [h2] at k1 k2
  have ho : o = .ok := k2
  subst ho
  have e4 : ∀ n, n ≠ a → Same n s1' s2' := fun n hn => by have := deactivate_same c s1' t hn; rwa [h2] at this
  have hs : ∀ n, Same n s2' s2 := by
    intro n
    by_cases hna : n = a
    · subst hna; exact (Same.symm k1).trans (e2 n hab)
    · by_cases hnb : n = b
      · subst hnb; exact (Same.symm (e4 n hna)).trans g1
      · exact ((Same.symm (e4 n hna)).trans (Same.symm (e3 n hnb))).trans ((e1 n hna).trans (e2 n hnb))
  have : s2' = s2 := by
    refine st_ext (hs 0).now.symm hs ?_
    rw [deactivate_ok_sbt h2, deactivate_ok_sbt h1, deactivate_ok_sbt hb, deactivate_ok_sbt ha]
    funext u
    simp only [upd]
    split
    · simp only [if_true, List.filter_filter]
      exact List.filter_congr fun x _ => by rw [Bool.and_comm]
    · rfl
  subst this
  exact ⟨s1', rfl, h2⟩

theorem list_ok {c : Cfg} {t : Nat} {l l' : List Nat} (hp : l.Perm l') : ∀ (s s' : St) (done done' d : List Nat), deactivateList c s t done l = (s', .all d false) →
    ∃ d', deactivateList c s t done' l' = (s', .all d' false) := by
  induction hp with
  | nil => intro s s' done done' d h; simp only [deactivateList] at h; cases h; exact ⟨done', rfl⟩
  | cons x _ ih =>
    intro s s' done done' d h
    simp only [deactivateList] at h ⊢
    rcases hd : deactivate c s x t with ⟨s1, o⟩
    rw [hd] at h
    cases o with
    | ok => exact ih _ _ _ _ _ h
    | val v => simp at h
    | raised => simp at h
    | all a b => simp at h
  | swap x y l =>
    intro s s' done done' d h
    by_cases hxy : x = y
    · subst hxy
      have hdone : ∀ (l : List Nat) (s : St) (done done' d : List Nat), deactivateList c s t done l = (s', .all d false) →
          ∃ d', deactivateList c s t done' l = (s', .all d' false) := by
        intro l
        induction l with
        | nil => intro s done done' d h; simp only [deactivateList] at h; cases h; exact ⟨done', rfl⟩
        | cons z l ih =>
          intro s done done' d h
          simp only [deactivateList] at h ⊢
          rcases hd : deactivate c s z t with ⟨s1, o⟩
          rw [hd] at h
          cases o with
          | ok => exact ih _ _ _ _ h
          | val v => simp at h
          | raised => simp at h
          | all a b => simp at h
      exact hdone _ _ _ _ _ h
    · simp only [deactivateList] at h ⊢
      rcases hd : deactivate c s y t with ⟨s1, o⟩
      rw [hd] at h
      cases o with
      | ok =>
        dsimp only at h
        rcases hd2 : deactivate c s1 x t with ⟨s2, o⟩
        rw [hd2] at h
        cases o with
        | ok =>
          obtain ⟨s1', g1, g2⟩ := exchange (Ne.symm hxy) hd hd2
          rw [g1]
          dsimp only
          rw [g2]
          dsimp only at h ⊢
          have hdone : ∀ (l : List Nat) (s : St) (done done' d : List Nat), deactivateList c s t done l = (s', .all d false) →
              ∃ d', deactivateList c s t done' l = (s', .all d' false) := by
            intro l
            induction l with
            | nil => intro s done done' d h; simp only [deactivateList] at h; cases h; exact ⟨done', rfl⟩
            | cons z l ih =>
              intro s done done' d h
              simp only [deactivateList] at h ⊢
              rcases hd : deactivate c s z t with ⟨s1, o⟩
              rw [hd] at h
              cases o with
              | ok => exact ih _ _ _ _ h
              | val v => simp at h
              | raised => simp at h
              | all a b => simp at h
          exact hdone _ _ _ _ _ h
        | val v => simp at h
        | raised => simp at h
        | all a b => simp at h
      | val v => simp at h
      | raised => simp at h
      | all a b => simp at h
  | trans _ _ ih1 ih2 =>
    intro s s' done done' d h
    obtain ⟨d1, h1⟩ := ih1 s s' done done d h
    exact ih2 s s' done done' d1 h1

/-! ## The theorems -/

/-- **C80, ending the active states of a task.** If all of them can be ended when gone through in one order, they can in any other, and the actor, with its values,
locks and histories, is the same. -/
theorem c80_deactivate_all (c : Cfg) (s : St) (t : Nat) (ord ord' : List Nat) (d : List Nat) (h : (step c s (.deactivateAll t ord)).2 = .all d false) :
    (step c s (.deactivateAll t ord')).1 = (step c s (.deactivateAll t ord)).1 ∧ ∃ d', (step c s (.deactivateAll t ord')).2 = .all d' false := by
  have hp : ∀ o : List Nat, (if o.isPerm (s.sbt t) then o else s.sbt t).Perm (s.sbt t) := fun o => by
    split
    · rename_i h; exact List.isPerm_iff.1 h
    · exact List.Perm.refl _
  obtain ⟨d', h'⟩ := list_ok (c := c) (t := t) ((hp ord).trans (hp ord').symm) s (step c s (.deactivateAll t ord)).1 [] [] d (Prod.ext rfl h)
  have : step c s (.deactivateAll t ord') = ((step c s (.deactivateAll t ord)).1, .all d' false) := h'
  rw [this]
  exact ⟨rfl, d', rfl⟩

/-- The same calls, in which the sets are gone through in other orders. -/
inductive Alike : Op → Op → Prop
  | same (o : Op) : Alike o o
  | all (t : Nat) (ord ord' : List Nat) : Alike (.deactivateAll t ord) (.deactivateAll t ord')

/-- **C80, histories of one actor.** Two histories with the same calls, in which states with values are activated with a rate, lead to the same actor, whatever the
orders in which the sets are gone through. -/
theorem c80_actor (c : Cfg) (t0 : Rat) (v : Nat → Option Rat) (ops ops' : List Op) (hw : wfRun c (init c t0 v) ops = true) (h : List.Forall₂ Alike ops ops') :
    (run c (init c t0 v) ops').1 = (run c (init c t0 v) ops).1 := by
  have key : ∀ (post : List Op) (pre post' : List Op), wfRun c (init c t0 v) (pre ++ post) = true → List.Forall₂ Alike post post' →
      (run c (run c (init c t0 v) pre).1 post').1 = (run c (run c (init c t0 v) pre).1 post).1 := by
    intro post
    induction post with
    | nil => intro pre post' _ h; cases h; rfl
    | cons o post ih =>
      intro pre post' hw h
      cases h with
      | cons ho hrest =>
        rename_i o' post'
        have hwf : ∀ (a b : List Op) (s : St), wfRun c s (a ++ b) = true → wfRun c s a = true := by
          intro a
          induction a with
          | nil => intro b s _; rfl
          | cons x a ih =>
            intro b s h
            simp only [List.cons_append, wfRun, Bool.and_eq_true] at h ⊢
            exact ⟨h.1, ih b _ h.2⟩
        have e : (step c (run c (init c t0 v) pre).1 o').1 = (step c (run c (init c t0 v) pre).1 o).1 := by
          cases ho with
          | same => rfl
          | all t ord ord' =>
            obtain ⟨d, hd, -⟩ := c10_deactivate_all c t0 v pre t ord (hwf pre _ _ hw)
            exact (c80_deactivate_all c _ t ord ord' d hd).1
        have := ih (pre ++ [o]) post' (by rwa [List.append_assoc, List.singleton_append]) hrest
        rw [run_append] at this
        simp only [run] at this ⊢
        rw [e]
        exact this
  exact key ops [] ops' hw h

/-- Task 5 drives states 0 and 1; they are ended in either order. -/
example : (run demoCfg (init demoCfg 0 demoV) [.activate 0 5 (some 1), .activate 1 5 (some 2), .advance 3, .deactivateAll 5 [1, 0]]).1 =
    (run demoCfg (init demoCfg 0 demoV) [.activate 0 5 (some 1), .activate 1 5 (some 2), .advance 3, .deactivateAll 5 [0, 1]]).1 :=
  c80_actor demoCfg 0 demoV _ _ (by decide +kernel) (.cons (.same _) (.cons (.same _) (.cons (.same _) (.cons (.all 5 [0, 1] [1, 0]) .nil))))

/-- **C80 is false when one of them cannot be ended**: the loop stops there, and which of the others are still active depends on the order. -/
theorem c80_one_fails : ∃ (c : Cfg) (s : St) (ord ord' : List Nat), (∃ ops, s = (run c (init c 0 fun _ => some 0) ops).1) ∧ ord.Perm ord' ∧ ord.Perm (s.sbt 5) ∧
    (step c (step c s (.deactivateAll 5 ord)).1 (.activate 0 6 (some 1))).2 = .ok ∧ (step c (step c s (.deactivateAll 5 ord')).1 (.activate 0 6 (some 1))).2 = .raised := by
  refine ⟨{ demoCfg with kind := fun _ => some .linear }, _, [0, 1], [1, 0], ⟨[.activate 0 5 (some 1), .activate 1 5 none], rfl⟩, ?_, ?_, ?_, ?_⟩ <;> decide +kernel

end Verif.Orders
