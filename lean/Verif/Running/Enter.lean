import Verif.Running.Inv

/-! # The invariant when a loop goes on -/

namespace Verif.Running

open Spec
open Verif.Network (Net Kind)

theorem setQ_nets (q : Network.St) (n : String) (l : List String) : (Network.setQ q n l).1.nets = q.nets := by
  unfold Network.setQ
  split
  · rfl
  · split <;> rfl

theorem beginNext_nets (q : Network.St) (n t : String) : (Network.beginNext q n t).1.nets = q.nets := by
  unfold Network.beginNext
  split
  · split <;> rfl
  · have := setQ_nets q n [t]
    split
    · rename_i hs
      rw [hs] at this
      split
      · exact this
      · exact this
    · rename_i hs
      rw [hs] at this
      exact this

/-- The three ends of `enter`. -/
theorem enter_cases (s : St) (l : Nat) (t : String) :
    (enter s l t).1.crashed = true ∨
    (∃ q, q.nets = s.q.nets ∧
      enter s l t = ({ s with curName := upd s.curName (s.loop l).obj (some t), q := q, nInst := s.nInst + 1,
                              inst := upd s.inst s.nInst ⟨none, none, .end_⟩,
                              loop := upd s.loop l ⟨(s.loop l).net, (s.loop l).obj, .decides t⟩, active := .decision l },
        .decides (s.loop l).obj t s.nInst)) ∨
    (∃ q k, q.nets = s.q.nets ∧
      enter s l t = ({ s with curName := upd s.curName (s.loop l).obj (some t), q := q, nInst := s.nInst + 1,
                              inst := upd s.inst s.nInst ⟨none, none, .end_⟩,
                              nProc := s.nProc + 1, proc := upd s.proc s.nProc ⟨(s.loop l).net, (s.loop l).obj, t, k, s.nInst⟩,
                              phase := upd s.phase s.nProc .fresh, curProc := upd s.curProc (s.loop l).obj (some s.nProc),
                              urgent := s.urgent ++ [.startTask s.nProc],
                              loop := upd s.loop l ⟨(s.loop l).net, (s.loop l).obj, .waits s.nProc t⟩, active := .idle },
        .began (s.loop l).obj s.nProc t k s.nInst)) := by
  have hn := beginNext_nets s.q (s.loop l).net t
  unfold enter
  simp only
  split
  · rename_i q hq
    rw [hq] at hn
    split
    · exact .inl rfl
    · rename_i k hk
      by_cases hsk : k = .skip
      · rw [if_pos hsk]
        exact .inr (.inl ⟨q, hn, rfl⟩)
      · rw [if_neg hsk]
        exact .inr (.inr ⟨q, k, hn, rfl⟩)
  · exact .inl rfl

theorem upd_same {α : Type} (f : Nat → α) (i : Nat) (x : α) : upd f i x i = x := by simp [upd]

theorem upd_ne {α : Type} (f : Nat → α) {i j : Nat} (x : α) (h : j ≠ i) : upd f i x j = f j := by simp [upd, h]

theorem ordered_congr {f g : Nat → Phase} {u : List Urgent} (h : ∀ p, f p = .fresh ↔ g p = .fresh) :
    Ordered f u → Ordered g u := by
  induction u generalizing f g with
  | nil => exact id
  | cons x u ih =>
    cases x with
    | startLoop l => exact ih h
    | startTask p =>
      refine ih (fun q => ?_)
      by_cases hq : q = p
      · subst hq; simp [upd]
      · rw [upd_ne _ _ hq, upd_ne _ _ hq]; exact h q
    | interrupt p k c =>
      rintro ⟨h1, h2⟩
      exact ⟨fun x => h1 ((h p).2 x), ih h h2⟩

/-- Processes that do not occur do not matter. -/
theorem ordered_upd {f : Nat → Phase} {u : List Urgent} {p : Nat} (x : Phase) (h : ∀ k c, .interrupt p k c ∉ u)
    (ho : Ordered f u) : Ordered (upd f p x) u := by
  induction u generalizing f with
  | nil => trivial
  | cons y u ih =>
    cases y with
    | startLoop l => exact ih (fun k c hm => h k c (List.mem_cons_of_mem _ hm)) ho
    | startTask q =>
      by_cases hq : q = p
      · subst hq
        have : upd (upd f q x) q .live = upd f q .live := by
          funext i; by_cases hi : i = q <;> simp [upd, hi]
        show Ordered (upd (upd f q x) q .live) u
        rw [this]; exact ho
      · have : upd (upd f p x) q .live = upd (upd f q .live) p x := by
          funext i
          by_cases hi : i = q
          · subst hi; simp [upd, hq]
          · simp [upd, hi]
        show Ordered (upd (upd f p x) q .live) u
        rw [this]
        exact ih (fun k c hm => h k c (List.mem_cons_of_mem _ hm)) ho
    | interrupt q k c =>
      have hqp : q ≠ p := fun e => h k c (e ▸ List.mem_cons_self)
      exact ⟨by rw [upd_ne _ _ hqp]; exact ho.1, ih (fun k c hm => h k c (List.mem_cons_of_mem _ hm)) ho.2⟩

theorem ordered_append_other {f : Nat → Phase} {u : List Urgent} {x : Urgent} (hx : ∀ p k c, x ≠ .interrupt p k c)
    (ho : Ordered f u) : Ordered f (u ++ [x]) := by
  induction u generalizing f with
  | nil =>
    cases x with
    | startLoop l => trivial
    | startTask p => trivial
    | interrupt p k c => exact absurd rfl (hx p k c)
  | cons y u ih =>
    cases y with
    | startLoop l => exact ih ho
    | startTask p => exact ih ho
    | interrupt p k c => exact ⟨ho.1, ih ho.2⟩

theorem ordered_append_int {f : Nat → Phase} {u : List Urgent} {p k c : Nat} (hx : f p = .fresh → .startTask p ∈ u)
    (ho : Ordered f u) : Ordered f (u ++ [.interrupt p k c]) := by
  induction u generalizing f with
  | nil => exact ⟨fun h => by simpa using hx h, trivial⟩
  | cons y u ih =>
    cases y with
    | startLoop l => exact ih (fun h => by simpa using hx h) ho
    | startTask q =>
      refine ih (fun h => ?_) ho
      by_cases hq : p = q
      · subst hq; simp [upd] at h
      · rw [upd_ne _ _ hq] at h
        have := hx h
        simp only [List.mem_cons, Urgent.startTask.injEq] at this
        exact this.resolve_left hq
    | interrupt q k' c' => exact ⟨ho.1, ih (fun h => by simpa using hx h) ho.2⟩

theorem count_upd (n : Nat) (f : Nat → Loop) (l : Nat) (a : String) (x : LoopAt) (o : Nat) :
    ((List.range n).filter fun l' => decide ((upd f l ⟨a, (f l).obj, x⟩ l').obj = o)) = ((List.range n).filter fun l' => decide ((f l').obj = o)) := by
  congr 1
  funext l'
  by_cases h : l' = l
  · subst h; simp [upd]
  · simp [upd, h]

theorem loop_obj_upd (f : Nat → Loop) (l l' : Nat) (a : String) (x : LoopAt) : (upd f l ⟨a, (f l).obj, x⟩ l').obj = (f l').obj := by
  by_cases h : l' = l
  · subst h; simp [upd]
  · simp [upd, h]

/-- The invariant after the loop went on. -/
theorem inv_enter {s : St} {l : Nat} {tr : Trace} (h : Pre s l tr) (t : String) {op : Op} (hop : ∀ c, op ≠ .call c) :
    (enter s l t).1.crashed = true ∨ Inv (enter s l t).1 ((s.now, op, (enter s l t).2) :: tr) := by
  rcases enter_cases s l t with hc | ⟨q, hn, he⟩ | ⟨q, k, hn, he⟩
  · exact .inl hc
  · refine .inr ?_
    rw [he]
    have hwho : Spec.who ((s.now, op, .decides (s.loop l).obj t s.nInst) :: tr) = .decision (s.loop l).obj t :=
      who_op hop _ _ _ (by simp)
    have hdec : ∀ o, deciding ((s.now, op, .decides (s.loop l).obj t s.nInst) :: tr) o = if (s.loop l).obj = o then some t else none := by
      intro o; unfold deciding; rw [hwho]
    refine ⟨⟨?_, ?_, ?_, ?_, ?_, ?_, ?_, ?_, ?_, ?_, ?_, ?_, ?_, ?_, ?_, ?_, ?_, ?_, ?_, ?_, ?_, ?_, ?_, ?_, ?_, ?_⟩, ?_, ?_, ?_, ?_, ?_, ?_, ?_, ?_⟩
    · intro n
      rw [bound_op hop, h.bound n]
      simp only [hn]
    · intro n hh
      simp only [hn] at hh
      exact h.objLt n hh
    · exact h.curProc
    · exact h.begunLt
    · intro l' hl'
      simp only
      rw [loop_obj_upd]
      exact h.loopLt l' hl'
    · intro l' hl' p t' hp
      by_cases e : l' = l
      · subst e; simp [upd] at hp
      · simp only [upd_ne _ _ e] at hp
        exact h.waits l' hl' p t' hp
    · intro p
      rw [finished_cons]
      simpa using h.fin p
    · exact h.made
    · intro p hp
      exact Nat.lt_succ_of_lt (h.instLt p hp)
    · exact h.closing
    · exact h.noClosing
    · exact h.arrivals
    · exact h.nInt
    · exact h.intLt
    · exact h.startLt
    · exact h.loopIn
    · exact h.freshIn
    · exact h.startsNd
    · exact h.ordered
    · intro i hi
      rw [mark_decides hop]
      by_cases e : i = s.nInst
      · subst e; simp [upd]
      · simp only [upd_ne _ _ e]
        rw [if_neg (fun x => e x.symm)]
        exact h.marks i (by simp only at hi; omega)
    · intro i hi
      simp only [Spec.insts, List.mem_cons] at hi
      rcases hi with rfl | hi
      · exact Nat.lt_succ_self _
      · exact Nat.lt_succ_of_lt (h.insts i hi)
    · simp only [Spec.insts, List.nodup_cons]
      exact ⟨fun hm => Nat.lt_irrefl _ (h.insts _ hm), h.instsNd⟩
    · exact h.procs
    · exact h.procsNd
    · intro o p hb
      rw [begun_cons] at hb
      exact h.begunAt o p (hb.resolve_left (by simp))
    · intro o
      simp only
      rw [count_upd]
      exact h.count o
    · rw [hwho]; simp [whoOf, upd]
    · intro p hp; simp [Active.proc] at hp
    · intro p hp; simp at hp
    · intro l' hl'
      simp only [Active.decision.injEq] at hl'
      subst hl'
      exact ⟨h.lt, t, by simp [upd]⟩
    · intro l' hl' t' ht'
      by_cases e : l' = l
      · rw [e]
      · simp only [upd_ne _ _ e] at ht'
        exact absurd (h.dec l' hl' t' ht') e
    · intro o t' p hb
      rw [hdec]
      by_cases e : (s.loop l).obj = o
      · rw [if_pos e]
        simp [upd, e]
      · rw [if_neg e]
        simp only [upd_ne _ _ (fun x => e x.symm)]
        exact h.curName o t' p (fun x => e x.symm) hb
    · intro o t' p hb hd
      rw [hdec] at hd
      by_cases e : (s.loop l).obj = o
      · rw [if_pos e] at hd; exact absurd hd (by simp)
      · obtain ⟨l', h1, h2, h3⟩ := h.holder o t' p (fun x => e x.symm) hb
        have hl : l' ≠ l := fun x => e (x ▸ h2)
        exact ⟨l', h1, by simp only [upd_ne _ _ hl]; exact h2, by simp only [upd_ne _ _ hl]; exact h3⟩
    · intro o p hb
      rw [begun_cons] at hb
      rcases h.own o p (hb.resolve_left (by simp)) with x | ⟨l', t', h1, hl, h2, h3⟩
      · exact .inl x
      · exact .inr ⟨l', t', h1, by simp only [upd_ne _ _ hl]; exact h2, by simp only [upd_ne _ _ hl]; exact h3⟩
  · refine .inr ?_
    rw [he]
    have hwho : Spec.who ((s.now, op, .began (s.loop l).obj s.nProc t k s.nInst) :: tr) = .nobody :=
      who_op hop _ _ _ (by simp)
    have hdec : ∀ o, deciding ((s.now, op, .began (s.loop l).obj s.nProc t k s.nInst) :: tr) o = none := by
      intro o; unfold deciding; rw [hwho]
    have hnew : ∀ u ∈ s.urgent, u ≠ .startTask s.nProc := by
      rintro u hu rfl
      exact Nat.lt_irrefl _ (h.startLt _ hu).1
    refine ⟨⟨?_, ?_, ?_, ?_, ?_, ?_, ?_, ?_, ?_, ?_, ?_, ?_, ?_, ?_, ?_, ?_, ?_, ?_, ?_, ?_, ?_, ?_, ?_, ?_, ?_, ?_⟩, ?_, ?_, ?_, ?_, ?_, ?_, ?_, ?_⟩
    · intro n
      rw [bound_op hop, h.bound n]
      simp only [hn]
    · intro n hh
      simp only [hn] at hh
      exact h.objLt n hh
    · intro o ho
      simp only [lastBegun]
      by_cases e : (s.loop l).obj = o
      · rw [if_pos e, ← e]; simp [upd]
      · rw [if_neg e]
        simp only [upd_ne _ _ (fun x => e x.symm)]
        exact h.curProc o ho
    · intro o t' p hb
      simp only [lastBegun] at hb
      by_cases e : (s.loop l).obj = o
      · rw [if_pos e] at hb
        simp only [Option.some.injEq, Prod.mk.injEq] at hb
        exact ⟨e ▸ h.loopLt l h.lt, hb.2 ▸ Nat.lt_succ_self _⟩
      · rw [if_neg e] at hb
        exact ⟨(h.begunLt o t' p hb).1, Nat.lt_succ_of_lt (h.begunLt o t' p hb).2⟩
    · intro l' hl'
      simp only
      rw [loop_obj_upd]
      exact h.loopLt l' hl'
    · intro l' hl' p t' hp
      by_cases e : l' = l
      · subst e
        simp only [upd_same, LoopAt.waits.injEq] at hp
        exact hp.1 ▸ Nat.lt_succ_self _
      · simp only [upd_ne _ _ e] at hp
        exact Nat.lt_succ_of_lt (h.waits l' hl' p t' hp)
    · intro p
      rw [finished_cons]
      simp only [reduceCtorEq, false_or]
      rw [h.fin p]
      by_cases e : p = s.nProc
      · subst e; simp [upd]
      · simp only [upd_ne _ _ e]
        constructor
        · rintro ⟨a, b⟩; exact ⟨Nat.lt_succ_of_lt a, b⟩
        · rintro ⟨a, b⟩; exact ⟨by omega, b⟩
    · intro p hp
      simp only [Spec.made]
      by_cases e : p = s.nProc
      · subst e; simp [upd]
      · rw [if_neg (fun x => e x.symm)]
        simp only [upd_ne _ _ e]
        exact h.made p (by simp only at hp; omega)
    · intro p hp
      by_cases e : p = s.nProc
      · subst e; simp [upd]
      · simp only [upd_ne _ _ e]
        exact Nat.lt_succ_of_lt (h.instLt p (by simp only at hp; omega))
    · intro p hp
      simp only [Spec.closing]
      by_cases e : p = s.nProc
      · subst e
        simp only [upd_same]
        rw [h.noClosing _ (Nat.le_refl _)]
        rfl
      · simp only [upd_ne _ _ e]
        exact h.closing p (by simp only at hp; omega)
    · intro p hp
      simp only at hp
      exact h.noClosing p (by omega)
    · simp only [Spec.issued, Spec.arrived, pend_append, pend, List.append_nil]
      exact h.arrivals
    · exact h.nInt
    · intro p k' c hm
      simp only [List.mem_append, List.mem_singleton, reduceCtorEq, or_false] at hm
      exact Nat.lt_succ_of_lt (h.intLt p k' c hm)
    · intro p hm
      simp only [List.mem_append, List.mem_singleton, Urgent.startTask.injEq] at hm
      rcases hm with hm | rfl
      · have := h.startLt p hm
        have e : p ≠ s.nProc := by have := this.1; omega
        exact ⟨Nat.lt_succ_of_lt this.1, by simp only [upd_ne _ _ e]; exact this.2⟩
      · exact ⟨Nat.lt_succ_self _, by simp [upd]⟩
    · intro l' hm
      simp only [List.mem_append, List.mem_singleton, reduceCtorEq, or_false] at hm
      exact h.loopIn l' hm
    · intro p hp hf
      simp only [List.mem_append, List.mem_singleton, Urgent.startTask.injEq]
      by_cases e : p = s.nProc
      · exact .inr e
      · simp only [upd_ne _ _ e] at hf
        exact .inl (h.freshIn p (by simp only at hp; omega) hf)
    · simp only [starts_append, starts]
      rw [List.nodup_append]
      refine ⟨h.startsNd, by simp, fun a ha b hb => ?_⟩
      simp only [List.mem_singleton] at hb
      rintro rfl
      exact hnew _ (mem_starts.1 ha) (by rw [hb])
    · exact ordered_append_other (by simp) (ordered_upd _ (fun k' c hm => Nat.lt_irrefl _ (h.intLt _ k' c hm)) h.ordered)
    · intro i hi
      rw [mark_began hop]
      by_cases e : i = s.nInst
      · subst e; simp [upd]
      · simp only [upd_ne _ _ e]
        rw [if_neg (fun x => e x.symm)]
        exact h.marks i (by simp only at hi; omega)
    · intro i hi
      simp only [Spec.insts, List.mem_cons] at hi
      rcases hi with rfl | hi
      · exact Nat.lt_succ_self _
      · exact Nat.lt_succ_of_lt (h.insts i hi)
    · simp only [Spec.insts, List.nodup_cons]
      exact ⟨fun hm => Nat.lt_irrefl _ (h.insts _ hm), h.instsNd⟩
    · intro p
      simp only [Spec.procs, List.mem_cons, h.procs p]
      omega
    · simp only [Spec.procs, List.nodup_cons]
      exact ⟨fun hm => Nat.lt_irrefl _ ((h.procs _).1 hm), h.procsNd⟩
    · intro o p hb
      rw [begun_cons] at hb
      rcases hb with ⟨t', k', i, hb⟩ | hb
      · simp only [Out.began.injEq] at hb
        exact hb.2.1 ▸ Nat.lt_succ_self _
      · exact Nat.lt_succ_of_lt (h.begunAt o p hb)
    · intro o
      simp only
      rw [count_upd]
      exact h.count o
    · rw [hwho]; simp [whoOf]
    · intro p hp; simp [Active.proc] at hp
    · intro p hp; simp at hp
    · intro l' hl'; simp at hl'
    · intro l' hl' t' ht'
      by_cases e : l' = l
      · subst e; simp [upd] at ht'
      · simp only [upd_ne _ _ e] at ht'
        exact absurd (h.dec l' hl' t' ht') e
    · intro o t' p hb
      rw [hdec]
      simp only [lastBegun] at hb
      by_cases e : (s.loop l).obj = o
      · rw [if_pos e] at hb
        simp only [Option.some.injEq, Prod.mk.injEq] at hb
        simp [upd, e, hb.1]
      · rw [if_neg e] at hb
        simp only [upd_ne _ _ (fun x => e x.symm)]
        exact h.curName o t' p (fun x => e x.symm) hb
    · intro o t' p hb _
      simp only [lastBegun] at hb
      by_cases e : (s.loop l).obj = o
      · rw [if_pos e] at hb
        simp only [Option.some.injEq, Prod.mk.injEq] at hb
        obtain ⟨rfl, rfl⟩ := hb
        exact ⟨l, h.lt, by simp [upd, e], by simp [upd]⟩
      · rw [if_neg e] at hb
        obtain ⟨l', h1, h2, h3⟩ := h.holder o t' p (fun x => e x.symm) hb
        have hl : l' ≠ l := fun x => e (x ▸ h2)
        exact ⟨l', h1, by simp only [upd_ne _ _ hl]; exact h2, by simp only [upd_ne _ _ hl]; exact h3⟩
    · intro o p hb
      rw [begun_cons] at hb
      rcases hb with ⟨t', k', i, hb⟩ | hb
      · simp only [Out.began.injEq] at hb
        obtain ⟨rfl, rfl, rfl, rfl, rfl⟩ := hb
        exact .inr ⟨l, t, h.lt, by simp [upd], by simp [upd]⟩
      · have hp : p ≠ s.nProc := by have := h.begunAt o p hb; omega
        rcases h.own o p hb with x | ⟨l', t', h1, hl, h2, h3⟩
        · exact .inl (by simp only [upd_ne _ _ hp]; exact x)
        · exact .inr ⟨l', t', h1, by simp only [upd_ne _ _ hl]; exact h2, by simp only [upd_ne _ _ hl]; exact h3⟩

end Verif.Running
