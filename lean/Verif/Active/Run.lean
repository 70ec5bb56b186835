import Verif.Active.Inv

/-!
# Histories: every step keeps the data in agreement with the trace
-/

namespace Verif.Active

/-- Decidable version of `Fresh`. -/
def freshB (c : Cfg) (s : St) (n : Nat) : Bool :=
  match s.active n with
  | none => true
  | some d => match c.kind n with
    | some .shared => decide (d.last = some s.now)
    | _ => decide (d.started = s.now)

theorem freshB_iff (c : Cfg) (s : St) (n : Nat) : freshB c s n = true ↔ Fresh c n s := by
  unfold freshB Fresh
  cases hd : s.active n with
  | none => simp
  | some d =>
    simp only [Option.some.injEq, forall_eq']
    cases c.kind n with
    | none => simp
    | some k => cases k <;> simp

/-- Calls that concern state `n` are well formed: activations give a rate, and assignments to an active
state come right after a read at the same time. -/
def okOp (c : Cfg) (n : Nat) (s : St) : Op → Bool
  | .activate m _ none => decide (m ≠ n)
  | .assign m _ => decide (m ≠ n) || freshB c s n
  | _ => true

/-- All calls of a history are well formed in this sense. -/
def okRun (c : Cfg) (n : Nat) (s : St) : List Op → Bool
  | [] => true
  | op :: ops => okOp c n s op && okRun c n (step c s op).1 ops

/-- History of a recording state (no assignments): recorded values are true, between them the quantity is the
straight line, and nothing happened since the last of them. -/
structure HInv (n : Nat) (v0 t0 : Rat) (evs : List (Rat × SEv)) (s : St) : Prop where
  head : (values (s.hist n)).head? = some (t0, v0)
  seg : (values (s.hist n)).IsChain (Segment (fun x => v0 + accrued evs x))
  true_ : ∀ e ∈ values (s.hist n), e.2 = v0 + accrued evs e.1 ∧ e.1 ≤ s.now ∧ t0 ≤ e.1
  last : ∃ e, (values (s.hist n)).getLast? = some e ∧ ∀ ev ∈ evs, ev.1 ≤ e.1

/-- The invariant of one state over a history. -/
structure Full (c : Cfg) (n : Nat) (v0 t0 : Rat) (evs : List (Rat × SEv)) (s : St) : Prop where
  good : Good c n (simulate v0 t0 evs) s
  order : InOrder t0 evs s.now
  hist : c.recording n = true → NoSet evs → HInv n v0 t0 evs s

theorem inOrder_append {a b : Rat} {evs : List (Rat × SEv)} (h : InOrder a evs b) (e : SEv) :
    InOrder a (evs ++ [(b, e)]) b := by
  induction evs generalizing a with
  | nil => exact ⟨h, le_refl _⟩
  | cons x evs ih => exact ⟨h.1, ih h.2⟩

theorem inOrder_mono {a b b' : Rat} {evs : List (Rat × SEv)} (h : InOrder a evs b) (hb : b ≤ b') :
    InOrder a evs b' := by
  induction evs generalizing a with
  | nil => exact le_trans h hb
  | cons x evs ih => exact ⟨h.1, ih h.2⟩

theorem inOrder_until {a b x : Rat} {evs : List (Rat × SEv)} (h : InOrder a evs b) (hx : a ≤ x)
    (he : ∀ ev ∈ evs, ev.1 ≤ x) : InOrder a evs x := by
  induction evs generalizing a with
  | nil => exact hx
  | cons y evs ih =>
    exact ⟨h.1, ih h.2 (he y (by simp)) (fun ev hev => he ev (List.mem_cons_of_mem _ hev))⟩

theorem chain_const {R : Rat × Rat → Rat × Rat → Prop} {p : Rat × Rat} (hp : R p p) {l : List (Rat × Rat)}
    (h : ∀ e ∈ l, e = p) : l.IsChain R := by
  induction l with
  | nil => exact List.IsChain.nil
  | cons a l ih =>
    cases l with
    | nil => exact List.IsChain.singleton _
    | cons b l =>
      rw [List.isChain_cons_cons]
      refine ⟨?_, ih (fun e he => h e (List.mem_cons_of_mem _ he))⟩
      rw [h a (by simp), h b (by simp)]
      exact hp

theorem simulate_append (v0 t0 : Rat) (evs : List (Rat × SEv)) (e : Rat × SEv) :
    simulate v0 t0 (evs ++ [e]) = (simulate v0 t0 evs).ev e := by simp [simulate]

/-- Extending the history. -/
theorem HInv.extend {n : Nat} {v0 t0 : Rat} {evs : List (Rat × SEv)} {s s' : St} (h : HInv n v0 t0 evs s)
    (ho : InOrder t0 evs s.now) (hns : NoSet evs) (hn : s'.now = s.now)
    (hs : HistStep n s s' ((simulate v0 t0 evs).valueAt s.now)) : HInv n v0 t0 evs s' := by
  have hval := simulate_closed v0 t0 s.now evs ho hns
  rw [hval] at hs
  obtain ⟨ext, x1, x2⟩ := hs
  have hext : ∀ e ∈ values ext, e = (s.now, v0 + accrued evs s.now) := by
    intro e he
    rw [values_mem] at he
    obtain ⟨a, b⟩ := x2 _ he
    have := b _ rfl
    obtain ⟨e1, e2⟩ := e
    simp only at a this
    rw [a, this]
  obtain ⟨e0, l1, l2⟩ := h.last
  have he0 := h.true_ e0 (List.mem_of_getLast? l1)
  have hlin : ∀ t, e0.1 ≤ t → v0 + accrued evs t =
      e0.2 + ((simulate v0 t0 evs).rates.map (·.2)).sum * (t - e0.1) := by
    intro t ht
    have a := simulate_closed v0 t0 t evs
      (inOrder_until ho (le_trans he0.2.2 ht) (fun ev hev => le_trans (l2 ev hev) ht)) hns
    have b := simulate_closed v0 t0 e0.1 evs (inOrder_until ho he0.2.2 l2) hns
    rw [← a, he0.1, ← b]
    simp only [Sp.valueAt]; ring
  refine ⟨?_, ?_, ?_, ?_⟩
  · rw [x1, values_append, List.head?_append, h.head]; rfl
  · rw [x1, values_append, List.isChain_append]
    refine ⟨h.seg, chain_const ?_ hext, ?_⟩
    · refine ⟨le_refl _, ?_⟩
      intro t h1 h2
      have : t = s.now := le_antisymm h2 h1
      subst this; ring
    · intro y hy z hz
      have hy0 : y = e0 := by
        have hy' : (values (s.hist n)).getLast? = some y := hy
        rw [l1] at hy'; simpa using hy'.symm
      have hz' := hext z (List.mem_of_head? hz)
      subst hy0; subst hz'
      refine ⟨he0.2.1, ?_⟩
      intro t h1 h2
      simp only
      rw [hlin t h1, hlin s.now he0.2.1]
      ring
  · intro e he
    rw [x1, values_append, List.mem_append] at he
    rw [hn]
    rcases he with he | he
    · exact h.true_ e he
    · rw [hext e he]; exact ⟨rfl, le_refl _, inOrder_le ho⟩
  · rw [x1, values_append, List.getLast?_append]
    cases hl : (values ext).getLast? with
    | none => exact ⟨e0, by simp [l1], l2⟩
    | some e =>
      refine ⟨e, by simp, ?_⟩
      intro ev hev
      rw [hext e (List.mem_of_getLast? hl)]
      exact le_trans (l2 ev hev) he0.2.1

/-- Adding an event at the present time, once the present value is recorded. -/
theorem HInv.event {n : Nat} {v0 t0 : Rat} {evs : List (Rat × SEv)} {s : St} (h : HInv n v0 t0 evs s)
    (ho : InOrder t0 evs s.now) (e : SEv) {v : Rat} (hl : (values (s.hist n)).getLast? = some (s.now, v)) :
    HInv n v0 t0 (evs ++ [(s.now, e)]) s := by
  have hacc : ∀ x, x ≤ s.now → accrued (evs ++ [(s.now, e)]) x = accrued evs x := by
    intro x hx
    apply accrued_append
    intro ev hev
    simp at hev; subst hev; exact hx
  have hseg : ∀ a b : Rat × Rat, b.1 ≤ s.now → Segment (fun x => v0 + accrued evs x) a b →
      Segment (fun x => v0 + accrued (evs ++ [(s.now, e)]) x) a b := by
    intro a b hb hs
    refine ⟨hs.1, ?_⟩
    intro t h1 h2
    have := hs.2 t h1 h2
    simp only at this ⊢
    rw [hacc t (le_trans h2 hb)]; exact this
  refine ⟨h.head, ?_, ?_, ?_⟩
  · have key : ∀ l : List (Rat × Rat), (∀ e ∈ l, e.1 ≤ s.now) →
        l.IsChain (Segment (fun x => v0 + accrued evs x)) →
        l.IsChain (Segment (fun x => v0 + accrued (evs ++ [(s.now, e)]) x)) := by
      intro l
      induction l with
      | nil => intro _ _; exact List.IsChain.nil
      | cons a l ih =>
        cases l with
        | nil => intro _ _; exact List.IsChain.singleton _
        | cons b l =>
          intro hb hc
          rw [List.isChain_cons_cons] at hc ⊢
          exact ⟨hseg a b (hb b (by simp)) hc.1, ih (fun e he => hb e (List.mem_cons_of_mem _ he)) hc.2⟩
    exact key _ (fun e he => (h.true_ e he).2.1) h.seg
  · intro x hx
    obtain ⟨a, b, d⟩ := h.true_ x hx
    exact ⟨by rw [hacc x.1 b]; exact a, b, d⟩
  · refine ⟨_, hl, ?_⟩
    intro ev hev
    rcases List.mem_append.mp hev with hev | hev
    · have key : ∀ (evs : List (Rat × SEv)) (a : Rat), InOrder a evs s.now → ∀ ev ∈ evs, ev.1 ≤ s.now := by
        intro evs
        induction evs with
        | nil => intro a _ ev hev; simp at hev
        | cons y evs ih =>
          intro a ho ev hev
          rcases List.mem_cons.mp hev with rfl | hev
          · exact inOrder_le ho.2
          · exact ih _ ho.2 ev hev
      exact key evs t0 ho ev hev
    · simp at hev; subst hev; exact le_refl _

/-- A step of another state or of the clock. -/
theorem Full.other {c : Cfg} {n : Nat} {v0 t0 : Rat} {evs : List (Rat × SEv)} {s s' : St}
    (h : Full c n v0 t0 evs s) (hs : Same n s s') : Full c n v0 t0 evs s' := by
  refine ⟨⟨h.good.toView.congr hs.now hs.value hs.active, by rw [hs.tbs]; exact h.good.keys⟩,
    by rw [hs.now]; exact h.order, ?_⟩
  intro hr hns
  have hh := h.hist hr hns
  refine ⟨?_, ?_, ?_, ?_⟩
  · rw [hs.hist]; exact hh.head
  · rw [hs.hist]; exact hh.seg
  · rw [hs.hist, hs.now]; exact hh.true_
  · rw [hs.hist]; exact hh.last

theorem noSet_append {evs : List (Rat × SEv)} {e : Rat × SEv} (h : NoSet (evs ++ [e])) :
    NoSet evs ∧ ∀ x, e.2 ≠ .set x :=
  ⟨fun a ha => h a (List.mem_append_left _ ha), h e (by simp)⟩

/-- A rate switched on or off. -/
theorem Full.event {c : Cfg} {n : Nat} {v0 t0 : Rat} {evs : List (Rat × SEv)} {s s' : St}
    (h : Full c n v0 t0 evs s) (e : SEv) (hg : Good c n ((simulate v0 t0 evs).ev (s.now, e)) s')
    (hn : s'.now = s.now) (hs : HistStep n s s' ((simulate v0 t0 evs).valueAt s.now))
    (hl : LastVal c n s' ((simulate v0 t0 evs).valueAt s.now)) :
    Full c n v0 t0 (evs ++ [(s.now, e)]) s' := by
  refine ⟨by rw [simulate_append]; exact hg, by rw [hn]; exact inOrder_append h.order e, ?_⟩
  intro hr hns
  have hns' := (noSet_append hns).1
  have h1 := (h.hist hr hns').extend h.order hns' hn hs
  rw [← hn]
  exact h1.event (by rw [hn]; exact h.order) e (hl hr)

theorem kind_some {c : Cfg} {n : Nat} (h : c.kind n = some .linear ∨ c.kind n = some .shared) :
    ∃ k, c.kind n = some k := by
  rcases h with h | h <;> exact ⟨_, h⟩

theorem Full.activate {c : Cfg} {n : Nat} {v0 t0 : Rat} {evs : List (Rat × SEv)} {s : St}
    (h : Full c n v0 t0 evs s) (t : Nat) (r : Rat) :
    Full c n v0 t0 (evs ++ eventsOf n (s.now, .activate n t (some r), (activate c s n t (some r)).2))
      (activate c s n t (some r)).1 := by
  obtain ⟨k, hk⟩ := kind_some h.good.kind
  cases hr : lockRefused k s n t with
  | true =>
    rw [activate_refused c s n t (some r) (Or.inr ⟨k, hk, hr⟩)]
    simp only [eventsOf, List.append_nil]
    exact h
  | false =>
    obtain ⟨s', e1, e2, e3, e4⟩ := h.good.activate t r k hk hr
    have hlk := activate_locks c s n t (some r) k hk hr
    rw [e1] at hlk ⊢
    simp only [eventsOf, if_true]
    exact h.event _ e2 hlk.now e3 e4

theorem Full.deactivate {c : Cfg} {n : Nat} {v0 t0 : Rat} {evs : List (Rat × SEv)} {s : St}
    (h : Full c n v0 t0 evs s) (t : Nat) :
    (t ∈ s.tbs n ∧ ∃ s', deactivate c s n t = (s', .ok) ∧ s'.now = s.now ∧ t ∉ s'.tbs n ∧
      Full c n v0 t0 (evs ++ [(s.now, .off t)]) s') ∨
    (t ∉ s.tbs n ∧ deactivate c s n t = (s, .raised)) := by
  by_cases ht : t ∈ s.tbs n
  · left
    obtain ⟨k, hk⟩ := kind_some h.good.kind
    obtain ⟨s', e1, e2, e3, e4⟩ := h.good.deactivate t ht
    have hlk := deactivate_locks c s n t (by rw [hk]; simp) ht
    rw [e1] at hlk
    refine ⟨ht, s', e1, hlk.now, ?_, h.event _ e2 hlk.now e3 e4⟩
    rw [hlk.tbs]
    simp [Active.unlock, upd_self]
  · right
    exact ⟨ht, deactivate_refused c s n t (Or.inr ht)⟩

/-- The loop of `deactivate_all_states`. -/
theorem Full.deactivateList {c : Cfg} {n : Nat} {v0 t0 : Rat} (t : Nat) (l : List Nat) :
    ∀ {evs : List (Rat × SEv)} {s : St} (_ : Full c n v0 t0 evs s) (done : List Nat) (_ : n ∉ done)
      (_ : l.Nodup), ∃ done' f, (deactivateList c s t done l).2 = .all done' f ∧
      Full c n v0 t0 (evs ++ if n ∈ done' then [(s.now, .off t)] else []) (deactivateList c s t done l).1 ∧
      (deactivateList c s t done l).1.now = s.now := by
  induction l with
  | nil =>
    intro evs s h done hd _
    exact ⟨done, false, rfl, by rw [if_neg hd, List.append_nil]; exact h, rfl⟩
  | cons m l ih =>
    intro evs s h done hd hnd
    rw [List.nodup_cons] at hnd
    simp only [Active.deactivateList]
    by_cases hm : n = m
    · subst hm
      rcases h.deactivate t with ⟨ht, s', e1, e2, e3, e4⟩ | ⟨ht, e1⟩
      · rw [e1]
        simp only
        -- the rest of the list does not contain `n`
        have hrest : ∀ (l : List Nat) (s1 : St) (d : List Nat), n ∉ l → n ∈ d → ∃ d' f,
            (Active.deactivateList c s1 t d l).2 = .all d' f ∧ n ∈ d' := by
          intro l
          induction l with
          | nil => intro s1 d _ hd; exact ⟨d, false, rfl, hd⟩
          | cons x l ih =>
            intro s1 d hl hd
            simp only [List.mem_cons, not_or] at hl
            simp only [Active.deactivateList]
            split
            · exact ih _ _ hl.2 (List.mem_append_left _ hd)
            · exact ⟨d, true, rfl, hd⟩
        obtain ⟨d', f, a, b⟩ := hrest l s' (done ++ [n]) hnd.1 (by simp)
        have hsame := deactivateList_same c s' t n (done ++ [n]) l hnd.1
        exact ⟨d', f, a, by rw [if_pos b]; exact e4.other hsame, by rw [hsame.now]; exact e2⟩
      · rw [e1]
        exact ⟨done, true, rfl, by rw [if_neg hd, List.append_nil]; exact h, rfl⟩
    · have hsame := deactivate_same c s t hm
      split
      · rename_i s' heq
        rw [heq] at hsame
        have hd' : n ∉ done ++ [m] := by simp [hd, hm]
        obtain ⟨d', f, a, b, e⟩ := ih (h.other hsame) (done ++ [m]) hd' hnd.2
        rw [hsame.now] at b e
        exact ⟨d', f, a, b, e⟩
      · rename_i s' o hx heq
        rw [heq] at hsame
        exact ⟨done, true, rfl, by rw [if_neg hd, List.append_nil]; exact h.other hsame, hsame.now⟩

theorem Full.read {c : Cfg} {n : Nat} {v0 t0 : Rat} {evs : List (Rat × SEv)} {s : St}
    (h : Full c n v0 t0 evs s) : Full c n v0 t0 evs (read c s n).1 ∧
      (read c s n).2 = .val ((simulate v0 t0 evs).valueAt s.now) ∧ Fresh c n (read c s n).1 := by
  obtain ⟨s', r1, r2, r3, r4, r5, r6⟩ := h.good.toView.read
  have hlk := read_locks c s n
  rw [r1] at hlk ⊢
  refine ⟨⟨⟨r2, ?_⟩, ?_, ?_⟩, rfl, r3⟩
  · simp only at hlk ⊢
    rw [hlk.tbs]; exact h.good.keys
  · simp only at hlk ⊢
    rw [hlk.now]; exact h.order
  · intro hr hns
    exact (h.hist hr hns).extend h.order hns hlk.now r4

/-- One step. -/
theorem Full.step {c : Cfg} {n : Nat} {v0 t0 : Rat} {evs : List (Rat × SEv)} {s : St}
    (h : Full c n v0 t0 evs s) (hlk : Lk c s) (op : Op) (hok : okOp c n s op = true) :
    Full c n v0 t0 (evs ++ eventsOf n (s.now, op, (step c s op).2)) (step c s op).1 := by
  cases op with
  | read m =>
    simp only [Active.step, eventsOf, List.append_nil]
    by_cases hm : n = m
    · subst hm; exact h.read.1
    · exact h.other (read_same c s hm)
  | assign m x =>
    simp only [Active.step]
    by_cases hm : n = m
    · subst hm
      simp [okOp, freshB_iff] at hok
      obtain ⟨s', e1, e2, e3, e4⟩ := h.good.assign x hok
      have hn : s'.now = s.now := by
        have := setVal_locks c s n x
        unfold assign at e1
        rcases h.good.kind with hk | hk <;> rw [hk] at e1 <;> simp at e1 <;> rw [← e1] <;> exact this.now
      rw [e1]
      simp only [eventsOf, if_true]
      refine ⟨by rw [simulate_append]; exact e2, by rw [hn]; exact inOrder_append h.order _, ?_⟩
      intro _ hns
      exact absurd rfl ((noSet_append hns).2 x)
    · have hs : Same n s (assign c s m x).1 := by
        unfold assign
        split
        · exact Same.rfl'
        · exact setVal_same c s x hm
      have he : eventsOf n (s.now, .assign m x, (assign c s m x).2) = [] := by
        unfold assign
        split <;> simp [eventsOf, Ne.symm hm]
      rw [he, List.append_nil]
      exact h.other hs
  | activate m t r =>
    simp only [Active.step]
    by_cases hm : n = m
    · subst hm
      cases r with
      | none => simp [okOp] at hok
      | some r => exact h.activate t r
    · have he : eventsOf n (s.now, .activate m t r, (Active.activate c s m t r).2) = [] := by
        cases r with
        | none => simp [eventsOf]
        | some r =>
          cases (Active.activate c s m t (some r)).2 <;> simp [eventsOf, Ne.symm hm]
      rw [he, List.append_nil]
      exact h.other (activate_same c s t r hm)
  | deactivate m t =>
    simp only [Active.step]
    by_cases hm : n = m
    · subst hm
      rcases h.deactivate t with ⟨_, s', e1, _, _, e4⟩ | ⟨_, e1⟩
      · rw [e1]; simp only [eventsOf, if_true]; exact e4
      · rw [e1]; simp only [eventsOf, List.append_nil]; exact h
    · have he : eventsOf n (s.now, .deactivate m t, (Active.deactivate c s m t).2) = [] := by
        cases (Active.deactivate c s m t).2 <;> simp [eventsOf, Ne.symm hm]
      rw [he, List.append_nil]
      exact h.other (deactivate_same c s t hm)
  | deactivateAll t ord =>
    simp only [Active.step, deactivateAll]
    have hnd := ((allOrder_perm c s t ord).nodup_iff).mpr (hlk.ndS t)
    obtain ⟨d, f, a, b, _⟩ := h.deactivateList t _ [] (by simp) hnd
    rw [a]
    simp only [eventsOf]
    exact b
  | advance dt =>
    simp only [Active.step]
    split
    · rename_i hdt
      simp only [eventsOf, List.append_nil]
      have hle : s.now ≤ s.now + dt := by linarith
      refine ⟨⟨h.good.toView.later hle rfl rfl, h.good.keys⟩, inOrder_mono h.order hle, ?_⟩
      intro hr hns
      have hh := h.hist hr hns
      exact ⟨hh.head, hh.seg, fun e he => ⟨(hh.true_ e he).1, le_trans (hh.true_ e he).2.1 hle,
        (hh.true_ e he).2.2⟩, hh.last⟩
    · simp only [eventsOf, List.append_nil]; exact h

theorem Full.init (c : Cfg) (n : Nat) (v0 t0 : Rat) (v : Nat → Option Rat)
    (hk : c.kind n = some .linear ∨ c.kind n = some .shared) (hv : v n = some v0) :
    Full c n v0 t0 [] (init c t0 v) := by
  refine ⟨⟨⟨hk, le_refl _, v0, hv, rfl, rfl⟩, rfl⟩, le_refl _, ?_⟩
  intro hr _
  have hh : (Active.init c t0 v).hist n = [(t0, .val v0)] := by simp [Active.init, hv, hr]
  refine ⟨by rw [hh]; rfl, by rw [hh]; exact List.IsChain.singleton _, ?_, ?_⟩
  · rw [hh]
    intro e he
    simp [values] at he
    subst he
    exact ⟨by simp [accrued], le_refl _, le_refl _⟩
  · rw [hh]
    exact ⟨(t0, v0), rfl, by simp⟩

theorem events_append (n : Nat) (a b : Trace) : events n (a ++ b) = events n a ++ events n b := by
  simp [events]

/-- Whole histories. -/
theorem Full.run {c : Cfg} {n : Nat} {v0 t0 : Rat} (ops : List Op) :
    ∀ {evs : List (Rat × SEv)} {s : St} (_ : Full c n v0 t0 evs s) (_ : Lk c s)
      (_ : okRun c n s ops = true),
      Full c n v0 t0 (evs ++ events n (run c s ops).2) (run c s ops).1 := by
  induction ops with
  | nil => intro evs s h _ _; simpa [Active.run, events] using h
  | cons op ops ih =>
    intro evs s h hlk hok
    simp only [okRun, Bool.and_eq_true] at hok
    have h1 := h.step hlk op hok.1
    have h2 := ih h1 (hlk.step op) hok.2
    simp only [Active.run]
    have : events n ((s.now, op, (Active.step c s op).2) :: (Active.run c (Active.step c s op).1 ops).2) =
        eventsOf n (s.now, op, (Active.step c s op).2) ++
          events n (Active.run c (Active.step c s op).1 ops).2 := by simp [events]
    rw [this, ← List.append_assoc]
    exact h2

end Verif.Active
