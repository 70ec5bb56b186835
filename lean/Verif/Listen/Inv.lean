import Verif.Listen.Spec
import Mathlib.Data.List.Forall2
import Mathlib.Data.List.Perm.Basic
import Mathlib.Tactic.Linarith

/-! # Invariants of the listener model -/

namespace Verif.Listen

open Spec

theorem upd_same {α : Type} (f : Nat → α) (i : Nat) (x : α) : upd f i x i = x := by simp [upd]
theorem upd_ne {α : Type} (f : Nat → α) {i j : Nat} (x : α) (h : j ≠ i) : upd f i x j = f j := by simp [upd, h]

def gotOf : Ev → Option Item
  | .put _ => none
  | .got _ x => some x

def reqOf : Ev → Option Nat
  | .put _ => none
  | .got g _ => some g

theorem gotOf_put (p : Nat) : gotOf (.put p) = none := rfl
theorem gotOf_got (g : Nat) (x : Item) : gotOf (.got g x) = some x := rfl

/-- Messages accepted and not handed over, in order. -/
def flow (s : St) : List Item := s.evs.filterMap gotOf ++ s.items

/-- Requests not yet processed. -/
def reqs (s : St) : List Nat := s.getQ ++ s.evs.filterMap reqOf

def acc (E : List Eff) : List Item := E.filterMap accOf
def hand (E : List Eff) : List Eff := E.filterMap handOf

def nPuts (s : St) : Nat := (s.evs.filter (fun e => (gotOf e).isNone)).length
def nGots (s : St) : Nat := (s.evs.filter (fun e => (gotOf e).isSome)).length

/-- `E` is what happened so far; `G`: somebody else made a request. -/
structure Core (s : St) (E : List Eff) (G : Prop) : Prop where
  flow : ∃ A, acc E = A ++ flow s ∧ List.Forall₂ Fits (hand E) A
  ids : ((acc E).map (·.put) ++ s.putQ.map (·.1)).Nodup
  lt : ∀ p ∈ (acc E).map (·.put) ++ s.putQ.map (·.1), p < s.nPut
  past : ∀ x ∈ acc E, x.time ≤ s.now
  nd : (reqs s).Nodup
  rlt : ∀ g ∈ reqs s, g < s.nGet
  wait : ∀ i g, s.lst i = .waiting g → s.owner g = some i ∧ g ∈ reqs s
  own : ∀ g ∈ reqs s, ∀ i, s.owner g = some i → s.lst i = .waiting g ∨ s.lst i = .dead
  busy : ∀ i, s.busy = some i ↔ s.lst i = .calling
  fresh : ∀ i, s.nLst ≤ i → s.lst i = .made
  begun : ∀ i, .begun i ∈ E ↔ s.lst i ≠ .made
  ended : ∀ i, .ended i ∈ E ↔ s.lst i = .dead
  other : ∀ g ∈ reqs s, s.owner g = none → G
  taken : ∀ g p, .taken g p ∈ E → G
  lost : ∀ p, .lost p ∈ E → ∃ i, .ended i ∈ E

/-- Requests of both kinds that could be granted are owed by granted ones that will be processed, but for `k` (`k'`) of them. -/
structure Owed (cap : Option Nat) (s : St) (k k' : Nat) : Prop where
  gets : min s.items.length s.getQ.length ≤ nPuts s + k
  puts : ∀ c, cap = some c → min s.putQ.length (c - s.items.length) ≤ nGots s + k'
  free : cap = none → s.putQ.length ≤ k'

theorem Core.congr {s : St} {E E' : List Eff} {G : Prop} (h : Core s E G) (h1 : acc E' = acc E) (h2 : hand E' = hand E)
    (h3 : ∀ e, e ∈ E' ↔ e ∈ E) : Core s E' G := by
  refine ⟨?_, ?_, ?_, ?_, h.nd, h.rlt, h.wait, h.own, h.busy, h.fresh, fun i => (h3 _).trans (h.begun i), fun i => (h3 _).trans (h.ended i), h.other,
    fun g p hm => h.taken g p ((h3 _).1 hm), fun p hm => ?_⟩
  · rw [h1, h2]; exact h.flow
  · rw [h1]; exact h.ids
  · rw [h1]; exact h.lt
  · rw [h1]; exact h.past
  · obtain ⟨i, hi⟩ := h.lost p ((h3 _).1 hm)
    exact ⟨i, (h3 _).2 hi⟩

/-- Silent effects. -/
theorem Core.impossible {s : St} {E : List Eff} {G : Prop} (h : Core s E G) : Core s (E ++ [.impossible]) G := by
  refine ⟨?_, ?_, ?_, ?_, h.nd, h.rlt, h.wait, h.own, h.busy, h.fresh, fun i => ?_, fun i => ?_, h.other, fun g p hm => ?_, fun p hm => ?_⟩
  · simpa [acc, hand, accOf, handOf, List.filterMap_cons] using h.flow
  · simpa [acc, accOf, List.filterMap_cons] using h.ids
  · simpa [acc, accOf, List.filterMap_cons] using h.lt
  · simpa [acc, accOf, List.filterMap_cons] using h.past
  · simpa using h.begun i
  · simpa using h.ended i
  · exact h.taken g p (by simpa using hm)
  · obtain ⟨i, hi⟩ := h.lost p (by simpa using hm)
    exact ⟨i, by simp [hi]⟩

/-! ## The queues -/

theorem tryGet_cases (s : St) : ((s.getQ = [] ∨ s.items = []) ∧ tryGet s = s) ∨
    ∃ g r x xs, s.getQ = g :: r ∧ s.items = x :: xs ∧ tryGet s = { s with getQ := r, items := xs, evs := s.evs ++ [.got g x] } := by
  unfold tryGet
  cases hg : s.getQ with
  | nil => exact .inl ⟨.inl rfl, rfl⟩
  | cons g r =>
    cases hx : s.items with
    | nil => exact .inl ⟨.inr rfl, rfl⟩
    | cons x xs => exact .inr ⟨g, r, x, xs, rfl, rfl, rfl⟩

theorem tryGet_flow (s : St) : flow (tryGet s) = flow s := by
  rcases tryGet_cases s with ⟨_, e⟩ | ⟨g, r, x, xs, hg, hx, e⟩
  · rw [e]
  · rw [e]; simp [flow, hx, gotOf]

theorem tryGet_reqs (s : St) : (reqs (tryGet s)).Perm (reqs s) := by
  rcases tryGet_cases s with ⟨_, e⟩ | ⟨g, r, x, xs, hg, hx, e⟩
  · rw [e]
  · rw [e]
    simp only [reqs, hg, List.filterMap_append, List.filterMap_cons, List.filterMap_nil, reqOf, List.cons_append]
    rw [← List.append_assoc]
    exact List.perm_append_singleton _ _

theorem tryGet_rest (s : St) : (tryGet s).now = s.now ∧ (tryGet s).putQ = s.putQ ∧ (tryGet s).nPut = s.nPut ∧ (tryGet s).nGet = s.nGet ∧
    (tryGet s).owner = s.owner ∧ (tryGet s).nLst = s.nLst ∧ (tryGet s).lst = s.lst ∧ (tryGet s).busy = s.busy := by
  rcases tryGet_cases s with ⟨_, e⟩ | ⟨g, r, x, xs, hg, hx, e⟩ <;> rw [e] <;> simp

theorem Core.tryGet {s : St} {E : List Eff} {G : Prop} (h : Core s E G) : Core (tryGet s) E G := by
  obtain ⟨e1, e2, e3, e4, e5, e6, e7, e8⟩ := tryGet_rest s
  have hp := tryGet_reqs s
  refine ⟨?_, ?_, ?_, ?_, hp.nodup_iff.2 h.nd, fun g hg => ?_, fun i g hi => ?_, fun g hg i hi => ?_, fun i => ?_, fun i hi => ?_, fun i => ?_, fun i => ?_,
    fun g hg ho => ?_, h.taken, h.lost⟩
  · rw [tryGet_flow]; exact h.flow
  · rw [e2]; exact h.ids
  · rw [e2, e3]; exact h.lt
  · rw [e1]; exact h.past
  · rw [e4]; exact h.rlt g (hp.mem_iff.1 hg)
  · rw [e7] at hi
    rw [e5, hp.mem_iff]; exact h.wait i g hi
  · rw [e5] at hi
    rw [e7]; exact h.own g (hp.mem_iff.1 hg) i hi
  · rw [e8, e7]; exact h.busy i
  · rw [e6] at hi
    rw [e7]; exact h.fresh i hi
  · rw [e7]; exact h.begun i
  · rw [e7]; exact h.ended i
  · rw [e5] at ho; exact h.other g (hp.mem_iff.1 hg) ho

theorem Owed.tryGet {cap : Option Nat} {s : St} {k k' : Nat} (h : Owed cap s (k + 1) k') : Owed cap (tryGet s) k k' := by
  rcases tryGet_cases s with ⟨h0, e⟩ | ⟨g, r, x, xs, hg, hx, e⟩
  · rw [e]
    refine ⟨?_, h.puts, h.free⟩
    rcases h0 with h0 | h0 <;> rw [h0] <;> simp
  · have h1 := h.gets
    have h2 := h.puts
    rw [e]
    rw [hg, hx] at h1
    rw [hx] at h2
    refine ⟨?_, fun c hc => ?_, h.free⟩
    · simp only [nPuts, List.filter_append, List.length_append, List.length_cons] at h1 ⊢
      simp only [gotOf_got, List.filter_cons, List.filter_nil, Option.isNone_some, Bool.false_eq_true, if_false, List.length_nil]
      omega
    · have := h2 c hc
      simp only [nGots, List.filter_append, List.length_append, List.length_cons] at this ⊢
      simp only [gotOf_got, List.filter_cons, List.filter_nil, Option.isSome_some, if_true, List.length_cons, List.length_nil]
      omega

theorem tryPut_cases (cap : Option Nat) (s : St) :
    ((s.putQ = [] ∨ room cap s.items.length = false) ∧ tryPut cap s = (s, [])) ∨
    ∃ p o r, s.putQ = (p, o) :: r ∧ room cap s.items.length = true ∧ tryPut cap s =
      ({ s with putQ := r, items := s.items ++ [⟨p, o, s.now⟩], evs := s.evs ++ [.put p] }, [.accepted p o s.now]) := by
  unfold tryPut
  cases hp : s.putQ with
  | nil => exact .inl ⟨.inl rfl, rfl⟩
  | cons a r =>
    obtain ⟨p, o⟩ := a
    cases hr : room cap s.items.length with
    | false => exact .inl ⟨.inr rfl, by simp⟩
    | true => exact .inr ⟨p, o, r, rfl, rfl, by simp⟩

theorem Core.tryPut {cap : Option Nat} {s : St} {E : List Eff} {G : Prop} (h : Core s E G) :
    Core (tryPut cap s).1 (E ++ (tryPut cap s).2) G := by
  rcases tryPut_cases cap s with ⟨_, e⟩ | ⟨p, o, r, hp, _, e⟩
  · rw [e]; simpa using h
  · rw [e]
    have hr : reqs { s with putQ := r, items := s.items ++ [⟨p, o, s.now⟩], evs := s.evs ++ [.put p] } = reqs s := by simp [reqs, reqOf]
    have ha : acc (E ++ [.accepted p o s.now]) = acc E ++ [⟨p, o, s.now⟩] := by simp [acc, accOf]
    refine ⟨?_, ?_, ?_, ?_, ?_, ?_, ?_, ?_, h.busy, h.fresh, fun i => ?_, fun i => ?_, ?_, fun g q hm => ?_, fun q hm => ?_⟩
    · obtain ⟨A, h1, h2⟩ := h.flow
      refine ⟨A, ?_, ?_⟩
      · rw [ha, h1]; simp [Listen.flow, gotOf]
      · simpa [hand, handOf, List.filterMap_cons] using h2
    · have := h.ids
      rw [ha]
      simpa [hp] using this
    · have := h.lt
      rw [ha]
      simpa [hp] using this
    · rw [ha]
      intro x hx
      rcases List.mem_append.1 hx with hx | hx
      · exact h.past x hx
      · rw [List.mem_singleton.1 hx]
    · rw [hr]; exact h.nd
    · rw [hr]; exact h.rlt
    · rw [hr]; exact h.wait
    · rw [hr]; exact h.own
    · simpa using h.begun i
    · simpa using h.ended i
    · rw [hr]; exact h.other
    · exact h.taken g q (by simpa using hm)
    · obtain ⟨i, hi⟩ := h.lost q (by simpa using hm)
      exact ⟨i, by simp [hi]⟩

theorem Owed.tryPut {cap : Option Nat} {s : St} {k k' : Nat} (h : Owed cap s k (k' + 1)) : Owed cap (tryPut cap s).1 k k' := by
  rcases tryPut_cases cap s with ⟨h0, e⟩ | ⟨p, o, r, hp, hr, e⟩
  · rw [e]
    refine ⟨h.gets, fun c hc => ?_, fun hc => ?_⟩
    · rcases h0 with h0 | h0
      · rw [h0]; simp
      · rw [hc] at h0
        simp only [room, decide_eq_false_iff_not] at h0
        have : c - s.items.length = 0 := by omega
        rw [this]; simp
    · rcases h0 with h0 | h0
      · rw [h0]; simp
      · rw [hc] at h0; simp [room] at h0
  · have h1 := h.gets
    have h2 := h.puts
    have h3 := h.free
    rw [e]
    rw [hp] at h2 h3
    refine ⟨?_, fun c hc => ?_, fun hc => ?_⟩
    · simp only [nPuts, List.filter_append, List.length_append, List.length_cons] at h1 ⊢
      simp only [gotOf_put, List.filter_cons, List.filter_nil, Option.isNone_none, if_true, List.length_cons, List.length_nil]
      omega
    · have := h2 c hc
      simp only [nGots, List.filter_append, List.length_append, List.length_cons] at this ⊢
      simp only [gotOf_put, List.filter_cons, List.filter_nil, Option.isSome_none, Bool.false_eq_true, if_false, List.length_nil]
      omega
    · have := h3 hc
      simpa using this

/-! ## The steps -/

/-- A request is made. -/
theorem Core.request {s : St} {E : List Eff} {G : Prop} (h : Core s E G) {E' : List Eff} (lst : Nat → Lst) (who busy : Option Nat)
    (hacc : acc E' = acc E) (hhand : hand E' = hand E)
    (hwho : ∀ i, lst i = .waiting s.nGet ↔ who = some i)
    (hlst : ∀ i, who ≠ some i → lst i = s.lst i)
    (hidle : ∀ i, who = some i → i < s.nLst ∧ (∀ g, s.lst i ≠ .waiting g) ∧ s.lst i ≠ .dead)
    (hbusy : ∀ i, busy = some i ↔ lst i = .calling) (hbegun : ∀ i, .begun i ∈ E' ↔ lst i ≠ .made)
    (hended : ∀ i, .ended i ∈ E' ↔ .ended i ∈ E) (htaken : ∀ g p, .taken g p ∈ E' ↔ .taken g p ∈ E) (hlost : ∀ p, .lost p ∈ E' ↔ .lost p ∈ E)
    (hG : who = none → G) :
    Core (request { s with lst := lst, busy := busy } who) E' G := by
  have hnew : s.nGet ∉ reqs s := fun hm => Nat.lt_irrefl _ (h.rlt _ hm)
  have key : Core { s with lst := lst, busy := busy, getQ := s.getQ ++ [s.nGet], nGet := s.nGet + 1, owner := upd s.owner s.nGet who } E' G := by
    have hr : (reqs { s with lst := lst, busy := busy, getQ := s.getQ ++ [s.nGet], nGet := s.nGet + 1, owner := upd s.owner s.nGet who }).Perm
        (s.nGet :: reqs s) := by
      simp only [reqs]
      rw [List.append_assoc]
      exact List.perm_middle
    refine ⟨?_, ?_, ?_, ?_, hr.nodup_iff.2 (List.nodup_cons.2 ⟨hnew, h.nd⟩), fun g hg => ?_, fun i g hi => ?_, fun g hg i hi => ?_, hbusy, fun i hi => ?_,
      hbegun, fun i => ?_, fun g hg ho => ?_, fun g p hm => h.taken g p ((htaken g p).1 hm), fun p hm => ?_⟩
    · rw [hacc, hhand]; exact h.flow
    · rw [hacc]; exact h.ids
    · rw [hacc]; exact h.lt
    · rw [hacc]; exact h.past
    · rcases List.mem_cons.1 (hr.mem_iff.1 hg) with rfl | hg
      · exact Nat.lt_succ_self _
      · exact Nat.lt_succ_of_lt (h.rlt g hg)
    · rw [hr.mem_iff]
      by_cases hw : who = some i
      · have h1 := (hwho i).2 hw
        have h2 : lst i = .waiting g := hi
        rw [h1] at h2
        cases h2
        simp only [upd_same]
        exact ⟨hw, List.mem_cons_self⟩
      · have h2 : s.lst i = .waiting g := by rw [← hlst i hw]; exact hi
        obtain ⟨h3, h4⟩ := h.wait i g h2
        have : g ≠ s.nGet := fun e => hnew (e ▸ h4)
        simp only [upd_ne _ _ this]
        exact ⟨h3, List.mem_cons_of_mem _ h4⟩
    · rcases List.mem_cons.1 (hr.mem_iff.1 hg) with rfl | hg
      · simp only [upd_same] at hi
        exact .inl ((hwho i).2 hi)
      · have : g ≠ s.nGet := fun e => hnew (e ▸ hg)
        simp only [upd_ne _ _ this] at hi
        have h1 := h.own g hg i hi
        by_cases hw : who = some i
        · rcases h1 with h1 | h1
          · exact absurd h1 ((hidle i hw).2.1 g)
          · exact absurd h1 (hidle i hw).2.2
        · show lst i = _ ∨ lst i = _
          rw [hlst i hw]; exact h1
    · show lst i = _
      rw [hlst i (fun hw => by have := (hidle i hw).1; simp only at hi; omega)]
      exact h.fresh i hi
    · rw [hended, h.ended]
      by_cases hw : who = some i
      · show s.lst i = _ ↔ lst i = _
        rw [(hwho i).2 hw]
        exact ⟨fun h1 => absurd h1 (hidle i hw).2.2, fun h1 => by cases h1⟩
      · show s.lst i = _ ↔ lst i = _
        rw [hlst i hw]
    · rcases List.mem_cons.1 (hr.mem_iff.1 hg) with rfl | hg
      · simp only [upd_same] at ho
        exact hG ho
      · have : g ≠ s.nGet := fun e => hnew (e ▸ hg)
        simp only [upd_ne _ _ this] at ho
        exact h.other g hg ho
    · obtain ⟨i, hi⟩ := h.lost p ((hlost p).1 hm)
      exact ⟨i, (hended i).2 hi⟩
  exact key.tryGet

theorem Owed.request {cap : Option Nat} {s : St} {k k' : Nat} (h : Owed cap s k k') (lst : Nat → Lst) (who busy : Option Nat) :
    Owed cap (request { s with lst := lst, busy := busy } who) k k' := by
  refine Owed.tryGet ⟨?_, h.puts, h.free⟩
  have := h.gets
  simp only [nPuts, List.length_append, List.length_singleton] at this ⊢
  omega

theorem tryPut_comm (cap : Option Nat) (s : St) (lst : Nat → Lst) (busy : Option Nat) :
    tryPut cap { s with lst := lst, busy := busy } = ({ (tryPut cap s).1 with lst := lst, busy := busy }, (tryPut cap s).2) := by
  simp only [tryPut]
  split
  · rfl
  · split <;> rfl

theorem tryPut_rest (cap : Option Nat) (s : St) : (tryPut cap s).1.now = s.now ∧ (tryPut cap s).1.owner = s.owner ∧ (tryPut cap s).1.lst = s.lst ∧
    (tryPut cap s).1.busy = s.busy := by
  rcases tryPut_cases cap s with ⟨_, e⟩ | ⟨p, o, r, hp, _, e⟩ <;> rw [e] <;> simp

/-- A granted request is taken off and its message handed over. -/
theorem Core.hand {s : St} {E : List Eff} {G : Prop} (h : Core s E G) {g : Nat} {x : Item} {r : List Ev} (hev : s.evs = .got g x :: r)
    (lst : Nat → Lst) (busy : Option Nat) (e : Eff) (hacc : accOf e = none) (hhand : handOf e = some e) (hfit : Fits e x)
    (hlst : ∀ i, s.lst i ≠ .waiting g → lst i = s.lst i) (hlst' : ∀ i, s.lst i = .waiting g → lst i = .calling)
    (hbusy : ∀ i, busy = some i ↔ lst i = .calling) (htaken : ∀ g' p, e = .taken g' p → s.owner g = none)
    (hlost : ∀ p, e = .lost p → ∃ i, s.lst i = .dead) :
    Core { s with evs := r, lst := lst, busy := busy } (E ++ [e]) G := by
  have hr : reqs s = s.getQ ++ g :: reqs { s with getQ := [], evs := r, lst := lst, busy := busy } := by simp [reqs, hev, reqOf]
  have hr' : (reqs s).Perm (g :: reqs { s with evs := r, lst := lst, busy := busy }) := by
    rw [hr]; simp only [reqs, List.nil_append]; exact List.perm_middle
  have hnd := hr'.nodup_iff.1 h.nd
  obtain ⟨hg, hnd⟩ := List.nodup_cons.1 hnd
  have hsub : ∀ g', g' ∈ reqs { s with evs := r, lst := lst, busy := busy } → g' ∈ reqs s := fun g' hm => hr'.mem_iff.2 (List.mem_cons_of_mem _ hm)
  have hgs : g ∈ reqs s := hr'.mem_iff.2 List.mem_cons_self
  have ha : acc (E ++ [e]) = acc E := by simp [acc, hacc]
  have hkind : (∀ i, e ≠ .begun i) ∧ (∀ i, e ≠ .ended i) := by
    constructor <;> (rintro i rfl; simp [handOf] at hhand)
  refine ⟨?_, ?_, ?_, ?_, hnd, fun g' hm => h.rlt g' (hsub g' hm), fun i g' hi => ?_, fun g' hm i hi => ?_, hbusy, fun i hi => ?_, fun i => ?_, fun i => ?_,
    fun g' hm ho => h.other g' (hsub g' hm) ho, fun g' p hm => ?_, fun p hm => ?_⟩
  · obtain ⟨A, h1, h2⟩ := h.flow
    refine ⟨A ++ [x], ?_, ?_⟩
    · rw [ha, h1]; simp [Listen.flow, hev, gotOf]
    · rw [show Listen.hand (E ++ [e]) = Listen.hand E ++ [e] by simp [Listen.hand, hhand]]
      exact List.rel_append h2 (.cons hfit .nil)
  · rw [ha]; exact h.ids
  · rw [ha]; exact h.lt
  · rw [ha]; exact h.past
  · have hi' : lst i = .waiting g' := hi
    by_cases hw : s.lst i = .waiting g
    · rw [hlst' i hw] at hi'; cases hi'
    · rw [hlst i hw] at hi'
      obtain ⟨h1, h2⟩ := h.wait i g' hi'
      refine ⟨h1, ?_⟩
      rcases List.mem_cons.1 (hr'.mem_iff.1 h2) with rfl | h2
      · exact absurd hi' hw
      · exact h2
  · have h1 := h.own g' (hsub g' hm) i hi
    have hne : g' ≠ g := fun e => hg (e ▸ hm)
    show lst i = _ ∨ lst i = _
    rw [hlst i (fun hw => by
      rcases h1 with h1 | h1 <;> rw [hw] at h1
      · simp only [Lst.waiting.injEq] at h1; exact hne h1.symm
      · cases h1)]
    exact h1
  · show lst i = _
    have := h.fresh i hi
    rw [hlst i (by rw [this]; simp)]
    exact this
  · show _ ↔ lst i ≠ _
    rw [List.mem_append, List.mem_singleton]
    simp only [show ¬ (Eff.begun i = e) from fun x => hkind.1 i x.symm, or_false]
    rw [h.begun]
    by_cases hw : s.lst i = .waiting g
    · rw [hw, hlst' i hw]; simp
    · rw [hlst i hw]
  · show _ ↔ lst i = _
    rw [List.mem_append, List.mem_singleton]
    simp only [show ¬ (Eff.ended i = e) from fun x => hkind.2 i x.symm, or_false]
    rw [h.ended]
    by_cases hw : s.lst i = .waiting g
    · rw [hw, hlst' i hw]; simp
    · rw [hlst i hw]
  · rcases List.mem_append.1 hm with hm | hm
    · exact h.taken g' p hm
    · exact h.other g hgs (htaken g' p (List.mem_singleton.1 hm).symm)
  · rcases List.mem_append.1 hm with hm | hm
    · obtain ⟨i, hi⟩ := h.lost p hm
      exact ⟨i, List.mem_append_left _ hi⟩
    · obtain ⟨i, hi⟩ := hlost p (List.mem_singleton.1 hm).symm
      exact ⟨i, List.mem_append_left _ ((h.ended i).2 hi)⟩

end Verif.Listen
