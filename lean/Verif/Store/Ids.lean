import Verif.Store.Lemmas
import Mathlib.Data.List.Perm.Basic
import Mathlib.Data.List.Nodup

/-!
# Requests keep their identity

Every request is in exactly one place: waiting, triggered, or processed.
-/

namespace Verif.Store

variable {ι γ ν : Type} [DecidableEq ν]

/-- All get requests of a store. -/
def getIds (s : St ι γ ν) : List Nat :=
  s.getQ.map (·.1) ++ ((inflight s.evq).map (·.1) ++ (s.delivered.map (·.1) ++ s.lost.map (·.1)))

/-- All put requests of a store, oldest first. -/
def putIds (s : St ι γ ν) : List Nat := (s.accepted ++ s.putQ).map (·.1)

structure Ids (s : St ι γ ν) : Prop where
  nd : (getIds s ++ putIds s).Nodup
  lt : ∀ i ∈ getIds s ++ putIds s, i < s.nextId
  ev : ∀ i, Ev.put i ∈ s.evq → i ∈ s.accepted.map (·.1)

theorem Ids.of_perm {s s' : St ι γ ν} (h : Ids s) (hp : (getIds s ++ putIds s).Perm (getIds s' ++ putIds s'))
    (hn : s'.nextId = s.nextId) (hev : ∀ i, Ev.put i ∈ s'.evq → i ∈ s'.accepted.map (·.1)) : Ids s' :=
  ⟨hp.nodup_iff.1 h.nd, fun i hi => by rw [hn]; exact h.lt i (hp.mem_iff.2 hi), hev⟩

theorem trigPut_putIds (c : Cfg ι γ ν) (s : St ι γ ν) :
    (trigPut c s).accepted ++ (trigPut c s).putQ = s.accepted ++ s.putQ := by
  have e := trigPut_eff c s
  generalize trigPut c s = s' at e ⊢
  cases e with
  | none h' => rw [h']
  | one i x q hq hr h' => rw [h', hq]; simp

theorem trigPut_getIds (c : Cfg ι γ ν) (s : St ι γ ν) : getIds (trigPut c s) = getIds s := by
  have e := trigPut_eff c s
  generalize trigPut c s = s' at e ⊢
  cases e with
  | none h' => rw [h']; rfl
  | one i x q hq hr h' => rw [h']; simp [getIds, inflight_append, inflight]

theorem Ids.trigPut {c : Cfg ι γ ν} {s : St ι γ ν} (h : Ids s) : Ids (trigPut c s) := by
  refine h.of_perm (by rw [trigPut_getIds, putIds, putIds, trigPut_putIds]) ?_ ?_
  · have e := trigPut_eff c s
    generalize Verif.Store.trigPut c s = s' at e ⊢
    cases e with
    | none h' => rw [h']
    | one i x q hq hr h' => rw [h']
  · have e := trigPut_eff c s
    generalize Verif.Store.trigPut c s = s' at e ⊢
    intro i hi
    cases e with
    | none h' => rw [h'] at hi ⊢; exact h.ev i hi
    | one j x q hq hr h' =>
      rw [h'] at hi ⊢
      simp only [List.mem_append, List.mem_singleton, Ev.put.injEq, List.map_append, List.map_cons, List.map_nil] at hi ⊢
      rcases hi with hi | rfl
      · exact .inl (h.ev i hi)
      · exact .inr rfl

/-- Serving the get queue moves requests from the queue to the triggered events. -/
theorem trigGet_getIds (c : Cfg ι γ ν) (s : St ι γ ν) : (getIds s).Perm (getIds (trigGet c s)) := by
  obtain ⟨served, h1, h2, -, h4, -⟩ := trigGet_eff c s
  generalize trigGet c s = s' at h1 h2 h4
  have hd : s'.delivered = s.delivered := by rw [h1]
  have hl : s'.lost = s.lost := by rw [h1]
  rw [getIds, getIds, h2, hd, hl, inflight_append, inflight_got, List.map_append]
  refine (h4.append_right _).trans ?_
  rw [List.perm_iff_count]
  intro a
  simp only [List.count_append]
  omega

theorem Ids.trigGet {c : Cfg ι γ ν} {s : St ι γ ν} (h : Ids s) : Ids (trigGet c s) := by
  have hg := trigGet_getIds c s
  obtain ⟨served, h1, h2, -, h4, -⟩ := trigGet_eff c s
  generalize Verif.Store.trigGet c s = s' at h1 h2 h4 hg ⊢
  have ha : s'.accepted = s.accepted := by rw [h1]
  have hp : s'.putQ = s.putQ := by rw [h1]
  refine h.of_perm (by rw [putIds, putIds, ha, hp]; exact hg.append_right _) (by rw [h1]) ?_
  intro i hi
  rw [h2] at hi
  rcases List.mem_append.1 hi with hi | hi
  · rw [ha]; exact h.ev i hi
  · obtain ⟨p, -, hp⟩ := List.mem_map.1 hi
    exact absurd hp (by simp)

theorem Ids.enqPut {s : St ι γ ν} (h : Ids s) (x : ι) : Ids (enqPut s x) := by
  have he : getIds (Verif.Store.enqPut s x) ++ putIds (Verif.Store.enqPut s x) = (getIds s ++ putIds s) ++ [s.nextId] := by
    simp [getIds, putIds, Verif.Store.enqPut]
  refine ⟨?_, ?_, h.ev⟩
  · rw [he, List.nodup_append]
    refine ⟨h.nd, by simp, fun a ha b hb => ?_⟩
    have := h.lt a ha
    simp at hb; omega
  · intro i hi
    rw [he] at hi
    simp only [Verif.Store.enqPut]
    rcases List.mem_append.1 hi with hi | hi
    · have := h.lt i hi; omega
    · simp at hi; omega

theorem Ids.enqGet {s : St ι γ ν} (h : Ids s) (g : γ) : Ids (enqGet s g) := by
  have he : (s.nextId :: (getIds s ++ putIds s)).Perm (getIds (Verif.Store.enqGet s g) ++ putIds (Verif.Store.enqGet s g)) := by
    simp only [getIds, putIds, Verif.Store.enqGet]
    rw [List.perm_iff_count]
    intro a
    simp only [List.count_append, List.count_cons, List.map_append, List.map_cons, List.map_nil, List.count_nil]
    omega
  refine ⟨he.nodup_iff.1 (List.nodup_cons.2 ⟨fun hc => ?_, h.nd⟩), fun i hi => ?_, h.ev⟩
  · exact absurd (h.lt _ hc) (lt_irrefl _)
  · simp only [Verif.Store.enqGet]
    rcases List.mem_cons.1 (he.mem_iff.2 hi) with hi | hi
    · omega
    · have := h.lt i hi; omega

theorem Ids.interrupt {s : St ι γ ν} (h : Ids s) (id : Nat) : Ids (doInterrupt s id) := by
  have hsub : (getIds (doInterrupt s id) ++ putIds (doInterrupt s id)).Sublist (getIds s ++ putIds s) := by
    refine List.Sublist.append ?_ ?_
    · exact List.Sublist.append (List.filter_sublist.map _) (List.Sublist.refl _)
    · exact ((List.Sublist.refl _).append List.filter_sublist).map _
  exact ⟨h.nd.sublist hsub, fun i hi => h.lt i (hsub.subset hi), h.ev⟩

theorem Ids.process {c : Cfg ι γ ν} {s : St ι γ ν} (h : Ids s) : Ids (doProcess c s) := by
  unfold doProcess
  split
  · exact h
  · rename_i i q hq
    refine Ids.trigGet ⟨?_, ?_, fun j hj => h.ev j (by rw [hq]; exact List.mem_cons_of_mem _ hj)⟩
    · have := h.nd; simpa only [getIds, putIds, hq, inflight] using this
    · have := h.lt; simpa only [getIds, putIds, hq, inflight] using this
  · rename_i i x q hq
    -- the event is put back in front for the accounting
    have key : ∀ (d l : List (Nat × ι)) (s1 : St ι γ ν), s1 = Verif.Store.trigPut c { s with evq := q } →
        (d ++ l).map (·.1) = [i] → Ids { s1 with delivered := s1.delivered ++ d, lost := s1.lost ++ l } := by
      intro d l s1 hs1 hdl
      have hn : s1.nextId = s.nextId := by
        have e := trigPut_eff c { s with evq := q }
        rw [← hs1] at e
        cases e with
        | none h' => rw [h']
        | one i x q hq hr h' => rw [h']
      have hg : getIds s1 = getIds { s with evq := q } := by rw [hs1]; exact trigPut_getIds c _
      have hp : s1.accepted ++ s1.putQ = s.accepted ++ s.putQ := by rw [hs1]; exact trigPut_putIds c _
      have hg2 : (getIds s1 ++ [i]).Perm (getIds s) := by
        rw [hg]
        simp only [getIds, hq, inflight]
        rw [List.perm_iff_count]; intro a
        simp only [List.count_append, List.count_cons, List.map_cons, List.count_nil]; omega
      refine h.of_perm ?_ hn ?_
      · have e1 : putIds s = putIds { s1 with delivered := s1.delivered ++ d, lost := s1.lost ++ l } := by
          simp only [putIds, hp]
        rw [e1]
        refine List.Perm.append_right _ (hg2.symm.trans ?_)
        rw [← hdl]
        simp only [getIds]
        rw [List.perm_iff_count]; intro a
        simp only [List.count_append, List.map_append]; omega
      · intro j hj
        have hj' : Ev.put j ∈ s1.evq := hj
        show j ∈ s1.accepted.map (·.1)
        have e := trigPut_eff c { s with evq := q }
        rw [← hs1] at e
        cases e with
        | none h' => rw [h'] at hj' ⊢; exact h.ev j (by rw [hq]; exact List.mem_cons_of_mem _ hj')
        | one k y r hq' hr h' =>
          rw [h'] at hj' ⊢
          simp only [List.mem_append, List.mem_singleton, Ev.put.injEq, List.map_append, List.map_cons, List.map_nil] at hj' ⊢
          rcases hj' with hj' | rfl
          · exact .inl (h.ev j (by rw [hq]; exact List.mem_cons_of_mem _ hj'))
          · exact .inr rfl
    split
    · have := key [(i, x)] [] _ rfl (by simp)
      simpa using this
    · have := key [] [(i, x)] _ rfl (by simp)
      simpa using this

theorem Ids.step {c : Cfg ι γ ν} {s : St ι γ ν} (h : Ids s) (op : Op ι γ) : Ids (step c s op) := by
  cases op with
  | put x => exact (h.enqPut x).trigPut
  | get g => exact (h.enqGet g).trigGet
  | interrupt id => exact h.interrupt id
  | process => exact h.process
  | advance t => simp only [Verif.Store.step, doAdvance]; split <;> exact ⟨h.nd, h.lt, h.ev⟩

theorem Ids.init (c : Cfg ι γ ν) (cap : Option Nat) (t0 : Rat) : Ids (init c cap t0) := by
  refine ⟨by simp [getIds, putIds, Verif.Store.init, inflight], by simp [getIds, putIds, Verif.Store.init, inflight], by simp [Verif.Store.init]⟩

end Verif.Store
