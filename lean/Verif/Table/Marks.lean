import Verif.Table.Active

/-!
# The markers recorded are the activations and deactivations
-/

namespace Verif.Table

open Verif.Active (Cfg St Op Out upd record setVal setActive activate deactivate deactivateList deactivateAll run step
  lock unlock drop offShared Lk Same events eventsOf SEv)

/-- The markers of a history with their times. -/
def timedMarks (h : List (Rat × Active.Entry)) : List (Rat × Bool) :=
  h.filterMap fun x => match x.2 with
    | .val _ => none
    | .activating => some (x.1, true)
    | .deactivating => some (x.1, false)

/-- The switchings among the events of a state. -/
def switches (evs : List (Rat × SEv)) : List (Rat × Bool) :=
  evs.filterMap fun x => match x.2 with
    | .on _ _ => some (x.1, true)
    | .off _ => some (x.1, false)
    | .set _ => none

theorem timedMarks_append (a b : List (Rat × Active.Entry)) : timedMarks (a ++ b) = timedMarks a ++ timedMarks b :=
  List.filterMap_append ..

theorem switches_append (a b : List (Rat × SEv)) : switches (a ++ b) = switches a ++ switches b := List.filterMap_append ..

theorem setVal_marks (c : Cfg) (s : St) (m : Nat) (v : Rat) (n : Nat) :
    timedMarks ((setVal c s m v).hist n) = timedMarks (s.hist n) := by
  unfold setVal
  rcases record_hist c { s with value := upd s.value m (some v) } m (.val v) n with h | ⟨_, _, h⟩
  · rw [h]
  · rw [h, timedMarks_append]; simp [timedMarks]

theorem read_marks (c : Cfg) (s : St) (m n : Nat) : timedMarks ((Active.read c s m).1.hist n) = timedMarks (s.hist n) := by
  unfold Active.read
  split
  · rfl
  · split <;> rfl
  · unfold Active.readLinear
    split
    · rfl
    · split
      · rfl
      · split
        · rfl
        · split
          · rfl
          · exact setVal_marks c s m _ n
  · unfold Active.readShared
    split
    · rfl
    · split
      · rfl
      · dsimp only
        split
        · exact setVal_marks c s m _ n
        · split
          · rfl
          · split
            · rfl
            · exact setVal_marks c s m _ n

/-- A marker after a value is recorded. -/
theorem record_marker (c : Cfg) (s : St) (n : Nat) (e : Active.Entry) (hr : c.recording n = true) (v t : Rat)
    (hl : (s.hist n).getLast? = some (t, .val v)) (he : ∀ v, e ≠ .val v) :
    (record c s n e).hist n = s.hist n ++ [(s.now, e)] := by
  have hne : (s.hist n).getLast? ≠ some (s.now, e) := by
    rw [hl]
    intro hc
    simp only [Option.some.injEq, Prod.mk.injEq] at hc
    exact he v hc.2.symm
  unfold record
  rw [if_pos ⟨hr, Or.inr hne⟩]
  simp [upd]

theorem activate_marks {c : Cfg} {s : St} {n : Nat} (hk : c.kind n = some .linear ∨ c.kind n = some .shared)
    (hr : c.recording n = true) (t : Nat) (r : Option Rat) :
    timedMarks ((activate c s n t r).1.hist n) =
      timedMarks (s.hist n) ++ switches (eventsOf n (s.now, .activate n t r, (activate c s n t r).2)) := by
  unfold Active.activate
  obtain ⟨k, hk', hkp⟩ : ∃ k, c.kind n = some k ∧ k ≠ .plain := by
    rcases hk with h | h
    · exact ⟨_, h, by decide⟩
    · exact ⟨_, h, by decide⟩
  rw [hk']
  dsimp only
  split
  · cases r <;> simp [eventsOf, switches]
  · have ha : (setActive (lock s n t) n s.now (some t) r none none).active n ≠ none := by simp [setActive, upd]
    have hm : timedMarks ((setActive (lock s n t) n s.now (some t) r none none).hist n) = timedMarks (s.hist n) := rfl
    have hnow : (setActive (lock s n t) n s.now (some t) r none none).now = s.now := rfl
    have hrate : r = none → (Active.read c (setActive (lock s n t) n s.now (some t) r none none) n).2 = .raised := by
      rintro rfl
      have h1 : (setActive (lock s n t) n s.now (some t) none none none).active n =
          some ⟨s.now, some t, none, (s.active n).bind (·.rateTasks), (s.active n).bind (·.last)⟩ := by
        simp [setActive, upd, lock]
      rcases hk with h | h
      · simp only [Active.read, h, Active.readLinear, h1]
        split <;> rfl
      · simp only [Active.read, h, Active.readShared, h1]
        split <;> rfl
    generalize hs2 : setActive (lock s n t) n s.now (some t) r none none = s2 at *
    have hrm := read_marks c s2 n n
    have hn3 := (read_now c s2 n).1
    have hl : ∀ v, (Active.read c s2 n).2 = .val v → ((Active.read c s2 n).1.hist n).getLast? = some (s2.now, .val v) :=
      fun v hv => read_last hk ha hr hv
    generalize hq : Active.read c s2 n = q at hrm hn3 hl hrate
    obtain ⟨s3, o⟩ := q
    cases o with
    | val v =>
      dsimp only at hrm hn3 hl hrate ⊢
      cases r with
      | none => exact absurd (hrate rfl) (by simp)
      | some r =>
        rw [record_marker c s3 n .activating hr v _ (hl v rfl) (by simp), timedMarks_append, hrm, hm]
        simp [timedMarks, eventsOf, switches, hn3, hnow]
    | ok => dsimp only at hrm ⊢; rw [hrm, hm]; cases r <;> simp [eventsOf, switches]
    | raised => dsimp only at hrm ⊢; rw [hrm, hm]; cases r <;> simp [eventsOf, switches]
    | all d f => dsimp only at hrm ⊢; rw [hrm, hm]; cases r <;> simp [eventsOf, switches]

/-- Deactivating a linear state records the marker if it succeeds and none otherwise. -/
theorem deactivate_marks {c : Cfg} {s : St} {n : Nat} (hk : c.kind n = some .linear) (hr : c.recording n = true) (h : MInv c s) (t : Nat) :
    timedMarks ((deactivate c s n t).1.hist n) =
      timedMarks (s.hist n) ++ (if (deactivate c s n t).2 = .ok then [(s.now, false)] else []) := by
  unfold Active.deactivate
  rw [hk]
  dsimp only
  split
  · rename_i ht
    have ha : (unlock s n t).active n ≠ none := h.locked n hk (by intro hc; rw [hc] at ht; simp at ht)
    have hm : timedMarks ((unlock s n t).hist n) = timedMarks (s.hist n) := rfl
    have hnow : (unlock s n t).now = s.now := rfl
    generalize hs2 : unlock s n t = s2 at *
    have hrm := read_marks c s2 n n
    have hn3 := (read_now c s2 n).1
    have hl : ∀ v, (Active.read c s2 n).2 = .val v → ((Active.read c s2 n).1.hist n).getLast? = some (s2.now, .val v) :=
      fun v hv => read_last (Or.inl hk) ha hr hv
    generalize hq : Active.read c s2 n = q at hrm hn3 hl
    obtain ⟨s3, o⟩ := q
    cases o with
    | val v =>
      dsimp only at hrm hn3 hl ⊢
      show timedMarks ((record c s3 n .deactivating).hist n) = _
      rw [record_marker c s3 n .deactivating hr v _ (hl v rfl) (by simp), timedMarks_append, hrm, hm]
      simp [timedMarks, hn3, hnow]
    | ok => dsimp only at hrm ⊢; rw [hrm, hm]; simp
    | raised => dsimp only at hrm ⊢; rw [hrm, hm]; simp
    | all d f => dsimp only at hrm ⊢; rw [hrm, hm]; simp
  · simp

theorem deactivate_out {c : Cfg} {s : St} {m t : Nat} : (deactivate c s m t).1.now = s.now := by
  by_cases h : c.kind m = none ∨ t ∉ s.tbs m
  · rw [Active.deactivate_refused c s m t h]
  · exact (Active.deactivate_same c s (m := m) (n := m + 1) t (by omega)).now

theorem list_marks {c : Cfg} {n : Nat} (hk : c.kind n = some .linear) (hr : c.recording n = true) (t : Nat) (l : List Nat) :
    ∀ {s : St} (done : List Nat), MInv c s → Lk c s → l.Nodup →
    ∃ new f, (deactivateList c s t done l).2 = .all (done ++ new) f ∧ (∀ x ∈ new, x ∈ l) ∧
      timedMarks ((deactivateList c s t done l).1.hist n) = timedMarks (s.hist n) ++ (if n ∈ new then [(s.now, false)] else []) := by
  induction l with
  | nil => intro s done _ _ _; exact ⟨[], false, by simp [Active.deactivateList], by simp, by simp [Active.deactivateList]⟩
  | cons m r ih =>
    intro s done h hlk hnd
    obtain ⟨hm, hnd⟩ := List.nodup_cons.1 hnd
    have h1 := h.deactivate hlk m t
    have h2 := hlk.deactivate m t
    have hnow := deactivate_out (c := c) (s := s) (m := m) (t := t)
    have hmk : timedMarks ((deactivate c s m t).1.hist n) =
        timedMarks (s.hist n) ++ (if (deactivate c s m t).2 = .ok ∧ m = n then [(s.now, false)] else []) := by
      by_cases hmn : m = n
      · subst hmn
        rw [deactivate_marks hk hr h]
        simp
      · rw [(Active.deactivate_same c s (m := m) (n := n) t (fun e => hmn e.symm)).hist]
        simp [hmn]
    unfold Active.deactivateList
    generalize hq : Active.deactivate c s m t = q at h1 h2 hnow hmk
    obtain ⟨s1, o⟩ := q
    cases o with
    | ok =>
      obtain ⟨new, f, e1, e2, e3⟩ := ih (done ++ [m]) h1 h2 hnd
      refine ⟨m :: new, f, by dsimp only; rw [e1]; simp, ?_, ?_⟩
      · intro x hx
        rcases List.mem_cons.1 hx with rfl | hx
        · exact List.mem_cons_self
        · exact List.mem_cons_of_mem _ (e2 x hx)
      · dsimp only at hnow hmk ⊢
        rw [e3, hmk, hnow]
        by_cases hmn : m = n
        · subst hmn
          have : m ∉ new := fun hc => hm (e2 m hc)
          simp [this]
        · have : ¬ n = m := fun e => hmn e.symm
          simp [hmn, this]
    | val v => exact ⟨[], true, by simp, by simp, by simpa using hmk⟩
    | raised => exact ⟨[], true, by simp, by simp, by simpa using hmk⟩
    | all d f => exact ⟨[], true, by simp, by simp, by simpa using hmk⟩

theorem step_marks {c : Cfg} {n : Nat} (hk : c.kind n = some .linear) (hr : c.recording n = true) {s : St} (h : MInv c s) (hlk : Lk c s)
    (op : Op) : timedMarks ((step c s op).1.hist n) = timedMarks (s.hist n) ++ switches (eventsOf n (s.now, op, (step c s op).2)) := by
  cases op with
  | read m =>
    simp only [Active.step, read_marks]
    simp [eventsOf, switches]
  | assign m x =>
    simp only [Active.step, Active.assign]
    split
    · simp [eventsOf, switches]
    · rw [setVal_marks]
      by_cases hm : m = n <;> simp [eventsOf, switches, hm]
  | advance dt =>
    simp only [Active.step]
    split <;> simp [eventsOf, switches]
  | activate m t r =>
    simp only [Active.step]
    by_cases hm : m = n
    · subst hm; exact activate_marks (Or.inl hk) hr t r
    · rw [(Active.activate_same c s (m := m) (n := n) t r (fun e => hm e.symm)).hist]
      cases r with
      | none => simp [eventsOf, switches]
      | some r => cases (activate c s m t (some r)).2 <;> simp [eventsOf, switches, hm]
  | deactivate m t =>
    simp only [Active.step]
    by_cases hm : m = n
    · subst hm
      rw [deactivate_marks hk hr h]
      cases (deactivate c s m t).2 <;> simp [eventsOf, switches]
    · rw [(Active.deactivate_same c s (m := m) (n := n) t (fun e => hm e.symm)).hist]
      cases (deactivate c s m t).2 <;> simp [eventsOf, switches, hm]
  | deactivateAll t ord =>
    simp only [Active.step, Active.deactivateAll]
    obtain ⟨new, f, e1, _, e3⟩ := list_marks hk hr t (if ord.isPerm (s.sbt t) then ord else s.sbt t) (s := s) [] h hlk
      ((Active.allOrder_perm c s t ord).nodup_iff.2 (hlk.ndS t))
    rw [e3, e1]
    by_cases hn : n ∈ new <;> simp [eventsOf, switches, hn]

theorem run_marks {c : Cfg} {n : Nat} (hk : c.kind n = some .linear) (hr : c.recording n = true) (ops : List Op) : ∀ {s : St},
    MInv c s → Lk c s →
    timedMarks ((run c s ops).1.hist n) = timedMarks (s.hist n) ++ switches (events n (run c s ops).2) := by
  induction ops with
  | nil => intro s _ _; simp [Active.run, events, switches]
  | cons op r ih =>
    intro s h hlk
    simp only [Active.run]
    rw [ih (h.step hlk op) (hlk.step op), step_marks hk hr h hlk op]
    simp only [events, List.flatMap_cons]
    rw [switches_append, List.append_assoc]

end Verif.Table
