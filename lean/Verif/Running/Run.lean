import Verif.Running.Steps

/-! # Names of networks, who is asked, and what holds after any operations -/

namespace Verif.Running

open Spec
open Verif.Network (Net Kind)

theorem enter_nets (s : St) (l : Nat) (t : String) : (enter s l t).1.q.nets = s.q.nets := by
  have hn := beginNext_nets s.q (s.loop l).net t
  unfold enter
  simp only
  cases hb : Network.beginNext s.q (s.loop l).net t with
  | mk q x =>
    rw [hb] at hn
    simp only at hn ⊢
    cases x with
    | done =>
      simp only
      split
      · exact hn
      · split <;> exact hn
    | _ => exact hn

theorem enter_out (s : St) (l : Nat) (t : String) (p : Nat) :
    (enter s l t).1.active ≠ .handler p ∧ (∀ k c, (enter s l t).2 ≠ .called k p c) ∧ (enter s l t).2 ≠ .impossible := by
  unfold enter
  simp only
  cases hb : Network.beginNext s.q (s.loop l).net t with
  | mk q x =>
    cases x with
    | done =>
      simp only
      split
      · simp [crash]
      · split <;> simp
    | _ => simp [crash]

theorem loopNext_nets (s : St) (l : Nat) (t : String) : (loopNext s l t).1.q.nets = s.q.nets := by
  unfold loopNext
  split
  · exact enter_nets _ _ _
  · rfl

theorem loopStart_nets (s : St) (l : Nat) (i : Option String) : (loopStart s l i).1.q.nets = s.q.nets := by
  unfold loopStart
  split
  · exact enter_nets _ _ _
  · split
    · exact enter_nets _ _ _
    · rfl
  · rfl

theorem loopNext_out (s : St) (l : Nat) (t : String) (p : Nat) :
    (loopNext s l t).1.active ≠ .handler p ∧ (∀ k c, (loopNext s l t).2 ≠ .called k p c) ∧ (loopNext s l t).2 ≠ .impossible := by
  unfold loopNext
  split
  · exact enter_out _ _ _ _
  · simp [crash]

theorem loopStart_out (s : St) (l : Nat) (i : Option String) (p : Nat) :
    (loopStart s l i).1.active ≠ .handler p ∧ (∀ k c, (loopStart s l i).2 ≠ .called k p c) ∧ (loopStart s l i).2 ≠ .impossible := by
  unfold loopStart
  split
  · exact enter_out _ _ _ _
  · split
    · exact enter_out _ _ _ _
    · simp [crash]
  · simp [crash]

/-- Only calls change the networks. -/
theorem step_nets (s : St) (op : Op) (hop : ∀ c, op ≠ .call c) : (step s op).1.q.nets = s.q.nets := by
  unfold step
  split
  · rfl
  cases op with
  | call c => exact absurd rfl (hop c)
  | sleep => simp only; split <;> rfl
  | finish =>
    simp only [finish]
    split
    · split
      · rfl
      · rfl
      · split <;> rfl
    · rfl
  | raise => simp only; split <;> rfl
  | answer a =>
    simp only [answer]
    split
    · split
      · rfl
      · unfold apply; split <;> rfl
    · rfl
  | decided =>
    simp only
    split
    · split
      · exact loopNext_nets _ _ _
      · rfl
    · rfl
  | urgent =>
    simp only [doUrgent]
    split
    · split
      · rfl
      · split
        · split
          · exact loopStart_nets _ _ _
          · rfl
        · rfl
        · simp only [deliver]
          split
          · rfl
          · split <;> rfl
          · rfl
    · rfl
  | wake p => simp only; split <;> rfl
  | resume l =>
    simp only
    split
    · split
      · exact loopNext_nets _ _ _
      · rfl
    · rfl
  | advance dt => simp only; split <;> rfl

theorem names_op {op : Op} (hop : ∀ c, op ≠ .call c) (τ : Rat) (x : Out) (tr : Trace) : names ((τ, op, x) :: tr) = names tr := by
  cases op with
  | call c => exact absurd rfl (hop c)
  | _ => rfl

theorem keys_step {s : St} {tr : Trace} (h : s.q.nets.keys = names tr) (op : Op) :
    (step s op).1.q.nets.keys = names ((s.now, op, (step s op).2) :: tr) := by
  by_cases hop : ∀ c, op ≠ .call c
  · rw [step_nets s op hop, names_op hop, h]
  · push Not at hop
    obtain ⟨c, rfl⟩ := hop
    unfold step
    by_cases hc : s.crashed = true
    · rw [if_pos hc]; cases c <;> exact h
    rw [if_neg hc]
    cases c with
    | addNet n net =>
      simp only [doCall, addNet]
      rw [addNet_nets]
      by_cases hn : s.q.nets.has n = true
      · rw [if_pos hn]; exact h
      · rw [if_neg hn]
        have hg : s.q.nets.get? n = none := by
          unfold Dict.has at hn
          cases hg : s.q.nets.get? n with
          | none => rfl
          | some x => simp [hg] at hn
        simp only [names, ← h]
        rw [Dict.mem_set_new hg]
        simp [Dict.keys]
    | delNet n =>
      simp only [doCall, Network.delNet]
      by_cases hn : s.q.nets.has n = true
      · simp only [hn, Bool.not_true, Bool.false_eq_true, if_false, names, ← h]
        exact Dict.keys_del _ _
      · simp only [hn, Bool.not_false, if_true]; exact h
    | setQ n l =>
      simp only [doCall, names]; rw [setQ_nets]; exact h
    | clearQ n => exact h
    | appendQ n t =>
      simp only [doCall, names]; rw [appendQ_nets]; exact h
    | startLoop n init => simp only [doCall, startLoop]; split <;> exact h
    | getRunning n => exact h
    | getAll => exact h
    | interruptNet n c =>
      simp only [doCall, interruptNet]
      split
      · split <;> exact h
      · exact h
    | setMarker i m a => simp only [doCall]; split <;> exact h
    | clearMarker i => simp only [doCall]; split <;> exact h
    | getMarker i => simp only [doCall]; split <;> exact h

theorem keys_run {s : St} {tr : Trace} (h : s.q.nets.keys = names tr) (ops : List Op) :
    (run s tr ops).1.q.nets.keys = names (run s tr ops).2 := by
  induction ops generalizing s tr with
  | nil => exact h
  | cons op ops ih => exact ih (keys_step h op)

/-- Calls do not change who is asked. -/
theorem call_active (s : St) (c : Call) : (doCall s c).1.active = s.active := by
  cases c with
  | addNet n net =>
    simp only [doCall, addNet]
    rw [addNet_nets]
    split <;> rfl
  | startLoop n init => simp only [doCall, startLoop]; split <;> rfl
  | interruptNet n c =>
    simp only [doCall, interruptNet]
    split
    · split <;> rfl
    · rfl
  | setMarker i m a => simp only [doCall]; split <;> rfl
  | clearMarker i => simp only [doCall]; split <;> rfl
  | getMarker i => simp only [doCall]; split <;> rfl
  | _ => rfl

/-- An operation other than a call: impossible, and who is asked stays the same, or what it says is so. -/
theorem op_active (s : St) (op : Op) (hop : ∀ c, op ≠ .call c) :
    ((step s op).2 = .impossible ∧ (step s op).1.active = s.active) ∨
      ((step s op).2 ≠ .impossible ∧ ∀ p, ((step s op).1.active = .handler p ↔ ∃ k c, (step s op).2 = .called k p c)) := by
  have H : ∀ x : St × Out, (∀ p, x.1.active ≠ .handler p ∧ (∀ k c, x.2 ≠ .called k p c) ∧ x.2 ≠ .impossible) →
      (x.2 = .impossible ∧ x.1.active = s.active) ∨ (x.2 ≠ .impossible ∧ ∀ p, (x.1.active = .handler p ↔ ∃ k c, x.2 = .called k p c)) :=
    fun x hx => .inr ⟨(hx 0).2.2, fun p => ⟨fun e => absurd e (hx p).1, fun ⟨k, c, e⟩ => absurd e ((hx p).2.1 k c)⟩⟩
  unfold step
  split
  · exact .inl ⟨rfl, rfl⟩
  cases op with
  | call c => exact absurd rfl (hop c)
  | sleep =>
    simp only
    split
    · exact H _ (by simp)
    · exact .inl ⟨rfl, rfl⟩
  | finish =>
    simp only [finish]
    split
    · rename_i p ha
      split
      · exact H _ (by simp [ha])
      · exact H _ (by simp)
      · split
        · exact H _ (by simp [crash])
        · exact H _ (by simp)
    · exact .inl ⟨rfl, rfl⟩
  | raise =>
    simp only
    split
    · exact .inl ⟨rfl, rfl⟩
    · exact H _ (by simp [crash])
  | answer a =>
    simp only [answer]
    split
    · split
      · exact H _ (by simp [crash])
      · unfold apply; split <;> exact H _ (by simp [crash])
    · exact .inl ⟨rfl, rfl⟩
  | decided =>
    simp only
    split
    · split
      · exact H _ (loopNext_out _ _ _)
      · exact .inl ⟨rfl, rfl⟩
    · exact .inl ⟨rfl, rfl⟩
  | urgent =>
    simp only [doUrgent]
    split
    · rename_i ha
      split
      · exact .inl ⟨rfl, rfl⟩
      · split
        · split
          · exact H _ (loopStart_out _ _ _)
          · exact .inl ⟨rfl, rfl⟩
        · exact H _ (by simp)
        · simp only [deliver]
          split
          · exact H _ (by simp [ha])
          · split
            · exact H _ (by simp [crash])
            · exact .inr ⟨by simp, by simp⟩
          · exact H _ (by simp [crash])
    · exact .inl ⟨rfl, rfl⟩
  | wake p =>
    simp only
    split
    · exact H _ (by simp)
    · exact .inl ⟨rfl, rfl⟩
  | resume l =>
    simp only
    split
    · split
      · exact H _ (loopNext_out _ _ _)
      · exact .inl ⟨rfl, rfl⟩
    · exact .inl ⟨rfl, rfl⟩
  | advance dt =>
    simp only
    split
    · rename_i hh
      simp only [quiet, Bool.and_eq_true, decide_eq_true_eq] at hh
      exact H _ (by simp [hh.1.1.1])
    · exact .inl ⟨rfl, rfl⟩

/-- Who is asked, by the state. -/
def asked (s : St) : Option Nat :=
  match s.active with
  | .handler p => some p
  | _ => none

theorem asked_iff (s : St) (p : Nat) : asked s = some p ↔ s.active = .handler p := by
  unfold asked
  cases s.active <;> simp

theorem handling_step {s : St} {tr : Trace} (h : handling tr = asked s) (op : Op) :
    handling ((s.now, op, (step s op).2) :: tr) = asked (step s op).1 := by
  by_cases hop : ∀ c, op ≠ .call c
  · rcases op_active s op hop with ⟨h1, h2⟩ | ⟨h1, h2⟩
    · rw [h1]
      have : asked (step s op).1 = asked s := by unfold asked; rw [h2]
      rw [this, ← h]
      cases op <;> rfl
    · refine Option.ext fun p => ?_
      rw [asked_iff, h2 p]
      cases op with
      | call c => exact absurd rfl (hop c)
      | _ =>
        generalize hx : (step s _).2 = x at h1
        cases x with
        | impossible => exact absurd rfl h1
        | _ => simp [handling]
  · push Not at hop
    obtain ⟨c, rfl⟩ := hop
    simp only [handling]
    rw [h]
    unfold step
    split
    · rfl
    · simp only [asked, call_active]

theorem handling_run {s : St} {tr : Trace} (h : handling tr = asked s) (ops : List Op) :
    handling (run s tr ops).2 = asked (run s tr ops).1 := by
  induction ops generalizing s tr with
  | nil => exact h
  | cons op ops ih => exact ih (handling_step h op)

/-- The state after some operations, from the beginning, and the trace. -/
def Reached (s : St) (tr : Trace) : Prop := ∃ t0 ops, run (init t0) [] ops = (s, tr) ∧ s.crashed = false

theorem Reached.inv {s : St} {tr : Trace} (h : Reached s tr) : Inv s tr := by
  obtain ⟨t0, ops, e, hc⟩ := h
  have := inv_run (.inr (inv_init t0)) ops
  rw [e] at this
  exact this.resolve_left (by simp [hc])

theorem Reached.names {s : St} {tr : Trace} (h : Reached s tr) : s.q.nets.keys = Spec.names tr := by
  obtain ⟨t0, ops, e, hc⟩ := h
  have := keys_run (s := init t0) (tr := []) rfl ops
  rwa [e] at this

theorem Reached.handling {s : St} {tr : Trace} (h : Reached s tr) : Spec.handling tr = asked s := by
  obtain ⟨t0, ops, e, hc⟩ := h
  have := handling_run (s := init t0) (tr := []) rfl ops
  rwa [e] at this

theorem Reached.step {s : St} {tr : Trace} (h : Reached s tr) (op : Op) :
    Verif.Running.step s op = match op with
      | .call c => doCall s c
      | op => Verif.Running.step s op := by
  obtain ⟨t0, ops, e, hc⟩ := h
  cases op with
  | call c => simp [Verif.Running.step, hc]
  | _ => rfl

end Verif.Running
