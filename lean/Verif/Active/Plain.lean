import Verif.Active.Props

/-! # C12 for states that never change by themselves -/

namespace Verif.Active

/-- A state without `_active` reads its value, and reading changes nothing. -/
theorem read_plain {c : Cfg} {s : St} {n : Nat} {x : Rat} (hk : c.kind n = some .plain) (hv : s.value n = some x) : read c s n = (s, .val x) := by
  simp [read, hk, hv]

theorem plain_off {c : Cfg} {s : St} {n t : Nat} {x : Rat} (hk : c.kind n = some .plain) (hv : s.value n = some x) : (deactivate c s n t).1.value n = some x := by
  unfold deactivate
  simp only [hk]
  split
  · rw [read_plain hk (show (unlock s n t).value n = some x from hv)]
    exact hv
  · exact hv

theorem plain_step {c : Cfg} {s : St} {n : Nat} {x : Rat} (hk : c.kind n = some .plain) (hv : s.value n = some x) (op : Op) (ho : ∀ y, op ≠ .assign n y) :
    (step c s op).1.value n = some x := by
  cases op with
  | read m =>
    by_cases h : n = m
    · subst h; show (read c s n).1.value n = _; rw [read_plain hk hv]; exact hv
    · exact (read_same c s h).value.trans hv
  | assign m y =>
    have h : n ≠ m := fun h => ho y (by rw [h])
    show (assign c s m y).1.value n = _
    unfold assign
    split
    · exact hv
    · exact (setVal_same c s y h).value.trans hv
  | activate m t r =>
    by_cases h : n = m
    · subst h
      show (activate c s n t r).1.value n = _
      unfold activate
      simp only [hk]
      split
      · exact hv
      · rw [read_plain hk (show (setActive (lock s n t) n s.now (some t) r none none).value n = some x from hv)]
        exact hv
    · exact (activate_same c s t r h).value.trans hv
  | deactivate m t =>
    by_cases h : n = m
    · subst h; exact plain_off hk hv
    · exact (deactivate_same c s t h).value.trans hv
  | deactivateAll t ord =>
    show (deactivateList c s t [] _).1.value n = _
    generalize (if ord.isPerm (s.sbt t) then ord else s.sbt t) = l
    generalize ([] : List Nat) = done
    induction l generalizing s done with
    | nil => exact hv
    | cons m l ih =>
      have h1 : (deactivate c s m t).1.value n = some x := by
        by_cases h : n = m
        · subst h; exact plain_off hk hv
        · exact (deactivate_same c s t h).value.trans hv
      simp only [deactivateList]
      split
      · rename_i s' heq; rw [heq] at h1; exact ih h1 _
      · rename_i s' o hx heq; rw [heq] at h1; exact h1
  | advance dt =>
    show (if 0 ≤ dt then ({ s with now := s.now + dt }, Out.ok) else (s, Out.raised)).1.value n = _
    split <;> exact hv

theorem plain_run {c : Cfg} {n : Nat} {x : Rat} (hk : c.kind n = some .plain) (ops : List Op) : ∀ s : St, s.value n = some x → (∀ y, Op.assign n y ∉ ops) →
    (run c s ops).1.value n = some x := by
  induction ops with
  | nil => intro s h _; exact h
  | cons op ops ih =>
    intro s h hn
    exact ih _ (plain_step hk h op fun y e => hn y (by simp [e])) fun y hy => hn y (by simp [hy])

/-- **C12, states that do not change by themselves.** Such a state reads what was assigned last, whatever happens to the other states, and attempts to activate it
included; before any assignment it reads what it began with. Reading it changes nothing. -/
theorem c12_plain (c : Cfg) (n : Nat) (t0 : Rat) (v : Nat → Option Rat) (hk : c.kind n = some .plain) (before after : List Op) (hno : ∀ y, Op.assign n y ∉ after) :
    (∀ x, step c (run c (init c t0 v) (before ++ .assign n x :: after)).1 (.read n) = ((run c (init c t0 v) (before ++ .assign n x :: after)).1, .val x)) ∧
      ∀ x, v n = some x → step c (run c (init c t0 v) after).1 (.read n) = ((run c (init c t0 v) after).1, .val x) := by
  refine ⟨fun x => read_plain hk ?_, fun x hx => read_plain hk (plain_run hk after _ hx hno)⟩
  rw [run_append]
  refine plain_run hk after _ ?_ hno
  show (assign c _ n x).1.value n = _
  simp only [assign, hk]
  exact (setVal_fields c n _ x).1

/-- State 7 is plain, state 0 changes at rate 1, and an attempt to activate state 7 fails. -/
example : let c : Cfg := { demoCfg with kind := fun n => if n = 7 then some .plain else demoCfg.kind n }
    (step c (run c (init c 0 demoV) ([.advance 1] ++ .assign 7 3 :: [.activate 0 5 (some 1), .activate 7 5 (some 1), .advance 4, .deactivateAll 5 []])).1 (.read 7)).2 = .val 3 := by
  intro c
  rw [(c12_plain c 7 0 demoV rfl [.advance 1] _ (by simp)).1 3]

end Verif.Active
