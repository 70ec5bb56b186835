import Verif.Mimic.Model

/-!
# Property C17
-/

namespace Verif.Mimic

open Verif.Recorded

variable {V : Type}

theorem upd2_self {α : Type} (f : Nat → Nat → α) (i j : Nat) (x : α) : upd2 f i j x i j = x := by
  simp [upd2]

theorem upd2_ne {α : Type} (f : Nat → Nat → α) {i j i' j' : Nat} (x : α) (h : ¬ (i' = i ∧ j' = j)) :
    upd2 f i j x i' j' = f i' j' := by simp [upd2, h]

/-! ## Frames -/

/-- Everything except values and histories is the same. -/
structure Wires (s s' : St V) : Prop where
  now : s'.now = s.now
  mimic : s'.mimic = s.mimic
  byTask : s'.byTask = s.byTask
  cbs : s'.cbs = s.cbs

theorem Wires.refl (s : St V) : Wires s s := ⟨rfl, rfl, rfl, rfl⟩

theorem Wires.trans {s1 s2 s3 : St V} (h : Wires s1 s2) (h' : Wires s2 s3) : Wires s1 s3 :=
  ⟨h'.now.trans h.now, h'.mimic.trans h.mimic, h'.byTask.trans h.byTask, h'.cbs.trans h.cbs⟩

theorem record_wires (c : Cfg V) (s : St V) (a n : Nat) (x : V) :
    Wires s (record c s a n x) ∧ (record c s a n x).value = s.value := by
  unfold record; split <;> exact ⟨⟨rfl, rfl, rfl, rfl⟩, rfl⟩

theorem callbacks_wires (c : Cfg V) (a : Nat) (x : V) (cbs : Dict (Nat × Nat) Nat) : ∀ s : St V,
    Wires s (callbacks c s a x cbs) ∧ (callbacks c s a x cbs).value = s.value := by
  induction cbs with
  | nil => intro s; exact ⟨Wires.refl s, rfl⟩
  | cons p cbs ih =>
    intro s
    obtain ⟨⟨b, m⟩, src⟩ := p
    simp only [callbacks]
    obtain ⟨h1, h2⟩ := ih (if src = a then record c s b m x else s)
    split at h1 <;> rename_i hc
    · rw [if_pos hc] at h2 ⊢
      have := record_wires c s b m x
      exact ⟨this.1.trans h1, h2.trans this.2⟩
    · rw [if_neg hc] at h2 ⊢
      exact ⟨h1, h2⟩

theorem set_wires (c : Cfg V) (s : St V) (a n : Nat) (x : V) :
    Wires s (set c s a n x).1 ∧
    ((set c s a n x).2 = .ok → (set c s a n x).1.value = upd2 s.value a n (some x) ∧ c.okType n x = true) ∧
    ((set c s a n x).2 ≠ .ok → (set c s a n x).1 = s) ∧
    (c.okType n x = true → (set c s a n x).2 = .ok) := by
  unfold set
  split
  · rename_i h
    exact ⟨Wires.refl s, by simp, fun _ => rfl, by rw [h]; simp⟩
  · rename_i h
    have h1 := record_wires c { s with value := upd2 s.value a n (some x) } a n x
    have h2 := callbacks_wires c a x
      ((record c { s with value := upd2 s.value a n (some x) } a n x).cbs n)
      (record c { s with value := upd2 s.value a n (some x) } a n x)
    refine ⟨?_, fun _ => ⟨?_, by simpa using h⟩, by simp, fun _ => rfl⟩
    · have h0 : Wires s { s with value := upd2 s.value a n (some x) } := ⟨rfl, rfl, rfl, rfl⟩
      exact h0.trans (h1.1.trans h2.1)
    · exact h2.2.trans h1.2

/-- A read changes no wiring; it changes no value except that states on the chain take the value read. -/
theorem get_frame (c : Cfg V) (fuel : Nat) : ∀ (s : St V) (a n : Nat),
    Wires s (get c fuel s a n).1 ∧
    (∀ a' n', (s.mimic a').get? n' = none → (get c fuel s a n).1.value a' n' = s.value a' n') ∧
    (∀ v, (get c fuel s a n).2 = .val v → (get c fuel s a n).1.value a n = some v) := by
  induction fuel with
  | zero =>
    intro s a n
    unfold get
    split
    · split
      · rename_i v hv
        refine ⟨Wires.refl s, fun _ _ _ => rfl, ?_⟩
        intro w hw; simp at hw; subst hw; exact hv
      · exact ⟨Wires.refl s, fun _ _ _ => rfl, by simp⟩
    · exact ⟨Wires.refl s, fun _ _ _ => rfl, by simp⟩
  | succ fuel ih =>
    intro s a n
    unfold get
    split
    · split
      · rename_i v hv
        refine ⟨Wires.refl s, fun _ _ _ => rfl, ?_⟩
        intro w hw; simp at hw; subst hw; exact hv
      · exact ⟨Wires.refl s, fun _ _ _ => rfl, by simp⟩
    · rename_i b m hm
      simp only
      obtain ⟨h1, h2, h3⟩ := ih s b m
      split
      · rename_i s1 v heq
        rw [heq] at h1 h2 h3
        simp only at h1 h2 h3
        obtain ⟨g1, g2, g3, _⟩ := set_wires c s1 a n v
        split
        · rename_i s2 heq2
          rw [heq2] at g1 g2
          simp only at g1 g2
          have hv := (g2 trivial).1
          refine ⟨h1.trans g1, ?_, ?_⟩
          · intro a' n' hn
            rw [hv, upd2_ne]
            · exact h2 a' n' hn
            · rintro ⟨rfl, rfl⟩
              rw [hm] at hn; simp at hn
          · intro w hw; simp at hw; subst hw; rw [hv, upd2_self]
        · rename_i s2 o hx heq2
          have : s2 = s1 := by
            have := g3 (by rw [heq2]; exact hx)
            rw [heq2] at this; exact this
          subst this
          exact ⟨h1, h2, by simp⟩
      · rename_i s1 o hx heq
        rw [heq] at h1 h2
        exact ⟨h1, h2, by simp⟩

/-! ## Specification: the source of a mimicking state -/

/-- `Shows c s k a n v`: following at most `k` mimics from state `n` of actor `a` one arrives at a state that is not
mimicking and holds `v`, and `v` is of the right type for every state on the way. -/
inductive Shows (c : Cfg V) (s : St V) : Nat → Nat → Nat → V → Prop
  | own {k a n v} : (s.mimic a).get? n = none → s.value a n = some v → Shows c s k a n v
  | via {k a n b m v} : (s.mimic a).get? n = some (b, m) → Shows c s k b m v → c.okType n v = true →
      Shows c s (k + 1) a n v

theorem Shows.read {c : Cfg V} {s : St V} {k a n : Nat} {v : V} (h : Shows c s k a n v) :
    (get c k s a n).2 = .val v := by
  induction h with
  | own h1 h2 =>
    unfold get
    rw [h1]
    simp only [h2]
  | via h1 _ h3 ih =>
    rename_i k a n b m v _
    unfold get
    rw [h1]
    simp only
    cases hg : get c k s b m with
    | mk s1 o =>
      rw [hg] at ih
      simp only at ih
      subst ih
      simp only
      have := (set_wires c s1 a n v).2.2.2 h3
      cases hs : set c s1 a n v with
      | mk s2 o2 =>
        rw [hs] at this
        simp only at this
        subst this
        rfl

theorem shows_of_read {c : Cfg V} (k : Nat) : ∀ {s : St V} {a n : Nat} {v : V},
    (get c k s a n).2 = .val v → Shows c s k a n v := by
  induction k with
  | zero =>
    intro s a n v h
    unfold get at h
    split at h
    · rename_i h1
      split at h
      · rename_i w h2
        simp at h; subst h
        exact .own h1 h2
      · simp at h
    · simp at h
  | succ k ih =>
    intro s a n v h
    unfold get at h
    split at h
    · rename_i h1
      split at h
      · rename_i w h2
        simp at h; subst h
        exact .own h1 h2
      · simp at h
    · rename_i b m hm
      simp only at h
      split at h
      · rename_i s1 w heq
        have h2 := ih (s := s) (a := b) (n := m) (v := w) (by rw [heq])
        split at h
        · rename_i s2 heq2
          simp at h; subst h
          exact .via hm h2 ((set_wires c s1 a n w).2.1 (by rw [heq2])).2
        · simp at h
      · simp at h

/-- The calls that end a mimic of state `n` of actor `a`. -/
def ends (a n : Nat) : Op V → Bool
  | .deactivate a' n' _ => decide (a' = a ∧ n' = n)
  | .deactivateAll a' _ => decide (a' = a)
  | _ => false

theorem deactivate_mimic (c : Cfg V) (s : St V) (a n t : Nat) (a' n' : Nat) (h : ¬ (a' = a ∧ n' = n)) :
    ((deactivate c s a n t).1.mimic a').get? n' = (s.mimic a').get? n' := by
  have hf := (get_frame c c.depth s a n).1
  unfold deactivate
  split
  · rename_i s1 v heq
    rw [heq] at hf
    simp only at hf
    split
    · simp only; rw [hf.mimic]
    · rename_i b m hm
      split
      · simp only; rw [hf.mimic]
      · have key : ((upd s1.mimic a ((s1.mimic a).del n)) a').get? n' = (s.mimic a').get? n' := by
          rw [hf.mimic]
          simp only [upd]
          split
          · rename_i ha
            subst ha
            rw [Dict.get?_del_ne]
            intro e; exact h ⟨rfl, e.symm⟩
          · rfl
        simp only
        split <;> (split <;> exact key)
  · rename_i s1 o hx heq
    rw [heq] at hf
    simp only at hf ⊢
    rw [hf.mimic]

theorem activate_mimic (c : Cfg V) (s : St V) (a n b m t a' n' : Nat) {x : Nat × Nat}
    (h : (s.mimic a').get? n' = some x) : ((activate c s a n b m t).1.mimic a').get? n' = some x := by
  unfold activate
  split
  · exact h
  · rename_i hn
    have hf := (get_frame c c.depth s b m).1
    split
    · rename_i s1 v heq
      rw [heq] at hf
      simp only at hf
      split
      · simp only; rw [hf.mimic]; exact h
      · have key : ((upd s1.mimic a ((s1.mimic a).set n (b, m))) a').get? n' = some x := by
          rw [hf.mimic]
          simp only [upd]
          split
          · rename_i ha
            subst ha
            rw [Dict.get?_set]
            split
            · rename_i e
              subst e
              simp [Dict.has, h] at hn
            · exact h
          · exact h
        simp only
        split <;> exact key
    · rename_i s1 o hx heq
      rw [heq] at hf
      simp only at hf ⊢
      rw [hf.mimic]; exact h

theorem deactivateList_mimic (c : Cfg V) (a t : Nat) (ns : List Nat) : ∀ (s : St V) (a' n' : Nat),
    (a' ≠ a ∨ n' ∉ ns) → ((deactivateList c s a t ns).1.mimic a').get? n' = (s.mimic a').get? n' := by
  induction ns with
  | nil => intro s a' n' _; rfl
  | cons n ns ih =>
    intro s a' n' h
    have h1 := deactivate_mimic c s a n t a' n' (by
      rintro ⟨e1, e2⟩
      rcases h with h | h
      · exact h e1
      · simp [e2] at h)
    have h2 : a' ≠ a ∨ n' ∉ ns := by
      rcases h with h | h
      · exact Or.inl h
      · right; intro e; exact h (List.mem_cons_of_mem _ e)
    simp only [deactivateList]
    split
    · rename_i s1 heq
      rw [heq] at h1
      rw [ih s1 a' n' h2]
      exact h1
    · rename_i s1 o hx heq
      rw [heq] at h1
      exact h1

theorem mimic_stays {c : Cfg V} {s : St V} {a n : Nat} {x : Nat × Nat} (h : (s.mimic a).get? n = some x) (op : Op V)
    (ho : ends a n op = false) : ((step c s op).1.mimic a).get? n = some x := by
  cases op with
  | set a' n' y => simp only [step]; rw [(set_wires c s a' n' y).1.mimic]; exact h
  | read a' n' => simp only [step]; rw [(get_frame c c.depth s a' n').1.mimic]; exact h
  | activate a' n' b m t => exact activate_mimic c s a' n' b m t a n h
  | deactivate a' n' t =>
    simp only [step]
    rw [deactivate_mimic c s a' n' t a n (by
      rintro ⟨e1, e2⟩; simp [ends, e1, e2] at ho)]
    exact h
  | deactivateAll a' t =>
    simp only [step, deactivateAll]
    rw [deactivateList_mimic c a' t _ s a n (Or.inl (by
      intro e; simp [ends, e] at ho))]
    exact h
  | advance dt => simp only [step]; split <;> exact h

theorem run_append (c : Cfg V) (x y : List (Op V)) : ∀ s : St V, run c s (x ++ y) = run c (run c s x) y := by
  induction x with
  | nil => intro s; rfl
  | cons op x ih => intro s; exact ih _

theorem activate_ok {c : Cfg V} {s : St V} {a n b m t : Nat} (h : (activate c s a n b m t).2 = .ok) :
    ((activate c s a n b m t).1.mimic a).get? n = some (b, m) := by
  unfold activate at h ⊢
  split at h
  · simp at h
  · rename_i hn
    rw [if_neg hn]
    split at h
    · rename_i s1 v heq
      split at h
      · simp at h
      · rename_i hty
        simp only
        rw [if_neg hty]
        split <;> simp [upd]
    · simp at h

/-- **C17 (tracking).** Once `activate_mimic_state` has succeeded, then after any calls except those ending this very
mimic, reading the state gives what reading the source gives: if a read of the source gives `v` (and `v` is of the
mimicking state's type, and the chain of mimics is below the recursion limit), a read of the mimicking state gives
`v`. In particular, a source that is not itself mimicking shows the value it was last given. -/
theorem c17_tracks (c : Cfg V) (t0 : Rat) (before after : List (Op V)) (a n b m t : Nat) (k : Nat) (v : V)
    (hk : k < c.depth)
    (hok : (activate c (run c (init t0) before) a n b m t).2 = .ok)
    (hafter : ∀ op ∈ after, ends a n op = false) :
    let s := run c (init t0) (before ++ .activate a n b m t :: after)
    Shows c s k b m v → c.okType n v = true →
      (step c s (.read b m)).2 = .val v ∧ (step c s (.read a n)).2 = .val v := by
  intro s hv hty
  have hs : s = run c (activate c (run c (init t0) before) a n b m t).1 after := by
    simp only [s]; rw [run_append]; rfl
  have key : ∀ (ops : List (Op V)) (s : St V), (s.mimic a).get? n = some (b, m) →
      (∀ op ∈ ops, ends a n op = false) → ((run c s ops).mimic a).get? n = some (b, m) := by
    intro ops
    induction ops with
    | nil => intro s h _; exact h
    | cons op ops ih =>
      intro s h ho
      exact ih _ (mimic_stays h op (ho op (by simp))) (fun o h => ho o (List.mem_cons_of_mem _ h))
  have hm := key after _ (activate_ok hok) hafter
  rw [← hs] at hm
  have mono : ∀ {k k' a n v}, Shows c s k a n v → k ≤ k' → Shows c s k' a n v := by
    intro k k' a n v h
    induction h generalizing k' with
    | own h1 h2 => intro _; exact .own h1 h2
    | via h1 _ h3 ih =>
      intro hle
      obtain ⟨j, rfl⟩ : ∃ j, k' = j + 1 := ⟨k' - 1, by omega⟩
      exact .via h1 (ih (by omega)) h3
  constructor
  · exact Shows.read (mono hv (by omega))
  · exact Shows.read (mono (Shows.via hm hv hty) (by omega))

/-- All states recorded, integers; negative numbers are of the wrong type for state 3. -/
def demo : Cfg Int := ⟨fun _ => true, fun _ => false, fun n v => decide (n ≠ 3 ∨ 0 ≤ v), fun a b => decide (a = b), 900⟩

/-- Calls for the examples: actors 0 and 1, actor 0 mimics state 2 of actor 1 on its state 3 for task 8. -/
def demoBefore : List (Op Int) := [.set 0 3 7, .set 1 2 5]

example : (activate demo (run demo (init 0) demoBefore) 0 3 1 2 8).2 = .ok ∧
    (∀ op ∈ ([.set 1 2 6, .read 0 3, .advance 3, .set 1 2 9, .deactivateAll 1 8] : List (Op Int)),
      ends 0 3 op = false) ∧
    (step demo (run demo (init 0) (demoBefore ++ .activate 0 3 1 2 8 ::
      [.set 1 2 6, .read 0 3, .advance 3, .set 1 2 9, .deactivateAll 1 8])) (.read 0 3)).2 = .val 9 := by
  decide +kernel

/-- **C17 (after deactivation).** A successful `deactivate_mimic_state` leaves the state no longer mimicking, holding
the value its source showed at that moment. -/
theorem c17_keeps_last (c : Cfg V) (s : St V) (a n t : Nat)
    (hok : (step c s (.deactivate a n t)).2 = .ok) :
    ∃ v, (step c s (.read a n)).2 = .val v ∧
      ((step c s (.deactivate a n t)).1.mimic a).get? n = none ∧
      (step c s (.deactivate a n t)).1.value a n = some v ∧
      (step c (step c s (.deactivate a n t)).1 (.read a n)).2 = .val v := by
  have hf := get_frame c c.depth s a n
  have main : ∃ v, (get c c.depth s a n).2 = .val v ∧
      ((deactivate c s a n t).1.mimic a).get? n = none ∧ (deactivate c s a n t).1.value a n = some v := by
    simp only [step] at hok
    unfold deactivate at hok ⊢
    cases hg : get c c.depth s a n with
    | mk s1 o =>
      rw [hg] at hok hf
      cases o with
      | ok => simp at hok
      | raised => simp at hok
      | val v =>
        refine ⟨v, rfl, ?_⟩
        have hv := hf.2.2 v rfl
        simp only at hok hv ⊢
        cases hm : (s1.mimic a).get? n with
        | none => rw [hm] at hok; simp at hok
        | some p =>
          obtain ⟨b, m⟩ := p
          rw [hm] at hok
          simp only at hok ⊢
          split at hok
          · simp at hok
          · rename_i hc
            rw [if_neg hc]
            cases hr : c.recording n with
            | true =>
              simp only [hr, if_true] at hok ⊢
              split
              · exact ⟨by simp [upd], hv⟩
              · rename_i hn; rw [if_neg hn] at hok; simp at hok
            | false =>
              simp only [hr, Bool.false_eq_true, if_false] at hok ⊢
              split
              · exact ⟨by simp [upd], hv⟩
              · rename_i hn; rw [if_neg hn] at hok; simp at hok
  obtain ⟨v, h1, h2, h3⟩ := main
  refine ⟨v, h1, h2, h3, ?_⟩
  exact Shows.read (.own h2 h3)

example : (step demo (run demo (init 0) (demoBefore ++ [.activate 0 3 1 2 8, .set 1 2 6]))
    (.deactivate 0 3 8)).2 = .ok := by decide +kernel

/-- A value that is not mimicking changes only by assignment to it (or by becoming a mimic). -/
theorem c17_constant_without_mimic (c : Cfg V) (s : St V) (a n : Nat) (op : Op V)
    (hm : (s.mimic a).get? n = none) (hop : (∀ x, op ≠ .set a n x) ∧ ∀ b m t, op ≠ .activate a n b m t) :
    ((step c s op).1.mimic a).get? n = none ∧ (step c s op).1.value a n = s.value a n := by
  have hdeact : ∀ (s : St V) a' n' t, (s.mimic a).get? n = none →
      ((deactivate c s a' n' t).1.mimic a).get? n = none ∧
      (deactivate c s a' n' t).1.value a n = s.value a n := by
    intro s a' n' t hm
    have hf := get_frame c c.depth s a' n'
    by_cases he : a = a' ∧ n = n'
    · obtain ⟨rfl, rfl⟩ := he
      unfold deactivate
      split
      · rename_i s1 v heq
        rw [heq] at hf
        have : (s1.mimic a).get? n = none := by rw [hf.1.mimic]; exact hm
        rw [this]
        exact ⟨this, hf.2.1 a n hm⟩
      · rename_i s1 o hx heq
        rw [heq] at hf
        exact ⟨by simp only; rw [hf.1.mimic]; exact hm, hf.2.1 a n hm⟩
    · refine ⟨by rw [deactivate_mimic c s a' n' t a n he]; exact hm, ?_⟩
      have hv := hf.2.1 a n hm
      unfold deactivate
      split
      · rename_i s1 v heq
        rw [heq] at hv
        split
        · exact hv
        · split
          · exact hv
          · simp only
            split <;> (split <;> exact hv)
      · rename_i s1 o hx heq
        rw [heq] at hv
        exact hv
  cases op with
  | set a' n' x =>
    simp only [step]
    obtain ⟨h1, h2, h3, _⟩ := set_wires c s a' n' x
    refine ⟨by rw [h1.mimic]; exact hm, ?_⟩
    by_cases ho : (set c s a' n' x).2 = .ok
    · rw [(h2 ho).1, upd2_ne]
      rintro ⟨rfl, rfl⟩
      exact hop.1 x rfl
    · rw [h3 ho]
  | read a' n' =>
    have hf := get_frame c c.depth s a' n'
    exact ⟨by simp only [step]; rw [hf.1.mimic]; exact hm, hf.2.1 a n hm⟩
  | activate a' n' b m t =>
    have hf := get_frame c c.depth s b m
    have hne : ¬ (a = a' ∧ n = n') := by rintro ⟨rfl, rfl⟩; exact hop.2 b m t rfl
    simp only [step, activate]
    split
    · exact ⟨hm, rfl⟩
    · split
      · rename_i s1 v heq
        rw [heq] at hf
        have h2 := hf.2.1 a n hm
        split
        · exact ⟨by simp only; rw [hf.1.mimic]; exact hm, h2⟩
        · have key : ((upd s1.mimic a' ((s1.mimic a').set n' (b, m))) a).get? n = none := by
            rw [hf.1.mimic]
            simp only [upd]
            split
            · rename_i ha
              subst ha
              rw [Dict.get?_set, if_neg (fun e => hne ⟨rfl, e.symm⟩)]
              exact hm
            · exact hm
          split <;> exact ⟨key, h2⟩
      · rename_i s1 o hx heq
        rw [heq] at hf
        exact ⟨by simp only; rw [hf.1.mimic]; exact hm, hf.2.1 a n hm⟩
  | deactivate a' n' t => exact hdeact s a' n' t hm
  | deactivateAll a' t =>
    simp only [step, deactivateAll]
    have : ∀ (ns : List Nat) (s : St V), (s.mimic a).get? n = none →
        ((deactivateList c s a' t ns).1.mimic a).get? n = none ∧
        (deactivateList c s a' t ns).1.value a n = s.value a n := by
      intro ns
      induction ns with
      | nil => intro s h; exact ⟨h, rfl⟩
      | cons j ns ih =>
        intro s h
        have h1 := hdeact s a' j t h
        simp only [deactivateList]
        split
        · rename_i s1 heq
          rw [heq] at h1
          obtain ⟨h2, h3⟩ := ih s1 h1.1
          exact ⟨h2, h3.trans h1.2⟩
        · rename_i s1 o hx heq
          rw [heq] at h1
          exact h1
    exact this _ s hm
  | advance dt => simp only [step]; split <;> exact ⟨hm, rfl⟩

/-! ## Where the code fails -/

/-- **C17 is false of the code (1)**: a task that ends "its" mimics ends another task's mimic as well, and raises. -/
theorem c17_end_all_ends_others :
    let s := run demo (init 0) (demoBefore ++ [.activate 0 3 1 2 8])
    (s.mimic 0).get? 3 = some (1, 2) ∧ s.byTask 0 8 = [3] ∧ s.byTask 0 9 = [] ∧
    (step demo s (.deactivateAll 0 9)).2 = .raised ∧
    ((step demo s (.deactivateAll 0 9)).1.mimic 0).get? 3 = none ∧
    (step demo (step demo s (.deactivateAll 0 9)).1 (.deactivate 0 3 8)).2 = .raised := by decide +kernel

/-- **C17 is false of the code (2)**: any task can deactivate a mimic another task started; the call raises, but the
mimic is gone: the state no longer follows its source. -/
theorem c17_other_task_ends_mimic :
    let s := run demo (init 0) (demoBefore ++ [.activate 0 3 1 2 8])
    let s' := (step demo s (.deactivate 0 3 9)).1
    (step demo s (.deactivate 0 3 9)).2 = .raised ∧
    (step demo (step demo s' (.set 1 2 50)).1 (.read 0 3)).2 = .val 5 := by decide +kernel

/-- A wrongly typed value of the source is recorded in the mimicking state's history (the recorder does not check
types), although it can never be the mimicking state's value. -/
theorem c16_mimic_records_wrong_type :
    let s := run demo (init 0) (demoBefore ++ [.activate 0 3 1 2 8, .advance 1, .set 1 2 (-4)])
    demo.okType 3 (-4) = false ∧ s.hist 0 3 = [(0, 7), (1, -4)] ∧
    (step demo s (.read 0 3)).2 = .raised := by decide +kernel

/-! ## The part that holds: one task -/

/-- Invariant: recorders are exactly those of recording mimics; each mimic belongs to some task's set; the mimic
dictionaries have distinct keys. -/
structure Ok (c : Cfg V) (s : St V) : Prop where
  wf : ∀ a, (s.mimic a).WF
  wfc : ∀ m, (s.cbs m).WF
  rec1 : ∀ a n b m, (s.mimic a).get? n = some (b, m) → c.recording n = true → (s.cbs m).get? (a, n) = some b
  rec2 : ∀ a n b m, (s.cbs m).get? (a, n) = some b → (s.mimic a).get? n = some (b, m) ∧ c.recording n = true

theorem Ok.wires {c : Cfg V} {s s' : St V} (h : Ok c s) (hw : Wires s s') : Ok c s' :=
  ⟨by rw [hw.mimic]; exact h.wf, by rw [hw.cbs]; exact h.wfc,
    by rw [hw.mimic, hw.cbs]; exact h.rec1, by rw [hw.mimic, hw.cbs]; exact h.rec2⟩

theorem Ok.congr {c : Cfg V} {s s' : St V} (h : Ok c s) (h1 : s'.mimic = s.mimic) (h2 : s'.cbs = s.cbs) : Ok c s' :=
  ⟨by rw [h1]; exact h.wf, by rw [h2]; exact h.wfc, by rw [h1, h2]; exact h.rec1, by rw [h1, h2]; exact h.rec2⟩

theorem Ok.activate {c : Cfg V} {s : St V} (h : Ok c s) (a n b m t : Nat) : Ok c (activate c s a n b m t).1 := by
  unfold Mimic.activate
  split
  · exact h
  · rename_i hn
    have hf := (get_frame c c.depth s b m).1
    have hnone : (s.mimic a).get? n = none := by
      simpa [Dict.has] using hn
    split
    · rename_i s1 v heq
      rw [heq] at hf
      have h1 := h.wires hf
      simp only at hf
      have hn1 : (s1.mimic a).get? n = none := by rw [hf.mimic]; exact hnone
      split
      · exact h1
      · have hget : ∀ a' n', ((upd s1.mimic a ((s1.mimic a).set n (b, m))) a').get? n' =
            if a' = a ∧ n' = n then some (b, m) else (s1.mimic a').get? n' := by
          intro a' n'
          simp only [upd]
          by_cases ha : a' = a
          · subst ha
            rw [if_pos rfl, Dict.get?_set]
            by_cases hnn : n = n'
            · subst hnn; simp
            · have : ¬ n' = n := fun e => hnn e.symm
              simp [hnn, this]
          · simp [ha]
        have hwf : ∀ a', ((upd s1.mimic a ((s1.mimic a).set n (b, m))) a').WF := by
          intro a'
          simp only [upd]
          split
          · exact Dict.WF_set (h1.wf a) _ _
          · exact h1.wf a'
        cases hr : c.recording n with
        | true =>
          simp only [if_true]
          refine ⟨hwf, ?_, ?_, ?_⟩
          · intro m'
            simp only [upd]
            split
            · exact Dict.WF_set (h1.wfc m) _ _
            · exact h1.wfc m'
          · intro a' n' b' m' hg hr'
            simp only at hg ⊢
            rw [hget] at hg
            split at hg
            · rename_i he
              obtain ⟨rfl, rfl⟩ := he
              simp only [Option.some.injEq, Prod.mk.injEq] at hg
              obtain ⟨rfl, rfl⟩ := hg
              simp [upd]
            · rename_i he
              simp only [upd]
              split
              · rename_i hm
                subst hm
                rw [Dict.get?_set, if_neg]
                · exact h1.rec1 a' n' b' m' hg hr'
                · intro e; simp at e; exact he ⟨e.1.symm, e.2.symm⟩
              · exact h1.rec1 a' n' b' m' hg hr'
          · intro a' n' b' m' hg
            simp only at hg ⊢
            rw [hget]
            simp only [upd] at hg
            split at hg
            · rename_i hm
              subst hm
              rw [Dict.get?_set] at hg
              split at hg
              · rename_i e
                simp only [Prod.mk.injEq] at e
                obtain ⟨rfl, rfl⟩ := e
                simp only [Option.some.injEq] at hg
                subst hg
                simp [hr]
              · rename_i e
                rw [if_neg (by rintro ⟨rfl, rfl⟩; exact e rfl)]
                exact h1.rec2 a' n' b' m' hg
            · have := h1.rec2 a' n' b' m' hg
              rw [if_neg]
              · exact this
              · rintro ⟨rfl, rfl⟩
                rw [hn1] at this; simp at this
        | false =>
          simp only [Bool.false_eq_true, if_false]
          refine ⟨hwf, h1.wfc, ?_, ?_⟩
          · intro a' n' b' m' hg hr'
            simp only at hg ⊢
            rw [hget] at hg
            split at hg
            · rename_i he
              rw [he.2, hr] at hr'; simp at hr'
            · exact h1.rec1 a' n' b' m' hg hr'
          · intro a' n' b' m' hg
            simp only at hg ⊢
            have := h1.rec2 a' n' b' m' hg
            rw [hget, if_neg]
            · exact this
            · rintro ⟨rfl, rfl⟩
              rw [hr] at this; simp at this
    · rename_i s1 o hx heq
      rw [heq] at hf
      exact h.wires hf

/-- Dropping a mimic together with its recorder keeps the invariant. -/
theorem Ok.drop {c : Cfg V} {s : St V} (h : Ok c s) {a n b m : Nat} (hm : (s.mimic a).get? n = some (b, m))
    (s' : St V) (h1 : s'.mimic = upd s.mimic a ((s.mimic a).del n))
    (h2 : s'.cbs = if c.recording n then upd s.cbs m ((s.cbs m).del (a, n)) else s.cbs) : Ok c s' := by
  have hget : ∀ a' n', (s'.mimic a').get? n' = if a' = a ∧ n' = n then none else (s.mimic a').get? n' := by
    intro a' n'
    rw [h1]
    simp only [upd]
    by_cases ha : a' = a
    · subst ha
      rw [if_pos rfl, Dict.get?_del]
      by_cases hnn : n = n'
      · subst hnn; simp
      · have : ¬ n' = n := fun e => hnn e.symm
        simp [hnn, this]
    · simp [ha]
  have hcb : ∀ a' n' m', (s'.cbs m').get? (a', n') =
      if c.recording n = true ∧ m' = m ∧ a' = a ∧ n' = n then none else (s.cbs m').get? (a', n') := by
    intro a' n' m'
    rw [h2]
    cases hr : c.recording n with
    | true =>
      simp only [if_true, upd, true_and]
      by_cases hm' : m' = m
      · subst hm'
        rw [if_pos rfl, Dict.get?_del]
        by_cases he : a' = a ∧ n' = n
        · obtain ⟨rfl, rfl⟩ := he; simp
        · have : ¬ ((a, n) = (a', n')) := by
            intro e; simp at e; exact he ⟨e.1.symm, e.2.symm⟩
          simp [he, this]
      · simp [hm']
    | false => simp
  refine ⟨?_, ?_, ?_, ?_⟩
  · intro a'
    rw [h1]
    simp only [upd]
    split
    · exact Dict.WF_del (h.wf a) _
    · exact h.wf a'
  · intro m'
    rw [h2]
    split
    · simp only [upd]
      split
      · exact Dict.WF_del (h.wfc m) _
      · exact h.wfc m'
    · exact h.wfc m'
  · intro a' n' b' m' hg hr
    rw [hget] at hg
    split at hg
    · simp at hg
    · rename_i he
      rw [hcb, if_neg (fun e => he e.2.2)]
      exact h.rec1 a' n' b' m' hg hr
  · intro a' n' b' m' hg
    rw [hcb] at hg
    split at hg
    · simp at hg
    · rename_i he
      have h3 := h.rec2 a' n' b' m' hg
      rw [hget, if_neg]
      · exact h3
      · rintro ⟨rfl, rfl⟩
        rw [hm] at h3
        simp only [Option.some.injEq, Prod.mk.injEq] at h3
        exact he ⟨h3.2, h3.1.2.symm, rfl, rfl⟩

theorem deactivate_cases {c : Cfg V} {s : St V} (h : Ok c s) (a n t : Nat) :
    (∃ o, deactivate c s a n t = ((get c c.depth s a n).1, .raised) ∧ (get c c.depth s a n).2 = o ∧
      ((∀ v, o ≠ .val v) ∨ (s.mimic a).get? n = none)) ∨
    (∃ v b m s', (get c c.depth s a n).2 = .val v ∧ (s.mimic a).get? n = some (b, m) ∧
      s'.mimic = upd s.mimic a ((s.mimic a).del n) ∧
      s'.cbs = (if c.recording n then upd s.cbs m ((s.cbs m).del (a, n)) else s.cbs) ∧
      s'.value = (get c c.depth s a n).1.value ∧ s'.now = s.now ∧
      ((n ∈ s.byTask a t ∧ deactivate c s a n t = (s', .ok) ∧
          s'.byTask = upd2 s.byTask a t ((s.byTask a t).filter (· ≠ n))) ∨
       (n ∉ s.byTask a t ∧ deactivate c s a n t = (s', .raised) ∧ s'.byTask = s.byTask))) := by
  have hf := (get_frame c c.depth s a n).1
  unfold deactivate
  cases hg : get c c.depth s a n with
  | mk s1 o =>
    rw [hg] at hf
    simp only at hf
    cases o with
    | ok => left; exact ⟨_, rfl, rfl, Or.inl (by simp)⟩
    | raised => left; exact ⟨_, rfl, rfl, Or.inl (by simp)⟩
    | val v =>
      cases hm : (s1.mimic a).get? n with
      | none =>
        left
        refine ⟨_, ?_, rfl, Or.inr (by rw [← hf.mimic]; exact hm)⟩
        simp only [hm]
      | some p =>
        obtain ⟨b, m⟩ := p
        right
        have hm' : (s.mimic a).get? n = some (b, m) := by rw [← hf.mimic]; exact hm
        have hcond : (c.recording n && !(s1.cbs m).has (a, n)) = false := by
          cases hr : c.recording n with
          | false => rfl
          | true =>
            have := h.rec1 a n b m hm' hr
            rw [hf.cbs]
            simp [Dict.has, this]
        simp only [hm]
        rw [if_neg (by rw [hcond]; simp)]
        have hb : (if c.recording n then { s1 with cbs := upd s1.cbs m ((s1.cbs m).del (a, n)) } else s1).byTask
            = s1.byTask := by split <;> rfl
        by_cases hn : n ∈ s1.byTask a t
        · refine ⟨v, b, m, _, rfl, hm', ?_, ?_, ?_, ?_,
            Or.inl ⟨by rw [← hf.byTask]; exact hn, by rw [if_pos (by simp only [hb]; exact hn)], ?_⟩⟩
          · simp only; rw [← hf.mimic]; split <;> rfl
          · simp only; rw [← hf.cbs]; split <;> rfl
          · simp only; split <;> rfl
          · simp only; rw [← hf.now]; split <;> rfl
          · simp only; rw [hb, hf.byTask]
        · refine ⟨v, b, m, _, rfl, hm', ?_, ?_, ?_, ?_,
            Or.inr ⟨by rw [← hf.byTask]; exact hn, by rw [if_neg (by simp only [hb]; exact hn)], ?_⟩⟩
          · simp only; rw [← hf.mimic]; split <;> rfl
          · simp only; rw [← hf.cbs]; split <;> rfl
          · simp only; split <;> rfl
          · simp only; rw [← hf.now]; split <;> rfl
          · simp only; rw [hb, hf.byTask]

theorem Ok.deactivate {c : Cfg V} {s : St V} (h : Ok c s) (a n t : Nat) : Ok c (deactivate c s a n t).1 := by
  rcases deactivate_cases h a n t with ⟨o, e, _⟩ | ⟨v, b, m, s', _, hm, e1, e2, _, _, e3⟩
  · rw [e]; exact h.wires (get_frame c c.depth s a n).1
  · rcases e3 with ⟨_, e, _⟩ | ⟨_, e, _⟩ <;> (rw [e]; exact h.drop hm s' e1 e2)

theorem Ok.step {c : Cfg V} {s : St V} (h : Ok c s) (op : Op V) : Ok c (step c s op).1 := by
  cases op with
  | set a n x => exact h.wires (set_wires c s a n x).1
  | read a n => exact h.wires (get_frame c c.depth s a n).1
  | activate a n b m t => exact h.activate a n b m t
  | deactivate a n t => exact h.deactivate a n t
  | deactivateAll a t =>
    simp only [Mimic.step, deactivateAll]
    have : ∀ (ns : List Nat) (s : St V), Ok c s → Ok c (deactivateList c s a t ns).1 := by
      intro ns
      induction ns with
      | nil => intro s h; exact h
      | cons n ns ih =>
        intro s h
        have h1 := h.deactivate a n t
        simp only [deactivateList]
        split
        · rename_i s1 heq; rw [heq] at h1; exact ih s1 h1
        · rename_i s1 o hx heq; rw [heq] at h1; exact h1
    exact this _ s h
  | advance dt => simp only [Mimic.step]; split
                  · exact h.congr rfl rfl
                  · exact h

theorem Ok.run {c : Cfg V} (ops : List (Op V)) : ∀ {s : St V}, Ok c s → Ok c (run c s ops) := by
  induction ops with
  | nil => intro s h; exact h
  | cons op ops ih => intro s h; exact ih (h.step op)

theorem Ok.init (c : Cfg V) (t0 : Rat) : Ok c (init t0) :=
  ⟨fun _ => Dict.WF_nil, fun _ => Dict.WF_nil, by simp [Mimic.init], by simp [Mimic.init]⟩

/-- The task by which a call on actor `a` manages mimics, if it does. -/
def mimicTask (a : Nat) : Op V → Option Nat
  | .activate a' _ _ _ t => if a' = a then some t else none
  | .deactivate a' _ t => if a' = a then some t else none
  | .deactivateAll a' t => if a' = a then some t else none
  | _ => none

/-- On actor `a`, task `t` owns every mimic. -/
def Owns (a t : Nat) (s : St V) : Prop :=
  ∀ n x, (s.mimic a).get? n = some x → n ∈ s.byTask a t

theorem owns_deactivate {c : Cfg V} {s : St V} (hok : Ok c s) {a t : Nat} (h : Owns a t s) (a' n t' : Nat)
    (ht : a' = a → t' = t) : Owns a t (deactivate c s a' n t').1 := by
  rcases deactivate_cases hok a' n t' with ⟨o, e, _⟩ | ⟨v, b, m, s', _, hm, e1, e2, _, _, e3⟩
  · rw [e]
    have hf := (get_frame c c.depth s a' n).1
    intro j x hj
    simp only at hj ⊢
    rw [hf.mimic] at hj
    rw [hf.byTask]; exact h j x hj
  · have key : Owns a t s' := by
      intro j x hj
      rw [e1] at hj
      simp only [upd] at hj
      by_cases ha : a = a'
      · subst ha
        have ht' := ht rfl
        subst ht'
        rw [if_pos rfl, Dict.get?_del] at hj
        split at hj
        · simp at hj
        · rename_i hnj
          have h1 := h j x hj
          rcases e3 with ⟨_, _, e⟩ | ⟨_, _, e⟩
          · rw [e, upd2_self]
            simp only [List.mem_filter, h1, true_and, ne_eq, decide_not, Bool.not_eq_true',
              decide_eq_false_iff_not]
            exact fun e => hnj e.symm
          · rw [e]; exact h1
      · rw [if_neg ha] at hj
        have h1 := h j x hj
        rcases e3 with ⟨_, _, e⟩ | ⟨_, _, e⟩
        · rw [e, upd2_ne _ _ (fun e => ha e.1)]; exact h1
        · rw [e]; exact h1
    rcases e3 with ⟨_, e, _⟩ | ⟨_, e, _⟩ <;> (rw [e]; exact key)

theorem owns_step {c : Cfg V} {s : St V} (hok : Ok c s) {a t : Nat} (h : Owns a t s) (op : Op V)
    (ho : ∀ u, mimicTask a op = some u → u = t) : Owns a t (step c s op).1 := by
  have hw : ∀ s', Wires s s' → Owns a t s' := by
    intro s' hw j x hj
    rw [hw.mimic] at hj; rw [hw.byTask]; exact h j x hj
  cases op with
  | set a' n x => exact hw _ (set_wires c s a' n x).1
  | read a' n => exact hw _ (get_frame c c.depth s a' n).1
  | activate a' n b m t' =>
    have hf := (get_frame c c.depth s b m).1
    simp only [step, activate]
    split
    · exact h
    · split
      · rename_i s1 v heq
        rw [heq] at hf
        simp only at hf
        split
        · exact hw _ hf
        · have key : ∀ s' : St V, s'.mimic = upd s1.mimic a' ((s1.mimic a').set n (b, m)) →
              s'.byTask = upd2 s1.byTask a' t' (addTo (s1.byTask a' t') n) → Owns a t s' := by
            intro s' e1 e2 j x hj
            rw [e1, hf.mimic] at hj
            rw [e2, hf.byTask]
            simp only [upd] at hj
            by_cases ha : a = a'
            · subst ha
              have : t' = t := ho t' (by simp [mimicTask])
              subst this
              rw [upd2_self]
              rw [if_pos rfl, Dict.get?_set] at hj
              unfold addTo
              split at hj
              · rename_i hnj
                subst hnj
                split
                · assumption
                · simp
              · have := h j x hj
                split
                · exact this
                · simp [this]
            · rw [if_neg ha] at hj
              rw [upd2_ne _ _ (fun e => ha e.1)]
              exact h j x hj
          split
          · exact key _ rfl rfl
          · exact key _ rfl rfl
      · rename_i s1 o hx heq
        rw [heq] at hf
        exact hw _ hf
  | deactivate a' n t' =>
    exact owns_deactivate hok h a' n t' (fun e => ho t' (by simp [mimicTask, e]))
  | deactivateAll a' t' =>
    simp only [step, deactivateAll]
    have : ∀ (ns : List Nat) (s : St V), Ok c s → Owns a t s → Owns a t (deactivateList c s a' t' ns).1 := by
      intro ns
      induction ns with
      | nil => intro s _ h; exact h
      | cons n ns ih =>
        intro s hok h
        have h1 := owns_deactivate hok h a' n t' (fun e => ho t' (by simp [mimicTask, e]))
        have h2 := hok.deactivate a' n t'
        simp only [deactivateList]
        split
        · rename_i s1 heq; rw [heq] at h1 h2; exact ih s1 h2 h1
        · rename_i s1 o hx heq; rw [heq] at h1; exact h1
    exact this _ s hok h
  | advance dt => simp only [step]; split <;> exact h

theorem Shows.det {c : Cfg V} {s : St V} {k a n : Nat} {v : V} (h : Shows c s k a n v) :
    ∀ {k' : Nat} {w : V}, Shows c s k' a n w → v = w := by
  induction h with
  | own h1 h2 =>
    intro k' w h
    cases h with
    | own h3 h4 => rw [h2] at h4; exact Option.some.inj h4
    | via h3 _ _ => rw [h1] at h3; simp at h3
  | via h1 _ _ ih =>
    intro k' w h
    cases h with
    | own h3 _ => rw [h1] at h3; simp at h3
    | via h3 h4 _ =>
      rw [h1] at h3
      simp only [Option.some.injEq, Prod.mk.injEq] at h3
      obtain ⟨rfl, rfl⟩ := h3
      exact ih h4

/-- Ending a mimic leaves what every state shows unchanged. -/
theorem Shows.ended {c : Cfg V} {s s' : St V} {a n k : Nat} {v : V} {x : Nat × Nat}
    (hx : (s.mimic a).get? n = some x) (hv : Shows c s k a n v)
    (hm : ∀ a' n', (s'.mimic a').get? n' = if a' = a ∧ n' = n then none else (s.mimic a').get? n')
    (hval : s'.value a n = some v)
    (hkeep : ∀ a' n', (s.mimic a').get? n' = none → s'.value a' n' = s.value a' n') :
    ∀ {k' a' n' : Nat} {w : V}, Shows c s k' a' n' w → Shows c s' k' a' n' w := by
  intro k' a' n' w h
  induction h with
  | @own k a' n' w h1 h2 =>
    refine .own ?_ ((hkeep a' n' h1).trans h2)
    rw [hm, if_neg]
    · exact h1
    · rintro ⟨rfl, rfl⟩; rw [hx] at h1; simp at h1
  | @via k a' n' b m w h1 h2 h3 ih =>
    by_cases he : a' = a ∧ n' = n
    · obtain ⟨rfl, rfl⟩ := he
      have := hv.det (Shows.via h1 h2 h3)
      subst this
      exact .own (by rw [hm, if_pos ⟨rfl, rfl⟩]) hval
    · refine .via ?_ ih h3
      rw [hm, if_neg he]; exact h1

theorem deactivateList_all {c : Cfg V} {a t : Nat} (ns : List Nat) : ∀ {s : St V}, Ok c s → Owns a t s → ns.Nodup →
    (∀ n, n ∈ ns ↔ ∃ x, (s.mimic a).get? n = some x) →
    (∀ n ∈ ns, ∃ v, Shows c s c.depth a n v) →
    (deactivateList c s a t ns).2 = .ok ∧ (∀ n, ((deactivateList c s a t ns).1.mimic a).get? n = none) ∧
    (∀ n ∈ ns, ∀ v, Shows c s c.depth a n v → (deactivateList c s a t ns).1.value a n = some v) := by
  induction ns with
  | nil =>
    intro s _ _ _ hk _
    refine ⟨rfl, ?_, by simp⟩
    intro n
    simp only [deactivateList]
    cases h : (s.mimic a).get? n with
    | none => rfl
    | some x => have := (hk n).2 ⟨x, h⟩; simp at this
  | cons n ns ih =>
    intro s hok hown hnd hk hsh
    obtain ⟨v, hv⟩ := hsh n (by simp)
    obtain ⟨x, hx⟩ := (hk n).1 (by simp)
    have hread := hv.read
    have hn : n ∈ s.byTask a t := hown n x hx
    have hok' := hok.deactivate a n t
    have hown' := owns_deactivate hok hown a n t (fun _ => rfl)
    rcases deactivate_cases hok a n t with ⟨o, _, e2, e3⟩ | ⟨w, b, m, s', h1, h2, h3, h4, h5, h6, h7⟩
    · exfalso
      rw [hread] at e2
      subst e2
      rcases e3 with e3 | e3
      · exact e3 v rfl
      · rw [hx] at e3; simp at e3
    · rcases h7 with ⟨_, e, e'⟩ | ⟨hc, _⟩
      · rw [e] at hok' hown'
        simp only at hok' hown'
        have hf := get_frame c c.depth s a n
        have hm : ∀ a' n', (s'.mimic a').get? n' = if a' = a ∧ n' = n then none else (s.mimic a').get? n' := by
          intro a' n'
          rw [h3]
          simp only [upd]
          by_cases ha : a' = a
          · subst ha
            rw [if_pos rfl, Dict.get?_del]
            by_cases hnn : n = n'
            · subst hnn; simp
            · have : ¬ n' = n := fun e => hnn e.symm
              simp [hnn, this]
          · simp [ha]
        have hval : s'.value a n = some v := by rw [h5]; exact hf.2.2 v hread
        have hkeep : ∀ a' n', (s.mimic a').get? n' = none → s'.value a' n' = s.value a' n' := by
          intro a' n' h; rw [h5]; exact hf.2.1 a' n' h
        have hnd' := List.nodup_cons.1 hnd
        obtain ⟨r1, r2, r3⟩ := ih hok' hown' hnd'.2
          (by
            intro j
            rw [hm]
            by_cases hj : j = n
            · subst hj
              simp [hnd'.1]
            · have := hk j
              simp only [List.mem_cons, hj, false_or] at this
              rw [this]
              simp [hj])
          (by
            intro j hj
            obtain ⟨w, hw⟩ := hsh j (List.mem_cons_of_mem _ hj)
            exact ⟨w, Shows.ended hx hv hm hval hkeep hw⟩)
        have hstep : deactivateList c s a t (n :: ns) = deactivateList c s' a t ns := by
          simp only [deactivateList]; rw [e]
        rw [hstep]
        refine ⟨r1, r2, ?_⟩
        intro j hj w hw
        rcases List.mem_cons.1 hj with rfl | hj
        · have hvw := hv.det hw
          subst hvw
          have h0 : (s'.mimic a).get? j = none := by rw [hm]; simp
          have : ∀ (ns : List Nat) (s : St V), (s.mimic a).get? j = none →
              (deactivateList c s a t ns).1.value a j = s.value a j := by
            intro ns
            induction ns with
            | nil => intro s _; rfl
            | cons i ns ih =>
              intro s h
              have h1 := c17_constant_without_mimic c s a j (.deactivate a i t) h (by simp)
              simp only [step] at h1
              simp only [deactivateList]
              split
              · rename_i s1 heq
                rw [heq] at h1
                exact (ih s1 h1.1).trans h1.2
              · rename_i s1 o hx heq
                rw [heq] at h1
                exact h1.2
          rw [this ns s' h0, hval]
        · exact r3 j hj w (Shows.ended hx hv hm hval hkeep hw)
      · exact absurd hn hc

/-- **C17 (ending mimics), the part that holds.** If only one task `t` ever manages mimics on actor `a`, then
`deactivate_all_mimic_states` by `t` ends all mimics of `a` without an error, each state keeping the value it
showed (provided each of them can be read at that moment), and no other actor's mimic is affected. Missing: two tasks
on one actor, see `c17_end_all_ends_others` and `c17_other_task_ends_mimic`. -/
theorem c17_end_all_partial (c : Cfg V) (t0 : Rat) (ops : List (Op V)) (a t : Nat)
    (hone : ∀ op ∈ ops, ∀ u, mimicTask a op = some u → u = t)
    (hread : ∀ n ∈ ((run c (init t0) ops).mimic a).keys, ∃ v, Shows c (run c (init t0) ops) c.depth a n v) :
    let s := run c (init t0) ops
    let r := step c s (.deactivateAll a t)
    r.2 = .ok ∧ (∀ n, (r.1.mimic a).get? n = none) ∧
    (∀ n ∈ (s.mimic a).keys, ∀ v, Shows c s c.depth a n v → r.1.value a n = some v) ∧
    (∀ a' n, a' ≠ a → (r.1.mimic a').get? n = (s.mimic a').get? n) := by
  have hown : ∀ (ops : List (Op V)) (s : St V), Ok c s → Owns a t s →
      (∀ op ∈ ops, ∀ u, mimicTask a op = some u → u = t) → Owns a t (run c s ops) := by
    intro ops
    induction ops with
    | nil => intro s _ h _; exact h
    | cons op ops ih =>
      intro s hok h ho
      exact ih _ (hok.step op) (owns_step hok h op (ho op (by simp)))
        (fun o h => ho o (List.mem_cons_of_mem _ h))
  have hO := hown ops (init t0) (Ok.init c t0) (by intro n x h; simp [init] at h) hone
  have hK := (Ok.init c t0 : Ok c (init t0)).run ops
  obtain ⟨h1, h2, h3⟩ := deactivateList_all _ hK hO (hK.wf a)
    (fun n => by
      rw [← Dict.has_iff, Dict.has, Option.isSome_iff_exists]) hread
  exact ⟨h1, h2, h3, fun a' n ha => deactivateList_mimic c a t _ _ a' n (Or.inl ha)⟩

example : (∀ op ∈ demoBefore ++ [.activate 0 3 1 2 8, .activate 0 4 0 3 8], ∀ u, mimicTask 0 op = some u → u = 8) ∧
    ((run demo (init 0) (demoBefore ++ [.activate 0 3 1 2 8, .activate 0 4 0 3 8])).mimic 0).keys = [3, 4] ∧
    (step demo (run demo (init 0) (demoBefore ++ [.activate 0 3 1 2 8, .activate 0 4 0 3 8])) (.read 0 4)).2
      = .val 5 := by
  refine ⟨?_, by decide +kernel, by decide +kernel⟩
  intro op hop u hu
  simp [demoBefore] at hop
  rcases hop with rfl | rfl | rfl | rfl <;> simp [mimicTask] at hu <;> exact hu.symm

/-! ## Recording -/

/-- The last entry is at the present time and shows the present value. -/
def LastIs (same : V → V → Bool) (h : List (Rat × V)) (now : Rat) (x : V) : Prop :=
  ∃ y, h.getLast? = some (now, y) ∧ (x = y ∨ same x y = true)

theorem append_last (dup : Bool) (same : V → V → Bool) (h : List (Rat × V)) (now : Rat) (x : V) :
    LastIs same (Recorded.append dup same h (now, x)) now x := by
  unfold Recorded.append
  split
  · exact ⟨x, rfl, Or.inl rfl⟩
  · rename_i l hl
    split
    · exact ⟨x, by simp, Or.inl rfl⟩
    · rename_i hc
      simp only [Bool.or_eq_true, Bool.not_eq_true', not_or, Bool.not_eq_true, Bool.not_eq_false,
        Bool.and_eq_true, decide_eq_true_eq] at hc
      obtain ⟨lt, ly⟩ := l
      simp only at hc
      exact ⟨ly, by rw [hl, hc.2.1], Or.inr hc.2.2⟩

theorem callbacks_hist_other (c : Cfg V) (b : Nat) (x : V) (a n : Nat) (cbs : Dict (Nat × Nat) Nat) : ∀ s : St V,
    (a, n) ∉ cbs.keys → (callbacks c s b x cbs).hist a n = s.hist a n := by
  induction cbs with
  | nil => intro s _; rfl
  | cons p cbs ih =>
    intro s h
    obtain ⟨⟨b', m'⟩, src⟩ := p
    simp only [Dict.keys, List.map_cons, List.mem_cons, not_or] at h
    simp only [callbacks]
    rw [ih _ h.2]
    split
    · unfold record
      split
      · simp only
        rw [upd2_ne]
        rintro ⟨rfl, rfl⟩
        exact h.1 rfl
      · rfl
    · rfl

theorem callbacks_hist (c : Cfg V) (b : Nat) (x : V) (a n : Nat) (hr : c.recording n = true)
    (cbs : Dict (Nat × Nat) Nat) : ∀ s : St V, cbs.WF → cbs.get? (a, n) = some b →
    LastIs c.same ((callbacks c s b x cbs).hist a n) s.now x := by
  induction cbs with
  | nil => intro s _ h; simp at h
  | cons p cbs ih =>
    intro s hwf h
    obtain ⟨⟨b', m'⟩, src⟩ := p
    have hwf' := List.nodup_cons.1 hwf
    rw [Dict.get?_cons] at h
    simp only [callbacks]
    split at h
    · rename_i he
      simp only [Prod.mk.injEq] at he
      obtain ⟨rfl, rfl⟩ := he
      simp only [Option.some.injEq] at h
      subst h
      rw [if_pos rfl, callbacks_hist_other _ _ _ _ _ _ _ hwf'.1]
      unfold record
      rw [if_pos hr]
      simp only
      rw [upd2_self]
      exact append_last _ _ _ _ _
    · have := ih (if src = b then record c s b' m' x else s) hwf'.2 h
      rwa [show (if src = b then record c s b' m' x else s).now = s.now from by
        split
        · exact (record_wires c s b' m' x).1.now
        · rfl] at this

/-- **C17 (recording).** While a recording state mimics a source, every successful assignment to the source appears at
once, with its time, as the last entry of the mimicking state's history (an entry that `==` cannot tell from the last
one at the same time is not repeated). -/
theorem c17_records (c : Cfg V) (t0 : Rat) (ops : List (Op V)) (a n b m : Nat) (x : V)
    (hm : ((run c (init t0) ops).mimic a).get? n = some (b, m)) (hr : c.recording n = true)
    (hok : (step c (run c (init t0) ops) (.set b m x)).2 = .ok) :
    LastIs c.same ((step c (run c (init t0) ops) (.set b m x)).1.hist a n) (run c (init t0) ops).now x := by
  have hK := (Ok.init c t0 : Ok c (init t0)).run ops
  generalize run c (init t0) ops = s at *
  simp only [step] at hok ⊢
  unfold set at hok ⊢
  split
  · rename_i h; rw [if_pos h] at hok; simp at hok
  · have h1 := record_wires c { s with value := upd2 s.value b m (some x) } b m x
    have hcb := hK.rec1 a n b m hm hr
    have := callbacks_hist c b x a n hr ((record c { s with value := upd2 s.value b m (some x) } b m x).cbs m)
      (record c { s with value := upd2 s.value b m (some x) } b m x)
      (by rw [h1.1.cbs]; exact hK.wfc m) (by rw [h1.1.cbs]; exact hcb)
    rw [h1.1.now] at this
    exact this

example :
    ((run demo (init 0) (demoBefore ++ [.activate 0 3 1 2 8, .advance 2])).mimic 0).get? 3 = some (1, 2) ∧
    (step demo (run demo (init 0) (demoBefore ++ [.activate 0 3 1 2 8, .advance 2])) (.set 1 2 6)).2 = .ok ∧
    (step demo (run demo (init 0) (demoBefore ++ [.activate 0 3 1 2 8, .advance 2])) (.set 1 2 6)).1.hist 0 3 =
      [(0, 7), (2, 6)] := by decide +kernel

end Verif.Mimic
