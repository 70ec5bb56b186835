import Verif.Active.Run

/-!
# Properties C10-C14 for active states
-/

namespace Verif.Active

/-! ## C10 -/

/-- The calls by which a task `t` ends its use of state `n`. -/
def endsUse (n t : Nat) : Op → Bool
  | .deactivate m u => decide (m = n) && decide (u = t)
  | .deactivateAll u _ => decide (u = t)
  | _ => false

theorem activate_ok_locks {c : Cfg} {s : St} {n t : Nat} {r : Option Rat}
    (h : (activate c s n t r).2 = .ok) : ∃ k, c.kind n = some k ∧ lockRefused k s n t = false := by
  cases hk : c.kind n with
  | none => rw [activate_refused c s n t r (Or.inl hk)] at h; simp at h
  | some k =>
    cases hr : lockRefused k s n t with
    | true => rw [activate_refused c s n t r (Or.inr ⟨k, hk, hr⟩)] at h; simp at h
    | false => exact ⟨k, rfl, hr⟩

theorem activate_ok_tbs {c : Cfg} {s : St} {n t : Nat} {r : Option Rat} (hs : c.kind n ≠ some .shared)
    (h : (activate c s n t r).2 = .ok) : (activate c s n t r).1.tbs n = [t] := by
  obtain ⟨k, hk, hr⟩ := activate_ok_locks h
  rw [(activate_locks c s n t r k hk hr).tbs]
  have h0 : s.tbs n = [] := by
    cases k with
    | shared => exact absurd hk hs
    | plain => simpa [lockRefused] using hr
    | linear => simpa [lockRefused] using hr
  simp [lock, upd_self, h0, addTo]

theorem refused_of_held {c : Cfg} {s : St} {n t : Nat} (hs : c.kind n ≠ some .shared)
    (ht : s.tbs n = [t]) (u : Nat) (r : Option Rat) : activate c s n u r = (s, .raised) := by
  apply activate_refused
  cases hk : c.kind n with
  | none => exact Or.inl rfl
  | some k =>
    refine Or.inr ⟨k, rfl, ?_⟩
    cases k with
    | shared => exact absurd hk hs
    | plain => simp [lockRefused, ht]
    | linear => simp [lockRefused, ht]

theorem deactivateAll_other {c : Cfg} {s : St} (hlk : Lk c s) {n t u : Nat} (ht : s.tbs n = [t])
    (hu : u ≠ t) (ord : List Nat) : n ∉ (if ord.isPerm (s.sbt u) then ord else s.sbt u) := by
  intro hm
  have := ((allOrder_perm c s u ord).mem_iff).mp hm
  rw [hlk.inv, ht] at this
  simp at this
  exact hu this

theorem held_step {c : Cfg} {s : St} (hlk : Lk c s) {n t : Nat} (hs : c.kind n ≠ some .shared)
    (ht : s.tbs n = [t]) (op : Op) (ho : endsUse n t op = false) : (step c s op).1.tbs n = [t] := by
  cases op with
  | read m => simp only [step]; rw [(read_locks c s m).tbs]; exact ht
  | assign m x =>
    simp only [step, assign]
    split
    · exact ht
    · rw [(setVal_locks c s m x).tbs]; exact ht
  | activate m u r =>
    simp only [step]
    by_cases hm : n = m
    · subst hm; rw [refused_of_held hs ht]; exact ht
    · rw [(activate_same c s u r hm).tbs]; exact ht
  | deactivate m u =>
    simp only [step]
    by_cases hm : n = m
    · subst hm
      have hu : u ≠ t := by simpa [endsUse] using ho
      rw [deactivate_refused c s n u (Or.inr (by rw [ht]; simpa using hu))]; exact ht
    · rw [(deactivate_same c s u hm).tbs]; exact ht
  | deactivateAll u ord =>
    have hu : u ≠ t := by simpa [endsUse] using ho
    simp only [step, deactivateAll]
    rw [(deactivateList_same c s u n [] _ (deactivateAll_other hlk ht hu ord)).tbs]; exact ht
  | advance dt => simp only [step]; split <;> exact ht

theorem held_run {c : Cfg} (ops : List Op) : ∀ {s : St} (_ : Lk c s) {n t : Nat}
    (_ : c.kind n ≠ some .shared) (_ : s.tbs n = [t]) (_ : ∀ op ∈ ops, endsUse n t op = false),
    (run c s ops).1.tbs n = [t] := by
  induction ops with
  | nil => intro s _ n t _ ht _; exact ht
  | cons op ops ih =>
    intro s hlk n t hs ht ho
    exact ih (hlk.step op) hs (held_step hlk hs ht op (ho op (by simp)))
      (fun o h => ho o (List.mem_cons_of_mem _ h))

/-- **C10 (exclusion).** Once `activate_state(state=n, task=t)` has succeeded on a non-shared state, then
after any further calls by anyone, other than `t` itself deactivating it: every `activate_state` of `n` and
every `deactivate_state` of `n` by another task raises and leaves the whole actor as it was, and another
task's `deactivate_all_states` leaves everything about `n` as it was. -/
theorem c10_exclusive (c : Cfg) (t0 : Rat) (v : Nat → Option Rat) (before after : List Op) (n t : Nat)
    (r : Option Rat) (hn : c.kind n ≠ some .shared)
    (hok : (activate c (run c (init c t0 v) before).1 n t r).2 = .ok)
    (hafter : ∀ op ∈ after, endsUse n t op = false) :
    let s := (run c (init c t0 v) (before ++ .activate n t r :: after)).1
    (∀ u q, step c s (.activate n u q) = (s, .raised)) ∧
    (∀ u, u ≠ t → step c s (.deactivate n u) = (s, .raised)) ∧
    (∀ u ord, u ≠ t → let s' := (step c s (.deactivateAll u ord)).1
      s'.value n = s.value n ∧ s'.active n = s.active n ∧ s'.hist n = s.hist n ∧ s'.now = s.now) := by
  have hs : (run c (init c t0 v) (before ++ .activate n t r :: after)).1 =
      (run c (activate c (run c (init c t0 v) before).1 n t r).1 after).1 := by
    rw [run_append]; rfl
  have hlk1 := (Lk.init c t0 v).run before
  have hlk2 := hlk1.activate n t r
  have ht := held_run after hlk2 hn (activate_ok_tbs hn hok) hafter
  have hlk3 := hlk2.run after
  rw [hs]
  refine ⟨?_, ?_, ?_⟩
  · intro u q; exact refused_of_held hn ht u q
  · intro u hu; exact deactivate_refused c _ n u (Or.inr (by rw [ht]; simpa using hu))
  · intro u ord hu
    have := deactivateList_same c (run c (activate c (run c (init c t0 v) before).1 n t r).1 after).1 u n []
      _ (deactivateAll_other hlk3 ht hu ord)
    exact ⟨this.value, this.active, this.hist, this.now⟩

/-- A configuration for the examples: state 0 linear and recording, 1 shared and recording, 2 plain. -/
def demoCfg : Cfg where
  kind := fun n => match n with
    | 0 => some .linear
    | 1 => some .shared
    | 2 => some .plain
    | _ => none
  recording := fun n => decide (n < 2)
  dup := fun _ => false

/-- Initial values. -/
def demoV : Nat → Option Rat := fun n => if n < 3 then some 10 else none

example : (activate demoCfg (run demoCfg (init demoCfg 0 demoV) [.activate 1 7 (some 1), .advance 2]).1 0 5
    (some 3)).2 = .ok ∧ demoCfg.kind 0 ≠ some .shared ∧
    ∀ op ∈ [Op.deactivate 0 7, .read 0, .deactivateAll 7 [], .activate 0 7 (some 1)],
      endsUse 0 5 op = false := by decide +kernel

theorem deactivate_ok_tbs {c : Cfg} {s : St} {n t : Nat} (h : (deactivate c s n t).2 = .ok) :
    t ∈ s.tbs n ∧ (deactivate c s n t).1.tbs n = (s.tbs n).filter (· ≠ t) := by
  by_cases hk : c.kind n = none
  · rw [deactivate_refused c s n t (Or.inl hk)] at h; simp at h
  · by_cases ht : t ∈ s.tbs n
    · refine ⟨ht, ?_⟩
      rw [(deactivate_locks c s n t hk ht).tbs]
      simp [unlock, upd_self]
    · rw [deactivate_refused c s n t (Or.inr ht)] at h; simp at h

/-- What `deactivate_all_states` reports done is released. -/
theorem deactivateList_done {c : Cfg} (t n : Nat) (l : List Nat) : ∀ (s : St) (done : List Nat),
    (n ∈ done → t ∉ s.tbs n) → ∀ d f, (deactivateList c s t done l).2 = .all d f → n ∈ d →
      t ∉ (deactivateList c s t done l).1.tbs n := by
  induction l with
  | nil =>
    intro s done h d f he hn
    simp only [deactivateList, Out.all.injEq] at he
    rw [← he.1] at hn
    exact h hn
  | cons m l ih =>
    intro s done h d f he hn
    simp only [deactivateList] at he ⊢
    split at he
    · rename_i s' heq
      refine ih s' (done ++ [m]) ?_ d f he hn
      intro hm
      by_cases hnm : n = m
      · subst hnm
        have := deactivate_ok_tbs (c := c) (s := s) (n := n) (t := t) (by rw [heq])
        rw [heq] at this
        rw [this.2]; simp
      · have hs := deactivate_same c s t hnm
        rw [heq] at hs
        rw [hs.tbs]
        apply h
        simpa [hnm] using hm
    · rename_i s' o hx heq
      simp only [Out.all.injEq] at he
      rw [← he.1] at hn
      simp only
      by_cases hnm : n = m
      · subst hnm
        by_cases hk : c.kind n = none
        · rw [deactivate_refused c s n t (Or.inl hk)] at heq
          simp at heq; rw [← heq.1]; exact h hn
        · by_cases ht : t ∈ s.tbs n
          · exact absurd ht (h hn)
          · rw [deactivate_refused c s n t (Or.inr ht)] at heq
            simp at heq; rw [← heq.1]; exact h hn
      · have hs := deactivate_same c s t hnm
        rw [heq] at hs
        rw [hs.tbs]; exact h hn

/-- **C10 (release).** After a task's successful `deactivate_state` of a non-shared state — or its
`deactivate_all_states` having deactivated it — any task may activate it: `activate_state` succeeds
(for a `LinearChangingState` with a value, given a rate). -/
theorem c10_released (c : Cfg) (t0 : Rat) (v : Nat → Option Rat) (ops : List Op) (n t : Nat) (v0 : Rat)
    (hk : c.kind n = some .linear) (hv : v n = some v0)
    (hok : okRun c n (init c t0 v) ops = true) :
    let s := (run c (init c t0 v) ops).1
    ((step c s (.deactivate n t)).2 = .ok → ∀ u r,
      (step c (step c s (.deactivate n t)).1 (.activate n u (some r))).2 = .ok) ∧
    (∀ ord d f, (step c s (.deactivateAll t ord)).2 = .all d f → n ∈ d → ∀ u r,
      (step c (step c s (.deactivateAll t ord)).1 (.activate n u (some r))).2 = .ok) := by
  intro s
  have hlk : Lk c s := (Lk.init c t0 v).run ops
  have hf := Full.run ops (Full.init c n v0 t0 v (Or.inl hk) hv) (Lk.init c t0 v) hok
  have hone : ∀ s' : St, Lk c s' → ∀ t, s'.tbs n = [t] ∨ s'.tbs n = [] ∨ t ∉ s'.tbs n := by
    intro s' hl t
    have := hl.one n (by rw [hk]; simp)
    match h : s'.tbs n with
    | [] => simp
    | [a] =>
      by_cases ha : a = t
      · simp [ha]
      · right; right; simpa using fun h => ha h.symm
    | a :: b :: l => rw [h] at this; simp at this
  constructor
  · intro h u r
    have h1 := hf.step hlk (.deactivate n t) rfl
    have hlk' := hlk.step (.deactivate n t)
    have h2 := deactivate_ok_tbs h
    have hnil : (step c s (.deactivate n t)).1.tbs n = [] := by
      simp only [step]
      rw [h2.2]
      rcases hone s hlk t with h3 | h3 | h3
      · rw [h3]; simp
      · rw [h3]; simp
      · exact absurd h2.1 h3
    obtain ⟨s', e1, _⟩ := h1.good.activate u r .linear hk (by simp only [lockRefused]; simp; exact hnil)
    have : step c (step c s (.deactivate n t)).1 (.activate n u (some r)) = (s', .ok) := e1
    rw [this]
  · intro ord d f h hd u r
    have h1 := hf.step hlk (.deactivateAll t ord) rfl
    have hlk' := hlk.step (.deactivateAll t ord)
    have hnot := deactivateList_done t n (if ord.isPerm (s.sbt t) then ord else s.sbt t) s [] (by simp) d f h hd
    have hmem : t ∈ s.tbs n := by
      -- only held states are reported done
      by_contra hne
      have hnl : n ∉ (if ord.isPerm (s.sbt t) then ord else s.sbt t) := by
        intro hm
        exact hne ((hlk.inv n t).mp (((allOrder_perm c s t ord).mem_iff).mp hm))
      have hsub : ∀ (l : List Nat) (s : St) (done d : List Nat) f, (deactivateList c s t done l).2 = .all d f →
          ∀ x ∈ d, x ∈ done ∨ x ∈ l := by
        intro l
        induction l with
        | nil => intro s done d f he x hx; simp [deactivateList] at he; left; rw [he.1]; exact hx
        | cons m l ih =>
          intro s done d f he x hx
          simp only [deactivateList] at he
          split at he
          · rcases ih _ _ _ _ he x hx with h | h
            · rcases List.mem_append.mp h with h | h
              · exact Or.inl h
              · simp at h; right; simp [h]
            · right; simp [h]
          · simp at he; left; rw [he.1]; exact hx
      rcases hsub _ _ _ _ _ h n hd with h' | h'
      · simp at h'
      · exact hnl h'
    have hnil : (step c s (.deactivateAll t ord)).1.tbs n = [] := by
      rcases hone s hlk t with h3 | h3 | h3
      · -- the only owner was `t`
        have hle : ∀ (l : List Nat) (s : St) (done : List Nat), (∀ x ∈ s.tbs n, x = t) →
            ∀ x ∈ (deactivateList c s t done l).1.tbs n, x = t := by
          intro l
          induction l with
          | nil => intro s done h x hx; exact h x hx
          | cons m l ih =>
            intro s done h
            have hd : ∀ x ∈ (deactivate c s m t).1.tbs n, x = t := by
              by_cases hnm : n = m
              · subst hnm
                by_cases ht : t ∈ s.tbs n
                · rw [(deactivate_locks c s n t (by rw [hk]; simp) ht).tbs]
                  intro x hx
                  simp [unlock, upd_self] at hx
                  exact h x hx.1
                · rw [deactivate_refused c s n t (Or.inr ht)]; exact h
              · rw [(deactivate_same c s t hnm).tbs]; exact h
            simp only [deactivateList]
            split
            · rename_i s' heq; rw [heq] at hd; exact ih s' _ hd
            · rename_i s' o hx heq; rw [heq] at hd; exact hd
        have h4 := hle (if ord.isPerm (s.sbt t) then ord else s.sbt t) s [] (by rw [h3]; simp)
        simp only [step, deactivateAll]
        rcases hone _ hlk' t with h5 | h5 | h5
        · exact absurd (by simp only [step, deactivateAll] at h5; rw [h5]; simp) hnot
        · exact h5
        · cases h6 : (deactivateList c s t [] (if ord.isPerm (s.sbt t) then ord else s.sbt t)).1.tbs n with
          | nil => rfl
          | cons a l =>
            rw [h6] at h4 hnot
            have := h4 a (by simp)
            subst this
            simp at hnot
      · rw [h3] at hmem; simp at hmem
      · exact absurd hmem h3
    obtain ⟨s', e1, _⟩ := h1.good.activate u r .linear hk (by simp only [lockRefused]; simp; exact hnil)
    have : step c (step c s (.deactivateAll t ord)).1 (.activate n u (some r)) = (s', .ok) := e1
    rw [this]

example : okRun demoCfg 0 (init demoCfg 0 demoV) [.activate 0 5 (some 3), .read 0, .assign 0 4] = true ∧
    (step demoCfg (run demoCfg (init demoCfg 0 demoV)
      [.activate 0 5 (some 3), .read 0, .assign 0 4]).1 (.deactivate 0 5)).2 = .ok := by decide +kernel

/-! ## C11, C13 -/

/-- **C11, C13.** A read of a linear or shared state gives exactly the starting value plus, for every rate
ever switched on by a task, rate × the time it has been on — whatever reads, activations, refused calls and
other states' activity the history contains. (For a `LinearChangingState` there is at most one rate on at a
time by C10.) -/
theorem c13_value_is_sum (c : Cfg) (n : Nat) (t0 v0 : Rat) (v : Nat → Option Rat)
    (hk : c.kind n = some .linear ∨ c.kind n = some .shared) (hv : v n = some v0) (ops : List Op)
    (hok : okRun c n (init c t0 v) ops = true) (hns : ∀ x, Op.assign n x ∉ ops) :
    let s := (run c (init c t0 v) ops).1
    let evs := events n (run c (init c t0 v) ops).2
    (step c s (.read n)).2 = .val (v0 + accrued evs s.now) := by
  have hf := Full.run ops (Full.init c n v0 t0 v hk hv) (Lk.init c t0 v) hok
  rw [List.nil_append] at hf
  have hno : NoSet (events n (run c (init c t0 v) ops).2) := by
    have key : ∀ (ops : List Op) (s : St), (∀ x, Op.assign n x ∉ ops) → NoSet (events n (run c s ops).2) := by
      intro ops
      induction ops with
      | nil => intro s _ e he; simp [run, events] at he
      | cons op ops ih =>
        intro s h e he x
        have h' : ∀ x, Op.assign n x ∉ ops := fun x hx => h x (List.mem_cons_of_mem _ hx)
        have hh : e ∈ eventsOf n (s.now, op, (step c s op).2) ∨
            e ∈ events n (run c (step c s op).1 ops).2 := by
          simp only [run, events, List.flatMap_cons, List.mem_append] at he
          exact he
        rcases hh with he | he
        · intro hx
          unfold eventsOf at he
          split at he
          · split at he <;> simp at he; subst he; simp at hx
          · split at he <;> simp at he; subst he; simp at hx
          · split at he <;> simp at he; subst he; simp at hx
          · rename_i τ m y heq
            split at he
            · rename_i hm
              simp at he; subst he
              simp only [Prod.mk.injEq] at heq
              rw [hm] at heq
              exact h y (by rw [heq.2.1]; simp)
            · simp at he
          · simp at he
        · exact ih _ h' e he x
    exact key ops _ hns
  intro s evs
  have := hf.read.2.1
  rw [simulate_closed v0 t0 _ _ hf.order hno] at this
  exact this

/-- A shared state with two overlapping tasks (rates 2 and -1), with reads in between. -/
def demoOps : List Op :=
  [.activate 1 5 (some 2), .advance 1, .read 1, .activate 1 6 (some (-1)), .advance 2, .deactivate 1 6,
    .read 1, .advance 3, .deactivate 1 5, .advance 7]

example : okRun demoCfg 1 (init demoCfg 0 demoV) demoOps = true ∧ (∀ x, Op.assign 1 x ∉ demoOps) ∧
    (step demoCfg (run demoCfg (init demoCfg 0 demoV) demoOps).1 (.read 1)).2 = .val 20 := by
  refine ⟨by decide +kernel, ?_, by decide +kernel⟩
  intro x hx; simp [demoOps] at hx

/-- Calls that are not the owner ending its use, and no assignment to `n`. -/
def quiet (n t : Nat) (op : Op) : Bool :=
  !endsUse n t op && (match op with
    | .assign m _ => decide (m ≠ n)
    | _ => true)

theorem quiet_no_events {c : Cfg} (ops : List Op) : ∀ {s : St} (_ : Lk c s) {n t : Nat}
    (_ : c.kind n ≠ some .shared) (_ : s.tbs n = [t]) (_ : ∀ op ∈ ops, quiet n t op = true),
    events n (run c s ops).2 = [] := by
  induction ops with
  | nil => intros; rfl
  | cons op ops ih =>
    intro s hlk n t hs ht hq
    have hq0 := hq op (by simp)
    simp only [quiet, Bool.and_eq_true, Bool.not_eq_true'] at hq0
    have h1 := ih (hlk.step op) hs (held_step hlk hs ht op hq0.1) (fun o h => hq o (List.mem_cons_of_mem _ h))
    have h2 : eventsOf n (s.now, op, (step c s op).2) = [] := by
      cases op with
      | read m => rfl
      | assign m x =>
        have hm : m ≠ n := by simpa using hq0.2
        cases h : (step c s (.assign m x)).2 <;> simp [eventsOf, hm]
      | activate m u r =>
        by_cases hm : n = m
        · subst hm
          simp only [step]
          rw [refused_of_held hs ht]
          cases r <;> rfl
        · cases r with
          | none => rfl
          | some r => cases h : (step c s (.activate m u (some r))).2 <;> simp [eventsOf, Ne.symm hm]
      | deactivate m u =>
        by_cases hm : n = m
        · subst hm
          have hu : u ≠ t := by simpa [endsUse] using hq0.1
          simp only [step]
          rw [deactivate_refused c s n u (Or.inr (by rw [ht]; simpa using hu))]
          rfl
        · cases h : (step c s (.deactivate m u)).2 <;> simp [eventsOf, Ne.symm hm]
      | deactivateAll u ord =>
        have hu : u ≠ t := by simpa [endsUse] using hq0.1
        have hnl := deactivateAll_other hlk ht hu ord
        have hsub : ∀ (l : List Nat) (s : St) (done : List Nat), n ∉ done → n ∉ l →
            ∃ d f, (deactivateList c s u done l).2 = .all d f ∧ n ∉ d := by
          intro l
          induction l with
          | nil => intro s done h _; exact ⟨done, false, rfl, h⟩
          | cons m l ih =>
            intro s done h hl
            simp only [List.mem_cons, not_or] at hl
            simp only [deactivateList]
            split
            · exact ih _ _ (by simp [h, hl.1]) hl.2
            · exact ⟨done, true, rfl, h⟩
        obtain ⟨d, f, a, b⟩ := hsub _ s [] (by simp) hnl
        simp only [step, deactivateAll]
        rw [a]
        simp [eventsOf, b]
      | advance dt => cases h : (step c s (.advance dt)).2 <;> rfl
    simp only [run, events, List.flatMap_cons]
    rw [h2]
    exact h1

/-- **C11.** A `LinearChangingState` that reads `v1` when a task activates it with rate `r` reads
`v1 + r * (now - then)` at any later time, whatever happens in between (any reads at any times, any
attempts of other tasks, any activity on other states), until its owner deactivates it or it is assigned. -/
theorem c11_linear_reads (c : Cfg) (n t : Nat) (t0 v0 r : Rat) (v : Nat → Option Rat)
    (hk : c.kind n = some .linear) (hv : v n = some v0) (before after : List Op)
    (hok : okRun c n (init c t0 v) (before ++ .activate n t (some r) :: after) = true)
    (hact : (activate c (run c (init c t0 v) before).1 n t (some r)).2 = .ok)
    (hq : ∀ op ∈ after, quiet n t op = true) :
    let s1 := (run c (init c t0 v) before).1
    let s := (run c (init c t0 v) (before ++ .activate n t (some r) :: after)).1
    ∃ v1, (step c s1 (.read n)).2 = .val v1 ∧ (step c s (.read n)).2 = .val (v1 + r * (s.now - s1.now)) := by
  have hns : c.kind n ≠ some .shared := by rw [hk]; simp
  have hokA : ∀ (a b : List Op) (s : St), okRun c n s (a ++ b) = true →
      okRun c n s a = true ∧ okRun c n (run c s a).1 b = true := by
    intro a
    induction a with
    | nil => intro b s h; exact ⟨rfl, h⟩
    | cons op a ih =>
      intro b s h
      simp only [List.cons_append, okRun, Bool.and_eq_true] at h
      obtain ⟨h1, h2⟩ := ih b _ h.2
      exact ⟨by simp [okRun, h.1, h1], h2⟩
  obtain ⟨hok1, hok2⟩ := hokA before _ _ hok
  have hlk1 := (Lk.init c t0 v).run before
  have hf1 := Full.run before (Full.init c n v0 t0 v (Or.inl hk) hv) (Lk.init c t0 v) hok1
  simp only [List.nil_append] at hf1
  have hread1 := hf1.read.2.1
  -- rates were empty
  obtain ⟨k, hk', hr⟩ := activate_ok_locks hact
  have hkk : k = .linear := by rw [hk] at hk'; simpa using hk'.symm
  subst hkk
  have hnil : (run c (init c t0 v) before).1.tbs n = [] := by simpa [lockRefused] using hr
  have hrates : (simulate v0 t0 (events n (run c (init c t0 v) before).2)).rates = [] := by
    have := hf1.good.keys; rw [hnil] at this; simpa using this
  have hf2 := hf1.step hlk1 (.activate n t (some r)) rfl
  have hev : eventsOf n ((run c (init c t0 v) before).1.now, .activate n t (some r),
      (step c (run c (init c t0 v) before).1 (.activate n t (some r))).2) =
      [((run c (init c t0 v) before).1.now, .on t r)] := by
    have : (step c (run c (init c t0 v) before).1 (.activate n t (some r))).2 = .ok := hact
    rw [this]; simp [eventsOf]
  rw [hev] at hf2
  simp only [okRun, Bool.and_eq_true] at hok2
  have hlk2 := hlk1.step (.activate n t (some r))
  have hf3 := Full.run after hf2 hlk2 hok2.2
  rw [quiet_no_events after hlk2 hns (activate_ok_tbs hns hact) hq, List.append_nil] at hf3
  have hread3 := hf3.read.2.1
  refine ⟨_, hread1, ?_⟩
  have hs : (run c (init c t0 v) (before ++ .activate n t (some r) :: after)).1 =
      (run c (step c (run c (init c t0 v) before).1 (.activate n t (some r))).1 after).1 := by
    rw [run_append]; rfl
  rw [hs]
  simp only [step] at hread3 ⊢
  rw [hread3, simulate_append]
  simp only [Sp.ev, Sp.valueAt, hrates, List.nil_append, List.map_cons, List.map_nil, List.sum_cons,
    List.sum_nil]
  congr 1
  ring

example : okRun demoCfg 0 (init demoCfg 0 demoV) ([.advance 2] ++ .activate 0 5 (some 3) ::
      [.advance 1, .read 0, .activate 0 6 (some 1), .deactivateAll 6 [], .advance 4]) = true ∧
    (∀ op ∈ [Op.advance 1, .read 0, .activate 0 6 (some 1), .deactivateAll 6 [], .advance 4],
      quiet 0 5 op = true) := by decide +kernel

/-- Calls that cannot change `n`: no activation of it and no assignment to it. -/
def inert (n : Nat) : Op → Bool
  | .assign m _ => decide (m ≠ n)
  | .activate m _ _ => decide (m ≠ n)
  | _ => true

theorem inert_run {c : Cfg} {n : Nat} (hk : c.kind n = some .linear ∨ c.kind n = some .shared)
    (ops : List Op) : ∀ {s : St} {x : Rat} (_ : Lk c s) (_ : s.value n = some x) (_ : s.active n = none)
    (_ : s.tbs n = []) (_ : ∀ op ∈ ops, inert n op = true),
    (run c s ops).1.value n = some x ∧ (run c s ops).1.active n = none := by
  induction ops with
  | nil => intro s x _ a b _ _; exact ⟨a, b⟩
  | cons op ops ih =>
    intro s x hlk hx ha ht hq
    have h0 := hq op (by simp)
    have key : Same n s (step c s op).1 ∨ ((step c s op).1.value n = s.value n ∧
        (step c s op).1.active n = s.active n ∧ (step c s op).1.tbs n = s.tbs n) := by
      cases op with
      | read m =>
        by_cases hm : n = m
        · subst hm
          right
          simp only [step]
          rw [read_inactive c n s x hk hx ha]
          exact ⟨rfl, rfl, rfl⟩
        · left; exact read_same c s hm
      | assign m y =>
        have hm : n ≠ m := by simp [inert] at h0; exact fun h => h0 h.symm
        left
        simp only [step, assign]
        split
        · exact Same.rfl'
        · exact setVal_same c s y hm
      | activate m u r =>
        have hm : n ≠ m := by simp [inert] at h0; exact fun h => h0 h.symm
        left; exact activate_same c s u r hm
      | deactivate m u =>
        by_cases hm : n = m
        · subst hm
          left
          simp only [step]
          rw [deactivate_refused c s n u (Or.inr (by rw [ht]; simp))]
          exact Same.rfl'
        · left; exact deactivate_same c s u hm
      | deactivateAll u ord =>
        left
        apply deactivateList_same
        intro hm
        have := ((allOrder_perm c s u ord).mem_iff).mp hm
        rw [hlk.inv, ht] at this
        simp at this
      | advance dt =>
        right
        simp only [step]
        split <;> exact ⟨rfl, rfl, rfl⟩
    have h1 : (step c s op).1.value n = some x ∧ (step c s op).1.active n = none ∧
        (step c s op).1.tbs n = [] := by
      rcases key with h | h
      · exact ⟨h.value.trans hx, h.active.trans ha, h.tbs.trans ht⟩
      · exact ⟨h.1.trans hx, h.2.1.trans ha, h.2.2.trans ht⟩
    exact ih (hlk.step op) h1.1 h1.2.1 h1.2.2 (fun o h => hq o (List.mem_cons_of_mem _ h))

/-- **C11 (after deactivation).** After the owner's successful `deactivate_state` the state keeps the value
it had at that moment until somebody activates or assigns it. -/
theorem c11_constant_after (c : Cfg) (n t : Nat) (t0 v0 : Rat) (v : Nat → Option Rat)
    (hk : c.kind n = some .linear) (hv : v n = some v0) (before after : List Op)
    (hok : okRun c n (init c t0 v) before = true)
    (hd : (deactivate c (run c (init c t0 v) before).1 n t).2 = .ok)
    (hq : ∀ op ∈ after, inert n op = true) :
    let s1 := (run c (init c t0 v) before).1
    let s := (run c (init c t0 v) (before ++ .deactivate n t :: after)).1
    (step c s (.read n)).2 = (step c s1 (.read n)).2 := by
  have hlk1 := (Lk.init c t0 v).run before
  have hf1 := Full.run before (Full.init c n v0 t0 v (Or.inl hk) hv) (Lk.init c t0 v) hok
  have hread1 := hf1.read.2.1
  rcases hf1.deactivate t with ⟨ht, s', e1, e2, e3, e4⟩ | ⟨ht, e1⟩
  · have hlk2 := hlk1.deactivate n t
    have htbs := (deactivate_ok_tbs hd).2
    rw [e1] at hlk2 htbs
    have hone := hlk1.one n (by rw [hk]; simp)
    have hnil : s'.tbs n = [] := by
      rw [htbs]
      match h : (run c (init c t0 v) before).1.tbs n with
      | [] => rfl
      | [a] => rw [h] at ht; simp at ht; simp [ht]
      | a :: b :: l => rw [h] at hone; simp at hone
    have hr : (simulate v0 t0 ([] ++ events n (run c (init c t0 v) before).2 ++
        [((run c (init c t0 v) before).1.now, .off t)])).rates = [] := by
      have := e4.good.keys; rw [hnil] at this; simpa using this
    have hnone := e4.good.toView.active_none hr
    obtain ⟨cur, c1, c2⟩ := e4.good.rep
    rw [hnone] at c2
    obtain ⟨f1, f2⟩ := inert_run (Or.inl hk) after hlk2 c1 hnone hnil hq
    have hs : (run c (init c t0 v) (before ++ .deactivate n t :: after)).1 = (run c s' after).1 := by
      rw [run_append]
      simp only [run, step]
      rw [e1]
    rw [hs]
    simp only [step]
    rw [read_inactive c n _ cur (Or.inl hk) f1 f2, hread1, c2.2, simulate_append]
    simp [Sp.ev]
  · rw [e1] at hd; simp at hd

example : (deactivate demoCfg (run demoCfg (init demoCfg 0 demoV) [.activate 0 5 (some 3), .advance 4]).1 0 5).2
    = .ok ∧ ∀ op ∈ [Op.read 0, .advance 3, .deactivate 0 6], inert 0 op = true := by decide +kernel

/-- An activation without a rate raises, but leaves the state locked and unreadable: every later read
raises, although the state had a value. (Outside the guard `okRun` of C11 and C13.) -/
theorem c11_malformed_activation_bricks :
    let s0 := init demoCfg 0 demoV
    let s1 := (step demoCfg s0 (.activate 0 5 none)).1
    (step demoCfg s0 (.read 0)).2 = .val 10 ∧ (step demoCfg s0 (.activate 0 5 none)).2 = .raised ∧
    (step demoCfg s1 (.read 0)).2 = .raised ∧
    (step demoCfg s1 (.deactivate 0 5)).2 = .raised ∧
    (step demoCfg (step demoCfg s1 (.deactivate 0 5)).1 (.read 0)).2 = .raised := by decide +kernel

/-! ## C12 -/

/-- **C12 is false of the code**: assigning 100 at time 5 to a state active at rate 1 since time 0 and not
read since makes it read 105 in the same instant. -/
theorem c12_assign_adds_stale_change :
    let s := (run demoCfg (init demoCfg 0 demoV) [.activate 0 5 (some 1), .advance 5, .assign 0 100]).1
    s.now = 5 ∧ (step demoCfg s (.read 0)).2 = .val 105 := by decide +kernel

/-- **C12, the part that holds.** If the state was read (or activated) at the instant of the assignment, then
it reads `x + r * (now - then)` afterwards, where `r` is the owner's rate. What is missing: assignments to an
active state without such a read, see `c12_assign_adds_stale_change`. -/
theorem c12_assign_partial (c : Cfg) (n : Nat) (t0 v0 x : Rat) (v : Nat → Option Rat)
    (hk : c.kind n = some .linear ∨ c.kind n = some .shared) (hv : v n = some v0) (before after : List Op)
    (hok : okRun c n (init c t0 v) (before ++ .assign n x :: after) = true)
    (hq : events n (run c (step c (run c (init c t0 v) before).1 (.assign n x)).1 after).2 = []) :
    let s1 := (run c (init c t0 v) before).1
    let s := (run c (init c t0 v) (before ++ .assign n x :: after)).1
    (step c s (.read n)).2 = .val (x +
      ((simulate v0 t0 (events n (run c (init c t0 v) before).2)).rates.map (·.2)).sum * (s.now - s1.now)) := by
  have hokA : ∀ (a b : List Op) (s : St), okRun c n s (a ++ b) = true →
      okRun c n s a = true ∧ okRun c n (run c s a).1 b = true := by
    intro a
    induction a with
    | nil => intro b s h; exact ⟨rfl, h⟩
    | cons op a ih =>
      intro b s h
      simp only [List.cons_append, okRun, Bool.and_eq_true] at h
      obtain ⟨h1, h2⟩ := ih b _ h.2
      exact ⟨by simp [okRun, h.1, h1], h2⟩
  obtain ⟨hok1, hok2⟩ := hokA before _ _ hok
  simp only [okRun, Bool.and_eq_true] at hok2
  have hlk1 := (Lk.init c t0 v).run before
  have hf1 := Full.run before (Full.init c n v0 t0 v hk hv) (Lk.init c t0 v) hok1
  have hf2 := hf1.step hlk1 (.assign n x) hok2.1
  have hev : eventsOf n ((run c (init c t0 v) before).1.now, .assign n x,
      (step c (run c (init c t0 v) before).1 (.assign n x)).2) =
      [((run c (init c t0 v) before).1.now, .set x)] := by
    have : (step c (run c (init c t0 v) before).1 (.assign n x)).2 = .ok := by
      simp only [step, assign]
      rcases hk with hk | hk <;> rw [hk]
    rw [this]; simp [eventsOf]
  rw [hev] at hf2
  have hf3 := Full.run after hf2 (hlk1.step (.assign n x)) hok2.2
  rw [hq, List.append_nil] at hf3
  have hread3 := hf3.read.2.1
  have hs : (run c (init c t0 v) (before ++ .assign n x :: after)).1 =
      (run c (step c (run c (init c t0 v) before).1 (.assign n x)).1 after).1 := by
    rw [run_append]; rfl
  intro s1 s
  have hs' : s = (run c (step c (run c (init c t0 v) before).1 (.assign n x)).1 after).1 := hs
  rw [hs']
  show (read c _ n).2 = _
  rw [hread3, simulate_append, List.nil_append]
  rfl

/-- Reading first makes an assignment safe: right after a read the guard of `c12_assign_partial` holds. -/
theorem c12_read_first (c : Cfg) (n : Nat) (t0 v0 x : Rat) (v : Nat → Option Rat)
    (hk : c.kind n = some .linear ∨ c.kind n = some .shared) (hv : v n = some v0) (before : List Op)
    (hok : okRun c n (init c t0 v) before = true) :
    okRun c n (init c t0 v) (before ++ [.read n, .assign n x]) = true := by
  have hf1 := Full.run before (Full.init c n v0 t0 v hk hv) (Lk.init c t0 v) hok
  have hfr := hf1.read.2.2
  have hokA : ∀ (a b : List Op) (s : St), okRun c n s a = true →
      okRun c n (run c s a).1 b = true → okRun c n s (a ++ b) = true := by
    intro a
    induction a with
    | nil => intro b s _ h; exact h
    | cons op a ih =>
      intro b s h1 h2
      simp only [okRun, Bool.and_eq_true] at h1
      simp only [List.cons_append, okRun, Bool.and_eq_true]
      exact ⟨h1.1, ih b _ h1.2 h2⟩
  apply hokA before _ _ hok
  simp only [okRun, okOp, Bool.and_true, Bool.true_and, Bool.or_eq_true]
  right
  exact (freshB_iff _ _ _).mpr hfr

example : okRun demoCfg 0 (init demoCfg 0 demoV)
    ([.activate 0 5 (some 2), .advance 3, .read 0] ++ .assign 0 50 :: [.advance 2]) = true ∧
    (step demoCfg (run demoCfg (init demoCfg 0 demoV)
      ([.activate 0 5 (some 2), .advance 3, .read 0] ++ .assign 0 50 :: [.advance 2])).1 (.read 0)).2 =
      .val 54 := by decide +kernel

/-! ## C14 for active states -/

/-- **C14 (active states).** For a recording linear or shared state (not assigned by hand), every recorded
value is the true value at its time, the first is the initial one, and between consecutive recorded values
the true value is the straight line through them. -/
theorem c14_active_history (c : Cfg) (n : Nat) (t0 v0 : Rat) (v : Nat → Option Rat)
    (hk : c.kind n = some .linear ∨ c.kind n = some .shared) (hv : v n = some v0)
    (hr : c.recording n = true) (ops : List Op)
    (hok : okRun c n (init c t0 v) ops = true)
    (hns : NoSet (events n (run c (init c t0 v) ops).2)) :
    let s := (run c (init c t0 v) ops).1
    let truth := fun x => v0 + accrued (events n (run c (init c t0 v) ops).2) x
    (values (s.hist n)).head? = some (t0, v0) ∧
    (∀ e ∈ values (s.hist n), e.2 = truth e.1 ∧ e.1 ≤ s.now) ∧
    (values (s.hist n)).IsChain (Segment truth) := by
  have hf := Full.run ops (Full.init c n v0 t0 v hk hv) (Lk.init c t0 v) hok
  rw [List.nil_append] at hf
  have hh := hf.hist hr hns
  exact ⟨hh.head, fun e he => ⟨(hh.true_ e he).1, (hh.true_ e he).2.1⟩, hh.seg⟩

example : (run demoCfg (init demoCfg 0 demoV) demoOps).1.hist 1 =
    [(0, .val 10), (0, .activating), (1, .val 12), (1, .activating), (3, .val 14), (6, .val 20)] := by
  decide +kernel

/-! ## Ending everything a task drives -/

/-- Well-formed activations of every state: an active state with a value, and a rate. -/
def wfRun (c : Cfg) (s : St) : List Op → Bool
  | [] => true
  | op :: ops =>
    (match op with
      | .activate m _ r => r.isSome && decide (c.kind m = some .linear ∨ c.kind m = some .shared) &&
          (s.value m).isSome
      | _ => true) && wfRun c (step c s op).1 ops

/-- A state is in order: either it has no value and nobody uses it, or its data are consistent. -/
def Sane (c : Cfg) (s : St) (m : Nat) : Prop :=
  if c.kind m = some .linear ∨ c.kind m = some .shared then
    (s.value m = none ∧ s.active m = none ∧ s.tbs m = []) ∨ ∃ sp, Good c m sp s
  else s.tbs m = []

theorem Sane.other {c : Cfg} {s s' : St} {m : Nat} (h : Sane c s m) (hs : Same m s s') : Sane c s' m := by
  unfold Sane at h ⊢
  split
  · rename_i hk
    rw [if_pos hk] at h
    rcases h with ⟨a, b, d⟩ | ⟨sp, g⟩
    · left; exact ⟨hs.value.trans a, hs.active.trans b, hs.tbs.trans d⟩
    · right; exact ⟨sp, g.toView.congr hs.now hs.value hs.active, by rw [hs.tbs]; exact g.keys⟩
  · rename_i hk
    rw [if_neg hk] at h
    exact hs.tbs.trans h

theorem Sane.deactivate {c : Cfg} {s : St} {m : Nat} (h : Sane c s m) (n t : Nat) :
    Sane c (deactivate c s n t).1 m ∧ (m = n → t ∈ s.tbs n → (deactivate c s n t).2 = .ok) := by
  by_cases hm : m = n
  · subst hm
    by_cases ht : t ∈ s.tbs m
    · unfold Sane at h
      split at h
      · rename_i hk
        rcases h with ⟨a, b, d⟩ | ⟨sp, g⟩
        · rw [d] at ht; simp at ht
        · obtain ⟨s', e1, e2, _⟩ := g.deactivate t ht
          rw [e1]
          refine ⟨?_, fun _ _ => rfl⟩
          unfold Sane; rw [if_pos hk]; right; exact ⟨_, e2⟩
      · rw [h] at ht; simp at ht
    · rw [deactivate_refused c s m t (Or.inr ht)]
      exact ⟨h, fun _ h' => absurd h' ht⟩
  · exact ⟨h.other (deactivate_same c s t hm), fun h' => absurd h' hm⟩

theorem deactivateList_sane {c : Cfg} (t : Nat) (l : List Nat) : ∀ (s : St) (done : List Nat),
    (∀ m, Sane c s m) → (∀ m, Sane c (deactivateList c s t done l).1 m) := by
  induction l with
  | nil => intro s done h; exact h
  | cons n l ih =>
    intro s done h
    have hd := fun m => ((h m).deactivate n t).1
    simp only [deactivateList]
    split
    · rename_i s' heq; rw [heq] at hd; exact ih s' _ hd
    · rename_i s' o hx heq; rw [heq] at hd; exact hd

theorem sane_step {c : Cfg} {s : St} (h : ∀ m, Sane c s m) (op : Op) (ops : List Op)
    (hw : wfRun c s (op :: ops) = true) : ∀ m, Sane c (step c s op).1 m := by
  simp only [wfRun, Bool.and_eq_true] at hw
  intro m
  cases op with
  | read n =>
    simp only [step]
    by_cases hm : m = n
    · subst hm
      have hh := h m
      unfold Sane at hh ⊢
      split
      · rename_i hk
        rw [if_pos hk] at hh
        rcases hh with ⟨a, b, d⟩ | ⟨sp, g⟩
        · left
          have : read c s m = (s, .raised) := by
            unfold read
            rcases hk with hk | hk
            · rw [hk]; simp only [readLinear, a]
            · rw [hk]; simp only [readShared, a]
          rw [this]; exact ⟨a, b, d⟩
        · right
          obtain ⟨s', r1, r2, _⟩ := g.toView.read
          have hl := read_locks c s m
          rw [r1] at hl ⊢
          exact ⟨sp, r2, by simp only; rw [hl.tbs]; exact g.keys⟩
      · rename_i hk
        rw [if_neg hk] at hh
        rw [(read_locks c s m).tbs]; exact hh
    · exact (h m).other (read_same c s hm)
  | assign n x =>
    simp only [step, assign]
    split
    · exact h m
    · by_cases hm : m = n
      · subst hm
        have hh := h m
        have hl := setVal_locks c s m x
        obtain ⟨f1, f2⟩ := setVal_fields c m s x
        unfold Sane at hh ⊢
        split
        · rename_i hk
          rw [if_pos hk] at hh
          right
          rcases hh with ⟨a, b, d⟩ | ⟨sp, g⟩
          · refine ⟨⟨x, s.now, []⟩, ⟨hk, by rw [hl.now], x, f1, ?_⟩, by rw [hl.tbs, d]; rfl⟩
            rw [f2, b]; exact ⟨rfl, rfl⟩
          · obtain ⟨cur, e1, e2⟩ := g.rep
            cases hd : s.active m with
            | none =>
              rw [hd] at e2
              refine ⟨⟨x, s.now, sp.rates⟩, ⟨hk, by rw [hl.now], x, f1, ?_⟩, by rw [hl.tbs]; exact g.keys⟩
              rw [f2, hd]; exact ⟨e2.1, rfl⟩
            | some d =>
              rw [hd] at e2
              rcases hk with hk | hk
              · simp only [Rep, hk] at e2
                obtain ⟨t, r, a, b, e, f⟩ := e2
                refine ⟨⟨x + (s.now - d.started) * r, s.now, sp.rates⟩,
                  ⟨Or.inl hk, by rw [hl.now], x, f1, ?_⟩, by rw [hl.tbs]; exact g.keys⟩
                rw [f2, hd]
                simp only [Rep, hk]
                rw [hl.now]
                exact ⟨t, r, a, b, e, by simp [Sp.valueAt]⟩
              · simp only [Rep, hk] at e2
                obtain ⟨a, b, e, lt, f, gg, i⟩ := e2
                refine ⟨⟨x + (s.now - lt) * total sp.rates, s.now, sp.rates⟩,
                  ⟨Or.inr hk, by rw [hl.now], x, f1, ?_⟩, by rw [hl.tbs]; exact g.keys⟩
                rw [f2, hd]
                simp only [Rep, hk]
                rw [hl.now]
                exact ⟨a, b, e, lt, f, gg, by simp [Sp.valueAt]⟩
        · rename_i hk
          rw [if_neg hk] at hh
          rw [hl.tbs]; exact hh
      · exact (h m).other (setVal_same c s x hm)
  | activate n t r =>
    simp only [step]
    by_cases hm : m = n
    · subst hm
      have hw := hw.1
      simp only [Bool.and_eq_true, decide_eq_true_eq] at hw
      obtain ⟨⟨w1, w2⟩, w3⟩ := hw
      obtain ⟨r, rfl⟩ := Option.isSome_iff_exists.mp w1
      obtain ⟨k, hk⟩ := kind_some w2
      cases hr : lockRefused k s m t with
      | true => rw [activate_refused c s m t _ (Or.inr ⟨k, hk, hr⟩)]; exact h m
      | false =>
        have hh := h m
        unfold Sane at hh ⊢
        rw [if_pos w2] at hh ⊢
        rcases hh with ⟨a, b, d⟩ | ⟨sp, g⟩
        · rw [a] at w3; simp at w3
        · right
          obtain ⟨s', e1, e2, _⟩ := g.activate t r k hk hr
          rw [e1]
          exact ⟨_, e2⟩
    · exact (h m).other (activate_same c s t r hm)
  | deactivate n t => exact ((h m).deactivate n t).1
  | deactivateAll t ord => exact deactivateList_sane t _ s [] h m
  | advance dt =>
    simp only [step]
    split
    · rename_i hdt
      have hh := h m
      unfold Sane at hh ⊢
      split
      · rename_i hk
        rw [if_pos hk] at hh
        rcases hh with hh | ⟨sp, g⟩
        · left; exact hh
        · right
          exact ⟨sp, g.toView.later (by simp only; linarith) rfl rfl, g.keys⟩
      · rename_i hk
        rw [if_neg hk] at hh
        exact hh
    · exact h m

/-- **C10 (ending a task's activity).** If all activations were well formed, `deactivate_all_states` never
raises: it deactivates exactly the states the task was driving, whatever order the set is walked in, and
afterwards the task drives nothing. -/
theorem c10_deactivate_all (c : Cfg) (t0 : Rat) (v : Nat → Option Rat) (ops : List Op) (t : Nat)
    (ord : List Nat) (hw : wfRun c (init c t0 v) ops = true) :
    let s := (run c (init c t0 v) ops).1
    ∃ done, (step c s (.deactivateAll t ord)).2 = .all done false ∧ done.Perm (s.sbt t) ∧
      ∀ m, t ∉ (step c s (.deactivateAll t ord)).1.tbs m := by
  have hsane : ∀ (ops : List Op) (s : St), (∀ m, Sane c s m) → wfRun c s ops = true →
      ∀ m, Sane c (run c s ops).1 m := by
    intro ops
    induction ops with
    | nil => intro s h _; exact h
    | cons op ops ih =>
      intro s h hw
      have h1 := sane_step h op ops hw
      simp only [wfRun, Bool.and_eq_true] at hw
      exact ih _ h1 hw.2
  have h0 : ∀ m, Sane c (init c t0 v) m := by
    intro m
    unfold Sane
    split
    · rename_i hk
      cases hv : v m with
      | none => left; exact ⟨hv, rfl, rfl⟩
      | some x =>
        right
        exact ⟨⟨x, t0, []⟩, ⟨hk, le_refl _, x, hv, rfl, rfl⟩, rfl⟩
    · rfl
  have hs := hsane ops _ h0 hw
  have hlk := (Lk.init c t0 v).run ops
  intro s
  have hs' : ∀ m, Sane c s m := hs
  have hlk' : Lk c s := hlk
  -- the loop
  have key : ∀ (l : List Nat) (s : St) (done : List Nat), (∀ m, Sane c s m) → Lk c s → l.Nodup →
      (∀ m ∈ l, t ∈ s.tbs m) → (∀ m, m ∈ l ∨ t ∉ s.tbs m) →
      (deactivateList c s t done l).2 = .all (done ++ l) false ∧
      ∀ m, t ∉ (deactivateList c s t done l).1.tbs m := by
    intro l
    induction l with
    | nil =>
      intro s done _ _ _ _ h2
      refine ⟨by simp [deactivateList], ?_⟩
      intro m
      rcases h2 m with h | h
      · simp at h
      · exact h
    | cons n l ih =>
      intro s done h hlk hnd h1 h2
      rw [List.nodup_cons] at hnd
      have hok := ((h n).deactivate n t).2 rfl (h1 n (by simp))
      have hd := fun m => ((h m).deactivate n t).1
      have htb := deactivate_ok_tbs hok
      have hl := hlk.deactivate n t
      simp only [deactivateList]
      obtain ⟨s', hs'⟩ : ∃ s', deactivate c s n t = (s', .ok) := ⟨_, Prod.ext rfl hok⟩
      rw [hs'] at hd htb hl ⊢
      simp only
      have hoth : ∀ m, m ≠ n → s'.tbs m = s.tbs m := by
        intro m hm
        have := deactivate_same c s t hm
        rw [hs'] at this
        exact this.tbs
      obtain ⟨a, b⟩ := ih s' (done ++ [n]) hd hl hnd.2 (by
        intro m hm
        rw [hoth m (fun he => hnd.1 (he ▸ hm))]
        exact h1 m (List.mem_cons_of_mem _ hm)) (by
        intro m
        by_cases hm : m = n
        · right; subst hm; rw [htb.2]; simp
        · rcases h2 m with h3 | h3
          · left
            rcases List.mem_cons.mp h3 with h3 | h3
            · exact absurd h3 hm
            · exact h3
          · right; rw [hoth m hm]; exact h3)
      exact ⟨by rw [a]; simp, b⟩
  have hp := allOrder_perm c s t ord
  obtain ⟨a, b⟩ := key _ s [] hs' hlk' (hp.nodup_iff.mpr (hlk'.ndS t))
    (fun m hm => (hlk'.inv m t).mp (hp.mem_iff.mp hm))
    (fun m => by
      by_cases hm : t ∈ s.tbs m
      · left; exact hp.mem_iff.mpr ((hlk'.inv m t).mpr hm)
      · right; exact hm)
  exact ⟨_, a, by simpa using hp, b⟩

example : wfRun demoCfg (init demoCfg 0 demoV)
    [.activate 0 5 (some 1), .activate 1 5 (some 2), .advance 1, .assign 0 7, .activate 1 6 (some 4)] = true ∧
    (step demoCfg (run demoCfg (init demoCfg 0 demoV)
      [.activate 0 5 (some 1), .activate 1 5 (some 2), .advance 1, .assign 0 7, .activate 1 6 (some 4)]).1
      (.deactivateAll 5 [1, 0])).2 = .all [1, 0] false := by decide +kernel

end Verif.Active
