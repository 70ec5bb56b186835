import Verif.Multi.Run

/-!
# C65: tasks that wait for several events

"A task that waits for Any (All) of some events, nested at will, goes on in the instant in which the first (the last) of them
occurs and not otherwise; `is_complete` then tells which members have occurred. An interrupt that ends or restarts the task
withdraws the members that have not occurred, touches nothing else and never fails."

All theorems are about every sequence of operations from the start (`run init ops`). Proved:

* `c65_instant`: a waiting task has not missed anything: what it waits for has not occurred in an earlier instant (unless it
  only began to wait in this one), and at the end of every instant it has not occurred at all.
* `c65_resumed_partial`: a task goes on without exception only if what it waited for has occurred, `c65_members` with which
  members are complete. Missing: Events that were only triggered by somebody's `cancel` count as occurred
  (`c65_wakes_others`), as does an empty Any (`c65_empty`).
* `c65_is_complete_partial`: at the end of an instant `is_complete` of a plain event tells whether it happened. Missing for
  inner multi-events: `c65_forgotten`.
* `c65_interrupt_iff`: exactly when an interrupt is handled without exception: nothing in the tree that is a multi-event or an
  Event may have been triggered, and no Event may stand in it twice. `c65_interrupt_any_partial`,
  `c65_interrupt_flat_partial` are the cases in which that is sure at the end of an instant; `c65_crash_event`,
  `c65_crash_inner`, `c65_crash_instant`, `c65_crash_twice` are runs in which the exception leaves the task.
* `c65_withdrawn_partial`, `c65_withdrawn_forever`: the requests that were not granted are withdrawn and never happen later;
  `c65_local`: nothing outside is touched. Missing: when the exception is raised, the requests behind it stay in their queues
  (`c65_crash_event`).
-/

namespace Verif.Multi

/-- Nobody oversleeps: at the end of every instant nothing a task waits for has occurred, and during an instant only tasks
that began to wait in it can wait for something that occurred before. -/
theorem c65_instant (ops : List Op) (t e : Nat) (hw : (run init ops).1.waiting t = some e) :
    (settled (run init ops).1 = true → ¬ Occ (run init ops).1.cond (Happened (run init ops).1) e) ∧
    ((run init ops).1.since t < (run init ops).1.now → ¬ Occ (run init ops).1.cond (Before (run init ops).1) e) :=
  ⟨fun hs => ((reach ops).1.settledWaiting hs hw).1, ((reach ops).2.since t e hw).2⟩

/-- Event 0 and a Wait 1; task 7 waits for both since instant 0; the event happens, is processed, and time passes. -/
def exAll : List Op := [.newEvent .event, .newEvent .wait, .make true [0, 1], .waitFor 7 2, .occur 0 true, .process 0,
  .callback, .tick]

example : (run init exAll).1.waiting 7 = some 2 ∧ settled (run init exAll).1 = true ∧
    (run init exAll).1.since 7 < (run init exAll).1.now ∧ (run init exAll).1.status 0 = .processed := by decide +kernel

/-- A task that goes on had waited for that event, or yields it now and it is complete. -/
theorem got_of_step {s : St} (hI : Inv s) {op : Op} {t e : Nat} {ok : Bool} (h : (step s op).2 = .got t e ok) :
    s.status e = .processed ∧ ok = !s.bad e ∧ (op = .waitFor t e ∨ (op = .callback ∧ s.waiting t = some e)) := by
  cases op with
  | newEvent k => simp [step] at h
  | occur e' ok' => simp only [step, occur] at h; split at h <;> simp at h
  | make all ms => simp only [step] at h; split at h <;> simp at h
  | process e' => simp only [step, process] at h; split at h <;> simp at h
  | interrupt t' =>
    simp only [step, interrupt] at h
    split at h
    · simp at h
    · split at h <;> simp at h
  | ignore t' =>
    simp only [step, ignore] at h
    split at h
    · simp at h
    · split at h <;> simp at h
  | tick => simp only [step, tick] at h; split at h <;> simp at h
  | waitFor t' e' =>
    simp only [step, waitFor] at h
    split at h
    · simp at h
    · split at h
      · rename_i hp
        simp only [Out.got.injEq] at h
        obtain ⟨rfl, rfl, rfl⟩ := h
        exact ⟨hp, rfl, Or.inl rfl⟩
      · simp at h
  | callback =>
    simp only [step, callback] at h
    split at h
    · simp at h
    · simp at h
    · rename_i e' t' r hr
      simp only [Out.got.injEq] at h
      obtain ⟨rfl, rfl, rfl⟩ := h
      have hin : (e', Cb.resume t') ∈ s.ready := by rw [hr]; exact List.mem_cons_self
      refine ⟨(hI.rdy _ _ hin).1, rfl, Or.inr ⟨rfl, ?_⟩⟩
      have := hI.wait t' e'
      have hpos : 0 < s.ready.count (e', Cb.resume t') := List.count_pos_iff.2 hin
      by_contra hn
      rw [if_neg hn] at this
      omega

/-- A task goes on without exception only if what it waited for has occurred: provided that no Event in it was only
triggered by a `cancel`, and that there is no Any without members in it. -/
theorem c65_resumed_partial (ops : List Op) (op : Op) (t e : Nat)
    (hgot : (step (run init ops).1 op).2 = .got t e true)
    (hf : ∀ x, In (run init ops).1.cond e x → (run init ops).1.faked x = false)
    (he : ∀ x ms, In (run init ops).1.cond e x → (run init ops).1.cond x = some ⟨false, ms⟩ → ms ≠ []) :
    Occ (run init ops).1.cond (Happened (run init ops).1) e ∧
      (op = .waitFor t e ∨ (run init ops).1.waiting t = some e) := by
  obtain ⟨h1, h2, h3⟩ := got_of_step (reach ops).1 hgot
  exact ⟨(reach ops).1.sound e (by rw [h1]; simp) (by simpa using h2) hf he, h3.imp_right (fun h => h.2)⟩

/-- The Wait of `exAll` comes to its end as well. -/
def exAll2 : List Op := exAll ++ [.occur 1 true, .process 1, .callback, .process 2]

/-- `x` is one of the listed events if it is in `c`. -/
theorem in_exAll {s : St} (h2 : s.cond 2 = some ⟨true, [0, 1]⟩) (h0 : s.cond 0 = none) (h1 : s.cond 1 = none) {x : Nat}
    (hx : In s.cond 2 x) : x = 2 ∨ x = 0 ∨ x = 1 := by
  cases hx with
  | self _ => exact Or.inl rfl
  | member hc hm hx =>
    rw [h2] at hc
    cases hc
    simp only [List.mem_cons, List.not_mem_nil, or_false] at hm
    rcases hm with rfl | rfl
    · exact Or.inr (Or.inl (hx.of_none h0))
    · exact Or.inr (Or.inr (hx.of_none h1))

example : (step (run init exAll2).1 .callback).2 = .got 7 2 true ∧
    (∀ x, In (run init exAll2).1.cond 2 x → (run init exAll2).1.faked x = false) ∧
    (∀ x ms, In (run init exAll2).1.cond 2 x → (run init exAll2).1.cond x = some ⟨false, ms⟩ → ms ≠ []) := by
  have hin : ∀ x, In (run init exAll2).1.cond 2 x → x = 2 ∨ x = 0 ∨ x = 1 := fun x hx =>
    in_exAll (s := (run init exAll2).1) (by decide +kernel) (by decide +kernel) (by decide +kernel) hx
  refine ⟨by decide +kernel, fun x hx => ?_, fun x ms hx => ?_⟩
  · rcases hin x hx with rfl | rfl | rfl <;> decide +kernel
  · have h2 : (run init exAll2).1.cond 2 = some ⟨true, [0, 1]⟩ := by decide +kernel
    have h0 : (run init exAll2).1.cond 0 = none := by decide +kernel
    have h1 : (run init exAll2).1.cond 1 = none := by decide +kernel
    rcases hin x hx with rfl | rfl | rfl
    · rw [h2]; simp
    · rw [h0]; simp
    · rw [h1]; simp

/-- When a task goes on without exception from an Any with members, some member is complete and has not failed; from an All,
every member. -/
theorem c65_members (ops : List Op) (op : Op) (t e : Nat) (k : Cond)
    (hgot : (step (run init ops).1 op).2 = .got t e true) (hk : (run init ops).1.cond e = some k) :
    (k.all = true → ∀ m ∈ k.members, (run init ops).1.status m = .processed ∧ (run init ops).1.bad m = false) ∧
    (k.all = false → k.members ≠ [] →
      ∃ m ∈ k.members, (run init ops).1.status m = .processed ∧ (run init ops).1.bad m = false) := by
  obtain ⟨h1, h2, _⟩ := got_of_step (reach ops).1 hgot
  have hg := (reach ops).1.snd e k hk (by rw [h1]; simp) (by simpa using h2)
  constructor
  · intro ha
    rcases hg with hg | hg
    · rw [hg]; simp
    · rw [if_pos ha] at hg; exact hg
  · intro ha hne
    rcases hg with hg | hg
    · exact absurd hg hne
    · rw [if_neg (by rw [ha]; simp)] at hg; exact hg

example : (step (run init exAll2).1 .callback).2 = .got 7 2 true ∧
    (run init exAll2).1.cond 2 = some ⟨true, [0, 1]⟩ := by decide +kernel

/-- `is_complete` of a Wait, request, Event or process at the end of an instant: true if it happened; if it is true, the event
happened, or was an Event triggered by a `cancel`, or a process that failed. During an instant only the second half holds. -/
theorem c65_is_complete_partial (ops : List Op) (x : Nat) (hx : (run init ops).1.cond x = none) :
    ((run init ops).1.status x = .processed →
      Happened (run init ops).1 x ∨ (run init ops).1.faked x = true ∨ (run init ops).1.bad x = true) ∧
    (settled (run init ops).1 = true → Happened (run init ops).1 x → (run init ops).1.status x = .processed) := by
  have hI := (reach ops).1
  refine ⟨fun hp => hI.base1 x hx (by rw [hp]; simp), fun hs hh => ?_⟩
  exact (hI.settledStatus hs x).resolve_left (hI.base2 x hh).1

example : (run init exAll).1.cond 0 = none ∧ settled (run init exAll).1 = true ∧ (run init exAll).1.when 0 ≠ none := by
  decide +kernel

/-- Exactly when an interrupt (END, RESTART) is handled without exception: every multi-event and every Event in the tree is
pending, and no Event stands in it twice. -/
theorem c65_interrupt_iff (ops : List Op) (t e : Nat) (hr : (run init ops).1.ready = [])
    (hw : (run init ops).1.waiting t = some e) :
    (step (run init ops).1 (.interrupt t)).2 = .handled t e true ↔
      (∀ x, In (run init ops).1.cond e x → ((run init ops).1.cond x ≠ none ∨ (run init ops).1.kind x = .event) →
        (run init ops).1.status x = .pending) ∧
      (∀ x, (run init ops).1.cond x = none → (run init ops).1.kind x = .event →
        (nodes (run init ops).1.cond (e + 1) e).count x ≤ 1) := by
  have hI := (reach ops).1
  revert hr hw hI
  generalize (run init ops).1 = s
  intro hr hw hI
  have hout : (step s (.interrupt t)).2 = .handled t e (acts (leave s t e, true) (nodes s.cond (e + 1) e)).2 := by
    simp only [step, interrupt, hr, hw, cancel_eq]
    rfl
  rw [hout]
  have hok := acts_ok (nodes s.cond (e + 1) e) (leave s t e)
  have hneedy : needy (leave s t e) = needy s := rfl
  have hst : (leave s t e).status = s.status := rfl
  rw [hneedy, hst] at hok
  have hiff : (Out.handled t e (acts (leave s t e, true) (nodes s.cond (e + 1) e)).2 = .handled t e true) ↔
      (acts (leave s t e, true) (nodes s.cond (e + 1) e)).2 = true := by simp
  rw [hiff, hok]
  have hn : ∀ x, needy s x = true ↔ s.cond x ≠ none ∨ s.kind x = .event := by
    intro x; unfold needy; simp
  constructor
  · rintro ⟨h1, h2⟩
    refine ⟨fun x hx hxn => h1 x (mem_nodes hI.hlt hx _ (Nat.lt_succ_self e)) ((hn x).2 hxn), fun x _ hxk => ?_⟩
    have := List.nodup_iff_count.1 h2 x
    rw [List.count_filter ((hn x).2 (Or.inr hxk))] at this
    exact this
  · rintro ⟨h1, h2⟩
    refine ⟨fun x hx hxn => h1 x (nodes_lt hI.hlt _ e x hx) ((hn x).1 hxn), ?_⟩
    rw [List.nodup_iff_count]
    intro x
    by_cases hxn : needy s x = true
    · rw [List.count_filter hxn]
      cases hc : s.cond x with
      | some k => exact hI.node_once x (by rw [hc]; simp) _ e
      | none =>
        rcases (hn x).1 hxn with h | h
        · exact absurd hc h
        · exact h2 x hc h
    · rw [List.count_eq_zero.2]
      · exact Nat.zero_le _
      · intro hx
        exact hxn (List.mem_filter.1 hx).2

example : (run init exAll).1.ready = [] ∧ (run init exAll).1.waiting 7 = some 2 := by decide +kernel

/-- If all multi-events in what the task waits for are Anys, and no Event stands in it twice, an interrupt at the end of an
instant is handled without exception. -/
theorem c65_interrupt_any_partial (ops : List Op) (t e : Nat) (hs : settled (run init ops).1 = true)
    (hw : (run init ops).1.waiting t = some e)
    (hany : ∀ x k, In (run init ops).1.cond e x → (run init ops).1.cond x = some k → k.all = false)
    (honce : ∀ x, (run init ops).1.cond x = none → (run init ops).1.kind x = .event →
      (nodes (run init ops).1.cond (e + 1) e).count x ≤ 1) :
    (step (run init ops).1 (.interrupt t)).2 = .handled t e true := by
  have hI := (reach ops).1
  have hr := ((settled_iff _).1 hs).1
  refine (c65_interrupt_iff ops t e hr hw).2 ⟨?_, honce⟩
  revert hs hw hany hI hr
  generalize (run init ops).1 = s
  intro hs hw hany hI hr
  have hdue : ∀ c, due s c = 0 := fun c => by unfold due; rw [hr]; rfl
  have key : ∀ c x, In s.cond c x → (∀ y k, In s.cond c y → s.cond y = some k → k.all = false) →
      s.status c = .pending → (s.cond c ≠ none → s.forgot c = false) → s.status x = .pending := by
    intro c x hx
    induction hx with
    | self c => exact fun _ hp _ => hp
    | @member c m x k hc hm _ ih =>
      intro ha hp hf
      have hf := hf (by rw [hc]; simp)
      have h0 := hI.cnt c k hc hp hf
      have hall := ha c k (.self c) hc
      have hmet := h0.2.2.1
      unfold met at hmet
      rw [hall] at hmet
      have hz : s.count c = 0 := by simpa using hmet
      have h1 := h0.2.1
      rw [hz, hdue] at h1
      have hmp : s.status m = .pending := by
        refine (hI.settledStatus hs m).resolve_right (fun hmp => ?_)
        have : 0 < proc s k := List.countP_pos_iff.2 ⟨m, hm, by simpa using hmp⟩
        omega
      refine ih (fun y k' hy => ha y k' (.member hc hm hy)) hmp (fun hmc => ?_)
      cases hfm : s.forgot m with
      | false => rfl
      | true =>
        rcases hI.forg m hfm with h | ⟨p, h2, h3⟩
        · rw [hmp] at h; cases h
        · rw [hI.par c k m hc hm hmc] at h2
          cases h2
          rw [hf] at h3; cases h3
  intro x hx _
  have hwait := hI.settledWaiting hs hw
  refine key e x hx (fun y k hy => hany y k hy) hwait.2 (fun hc => ?_)
  rcases hI.waitingRoot hw hc with h | h
  · exact h
  · rw [hwait.2] at h; cases h

/-- A request 0, a Wait 1, an Event 2 in `Any(0, Any(1, 2))`; task 7 waits. -/
def exAny : List Op := [.newEvent .request, .newEvent .wait, .newEvent .event, .make false [1, 2], .make false [0, 3],
  .waitFor 7 4, .tick]

theorem in_exAny {s : St} (h4 : s.cond 4 = some ⟨false, [0, 3]⟩) (h3 : s.cond 3 = some ⟨false, [1, 2]⟩)
    (h0 : s.cond 0 = none) (h1 : s.cond 1 = none) (h2 : s.cond 2 = none) {x : Nat} (hx : In s.cond 4 x) : x < 5 := by
  have := hx.le
  have hlt : ∀ y, In s.cond 4 y → y = 4 ∨ y = 0 ∨ y = 3 ∨ y = 1 ∨ y = 2 := by
    intro y hy
    cases hy with
    | self _ => exact Or.inl rfl
    | member hc hm hy =>
      rw [h4] at hc
      cases hc
      simp only [List.mem_cons, List.not_mem_nil, or_false] at hm
      rcases hm with rfl | rfl
      · exact Or.inr (Or.inl (hy.of_none h0))
      · cases hy with
        | self _ => exact Or.inr (Or.inr (Or.inl rfl))
        | member hc hm hy =>
          rw [h3] at hc
          cases hc
          simp only [List.mem_cons, List.not_mem_nil, or_false] at hm
          rcases hm with rfl | rfl
          · exact Or.inr (Or.inr (Or.inr (Or.inl (hy.of_none h1))))
          · exact Or.inr (Or.inr (Or.inr (Or.inr (hy.of_none h2))))
  rcases hlt x hx with rfl | rfl | rfl | rfl | rfl <;> omega

example : settled (run init exAny).1 = true ∧ (run init exAny).1.waiting 7 = some 4 ∧
    (∀ x k, In (run init exAny).1.cond 4 x → (run init exAny).1.cond x = some k → k.all = false) ∧
    (∀ x, (run init exAny).1.cond x = none → (run init exAny).1.kind x = .event →
      (nodes (run init exAny).1.cond 5 4).count x ≤ 1) ∧
    (run init (exAny ++ [.interrupt 7])).1.withdrawn 0 = true := by
  have h4 : (run init exAny).1.cond 4 = some ⟨false, [0, 3]⟩ := by decide +kernel
  have h3 : (run init exAny).1.cond 3 = some ⟨false, [1, 2]⟩ := by decide +kernel
  have h0 : (run init exAny).1.cond 0 = none := by decide +kernel
  have h1 : (run init exAny).1.cond 1 = none := by decide +kernel
  have h2 : (run init exAny).1.cond 2 = none := by decide +kernel
  refine ⟨by decide +kernel, by decide +kernel, fun x k hx hk => ?_, fun x _ _ => ?_, by decide +kernel⟩
  · have := in_exAny h4 h3 h0 h1 h2 hx
    have h : x = 0 ∨ x = 1 ∨ x = 2 ∨ x = 3 ∨ x = 4 := by omega
    rcases h with rfl | rfl | rfl | rfl | rfl
    · rw [h0] at hk; cases hk
    · rw [h1] at hk; cases hk
    · rw [h2] at hk; cases hk
    · rw [h3] at hk; cases hk; rfl
    · rw [h4] at hk; cases hk; rfl
  · have hn : nodes (run init exAny).1.cond 5 4 = [4, 0, 3, 1, 2] := by decide +kernel
    rw [hn]
    exact List.nodup_iff_count.1 (by decide) x

/-- If the task waits for one multi-event of Waits, requests and processes, an interrupt at the end of an instant is handled
without exception. -/
theorem c65_interrupt_flat_partial (ops : List Op) (t e : Nat) (hs : settled (run init ops).1 = true)
    (hw : (run init ops).1.waiting t = some e)
    (hflat : ∀ x, In (run init ops).1.cond e x → x ≠ e →
      (run init ops).1.cond x = none ∧ (run init ops).1.kind x ≠ .event)
    (hme : (run init ops).1.cond e ≠ none) :
    (step (run init ops).1 (.interrupt t)).2 = .handled t e true := by
  have hI := (reach ops).1
  have hr := ((settled_iff _).1 hs).1
  refine (c65_interrupt_iff ops t e hr hw).2 ⟨fun x hx hxn => ?_, fun x hxc hxk => ?_⟩
  · by_cases hxe : x = e
    · rw [hxe]; exact (hI.settledWaiting hs hw).2
    · rcases hxn with h | h
      · exact absurd (hflat x hx hxe).1 h
      · exact absurd h (hflat x hx hxe).2
  · rw [List.count_eq_zero.2]
    · exact Nat.zero_le _
    · intro hx
      have hin := nodes_lt hI.hlt _ e x hx
      by_cases hxe : x = e
      · rw [hxe] at hxc; exact hme hxc
      · exact (hflat x hin hxe).2 hxk

/-- `All(0, 1)` of a request and a Wait, the Wait is over. -/
def exFlat : List Op := [.newEvent .request, .newEvent .wait, .make true [0, 1], .waitFor 7 2, .tick, .occur 1 true,
  .process 1, .callback, .tick]

example : settled (run init exFlat).1 = true ∧ (run init exFlat).1.waiting 7 = some 2 ∧
    (∀ x, In (run init exFlat).1.cond 2 x → x ≠ 2 → (run init exFlat).1.cond x = none ∧
      (run init exFlat).1.kind x ≠ .event) ∧ (run init exFlat).1.cond 2 ≠ none := by
  have h2 : (run init exFlat).1.cond 2 = some ⟨true, [0, 1]⟩ := by decide +kernel
  have h0 : (run init exFlat).1.cond 0 = none := by decide +kernel
  have h1 : (run init exFlat).1.cond 1 = none := by decide +kernel
  refine ⟨by decide +kernel, by decide +kernel, fun x hx hne => ?_, by rw [h2]; simp⟩
  rcases in_exAll h2 h0 h1 hx with rfl | rfl | rfl
  · exact absurd rfl hne
  · exact ⟨h0, by decide +kernel⟩
  · exact ⟨h1, by decide +kernel⟩

/-- After an interrupt that was handled without exception: the requests in the tree that were not granted are withdrawn, the
task does not wait any more, and the multi-events fail without waking it. Missing: interrupts that raise. -/
theorem c65_withdrawn_partial (ops : List Op) (t e : Nat)
    (hok : (step (run init ops).1 (.interrupt t)).2 = .handled t e true) :
    (step (run init ops).1 (.interrupt t)).1.waiting t = none ∧
    ∀ x, In (run init ops).1.cond e x → (run init ops).1.cond x = none → (run init ops).1.kind x = .request →
      (run init ops).1.status x = .pending →
        (step (run init ops).1 (.interrupt t)).1.withdrawn x = true ∧
        (step (run init ops).1 (.interrupt t)).1.status x = .pending := by
  have hI := (reach ops).1
  revert hok hI
  generalize (run init ops).1 = s
  intro hok hI
  simp only [step, interrupt] at hok ⊢
  split at hok
  · simp at hok
  · rename_i hr
    rw [if_neg hr]
    split at hok
    · simp at hok
    · rename_i e' hw
      simp only [Out.handled.injEq, true_and] at hok
      obtain ⟨rfl, hok⟩ := hok
      simp only
      rw [cancel_eq] at hok ⊢
      have hsame := acts_same (leave s t e', true) (nodes (leave s t e').cond (e' + 1) e')
      refine ⟨by rw [hsame.2.2.1]; exact upd_same .., fun x hx hc hk hp => ?_⟩
      have heff := acts_effect _ _ hok x (mem_nodes hI.hlt hx _ (Nat.lt_succ_self e'))
      have hc' : (leave s t e').cond x = none := hc
      have hk' : (leave s t e').kind x = .request := hk
      have hp' : (leave s t e').status x = .pending := hp
      have hn : needy (leave s t e') x = false := by unfold needy; rw [hc', hk']; simp
      rw [heff.1, heff.2.2.2, hn, if_pos ⟨hc', hk', hp'⟩]
      exact ⟨rfl, by simpa using hp'⟩

example : (step (run init exAny).1 (.interrupt 7)).2 = .handled 7 4 true ∧
    (run init exAny).1.kind 0 = .request ∧ (run init exAny).1.status 0 = .pending := by decide +kernel

/-- A withdrawn request stays as it is. -/
theorem withdrawn_step {s : St} {x : Nat} (hc : s.cond x = none) (hn : x < s.n)
    (hk : s.kind x = .request) (hp : s.status x = .pending) (hw : s.withdrawn x = true) (op : Op) :
    (step s op).1.cond x = none ∧ x < (step s op).1.n ∧ (step s op).1.kind x = .request ∧
      (step s op).1.status x = .pending ∧ (step s op).1.withdrawn x = true := by
  have hacts : ∀ (l : List Nat) (p : St × Bool), p.1.cond x = none → x < p.1.n → p.1.kind x = .request →
      p.1.status x = .pending → p.1.withdrawn x = true → (acts p l).1.cond x = none ∧ x < (acts p l).1.n ∧
      (acts p l).1.kind x = .request ∧ (acts p l).1.status x = .pending ∧ (acts p l).1.withdrawn x = true := by
    intro l
    induction l with
    | nil => exact fun p h1 h2 h3 h4 h5 => ⟨h1, h2, h3, h4, h5⟩
    | cons a l ih =>
      intro p h1 h2 h3 h4 h5
      have hstep : acts p (a :: l) = acts (if p.2 then act p.1 a else p) l := rfl
      rw [hstep]
      by_cases hb : p.2 = true
      · rw [if_pos hb]
        have hs := act_same p.1 a
        apply ih
        · rw [hs.2.1]; exact h1
        · rw [hs.1]; exact h2
        · rw [hs.2.2.1]; exact h3
        · by_cases hx : x = a
          · subst hx; unfold act; simp [h1, h3, h4]
          · rw [(act_other p.1 a x hx).1]; exact h4
        · by_cases hx : x = a
          · subst hx; unfold act; simp [h1, h3, h4]
          · rw [(act_other p.1 a x hx).2.2.1]; exact h5
      · rw [if_neg hb]; exact ih p h1 h2 h3 h4 h5
  have hcheck : ∀ (s' : St) (c e : Nat), s'.cond x = none → x < s'.n → s'.kind x = .request →
      s'.status x = .pending → s'.withdrawn x = true → (check s' c e).cond x = none ∧ x < (check s' c e).n ∧
      (check s' c e).kind x = .request ∧ (check s' c e).status x = .pending ∧ (check s' c e).withdrawn x = true := by
    intro s' c e h1 h2 h3 h4 h5
    unfold check
    split
    · exact ⟨h1, h2, h3, h4, h5⟩
    · rename_i k hk'
      have hxc : x ≠ c := fun h => by rw [h, hk'] at h1; cases h1
      split
      · exact ⟨h1, h2, h3, h4, h5⟩
      · simp only
        split
        · exact ⟨h1, h2, h3, (upd_ne _ _ hxc).trans h4, h5⟩
        · split
          · exact ⟨h1, h2, h3, (upd_ne _ _ hxc).trans h4, h5⟩
          · exact ⟨h1, h2, h3, h4, h5⟩
  cases op with
  | newEvent k => exact ⟨hc, Nat.lt_succ_of_lt hn, (upd_ne _ _ (Nat.ne_of_lt hn)).trans hk, hp, hw⟩
  | occur e ok =>
    simp only [step, occur]
    split
    · exact ⟨hc, hn, hk, hp, hw⟩
    · rename_i h
      simp only [not_or] at h
      have hxe : x ≠ e := fun hx => h.2.2.2.1 (hx ▸ hw)
      exact ⟨hc, hn, hk, (upd_ne _ _ hxe).trans hp, hw⟩
  | make all ms =>
    simp only [step]
    split
    · unfold make
      have hxn : x ≠ s.n := Nat.ne_of_lt hn
      simp only
      split
      · exact ⟨(upd_ne _ _ hxn).trans hc, Nat.lt_succ_of_lt hn, hk, (upd_ne _ _ hxn).trans hp, hw⟩
      · have key : ∀ (l : List Nat) (s' : St), s'.cond x = none → x < s'.n → s'.kind x = .request →
            s'.status x = .pending → s'.withdrawn x = true → (l.foldl (attach s.n) s').cond x = none ∧
            x < (l.foldl (attach s.n) s').n ∧ (l.foldl (attach s.n) s').kind x = .request ∧
            (l.foldl (attach s.n) s').status x = .pending ∧ (l.foldl (attach s.n) s').withdrawn x = true := by
          intro l
          induction l with
          | nil => exact fun s' h1 h2 h3 h4 h5 => ⟨h1, h2, h3, h4, h5⟩
          | cons a l ih =>
            intro s' h1 h2 h3 h4 h5
            rw [List.foldl_cons]
            unfold attach
            split
            · obtain ⟨a1, a2, a3, a4, a5⟩ := hcheck s' s.n a h1 h2 h3 h4 h5
              exact ih _ a1 a2 a3 a4 a5
            · exact ih _ h1 h2 h3 h4 h5
        exact key ms _ ((upd_ne _ _ hxn).trans hc) (Nat.lt_succ_of_lt hn) hk hp hw
    · exact ⟨hc, hn, hk, hp, hw⟩
  | waitFor t e =>
    simp only [step, waitFor]
    split
    · exact ⟨hc, hn, hk, hp, hw⟩
    · split <;> exact ⟨hc, hn, hk, hp, hw⟩
  | process e =>
    simp only [step, process]
    split
    · exact ⟨hc, hn, hk, hp, hw⟩
    · rename_i h
      simp only [not_or, ne_eq, Decidable.not_not] at h
      have hxe : x ≠ e := fun hx => by rw [hx, h.2.2] at hp; cases hp
      exact ⟨hc, hn, hk, (upd_ne _ _ hxe).trans hp, hw⟩
  | callback =>
    simp only [step, callback]
    split
    · exact ⟨hc, hn, hk, hp, hw⟩
    · exact hcheck _ _ _ hc hn hk hp hw
    · exact ⟨hc, hn, hk, hp, hw⟩
  | interrupt t =>
    simp only [step, interrupt]
    split
    · exact ⟨hc, hn, hk, hp, hw⟩
    · split
      · exact ⟨hc, hn, hk, hp, hw⟩
      · simp only
        rw [cancel_eq]
        exact hacts _ _ hc hn hk hp hw
  | ignore t =>
    simp only [step, ignore]
    split
    · exact ⟨hc, hn, hk, hp, hw⟩
    · split <;> exact ⟨hc, hn, hk, hp, hw⟩
  | tick =>
    simp only [step, tick]
    split <;> exact ⟨hc, hn, hk, hp, hw⟩

/-- A request that was withdrawn never happens, whatever is done afterwards. -/
theorem c65_withdrawn_forever (ops later : List Op) (x : Nat) (hc : (run init ops).1.cond x = none)
    (hn : x < (run init ops).1.n) (hk : (run init ops).1.kind x = .request)
    (hp : (run init ops).1.status x = .pending) (hw : (run init ops).1.withdrawn x = true) :
    (run (run init ops).1 later).1.status x = .pending ∧ ¬ Happened (run (run init ops).1 later).1 x := by
  have hI := (reach ops).1
  revert hc hn hk hp hw hI
  generalize (run init ops).1 = s
  induction later generalizing s with
  | nil =>
    intro hc hn hk hp hw hI
    exact ⟨hp, fun h => (hI.base2 x h).1 hp⟩
  | cons op later ih =>
    intro hc hn hk hp hw hI
    obtain ⟨h1, h2, h3, h4, h5⟩ := withdrawn_step hc hn hk hp hw op
    exact ih _ h1 h2 h3 h4 h5 (hI.step op)

example : (run init (exAny ++ [.interrupt 7])).1.cond 0 = none ∧ 0 < (run init (exAny ++ [.interrupt 7])).1.n ∧
    (run init (exAny ++ [.interrupt 7])).1.kind 0 = .request ∧
    (run init (exAny ++ [.interrupt 7])).1.status 0 = .pending ∧
    (run init (exAny ++ [.interrupt 7])).1.withdrawn 0 = true := by decide +kernel

/-- An interrupt, handled or not, touches no event outside the tree, no other task, and none of the Waits and processes in
the tree. -/
theorem c65_local (ops : List Op) (t e x : Nat) (hw : (run init ops).1.waiting t = some e)
    (hx : ¬ In (run init ops).1.cond e x ∨ ((run init ops).1.cond x = none ∧
      ((run init ops).1.kind x = .wait ∨ (run init ops).1.kind x = .process))) :
    (step (run init ops).1 (.interrupt t)).1.status x = (run init ops).1.status x ∧
    (step (run init ops).1 (.interrupt t)).1.bad x = (run init ops).1.bad x ∧
    (step (run init ops).1 (.interrupt t)).1.withdrawn x = (run init ops).1.withdrawn x ∧
    ∀ t', t' ≠ t → (step (run init ops).1 (.interrupt t)).1.waiting t' = (run init ops).1.waiting t' := by
  have hI := (reach ops).1
  revert hw hx hI
  generalize (run init ops).1 = s
  intro hw hx hI
  simp only [step, interrupt]
  split
  · exact ⟨rfl, rfl, rfl, fun _ _ => rfl⟩
  · rw [hw]
    simp only
    rw [cancel_eq]
    have hsame := acts_same (leave s t e, true) (nodes (leave s t e).cond (e + 1) e)
    have hwait : ∀ t', t' ≠ t → (acts (leave s t e, true) (nodes (leave s t e).cond (e + 1) e)).1.waiting t' =
        s.waiting t' := fun t' ht => by rw [hsame.2.2.1]; exact upd_ne _ _ ht
    rcases hx with hx | ⟨hc, hk⟩
    · have h := acts_other (leave s t e, true) (nodes (leave s t e).cond (e + 1) e) x
        (fun h => hx (nodes_lt hI.hlt _ e x h))
      exact ⟨h.1, h.2.1, h.2.2.1, hwait⟩
    · have key : ∀ (l : List Nat) (p : St × Bool), p.1.cond x = none → (p.1.kind x = .wait ∨ p.1.kind x = .process) →
          (acts p l).1.status x = p.1.status x ∧ (acts p l).1.bad x = p.1.bad x ∧
          (acts p l).1.withdrawn x = p.1.withdrawn x := by
        intro l
        induction l with
        | nil => exact fun p _ _ => ⟨rfl, rfl, rfl⟩
        | cons a l ih =>
          intro p h1 h2
          have hstep : acts p (a :: l) = acts (if p.2 then act p.1 a else p) l := rfl
          rw [hstep]
          by_cases hb : p.2 = true
          · rw [if_pos hb]
            have hs := act_same p.1 a
            have h3 := ih (act p.1 a) (by rw [hs.2.1]; exact h1) (by rw [hs.2.2.1]; exact h2)
            by_cases hxa : x = a
            · subst hxa
              have : (act p.1 x).1 = p.1 := by
                unfold act
                rw [h1]
                rcases h2 with h2 | h2 <;> rw [h2]
              rw [this] at h3
              exact h3
            · have h4 := act_other p.1 a x hxa
              exact ⟨h3.1.trans h4.1, h3.2.1.trans h4.2.1, h3.2.2.trans h4.2.2.1⟩
          · rw [if_neg hb]; exact ih p h1 h2
      have h := key (nodes (leave s t e).cond (e + 1) e) (leave s t e, true) hc hk
      exact ⟨h.1, h.2.1, h.2.2, hwait⟩

example : (run init exAny).1.waiting 7 = some 4 ∧ (run init exAny).1.cond 1 = none ∧ (run init exAny).1.kind 1 = .wait := by
  decide +kernel

/-! ## Violations -/

/-- `All(event, get)`: the event has happened in an earlier instant, then the task is interrupted. The exception leaves the
task, and the request stays in its queue: it is granted later, to nobody. -/
theorem c65_crash_event : ∃ ops t e x, settled (run init ops).1 = true ∧ (run init ops).1.waiting t = some e ∧
    (step (run init ops).1 (.interrupt t)).2 = .handled t e false ∧ (run init ops).1.kind x = .request ∧
    (step (run init ops).1 (.interrupt t)).1.withdrawn x = false ∧
    (step (step (run init ops).1 (.interrupt t)).1 (.occur x true)).2 = .done :=
  ⟨[.newEvent .event, .newEvent .request, .make true [0, 1], .waitFor 7 2, .tick, .occur 0 true, .process 0, .callback,
    .tick], 7, 2, 1, by decide +kernel⟩

/-- `All(Any(a, b), c)` of Waits: `a` is over, then the task is interrupted. -/
theorem c65_crash_inner : ∃ ops t e, settled (run init ops).1 = true ∧ (run init ops).1.waiting t = some e ∧
    (∀ x < 3, (run init ops).1.kind x = .wait) ∧ (step (run init ops).1 (.interrupt t)).2 = .handled t e false :=
  ⟨[.newEvent .wait, .newEvent .wait, .newEvent .wait, .make false [0, 1], .make true [3, 2], .waitFor 7 4, .tick,
    .occur 0 true, .process 0, .callback, .process 3, .callback, .tick], 7, 4, by decide +kernel⟩

/-- `Any(get, wait)`: the request is granted and the task is interrupted in the same instant, before it goes on. -/
theorem c65_crash_instant : ∃ ops t e, (run init ops).1.ready = [] ∧ (run init ops).1.waiting t = some e ∧
    (step (run init ops).1 (.interrupt t)).2 = .handled t e false :=
  ⟨[.newEvent .request, .newEvent .wait, .make false [0, 1], .waitFor 7 2, .tick, .occur 0 true, .process 0, .callback],
    7, 2, by decide +kernel⟩

/-- The same Event twice in a multi-event. -/
theorem c65_crash_twice : ∃ ops t e, settled (run init ops).1 = true ∧ (run init ops).1.waiting t = some e ∧
    (step (run init ops).1 (.interrupt t)).2 = .handled t e false ∧
    ∀ x < (run init ops).1.n, (run init ops).1.status x = .pending :=
  ⟨[.newEvent .event, .newEvent .wait, .make true [0, 1], .make false [0, 2], .waitFor 7 3, .tick], 7, 3,
    by decide +kernel⟩

/-- Tasks 7 and 8 wait for the same Event, 7 in an Any; 7 is interrupted: 8 goes on, although the Event has not happened. -/
theorem c65_wakes_others : ∃ ops op t e, (run init ops).1.when e = none ∧ (run init ops).1.kind e = .event ∧
    (step (run init ops).1 op).2 = .got t e true :=
  ⟨[.newEvent .event, .newEvent .wait, .make false [0, 1], .waitFor 7 2, .waitFor 8 0, .tick, .interrupt 7, .process 2,
    .process 0], .callback, 8, 0, by decide +kernel⟩

/-- An Any without members is over at once. -/
theorem c65_empty : ∃ ops op t e, (run init ops).1.cond e = some ⟨false, []⟩ ∧
    (step (run init ops).1 op).2 = .got t e true ∧ ¬ Occ (run init ops).1.cond (Happened (run init ops).1) e := by
  refine ⟨[.make false [], .waitFor 7 0, .process 0], .callback, 7, 0, by decide +kernel, by decide +kernel, ?_⟩
  intro h
  have h0 : (run init [.make false [], .waitFor 7 0, .process 0]).1.cond 0 = some ⟨false, []⟩ := by decide +kernel
  cases h with
  | plain hc _ => rw [h0] at hc; cases hc
  | any hc hm _ => rw [h0] at hc; cases hc; simp at hm
  | all hc _ => rw [h0] at hc; cases hc

/-- `Any(All(a, b), c)`: `c` is over first, the task goes on. `a` and `b` come to their ends too: the inner multi-event has
occurred, all its members are complete, yet it will never be: its checks were removed. -/
theorem c65_forgotten : ∃ ops x, settled (run init ops).1 = true ∧ (run init ops).1.cond x = some ⟨true, [0, 1]⟩ ∧
    (run init ops).1.status 0 = .processed ∧ (run init ops).1.status 1 = .processed ∧
    Occ (run init ops).1.cond (Happened (run init ops).1) x ∧ (run init ops).1.status x = .pending := by
  refine ⟨[.newEvent .wait, .newEvent .wait, .newEvent .wait, .make true [0, 1], .make false [3, 2], .waitFor 7 4, .tick,
    .occur 2 true, .process 2, .callback, .process 4, .callback, .tick, .occur 0 true, .process 0, .occur 1 true,
    .process 1, .tick], 3, by decide +kernel, by decide +kernel, by decide +kernel, by decide +kernel, ?_,
    by decide +kernel⟩
  refine .all (ms := [0, 1]) (by decide +kernel) (fun m hm => ?_)
  simp only [List.mem_cons, List.not_mem_nil, or_false] at hm
  rcases hm with rfl | rfl
  · refine .plain (by decide +kernel) ?_
    unfold Happened
    decide +kernel
  · refine .plain (by decide +kernel) ?_
    unfold Happened
    decide +kernel

end Verif.Multi
