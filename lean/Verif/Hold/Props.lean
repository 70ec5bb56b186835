import Verif.Hold.Inv

/-!
# Property C40: resource holds
-/

namespace Verif.Hold

/-- C40: whatever is done with any number of holds, each asks, gets, gives back and has given back, each at most once and in
this order. -/
theorem c40_once_in_order (cap : Nat) (ops : List Op) (h : Nat) :
    acts h (run (init cap) ops).2 <+: [.asked, .got, .gave, .back] := by
  rw [(reach cap ops).acts h]
  unfold phase
  split
  · exact List.nil_prefix
  · exact ⟨[.got, .gave, .back], rfl⟩
  · exact ⟨[.got, .gave, .back], rfl⟩
  · split
    · exact ⟨[.gave, .back], rfl⟩
    · split
      · exact ⟨[.back], rfl⟩
      · exact List.prefix_rfl

/-- Two holds on one slot: 2 waits until 1 is given back. -/
def demo : List Op := [.yield 1 0, .yield 2 0, .granted 1, .yield 2 0, .yield 1 0, .gaveBack 1, .granted 2]

example : acts 1 (run (init 1) demo).2 = [.asked, .got, .gave, .back] ∧ acts 2 (run (init 1) demo).2 = [.asked, .got] ∧
    (run (init 1) demo).1.users = [2] := by decide

/-- C40: yielding a hold that has asked but not got the resource raises and changes nothing. -/
theorem c40_early_release (cap : Nat) (ops : List Op) (h pos : Nat) (ha : acts h (run (init cap) ops).2 = [.asked]) :
    step (run (init cap) ops).1 (.yield h pos) = ((run (init cap) ops).1, .raised) := by
  have i := reach cap ops
  generalize (run (init cap) ops).1 = s at *
  rw [i.acts h] at ha
  have hreq : s.req h = .waiting ∨ s.req h = .granted := by
    unfold phase at ha
    split at ha
    · simp at ha
    · rename_i e; exact Or.inl e
    · rename_i e; exact Or.inr e
    · split at ha
      · simp at ha
      · split at ha <;> simp at ha
  simp only [step, asEvent]
  split
  · rename_i e; have := i.fresh h e; rcases hreq with g | g <;> simp [g] at this
  · have : ¬ s.req h = .processed := by rcases hreq with g | g <;> simp [g]
    rw [if_neg this]
  · rfl

example : acts 2 (run (init 1) [.yield 1 0, .yield 2 0]).2 = [.asked] := by decide

/-- C40: a hold that has been given back cannot be used again. -/
theorem c40_used_up (cap : Nat) (ops : List Op) (h pos : Nat) (ha : .gave ∈ acts h (run (init cap) ops).2) :
    step (run (init cap) ops).1 (.yield h pos) = ((run (init cap) ops).1, .raised) := by
  have i := reach cap ops
  generalize (run (init cap) ops).1 = s at *
  rw [i.acts h] at ha
  have hst : s.stage h = .completed := by
    unfold phase at ha
    split at ha
    · simp at ha
    · simp at ha
    · simp at ha
    · rename_i hp
      split at ha
      · simp at ha
      · rename_i hne
        cases hs : s.stage h with
        | request => have := i.fresh h hs; simp [hp] at this
        | release => exact absurd hs hne
        | completed => rfl
  simp [step, asEvent, hst]

example : Act.gave ∈ acts 1 (run (init 1) demo).2 := by decide

/-- C40: a hold that has got the resource can be given back. -/
theorem c40_can_release (cap : Nat) (ops : List Op) (h pos : Nat) (hh : Holding (run (init cap) ops).2 h) :
    (step (run (init cap) ops).1 (.yield h pos)).2 = .released ∧ h ∉ (step (run (init cap) ops).1 (.yield h pos)).1.users := by
  have i := reach cap ops
  generalize (run (init cap) ops).1 = s at *
  have h1 := hh.1
  have h2 := hh.2
  rw [i.acts h] at h1 h2
  have hst : s.stage h = .release ∧ s.req h = .processed := by
    unfold phase at h1 h2
    split at h1
    · simp at h1
    · simp at h1
    · simp at h1
    · rename_i hp
      refine ⟨?_, hp⟩
      simp only [hp] at h2
      by_cases hs : s.stage h = .release
      · exact hs
      · simp only [hs, if_false] at h2
        split at h2 <;> simp at h2
  simp [step, asEvent, hst.1, hst.2]

example : Holding (run (init 1) demo).2 2 := by decide

/-- C40: the occupied slots are those of the holds that have got the resource and not given it back, and of those whose grant
the kernel is about to process; each occupies one slot, and there are never more than the capacity. -/
theorem c40_occupied (cap : Nat) (ops : List Op) :
    let s := (run (init cap) ops).1
    s.users.Nodup ∧ s.users.length ≤ cap ∧
    ∀ h, h ∈ s.users ↔ Holding (run (init cap) ops).2 h ∨ (step s (.granted h)).2 = .done := by
  intro s
  have i := reach cap ops
  refine ⟨i.ndU, ?_, ?_⟩
  · have := i.cap
    rw [run_cap] at this
    exact this
  · intro h
    rw [i.users h]
    have hg : (step s (.granted h)).2 = .done ↔ s.req h = .granted := by
      simp only [step]
      by_cases e : s.req h = .granted <;> simp [e]
    rw [hg]
    unfold Holding
    rw [i.acts h]
    show s.stage h = .release ∧ (s.req h = .granted ∨ s.req h = .processed) ↔ (.got ∈ phase s h ∧ .gave ∉ phase s h) ∨ s.req h = .granted
    have f : s.stage h = .request → s.req h = .none := i.fresh h
    have c : s.stage h = .completed → s.req h = .processed := i.completed h
    unfold phase
    cases hs : s.stage h <;> cases hr : s.req h <;> simp_all
    split <;> simp

example : (run (init 2) [.yield 1 0, .yield 2 0, .yield 3 0, .granted 1]).1.users = [1, 2] := by decide

/-- C40: no more tasks than slots have the resource at once. -/
theorem c40_exclusive (cap : Nat) (ops : List Op) (l : List Nat) (hl : l.Nodup) (hh : ∀ h ∈ l, Holding (run (init cap) ops).2 h) :
    l.length ≤ cap := by
  obtain ⟨_, h2, h3⟩ := c40_occupied cap ops
  refine Nat.le_trans (List.Subperm.length_le (List.subperm_of_subset hl ?_)) h2
  intro h hm
  exact (h3 h).2 (Or.inl (hh h hm))

example : Holding (run (init 2) [.yield 1 0, .yield 2 0, .yield 3 0, .granted 1, .granted 2]).2 1 ∧
    Holding (run (init 2) [.yield 1 0, .yield 2 0, .yield 3 0, .granted 1, .granted 2]).2 2 := by decide

/-- C40: a waiting hold waits only while the resource is full, or slots have been given back in this instant: when all
releases are processed, a request in the queue means that all slots are occupied. -/
theorem c40_no_idle_slot (cap : Nat) (ops : List Op) (h : Nat) (hq : h ∈ (run (init cap) ops).1.queue)
    (hr : ∀ k, (step (run (init cap) ops).1 (.gaveBack k)).2 = .raised) : (run (init cap) ops).1.users.length = cap := by
  have i := reach cap ops
  have hc := run_cap ops (init cap)
  generalize (run (init cap) ops).1 = s at *
  have he : s.rel = [] := by
    cases hl : s.rel with
    | nil => rfl
    | cons k r =>
      have := hr k
      simp only [step, hl, List.mem_cons_self, if_true] at this
      simp at this
  have h1 := i.busy (List.ne_nil_of_mem hq)
  have h2 := i.cap
  rw [he] at h1
  simp only [List.length_nil, Nat.add_zero] at h1
  have : s.cap = cap := hc
  omega

example : 2 ∈ (run (init 1) [.yield 1 0, .granted 1, .yield 2 0]).1.queue ∧
    ∀ k, (step (run (init 1) [.yield 1 0, .granted 1, .yield 2 0]).1 (.gaveBack k)).2 = .raised :=
  ⟨by decide, fun _ => rfl⟩

theorem trigger_other {s : St} {h : Nat} (hq : h ∉ s.queue) :
    (trigger s).req h = s.req h ∧ h ∉ (trigger s).queue ∧ (h ∈ (trigger s).users ↔ h ∈ s.users) := by
  unfold trigger
  split
  · rename_i e; exact ⟨rfl, by simp [e], Iff.rfl⟩
  · rename_i k r e
    rw [e] at hq
    have hk : h ≠ k := fun x => hq (x ▸ List.mem_cons_self)
    split
    · exact ⟨upd_ne _ _ hk, fun x => hq (List.mem_cons_of_mem _ x), by simp [hk]⟩
    · exact ⟨rfl, by rw [e]; exact hq, Iff.rfl⟩

/-- Out of the queue while waiting: never granted. -/
theorem gone_step {s : St} {h : Nat} (h1 : s.stage h = .release) (h2 : s.req h = .waiting) (h3 : h ∉ s.queue) (h4 : h ∉ s.users) (op : Op) :
    (step s op).1.stage h = .release ∧ (step s op).1.req h = .waiting ∧ h ∉ (step s op).1.queue ∧ h ∉ (step s op).1.users := by
  cases op with
  | yield k pos =>
    simp only [step, asEvent]
    split
    · rename_i hs
      have e : h ≠ k := by rintro rfl; simp [h1] at hs
      have hq : h ∉ s.queue.take pos ++ k :: s.queue.drop pos := by
        intro hm
        rcases List.mem_append.1 hm with hm | hm
        · exact h3 (List.mem_of_mem_take hm)
        · rcases List.mem_cons.1 hm with hm | hm
          · exact e hm
          · exact h3 (List.mem_of_mem_drop hm)
      obtain ⟨t1, t2, t3⟩ := trigger_other (s := { s with queue := s.queue.take pos ++ k :: s.queue.drop pos, req := upd s.req k .waiting, stage := upd s.stage k .release }) hq
      refine ⟨?_, ?_, t2, fun hm => h4 (t3.1 hm)⟩
      · rw [(trigger_frame _).2.1]; simp only [upd_ne _ _ e]; exact h1
      · rw [t1]; simp only [upd_ne _ _ e]; exact h2
    · split
      · rename_i hp
        have e : h ≠ k := by rintro rfl; simp [h2] at hp
        refine ⟨?_, h2, h3, fun hm => h4 (List.mem_filter.1 hm).1⟩
        simp only [upd_ne _ _ e]; exact h1
      · exact ⟨h1, h2, h3, h4⟩
    · exact ⟨h1, h2, h3, h4⟩
  | cancel k =>
    simp only [step, cancel]
    split
    · exact ⟨h1, h2, fun hm => h3 (List.mem_filter.1 hm).1, h4⟩
    · exact ⟨h1, h2, h3, h4⟩
  | rehearse k =>
    simp only [step, rehearse]
    split
    · rename_i hs
      have e : h ≠ k := by rintro rfl; simp [h1] at hs
      exact ⟨by simp only [upd_ne _ _ e]; exact h1, h2, h3, h4⟩
    · exact ⟨h1, h2, h3, h4⟩
    · exact ⟨h1, h2, h3, h4⟩
  | granted k =>
    simp only [step]
    split
    · rename_i hs
      have e : h ≠ k := by rintro rfl; simp [h2] at hs
      exact ⟨h1, by simp only [upd_ne _ _ e]; exact h2, h3, h4⟩
    · exact ⟨h1, h2, h3, h4⟩
  | gaveBack k =>
    simp only [step]
    split
    · obtain ⟨t1, t2, t3⟩ := trigger_other (s := { s with rel := s.rel.erase k }) h3
      exact ⟨by rw [(trigger_frame _).2.1]; exact h1, by rw [t1]; exact h2, t2, fun hm => h4 (t3.1 hm)⟩
    · exact ⟨h1, h2, h3, h4⟩

theorem gone_run (ops : List Op) : ∀ {s : St} {h : Nat}, s.stage h = .release → s.req h = .waiting → h ∉ s.queue → h ∉ s.users →
    h ∉ (run s ops).1.users ∧ .got ∉ acts h (run s ops).2 := by
  induction ops with
  | nil => intro s h _ _ _ h4; exact ⟨h4, by simp [run, acts]⟩
  | cons op r ih =>
    intro s h h1 h2 h3 h4
    obtain ⟨a, b, c, d⟩ := gone_step h1 h2 h3 h4 op
    obtain ⟨e, f⟩ := ih a b c d
    refine ⟨e, ?_⟩
    simp only [run, acts, List.flatMap_cons, List.mem_append, not_or]
    refine ⟨?_, f⟩
    cases op with
    | granted k =>
      simp only [step]
      split
      · rename_i hs
        have e : ¬ k = h := by rintro rfl; simp [h2] at hs
        simp [actOf, e]
      · simp [actOf]
    | yield k pos => cases hq : (step s (.yield k pos)).2 <;> simp [actOf, hq] <;> split <;> simp
    | cancel k => simp [actOf]
    | rehearse k => simp [actOf]
    | gaveBack k => cases hq : (step s (.gaveBack k)).2 <;> simp [actOf, hq]

/-- C40: a request cancelled before it was granted never occupies the resource, and its hold never gets it. Partial: a request
that is granted but not yet processed keeps its slot when cancelled (`c40_cancel_leaks`). -/
theorem c40_cancelled_partial (cap : Nat) (before after : List Op) (h : Nat)
    (ha : acts h (run (init cap) before).2 = [.asked]) (hu : h ∉ (run (init cap) before).1.users) :
    let s := (step (run (init cap) before).1 (.cancel h)).1
    h ∉ (run s after).1.users ∧ .got ∉ acts h (run s after).2 := by
  have i := reach cap before
  generalize (run (init cap) before).1 = s0 at *
  rw [i.acts h] at ha
  have hreq : s0.req h = .waiting ∨ s0.req h = .granted := by
    unfold phase at ha
    split at ha
    · simp at ha
    · rename_i e; exact Or.inl e
    · rename_i e; exact Or.inr e
    · split at ha
      · simp at ha
      · split at ha <;> simp at ha
  have hst : s0.stage h = .release := by
    cases hs : s0.stage h with
    | request => have := i.fresh h hs; rcases hreq with g | g <;> simp [g] at this
    | release => rfl
    | completed => have := i.completed h hs; rcases hreq with g | g <;> simp [g] at this
  have hw : s0.req h = .waiting := by
    rcases hreq with g | g
    · exact g
    · exact absurd ((i.users h).2 ⟨hst, Or.inl g⟩) hu
  intro s
  have e : s = { s0 with queue := s0.queue.filter (· ≠ h) } := by simp [s, step, cancel, hw]
  rw [e]
  exact gone_run after hst hw (by simp) hu

example : acts 2 (run (init 1) [.yield 1 0, .yield 2 0]).2 = [.asked] ∧ 2 ∉ (run (init 1) [.yield 1 0, .yield 2 0]).1.users := by decide

/-- C40: a request that is granted but not yet processed when its task is interrupted keeps its slot: with the interrupted task
gone, another waits for ever. -/
theorem c40_cancel_leaks :
    let s := (run (init 1) [.yield 1 0, .cancel 1, .granted 1, .yield 2 0]).1
    s.users = [1] ∧ s.queue = [2] ∧ s.rel = [] := by decide

/-- C40: a hold that was rehearsed can no longer be used: the first real yield raises. -/
theorem c40_rehearsed : (step (run (init 1) [.rehearse 1]).1 (.yield 1 0)).2 = .raised := by decide

end Verif.Hold
