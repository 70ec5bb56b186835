import Verif.Hold.Spec
import Mathlib.Data.List.Nodup
import Mathlib.Data.List.Perm.Basic

/-!
# The invariant of resource and holds
-/

namespace Verif.Hold

theorem upd_self {β : Type} (f : Nat → β) (k : Nat) (v : β) : upd f k v k = v := by simp [upd]
theorem upd_ne {β : Type} (f : Nat → β) {k x : Nat} (v : β) (h : x ≠ k) : upd f k v x = f x := by simp [upd, h]

theorem acts_snoc (h : Nat) (tr : List (Op × Out)) (x : Op × Out) : acts h (tr ++ [x]) = acts h tr ++ actOf h x := by
  simp [acts]

/-- What has been seen of hold `h`, from the state. -/
def phase (s : St) (h : Nat) : List Act :=
  match s.req h with
  | .none => []
  | .waiting => [.asked]
  | .granted => [.asked]
  | .processed =>
    if s.stage h = .release then [.asked, .got]
    else if h ∈ s.rel then [.asked, .got, .gave] else [.asked, .got, .gave, .back]

structure Inv (s : St) (tr : List (Op × Out)) : Prop where
  acts : ∀ h, acts h tr = phase s h
  fresh : ∀ h, s.stage h = .request → s.req h = .none
  completed : ∀ h, s.stage h = .completed → s.req h = .processed
  users : ∀ h, h ∈ s.users ↔ s.stage h = .release ∧ (s.req h = .granted ∨ s.req h = .processed)
  queue : ∀ h, h ∈ s.queue → s.stage h = .release ∧ s.req h = .waiting
  rel : ∀ h, h ∈ s.rel → s.stage h = .completed
  ndU : s.users.Nodup
  ndQ : s.queue.Nodup
  ndR : s.rel.Nodup
  cap : s.users.length ≤ s.cap
  busy : s.queue ≠ [] → s.cap ≤ s.users.length + s.rel.length

theorem Inv.init (cap : Nat) : Inv (init cap) [] := by
  constructor <;> simp [Hold.init, Hold.acts, phase]

/-- Looking at the head of the queue. The condition on idle slots is needed only with one slot less. -/
theorem trigger_inv {s : St} {tr : List (Op × Out)} (acts : ∀ h, acts h tr = phase s h)
    (fresh : ∀ h, s.stage h = .request → s.req h = .none)
    (completed : ∀ h, s.stage h = .completed → s.req h = .processed)
    (users : ∀ h, h ∈ s.users ↔ s.stage h = .release ∧ (s.req h = .granted ∨ s.req h = .processed))
    (queue : ∀ h, h ∈ s.queue → s.stage h = .release ∧ s.req h = .waiting)
    (rel : ∀ h, h ∈ s.rel → s.stage h = .completed)
    (ndU : s.users.Nodup) (ndQ : s.queue.Nodup) (ndR : s.rel.Nodup) (cap : s.users.length ≤ s.cap)
    (busy : s.queue.length > 1 → s.cap ≤ s.users.length + s.rel.length + 1) : Inv (trigger s) tr := by
  unfold trigger
  split
  · rename_i hq
    exact ⟨acts, fresh, completed, users, queue, rel, ndU, ndQ, ndR, cap, fun h => absurd hq h⟩
  · rename_i h r hq
    have hh := queue h (by rw [hq]; exact List.mem_cons_self)
    have hnr : h ∉ r := by rw [hq] at ndQ; exact (List.nodup_cons.1 ndQ).1
    split
    · rename_i hlt
      refine ⟨?_, ?_, ?_, ?_, ?_, rel, ?_, ?_, ndR, ?_, ?_⟩
      · intro k
        rw [acts k]
        by_cases hk : k = h
        · subst hk; simp [phase, upd_self, hh.2]
        · simp [phase, upd_ne _ _ hk]
      · intro k hk
        by_cases e : k = h
        · subst e; simp [hh.1] at hk
        · simp only [upd_ne _ _ e]; exact fresh k hk
      · intro k hk
        by_cases e : k = h
        · subst e; simp [hh.1] at hk
        · simp only [upd_ne _ _ e]; exact completed k hk
      · intro k
        by_cases e : k = h
        · subst e; simp [upd_self, hh.1]
        · simp only [List.mem_append, List.mem_singleton, e, or_false, upd_ne _ _ e]; exact users k
      · intro k hk
        have e : k ≠ h := by rintro rfl; exact hnr hk
        simp only [upd_ne _ _ e]
        exact queue k (by rw [hq]; exact List.mem_cons_of_mem _ hk)
      · rw [List.nodup_append]
        refine ⟨ndU, List.nodup_singleton h, ?_⟩
        intro a ha b hb
        obtain rfl := List.mem_singleton.1 hb
        rintro rfl
        have := (users a).1 ha
        simp [hh.2] at this
      · rw [hq] at ndQ; exact (List.nodup_cons.1 ndQ).2
      · simp; omega
      · intro hr
        have : s.queue.length > 1 := by
          rw [hq]; cases r with
          | nil => exact absurd rfl hr
          | cons a b => simp
        have := busy this
        simp; omega
    · rename_i hge
      exact ⟨acts, fresh, completed, users, queue, rel, ndU, ndQ, ndR, cap, fun _ => by omega⟩

theorem Inv.step {s : St} {tr : List (Op × Out)} (i : Inv s tr) (op : Op) : Inv (step s op).1 (tr ++ [(op, (step s op).2)]) := by
  cases op with
  | yield h pos =>
    simp only [Hold.step, asEvent]
    cases hst : s.stage h with
    | request =>
      have hreq := i.fresh h hst
      have hnq : h ∉ s.queue := fun hc => by have := (i.queue h hc).1; simp [hst] at this
      have hperm : (s.queue.take pos ++ h :: s.queue.drop pos).Perm (h :: s.queue) := by
        refine List.perm_middle.trans ?_
        rw [List.take_append_drop]
      apply trigger_inv
      · intro k
        rw [acts_snoc, i.acts]
        by_cases e : k = h
        · subst e; simp [phase, upd_self, hreq, actOf]
        · have e' : ¬ h = k := fun x => e x.symm
          simp [phase, upd_ne _ _ e, actOf, e']
      · intro k hk
        by_cases e : k = h
        · subst e; simp [upd_self] at hk
        · simp only [upd_ne _ _ e] at hk ⊢; exact i.fresh k hk
      · intro k hk
        by_cases e : k = h
        · subst e; simp [upd_self] at hk
        · simp only [upd_ne _ _ e] at hk ⊢; exact i.completed k hk
      · intro k
        by_cases e : k = h
        · subst e; simp [upd_self, i.users, hst]
        · simp only [upd_ne _ _ e]; exact i.users k
      · intro k hk
        by_cases e : k = h
        · subst e; simp [upd_self]
        · simp only [upd_ne _ _ e]
          have := hperm.mem_iff.1 hk
          exact i.queue k ((List.mem_cons.1 this).resolve_left e)
      · intro k hk
        by_cases e : k = h
        · subst e; have := i.rel k hk; simp [hst] at this
        · simp only [upd_ne _ _ e]; exact i.rel k hk
      · exact i.ndU
      · exact hperm.nodup_iff.2 (List.nodup_cons.2 ⟨hnq, i.ndQ⟩)
      · exact i.ndR
      · exact i.cap
      · intro hl
        have h1 : s.queue ≠ [] := by
          intro hc
          simp [hc] at hl
        have := i.busy h1
        dsimp only at this ⊢
        omega
    | release =>
      dsimp only
      split
      · rename_i hreq
        have hu : h ∈ s.users := (i.users h).2 ⟨hst, Or.inr hreq⟩
        have hnr : h ∉ s.rel := fun hc => by have := i.rel h hc; simp [hst] at this
        refine ⟨?_, ?_, ?_, ?_, ?_, ?_, ?_, i.ndQ, ?_, ?_, ?_⟩
        · intro k
          rw [acts_snoc, i.acts]
          by_cases e : k = h
          · subst e; simp [phase, upd_self, hreq, actOf, hst]
          · have e' : ¬ h = k := fun x => e x.symm
            simp [phase, upd_ne _ _ e, actOf, e', e]
        · intro k hk
          by_cases e : k = h
          · subst e; simp [upd_self] at hk
          · simp only [upd_ne _ _ e] at hk; exact i.fresh k hk
        · intro k hk
          by_cases e : k = h
          · subst e; exact hreq
          · simp only [upd_ne _ _ e] at hk; exact i.completed k hk
        · intro k
          by_cases e : k = h
          · subst e; simp [upd_self]
          · simp only [List.mem_filter, e, ne_eq, not_false_eq_true, decide_true, and_true, upd_ne _ _ e]; exact i.users k
        · intro k hk
          by_cases e : k = h
          · subst e; have := (i.queue k hk).2; simp [hreq] at this
          · simp only [upd_ne _ _ e]; exact i.queue k hk
        · intro k hk
          by_cases e : k = h
          · subst e; simp [upd_self]
          · simp only [upd_ne _ _ e]
            exact i.rel k ((List.mem_append.1 hk).resolve_right (by simpa using e))
        · exact i.ndU.filter _
        · dsimp only
          rw [List.nodup_append]
          refine ⟨i.ndR, List.nodup_singleton h, ?_⟩
          intro a ha b hb
          obtain rfl := List.mem_singleton.1 hb
          rintro rfl
          exact hnr ha
        · exact Nat.le_trans (List.length_filter_le _ _) i.cap
        · intro hq
          have hl : (s.users.filter (· ≠ h)).length + 1 = s.users.length := by
            have he : s.users.filter (· ≠ h) = s.users.erase h := by
              rw [i.ndU.erase_eq_filter]
              apply List.filter_congr
              intro x _
              by_cases e : x = h <;> simp [e]
            rw [he, List.length_erase_of_mem hu]
            have := List.length_pos_of_mem hu
            omega
          have := i.busy hq
          dsimp only
          simp only [List.length_append, List.length_singleton]
          omega
      · refine ⟨?_, i.fresh, i.completed, i.users, i.queue, i.rel, i.ndU, i.ndQ, i.ndR, i.cap, i.busy⟩
        intro k; rw [acts_snoc, i.acts]; simp [actOf]
    | completed =>
      refine ⟨?_, i.fresh, i.completed, i.users, i.queue, i.rel, i.ndU, i.ndQ, i.ndR, i.cap, i.busy⟩
      intro k; rw [acts_snoc, i.acts]; simp [actOf]
  | cancel h =>
    simp only [Hold.step, cancel]
    split
    · refine ⟨?_, i.fresh, i.completed, i.users, ?_, i.rel, i.ndU, i.ndQ.filter _, i.ndR, i.cap, ?_⟩
      · intro k; rw [acts_snoc, i.acts]; simp [actOf, phase]
      · intro k hk; exact i.queue k (List.mem_filter.1 hk).1
      · intro hq; exact i.busy fun hc => hq (by simp [hc])
    · refine ⟨?_, i.fresh, i.completed, i.users, i.queue, i.rel, i.ndU, i.ndQ, i.ndR, i.cap, i.busy⟩
      intro k; rw [acts_snoc, i.acts]; simp [actOf]
  | rehearse h =>
    simp only [Hold.step, rehearse]
    cases hst : s.stage h with
    | request =>
      have hreq := i.fresh h hst
      refine ⟨?_, ?_, ?_, ?_, ?_, ?_, i.ndU, i.ndQ, i.ndR, i.cap, i.busy⟩
      · intro k
        rw [acts_snoc, i.acts]
        by_cases e : k = h
        · subst e; simp [phase, hreq, actOf]
        · simp [phase, upd_ne _ _ e, actOf]
      · intro k hk
        by_cases e : k = h
        · subst e; exact hreq
        · simp only [upd_ne _ _ e] at hk; exact i.fresh k hk
      · intro k hk
        by_cases e : k = h
        · subst e; simp [upd_self] at hk
        · simp only [upd_ne _ _ e] at hk; exact i.completed k hk
      · intro k
        by_cases e : k = h
        · subst e; simp [i.users, hst, hreq]
        · simp only [upd_ne _ _ e]; exact i.users k
      · intro k hk
        by_cases e : k = h
        · subst e; have := (i.queue k hk).1; simp [hst] at this
        · simp only [upd_ne _ _ e]; exact i.queue k hk
      · intro k hk
        by_cases e : k = h
        · subst e; have := i.rel k hk; simp [hst] at this
        · simp only [upd_ne _ _ e]; exact i.rel k hk
    | release =>
      refine ⟨?_, i.fresh, i.completed, i.users, i.queue, i.rel, i.ndU, i.ndQ, i.ndR, i.cap, i.busy⟩
      intro k; rw [acts_snoc, i.acts]; simp [actOf]
    | completed =>
      refine ⟨?_, i.fresh, i.completed, i.users, i.queue, i.rel, i.ndU, i.ndQ, i.ndR, i.cap, i.busy⟩
      intro k; rw [acts_snoc, i.acts]; simp [actOf]
  | granted h =>
    simp only [Hold.step]
    split
    · rename_i hreq
      have hst : s.stage h = .release := by
        cases hs : s.stage h with
        | request => have := i.fresh h hs; simp [hreq] at this
        | release => rfl
        | completed => have := i.completed h hs; simp [hreq] at this
      refine ⟨?_, ?_, ?_, ?_, ?_, i.rel, i.ndU, i.ndQ, i.ndR, i.cap, i.busy⟩
      · intro k
        rw [acts_snoc, i.acts]
        by_cases e : k = h
        · subst e; simp [phase, upd_self, hreq, actOf, hst]
        · have e' : ¬ h = k := fun x => e x.symm
          simp [phase, upd_ne _ _ e, actOf, e']
      · intro k hk
        by_cases e : k = h
        · subst e; have := i.fresh k hk; simp [hreq] at this
        · simp only [upd_ne _ _ e]; exact i.fresh k hk
      · intro k hk
        by_cases e : k = h
        · subst e; simp [upd_self]
        · simp only [upd_ne _ _ e]; exact i.completed k hk
      · intro k
        by_cases e : k = h
        · subst e; simp [upd_self, i.users, hst, hreq]
        · simp only [upd_ne _ _ e]; exact i.users k
      · intro k hk
        by_cases e : k = h
        · subst e; have := (i.queue k hk).2; simp [hreq] at this
        · simp only [upd_ne _ _ e]; exact i.queue k hk
    · refine ⟨?_, i.fresh, i.completed, i.users, i.queue, i.rel, i.ndU, i.ndQ, i.ndR, i.cap, i.busy⟩
      intro k; rw [acts_snoc, i.acts]; simp [actOf]
  | gaveBack h =>
    simp only [Hold.step]
    split
    · rename_i hm
      have hc := i.rel h hm
      have hp := i.completed h hc
      apply trigger_inv
      · intro k
        rw [acts_snoc, i.acts]
        by_cases e : k = h
        · subst e
          have : k ∉ s.rel.erase k := i.ndR.not_mem_erase
          simp [phase, hp, hc, hm, this, actOf]
        · have e' : ¬ h = k := fun x => e x.symm
          simp [phase, actOf, e', List.mem_erase_of_ne e]
      · exact i.fresh
      · exact i.completed
      · exact i.users
      · exact i.queue
      · intro k hk; exact i.rel k (List.mem_of_mem_erase hk)
      · exact i.ndU
      · exact i.ndQ
      · exact i.ndR.erase _
      · exact i.cap
      · intro hq
        have h1 : s.queue ≠ [] := by
          intro hc
          simp [hc] at hq
        have := i.busy h1
        have h2 := List.length_pos_of_mem hm
        dsimp only
        rw [List.length_erase_of_mem hm]
        omega
    · refine ⟨?_, i.fresh, i.completed, i.users, i.queue, i.rel, i.ndU, i.ndQ, i.ndR, i.cap, i.busy⟩
      intro k; rw [acts_snoc, i.acts]; simp [actOf]

theorem Inv.run (ops : List Op) : ∀ {s : St} {tr : List (Op × Out)}, Inv s tr → Inv (run s ops).1 (tr ++ (run s ops).2) := by
  induction ops with
  | nil => intro s tr h; simpa [Hold.run] using h
  | cons op r ih =>
    intro s tr h
    have := ih (h.step op)
    simpa [Hold.run] using this

theorem reach (cap : Nat) (ops : List Op) : Inv (run (init cap) ops).1 (run (init cap) ops).2 := by
  simpa using Inv.run ops (Inv.init cap)

theorem trigger_frame (s : St) : (trigger s).cap = s.cap ∧ (trigger s).stage = s.stage ∧ (trigger s).rel = s.rel := by
  unfold trigger
  split
  · exact ⟨rfl, rfl, rfl⟩
  · split <;> exact ⟨rfl, rfl, rfl⟩

theorem run_cap (ops : List Op) : ∀ s : St, (run s ops).1.cap = s.cap := by
  induction ops with
  | nil => intro s; rfl
  | cons op r ih =>
    intro s
    simp only [run]
    rw [ih]
    cases op with
    | yield h pos =>
      simp only [step, asEvent]
      split
      · exact (trigger_frame _).1
      · split <;> rfl
      · rfl
    | cancel h => simp only [step, cancel]; split <;> rfl
    | rehearse h => simp only [step, rehearse]; split <;> rfl
    | granted h => simp only [step]; split <;> rfl
    | gaveBack h =>
      simp only [step]
      split
      · exact (trigger_frame _).1
      · rfl

end Verif.Hold
