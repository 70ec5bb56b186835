import Verif.Event.Inv

/-!
# Properties C38 and C21

Specification: functions of the trace of calls and outcomes only.
-/

namespace Verif.Event

open Verif

variable {P V : Type}

/-! ## Specification -/

/-- The armings triggered in a trace (by `succeed`, `succeed_knowledge_event`, `cancel` or interruption). -/
def trigs (tr : List (Op P V × Out P V)) : List Nat := tr.flatMap (fun x => trigOf x.2)

/-- What each process is waiting for after one more call: a yield starts a wait, being resumed or interrupted ends it. -/
def pendStep (b : Nat → Option (Nat × Nat)) : Op P V × Out P V → Nat → Option (Nat × Nat)
  | (_, .waits w e i) => upd b w (some (e, i))
  | (_, .got w _ _ _) => upd b w none
  | (.interrupt _, .impossible) => b
  | (.interrupt w, _) => upd b w none
  | _ => b

/-- What process `w` is waiting for: event and arming. -/
def pend (tr : List (Op P V × Out P V)) : Nat → Option (Nat × Nat) := tr.foldl pendStep (fun _ => none)

/-- The payload supplied by the call that triggered an arming: event, arming, payload. -/
def sentOf : Op P V × Out P V → List (Nat × Nat × P)
  | (.succeed _ p, .triggered e i) => [(e, i, p)]
  | (.succeedK _ p, .triggered e i) => [(e, i, p)]
  | _ => []

def sents (tr : List (Op P V × Out P V)) : List (Nat × Nat × P) := tr.flatMap sentOf

/-! ## Lifting the invariant -/

theorem Inv.run (p0 : P) (ops : List (Op P V)) : ∀ {s : St P V} {T : List Nat}, Inv s T →
    Inv (run p0 s ops).1 (T ++ trigs (run p0 s ops).2) := by
  induction ops with
  | nil => intro s T h; simpa [Event.run, trigs] using h
  | cons op ops ih =>
    intro s T h
    have := ih (h.step p0 op)
    simpa [Event.run, trigs] using this

theorem reach (p0 : P) (ops : List (Op P V)) :
    Inv (run p0 (init p0) ops).1 (trigs (run p0 (init p0) ops).2) := by
  simpa using (Inv.init p0 : Inv (init p0 : St P V) []).run p0 ops

theorem succeed_waiting (s : St P V) (e : Nat) (p : P) :
    (succeed s e p).1.waiting = s.waiting ∧ (succeed s e p).1.ready = s.ready ∧
    ((succeed s e p).2 = .raised ∨ (succeed s e p).2 = .triggered e (s.cur e)) := by
  unfold succeed
  split
  · simp
  · simp only
    split <;> simp

theorem cancel_waiting (s : St P V) (e : Nat) :
    (cancel s e).1.waiting = s.waiting ∧ (cancel s e).1.ready = s.ready ∧ (cancel s e).1.pay = s.pay ∧
    (cancel s e).1.know = s.know ∧ ((cancel s e).2 = .raised ∨ (cancel s e).2 = .cancelled e (s.cur e)) := by
  unfold cancel
  split <;> simp

theorem interrupt_cases (s : St P V) (w : Nat) : interrupt s w = (s, .impossible) ∨
    ∃ e i s1, s.waiting w = some (e, i) ∧ s.ready = [] ∧ interrupt s w = cancel s1 e ∧
      s1.waiting = upd s.waiting w none ∧ s1.status = s.status ∧ s1.pay = s.pay ∧ s1.nSim = s.nSim ∧
      s1.owner = s.owner ∧ s1.ready = s.ready ∧
      s1.know = s.know.filter (fun p => match p.2 with | .ev e' => decide (e' ≠ e) | _ => true) := by
  unfold interrupt
  split
  · exact Or.inl rfl
  · rename_i hr
    cases hw : s.waiting w with
    | none => exact Or.inl rfl
    | some x =>
      obtain ⟨e, i⟩ := x
      exact Or.inr ⟨e, i, _, rfl, Decidable.not_not.1 hr, rfl, rfl, rfl, rfl, rfl, rfl, rfl, rfl⟩

theorem got_resume {p0 : P} {s : St P V} {op : Op P V} {w e i : Nat} {p : P} (h : (step p0 s op).2 = .got w e i p) :
    op = .resume := by
  cases op with
  | resume => rfl
  | create a => simp [step] at h
  | yield w e =>
    simp only [step, yield] at h
    split at h
    · split at h
      · simp at h
      · split at h <;> simp at h
    · simp at h
  | succeed e p =>
    simp only [step] at h
    split at h
    · rcases (succeed_waiting s e p).2.2 with h2 | h2 <;> rw [h2] at h <;> simp at h
    · simp at h
  | cancel e =>
    simp only [step] at h
    split at h
    · rcases (cancel_waiting s e).2.2.2.2 with h2 | h2 <;> rw [h2] at h <;> simp at h
    · simp at h
  | reset e => simp only [step] at h; split at h <;> simp at h
  | process i => simp only [step, process] at h; split at h <;> simp at h
  | interrupt w =>
    simp only [step] at h
    rcases interrupt_cases s w with h1 | ⟨e, i, s1, _, _, h1, _⟩
    · rw [h1] at h; simp at h
    · rw [h1] at h
      rcases (cancel_waiting s1 e).2.2.2.2 with h2 | h2 <;> rw [h2] at h <;> simp at h
  | know op => simp only [step] at h; split at h <;> simp at h
  | createK n => simp only [step, createK] at h; split at h <;> simp at h
  | succeedK n p =>
    simp only [step, succeedK] at h
    split at h
    · rename_i e _
      split at h
      · rename_i k _
        rcases (succeed_waiting { s with know := k } e p).2.2 with h2 | h2 <;> rw [h2] at h <;> simp at h
      · simp at h
    · simp at h

theorem pend_step (p0 : P) (s : St P V) (b : Nat → Option (Nat × Nat)) (op : Op P V) (hb : b = s.waiting) :
    pendStep b (op, (step p0 s op).2) = (step p0 s op).1.waiting := by
  subst hb
  cases op with
  | create a => rfl
  | yield w e =>
    simp only [step]
    split
    · unfold yield
      split
      · rfl
      · split
        · rfl
        · simp only [pendStep]
          split <;> rfl
    · rfl
  | succeed e p =>
    simp only [step]
    split
    · obtain ⟨h1, _, h2⟩ := succeed_waiting s e p
      rw [h1]
      rcases h2 with h2 | h2 <;> rw [h2] <;> rfl
    · rfl
  | cancel e =>
    simp only [step]
    split
    · obtain ⟨h1, _, _, _, h2⟩ := cancel_waiting s e
      rw [h1]
      rcases h2 with h2 | h2 <;> rw [h2] <;> rfl
    · rfl
  | reset e => simp only [step]; split <;> rfl
  | process i => simp only [step, process]; split <;> rfl
  | resume =>
    simp only [step, resume]
    split <;> rfl
  | interrupt w =>
    simp only [step]
    rcases interrupt_cases s w with h1 | ⟨e, i, s1, _, _, h1, hw, _⟩
    · rw [h1]; rfl
    · rw [h1, (cancel_waiting s1 e).1, hw]
      rcases (cancel_waiting s1 e).2.2.2.2 with h2 | h2 <;> rw [h2] <;> rfl
  | know op => simp only [step]; split <;> rfl
  | createK n =>
    simp only [step, createK]
    split <;> rfl
  | succeedK n p =>
    simp only [step, succeedK]
    split
    · rename_i e _
      split
      · rename_i k _
        obtain ⟨h1, _, h2⟩ := succeed_waiting { s with know := k } e p
        rw [h1]
        rcases h2 with h2 | h2 <;> rw [h2] <;> rfl
      · rfl
    · rfl

theorem pend_run (p0 : P) (ops : List (Op P V)) : ∀ (s : St P V) (b : Nat → Option (Nat × Nat)), b = s.waiting →
    (run p0 s ops).2.foldl pendStep b = (run p0 s ops).1.waiting := by
  induction ops with
  | nil => intro s b h; exact h
  | cons op ops ih =>
    intro s b h
    simp only [run, List.foldl_cons]
    exact ih _ _ (pend_step p0 s b op h)

theorem pend_reach (p0 : P) (ops : List (Op P V)) :
    pend (run p0 (init p0) ops).2 = (run p0 (init p0 : St P V) ops).1.waiting := pend_run p0 ops _ _ rfl

/-! ## C38 -/

/-- **C38 (an arming triggers once).** In every execution no arming is triggered twice, whatever succeeds, cancels,
interruptions and resets are made. -/
theorem c38_triggered_once (p0 : P) (ops : List (Op P V)) : (trigs (run p0 (init p0) ops).2).Nodup :=
  (reach p0 ops).tnd

/-- **C38 (a waiter is resumed once per wait).** Whenever a process is resumed it has yielded on exactly that arming
and has been neither resumed nor interrupted since, and the arming has been triggered. -/
theorem c38_resumed_once (p0 : P) (ops : List (Op P V)) (op : Op P V) (w e i : Nat) (p : P)
    (h : (step p0 (run p0 (init p0) ops).1 op).2 = .got w e i p) :
    pend (run p0 (init p0) ops).2 w = some (e, i) ∧ i ∈ trigs (run p0 (init p0) ops).2 := by
  have hI := reach p0 ops
  rw [pend_reach]
  have hop := got_resume h
  subst hop
  generalize (run p0 (init p0) ops).1 = s at *
  simp only [step, resume] at h
  split at h
  · simp at h
  · rename_i w' e' i' r hr
    simp only [Out.got.injEq] at h
    obtain ⟨rfl, rfl, rfl, _⟩ := h
    have := hI.rdy w' e' i' (by rw [hr]; simp)
    exact ⟨this.1, (hI.trig i').2 ⟨this.2.1, by rw [this.2.2.2]; simp⟩⟩

/-- **C38 (every waiter is released).** When the kernel processes a triggered arming, every process waiting for it is
resumed, before anything else is processed, and finds the event's payload. -/
theorem c38_all_waiters (p0 : P) (ops : List (Op P V)) (i : Nat)
    (h : (step p0 (run p0 (init p0) ops).1 (.process i)).2 = .done) :
    ∃ k, ∀ w e, pend (run p0 (init p0) ops).2 w = some (e, i) →
      (Op.resume, Out.got w e i ((run p0 (init p0) ops).1.pay e)) ∈
        (run p0 (run p0 (init p0) ops).1 (.process i :: List.replicate k .resume)).2 := by
  have hI := reach p0 ops
  rw [pend_reach]
  generalize (run p0 (init p0) ops).1 = s at *
  simp only [step, process] at h
  split at h
  · simp at h
  · rename_i hc
    simp only [ne_eq, not_or, Decidable.not_not, Nat.not_le] at hc
    have hall : ∀ (l : List (Nat × Nat × Nat)) (s1 : St P V), s1.ready = l →
        ∀ x ∈ l, (Op.resume, Out.got x.1 x.2.1 x.2.2 (s1.pay x.2.1)) ∈ (run p0 s1 (List.replicate l.length .resume)).2 := by
      intro l
      induction l with
      | nil => intro s1 _ x hx; simp at hx
      | cons y l ih =>
        intro s1 hr x hx
        obtain ⟨w, e, j⟩ := y
        simp only [List.length_cons, List.replicate_succ, run, step, resume, hr, List.mem_cons]
        rcases List.mem_cons.1 hx with rfl | hx
        · left; rfl
        · right
          exact ih _ rfl x hx
    refine ⟨(s.waiters i).length, ?_⟩
    intro w e hw
    have hwi : w ∈ s.waiters i := by
      rcases hI.wait w e i hw with h1 | h1
      · exact h1
      · rw [hc.1] at h1; simp at h1
    have he : s.owner i = e := by
      have := (hI.wtr i w hwi).2.1
      rw [hw] at this
      simp only [Option.some.injEq, Prod.mk.injEq] at this
      exact this.1.symm
    rw [show (run p0 s (.process i :: List.replicate (s.waiters i).length .resume)).2 =
      (.process i, (step p0 s (.process i)).2) ::
        (run p0 (step p0 s (.process i)).1 (List.replicate (s.waiters i).length .resume)).2 from rfl]
    refine List.mem_cons_of_mem _ ?_
    have hstep : (step p0 s (.process i)).1 =
        { s with status := upd s.status i .processed, waiters := upd s.waiters i [],
                 ready := (s.waiters i).map (fun w => (w, s.owner i, i)) } := by
      simp only [step, process]
      rw [if_neg (by simp only [ne_eq, not_or, Decidable.not_not, Nat.not_le]; exact hc)]
    rw [hstep]
    generalize hs1 : ({ s with status := _, waiters := _, ready := _ } : St P V) = s1
    have hr : s1.ready = (s.waiters i).map (fun w => (w, s.owner i, i)) := by rw [← hs1]
    have hp : s1.pay = s.pay := by rw [← hs1]
    have := hall _ s1 hr (w, e, i) (by
      simp only [List.mem_map, Prod.mk.injEq]
      exact ⟨w, hwi, rfl, he, trivial⟩)
    rw [hp] at this
    simpa using this

/-! ### The payload -/

/-- No arming of `e` has been triggered that some process has yet to be resumed from. -/
def free (s : St P V) (e : Nat) : Bool :=
  (List.range s.nSim).all (fun i => decide (s.owner i ≠ e) || decide (s.status i ≠ .triggered)) &&
    s.ready.all (fun x => decide (x.2.1 ≠ e))

/-- A call that does not succeed an event in the time between its being triggered and its last waiter's resumption. -/
def calm (s : St P V) : Op P V → Bool
  | .succeed e _ => free s e
  | .succeedK n _ => match s.know.get? n with
    | some (.ev e) => free s e
    | _ => true
  | _ => true

/-- All calls are calm. -/
def calmRun (p0 : P) (s : St P V) : List (Op P V) → Bool
  | [] => true
  | op :: ops => calm s op && calmRun p0 (step p0 s op).1 ops

/-- Every triggered arming whose waiters are not all resumed still has its payload in place. -/
def Paid (s : St P V) (R : List (Nat × Nat × P)) : Prop :=
  ∀ e i p, (e, i, p) ∈ R → i < s.nSim ∧ s.owner i = e ∧ s.status i ≠ .pending ∧
    ((s.status i = .triggered ∨ ∃ w, (w, e, i) ∈ s.ready) → s.pay e = p)

theorem Paid.armed {s : St P V} {R : List (Nat × Nat × P)} (h : Paid s R) (e : Nat) : Paid (arm s e) R := by
  intro e' i p hm
  obtain ⟨h1, h2, h3, h4⟩ := h e' i p hm
  have hi : i ≠ s.nSim := by omega
  refine ⟨by simp only [arm]; omega, ?_, ?_, ?_⟩
  · simp only [arm]; rw [upd_ne _ _ hi]; exact h2
  · simp only [arm]; rw [upd_ne _ _ hi]; exact h3
  · simp only [arm]; rw [upd_ne _ _ hi]; exact h4

theorem Paid.create {s : St P V} {R : List (Nat × Nat × P)} {T : List Nat} (hI : Inv s T) (h : Paid s R) (p0 : P) (a : Bool) :
    Paid (create p0 s a).1 R := by
  unfold Event.create
  refine Paid.armed ?_ _
  intro e' i p hm
  obtain ⟨h1, h2, h3, h4⟩ := h e' i p hm
  refine ⟨h1, h2, h3, ?_⟩
  intro hl
  have := hI.own_ok i h1
  simp only
  rw [upd_ne _ _ (by omega)]
  exact h4 hl

theorem Paid.knowing {s : St P V} {R : List (Nat × Nat × P)} (h : Paid s R) (k : Dict String (Val V)) :
    Paid { s with know := k } R := h

theorem Paid.trigger {s : St P V} {R : List (Nat × Nat × P)} (h : Paid s R) {j : Nat} (hj : s.status j = .pending) :
    Paid { s with status := upd s.status j .triggered } R := by
  intro e' i p hm
  obtain ⟨h1, h2, h3, h4⟩ := h e' i p hm
  have hi : i ≠ j := by rintro rfl; exact h3 hj
  refine ⟨h1, h2, ?_, ?_⟩
  · simp only; rw [upd_ne _ _ hi]; exact h3
  · simp only; rw [upd_ne _ _ hi]; exact h4

theorem Paid.cancel {s : St P V} {R : List (Nat × Nat × P)} (h : Paid s R) (e : Nat) : Paid (cancel s e).1 R := by
  unfold Event.cancel
  split
  · rename_i hp; exact h.trigger hp
  · exact h

theorem Paid.succeed {s : St P V} {R : List (Nat × Nat × P)} {T : List Nat} (hI : Inv s T) (h : Paid s R) {e : Nat}
    (he : e < s.nEv) (p : P) (hf : free s e = true) :
    Paid (succeed s e p).1
      (R ++ match (succeed s e p).2 with | .triggered e i => [(e, i, p)] | _ => []) := by
  have hfree : ∀ i, i < s.nSim → s.owner i = e → s.status i ≠ .triggered := by
    intro i hi ho
    simp only [free, Bool.and_eq_true, List.all_eq_true, List.mem_range, Bool.or_eq_true, decide_eq_true_eq] at hf
    rcases hf.1 i hi with h | h
    · exact absurd ho h
    · exact h
  have hrdy : ∀ w i, (w, e, i) ∉ s.ready := by
    intro w i hm
    simp only [free, Bool.and_eq_true, List.all_eq_true, decide_eq_true_eq] at hf
    exact hf.2 _ hm rfl
  unfold Event.succeed
  split
  · simpa using h
  · rename_i hnp
    simp only
    split
    · rename_i hp
      have hc := hI.cur_ok e he
      intro e' i q hm
      rcases List.mem_append.1 hm with hm | hm
      · obtain ⟨h1, h2, h3, h4⟩ := h e' i q hm
        have hi : i ≠ s.cur e := by rintro rfl; exact h3 hp
        refine ⟨h1, h2, ?_, ?_⟩
        · simp only; rw [upd_ne _ _ hi]; exact h3
        · simp only
          rw [upd_ne _ _ hi]
          intro hl
          by_cases hee : e' = e
          · subst hee
            exfalso
            rcases hl with hl | ⟨w, hl⟩
            · exact hfree i h1 h2 hl
            · exact hrdy w i hl
          · rw [upd_ne _ _ hee]; exact h4 hl
      · simp only [List.mem_singleton, Prod.mk.injEq] at hm
        obtain ⟨rfl, rfl, rfl⟩ := hm
        exact ⟨hc.1, hc.2, by simp, fun _ => by simp⟩
    · rename_i hp
      exfalso
      have hc := hI.cur_ok e he
      cases hst : s.status (s.cur e) with
      | pending => exact hp hst
      | triggered => exact hfree _ hc.1 hc.2 hst
      | processed => exact hnp hst

theorem sentOf_succeed (op : Op P V) (s : St P V) (e : Nat) (p : P)
    (ho : op = .succeed e p ∨ ∃ n, op = .succeedK n p) :
    sentOf (op, (succeed s e p).2) = match (succeed s e p).2 with | .triggered e i => [(e, i, p)] | _ => [] := by
  rcases (succeed_waiting s e p).2.2 with h | h
  · rw [h]; rcases ho with rfl | ⟨n, rfl⟩ <;> rfl
  · rw [h]; rcases ho with rfl | ⟨n, rfl⟩ <;> rfl

theorem Paid.step {s : St P V} {R : List (Nat × Nat × P)} {T : List Nat} (hI : Inv s T) (h : Paid s R) (p0 : P)
    (op : Op P V) (hc : calm s op = true) :
    Paid (step p0 s op).1 (R ++ sentOf (op, (step p0 s op).2)) := by
  cases op with
  | create a => simpa [Event.step, sentOf] using h.create hI p0 a
  | yield w e =>
    simp only [Event.step, sentOf, List.append_nil]
    split
    · unfold Event.yield
      split
      · exact h
      · split
        · exact h
        · simp only
          split
          · exact h.armed e
          · exact h
    · exact h
  | succeed e p =>
    simp only [Event.step]
    split
    · rename_i he
      rw [sentOf_succeed _ s e p (Or.inl rfl)]
      exact h.succeed hI he p hc
    · simpa [sentOf] using h
  | cancel e =>
    simp only [Event.step, sentOf, List.append_nil]
    split
    · exact h.cancel e
    · exact h
  | reset e =>
    simp only [Event.step, sentOf, List.append_nil]
    split
    · exact h.armed e
    · exact h
  | process i =>
    simp only [Event.step, Event.process, sentOf, List.append_nil]
    split
    · exact h
    · rename_i hcc
      simp only [ne_eq, not_or, Decidable.not_not, Nat.not_le] at hcc
      intro e' j p hm
      obtain ⟨h1, h2, h3, h4⟩ := h e' j p hm
      refine ⟨h1, h2, ?_, ?_⟩
      · simp only [upd]; split
        · simp
        · exact h3
      · intro hl
        apply h4
        rcases hl with hl | ⟨w, hl⟩
        · simp only [upd] at hl
          split at hl
          · simp at hl
          · exact Or.inl hl
        · simp only [List.mem_map, Prod.mk.injEq] at hl
          obtain ⟨v, hv, rfl, _, rfl⟩ := hl
          exact Or.inl hcc.2.2
  | resume =>
    simp only [Event.step, Event.resume, sentOf, List.append_nil]
    split
    · exact h
    · rename_i w e i r hr
      intro e' j p hm
      obtain ⟨h1, h2, h3, h4⟩ := h e' j p hm
      refine ⟨h1, h2, h3, ?_⟩
      intro hl
      apply h4
      rcases hl with hl | ⟨v, hl⟩
      · exact Or.inl hl
      · exact Or.inr ⟨v, by rw [hr]; exact List.mem_cons_of_mem _ hl⟩
  | interrupt w =>
    simp only [Event.step, sentOf, List.append_nil]
    rcases interrupt_cases s w with h1 | ⟨e, i, s1, _, _, h1, _, h2, h3, h4, h5, h6, _⟩
    · rw [h1]; exact h
    · rw [h1]
      refine Paid.cancel ?_ e
      intro e' j p hm
      rw [h2, h3, h4, h5, h6]
      exact h e' j p hm
  | know op =>
    simp only [Event.step, sentOf, List.append_nil]
    split
    · exact h
    · exact h
  | createK n =>
    have h1 := h.create hI p0 true
    simp only [Event.step, Event.createK, sentOf, List.append_nil]
    split
    · exact h1
    · exact h1
  | succeedK n p =>
    simp only [Event.step, Event.succeedK]
    split
    · rename_i e he
      have hg : s.know.get? n = some (.ev e) := by
        unfold Know.getK at he
        split at he
        · simp at he
        · simpa using he
      have hf : free s e = true := by simpa [calm, hg] using hc
      have he' := hI.kn n e (Dict.mem_of_get? hg)
      split
      · rename_i k heq
        rw [sentOf_succeed _ { s with know := k } e p (Or.inr ⟨n, rfl⟩)]
        have hb : EvsBelow s.nEv (Know.clearK s.know n).1 := EvsBelow.clearK (hI.kn) n
        rw [heq] at hb
        exact Paid.succeed (hI.knowing k hb) (h.knowing k) he' p hf
      · simp only [sentOf, List.append_nil]; exact h.knowing _
    · simpa [sentOf] using h

theorem Paid.run (p0 : P) (ops : List (Op P V)) : ∀ {s : St P V} {R : List (Nat × Nat × P)} {T : List Nat}, Inv s T →
    Paid s R → calmRun p0 s ops = true → Paid (run p0 s ops).1 (R ++ sents (run p0 s ops).2) := by
  induction ops with
  | nil => intro s R T _ h _; simpa [Event.run, sents] using h
  | cons op ops ih =>
    intro s R T hI h hc
    simp only [calmRun, Bool.and_eq_true] at hc
    have := ih (hI.step p0 op) (h.step hI p0 op hc.1) hc.2
    simpa [Event.run, sents] using this

/-- **C38 (payload), the part that holds.** If nobody calls `succeed` on an event between its being triggered and its
last waiter's resumption, every waiter of an arming finds the payload of the succeed that triggered it. Missing: a
second succeed in that time is refused but has replaced the payload (`c38_payload_overwritten`). -/
theorem c38_payload_partial (p0 : P) (ops : List (Op P V)) (op : Op P V) (w e i : Nat) (p p' : P)
    (hc : calmRun p0 (init p0) ops = true)
    (h : (step p0 (run p0 (init p0) ops).1 op).2 = .got w e i p)
    (hs : (e, i, p') ∈ sents (run p0 (init p0) ops).2) : p = p' := by
  have hop := got_resume h
  subst hop
  have hP := Paid.run p0 ops (Inv.init p0 : Inv (init p0 : St P V) []) (R := [])
    (by intro e i p h; simp at h) hc
  rw [List.nil_append] at hP
  generalize (run p0 (init p0) ops).1 = s at *
  simp only [step, resume] at h
  split at h
  · simp at h
  · rename_i w' e' i' r hr
    simp only [Out.got.injEq] at h
    obtain ⟨rfl, rfl, rfl, rfl⟩ := h
    exact (hP e' i' p' hs).2.2.2 (Or.inr ⟨w', by rw [hr]; simp⟩)

/-- Two waiters of one event, released with payload 5, then the event is used again with payload 6. -/
def demo : List (Op Nat Nat) :=
  [.createK "go", .yield 1 0, .yield 2 0, .succeedK "go" 5, .process 0, .resume, .resume, .yield 1 0, .succeed 0 6,
   .process 1]

example : calmRun 0 (init 0) demo = true ∧
    (step 0 (run 0 (init 0) demo).1 .resume).2 = .got 1 0 1 6 ∧
    (0, 1, 6) ∈ sents (run 0 (init 0 : St Nat Nat) demo).2 ∧
    (run 0 (init 0) demo).2.map (·.2) =
      [.created 0, .waits 1 0 0, .waits 2 0 0, .triggered 0 0, .done, .got 1 0 0 5, .got 2 0 0 5, .waits 1 0 1,
       .triggered 0 1, .done] := by decide +kernel

/-- **C38 is false of the code (1)**: a second succeed before the event is processed raises but replaces the payload:
the waiter finds 6, not the 5 of the succeed that released it. -/
theorem c38_payload_overwritten :
    (run 0 (init 0 : St Nat Nat)
      [.create true, .yield 1 0, .succeed 0 5, .succeed 0 6, .process 0, .resume]).2.map (·.2) =
    [.created 0, .waits 1 0 0, .triggered 0 0, .raised, .done, .got 1 0 0 6] := by decide +kernel

/-- **C38 is false of the code (2)**: interrupting one of two tasks that wait for the same event (and answering END)
releases the other as if the event had succeeded, with the empty payload. -/
theorem c38_interrupt_releases_others :
    (run 0 (init 0 : St Nat Nat) [.create true, .yield 1 0, .yield 2 0, .interrupt 1, .process 0, .resume]).2.map
      (·.2) =
    [.created 0, .waits 1 0 0, .waits 2 0 0, .cancelled 0 0, .done, .got 2 0 0 0] := by decide +kernel

/-- **C38 and C26 are false of the code (3)**: an interrupt delivered after the event was succeeded but before it was
processed makes the clean-up raise (`RuntimeError` out of `cancel`). -/
theorem c38_interrupt_after_succeed_raises :
    (run 0 (init 0 : St Nat Nat) [.create true, .yield 1 0, .succeed 0 5, .interrupt 1]).2.map (·.2) =
    [.created 0, .waits 1 0 0, .triggered 0 0, .raised] := by decide +kernel

/-- **C38 (second succeed).** A succeed on an event whose current arming has been triggered already raises, triggers
nothing, and if the arming has also been processed changes nothing at all. -/
theorem c38_second_succeed_refused (p0 : P) (ops : List (Op P V)) (e : Nat) (p : P)
    (he : e < (run p0 (init p0) ops).1.nEv)
    (ht : (run p0 (init p0) ops).1.cur e ∈ trigs (run p0 (init p0) ops).2) :
    let s := (run p0 (init p0) ops).1
    (step p0 s (.succeed e p)).2 = .raised ∧ (step p0 s (.succeed e p)).1.status = s.status ∧
    (s.status (s.cur e) = .processed → (step p0 s (.succeed e p)).1 = s) := by
  intro s
  have hI := reach p0 ops
  have hst := ((hI.trig _).1 ht).2
  simp only [step]
  rw [if_pos he]
  unfold succeed
  split
  · simp
  · rename_i hp
    simp only
    rw [if_neg hst]
    exact ⟨rfl, rfl, fun h => absurd h hp⟩

example : (0 : Nat) < (run 0 (init 0 : St Nat Nat) [.create true, .succeed 0 5, .process 0]).1.nEv ∧
    (run 0 (init 0 : St Nat Nat) [.create true, .succeed 0 5, .process 0]).1.cur 0 ∈
      trigs (run 0 (init 0 : St Nat Nat) [.create true, .succeed 0 5, .process 0]).2 := by decide +kernel

/-- **C38 (reset).** After `reset` the event can be succeeded again, whatever happened to it before, and this triggers a
new arming. -/
theorem c38_reset_reuse (p0 : P) (ops : List (Op P V)) (e : Nat) (p : P) (he : e < (run p0 (init p0) ops).1.nEv) :
    let s := (run p0 (init p0) ops).1
    ∃ i, (step p0 (step p0 s (.reset e)).1 (.succeed e p)).2 = .triggered e i ∧
      i ∉ trigs (run p0 (init p0) ops).2 := by
  intro s
  have hI := reach p0 ops
  refine ⟨s.nSim, ?_, ?_⟩
  · have h1 : (step p0 s (.reset e)).1 = arm s e := by simp only [step]; rw [if_pos he]
    rw [h1]
    have h2 : e < (arm s e).nEv := he
    simp only [step]
    rw [if_pos h2]
    simp [succeed, arm]
  · intro h
    have := ((hI.trig _).1 h).1
    simp only [s] at this
    omega

/-! ## C21 -/

/-! ## Order of the waiters -/

/-- The processes waiting for arming `i`, in the order of their yields, after one more call. -/
def queueStep (i : Nat) (l : List Nat) : Op P V × Out P V → List Nat
  | (_, .waits w _ j) => if j = i then l ++ [w] else l
  | (_, .got w _ _ _) => l.erase w
  | (.interrupt _, .impossible) => l
  | (.interrupt w, _) => l.erase w
  | _ => l

def queue (tr : List (Op P V × Out P V)) (i : Nat) : List Nat := tr.foldl (queueStep i) []

/-- The waiters of an arming and those about to be resumed from it. -/
def line (s : St P V) (i : Nat) : List Nat := s.waiters i ++ (s.ready.filter (fun x => decide (x.2.2 = i))).map Prod.fst

theorem cancel_line (s : St P V) (e i : Nat) : line (cancel s e).1 i = line s i := by
  unfold cancel
  split <;> rfl

theorem succeed_line (s : St P V) (e i : Nat) (p : P) : line (succeed s e p).1 i = line s i := by
  unfold succeed
  split
  · rfl
  · simp only
    split <;> rfl

theorem arm_line {s : St P V} (h : s.waiters s.nSim = []) (e i : Nat) : line (arm s e) i = line s i := by
  simp only [line, arm]
  by_cases hi : i = s.nSim
  · subst hi; rw [upd_self, h]
  · rw [upd_ne _ _ hi]

theorem mem_line {s : St P V} {T : List Nat} (h : Inv s T) {w i : Nat} (hw : w ∈ line s i) : ∃ e, s.waiting w = some (e, i) := by
  rcases List.mem_append.1 hw with hw | hw
  · exact ⟨_, (h.wtr i w hw).2.1⟩
  · obtain ⟨⟨w', e, j⟩, hx, rfl⟩ := List.mem_map.1 hw
    obtain ⟨hx', hj⟩ := List.mem_filter.1 hx
    simp only [decide_eq_true_eq] at hj
    subst hj
    exact ⟨e, (h.rdy _ _ _ hx').1⟩

theorem join_line {s : St P V} {T : List Nat} (h : Inv s T) {w e j : Nat} (hj : s.status j ≠ .processed) (i : Nat) :
    (if j = i then line s i ++ [w] else line s i) =
      line { s with waiters := upd s.waiters j (s.waiters j ++ [w]), waiting := upd s.waiting w (some (e, j)) } i := by
  simp only [line]
  by_cases hi : i = j
  · subst hi
    have : s.ready.filter (fun x => decide (x.2.2 = i)) = [] := by
      refine List.filter_eq_nil_iff.2 fun x hx => ?_
      simp only [decide_eq_true_eq]
      rintro rfl
      exact hj (h.rdy x.1 x.2.1 x.2.2 hx).2.2.2
    rw [if_pos rfl, upd_self, this]
    simp
  · rw [if_neg (fun e => hi e.symm), upd_ne _ _ hi]

theorem line_step (p0 : P) {s : St P V} {T : List Nat} (h : Inv s T) (i : Nat) (op : Op P V) :
    queueStep i (line s i) (op, (step p0 s op).2) = line (step p0 s op).1 i := by
  have hnew : s.waiters s.nSim = [] := List.eq_nil_iff_forall_not_mem.2 fun w hw => Nat.lt_irrefl _ (h.wtr _ w hw).1
  have hcr : ∀ b, line (create p0 s b).1 i = line s i := fun b =>
    arm_line (s := { s with nEv := s.nEv + 1, auto := upd s.auto s.nEv b, pay := upd s.pay s.nEv p0 }) hnew s.nEv i
  cases op with
  | create a => exact (hcr a).symm
  | yield w e =>
    simp only [step]
    split
    · rename_i he
      unfold yield
      split
      · rfl
      · split
        · rfl
        · simp only [queueStep]
          split
          · rename_i hp
            have h2 := h.arm he
            have := join_line h2 (w := w) (e := e) (j := (arm s e).cur e) (by simp [arm]) i
            rw [arm_line hnew] at this
            exact this
          · rename_i hp
            exact join_line h hp i
    · rfl
  | succeed e p =>
    simp only [step]
    split
    · rw [succeed_line]
      rcases (succeed_waiting s e p).2.2 with h2 | h2 <;> rw [h2] <;> rfl
    · rfl
  | cancel e =>
    simp only [step]
    split
    · rw [cancel_line]
      rcases (cancel_waiting s e).2.2.2.2 with h2 | h2 <;> rw [h2] <;> rfl
    · rfl
  | reset e =>
    simp only [step]
    split
    · exact (arm_line hnew e i).symm
    · rfl
  | process j =>
    simp only [step, process]
    split
    · rfl
    · rename_i hc
      simp only [ne_eq, not_or, Decidable.not_not, Nat.not_le] at hc
      simp only [queueStep, line, hc.1, List.filter_nil, List.map_nil, List.append_nil]
      by_cases hi : i = j
      · subst hi
        rw [upd_self]
        simp only [List.filter_map, Function.comp_def, decide_true, List.map_map, List.nil_append, List.map_id']
        exact (List.filter_eq_self.2 (fun _ _ => rfl)).symm
      · rw [upd_ne _ _ hi]
        have : ((s.waiters j).map (fun w => (w, s.owner j, j))).filter (fun x => decide (x.2.2 = i)) = [] := by
          refine List.filter_eq_nil_iff.2 fun x hx => ?_
          obtain ⟨w, _, rfl⟩ := List.mem_map.1 hx
          simp only [decide_eq_true_eq]
          exact fun e => hi e.symm
        rw [this]
        simp
  | resume =>
    simp only [step, resume]
    split
    · rfl
    · rename_i w e j r hr
      simp only [queueStep]
      have hw := h.rdy w e j (by rw [hr]; simp)
      by_cases hi : i = j
      · subst hi
        have h0 : s.waiters i = [] := List.eq_nil_iff_forall_not_mem.2 fun w hw' => (h.wtr _ w hw').2.2 hw.2.2.2
        simp [line, hr, h0]
      · rw [List.erase_of_not_mem fun hm => by
          obtain ⟨e', he'⟩ := mem_line h hm
          rw [hw.1] at he'
          simp only [Option.some.injEq, Prod.mk.injEq] at he'
          exact hi he'.2.symm]
        simp [line, hr, show ¬ j = i from fun e => hi e.symm]
  | interrupt w =>
    simp only [step, interrupt]
    split
    · rfl
    · rename_i hr
      simp only [ne_eq, Decidable.not_not] at hr
      cases hw : s.waiting w with
      | none => rfl
      | some x =>
        obtain ⟨e, j⟩ := x
        simp only
        rw [cancel_line]
        have hq : ∀ (s' : St P V), queueStep i (line s i) (Op.interrupt (V := V) (P := P) w, (cancel s' e).2) = (line s i).erase w := by
          intro s'
          rcases (cancel_waiting s' e).2.2.2.2 with h2 | h2 <;> rw [h2] <;> rfl
        rw [hq]
        by_cases hi : i = j
        · subst hi
          simp [line, hr]
        · rw [List.erase_of_not_mem fun hm => by
            obtain ⟨e', he'⟩ := mem_line h hm
            rw [hw] at he'
            simp only [Option.some.injEq, Prod.mk.injEq] at he'
            exact hi he'.2.symm]
          simp only [line, upd_ne _ _ hi]
  | know op => simp only [step]; split <;> rfl
  | createK n =>
    simp only [step, createK]
    split <;> exact (hcr true).symm
  | succeedK n p =>
    simp only [step, succeedK]
    split
    · rename_i e _
      split
      · rename_i k _
        rw [succeed_line]
        rcases (succeed_waiting { s with know := k } e p).2.2 with h2 | h2 <;> rw [h2] <;> rfl
      · rfl
    · rfl

theorem line_run (p0 : P) (i : Nat) (ops : List (Op P V)) : ∀ {s : St P V} {T : List Nat}, Inv s T →
    (run p0 s ops).2.foldl (queueStep i) (line s i) = line (run p0 s ops).1 i := by
  induction ops with
  | nil => intro s T _; rfl
  | cons op ops ih =>
    intro s T h
    simp only [run, List.foldl_cons]
    rw [line_step p0 h i op]
    exact ih (h.step p0 op)

/-- **C38 (order).** The waiters of an arming are resumed in the order of their yields, each once, and nobody else: right after the arming
is processed. -/
theorem c38_order (p0 : P) (ops : List (Op P V)) (i : Nat)
    (h : (step p0 (run p0 (init p0 : St P V) ops).1 (.process i)).2 = .done) :
    ∃ e, (∀ w ∈ queue (run p0 (init p0 : St P V) ops).2 i, pend (run p0 (init p0 : St P V) ops).2 w = some (e, i)) ∧
      (run p0 (step p0 (run p0 (init p0 : St P V) ops).1 (.process i)).1
        (List.replicate (queue (run p0 (init p0 : St P V) ops).2 i).length .resume ++ [.resume])).2.map (·.2) =
        (queue (run p0 (init p0 : St P V) ops).2 i).map (fun w => .got w e i ((run p0 (init p0 : St P V) ops).1.pay e)) ++ [.impossible] := by
  have hI := reach (V := V) p0 ops
  have hq : queue (run p0 (init p0 : St P V) ops).2 i = line (run p0 (init p0 : St P V) ops).1 i :=
    line_run p0 i ops (Inv.init p0)
  rw [pend_reach, hq]
  generalize (run p0 (init p0 : St P V) ops).1 = s at *
  simp only [step, process] at h ⊢
  split at h
  · simp at h
  · rename_i hc
    rw [if_neg hc]
    simp only [ne_eq, not_or, Decidable.not_not, Nat.not_le] at hc
    have hl : line s i = s.waiters i := by simp [line, hc.1]
    rw [hl]
    refine ⟨s.owner i, fun w hw => (hI.wtr i w hw).2.1, ?_⟩
    have hall : ∀ (l : List Nat) (s1 : St P V), s1.ready = l.map (fun w => (w, s.owner i, i)) → s1.pay = s.pay →
        (run p0 s1 (List.replicate l.length .resume ++ [.resume])).2.map (·.2) =
          l.map (fun w => .got w (s.owner i) i (s.pay (s.owner i))) ++ [.impossible] := by
      intro l
      induction l with
      | nil => intro s1 hr _; simp [run, step, resume, hr]
      | cons w l ih =>
        intro s1 hr hp
        rw [List.map_cons] at hr
        simp only [List.length_cons, List.replicate_succ, List.cons_append, run, step, resume, hr, List.map_cons, hp]
        refine congrArg _ (ih _ rfl ?_)
        first | rfl | exact hp
    exact hall (s.waiters i) _ rfl rfl

/-- Three wait. -/
example : queue (run 0 (init 0 : St Nat Nat) [.create true, .yield 2 0, .yield 1 0, .yield 3 0, .succeed 0 5]).2 0 = [2, 1, 3] ∧
    (run 0 (init 0 : St Nat Nat) [.create true, .yield 2 0, .yield 1 0, .yield 3 0, .succeed 0 5, .process 0, .resume, .resume, .resume]).2.map (·.2) =
      [.created 0, .waits 2 0 0, .waits 1 0 0, .waits 3 0 0, .triggered 0 0, .done, .got 2 0 0 5, .got 1 0 0 5, .got 3 0 0 5] := by
  decide +kernel

/-- **C26 (knowledge).** A task that waits for an Event and ends or restarts because of an interrupt leaves no name in the knowledge that
holds the event; every other entry stays. It no longer waits. -/
theorem c26_knowledge (p0 : P) (ops : List (Op P V)) (w e i : Nat) (hw : pend (run p0 (init p0 : St P V) ops).2 w = some (e, i))
    (hn : (step p0 (run p0 (init p0 : St P V) ops).1 (.interrupt w)).2 ≠ .impossible) :
    let s' := (step p0 (run p0 (init p0 : St P V) ops).1 (.interrupt w)).1
    (∀ n v, (n, v) ∈ s'.know ↔ (n, v) ∈ (run p0 (init p0 : St P V) ops).1.know ∧ v ≠ .ev e) ∧ s'.waiting w = none := by
  rw [pend_reach] at hw
  generalize (run p0 (init p0 : St P V) ops).1 = s at *
  simp only [step] at hn ⊢
  rcases interrupt_cases s w with h1 | ⟨e', i', s1, h1, _, h2, h3, _, _, _, _, _, h4⟩
  · rw [h1] at hn; exact absurd rfl hn
  · rw [hw] at h1
    simp only [Option.some.injEq, Prod.mk.injEq] at h1
    obtain ⟨rfl, rfl⟩ := h1
    rw [h2, (cancel_waiting s1 e).2.2.2.1, (cancel_waiting s1 e).1, h3, h4]
    refine ⟨fun n v => ?_, by simp⟩
    rw [List.mem_filter]
    cases v with
    | ev e'' => simp
    | pyNone => simp
    | plain v => simp

/-- The event stands under two names; an other event and a number stay. -/
example : (run 0 (init 0 : St Nat Nat) [.createK "a", .createK "b", .know (.set "c" (.ev 0) false), .know (.set "d" (.plain 7) false), .yield 1 0,
    .interrupt 1]).1.know = [("b", .ev 1), ("d", .plain 7)] := by decide +kernel

/-- Who exists stays, with its `auto_reset`. -/
theorem auto_step (p0 : P) (s : St P V) (op : Op P V) :
    s.nEv ≤ (step p0 s op).1.nEv ∧ ∀ e, e < s.nEv → (step p0 s op).1.auto e = s.auto e := by
  have hc : ∀ b, s.nEv ≤ (create p0 s b).1.nEv ∧ ∀ e, e < s.nEv → (create p0 s b).1.auto e = s.auto e := by
    intro b
    refine ⟨by simp [create, arm], fun e he => ?_⟩
    simp only [create, arm]
    rw [upd_ne _ _ (by omega)]
  cases op with
  | create b => exact hc b
  | yield w e =>
    simp only [step]
    split
    · unfold yield
      split
      · exact ⟨Nat.le_refl _, fun _ _ => rfl⟩
      · split
        · exact ⟨Nat.le_refl _, fun _ _ => rfl⟩
        · simp only
          split <;> exact ⟨Nat.le_refl _, fun _ _ => rfl⟩
    · exact ⟨Nat.le_refl _, fun _ _ => rfl⟩
  | succeed e p =>
    simp only [step]
    split
    · simp only [succeed]
      split
      · exact ⟨Nat.le_refl _, fun _ _ => rfl⟩
      · split <;> exact ⟨Nat.le_refl _, fun _ _ => rfl⟩
    · exact ⟨Nat.le_refl _, fun _ _ => rfl⟩
  | cancel e => simp only [step, cancel]; split <;> (try split) <;> exact ⟨Nat.le_refl _, fun _ _ => rfl⟩
  | reset e => simp only [step, arm]; split <;> exact ⟨Nat.le_refl _, fun _ _ => rfl⟩
  | process i => simp only [step, process]; split <;> exact ⟨Nat.le_refl _, fun _ _ => rfl⟩
  | resume => simp only [step, resume]; split <;> exact ⟨Nat.le_refl _, fun _ _ => rfl⟩
  | interrupt w =>
    simp only [step, interrupt]
    split
    · exact ⟨Nat.le_refl _, fun _ _ => rfl⟩
    · split
      · exact ⟨Nat.le_refl _, fun _ _ => rfl⟩
      · simp only [cancel]; split <;> exact ⟨Nat.le_refl _, fun _ _ => rfl⟩
  | know op => simp only [step]; split <;> exact ⟨Nat.le_refl _, fun _ _ => rfl⟩
  | createK n =>
    simp only [step, createK]
    split <;> exact hc true
  | succeedK n p =>
    simp only [step, succeedK]
    split
    · split
      · simp only [succeed]
        split
        · exact ⟨Nat.le_refl _, fun _ _ => rfl⟩
        · split <;> exact ⟨Nat.le_refl _, fun _ _ => rfl⟩
      · exact ⟨Nat.le_refl _, fun _ _ => rfl⟩
    · exact ⟨Nat.le_refl _, fun _ _ => rfl⟩

theorem auto_run (p0 : P) (ops : List (Op P V)) (s : St P V) :
    s.nEv ≤ (run p0 s ops).1.nEv ∧ ∀ e, e < s.nEv → (run p0 s ops).1.auto e = s.auto e := by
  induction ops generalizing s with
  | nil => exact ⟨Nat.le_refl _, fun _ _ => rfl⟩
  | cons op ops ih =>
    obtain ⟨h1, h2⟩ := auto_step p0 s op
    obtain ⟨h3, h4⟩ := ih (step p0 s op).1
    exact ⟨Nat.le_trans h1 h3, fun e he => (h4 e (Nat.lt_of_lt_of_le he h1)).trans (h2 e he)⟩

/-- `auto_reset` of an event is what it was created with. -/
theorem auto_created (p0 : P) (ops : List (Op P V)) (s : St P V) (e : Nat) :
    (∀ b, (Op.create b, Out.created e) ∈ (run p0 s ops).2 → e < (run p0 s ops).1.nEv ∧ (run p0 s ops).1.auto e = b) ∧
    (∀ n, (Op.createK n, Out.created e) ∈ (run p0 s ops).2 → e < (run p0 s ops).1.nEv ∧ (run p0 s ops).1.auto e = true) := by
  induction ops generalizing s with
  | nil => simp [run]
  | cons op ops ih =>
    obtain ⟨h1, h2⟩ := auto_run p0 ops (step p0 s op).1
    have hc : ∀ b, s.nEv < (create p0 s b).1.nEv ∧ (create p0 s b).1.auto s.nEv = b := by
      intro b; simp [create, arm]
    constructor
    · intro b hm
      rcases List.mem_cons.1 hm with hx | hx
      · simp only [Prod.mk.injEq] at hx
        obtain ⟨hx, hy⟩ := hx
        subst hx
        simp only [step, create, Out.created.injEq] at hy
        subst hy
        exact ⟨Nat.lt_of_lt_of_le (hc b).1 h1, (h2 _ (hc b).1).trans (hc b).2⟩
      · exact (ih _).1 b hx
    · intro n hm
      rcases List.mem_cons.1 hm with hx | hx
      · simp only [Prod.mk.injEq] at hx
        obtain ⟨hx, hy⟩ := hx
        subst hx
        have hcr : (step p0 s (.createK n)).1.nEv = (create p0 s true).1.nEv ∧ (step p0 s (.createK n)).1.auto = (create p0 s true).1.auto ∧
            (∀ e, (step p0 s (.createK n)).2 = .created e → e = s.nEv) := by
          simp only [step, createK]
          split
          · exact ⟨rfl, rfl, fun e h => by simp only [create, Out.created.injEq] at h; exact h.symm⟩
          · exact ⟨rfl, rfl, fun e h => by cases h⟩
        have he := hcr.2.2 e hy.symm
        subst he
        have h3 : s.nEv < (step p0 s (.createK n)).1.nEv := by rw [hcr.1]; exact (hc true).1
        refine ⟨Nat.lt_of_lt_of_le h3 h1, (h2 _ h3).trans ?_⟩
        rw [hcr.2.1]; exact (hc true).2
      · exact (ih _).2 n hx

/-- **C38 (`auto_reset`).** A process yields on an event whose current arming is over: if the event was created with `auto_reset`, as
knowledge events are, it waits for a new arming that nobody has triggered; if without, it gets the error and nothing changes. While the
current arming is not over it waits for that one, `auto_reset` or not. -/
theorem c38_auto_reset (p0 : P) (ops : List (Op P V)) (w e : Nat) (b : Bool)
    (hcr : (Op.create b, Out.created e) ∈ (run p0 (init p0 : St P V) ops).2 ∨
      (b = true ∧ ∃ n, (Op.createK n, Out.created e) ∈ (run p0 (init p0 : St P V) ops).2))
    (hw : pend (run p0 (init p0 : St P V) ops).2 w = none) :
    let s := (run p0 (init p0 : St P V) ops).1
    (s.status (s.cur e) = .processed → b = false → step p0 s (.yield w e) = (s, .raised)) ∧
    (s.status (s.cur e) = .processed → b = true → ∃ i, (step p0 s (.yield w e)).2 = .waits w e i ∧
      i ∉ trigs (run p0 (init p0 : St P V) ops).2) ∧
    (s.status (s.cur e) ≠ .processed → (step p0 s (.yield w e)).2 = .waits w e (s.cur e)) := by
  intro s
  have hI := reach (V := V) p0 ops
  rw [pend_reach] at hw
  have ha : e < s.nEv ∧ s.auto e = b := by
    rcases hcr with h | ⟨rfl, n, h⟩
    · exact (auto_created p0 ops (init p0) e).1 b h
    · exact (auto_created p0 ops (init p0) e).2 n h
  have hst : step p0 s (.yield w e) = yield s w e := by simp only [step]; rw [if_pos ha.1]
  have hw' : ¬ s.waiting w ≠ none := fun h => h hw
  rw [hst]
  unfold yield
  rw [if_neg hw', ha.2]
  refine ⟨fun h1 h2 => ?_, fun h1 h2 => ?_, fun h1 => ?_⟩
  · rw [if_pos ⟨h1, h2⟩]
  · rw [if_neg (by rw [h2]; simp)]
    simp only [h1, if_true]
    refine ⟨s.nSim, by simp [arm], fun hm => ?_⟩
    have := ((hI.trig _).1 hm).1
    exact absurd this (Nat.lt_irrefl _)
  · rw [if_neg (fun h => h1 h.1)]
    simp only [h1, if_false]

/-- Two events, with and without `auto_reset`, that are over. -/
example : (run 0 (init 0 : St Nat Nat) [.create true, .create false, .succeed 0 5, .process 0, .succeed 1 6, .process 1, .yield 1 0, .yield 2 1]).2.map
    (·.2) = [.created 0, .created 1, .triggered 0 0, .done, .triggered 1 1, .done, .waits 1 0 2, .raised] := by decide +kernel

/-- **C21 (release).** A successful `succeed_knowledge_event` triggers the event stored under the name with the supplied
data, and removes the name from knowledge; no other name is touched. -/
theorem c21_succeed (p0 : P) (s : St P V) (n : String) (p : P)
    (h : (step p0 s (.succeedK n p)).2 ≠ .raised) :
    ∃ e i, s.know.get? n = some (.ev e) ∧ (step p0 s (.succeedK n p)).2 = .triggered e i ∧
      (step p0 s (.succeedK n p)).1.pay e = p ∧ (step p0 s (.succeedK n p)).1.status i = .triggered ∧
      s.status i = .pending ∧
      (step p0 s (.succeedK n p)).1.know.get? n = none ∧
      ∀ k, k ≠ n → (step p0 s (.succeedK n p)).1.know.get? k = s.know.get? k := by
  simp only [step, succeedK] at h ⊢
  split at h
  · rename_i e he
    have hg : s.know.get? n = some (.ev e) := by
      unfold Know.getK at he
      split at he
      · simp at he
      · simpa using he
    have hc : Know.clearK s.know n = (s.know.del n, .done) := by
      simp [Know.clearK, Dict.has, hg]
    rw [hc] at h ⊢
    simp only at h ⊢
    unfold succeed at h ⊢
    split at h
    · simp at h
    · rename_i hnp
      simp only at h hnp
      split at h
      · rename_i hp
        refine ⟨e, s.cur e, hg, ?_⟩
        rw [if_neg hnp]
        simp only
        rw [if_pos hp]
        exact ⟨rfl, by simp, by simp, hp, Dict.get?_del_self _ _, fun k hk => Dict.get?_del_ne _ (Ne.symm hk)⟩
      · simp at h
  · simp at h

/-- **C21 (creation).** `create_knowledge_event` under a free name stores a new, untriggered event there; under a name
in use it raises and the knowledge is unchanged. -/
theorem c21_create (p0 : P) (s : St P V) (n : String) :
    (s.know.get? n = none → (step p0 s (.createK n)).2 = .created s.nEv ∧
      (step p0 s (.createK n)).1.know.get? n = some (.ev s.nEv) ∧
      (step p0 s (.createK n)).1.status ((step p0 s (.createK n)).1.cur s.nEv) = .pending) ∧
    ((∃ v, s.know.get? n = some v) → (step p0 s (.createK n)).2 = .raised ∧
      (step p0 s (.createK n)).1.know = s.know) := by
  constructor
  · intro h
    have : Know.setK (create p0 s true).1.know n (.ev (create p0 s true).2) false =
        (s.know.set n (.ev s.nEv), .done) := by
      simp [Know.setK, create, arm, Dict.has, h]
    simp only [step, createK]
    rw [this]
    refine ⟨rfl, Dict.get?_set_self .., ?_⟩
    simp [create, arm]
  · rintro ⟨v, h⟩
    have : Know.setK (create p0 s true).1.know n (.ev (create p0 s true).2) false = (s.know, .raised) := by
      simp [Know.setK, create, arm, Dict.has, h]
    simp only [step, createK]
    rw [this]
    exact ⟨rfl, rfl⟩

/-- Calls that store something under the name `n`. -/
def stores (n : String) : Op P V → Bool
  | .createK m => decide (m = n)
  | .know (.set m _ _) => decide (m = n)
  | .know (.setBulk kv _) => kv.any (fun p => decide (p.1 = n))
  | _ => false

theorem clearK_absent {d : Dict String (Val V)} {n : String} (k : String) (h : d.get? n = none) :
    (Know.clearK d k).1.get? n = none := by
  unfold Know.clearK
  split
  · exact h
  · simp only
    rw [Dict.get?_del]; split
    · rfl
    · exact h

theorem getClear_absent {d : Dict String (Val V)} {n : String} (k : String) (h : d.get? n = none) :
    (Know.getClear d k).1.get? n = none := by
  have hc := clearK_absent k h
  unfold Know.getClear
  split
  · split <;> (rename_i heq; rw [heq] at hc; exact hc)
  · exact h

theorem know_absent {d : Dict String (Val V)} {n : String} (op : Know.Op String (Val V)) (h : d.get? n = none)
    (ho : stores n (.know op : Op P V) = false) : (Know.step d op).1.get? n = none := by
  cases op with
  | get m b => exact h
  | set m v o =>
    simp only [stores, decide_eq_false_iff_not] at ho
    simp only [Know.step, Know.setK]
    split
    · exact h
    · simp only
      rw [Dict.get?_set_ne _ _ ho]; exact h
  | clear m => exact clearK_absent m h
  | getClear m => exact getClear_absent m h
  | setBulk kv o =>
    simp only [stores, List.any_eq_false, decide_eq_true_eq] at ho
    simp only [Know.step]
    have : ∀ (kv : List (String × Val V)) (d : Dict String (Val V)), d.get? n = none → (∀ p ∈ kv, p.1 ≠ n) →
        (Know.setBulk d kv o).1.get? n = none := by
      intro kv
      induction kv with
      | nil => intro d h _; exact h
      | cons p kv ih =>
        intro d h hne
        obtain ⟨k, v⟩ := p
        have h1 : (Know.setK d k v o).1.get? n = none := by
          unfold Know.setK
          split
          · exact h
          · simp only
            rw [Dict.get?_set_ne _ _ (hne (k, v) (by simp))]; exact h
        simp only [Know.setBulk]
        split
        · rename_i d1 heq
          rw [heq] at h1
          exact ih d1 h1 (fun p hp => hne p (List.mem_cons_of_mem _ hp))
        · rename_i d1 o hx heq
          rw [heq] at h1; exact h1
    exact this kv d h ho
  | clearBulk ns =>
    simp only [Know.step]
    have : ∀ (ns : List String) (d : Dict String (Val V)), d.get? n = none → (Know.clearBulk d ns).1.get? n = none := by
      intro ns
      induction ns with
      | nil => intro d h; exact h
      | cons k ns ih =>
        intro d h
        have h1 := clearK_absent k h
        simp only [Know.clearBulk]
        split <;> (rename_i heq; rw [heq] at h1)
        · exact ih _ h1
        · exact h1
    exact this ns d h
  | getBulk ns b => exact h
  | getClearBulk ns =>
    simp only [Know.step]
    have : ∀ (ns : List String) (d : Dict String (Val V)) (acc : Dict String (Option (Val V))), d.get? n = none →
        (Know.getClearBulk d ns acc).1.get? n = none := by
      intro ns
      induction ns with
      | nil => intro d _ h; exact h
      | cons k ns ih =>
        intro d acc h
        have h1 := getClear_absent k h
        simp only [Know.getClearBulk]
        split <;> (rename_i heq; rw [heq] at h1)
        · exact ih _ _ h1
        · exact h1
    exact this ns d [] h

theorem succeed_know (s : St P V) (e : Nat) (p : P) : (succeed s e p).1.know = s.know := by
  unfold succeed
  split
  · rfl
  · simp only; split <;> rfl

theorem step_absent (p0 : P) (s : St P V) (n : String) (op : Op P V) (h : s.know.get? n = none)
    (ho : stores n op = false) : (step p0 s op).1.know.get? n = none := by
  cases op with
  | create a => exact h
  | yield w e =>
    simp only [step]
    split
    · unfold yield
      split
      · exact h
      · split
        · exact h
        · simp only; split <;> exact h
    · exact h
  | succeed e p =>
    simp only [step]
    split
    · rw [succeed_know]; exact h
    · exact h
  | cancel e =>
    simp only [step]
    split
    · rw [(cancel_waiting s e).2.2.2.1]; exact h
    · exact h
  | reset e => simp only [step]; split <;> exact h
  | process i => simp only [step, process]; split <;> exact h
  | resume => simp only [step, resume]; split <;> exact h
  | interrupt w =>
    simp only [step]
    rcases interrupt_cases s w with h1 | ⟨e, i, s1, _, _, h1, _, _, _, _, _, _, h7⟩
    · rw [h1]; exact h
    · rw [h1, (cancel_waiting s1 e).2.2.2.1, h7]
      rw [Dict.get?_eq_none_iff] at h ⊢
      intro hm
      apply h
      simp only [Dict.keys, List.mem_map, List.mem_filter] at hm ⊢
      obtain ⟨p, ⟨hp, _⟩, rfl⟩ := hm
      exact ⟨p, hp, rfl⟩
  | know op =>
    simp only [step]
    split
    · exact know_absent (P := P) op h ho
    · exact h
  | createK m =>
    simp only [stores, decide_eq_false_iff_not] at ho
    have h1 : (Know.setK (create p0 s true).1.know m (.ev (create p0 s true).2) false).1.get? n = none := by
      unfold Know.setK
      split
      · exact h
      · simp only
        rw [Dict.get?_set_ne _ _ ho]; exact h
    simp only [step, createK]
    split <;> (rename_i heq; rw [heq] at h1; exact h1)
  | succeedK m p =>
    have h1 := clearK_absent m h
    simp only [step, succeedK]
    split
    · split
      · rename_i heq
        rw [heq] at h1
        rw [succeed_know]; exact h1
      · rename_i heq
        rw [heq] at h1; exact h1
    · exact h

/-- **C21 (at most once).** After a `succeed_knowledge_event` on a name that had an event, every further one on the same
name raises until something is stored under that name again. -/
theorem c21_not_twice (p0 : P) (s : St P V) (n : String) (p p' : P) (ops : List (Op P V))
    (h : (step p0 s (.succeedK n p)).2 ≠ .raised) (hops : ∀ op ∈ ops, stores n op = false) :
    (step p0 (run p0 (step p0 s (.succeedK n p)).1 ops).1 (.succeedK n p')).2 = .raised := by
  obtain ⟨_, _, _, _, _, _, _, h1, _⟩ := c21_succeed p0 s n p h
  have key : ∀ (ops : List (Op P V)) (s : St P V), s.know.get? n = none → (∀ op ∈ ops, stores n op = false) →
      (run p0 s ops).1.know.get? n = none := by
    intro ops
    induction ops with
    | nil => intro s h _; exact h
    | cons op ops ih =>
      intro s h ho
      exact ih _ (step_absent p0 s n op h (ho op (by simp))) (fun o h => ho o (List.mem_cons_of_mem _ h))
  have h2 := key ops _ h1 hops
  have h3 : Know.getK (run p0 (step p0 s (.succeedK n p)).1 ops).1.know n false = .value none := by
    simp [Know.getK, h2]
  generalize (run p0 (step p0 s (.succeedK n p)).1 ops).1 = s2 at *
  simp only [step, succeedK]
  rw [h3]

example : (step 0 (run 0 (init 0 : St Nat Nat) [.createK "go", .createK "other", .yield 1 0]).1 (.succeedK "go" 5)).2
      ≠ .raised ∧ stores "go" (.createK "x" : Op Nat Nat) = false := by decide +kernel

/-- **C21 is false of the code when the event was triggered by other means**: the call raises and nothing is triggered,
but the name is gone from knowledge (and the payload replaced). -/
theorem c21_cleared_without_trigger :
    let r := run 0 (init 0 : St Nat Nat) [.createK "go", .yield 1 0, .succeed 0 5, .succeedK "go" 6]
    r.2.map (·.2) = [.created 0, .waits 1 0 0, .triggered 0 0, .raised] ∧ r.1.know.get? "go" = none ∧ r.1.pay 0 = 6 := by
  decide +kernel

end Verif.Event
