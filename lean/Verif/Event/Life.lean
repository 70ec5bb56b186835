import Verif.Event.Props

/-! # C38: which call does what, from the calls before -/

namespace Verif.Event

variable {P V : Type}

/-- An Event object has not happened, is about to release the waiters of arming `i`, or is over. -/
inductive Life where
  | pending
  | triggered (i : Nat)
  | over
deriving DecidableEq, Repr

/-- The life of every event after one more call, given what the call returned: `succeed` and `cancel` trigger, processing what was triggered ends, `reset` and a
wait for an event that is over begin anew. -/
def lifeStep (b : Nat → Life) : Op P V × Out P V → Nat → Life
  | (_, .triggered e i) => upd b e (.triggered i)
  | (_, .cancelled e i) => upd b e (.triggered i)
  | (.reset e, .done) => upd b e .pending
  | (.process i, .done) => fun e => if b e = .triggered i then .over else b e
  | (_, .waits _ e _) => upd b e (if b e = .over then .pending else b e)
  | _ => b

/-- The life of an event after these calls with what they returned. -/
def life (tr : List (Op P V × Out P V)) : Nat → Life := tr.foldl lifeStep fun _ => .pending

/-- The model agrees. -/
def Lives (s : St P V) (b : Nat → Life) : Prop :=
  (∀ e, s.nEv ≤ e → b e = .pending) ∧ ∀ e, e < s.nEv →
    match b e with
    | .pending => s.status (s.cur e) = .pending
    | .triggered i => s.cur e = i ∧ s.status (s.cur e) = .triggered
    | .over => s.status (s.cur e) = .processed

theorem Lives.same {s s' : St P V} {b : Nat → Life} (h : Lives s b) (h1 : s'.nEv = s.nEv) (h2 : s'.cur = s.cur) (h3 : s'.status = s.status) : Lives s' b := by
  unfold Lives
  rw [h1, h2, h3]
  exact h

theorem Lives.arm {s : St P V} {T : List Nat} (hI : Inv s T) {b : Nat → Life} (h : Lives s b) (e : Nat) (he : e < s.nEv) : Lives (arm s e) (upd b e .pending) := by
  refine ⟨fun e' h' => ?_, fun e' h' => ?_⟩
  · have h' : s.nEv ≤ e' := h'
    rw [upd_ne _ _ (by omega)]; exact h.1 e' h'
  · have h' : e' < s.nEv := h'
    by_cases hE : e' = e
    · subst hE; simp [upd, Event.arm]
    · rw [upd_ne _ _ hE]
      have hc := (hI.cur_ok e' h').1
      have e1 : (Event.arm s e).cur e' = s.cur e' := by simp [Event.arm, upd, hE]
      have e2 : (Event.arm s e).status (s.cur e') = s.status (s.cur e') := by
        simp only [Event.arm]; rw [upd_ne _ _ (by omega)]
      rw [e1, e2]
      exact h.2 e' h'

theorem Lives.create {s : St P V} {T : List Nat} (hI : Inv s T) {b : Nat → Life} (h : Lives s b) (p0 : P) (a : Bool) : Lives (create p0 s a).1 b := by
  refine ⟨fun e h' => ?_, fun e h' => ?_⟩
  · have h' : s.nEv + 1 ≤ e := h'
    exact h.1 e (by omega)
  · have h' : e < s.nEv + 1 := h'
    by_cases hE : e = s.nEv
    · subst hE; rw [h.1 _ (Nat.le_refl _)]; simp [Event.create, Event.arm, upd]
    · have hlt : e < s.nEv := by omega
      have hc := (hI.cur_ok e hlt).1
      have e1 : (Event.create p0 s a).1.cur e = s.cur e := by simp [Event.create, Event.arm, upd, hE]
      have e2 : (Event.create p0 s a).1.status (s.cur e) = s.status (s.cur e) := by
        simp only [Event.create, Event.arm]; rw [upd_ne _ _ (by omega)]
      rw [e1, e2]
      exact h.2 e hlt

theorem Lives.trigger {s s' : St P V} {T : List Nat} (hI : Inv s T) {b : Nat → Life} (h : Lives s b) {e : Nat} (he : e < s.nEv) (h1 : s'.nEv = s.nEv) (h2 : s'.cur = s.cur)
    (h3 : s'.status = upd s.status (s.cur e) .triggered) : Lives s' (upd b e (.triggered (s.cur e))) := by
  refine ⟨fun e' h' => ?_, fun e' h' => ?_⟩
  · rw [h1] at h'
    rw [upd_ne _ _ (by omega)]; exact h.1 e' h'
  · rw [h1] at h'
    rw [h2, h3]
    by_cases hE : e' = e
    · subst hE; simp [upd]
    · rw [upd_ne _ _ hE]
      have hne : s.cur e' ≠ s.cur e := fun hc => hE (by rw [← (hI.cur_ok e' h').2, hc, (hI.cur_ok e he).2])
      rw [upd_ne _ _ hne]
      exact h.2 e' h'

theorem Lives.cancel {s : St P V} {T : List Nat} (hI : Inv s T) {b : Nat → Life} (h : Lives s b) {e : Nat} (he : e < s.nEv) (op : Op P V) (hop : ∀ j, op ≠ .process j) (hop' : ∀ j, op ≠ .reset j) :
    Lives (cancel s e).1 (lifeStep b (op, (cancel s e).2)) := by
  unfold Event.cancel
  split
  · exact h.trigger hI he rfl rfl rfl
  · cases op <;> exact h

theorem Lives.succeed {s : St P V} {T : List Nat} (hI : Inv s T) {b : Nat → Life} (h : Lives s b) {e : Nat} (he : e < s.nEv) (p : P) (op : Op P V) (hop : ∀ j, op ≠ .process j)
    (hop' : ∀ j, op ≠ .reset j) : Lives (succeed s e p).1 (lifeStep b (op, (succeed s e p).2)) := by
  unfold Event.succeed
  split
  · cases op <;> exact h
  · dsimp only
    split
    · exact h.trigger hI he rfl rfl rfl
    · cases op <;> exact h.same rfl rfl rfl

theorem Lives.step (p0 : P) {s : St P V} {T : List Nat} (hI : Inv s T) {b : Nat → Life} (h : Lives s b) (op : Op P V) :
    Lives (step p0 s op).1 (lifeStep b (op, (step p0 s op).2)) := by
  cases op with
  | create a => exact h.create hI p0 a
  | yield w e =>
    simp only [Event.step]
    split
    · rename_i he
      unfold Event.yield
      split
      · exact h
      · split
        · exact h
        · rename_i hn
          dsimp only
          by_cases hp : s.status (s.cur e) = .processed
          · rw [if_pos hp]
            have h2 := h.2 e he
            have hb : b e = .over := by
              revert h2
              cases b e <;> simp [hp]
            have := h.arm hI e he
            simp only [lifeStep, hb, if_true]
            exact this.same rfl rfl rfl
          · rw [if_neg hp]
            have h2 := h.2 e he
            have hb : b e ≠ .over := by
              revert h2
              cases b e <;> simp [hp]
            simp only [lifeStep, if_neg hb]
            have : upd b e (b e) = b := by funext x; simp only [upd]; split <;> simp_all
            rw [this]
            exact h.same rfl rfl rfl
    · exact h
  | succeed e p =>
    simp only [Event.step]
    split
    · rename_i he; exact h.succeed hI he p _ (by simp) (by simp)
    · exact h
  | cancel e =>
    simp only [Event.step]
    split
    · rename_i he; exact h.cancel hI he _ (by simp) (by simp)
    · exact h
  | reset e =>
    simp only [Event.step]
    split
    · rename_i he; exact h.arm hI e he
    · exact h
  | process i =>
    simp only [Event.step, Event.process]
    split
    · exact h
    · rename_i hc
      simp only [ne_eq, not_or, Decidable.not_not, Nat.not_le] at hc
      refine ⟨fun e he => ?_, fun e he => ?_⟩
      · have := h.1 e he; simp [lifeStep, this]
      · have he : e < s.nEv := he
        have h2 := h.2 e he
        simp only [lifeStep]
        by_cases hi : s.cur e = i
        · have hb : b e = .triggered i := by
            revert h2
            rw [hi, hc.2.2]
            cases b e <;> simp
            exact fun h => h.symm
          rw [if_pos hb]
          simp [upd, hi]
        · have hb : b e ≠ .triggered i := by
            intro hb
            rw [hb] at h2
            exact hi h2.1
          rw [if_neg hb, upd_ne _ _ hi]
          exact h2
  | resume =>
    simp only [Event.step, Event.resume]
    split
    · exact h
    · exact h.same rfl rfl rfl
  | interrupt w =>
    simp only [Event.step, Event.interrupt]
    split
    · exact h
    · split
      · exact h
      · rename_i hr e i hw
        have hc : e < s.nEv ∧ True := by
          rcases hI.wait w e i hw with hm | hm
          · have := hI.wtr i w hm
            rw [hw] at this
            have h3 := hI.own_ok i this.1
            simp only [Option.some.injEq, Prod.mk.injEq] at this
            rw [← this.2.1.1] at h3
            exact ⟨h3, trivial⟩
          · have := hI.rdy w e i hm
            have h3 := hI.own_ok i this.2.1
            rw [this.2.2.1] at h3
            exact ⟨h3, trivial⟩
        unfold Event.cancel
        dsimp only
        split
        · exact h.trigger hI hc.1 rfl rfl rfl
        · exact h.same rfl rfl rfl
  | know op =>
    simp only [Event.step]
    split
    · exact h.same rfl rfl rfl
    · exact h
  | createK n =>
    simp only [Event.step, Event.createK]
    split
    · exact (h.create hI p0 true).same rfl rfl rfl
    · exact (h.create hI p0 true).same rfl rfl rfl
  | succeedK n p =>
    simp only [Event.step, Event.succeedK]
    split
    · rename_i e hg
      have he : e < s.nEv := by
        have hg' : s.know.get? n = some (.ev e) := by
          unfold Know.getK at hg
          split at hg
          · simp at hg
          · simpa using hg
        exact hI.kn n e (Dict.mem_of_get? hg')
      split
      · rename_i k hk
        unfold Event.succeed
        dsimp only
        split
        · exact h.same rfl rfl rfl
        · split
          · exact h.trigger hI he rfl rfl rfl
          · exact h.same rfl rfl rfl
      · exact h.same rfl rfl rfl
    · exact h

theorem lives_run (p0 : P) (ops : List (Op P V)) : ∀ {s : St P V} {T : List Nat}, Inv s T → ∀ {b : Nat → Life}, Lives s b →
    Lives (run p0 s ops).1 ((run p0 s ops).2.foldl lifeStep b) := by
  induction ops with
  | nil => intro s T _ b h; exact h
  | cons op ops ih => intro s T hI b h; exact ih (hI.step p0 op) (h.step p0 hI op)

theorem lives (p0 : P) (ops : List (Op P V)) : Lives (run p0 (init p0 : St P V) ops).1 (life (run p0 (init p0 : St P V) ops).2) :=
  lives_run p0 ops (Inv.init p0) ⟨fun _ _ => rfl, fun e he => absurd he (Nat.not_lt_zero e)⟩

/-- **C38 (what a call does).** What `succeed`, `cancel` and a wait do to an event is determined by the calls before: an event that has not happened since its
creation, its last `reset` or the last wait that began it anew can be triggered, once, by `succeed` or `cancel`, and whether anybody waits makes no difference; when it was
triggered both are refused, and when it is over they change nothing; who waits, waits for the same arming until it is over. -/
theorem c38_life (p0 : P) (ops : List (Op P V)) (e : Nat) (p : P) (b : Bool) (w : Nat)
    (hcr : (Op.create b, Out.created e) ∈ (run p0 (init p0 : St P V) ops).2 ∨ (b = true ∧ ∃ n, (Op.createK n, Out.created e) ∈ (run p0 (init p0 : St P V) ops).2))
    (hw : pend (run p0 (init p0 : St P V) ops).2 w = none) :
    let s := (run p0 (init p0 : St P V) ops).1
    let tr := (run p0 (init p0 : St P V) ops).2
    match life tr e with
    | .pending => ∃ i, i ∉ trigs tr ∧ (step p0 s (.succeed e p)).2 = .triggered e i ∧ (step p0 s (.cancel e)).2 = .cancelled e i ∧ (step p0 s (.yield w e)).2 = .waits w e i
    | .triggered i => (step p0 s (.succeed e p)).2 = .raised ∧ step p0 s (.cancel e) = (s, .raised) ∧ (step p0 s (.yield w e)).2 = .waits w e i
    | .over => step p0 s (.succeed e p) = (s, .raised) ∧ step p0 s (.cancel e) = (s, .raised) ∧
        (b = false → step p0 s (.yield w e) = (s, .raised)) ∧ (b = true → ∃ i, i ∉ trigs tr ∧ (step p0 s (.yield w e)).2 = .waits w e i) := by
  intro s tr
  obtain ⟨y1, y2, y3⟩ := c38_auto_reset p0 ops w e b hcr hw
  have hI := reach (V := V) p0 ops
  have he : e < s.nEv := by
    rcases hcr with h | ⟨rfl, n, h⟩
    · exact ((auto_created p0 ops (init p0) e).1 b h).1
    · exact ((auto_created p0 ops (init p0) e).2 n h).1
  have hl := (lives (V := V) p0 ops).2 e he
  have hs1 : step p0 s (.succeed e p) = succeed s e p := by simp only [step]; rw [if_pos he]
  have hs2 : step p0 s (.cancel e) = cancel s e := by simp only [step]; rw [if_pos he]
  show match life tr e with | .pending => _ | .triggered i => _ | .over => _
  rcases hL : life tr e with _ | i | _
  · have hp : s.status (s.cur e) = .pending := by
      have h := hl
      rw [show life (run p0 (init p0 : St P V) ops).2 e = .pending from hL] at h
      exact h
    refine ⟨s.cur e, fun hm => ((hI.trig _).1 hm).2 hp, ?_, ?_, y3 (by rw [hp]; simp)⟩
    · rw [hs1, succeed, if_neg (by rw [hp]; simp)]; simp [hp]
    · rw [hs2, cancel, if_pos hp]
  · have hp : s.cur e = i ∧ s.status (s.cur e) = .triggered := by
      have h := hl
      rw [show life (run p0 (init p0 : St P V) ops).2 e = .triggered i from hL] at h
      exact h
    refine ⟨?_, ?_, ?_⟩
    · rw [hs1, succeed, if_neg (by rw [hp.2]; simp)]; simp [hp.2]
    · rw [hs2, cancel, if_neg (by rw [hp.2]; simp)]
    · have := y3 (by rw [hp.2]; simp)
      rw [hp.1] at this
      exact this
  · have hp : s.status (s.cur e) = .processed := by
      have h := hl
      rw [show life (run p0 (init p0 : St P V) ops).2 e = .over from hL] at h
      exact h
    refine ⟨?_, ?_, y1 hp, fun hb => ?_⟩
    · rw [hs1, succeed, if_pos hp]
    · rw [hs2, cancel, if_neg (by rw [hp]; simp)]
    · obtain ⟨i, h1, h2⟩ := y2 hp hb
      exact ⟨i, h2, h1⟩

/-- An event is cancelled though nobody waits for it, is then refused, is over when processed, and begins anew with the next wait. -/
example : let ops : List (Op Nat Nat) := [.create true, .cancel 0]
    life (run 0 (init 0) ops).2 0 = .triggered 0 ∧ life (run 0 (init 0) (ops ++ [.process 0])).2 0 = .over ∧
      life (run 0 (init 0) (ops ++ [.process 0, .yield 7 0])).2 0 = .pending := by decide +kernel

end Verif.Event
