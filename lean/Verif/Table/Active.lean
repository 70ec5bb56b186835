import Verif.Table.Spec
import Verif.Active.Props

/-!
# The histories that active states record (model `Verif/Active`)
-/

namespace Verif.Table

open Verif.Active (Cfg St Op upd record setVal setActive read activate deactivate deactivateList deactivateAll assign run step
  lock unlock drop offShared readLinear readShared total hasTask)

/-- The recorded entry as a value of a table. -/
def conv (x : Rat × Active.Entry) : Rat × Val Rat :=
  (x.1, match x.2 with
    | .val v => .scalar v
    | .activating => .marker true
    | .deactivating => .marker false)

/-- The history of state `n` of an actor. -/
def histOf (s : St) (n : Nat) : Hist Rat := (s.hist n).map conv

/-- Every marker follows a value recorded at the same time. -/
def Marked (h : List (Rat × Active.Entry)) : Prop :=
  ∀ pre t e post, h = pre ++ (t, e) :: post → (∀ v, e ≠ .val v) → ∃ pre' v, pre = pre' ++ [(t, .val v)]

theorem Marked.nil : Marked [] := by
  intro pre t e post h
  simp at h

theorem Marked.snoc {h : List (Rat × Active.Entry)} (hm : Marked h) (t : Rat) (e : Active.Entry)
    (he : (∀ v, e ≠ .val v) → ∃ v, h.getLast? = some (t, .val v)) : Marked (h ++ [(t, e)]) := by
  intro pre t' e' post heq hne
  rcases List.eq_nil_or_concat post with rfl | ⟨post', y, rfl⟩
  · have := List.append_inj' heq (by simp)
    obtain ⟨h1, h2⟩ := this
    simp only [List.cons.injEq, Prod.mk.injEq, and_true] at h2
    obtain ⟨rfl, rfl⟩ := h2
    subst h1
    obtain ⟨v, hv⟩ := he hne
    obtain ⟨l', hl⟩ := List.getLast?_eq_some_iff.1 hv
    exact ⟨l', v, hl⟩
  · have e1 : pre ++ (t', e') :: post'.concat y = (pre ++ (t', e') :: post') ++ [y] := by simp [List.concat_eq_append]
    rw [e1] at heq
    have := (List.append_inj' heq (by simp)).1
    exact hm pre t' e' post' this hne

/-- The invariant: locked linear states are active; all histories are well marked. -/
structure MInv (c : Cfg) (s : St) : Prop where
  locked : ∀ n, c.kind n = some .linear → s.tbs n ≠ [] → s.active n ≠ none
  marked : ∀ n, Marked (s.hist n)

theorem record_hist (c : Cfg) (s : St) (n : Nat) (e : Active.Entry) (m : Nat) :
    (record c s n e).hist m = s.hist m ∨
      (m = n ∧ c.recording n = true ∧ (record c s n e).hist m = s.hist m ++ [(s.now, e)]) := by
  unfold record
  split
  · rename_i h
    by_cases hm : m = n
    · subst hm; exact Or.inr ⟨rfl, h.1, by simp [upd]⟩
    · left; simp [upd, hm]
  · exact Or.inl rfl

theorem record_marked {c : Cfg} {s : St} {n : Nat} {e : Active.Entry} (h : ∀ m, Marked (s.hist m))
    (he : c.recording n = true → (∀ v, e ≠ .val v) → ∃ v, (s.hist n).getLast? = some (s.now, .val v)) (m : Nat) :
    Marked ((record c s n e).hist m) := by
  rcases record_hist c s n e m with hr | ⟨rfl, hc, hr⟩
  · rw [hr]; exact h m
  · rw [hr]; exact (h m).snoc _ _ (he hc)

theorem setVal_marked {c : Cfg} {s : St} {n : Nat} (v : Rat) (h : ∀ m, Marked (s.hist m)) (m : Nat) :
    Marked ((setVal c s n v).hist m) := by
  unfold setVal
  exact record_marked (s := { s with value := upd s.value n (some v) }) h (fun _ hc => absurd rfl (hc v)) m

/-- After an assignment the value is the last thing recorded. -/
theorem setVal_last {c : Cfg} {s : St} {n : Nat} (v : Rat) (hr : c.recording n = true) :
    ((setVal c s n v).hist n).getLast? = some (s.now, .val v) := by
  unfold setVal record
  split
  · simp [upd]
  · rename_i h
    by_cases he : (s.hist n).getLast? = some (s.now, .val v)
    · exact he
    · exact absurd ⟨hr, Or.inr he⟩ h

theorem read_marked {c : Cfg} {s : St} (n : Nat) (h : ∀ m, Marked (s.hist m)) (m : Nat) : Marked ((read c s n).1.hist m) := by
  unfold Active.read
  split
  · exact h m
  · split <;> exact h m
  · unfold readLinear
    split
    · exact h m
    · split
      · exact h m
      · split
        · exact h m
        · split
          · exact h m
          · exact setVal_marked _ h m
  · unfold readShared
    split
    · exact h m
    · split
      · exact h m
      · dsimp only
        split
        · exact setVal_marked _ h m
        · split
          · exact h m
          · split
            · exact h m
            · exact setVal_marked _ h m

/-- Reading an active state records the value. -/
theorem read_last {c : Cfg} {s : St} {n : Nat} {v : Rat} (hk : c.kind n = some .linear ∨ c.kind n = some .shared)
    (ha : s.active n ≠ none) (hr : c.recording n = true) (h : (read c s n).2 = .val v) :
    ((read c s n).1.hist n).getLast? = some (s.now, .val v) := by
  rcases hk with hk | hk
  · simp only [Active.read, hk] at h ⊢
    unfold readLinear at h ⊢
    cases hv : s.value n with
    | none => simp [hv] at h
    | some cur =>
      cases hd : s.active n with
      | none => exact absurd hd ha
      | some d =>
        cases hrt : d.rate with
        | none => simp [hv, hd, hrt] at h
        | some r =>
          simp only [hv, hd, hrt] at h ⊢
          split at h
          · exact absurd h (by simp)
          · rename_i hlt
            rw [if_neg hlt]
            simp only [Active.Out.val.injEq] at h
            subst h
            exact setVal_last _ hr
  · simp only [Active.read, hk] at h ⊢
    unfold readShared at h ⊢
    cases hv : s.value n with
    | none => simp [hv] at h
    | some cur =>
      cases hd : s.active n with
      | none => exact absurd hd ha
      | some d =>
        cases ht : d.task with
        | none =>
          simp only [hv, hd, ht] at h ⊢
          simp only [Active.Out.val.injEq] at h
          subst h
          exact setVal_last _ hr
        | some t =>
          cases hrt : d.rate with
          | none => simp [hv, hd, hrt, ht] at h
          | some r =>
            simp only [hv, hd, hrt, ht] at h ⊢
            split at h
            · exact absurd h (by simp)
            · rename_i hlt
              rw [if_neg hlt]
              simp only [Active.Out.val.injEq] at h
              subst h
              exact setVal_last _ hr

theorem read_now (c : Cfg) (s : St) (n : Nat) : (read c s n).1.now = s.now ∧ (read c s n).1.tbs = s.tbs := by
  have hs : ∀ v, (setVal c s n v).now = s.now ∧ (setVal c s n v).tbs = s.tbs := by
    intro v; unfold setVal record; split <;> exact ⟨rfl, rfl⟩
  unfold Active.read
  split
  · exact ⟨rfl, rfl⟩
  · split <;> exact ⟨rfl, rfl⟩
  · unfold readLinear
    split
    · exact ⟨rfl, rfl⟩
    · split
      · exact ⟨rfl, rfl⟩
      · split
        · exact ⟨rfl, rfl⟩
        · split
          · exact ⟨rfl, rfl⟩
          · exact hs _
  · unfold readShared
    split
    · exact ⟨rfl, rfl⟩
    · split
      · exact ⟨rfl, rfl⟩
      · dsimp only
        split
        · exact hs _
        · split
          · exact ⟨rfl, rfl⟩
          · split
            · exact ⟨rfl, rfl⟩
            · exact hs _

/-- Reading leaves active states active. -/
theorem read_active (c : Cfg) (s : St) (n m : Nat) (h : s.active m ≠ none) : (read c s n).1.active m ≠ none := by
  have hsv : ∀ v, (setVal c s n v).active = s.active := by intro v; unfold setVal record; split <;> rfl
  have hs : ∀ v a b d e f, (setActive (setVal c s n v) n a b d e f).active m ≠ none := by
    intro v a b d e f
    unfold setActive
    dsimp only
    unfold upd
    split
    · simp
    · rw [hsv]; exact h
  unfold Active.read
  split
  · exact h
  · split <;> exact h
  · unfold readLinear
    split
    · exact h
    · split
      · exact h
      · split
        · exact h
        · split
          · exact h
          · exact hs _ _ _ _ _ _
  · unfold readShared
    split
    · exact h
    · split
      · exact h
      · dsimp only
        split
        · exact hs _ _ _ _ _ _
        · split
          · exact h
          · split
            · exact h
            · exact hs _ _ _ _ _ _

theorem record_frame (c : Cfg) (s : St) (n : Nat) (e : Active.Entry) :
    (record c s n e).now = s.now ∧ (record c s n e).tbs = s.tbs ∧ (record c s n e).active = s.active := by
  unfold record; split <;> exact ⟨rfl, rfl, rfl⟩

theorem MInv.read {c : Cfg} {s : St} (h : MInv c s) (n : Nat) : MInv c (read c s n).1 :=
  ⟨fun m hk ht => read_active c s n m (h.locked m hk (by rw [← (read_now c s n).2]; exact ht)), read_marked n h.marked⟩

theorem MInv.activate {c : Cfg} {s : St} (h : MInv c s) (n t : Nat) (r : Option Rat) : MInv c (activate c s n t r).1 := by
  unfold Active.activate
  cases hk : c.kind n with
  | none => exact h
  | some k =>
    dsimp only
    split
    · exact h
    · have h2 : MInv c (setActive (lock s n t) n s.now (some t) r none none) := by
        refine ⟨?_, h.marked⟩
        intro m hm ht
        simp only [setActive, upd]
        split
        · simp
        · rename_i hne
          simp only [setActive, lock, upd, if_neg hne] at ht
          exact h.locked m hm ht
      have ha : (setActive (lock s n t) n s.now (some t) r none none).active n ≠ none := by simp [setActive, upd]
      generalize hs2 : setActive (lock s n t) n s.now (some t) r none none = s2 at h2 ha
      have h3 := h2.read n
      have hn3 := (read_now c s2 n).1
      have hl : ∀ v, (Active.read c s2 n).2 = .val v → k ≠ .plain → c.recording n = true →
          ((Active.read c s2 n).1.hist n).getLast? = some (s2.now, .val v) := by
        intro v hv hkp hrec
        refine read_last ?_ ha hrec hv
        cases k with
        | plain => exact absurd rfl hkp
        | linear => exact Or.inl hk
        | shared => exact Or.inr hk
      generalize hq : Active.read c s2 n = q at h3 hn3 hl
      obtain ⟨s3, o⟩ := q
      cases o with
      | val v =>
        dsimp only
        split
        · exact h3
        · rename_i hkp
          refine ⟨?_, ?_⟩
          · intro m hm ht
            rw [(record_frame c s3 n .activating).2.2]
            rw [(record_frame c s3 n .activating).2.1] at ht
            exact h3.locked m hm ht
          · refine record_marked h3.marked ?_
            intro hrec _
            dsimp only at hn3 hl
            rw [hn3]
            exact ⟨v, hl v rfl hkp hrec⟩
      | ok => exact h3
      | raised => exact h3
      | all d f => exact h3

theorem mem_unlock (s : St) (n t : Nat) (m : Nat) (h : (unlock s n t).tbs m ≠ []) : s.tbs m ≠ [] := by
  intro hc
  apply h
  simp only [unlock, upd]
  split
  · rename_i e; subst e; simp [hc]
  · exact hc

theorem MInv.offShared {c : Cfg} {s : St} (h : MInv c s) {n : Nat} (t : Nat) (hk : c.kind n = some .shared) :
    MInv c (offShared c s n t).1 := by
  unfold Active.offShared
  dsimp only
  split
  · have h2 : ∀ rt, MInv c (setActive s n s.now none none rt none) := by
      intro rt
      refine ⟨?_, h.marked⟩
      intro m hm ht
      simp only [setActive, upd]
      split
      · simp
      · exact h.locked m hm ht
    have h3 := (h2 (some (List.filter (fun p => p.1 ≠ t) (((s.active n).bind (·.rateTasks)).getD [])))).read n
    generalize hq : Active.read c (setActive s n s.now none none (some (List.filter (fun p => p.1 ≠ t) (((s.active n).bind (·.rateTasks)).getD []))) none) n = q at h3
    obtain ⟨s3, o⟩ := q
    cases o with
    | val v =>
      dsimp only
      split
      · refine ⟨?_, h3.marked⟩
        intro m hm ht
        simp only [drop, upd]
        split
        · rename_i e; subst e; rw [hk] at hm; exact absurd hm (by simp)
        · exact h3.locked m hm ht
      · exact h3
    | ok => exact h3
    | raised => exact h3
    | all d f => exact h3
  · exact h

theorem MInv.deactivate {c : Cfg} {s : St} (h : MInv c s) (hlk : Active.Lk c s) (n t : Nat) : MInv c (deactivate c s n t).1 := by
  unfold Active.deactivate
  cases hk : c.kind n with
  | none => exact h
  | some k =>
    dsimp only
    split
    · rename_i ht
      have h2 : MInv c (unlock s n t) := ⟨fun m hm hu => h.locked m hm (mem_unlock s n t m hu), h.marked⟩
      have h3 := h2.read n
      have hn3 := read_now c (unlock s n t) n
      have hl : ∀ v, (Active.read c (unlock s n t) n).2 = .val v → k = .linear → c.recording n = true →
          ((Active.read c (unlock s n t) n).1.hist n).getLast? = some ((unlock s n t).now, .val v) := by
        intro v hv hkl hrec
        subst hkl
        exact read_last (Or.inl hk) (h.locked n hk (by intro hc; rw [hc] at ht; simp at ht)) hrec hv
      generalize hq : Active.read c (unlock s n t) n = q at h3 hn3 hl
      obtain ⟨s3, o⟩ := q
      cases o with
      | val v =>
        cases k with
        | plain => exact h3
        | shared => exact h3.offShared t hk
        | linear =>
          dsimp only at hn3 hl ⊢
          refine ⟨?_, ?_⟩
          · intro m hm htm
            simp only [drop, upd]
            split
            · rename_i e
              subst e
              exfalso
              apply htm
              simp only [drop]
              rw [(record_frame c s3 m .deactivating).2.1, hn3.2]
              have hone := hlk.one m (by rw [hk]; decide)
              simp only [unlock, upd, if_true]
              match hm' : s.tbs m, ht, hone with
              | [x], ht, _ => simp only [List.mem_singleton] at ht; subst ht; simp
              | _ :: _ :: _, _, hone => simp at hone
            · rw [(record_frame c s3 n .deactivating).2.2]
              simp only [drop] at htm
              rw [(record_frame c s3 n .deactivating).2.1] at htm
              exact h3.locked m hm htm
          · refine record_marked h3.marked ?_
            intro hrec _
            rw [hn3.1]
            exact ⟨v, hl v rfl rfl hrec⟩
      | ok => exact h3
      | raised => exact h3
      | all d f => exact h3
    · exact h

theorem MInv.deactivateList {c : Cfg} (t : Nat) (l : List Nat) : ∀ {s : St} (done : List Nat), MInv c s → Active.Lk c s →
    MInv c (deactivateList c s t done l).1 := by
  induction l with
  | nil => intro s done h _; exact h
  | cons n r ih =>
    intro s done h hlk
    have h1 := h.deactivate hlk n t
    have h2 := hlk.deactivate n t
    unfold Active.deactivateList
    generalize Active.deactivate c s n t = q at h1 h2
    obtain ⟨s1, o⟩ := q
    cases o with
    | ok => exact ih _ h1 h2
    | val v => exact h1
    | raised => exact h1
    | all d f => exact h1

theorem MInv.step {c : Cfg} {s : St} (h : MInv c s) (hlk : Active.Lk c s) (op : Op) : MInv c (step c s op).1 := by
  cases op with
  | read n => exact h.read n
  | assign n x =>
    simp only [Active.step, Active.assign]
    split
    · exact h
    · refine ⟨?_, setVal_marked x h.marked⟩
      intro m hm ht
      have : (setVal c s n x).active = s.active ∧ (setVal c s n x).tbs = s.tbs := by
        unfold setVal record; split <;> exact ⟨rfl, rfl⟩
      rw [this.1]
      rw [this.2] at ht
      exact h.locked m hm ht
  | activate n t r => exact h.activate n t r
  | deactivate n t => exact h.deactivate hlk n t
  | deactivateAll t ord => exact MInv.deactivateList t _ [] h hlk
  | advance dt =>
    simp only [Active.step]
    split
    · exact ⟨h.locked, h.marked⟩
    · exact h

theorem MInv.run {c : Cfg} (ops : List Op) : ∀ {s : St}, MInv c s → Active.Lk c s → MInv c (run c s ops).1 := by
  induction ops with
  | nil => intro s h _; exact h
  | cons op r ih => intro s h hlk; exact ih (h.step hlk op) (hlk.step op)

theorem MInv.init (c : Cfg) (t0 : Rat) (v : Nat → Option Rat) : MInv c (Active.init c t0 v) := by
  refine ⟨fun n _ h => absurd rfl h, fun n => ?_⟩
  simp only [Active.init]
  split
  · split
    · rename_i x _ _
      exact Marked.nil.snoc t0 (.val x) (fun h => absurd rfl (h x))
    · exact .nil
  · exact .nil

end Verif.Table
