import Verif.Active.Spec
import Mathlib.Data.List.Nodup

/-!
# Frame and lock lemmas
-/

namespace Verif.Active

theorem upd_self {β : Type} (f : Nat → β) (k : Nat) (v : β) : upd f k v k = v := by simp [upd]

theorem upd_ne {β : Type} (f : Nat → β) {k x : Nat} (v : β) (h : x ≠ k) : upd f k v x = f x := by
  simp [upd, h]

/-- Nothing about state `n` (nor the clock) changed. -/
structure Same (n : Nat) (s s' : St) : Prop where
  now : s'.now = s.now
  value : s'.value n = s.value n
  active : s'.active n = s.active n
  tbs : s'.tbs n = s.tbs n
  hist : s'.hist n = s.hist n

theorem Same.rfl' {n : Nat} {s : St} : Same n s s := ⟨rfl, rfl, rfl, rfl, rfl⟩

theorem Same.trans {n : Nat} {a b c : St} (h1 : Same n a b) (h2 : Same n b c) : Same n a c :=
  ⟨h2.now.trans h1.now, h2.value.trans h1.value, h2.active.trans h1.active, h2.tbs.trans h1.tbs,
    h2.hist.trans h1.hist⟩

theorem record_same (c : Cfg) (s : St) {m n : Nat} (e : Entry) (h : n ≠ m) : Same n s (record c s m e) := by
  unfold record; split
  · exact ⟨rfl, rfl, rfl, rfl, upd_ne _ _ h⟩
  · exact Same.rfl'

theorem setVal_same (c : Cfg) (s : St) {m n : Nat} (v : Rat) (h : n ≠ m) : Same n s (setVal c s m v) :=
  Same.trans (b := { s with value := upd s.value m (some v) })
    ⟨rfl, upd_ne _ _ h, rfl, rfl, rfl⟩ (record_same c _ _ h)

theorem setActive_same (s : St) {m n : Nat} (a : Rat) (b : Option Nat) (d : Option Rat)
    (e : Option (List (Nat × Rat))) (f : Option Rat) (h : n ≠ m) : Same n s (setActive s m a b d e f) :=
  ⟨rfl, rfl, upd_ne _ _ h, rfl, rfl⟩

/-- Locks. -/
structure SameLocks (s s' : St) : Prop where
  now : s'.now = s.now
  tbs : s'.tbs = s.tbs
  sbt : s'.sbt = s.sbt

theorem SameLocks.trans {a b c : St} (h1 : SameLocks a b) (h2 : SameLocks b c) : SameLocks a c :=
  ⟨h2.now.trans h1.now, h2.tbs.trans h1.tbs, h2.sbt.trans h1.sbt⟩

theorem record_locks (c : Cfg) (s : St) (m : Nat) (e : Entry) : SameLocks s (record c s m e) := by
  unfold record; split <;> exact ⟨rfl, rfl, rfl⟩

theorem setVal_locks (c : Cfg) (s : St) (m : Nat) (v : Rat) : SameLocks s (setVal c s m v) :=
  SameLocks.trans (b := { s with value := upd s.value m (some v) }) ⟨rfl, rfl, rfl⟩ (record_locks c _ _ _)

theorem read_same (c : Cfg) (s : St) {m n : Nat} (h : n ≠ m) : Same n s (read c s m).1 := by
  unfold read
  split
  · exact Same.rfl'
  · split <;> exact Same.rfl'
  · unfold readLinear
    split
    · exact Same.rfl'
    · split
      · exact Same.rfl'
      · split
        · exact Same.rfl'
        · split
          · exact Same.rfl'
          · exact Same.trans (setVal_same c s _ h) (setActive_same _ _ _ _ _ _ h)
  · unfold readShared
    split
    · exact Same.rfl'
    · split
      · exact Same.rfl'
      · simp only
        split
        · exact Same.trans (setVal_same c s _ h) (setActive_same _ _ _ _ _ _ h)
        · split
          · exact Same.rfl'
          · split
            · exact Same.rfl'
            · exact Same.trans (setVal_same c s _ h) (setActive_same _ _ _ _ _ _ h)

theorem read_locks (c : Cfg) (s : St) (m : Nat) : SameLocks s (read c s m).1 := by
  have r : SameLocks s s := ⟨rfl, rfl, rfl⟩
  have a : ∀ v b d e f g, SameLocks s (setActive (setVal c s m v) m b d e f g) := by
    intro v b d e f g
    exact SameLocks.trans (setVal_locks c s m v) ⟨rfl, rfl, rfl⟩
  unfold read
  split
  · exact r
  · split <;> exact r
  · unfold readLinear
    split
    · exact r
    · split
      · exact r
      · split
        · exact r
        · split
          · exact r
          · exact a ..
  · unfold readShared
    split
    · exact r
    · split
      · exact r
      · simp only
        split
        · exact a ..
        · split
          · exact r
          · split
            · exact r
            · exact a ..

theorem activate_same (c : Cfg) (s : St) {m n : Nat} (t : Nat) (r : Option Rat) (h : n ≠ m) :
    Same n s (activate c s m t r).1 := by
  unfold activate
  split
  · exact Same.rfl'
  · rename_i k hk
    split
    · exact Same.rfl'
    · have h1 : Same n s (lock s m t) := ⟨rfl, rfl, rfl, upd_ne _ _ h, rfl⟩
      have h2 := h1.trans (setActive_same (lock s m t) s.now (some t) r none none h)
      have h3 := h2.trans (read_same c _ h)
      simp only
      split
      · rename_i s3 v heq
        rw [heq] at h3
        split
        · exact h3
        · exact h3.trans (record_same c _ _ h)
      · rename_i s3 o hx heq
        rw [heq] at h3
        exact h3

theorem activate_locks (c : Cfg) (s : St) (m t : Nat) (r : Option Rat) (k : Kind) (hk : c.kind m = some k)
    (hr : lockRefused k s m t = false) :
    SameLocks (lock s m t) (activate c s m t r).1 := by
  unfold activate
  simp only [hk, hr]
  rw [if_neg (by simp)]
  have h2 : SameLocks (lock s m t) (setActive (lock s m t) m s.now (some t) r none none) := ⟨rfl, rfl, rfl⟩
  have h3 := h2.trans (read_locks c _ m)
  split
  · rename_i s3 v heq
    rw [heq] at h3
    split
    · exact h3
    · exact h3.trans (record_locks c _ _ _)
  · rename_i s3 o hx heq
    rw [heq] at h3
    exact h3

theorem offShared_same (c : Cfg) (s : St) {m n : Nat} (t : Nat) (h : n ≠ m) :
    Same n s (offShared c s m t).1 := by
  unfold offShared
  simp only
  split
  · have h2 := (setActive_same s s.now none none
      (some ((((s.active m).bind (·.rateTasks)).getD []).filter (fun p => p.1 ≠ t))) none h).trans
      (read_same c _ h)
    split
    · rename_i s2 v heq
      rw [heq] at h2
      split
      · exact h2.trans ⟨rfl, rfl, upd_ne _ _ h, rfl, rfl⟩
      · exact h2
    · rename_i s2 v hx heq
      rw [heq] at h2
      exact h2
  · exact Same.rfl'

theorem offShared_locks (c : Cfg) (s : St) (m t : Nat) : SameLocks s (offShared c s m t).1 := by
  unfold offShared
  simp only
  split
  · have h2 : SameLocks s (setActive s m s.now none none
      (some ((((s.active m).bind (·.rateTasks)).getD []).filter (fun p => p.1 ≠ t))) none) := ⟨rfl, rfl, rfl⟩
    have h3 := h2.trans (read_locks c _ m)
    split
    · rename_i s2 v heq
      rw [heq] at h3
      split
      · exact h3.trans ⟨rfl, rfl, rfl⟩
      · exact h3
    · rename_i s2 v hx heq
      rw [heq] at h3
      exact h3
  · exact ⟨rfl, rfl, rfl⟩

theorem deactivate_same (c : Cfg) (s : St) {m n : Nat} (t : Nat) (h : n ≠ m) :
    Same n s (deactivate c s m t).1 := by
  unfold deactivate
  split
  · exact Same.rfl'
  · split
    · have h1 : Same n s (unlock s m t) := ⟨rfl, rfl, rfl, upd_ne _ _ h, rfl⟩
      have h2 := h1.trans (read_same c _ h)
      split
      · rename_i s2 v heq
        rw [heq] at h2
        split
        · exact h2
        · exact (h2.trans (record_same c _ _ h)).trans ⟨rfl, rfl, upd_ne _ _ h, rfl, rfl⟩
        · exact h2.trans (offShared_same c _ t h)
      · rename_i s2 v hx heq
        rw [heq] at h2
        exact h2
    · exact Same.rfl'

theorem deactivate_locks (c : Cfg) (s : St) (m t : Nat) (hk : c.kind m ≠ none) (ht : t ∈ s.tbs m) :
    SameLocks (unlock s m t) (deactivate c s m t).1 := by
  unfold deactivate
  split
  · rename_i h; exact absurd h hk
  · rw [if_pos ht]
    have h2 := read_locks c (unlock s m t) m
    split
    · rename_i s2 v heq
      rw [heq] at h2
      split
      · exact h2
      · exact (h2.trans (record_locks c _ _ _)).trans ⟨rfl, rfl, rfl⟩
      · exact h2.trans (offShared_locks c _ _ t)
    · rename_i s2 v hx heq
      rw [heq] at h2
      exact h2

theorem deactivate_refused (c : Cfg) (s : St) (m t : Nat) (h : c.kind m = none ∨ t ∉ s.tbs m) :
    deactivate c s m t = (s, .raised) := by
  unfold deactivate
  split
  · rfl
  · rename_i k hk
    rcases h with h | h
    · rw [h] at hk; simp at hk
    · rw [if_neg h]

/-! ## The lock invariant -/

/-- The two lock maps are mutually inverse and only shared states have several owners; only existing states
are locked. -/
structure Lk (c : Cfg) (s : St) : Prop where
  inv : ∀ n t, n ∈ s.sbt t ↔ t ∈ s.tbs n
  ndS : ∀ t, (s.sbt t).Nodup
  ndT : ∀ n, (s.tbs n).Nodup
  one : ∀ n, c.kind n ≠ some .shared → (s.tbs n).length ≤ 1
  known : ∀ n, s.tbs n ≠ [] → c.kind n ≠ none

theorem Lk.congr {c : Cfg} {s s' : St} (h : Lk c s) (e : SameLocks s s') : Lk c s' := by
  refine ⟨?_, ?_, ?_, ?_, ?_⟩
  · rw [e.sbt, e.tbs]; exact h.inv
  · rw [e.sbt]; exact h.ndS
  · rw [e.tbs]; exact h.ndT
  · rw [e.tbs]; exact h.one
  · rw [e.tbs]; exact h.known

theorem mem_addTo (l : List Nat) (x y : Nat) : y ∈ addTo l x ↔ y ∈ l ∨ y = x := by
  unfold addTo; split
  · rename_i h
    constructor
    · exact Or.inl
    · rintro (h' | rfl) <;> assumption
  · simp

theorem nodup_addTo {l : List Nat} (h : l.Nodup) (x : Nat) : (addTo l x).Nodup := by
  unfold addTo; split
  · exact h
  · rename_i hx
    rw [List.nodup_append]
    refine ⟨h, by simp, ?_⟩
    intro a ha b hb hab
    simp at hb; subst hb; subst hab; exact hx ha

theorem Lk.lock {c : Cfg} {s : St} (h : Lk c s) {n t : Nat} {k : Kind} (hk : c.kind n = some k)
    (hr : lockRefused k s n t = false) : Lk c (lock s n t) := by
  refine ⟨?_, ?_, ?_, ?_, ?_⟩
  · intro m u
    simp only [Active.lock, upd]
    by_cases hu : u = t <;> by_cases hm : m = n
    · subst hu; subst hm; simp [mem_addTo]
    · subst hu; simp [hm, mem_addTo, h.inv]
    · subst hm; simp [hu, mem_addTo, h.inv]
    · simp [hu, hm, h.inv]
  · intro u
    simp only [Active.lock, upd]
    split
    · rename_i hu; exact nodup_addTo (h.ndS _) _
    · exact h.ndS u
  · intro m
    simp only [Active.lock, upd]
    split
    · exact nodup_addTo (h.ndT _) _
    · exact h.ndT m
  · intro m hm
    simp only [Active.lock, upd]
    split
    · rename_i he
      subst he
      have : s.tbs m = [] := by
        cases k with
        | shared => rw [hk] at hm; exact absurd rfl hm
        | plain => simpa [lockRefused] using hr
        | linear => simpa [lockRefused] using hr
      rw [this]; simp [addTo]
    · exact h.one m hm
  · intro m
    simp only [Active.lock, upd]
    split
    · rename_i he; subst he; rw [hk]; simp
    · exact h.known m

theorem Lk.unlock {c : Cfg} {s : St} (h : Lk c s) (n t : Nat) : Lk c (unlock s n t) := by
  refine ⟨?_, ?_, ?_, ?_, ?_⟩
  · intro m u
    simp only [Active.unlock, upd]
    by_cases hu : u = t <;> by_cases hm : m = n
    · subst hu; subst hm; simp
    · subst hu; simp [hm, h.inv]
    · subst hm; simp [hu, h.inv]
    · simp [hu, hm, h.inv]
  · intro u
    simp only [Active.unlock, upd]
    split
    · exact (h.ndS _).filter _
    · exact h.ndS u
  · intro m
    simp only [Active.unlock, upd]
    split
    · exact (h.ndT _).filter _
    · exact h.ndT m
  · intro m hm
    simp only [Active.unlock, upd]
    split
    · rename_i he; subst he
      exact le_trans (List.length_filter_le _ _) (h.one _ hm)
    · exact h.one m hm
  · intro m
    simp only [Active.unlock, upd]
    split
    · rename_i he; subst he
      intro hne
      apply h.known
      intro h0; rw [h0] at hne; simp at hne
    · exact h.known m

theorem activate_refused (c : Cfg) (s : St) (m t : Nat) (r : Option Rat)
    (h : c.kind m = none ∨ ∃ k, c.kind m = some k ∧ lockRefused k s m t = true) :
    activate c s m t r = (s, .raised) := by
  unfold activate
  rcases h with h | ⟨k, h1, h2⟩
  · simp [h]
  · simp [h1, h2]

theorem Lk.activate {c : Cfg} {s : St} (h : Lk c s) (n t : Nat) (r : Option Rat) :
    Lk c (activate c s n t r).1 := by
  cases hk : c.kind n with
  | none => rw [activate_refused c s n t r (Or.inl hk)]; exact h
  | some k =>
    cases hr : lockRefused k s n t with
    | true => rw [activate_refused c s n t r (Or.inr ⟨k, hk, hr⟩)]; exact h
    | false => exact (h.lock hk hr).congr (activate_locks c s n t r k hk hr)

theorem Lk.deactivate {c : Cfg} {s : St} (h : Lk c s) (n t : Nat) : Lk c (deactivate c s n t).1 := by
  by_cases hk : c.kind n = none
  · rw [deactivate_refused c s n t (Or.inl hk)]; exact h
  · by_cases ht : t ∈ s.tbs n
    · exact (h.unlock n t).congr (deactivate_locks c s n t hk ht)
    · rw [deactivate_refused c s n t (Or.inr ht)]; exact h

theorem Lk.deactivateList {c : Cfg} {s : St} (h : Lk c s) (t : Nat) (done l : List Nat) :
    Lk c (deactivateList c s t done l).1 := by
  induction l generalizing s done with
  | nil => exact h
  | cons n l ih =>
    simp only [Active.deactivateList]
    have hd := h.deactivate n t
    split
    · rename_i s' heq
      rw [heq] at hd
      exact ih hd _
    · rename_i s' o hx heq
      rw [heq] at hd
      exact hd

theorem Lk.step {c : Cfg} {s : St} (h : Lk c s) (op : Op) : Lk c (step c s op).1 := by
  cases op with
  | read n => exact h.congr (read_locks c s n)
  | assign n x =>
    simp only [Active.step, assign]
    split
    · exact h
    · exact h.congr (setVal_locks c s n x)
  | activate n t r => exact h.activate n t r
  | deactivate n t => exact h.deactivate n t
  | deactivateAll t ord => exact h.deactivateList t _ _
  | advance dt =>
    simp only [Active.step]
    split
    · exact ⟨h.inv, h.ndS, h.ndT, h.one, h.known⟩
    · exact h

theorem Lk.init (c : Cfg) (t0 : Rat) (v : Nat → Option Rat) : Lk c (init c t0 v) := by
  constructor <;> simp [Active.init]

theorem Lk.run {c : Cfg} {s : St} (h : Lk c s) (ops : List Op) : Lk c (run c s ops).1 := by
  induction ops generalizing s with
  | nil => exact h
  | cons op ops ih => exact ih (h.step op)

/-- The states listed by `deactivate_all_states` are exactly those held by the task. -/
theorem allOrder_perm (c : Cfg) (s : St) (t : Nat) (ord : List Nat) :
    (if ord.isPerm (s.sbt t) then ord else s.sbt t).Perm (s.sbt t) := by
  split
  · rename_i h; exact List.isPerm_iff.mp h
  · exact List.Perm.refl _

theorem deactivateList_same (c : Cfg) (s : St) (t n : Nat) (done l : List Nat) (h : n ∉ l) :
    Same n s (deactivateList c s t done l).1 := by
  induction l generalizing s done with
  | nil => exact Same.rfl'
  | cons m l ih =>
    simp only [List.mem_cons, not_or] at h
    simp only [deactivateList]
    have hd := deactivate_same c s t h.1
    split
    · rename_i s' heq
      rw [heq] at hd
      exact hd.trans (ih s' _ h.2)
    · rename_i s' o hx heq
      rw [heq] at hd
      exact hd

theorem run_append (c : Cfg) (s : St) (a b : List Op) :
    run c s (a ++ b) = ((run c (run c s a).1 b).1, (run c s a).2 ++ (run c (run c s a).1 b).2) := by
  induction a generalizing s with
  | nil => rfl
  | cons op a ih =>
    simp only [List.cons_append, run]
    rw [ih]

end Verif.Active
