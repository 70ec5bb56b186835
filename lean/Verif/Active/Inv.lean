import Verif.Active.Lemmas

/-!
# The actor's data for one state agree with what the trace says
-/

namespace Verif.Active

/-- New history entries are at the present time, and any value among them is `v`. -/
def HistStep (n : Nat) (s s' : St) (v : Rat) : Prop :=
  ∃ ext, s'.hist n = s.hist n ++ ext ∧ ∀ e ∈ ext, e.1 = s.now ∧ ∀ w, e.2 = .val w → w = v

/-- The last recorded value is `v`, at the present time. -/
def LastVal (c : Cfg) (n : Nat) (s : St) (v : Rat) : Prop :=
  c.recording n = true → (values (s.hist n)).getLast? = some (s.now, v)

theorem HistStep.refl (n : Nat) (s : St) (v : Rat) : HistStep n s s v := ⟨[], by simp, by simp⟩

theorem HistStep.trans {n : Nat} {a b d : St} {v : Rat} (h1 : HistStep n a b v) (h2 : HistStep n b d v)
    (hn : b.now = a.now) : HistStep n a d v := by
  obtain ⟨e1, x1, y1⟩ := h1
  obtain ⟨e2, x2, y2⟩ := h2
  refine ⟨e1 ++ e2, by rw [x2, x1, List.append_assoc], ?_⟩
  intro e he
  rcases List.mem_append.mp he with he | he
  · exact y1 e he
  · rw [← hn]; exact y2 e he

theorem values_append (a b : List (Rat × Entry)) : values (a ++ b) = values a ++ values b := by
  simp [values]

theorem values_mem {h : List (Rat × Entry)} {x : Rat × Rat} : x ∈ values h ↔ (x.1, Entry.val x.2) ∈ h := by
  unfold values
  rw [List.mem_filterMap]
  constructor
  · rintro ⟨⟨a, e⟩, h1, h2⟩
    cases e with
    | val v => simp at h2; subst h2; exact h1
    | activating => simp at h2
    | deactivating => simp at h2
  · intro h
    exact ⟨_, h, rfl⟩

theorem LastVal.step {c : Cfg} {n : Nat} {s s' : St} {v : Rat} (h : LastVal c n s v)
    (hs : HistStep n s s' v) (hn : s'.now = s.now) : LastVal c n s' v := by
  intro hr
  obtain ⟨ext, h1, h2⟩ := hs
  rw [h1, values_append, List.getLast?_append, hn, h hr]
  cases hl : (values ext).getLast? with
  | none => rfl
  | some x =>
    have hm := List.mem_of_getLast? hl
    rw [values_mem] at hm
    obtain ⟨a, b⟩ := h2 _ hm
    have hb := b _ rfl
    simp only at a hb
    obtain ⟨x1, x2⟩ := x
    simp only at a hb
    subst a; subst hb; rfl

theorem record_marker_hist (c : Cfg) (n : Nat) (s : St) (e : Entry) (v : Rat) (he : ∀ w, e ≠ .val w) :
    HistStep n s (record c s n e) v := by
  unfold record
  split
  · refine ⟨[(s.now, e)], upd_self _ _ _, ?_⟩
    intro x hx
    simp at hx; subst hx
    exact ⟨rfl, fun w hw => absurd hw (he w)⟩
  · exact HistStep.refl n s v

theorem record_val_hist (c : Cfg) (n : Nat) (s : St) (v : Rat) :
    HistStep n s (record c s n (.val v)) v ∧ LastVal c n (record c s n (.val v)) v := by
  unfold record
  split
  · refine ⟨⟨[(s.now, .val v)], upd_self _ _ _, ?_⟩, ?_⟩
    · intro x hx
      simp at hx; subst hx
      exact ⟨rfl, fun w hw => by simp at hw; exact hw.symm⟩
    · intro _
      show (values (upd _ _ _ n)).getLast? = _
      rw [upd_self, values_append]
      simp [values]
  · rename_i h
    refine ⟨HistStep.refl n s v, ?_⟩
    intro hr
    have hl : (s.hist n).getLast? = some (s.now, .val v) := by
      by_contra hne
      exact h ⟨hr, Or.inr hne⟩
    obtain ⟨l, hl'⟩ := List.getLast?_eq_some_iff.mp hl
    rw [hl', values_append]
    simp [values]

theorem setVal_hist (c : Cfg) (n : Nat) (s : St) (v : Rat) :
    HistStep n s (setVal c s n v) v ∧ LastVal c n (setVal c s n v) v :=
  record_val_hist c n { s with value := upd s.value n (some v) } v

theorem record_fields (c : Cfg) (n : Nat) (s : St) (e : Entry) :
    (record c s n e).value = s.value ∧ (record c s n e).active = s.active := by
  unfold record; split <;> exact ⟨rfl, rfl⟩

theorem setVal_fields (c : Cfg) (n : Nat) (s : St) (v : Rat) :
    (setVal c s n v).value n = some v ∧ (setVal c s n v).active = s.active := by
  obtain ⟨a, b⟩ := record_fields c n { s with value := upd s.value n (some v) } (.val v)
  exact ⟨by unfold setVal; rw [a]; exact upd_self _ _ _, b⟩

/-- The stored data of state `n` represent the simulator state `sp`. -/
def Rep (c : Cfg) (n : Nat) (sp : Sp) (s : St) (cur : Rat) : Option Data → Prop
  | none => sp.rates = [] ∧ cur = sp.v
  | some d =>
    match c.kind n with
    | some .linear => ∃ t r, sp.rates = [(t, r)] ∧ d.rate = some r ∧ d.started ≤ s.now ∧
        cur + (s.now - d.started) * r = sp.valueAt s.now
    | some .shared => sp.rates ≠ [] ∧ d.task = none ∧ d.rateTasks = some sp.rates ∧
        ∃ lt, d.last = some lt ∧ lt ≤ s.now ∧ cur + (s.now - lt) * total sp.rates = sp.valueAt s.now
    | _ => False

structure View (c : Cfg) (n : Nat) (sp : Sp) (s : St) : Prop where
  kind : c.kind n = some .linear ∨ c.kind n = some .shared
  past : sp.at_ ≤ s.now
  rep : ∃ cur, s.value n = some cur ∧ Rep c n sp s cur (s.active n)

/-- The value stored was computed just now (or the state is not active). -/
def Fresh (c : Cfg) (n : Nat) (s : St) : Prop :=
  ∀ d, s.active n = some d → match c.kind n with
    | some .shared => d.last = some s.now
    | _ => d.started = s.now

theorem View.congr {c : Cfg} {n : Nat} {sp : Sp} {s s' : St} (h : View c n sp s) (hn : s'.now = s.now)
    (hv : s'.value n = s.value n) (ha : s'.active n = s.active n) : View c n sp s' := by
  obtain ⟨cur, h1, h2⟩ := h.rep
  refine ⟨h.kind, by rw [hn]; exact h.past, cur, by rw [hv]; exact h1, ?_⟩
  rw [ha]
  cases hd : s.active n with
  | none => rw [hd] at h2; exact h2
  | some d =>
    rw [hd] at h2
    simp only [Rep] at h2 ⊢
    rw [hn]; exact h2

theorem valueAt_nil {sp : Sp} (h : sp.rates = []) (x : Rat) : sp.valueAt x = sp.v := by
  simp [Sp.valueAt, h]

/-- Time passes. -/
theorem View.later {c : Cfg} {n : Nat} {sp : Sp} {s s' : St} (h : View c n sp s) (hn : s.now ≤ s'.now)
    (hv : s'.value n = s.value n) (ha : s'.active n = s.active n) : View c n sp s' := by
  obtain ⟨cur, h1, h2⟩ := h.rep
  refine ⟨h.kind, le_trans h.past hn, cur, by rw [hv]; exact h1, ?_⟩
  rw [ha]
  cases hd : s.active n with
  | none => rw [hd] at h2; exact h2
  | some d =>
    rw [hd] at h2
    rcases h.kind with hk | hk
    · simp only [Rep, hk] at h2 ⊢
      obtain ⟨t, r, a, b, e, f⟩ := h2
      refine ⟨t, r, a, b, le_trans e hn, ?_⟩
      simp only [Sp.valueAt, a, List.map_cons, List.map_nil, List.sum_cons, List.sum_nil, add_zero] at f ⊢
      linarith
    · simp only [Rep, hk] at h2 ⊢
      obtain ⟨a, b, e, lt, f, g, i⟩ := h2
      refine ⟨a, b, e, lt, f, le_trans g hn, ?_⟩
      simp only [Sp.valueAt, total] at i ⊢
      linarith

/-- What a read does when the stored data are of the `linear` kind. -/
theorem readLinear_eq (c : Cfg) (n : Nat) (s : St) (cur r : Rat) (d : Data) (hk : c.kind n = some .linear)
    (hv : s.value n = some cur) (ha : s.active n = some d) (hr : d.rate = some r) (hs : d.started ≤ s.now) :
    read c s n = (setActive (setVal c s n (cur + (s.now - d.started) * r)) n s.now none (some r) none none,
      .val (cur + (s.now - d.started) * r)) := by
  unfold read
  rw [hk]
  simp only [readLinear, hv, ha, hr]
  rw [if_neg (not_lt.mpr hs)]

theorem readShared_eq (c : Cfg) (n : Nat) (s : St) (cur : Rat) (d : Data) (hk : c.kind n = some .shared)
    (hv : s.value n = some cur) (ha : s.active n = some d) (ht : d.task = none) :
    read c s n = (setActive (setVal c s n (cur + (s.now - d.last.getD s.now) * total (d.rateTasks.getD [])))
        n s.now none none (some (d.rateTasks.getD [])) (some s.now),
      .val (cur + (s.now - d.last.getD s.now) * total (d.rateTasks.getD []))) := by
  unfold read
  rw [hk]
  simp only [readShared, hv, ha, ht]

theorem readShared_task (c : Cfg) (n : Nat) (s : St) (cur r : Rat) (t : Nat) (d : Data)
    (hk : c.kind n = some .shared) (hv : s.value n = some cur) (ha : s.active n = some d)
    (ht : d.task = some t) (hr : d.rate = some r) (hn : hasTask (d.rateTasks.getD []) t = false) :
    read c s n = (setActive (setVal c s n (cur + (s.now - d.last.getD s.now) * total (d.rateTasks.getD [])))
        n s.now none none (some (d.rateTasks.getD [] ++ [(t, r)])) (some s.now),
      .val (cur + (s.now - d.last.getD s.now) * total (d.rateTasks.getD []))) := by
  unfold read
  rw [hk]
  simp only [readShared, hv, ha, ht, hr, hn]
  rfl

theorem read_inactive (c : Cfg) (n : Nat) (s : St) (cur : Rat)
    (hk : c.kind n = some .linear ∨ c.kind n = some .shared)
    (hv : s.value n = some cur) (ha : s.active n = none) : read c s n = (s, .val cur) := by
  unfold read
  rcases hk with hk | hk
  · rw [hk]; simp only [readLinear, hv, ha]
  · rw [hk]; simp only [readShared, hv, ha]

theorem setActive_active (s : St) (n : Nat) (a : Rat) (b : Option Nat) (d : Option Rat)
    (e : Option (List (Nat × Rat))) (f : Option Rat) :
    (setActive s n a b d e f).active n = some
      ⟨a, b, d, e.or ((s.active n).bind (·.rateTasks)), f.or ((s.active n).bind (·.last))⟩ := by
  simp [setActive, upd_self]

/-- What a read does in general. -/
theorem View.read {c : Cfg} {n : Nat} {sp : Sp} {s : St} (h : View c n sp s) :
    ∃ s', read c s n = (s', .val (sp.valueAt s.now)) ∧ View c n sp s' ∧ Fresh c n s' ∧
      HistStep n s s' (sp.valueAt s.now) ∧ (s.active n ≠ none → LastVal c n s' (sp.valueAt s.now)) ∧
      (s'.active n = none ↔ s.active n = none) := by
  obtain ⟨cur, h1, h2⟩ := h.rep
  cases hd : s.active n with
  | none =>
    rw [hd] at h2
    refine ⟨s, ?_, h, by intro d h; rw [hd] at h; simp at h, HistStep.refl _ _ _, by simp, by simp [hd]⟩
    rw [read_inactive c n s cur h.kind h1 hd, valueAt_nil h2.1, h2.2]
  | some d =>
    rw [hd] at h2
    have hl := fun v => setVal_locks c s n v
    rcases h.kind with hk | hk
    · simp only [Rep, hk] at h2
      obtain ⟨t, r, a, b, e, f⟩ := h2
      rw [readLinear_eq c n s cur r d hk h1 hd b e, f]
      obtain ⟨g1, g2⟩ := setVal_hist c n s (sp.valueAt s.now)
      refine ⟨_, rfl, ⟨h.kind, ?_, ?_⟩, ?_, g1, fun _ => g2, by simp [setActive_active]⟩
      · show sp.at_ ≤ (setVal c s n _).now
        rw [(hl _).now]; exact h.past
      · refine ⟨_, (setVal_fields c n s _).1, ?_⟩
        rw [setActive_active]
        simp only [Rep, hk]
        have hn : (setActive (setVal c s n (sp.valueAt s.now)) n s.now none (some r) none none).now = s.now :=
          (hl _).now
        rw [hn]
        exact ⟨t, r, a, rfl, le_refl _, by ring⟩
      · intro d' hd'
        rw [setActive_active] at hd'
        simp only [Option.some.injEq] at hd'
        subst hd'
        rw [hk]
        exact (hl _).now.symm
    · simp only [Rep, hk] at h2
      obtain ⟨a, b, e, lt, f, g, i⟩ := h2
      rw [readShared_eq c n s cur d hk h1 hd b, e, f]
      simp only [Option.getD_some]
      rw [i]
      obtain ⟨g1, g2⟩ := setVal_hist c n s (sp.valueAt s.now)
      refine ⟨_, rfl, ⟨h.kind, ?_, ?_⟩, ?_, g1, fun _ => g2, by simp [setActive_active]⟩
      · show sp.at_ ≤ (setVal c s n _).now
        rw [(hl _).now]; exact h.past
      · refine ⟨_, (setVal_fields c n s _).1, ?_⟩
        rw [setActive_active]
        simp only [Rep, hk]
        have hn : (setActive (setVal c s n (sp.valueAt s.now)) n s.now none none (some sp.rates)
            (some s.now)).now = s.now := (hl _).now
        rw [hn]
        exact ⟨a, trivial, rfl, s.now, rfl, le_refl _, by ring⟩
      · intro d' hd'
        rw [setActive_active] at hd'
        simp only [Option.some.injEq] at hd'
        subst hd'
        rw [hk]
        show some s.now = some (setVal c s n _).now
        rw [(hl _).now]

/-- View together with the locks. -/
structure Good (c : Cfg) (n : Nat) (sp : Sp) (s : St) : Prop extends View c n sp s where
  keys : sp.rates.map (·.1) = s.tbs n

theorem hasTask_iff (rt : List (Nat × Rat)) (t : Nat) : hasTask rt t = true ↔ t ∈ rt.map (·.1) := by
  simp [hasTask]

theorem View.active_none {c : Cfg} {n : Nat} {sp : Sp} {s : St} (h : View c n sp s) (hr : sp.rates = []) :
    s.active n = none := by
  obtain ⟨cur, h1, h2⟩ := h.rep
  cases hd : s.active n with
  | none => rfl
  | some d =>
    exfalso
    rw [hd] at h2
    rcases h.kind with hk | hk
    · simp only [Rep, hk] at h2
      obtain ⟨t, r, a, _⟩ := h2
      rw [hr] at a; simp at a
    · simp only [Rep, hk] at h2
      exact h2.1 hr

/-- A well-formed activation succeeds exactly when the lock allows it. -/
theorem Good.activate {c : Cfg} {n : Nat} {sp : Sp} {s : St} (h : Good c n sp s) (t : Nat) (r : Rat)
    (k : Kind) (hk : c.kind n = some k) (hr : lockRefused k s n t = false) :
    ∃ s', activate c s n t (some r) = (s', .ok) ∧ Good c n (sp.ev (s.now, .on t r)) s' ∧
      HistStep n s s' (sp.valueAt s.now) ∧ LastVal c n s' (sp.valueAt s.now) := by
  obtain ⟨cur, h1, h2⟩ := h.rep
  have hkl : k = .linear ∨ k = .shared := by
    rcases h.kind with h | h <;> rw [hk] at h <;> simp at h <;> simp [h]
  have htn : t ∉ s.tbs n := by
    rcases hkl with rfl | rfl
    · simp [lockRefused] at hr; rw [hr]; simp
    · simpa [lockRefused] using hr
  have htbs : (Active.lock s n t).tbs n = s.tbs n ++ [t] := by
    simp only [Active.lock, upd_self, addTo]
    rw [if_neg htn]
  -- the state after locking and setting the data
  have hl := fun (s : St) v => setVal_locks c s n v
  unfold Active.activate
  simp only [hk, hr]
  rw [if_neg (by simp)]
  generalize hs2 : setActive (Active.lock s n t) n s.now (some t) (some r) none none = s2
  have n2 : s2.now = s.now := by rw [← hs2]; rfl
  have v2 : s2.value n = some cur := by rw [← hs2]; exact h1
  have t2 : s2.tbs n = s.tbs n ++ [t] := by rw [← hs2]; exact htbs
  have i2 : s2.hist n = s.hist n := by rw [← hs2]; rfl
  have a2 : s2.active n = some ⟨s.now, some t, some r, (s.active n).bind (·.rateTasks),
      (s.active n).bind (·.last)⟩ := by
    rw [← hs2, setActive_active]; rfl
  -- the read of the activation
  have key : ∃ (s3 : St), Active.read c s2 n = (s3, .val (sp.valueAt s.now)) ∧
      View c n (sp.ev (s.now, .on t r)) s3 ∧ HistStep n s s3 (sp.valueAt s.now) ∧
      LastVal c n s3 (sp.valueAt s.now) ∧ s3.tbs n = s.tbs n ++ [t] ∧ s3.now = s.now := by
    rcases hkl with rfl | rfl
    · have hnil : s.tbs n = [] := by simpa [lockRefused] using hr
      have hrates : sp.rates = [] := by
        have := h.keys; rw [hnil] at this; simpa using this
      have hnone := h.toView.active_none hrates
      rw [hnone] at h2
      have hcur : cur + (s2.now - s.now) * r = sp.valueAt s.now := by
        rw [n2, valueAt_nil hrates, h2.2]; ring
      rw [readLinear_eq c n s2 cur r _ hk v2 a2 rfl (by rw [n2])]
      simp only
      rw [hcur]
      obtain ⟨g1, g2⟩ := setVal_hist c n s2 (sp.valueAt s.now)
      refine ⟨_, rfl, ⟨Or.inl hk, ?_, ?_⟩, ?_, ?_, ?_, ?_⟩
      · show s.now ≤ (setVal c s2 n _).now
        rw [(hl _ _).now, n2]
      · refine ⟨_, (setVal_fields c n s2 _).1, ?_⟩
        rw [setActive_active]
        simp only [Rep, hk]
        have hn : (setActive (setVal c s2 n (sp.valueAt s.now)) n s2.now none (some r) none none).now =
          s.now := by rw [← n2]; exact (hl _ _).now
        rw [hn, n2]
        refine ⟨t, r, by simp [Sp.ev, hrates], rfl, le_refl _, ?_⟩
        simp [Sp.ev, Sp.valueAt]
      · obtain ⟨ext, x1, x2⟩ := g1
        exact ⟨ext, by rw [← i2]; exact x1, fun e he => ⟨(x2 e he).1.trans n2, (x2 e he).2⟩⟩
      · exact g2
      · rw [← t2]; exact congrFun (hl _ _).tbs n
      · rw [← n2]; exact (hl _ _).now
    · -- shared
      have hrt : ((s.active n).bind (·.rateTasks)).getD [] = sp.rates ∧
          cur + (s.now - ((s.active n).bind (·.last)).getD s.now) * total sp.rates = sp.valueAt s.now := by
        cases hd : s.active n with
        | none =>
          rw [hd] at h2
          refine ⟨by simp [h2.1], ?_⟩
          simp [valueAt_nil h2.1, h2.2]
        | some d =>
          rw [hd] at h2
          simp only [Rep, hk] at h2
          obtain ⟨a, b, e, lt, f, g, i⟩ := h2
          refine ⟨by simp [e], ?_⟩
          simp only [Option.bind_some, f, Option.getD_some]
          exact i
      have hno : hasTask sp.rates t = false := by
        rw [Bool.eq_false_iff]
        intro hh
        rw [hasTask_iff, h.keys] at hh
        exact htn hh
      rw [readShared_task c n s2 cur r t _ hk v2 a2 rfl rfl (by simp only; rw [hrt.1]; exact hno)]
      simp only
      rw [n2, hrt.1, hrt.2]
      obtain ⟨g1, g2⟩ := setVal_hist c n s2 (sp.valueAt s.now)
      refine ⟨_, rfl, ⟨Or.inr hk, ?_, ?_⟩, ?_, ?_, ?_, ?_⟩
      · show s.now ≤ (setVal c s2 n _).now
        rw [(hl _ _).now, n2]
      · refine ⟨_, (setVal_fields c n s2 _).1, ?_⟩
        rw [setActive_active]
        simp only [Rep, hk]
        have hn : (setActive (setVal c s2 n (sp.valueAt s.now)) n s.now none none
          (some (sp.rates ++ [(t, r)])) (some s.now)).now = s.now := by
            show (setVal c s2 n _).now = _
            rw [(hl _ _).now, n2]
        rw [hn]
        refine ⟨by simp [Sp.ev], trivial, rfl, s.now, rfl, le_refl _, ?_⟩
        simp [Sp.ev, Sp.valueAt]
      · obtain ⟨ext, x1, x2⟩ := g1
        exact ⟨ext, by rw [← i2]; exact x1, fun e he => ⟨(x2 e he).1.trans n2, (x2 e he).2⟩⟩
      · exact g2
      · rw [← t2]; exact congrFun (hl _ _).tbs n
      · rw [← n2]; exact (hl _ _).now
  obtain ⟨s3, k1, k2, k3, k4, k5, k6⟩ := key
  rw [k1]
  simp only
  rw [if_neg (by rcases hkl with rfl | rfl <;> simp)]
  have hm := record_marker_hist c n s3 .activating (sp.valueAt s.now) (by simp)
  have hlk := record_locks c s3 n .activating
  obtain ⟨f1, f2⟩ := record_fields c n s3 .activating
  refine ⟨_, rfl, ⟨k2.congr hlk.now (by rw [f1]) (by rw [f2]), ?_⟩, ?_, ?_⟩
  · rw [hlk.tbs, k5, ← h.keys]; simp [Sp.ev]
  · exact k3.trans hm k6
  · exact k4.step hm hlk.now

/-- Deactivation by an owner succeeds. -/
theorem Good.deactivate {c : Cfg} {n : Nat} {sp : Sp} {s : St} (h : Good c n sp s) (t : Nat)
    (ht : t ∈ s.tbs n) :
    ∃ s', deactivate c s n t = (s', .ok) ∧ Good c n (sp.ev (s.now, .off t)) s' ∧
      HistStep n s s' (sp.valueAt s.now) ∧ LastVal c n s' (sp.valueAt s.now) := by
  have hv : View c n sp (Active.unlock s n t) := h.toView.congr rfl rfl rfl
  obtain ⟨s2, r1, r2, r3, r4, r5, r6⟩ := hv.read
  have hlk : SameLocks (Active.unlock s n t) s2 := by
    have := read_locks c (Active.unlock s n t) n
    rw [r1] at this; exact this
  have hact : s2.active n ≠ none := by
    intro h0
    have h1 : s.active n = none := r6.mp h0
    obtain ⟨cur, e1, e2⟩ := h.rep
    rw [h1] at e2
    have := h.keys
    rw [e2.1] at this
    rw [← this] at ht
    simp at ht
  have hact1 : (Active.unlock s n t).active n ≠ none := fun h0 => hact (r6.mpr h0)
  have hlast := r5 hact1
  have now2 : s2.now = s.now := hlk.now
  have hun : (Active.unlock s n t).now = s.now := rfl
  have hui : (Active.unlock s n t).hist n = s.hist n := rfl
  rw [hun] at r1 r4 r5 hlast
  have r4' : HistStep n s s2 (sp.valueAt s.now) := r4
  have tbs2 : s2.tbs n = (s.tbs n).filter (· ≠ t) := by
    rw [hlk.tbs]; simp [Active.unlock, upd_self]
  have keys' : (sp.ev (s.now, .off t)).rates.map (·.1) = s2.tbs n := by
    rw [tbs2, ← h.keys]
    simp only [Sp.ev]
    induction sp.rates with
    | nil => rfl
    | cons p l ih =>
      by_cases hp : p.1 = t <;> simp [List.filter_cons, hp] at ih ⊢ <;> exact ih
  unfold Active.deactivate
  rcases h.kind with hk | hk
  · rw [hk]
    simp only
    rw [if_pos ht, r1]
    simp only
    have hm := record_marker_hist c n s2 .deactivating (sp.valueAt s.now) (by simp)
    have hrl := record_locks c s2 n .deactivating
    obtain ⟨f1, f2⟩ := record_fields c n s2 .deactivating
    have hrates : (sp.ev (s.now, .off t)).rates = [] := by
      obtain ⟨cur, e1, e2⟩ := h.rep
      cases hd : s.active n with
      | none =>
        exact absurd (r6.mpr hd) hact
      | some d =>
        rw [hd] at e2
        simp only [Rep, hk] at e2
        obtain ⟨t', r, a, _⟩ := e2
        have hkk := h.keys
        rw [a] at hkk
        simp at hkk
        rw [← hkk] at ht
        simp at ht
        simp [Sp.ev, a, ht]
    refine ⟨_, rfl, ⟨⟨Or.inl hk, ?_, ?_⟩, ?_⟩, ?_, ?_⟩
    · show s.now ≤ (record c s2 n .deactivating).now
      rw [hrl.now, now2]
    · obtain ⟨cur, e1, e2⟩ := r2.rep
      refine ⟨cur, by simp only [drop]; rw [f1]; exact e1, ?_⟩
      simp only [drop, upd_self, Rep]
      refine ⟨hrates, ?_⟩
      cases hd : s2.active n with
      | none => exact absurd hd hact
      | some d =>
        rw [hd] at e2
        simp only [Rep, hk] at e2
        obtain ⟨t', r, a, b, e, f⟩ := e2
        have := r3 d hd
        rw [hk] at this
        simp only at this
        rw [this, now2] at f
        simp only [Sp.ev]
        rw [← f]; ring
    · simp only [drop]
      rw [hrl.tbs]; exact keys'
    · exact r4'.trans hm now2
    · exact LastVal.step hlast hm hrl.now
  · rw [hk]
    simp only
    rw [if_pos ht, r1]
    simp only
    obtain ⟨cur, e1, e2⟩ := r2.rep
    cases hd : s2.active n with
    | none => exact absurd hd hact
    | some d =>
      rw [hd] at e2
      simp only [Rep, hk] at e2
      obtain ⟨a, b, e, lt, f, g, i⟩ := e2
      have hfr := r3 d hd
      rw [hk] at hfr
      simp only at hfr
      have hlt : lt = s2.now := by rw [f] at hfr; simpa using hfr
      subst hlt
      have hcur : cur = sp.valueAt s.now := by
        rw [now2] at i
        rw [← i]; ring
      unfold offShared
      have hrt : ((s2.active n).bind (·.rateTasks)).getD [] = sp.rates := by rw [hd]; simp [e]
      simp only [hrt]
      have hhas : hasTask sp.rates t = true := by rw [hasTask_iff, h.keys]; exact ht
      rw [if_pos hhas]
      generalize hrt' : sp.rates.filter (fun p => decide (p.1 ≠ t)) = rt'
      generalize hs3 : setActive s2 n s2.now none none (some rt') none = s3
      have a3 : s3.active n = some ⟨s2.now, none, none, some rt', d.last⟩ := by
        rw [← hs3, setActive_active, hd]; rfl
      have n3 : s3.now = s.now := by rw [← hs3]; exact now2
      have v3 : s3.value n = some cur := by rw [← hs3]; exact e1
      have t3 : s3.tbs n = s2.tbs n := by rw [← hs3]; rfl
      have i3 : s3.hist n = s2.hist n := by rw [← hs3]; rfl
      rw [readShared_eq c n s3 cur _ hk v3 a3 rfl]
      simp only [Option.getD_some, f]
      have hval : cur + (s3.now - s2.now) * total rt' = sp.valueAt s.now := by
        rw [n3, now2, hcur]; ring
      rw [hval]
      obtain ⟨g1, g2⟩ := setVal_hist c n s3 (sp.valueAt s.now)
      have hl := setVal_locks c s3 n (sp.valueAt s.now)
      have g1' : HistStep n s2 (setVal c s3 n (sp.valueAt s.now)) (sp.valueAt s.now) := by
        obtain ⟨ext, x1, x2⟩ := g1
        exact ⟨ext, by rw [← i3]; exact x1, fun e he => ⟨(x2 e he).1.trans (n3.trans now2.symm), (x2 e he).2⟩⟩
      have hrr : (sp.ev (s.now, .off t)).rates = rt' := hrt'
      split
      · rename_i hnil
        refine ⟨_, rfl, ⟨⟨Or.inr hk, ?_, ?_⟩, ?_⟩, ?_, ?_⟩
        · show s.now ≤ (setVal c s3 n _).now
          rw [hl.now, n3]
        · refine ⟨_, (setVal_fields c n s3 _).1, ?_⟩
          simp only [drop, upd_self, Rep]
          exact ⟨by rw [hrr]; exact hnil, rfl⟩
        · show _ = (setVal c s3 n _).tbs n
          rw [hl.tbs, t3]; exact keys'
        · exact r4'.trans g1' now2
        · exact g2
      · rename_i hnil
        refine ⟨_, rfl, ⟨⟨Or.inr hk, ?_, ?_⟩, ?_⟩, ?_, ?_⟩
        · show s.now ≤ (setVal c s3 n _).now
          rw [hl.now, n3]
        · refine ⟨_, (setVal_fields c n s3 _).1, ?_⟩
          rw [setActive_active]
          simp only [Rep, hk]
          have hn : (setActive (setVal c s3 n (sp.valueAt s.now)) n s3.now none none (some rt')
              (some s3.now)).now = s.now := by
            show (setVal c s3 n _).now = _
            rw [hl.now, n3]
          rw [hn]
          refine ⟨by rw [hrr]; exact hnil, trivial, by rw [hrr]; rfl, s3.now, rfl, by rw [n3], ?_⟩
          rw [n3]
          simp [Sp.ev, Sp.valueAt]
        · show _ = (setVal c s3 n _).tbs n
          rw [hl.tbs, t3]; exact keys'
        · exact r4'.trans g1' now2
        · exact g2

/-- Assignment when the stored value is current. -/
theorem Good.assign {c : Cfg} {n : Nat} {sp : Sp} {s : St} (h : Good c n sp s) (x : Rat)
    (hf : Fresh c n s) :
    ∃ s', assign c s n x = (s', .ok) ∧ Good c n (sp.ev (s.now, .set x)) s' ∧
      HistStep n s s' x ∧ LastVal c n s' x := by
  have hl := setVal_locks c s n x
  obtain ⟨f1, f2⟩ := setVal_fields c n s x
  obtain ⟨g1, g2⟩ := setVal_hist c n s x
  refine ⟨setVal c s n x, ?_, ⟨⟨h.kind, ?_, ⟨x, f1, ?_⟩⟩, ?_⟩, g1, g2⟩
  · unfold Active.assign
    rcases h.kind with hk | hk <;> rw [hk]
  · rw [hl.now]; exact le_refl _
  · rw [f2]
    obtain ⟨cur, e1, e2⟩ := h.rep
    cases hd : s.active n with
    | none =>
      rw [hd] at e2
      exact ⟨e2.1, rfl⟩
    | some d =>
      rw [hd] at e2
      have hfr := hf d hd
      rcases h.kind with hk | hk
      · simp only [Rep, hk] at e2 hfr ⊢
        obtain ⟨t, r, a, b, e, f⟩ := e2
        rw [hl.now]
        refine ⟨t, r, a, b, e, ?_⟩
        rw [hfr]
        simp [Sp.ev, Sp.valueAt]
      · simp only [Rep, hk] at e2 hfr ⊢
        obtain ⟨a, b, e, lt, f, g, i⟩ := e2
        rw [hl.now]
        refine ⟨a, b, e, lt, f, g, ?_⟩
        have : lt = s.now := by rw [f] at hfr; simpa using hfr
        subst this
        simp [Sp.ev, Sp.valueAt]
  · rw [hl.tbs]; exact h.keys

end Verif.Active
