import Verif.Cont.Spec
import Mathlib.Data.List.Nodup
import Mathlib.Tactic.Linarith
import Mathlib.Tactic.Ring
import Mathlib.Tactic.FieldSimp

/-!
# Lemmas for the continuous container
-/

namespace Verif.Cont

/-- Invariant part that holds in every state, also after the simulation ended with an error. -/
structure A (l0 t0 : Rat) (s : St) : Prop where
  lastNow : s.last ≤ s.now
  level : s.level = truth l0 s.sessions s.last
  sess : ∀ x ∈ s.sessions, x.start ≤ s.last ∧ ∀ e, x.stop = some e → x.start ≤ e ∧ e ≤ s.last
  users : openUsers s.sessions = s.users
  rate : s.rate = (s.users.map (·.2)).sum
  nodup : (s.users.map (·.1)).Nodup
  nz : ∀ p ∈ s.users, p.2 ≠ 0
  logLast : s.log.getLast? = some (s.last, s.level)
  logHead : s.log.head? = some (t0, l0)
  logSeg : s.log.IsChain (Segment (truth l0 s.sessions))
  logTrue : ∀ e ∈ s.log, e.2 = truth l0 s.sessions e.1 ∧ e.1 ≤ s.last
  notes : ∀ n ∈ s.notes, n.level = truth l0 s.sessions n.time ∧ n.time ≤ s.last ∧
    (n.cause = .empty ∧ n.level = 0 ∨ n.cause = .full ∧ n.level = s.cap)

theorem truth_cons (l0 : Rat) (x : Sess) (ss : List Sess) (t : Rat) :
    truth l0 (x :: ss) t = truth l0 ss t + x.rate * x.lasted t := by
  simp [truth]; ring

theorem openUsers_cons (x : Sess) (ss : List Sess) :
    openUsers (x :: ss) = if x.stop = none then (x.id, x.rate) :: openUsers ss else openUsers ss := by
  cases h : x.stop <;> simp [openUsers, h]

/-- After the last change the amount moves with the net rate. -/
theorem truth_linear (l0 : Rat) (ss : List Sess) (a t : Rat) (hat : a ≤ t)
    (h : ∀ x ∈ ss, x.start ≤ a ∧ ∀ e, x.stop = some e → x.start ≤ e ∧ e ≤ a) :
    truth l0 ss t = truth l0 ss a + ((openUsers ss).map (·.2)).sum * (t - a) := by
  induction ss with
  | nil => simp [truth, openUsers]
  | cons x ss ih =>
    rw [truth_cons, truth_cons, openUsers_cons, ih (fun y hy => h y (List.mem_cons_of_mem _ hy))]
    have hx := h x (List.mem_cons_self ..)
    cases hs : x.stop with
    | none =>
      simp only [Sess.lasted, hs, ↓reduceIte, List.map_cons, List.sum_cons]
      rw [max_eq_right (le_trans hx.1 hat), max_eq_right hx.1]; ring
    | some e =>
      simp only [Sess.lasted, hs, reduceCtorEq, ↓reduceIte]
      have := hx.2 e hs
      rw [min_eq_left this.2, min_eq_left (le_trans this.2 hat)]; ring

theorem A.read {l0 t0 : Rat} {s : St} (h : A l0 t0 s) : readLevel s = truth l0 s.sessions s.now := by
  rw [truth_linear l0 s.sessions s.last s.now h.lastNow h.sess, ← h.level, h.users, ← h.rate]; rfl

theorem setLevel_eq (s : St) (h : s.last ≤ s.now) : setLevel s = { s with
    level := readLevel s
    last := s.now
    log := (setLevel s).log } := by
  unfold setLevel setLevelBase
  simp only
  by_cases h1 : s.now > s.last
  · simp only [h1, ↓reduceIte]
    split <;> simp [readLevel]
  · have : s.now = s.last := le_antisymm (not_lt.mp h1) h
    simp only [h1, ↓reduceIte]
    have hr : readLevel s = s.level := by simp [readLevel, this]
    rw [hr, this]
    split
    · cases s; simp_all
    · cases s; simp_all

theorem setLevel_log (s : St) (h : s.last ≤ s.now) : (setLevel s).log = s.log ∧
      s.log.getLast? = some (s.now, readLevel s) ∨
    (setLevel s).log = s.log ++ [(s.now, readLevel s)] ∧ s.log.getLast? ≠ some (s.now, readLevel s) := by
  unfold setLevel setLevelBase
  simp only
  by_cases h1 : s.now > s.last
  · simp only [h1, ↓reduceIte]
    split
    · left; exact ⟨rfl, by assumption⟩
    · right; exact ⟨rfl, by assumption⟩
  · have : s.now = s.last := le_antisymm (not_lt.mp h1) h
    have hr : readLevel s = s.level := by simp [readLevel, this]
    simp only [h1, ↓reduceIte, hr]
    split
    · left; exact ⟨rfl, by assumption⟩
    · right; exact ⟨rfl, by assumption⟩

/-- Changing connections now: the level and log catch up first. -/
theorem A.change {l0 t0 : Rat} {s : St} (h : A l0 t0 s) (s' : St)
    (hnow : s'.now = s.now) (hcap : s'.cap = s.cap) (hnotes : s'.notes = s.notes) (hlvl : s'.level = readLevel s) (hlast : s'.last = s.now)
    (hlog : s'.log = (setLevel s).log)
    (htruth : ∀ t, t ≤ s.now → truth l0 s'.sessions t = truth l0 s.sessions t)
    (hsess : ∀ x ∈ s'.sessions, x.start ≤ s.now ∧ ∀ e, x.stop = some e → x.start ≤ e ∧ e ≤ s.now)
    (husers : openUsers s'.sessions = s'.users) (hrate : s'.rate = (s'.users.map (·.2)).sum)
    (hnodup : (s'.users.map (·.1)).Nodup) (hnz : ∀ p ∈ s'.users, p.2 ≠ 0) : A l0 t0 s' := by
  have hseg : s.log.IsChain (Segment (truth l0 s'.sessions)) := by
    have hall : ∀ e ∈ s.log, e.1 ≤ s.now := fun e he => le_trans (h.logTrue e he).2 h.lastNow
    have : ∀ l : List (Rat × Rat), (∀ e ∈ l, e.1 ≤ s.now) → l.IsChain (Segment (truth l0 s.sessions)) →
        l.IsChain (Segment (truth l0 s'.sessions)) := by
      intro l
      induction l with
      | nil => intro _ _; exact List.IsChain.nil
      | cons a l ih =>
        intro hl hc
        cases l with
        | nil => exact List.IsChain.singleton _
        | cons b l =>
          rw [List.isChain_cons_cons] at hc ⊢
          refine ⟨⟨hc.1.1, ?_⟩, ih (fun e he => hl e (List.mem_cons_of_mem _ he)) hc.2⟩
          intro t h1 h2
          rw [htruth t (le_trans h2 (hl b (by simp)))]
          exact hc.1.2 t h1 h2
    exact this _ hall h.logSeg
  have htrue : ∀ e ∈ s.log, e.2 = truth l0 s'.sessions e.1 ∧ e.1 ≤ s.now := by
    intro e he
    have := h.logTrue e he
    have h2 := le_trans this.2 h.lastNow
    exact ⟨by rw [htruth _ h2]; exact this.1, h2⟩
  have hread := h.read
  constructor
  · rw [hlast, hnow]
  · rw [hlvl, hlast, htruth _ (le_refl _)]; exact hread
  · rw [hlast]; exact hsess
  · exact husers
  · exact hrate
  · exact hnodup
  · exact hnz
  · rw [hlast, hlvl, hlog]
    rcases setLevel_log s h.lastNow with ⟨h1, h2⟩ | ⟨h1, h2⟩
    · rw [h1]; exact h2
    · rw [h1]; simp
  · rw [hlog]
    rcases setLevel_log s h.lastNow with ⟨h1, h2⟩ | ⟨h1, h2⟩
    · rw [h1]; exact h.logHead
    · rw [h1]
      have := h.logHead
      cases hl : s.log with
      | nil => rw [hl] at this; simp at this
      | cons a l => rw [hl] at this; simpa using this
  · rw [hlog]
    rcases setLevel_log s h.lastNow with ⟨h1, h2⟩ | ⟨h1, h2⟩
    · rw [h1]; exact hseg
    · rw [h1, List.isChain_append]
      refine ⟨hseg, List.IsChain.singleton _, ?_⟩
      intro x hx y hy
      rw [h.logLast] at hx
      simp at hx hy; subst hx hy
      have hlt : s.last < s.now := by
        refine lt_of_le_of_ne h.lastNow (fun he => h2 ?_)
        rw [h.logLast]; simp [readLevel, he]
      refine ⟨hlt, ?_⟩
      intro t h3 h4
      simp only at h3 h4 ⊢
      rw [htruth t h4, truth_linear l0 s.sessions s.last t h3 h.sess, ← h.level, h.users, ← h.rate]
      have : s.now - s.last ≠ 0 := ne_of_gt (sub_pos.mpr hlt)
      simp only [readLevel]
      field_simp
      ring
  · rw [hlog, hlast]
    rcases setLevel_log s h.lastNow with ⟨h1, h2⟩ | ⟨h1, h2⟩
    · rw [h1]; exact htrue
    · rw [h1]
      intro e he
      rcases List.mem_append.mp he with he | he
      · exact htrue e he
      · simp at he; subst he
        exact ⟨by simp only; rw [htruth _ (le_refl _)]; exact hread, le_refl _⟩
  · intro n hn
    rw [hnotes] at hn
    obtain ⟨h1, h2, h3⟩ := h.notes n hn
    refine ⟨?_, ?_, ?_⟩
    · rw [htruth _ (le_trans h2 h.lastNow)]; exact h1
    · rw [hlast]; exact le_trans h2 h.lastNow
    · rw [hcap]; exact h3

/-- `A` only looks at these fields. -/
theorem A.congr {l0 t0 : Rat} {s s' : St} (h : A l0 t0 s) (h1 : s'.now = s.now) (h2 : s'.last = s.last)
    (h3 : s'.level = s.level) (h4 : s'.rate = s.rate) (h5 : s'.users = s.users)
    (h6 : s'.sessions = s.sessions) (h7 : s'.log = s.log) (h8 : s'.cap = s.cap)
    (h9 : s'.notes = s.notes) : A l0 t0 s' := by
  obtain ⟨a, b, c, d, e, f, g, i, j, k, l, m⟩ := h
  constructor
  · rw [h1, h2]; exact a
  · rw [h3, h6, h2]; exact b
  · rw [h6, h2]; exact c
  · rw [h6, h5]; exact d
  · rw [h4, h5]; exact e
  · rw [h5]; exact f
  · rw [h5]; exact g
  · rw [h7, h2, h3]; exact i
  · rw [h7]; exact j
  · rw [h7, h6]; exact k
  · rw [h7, h6, h2]; exact l
  · rw [h9, h6, h2, h8]; exact m

/-! ### Effects of connecting and disconnecting on the connection history -/

theorem truth_append (l0 : Rat) (ss : List Sess) (x : Sess) (t : Rat) :
    truth l0 (ss ++ [x]) t = truth l0 ss t + x.rate * x.lasted t := by
  simp [truth]; ring

theorem openUsers_append (ss : List Sess) (x : Sess) (h : x.stop = none) :
    openUsers (ss ++ [x]) = openUsers ss ++ [(x.id, x.rate)] := by
  simp [openUsers, h]

theorem truth_close (R : Nat → Bool) (l0 : Rat) (ss : List Sess) (now t : Rat) (ht : t ≤ now) :
    truth l0 (closeSess R now ss) t = truth l0 ss t := by
  induction ss with
  | nil => rfl
  | cons x ss ih =>
    simp only [closeSess, List.map_cons] at ih ⊢
    rw [truth_cons, truth_cons, ih]
    split
    · rename_i hx
      simp only [Sess.lasted, hx.2]
      rw [min_eq_right ht]
    · rfl

theorem openUsers_close (R : Nat → Bool) (ss : List Sess) (now : Rat) :
    openUsers (closeSess R now ss) = dropIds R (openUsers ss) := by
  induction ss with
  | nil => rfl
  | cons x ss ih =>
    simp only [closeSess, List.map_cons] at ih ⊢
    rw [openUsers_cons, openUsers_cons, ih]
    by_cases h1 : x.stop = none
    · by_cases h2 : R x.id = true
      · simp [h1, h2, dropIds]
      · simp [h1, h2, dropIds]
    · simp [h1]

theorem sess_close (R : Nat → Bool) (ss : List Sess) (last now : Rat) (hln : last ≤ now)
    (h : ∀ x ∈ ss, x.start ≤ last ∧ ∀ e, x.stop = some e → x.start ≤ e ∧ e ≤ last) :
    ∀ x ∈ closeSess R now ss, x.start ≤ now ∧ ∀ e, x.stop = some e → x.start ≤ e ∧ e ≤ now := by
  intro x hx
  simp only [closeSess, List.mem_map] at hx
  obtain ⟨y, hy, rfl⟩ := hx
  have := h y hy
  split
  · refine ⟨le_trans this.1 hln, ?_⟩
    intro e he
    simp at he; subst he
    exact ⟨le_trans this.1 hln, le_refl _⟩
  · exact ⟨le_trans this.1 hln, fun e he => ⟨(this.2 e he).1, le_trans (this.2 e he).2 hln⟩⟩

theorem sum_dropIds (R : Nat → Bool) (us : List (Nat × Rat)) :
    (us.map (·.2)).sum = ((dropIds R us).map (·.2)).sum + ((us.filter (fun p => R p.1)).map (·.2)).sum := by
  induction us with
  | nil => simp [dropIds]
  | cons p us ih =>
    cases hR : R p.1
    · simp only [dropIds, List.filter_cons, hR, Bool.not_false, ↓reduceIte, List.map_cons, List.sum_cons,
        Bool.false_eq_true] at ih ⊢
      rw [ih]; ring
    · simp only [dropIds, List.filter_cons, hR, Bool.not_true, ↓reduceIte, List.map_cons, List.sum_cons,
        Bool.false_eq_true] at ih ⊢
      rw [ih]; ring

theorem nodup_dropIds (R : Nat → Bool) {us : List (Nat × Rat)} (h : (us.map (·.1)).Nodup) :
    ((dropIds R us).map (·.1)).Nodup := h.sublist (List.filter_sublist.map _)

/-! ### `_add_rate` -/

/-- Explicit result of `addRate` when the current checker (if any) is alive. -/
def addRateRes (s : St) (d : Rat) (b : Bool) : St :=
  let ints : List U := match s.checking with
    | some k => if b then [.intCheck k] else []
    | none => []
  if s.rate + d = 0 then
    { s with
      level := readLevel s
      last := s.now
      log := (setLevel s).log
      rate := s.rate + d
      urgent := s.urgent ++ ints
      checking := none }
  else
    { s with
      level := readLevel s
      last := s.now
      log := (setLevel s).log
      rate := s.rate + d
      checking := some s.nextId
      checks := s.checks.set s.nextId none
      urgent := s.urgent ++ ints ++ [.initCheck s.nextId]
      nextId := s.nextId + 1 }

theorem setLevel_log_congr (s s' : St) (h1 : s'.now = s.now) (h2 : s'.last = s.last)
    (h3 : s'.level = s.level) (h4 : s'.rate = s.rate) (h5 : s'.log = s.log) :
    (setLevel s').log = (setLevel s).log := by
  unfold setLevel setLevelBase
  simp only [h1, h2, h3, h4]
  by_cases h : s.now > s.last
  · simp only [h, ↓reduceIte, h5]
    split <;> rfl
  · simp only [h, ↓reduceIte, h5, h1, h3]
    split <;> first | rfl | exact h5

theorem addRate'_eq (s : St) (d : Rat) (h : s.last ≤ s.now) :
    addRate' s d =
      if s.rate + d = 0 then
        { s with
          level := readLevel s
          last := s.now
          log := (setLevel s).log
          rate := s.rate + d
          checking := none }
      else
        { s with
          level := readLevel s
          last := s.now
          log := (setLevel s).log
          rate := s.rate + d
          checking := some s.nextId
          checks := s.checks.set s.nextId none
          urgent := s.urgent ++ [.initCheck s.nextId]
          nextId := s.nextId + 1 } := by
  unfold addRate'
  rw [setLevel_eq s h]
  simp only [startCheck]

theorem addRate_eq (s : St) (d : Rat) (b : Bool) (h : s.last ≤ s.now)
    (hal : ∀ k, s.checking = some k → s.checks.has k = true) : addRate s d b = addRateRes s d b := by
  unfold addRate addRateRes
  cases hc : s.checking with
  | none =>
    simp only [List.append_nil]
    rw [addRate'_eq s d h]
  | some k =>
    cases b with
    | false =>
      simp only [Bool.false_eq_true, ↓reduceIte, List.append_nil]
      rw [addRate'_eq s d h]
    | true =>
      simp only [↓reduceIte, hal k hc]
      rw [addRate'_eq _ d (by exact h)]
      have e := setLevel_log_congr s { s with
        urgent := s.urgent ++ [U.intCheck k]
        checking := some k } rfl rfl rfl rfl rfl
      rw [e]
      simp only [readLevel]

/-! ### The invariant of running (not crashed) states -/

/-- The bound the level is heading to. -/
def target (s : St) : Rat := if s.rate > 0 then s.cap else 0

/-- Bookkeeping of processes and pending events, and the bounds on the level. -/
structure C (s : St) : Prop where
  alive : ∀ p ∈ s.users, ∃ q, s.uprocs.get? p.1 = some q ∧ q.started = true ∧ q.rate = p.2
  uid : ∀ id q, s.uprocs.get? id = some q → id < s.nextId ∧ q.rate ≠ 0
  ckid : ∀ k v, s.checks.get? k = some v → k < s.nextId
  intLt : ∀ k, U.intCheck k ∈ s.urgent → k < s.nextId
  note : ∀ id c, U.intUser id c ∈ s.urgent → id < s.nextId ∧ (c = .stop ∨
    id ∉ s.users.map (·.1) ∧ ∀ q, s.uprocs.get? id = some q → q.started = true ∧ c = stopCause q.rate)
  lo : 0 ≤ readLevel s
  hi : readLevel s ≤ s.cap

/-- The checker in charge is alive and its wake-up is when the level reaches the bound. -/
structure P (s : St) : Prop where
  chk0 : s.checking = none ↔ s.rate = 0
  plan : ∀ k, s.checking = some k → (s.checks.get? k = some none ∧ U.initCheck k ∈ s.urgent) ∨
    ∃ d, s.checks.get? k = some (some d) ∧ s.now ≤ d ∧ readLevel s + s.rate * (d - s.now) = target s
  int : ∀ k, U.intCheck k ∈ s.urgent → s.checking ≠ some k

theorem P.has {s : St} (h : P s) : ∀ k, s.checking = some k → s.checks.has k = true := by
  intro k hk
  unfold Dict.has
  rcases h.plan k hk with ⟨h1, _⟩ | ⟨d, h1, _⟩ <;> simp [h1]

theorem has_of_del {d : Dict Nat (Option Rat)} {k k' : Nat} (h : d.has k = true) (hne : k' ≠ k) :
    (d.del k').has k = true := by
  unfold Dict.has at *
  rw [Dict.get?_del_ne _ hne]; exact h

/-- `_add_rate` re-plans: whatever the plan was before, it is right afterwards. -/
theorem PC_addRate (s : St) (d : Rat) (b : Bool) (up : Dict Nat UProc)
    (hC : C { s with uprocs := up }) (hck : ∀ k, s.checking = some k → k < s.nextId) :
    P { addRateRes s d b with uprocs := up } ∧ C { addRateRes s d b with uprocs := up } := by
  have hints : ∀ u ∈ (match s.checking with
      | some k => if b then [U.intCheck k] else []
      | none => [] : List U), ∃ k, u = .intCheck k ∧ k < s.nextId := by
    intro u hu
    cases hc : s.checking with
    | none => rw [hc] at hu; simp at hu
    | some k =>
      rw [hc] at hu
      cases b <;> simp at hu
      exact ⟨k, hu, hck k hc⟩
  unfold addRateRes
  simp only
  by_cases hr : s.rate + d = 0
  · simp only [hr, ↓reduceIte]
    constructor
    · exact ⟨by simp, by simp, by simp⟩
    · constructor
      · exact hC.alive
      · exact hC.uid
      · exact hC.ckid
      · intro k hk
        rcases List.mem_append.mp hk with hk | hk
        · exact hC.intLt k hk
        · obtain ⟨k', h1, h2⟩ := hints _ hk
          cases h1; exact h2
      · intro id c hu
        rcases List.mem_append.mp hu with hu | hu
        · exact hC.note id c hu
        · obtain ⟨k', h1, h2⟩ := hints _ hu
          cases h1
      · have := hC.lo
        simpa [readLevel] using this
      · have := hC.hi
        simpa [readLevel] using this
  · simp only [hr, ↓reduceIte]
    have hint : ∀ k, U.intCheck k ∈ s.urgent ++ (match s.checking with
      | some k => if b then [U.intCheck k] else []
      | none => [] : List U) ++ [U.initCheck s.nextId] → k < s.nextId := by
      intro k hk
      rcases List.mem_append.mp hk with hk | hk
      · rcases List.mem_append.mp hk with hk | hk
        · exact hC.intLt k hk
        · obtain ⟨k', h1, h2⟩ := hints _ hk
          cases h1; exact h2
      · simp at hk
    constructor
    · constructor
      · simp [hr]
      · intro k hk
        simp only [Option.some.injEq] at hk
        subst hk
        left; simp
      · intro k hk
        have := hint k hk
        simp only [ne_eq, Option.some.injEq]
        omega
    · constructor
      · exact hC.alive
      · intro id q h
        have := hC.uid id q h
        exact ⟨by have := this.1; simp only at this ⊢; omega, this.2⟩
      · intro k v h
        simp only at h ⊢
        rw [Dict.get?_set] at h
        split at h
        · omega
        · have := hC.ckid k v h
          simp only at this; omega
      · intro k hk
        have := hint k hk
        simp only; omega
      · intro id c hu
        rcases List.mem_append.mp hu with hu | hu
        · rcases List.mem_append.mp hu with hu | hu
          · have := hC.note id c hu
            exact ⟨by have := this.1; simp only at this ⊢; omega, this.2⟩
          · obtain ⟨k', h1, h2⟩ := hints _ hu
            cases h1
        · simp at hu
      · have := hC.lo
        simpa [readLevel] using this
      · have := hC.hi
        simpa [readLevel] using this

/-- Why the simulation may have ended: only the announced empty/full errors, at the bound exactly, an
attempt to remove an absent user, or a negative delay requested by the caller. -/
def CrashOK (s : St) : Prop :=
  match s.crash with
  | some .empty => s.errEmpty = true ∧ readLevel s = 0
  | some .full => s.errFull = true ∧ readLevel s = s.cap
  | some .bounds | some .terminated | some .foreign => False
  | _ => True

/-- The invariant. -/
structure Inv (l0 t0 : Rat) (s : St) : Prop where
  a : A l0 t0 s
  b : s.crash = none → C s ∧ P s
  ok : CrashOK s

/-! ### Connecting -/

theorem A_add {l0 t0 : Rat} {s : St} (h : A l0 t0 s) (id : Nat) (r : Rat) (hr : r ≠ 0) (b : Bool)
    (hid : id ∉ s.users.map (·.1)) :
    A l0 t0 (addRateRes { s with
      users := s.users ++ [(id, r)]
      sessions := s.sessions ++ [⟨id, r, s.now, none⟩] } r b) := by
  have e := setLevel_log_congr s { s with
      users := s.users ++ [(id, r)]
      sessions := s.sessions ++ [⟨id, r, s.now, none⟩] } rfl rfl rfl rfl rfl
  have htruth : ∀ t, t ≤ s.now → truth l0 (s.sessions ++ [⟨id, r, s.now, none⟩]) t =
      truth l0 s.sessions t := by
    intro t ht
    rw [truth_append]
    simp [Sess.lasted, max_eq_left ht]
  have hsess : ∀ x ∈ s.sessions ++ [⟨id, r, s.now, none⟩], x.start ≤ s.now ∧
      ∀ e, x.stop = some e → x.start ≤ e ∧ e ≤ s.now := by
    intro x hx
    rcases List.mem_append.mp hx with hx | hx
    · have := h.sess x hx
      exact ⟨le_trans this.1 h.lastNow, fun e he => ⟨(this.2 e he).1, le_trans (this.2 e he).2 h.lastNow⟩⟩
    · simp at hx; subst hx; simp
  have husers : openUsers (s.sessions ++ [⟨id, r, s.now, none⟩]) = s.users ++ [(id, r)] := by
    rw [openUsers_append _ _ rfl, h.users]
  have hrate : s.rate + r = ((s.users ++ [(id, r)]).map (·.2)).sum := by
    rw [h.rate]; simp
  have hnodup : ((s.users ++ [(id, r)]).map (·.1)).Nodup := by
    rw [List.map_append, List.nodup_append]
    refine ⟨h.nodup, by simp, ?_⟩
    intro a ha b hb
    simp at hb; subst hb
    intro he; exact hid (he ▸ ha)
  have hnz : ∀ p ∈ s.users ++ [(id, r)], p.2 ≠ 0 := by
    intro p hp
    rcases List.mem_append.mp hp with hp | hp
    · exact h.nz p hp
    · simp at hp; subst hp; exact hr
  unfold addRateRes
  simp only
  split
  · exact h.change _ rfl rfl rfl rfl rfl e htruth hsess husers hrate hnodup hnz
  · exact h.change _ rfl rfl rfl rfl rfl e htruth hsess husers hrate hnodup hnz

/-! ### Disconnecting -/

theorem filter_dropped {us : List (Nat × Rat)} (hn : (us.map (·.1)).Nodup) (P : Nat × Rat → Bool) :
    us.filter (fun p => decide (p.1 ∈ (us.filter P).map (·.1))) = us.filter P := by
  apply List.filter_congr
  intro p hp
  by_cases hP : P p = true
  · rw [hP, decide_eq_true_eq]
    exact List.mem_map.mpr ⟨p, List.mem_filter.mpr ⟨hp, hP⟩, rfl⟩
  · rw [Bool.not_eq_true] at hP
    rw [hP, decide_eq_false_iff_not]
    intro hc
    obtain ⟨p', h1, h2⟩ := List.mem_map.mp hc
    obtain ⟨h3, h4⟩ := List.mem_filter.mp h1
    have : p' = p := by
      have hinj := List.inj_on_of_nodup_map hn
      exact hinj h3 hp h2
    rw [this, hP] at h4; cases h4

theorem A_drop {l0 t0 : Rat} {s : St} (h : A l0 t0 s) (R : Nat → Bool) (d : Rat) (b : Bool)
    (hd : d = -((s.users.filter (fun p => R p.1)).map (·.2)).sum) :
    A l0 t0 (addRateRes { s with
      users := dropIds R s.users
      sessions := closeSess R s.now s.sessions } d b) := by
  have e := setLevel_log_congr s { s with
      users := dropIds R s.users
      sessions := closeSess R s.now s.sessions } rfl rfl rfl rfl rfl
  have htruth : ∀ t, t ≤ s.now → truth l0 (closeSess R s.now s.sessions) t = truth l0 s.sessions t :=
    fun t ht => truth_close R l0 s.sessions s.now t ht
  have hsess := sess_close R s.sessions s.last s.now h.lastNow h.sess
  have husers : openUsers (closeSess R s.now s.sessions) = dropIds R s.users := by
    rw [openUsers_close, h.users]
  have hrate : s.rate + d = ((dropIds R s.users).map (·.2)).sum := by
    rw [h.rate, sum_dropIds R, hd]; ring
  have hnodup := nodup_dropIds R h.nodup
  have hnz : ∀ p ∈ dropIds R s.users, p.2 ≠ 0 := fun p hp => h.nz p (List.mem_filter.mp hp).1
  unfold addRateRes
  simp only
  split
  · exact h.change _ rfl rfl rfl rfl rfl e htruth hsess husers hrate hnodup hnz
  · exact h.change _ rfl rfl rfl rfl rfl e htruth hsess husers hrate hnodup hnz

/-- Catching up the level alone. -/
theorem A_setLevel {l0 t0 : Rat} {s : St} (h : A l0 t0 s) : A l0 t0 (setLevel s) := by
  rw [setLevel_eq s h.lastNow]
  refine h.change _ rfl rfl rfl rfl rfl rfl (fun _ _ => rfl) ?_ h.users h.rate h.nodup h.nz
  intro x hx
  have := h.sess x hx
  exact ⟨le_trans this.1 h.lastNow, fun e he => ⟨(this.2 e he).1, le_trans (this.2 e he).2 h.lastNow⟩⟩

end Verif.Cont
