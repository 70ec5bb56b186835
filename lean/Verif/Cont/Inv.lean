import Verif.Cont.Lemmas
import Mathlib.Algebra.Order.Field.Basic

/-!
# The invariant of the continuous container is preserved by every move
-/

namespace Verif.Cont

variable {l0 t0 : Rat}

theorem CrashOK_none {s : St} (h : s.crash = none) : CrashOK s := by
  unfold CrashOK; rw [h]; trivial

theorem addRateRes_crash (s : St) (d : Rat) (b : Bool) : (addRateRes s d b).crash = s.crash := by
  unfold addRateRes; simp only; split <;> rfl

theorem ckLt {s : St} (hC : C s) (hP : P s) : ∀ k, s.checking = some k → k < s.nextId := by
  intro k hk
  rcases hP.plan k hk with ⟨h1, _⟩ | ⟨d, h1, _⟩ <;> exact hC.ckid _ _ h1

theorem filter_single {us : List (Nat × Rat)} (hn : (us.map (·.1)).Nodup) {id : Nat} {r : Rat}
    (h : (id, r) ∈ us) : us.filter (fun p => decide (p.1 = id)) = [(id, r)] := by
  induction us with
  | nil => simp at h
  | cons p us ih =>
    simp only [List.map_cons, List.nodup_cons] at hn
    rcases List.mem_cons.mp h with rfl | h
    · have : us.filter (fun p => decide (p.1 = id)) = [] := by
        rw [List.filter_eq_nil_iff]
        intro q hq hc
        simp at hc
        exact hn.1 (hc ▸ List.mem_map.mpr ⟨q, hq, rfl⟩)
      simp [this]
    · have hne : p.1 ≠ id := fun he => hn.1 (he ▸ List.mem_map.mpr ⟨(id, r), h, rfl⟩)
      simp [hne, ih hn.2 h]

theorem PC_addRate' (s : St) (d : Rat) (b : Bool) (hC : C s)
    (hck : ∀ k, s.checking = some k → k < s.nextId) : P (addRateRes s d b) ∧ C (addRateRes s d b) := by
  have := PC_addRate s d b s.uprocs hC hck
  have e : { addRateRes s d b with uprocs := s.uprocs } = addRateRes s d b := by
    unfold addRateRes; simp only; split <;> rfl
  rw [e] at this; exact this

/-- Losing the head of the urgent queue keeps the bookkeeping. -/
theorem C_pop {s : St} (h : C s) {u : U} {q : List U} (hq : s.urgent = u :: q) :
    C { s with urgent := q } := by
  have hm : ∀ x ∈ q, x ∈ s.urgent := fun x hx => by rw [hq]; exact List.mem_cons_of_mem _ hx
  exact ⟨h.alive, h.uid, h.ckid, fun k hk => h.intLt k (hm _ hk), fun id c hu => h.note id c (hm _ hu),
    h.lo, h.hi⟩

theorem P_pop {s : St} (h : P s) {u : U} {q : List U} (hq : s.urgent = u :: q)
    (hu : ∀ k, s.checking = some k → s.checks.get? k = some none → u ≠ .initCheck k) :
    P { s with urgent := q } := by
  have hm : ∀ x ∈ q, x ∈ s.urgent := fun x hx => by rw [hq]; exact List.mem_cons_of_mem _ hx
  refine ⟨h.chk0, ?_, fun k hk => h.int k (hm _ hk)⟩
  intro k hk
  rcases h.plan k hk with ⟨h1, h2⟩ | h1
  · left
    refine ⟨h1, ?_⟩
    rw [hq] at h2
    rcases List.mem_cons.mp h2 with h2 | h2
    · exact absurd h2.symm (hu k hk h1)
    · exact h2
  · right; exact h1

/-! ### Removing users -/

theorem removeUser_inv {s : St} (hA : A l0 t0 s) (id : Nat) (r : Rat) (up : Dict Nat UProc)
    (hcr : s.crash = none) (hC : C s) (hP : P s)
    (hr : ∀ r', (id, r') ∈ s.users → r' = r)
    (hup : up = s.uprocs.del id) :
    Inv l0 t0 (removeUser { s with uprocs := up } id r) := by
  unfold removeUser
  by_cases hm : id ∈ s.users.map (·.1)
  · simp only [hm, ↓reduceIte]
    rw [addRate_eq _ _ _ (by exact hA.lastNow) (by exact hP.has)]
    obtain ⟨⟨id', r'⟩, h1, h2⟩ := List.mem_map.mp hm
    simp only at h2; subst h2
    have := hr r' h1; subst this
    have hA' : A l0 t0 { s with uprocs := up } := hA.congr rfl rfl rfl rfl rfl rfl rfl rfl rfl
    refine ⟨?_, ?_, ?_⟩
    · refine A_drop hA' (fun i => decide (i = id')) _ true ?_
      simp only
      rw [filter_single hA.nodup h1]; simp
    · intro _
      have hck := ckLt hC hP
      have := PC_addRate' { s with
        users := dropIds (fun i => decide (i = id')) s.users
        sessions := closeSess (fun i => decide (i = id')) s.now s.sessions
        uprocs := up } (-1 * r') true ?_ (by exact hck)
      · exact ⟨this.2, this.1⟩
      · constructor
        · intro p hp
          obtain ⟨hp1, hp2⟩ := List.mem_filter.mp hp
          simp at hp2
          obtain ⟨q, hq1, hq2⟩ := hC.alive p hp1
          refine ⟨q, ?_, hq2⟩
          simp only [hup]
          rw [Dict.get?_del_ne _ (Ne.symm hp2)]; exact hq1
        · intro i q h
          simp only [hup, Dict.get?_del] at h
          split at h
          · cases h
          · exact hC.uid i q h
        · exact hC.ckid
        · exact hC.intLt
        · intro i c hu
          obtain ⟨a1, a2⟩ := hC.note i c hu
          refine ⟨a1, ?_⟩
          rcases a2 with a2 | ⟨a2, a3⟩
          · left; exact a2
          · right
            refine ⟨?_, ?_⟩
            · intro hc
              exact a2 ((List.filter_sublist.map _).subset hc)
            · intro q h
              simp only [hup, Dict.get?_del] at h
              split at h
              · cases h
              · exact a3 q h
        · exact hC.lo
        · exact hC.hi
    · apply CrashOK_none
      rw [addRateRes_crash]; exact hcr
  · simp only [hm, ↓reduceIte]
    refine ⟨hA.congr rfl rfl rfl rfl rfl rfl rfl rfl rfl, ?_, ?_⟩
    · intro h; cases h
    · unfold CrashOK; trivial

/-! ### The checker's clean-up -/

theorem exists_neg {l : List Rat} (h : l.sum < 0) : ∃ x ∈ l, x < 0 := by
  induction l with
  | nil => simp at h
  | cons a l ih =>
    simp only [List.sum_cons] at h
    by_cases ha : a < 0
    · exact ⟨a, by simp, ha⟩
    · obtain ⟨x, hx, hx'⟩ := ih (by linarith)
      exact ⟨x, List.mem_cons_of_mem _ hx, hx'⟩

theorem exists_pos {l : List Rat} (h : l.sum > 0) : ∃ x ∈ l, x > 0 := by
  induction l with
  | nil => simp at h
  | cons a l ih =>
    simp only [List.sum_cons] at h
    by_cases ha : a > 0
    · exact ⟨a, by simp, ha⟩
    · obtain ⟨x, hx, hx'⟩ := ih (by linarith)
      exact ⟨x, List.mem_cons_of_mem _ hx, hx'⟩

theorem sum_neg (l : List (Nat × Rat)) : (l.map (fun p => -p.2)).sum = -((l.map (·.2)).sum) := by
  induction l with
  | nil => simp
  | cons p l ih => simp [ih]; ring

/-- Notifying and dropping the users selected by `sel` when the level is at the bound. -/
theorem drop_inv {s : St} (hA : A l0 t0 s) (hcr : s.crash = none) (hC : C s)
    (hck : ∀ k, s.checking = some k → k < s.nextId) (sel : Nat × Rat → Bool) (c : Cause)
    (hsel : ∀ p, sel p = true → c = stopCause p.2) (hlast : s.last = s.now)
    (hc : c = .empty ∧ s.level = 0 ∨ c = .full ∧ s.level = s.cap) (hne : s.users.filter sel ≠ []) :
    A l0 t0 (notify s (s.users.filter sel) c) ∧
    Inv l0 t0 (dropUsers (notify s (s.users.filter sel) c) (s.users.filter sel)) := by
  have hA' : A l0 t0 (notify s (s.users.filter sel) c) := by
    obtain ⟨a1, a2, a3, a4, a5, a6, a7, a8, a9, a10, a11, a12⟩ := hA
    refine ⟨a1, a2, a3, a4, a5, a6, a7, a8, a9, a10, a11, ?_⟩
    intro n hn
    simp only [notify] at hn ⊢
    rcases List.mem_append.mp hn with hn | hn
    · exact a12 n hn
    · obtain ⟨p, hp, rfl⟩ := List.mem_map.mp hn
      refine ⟨?_, ?_, hc⟩
      · simp only; rw [a2, hlast]
      · simp only; exact le_of_eq hlast.symm
  refine ⟨hA', ?_⟩
  unfold dropUsers
  simp only [hne, ↓reduceIte]
  -- interrupt = false never looks at the old checker
  have haddRate : ∀ (s : St) (d : Rat), s.last ≤ s.now → addRate s d false = addRateRes s d false := by
    intro s d h
    unfold addRate addRateRes
    cases hc : s.checking with
    | none => simp only [List.append_nil]; rw [addRate'_eq s d h]
    | some k => simp only [Bool.false_eq_true, ↓reduceIte, List.append_nil]; rw [addRate'_eq s d h]
  rw [haddRate _ _ (by exact hA.lastNow)]
  refine ⟨?_, ?_, ?_⟩
  · refine A_drop hA' (fun i => decide (i ∈ (s.users.filter sel).map (·.1))) _ false ?_
    simp only [notify]
    rw [filter_dropped hA.nodup, sum_neg]
  · intro _
    have hmem : ∀ p ∈ s.users.filter sel, p ∈ s.users ∧ sel p = true := fun p hp => List.mem_filter.mp hp
    have := PC_addRate' { notify s (s.users.filter sel) c with
      users := dropIds (fun i => decide (i ∈ (s.users.filter sel).map (·.1))) s.users
      sessions := closeSess (fun i => decide (i ∈ (s.users.filter sel).map (·.1))) s.now s.sessions }
      (((s.users.filter sel).map (fun p => -p.2)).sum) false ?_ (by exact hck)
    · exact ⟨this.2, this.1⟩
    · constructor
      · intro p hp
        exact hC.alive p (List.mem_filter.mp hp).1
      · exact hC.uid
      · exact hC.ckid
      · intro k hk
        simp only [notify] at hk ⊢
        rcases List.mem_append.mp hk with hk | hk
        · exact hC.intLt k hk
        · simp at hk
      · intro i c' hu
        simp only [notify] at hu ⊢
        rcases List.mem_append.mp hu with hu | hu
        · obtain ⟨a1, a2⟩ := hC.note i c' hu
          refine ⟨a1, ?_⟩
          rcases a2 with a2 | ⟨a2, a3⟩
          · left; exact a2
          · right
            exact ⟨fun hc => a2 ((List.filter_sublist.map _).subset hc), a3⟩
        · obtain ⟨p, hp, he⟩ := List.mem_map.mp hu
          cases he
          obtain ⟨h1, h2⟩ := hmem p hp
          obtain ⟨q, hq1, hq2, hq3⟩ := hC.alive p h1
          refine ⟨(hC.uid _ _ hq1).1, Or.inr ⟨?_, ?_⟩⟩
          · intro hcc
            obtain ⟨p', hp', he⟩ := List.mem_map.mp hcc
            have := (List.mem_filter.mp hp').2
            simp only [Bool.not_eq_eq_eq_not, Bool.not_true, decide_eq_false_iff_not] at this
            exact this (he ▸ List.mem_map.mpr ⟨p, hp, rfl⟩)
          · intro q' hq'
            rw [hq1] at hq'; cases hq'
            exact ⟨hq2, by rw [hq3]; exact hsel p h2⟩
      · exact hC.lo
      · exact hC.hi
  · apply CrashOK_none
    rw [addRateRes_crash]; exact hcr

theorem finish_inv {s : St} (hA : A l0 t0 s) (hcr : s.crash = none) (hC : C s) (hP : P s) (k : Nat)
    (hb : s.checking = some k → readLevel s = target s) : Inv l0 t0 (finishCheck s k) := by
  have hck := ckLt hC hP
  -- the state after catching up
  have hA0 : A l0 t0 { s with checks := s.checks.del k } := hA.congr rfl rfl rfl rfl rfl rfl rfl rfl rfl
  have hA1 := A_setLevel hA0
  have e1 := setLevel_eq { s with checks := s.checks.del k } hA.lastNow
  unfold finishCheck
  simp only
  generalize hs1 : setLevel { s with checks := s.checks.del k } = s1 at *
  have f1 : s1.level = readLevel s := by rw [e1]; rfl
  have f2 : s1.rate = s.rate := by rw [e1]
  have f3 : s1.last = s1.now := by rw [e1]
  have f4 : s1.now = s.now := by rw [e1]
  have f5 : s1.cap = s.cap := by rw [e1]
  have f6 : s1.users = s.users := by rw [e1]
  have f7 : s1.checking = s.checking := by rw [e1]
  have f8 : s1.uprocs = s.uprocs := by rw [e1]
  have f9 : s1.checks = s.checks.del k := by rw [e1]
  have f10 : s1.urgent = s.urgent := by rw [e1]
  have f11 : s1.nextId = s.nextId := by rw [e1]
  have f12 : s1.crash = none := by rw [e1]; exact hcr
  have fr : readLevel s1 = readLevel s := by unfold readLevel; rw [f3]; simp [f1]; rfl
  have hC1 : C s1 := by
    constructor
    · rw [f6, f8]; exact hC.alive
    · rw [f8, f11]; exact hC.uid
    · rw [f9, f11]
      intro k' v h
      rw [Dict.get?_del] at h
      split at h
      · cases h
      · exact hC.ckid k' v h
    · rw [f10, f11]; exact hC.intLt
    · rw [f10, f11, f6, f8]; exact hC.note
    · rw [fr]; exact hC.lo
    · rw [fr, f5]; exact hC.hi
  have hP1 : s.checking ≠ some k → P s1 := by
    intro hk
    constructor
    · rw [f7, f2]; exact hP.chk0
    · intro k' hk'
      rw [f7] at hk'
      have hne : k ≠ k' := fun he => hk (he ▸ hk')
      rw [f9, Dict.get?_del_ne _ hne, f10, f4, fr, f2]
      have ht : target s1 = target s := by unfold target; rw [f2, f5]
      rw [ht]
      exact hP.plan k' hk'
    · rw [f10, f7]; exact hP.int
  have hdone : s.checking ≠ some k → Inv l0 t0 s1 :=
    fun hk => ⟨hA1, fun _ => ⟨hC1, hP1 hk⟩, CrashOK_none f12⟩
  have hck1 : ∀ k, s1.checking = some k → k < s1.nextId := by rw [f7, f11]; exact hck
  have hall : ∀ sel : Nat × Rat → Bool,
      (s1.users.filter sel).all (fun p => s1.uprocs.has p.1) = true := by
    intro sel
    rw [List.all_eq_true]
    intro p hp
    obtain ⟨q, hq, _⟩ := hC1.alive p (List.mem_filter.mp hp).1
    unfold Dict.has; rw [hq]; rfl
  by_cases hneg : s1.rate < 0
  · simp only [hneg, ↓reduceIte]
    unfold checkEmpty
    by_cases hl : s1.level > 0
    · simp only [hl, ↓reduceIte]
      apply hdone
      intro hk
      have := hb hk
      unfold target at this
      rw [f2] at hneg
      rw [if_neg (by linarith), ← f1] at this
      linarith
    · have hl0 : s1.level = 0 := le_antisymm (not_lt.mp hl) (by rw [f1]; exact hC.lo)
      have hne : s1.users.filter (fun p => decide (p.2 < 0)) ≠ [] := by
        rw [hA1.rate] at hneg
        obtain ⟨x, hx, hx'⟩ := exists_neg hneg
        obtain ⟨p, hp, rfl⟩ := List.mem_map.mp hx
        intro he
        have : p ∈ s1.users.filter (fun p => decide (p.2 < 0)) := List.mem_filter.mpr ⟨hp, by simpa using hx'⟩
        rw [he] at this; simp at this
      have hd := drop_inv hA1 f12 hC1 hck1 (fun p => decide (p.2 < 0)) .empty
        (by intro p hp; simp at hp; unfold stopCause; rw [if_neg (by linarith)]) f3
        (Or.inl ⟨rfl, hl0⟩) hne
      simp only [hl, ↓reduceIte, hall]
      have g1 : (notify s1 (s1.users.filter (fun p => decide (p.2 < 0))) .empty).level = 0 := hl0
      by_cases he : s1.errEmpty = true
      · have g2 : (notify s1 (s1.users.filter (fun p => decide (p.2 < 0))) .empty).errEmpty = true := he
        rw [if_pos ⟨g1, g2⟩]
        refine ⟨hd.1.congr rfl rfl rfl rfl rfl rfl rfl rfl rfl, (fun h => by cases h), ?_⟩
        unfold CrashOK
        refine ⟨he, ?_⟩
        show readLevel s1 = 0
        rw [fr, ← f1, hl0]
      · have g2 : ¬ (notify s1 (s1.users.filter (fun p => decide (p.2 < 0))) .empty).errEmpty = true := he
        rw [if_neg (fun h => g2 h.2), if_neg (by rw [g1]; exact lt_irrefl _)]
        exact hd.2
  · simp only [hneg, ↓reduceIte]
    by_cases hpos : s1.rate > 0
    · simp only [hpos, ↓reduceIte]
      unfold checkFull
      by_cases hl : s1.level < s1.cap
      · simp only [hl, ↓reduceIte]
        apply hdone
        intro hk
        have := hb hk
        unfold target at this
        rw [f2] at hpos
        rw [if_pos hpos, ← f1] at this
        rw [f5] at hl
        linarith
      · have hl0 : s1.level = s1.cap := le_antisymm (by rw [f1, f5]; exact hC.hi) (not_lt.mp hl)
        have hne : s1.users.filter (fun p => decide (p.2 > 0)) ≠ [] := by
          rw [hA1.rate] at hpos
          obtain ⟨x, hx, hx'⟩ := exists_pos hpos
          obtain ⟨p, hp, rfl⟩ := List.mem_map.mp hx
          intro he
          have : p ∈ s1.users.filter (fun p => decide (p.2 > 0)) :=
            List.mem_filter.mpr ⟨hp, by simpa using hx'⟩
          rw [he] at this; simp at this
        have hd := drop_inv hA1 f12 hC1 hck1 (fun p => decide (p.2 > 0)) .full
          (by intro p hp; simp at hp; unfold stopCause; rw [if_pos hp]) f3
          (Or.inr ⟨rfl, hl0⟩) hne
        simp only [hl, ↓reduceIte, hall]
        have g1 : (notify s1 (s1.users.filter (fun p => decide (p.2 > 0))) .full).level =
          (notify s1 (s1.users.filter (fun p => decide (p.2 > 0))) .full).cap := hl0
        by_cases he : s1.errFull = true
        · have g2 : (notify s1 (s1.users.filter (fun p => decide (p.2 > 0))) .full).errFull = true := he
          rw [if_pos ⟨g1, g2⟩]
          refine ⟨hd.1.congr rfl rfl rfl rfl rfl rfl rfl rfl rfl, (fun h => by cases h), ?_⟩
          unfold CrashOK
          refine ⟨he, ?_⟩
          show readLevel s1 = s1.cap
          rw [fr, ← f1, hl0]
        · have g2 : ¬ (notify s1 (s1.users.filter (fun p => decide (p.2 > 0))) .full).errFull = true := he
          rw [if_neg (fun h => g2 h.2), if_neg (by rw [g1]; exact lt_irrefl _)]
          exact hd.2
    · simp only [hpos, ↓reduceIte]
      apply hdone
      intro hk
      have : s.rate = 0 := by
        rw [f2] at hneg hpos
        exact le_antisymm (not_lt.mp hpos) (not_lt.mp hneg)
      rw [hP.chk0.mpr this] at hk; cases hk

/-! ### Every move -/

theorem stopCause_ne_stop (r : Rat) : stopCause r ≠ .stop := by unfold stopCause; split <;> simp

theorem beginUser_inv {s : St} (hA : A l0 t0 s) (hcr : s.crash = none) (hC : C s) (hP : P s) (id : Nat) :
    Inv l0 t0 (beginUser s id) := by
  have hsame : Inv l0 t0 s := ⟨hA, fun _ => ⟨hC, hP⟩, CrashOK_none hcr⟩
  unfold beginUser
  split
  · exact hsame
  · rename_i p hp
    by_cases hst : p.started = true
    · simp only [hst, ↓reduceIte]; exact hsame
    · simp only [hst, Bool.false_eq_true, ↓reduceIte]
      have hid : id ∉ s.users.map (·.1) := by
        intro hm
        obtain ⟨u, hu, rfl⟩ := List.mem_map.mp hm
        obtain ⟨q, h1, h2, _⟩ := hC.alive u hu
        rw [hp] at h1; cases h1; exact hst h2
      have hrz := (hC.uid id p hp).2
      unfold addUser
      rw [addRate_eq _ _ _ (by exact hA.lastNow) (by exact hP.has)]
      have hA' := A_add hA id p.rate hrz true hid
      have hcr' : (addRateRes { s with
          users := s.users ++ [(id, p.rate)]
          sessions := s.sessions ++ [⟨id, p.rate, s.now, none⟩] } p.rate true).crash = none := by
        rw [addRateRes_crash]; exact hcr
      have hCmid : ∀ du, C { s with
          users := s.users ++ [(id, p.rate)]
          sessions := s.sessions ++ [⟨id, p.rate, s.now, none⟩]
          uprocs := s.uprocs.set id { p with
            started := true
            due := du } } := by
        intro du
        constructor
        · intro u hu
          simp only at hu ⊢
          rcases List.mem_append.mp hu with hu | hu
          · obtain ⟨q, h1, h2⟩ := hC.alive u hu
            refine ⟨q, ?_, h2⟩
            rw [Dict.get?_set_ne]; exact h1
            intro he; exact hid (he ▸ List.mem_map.mpr ⟨u, hu, rfl⟩)
          · simp at hu; subst hu
            exact ⟨_, Dict.get?_set_self _ _ _, rfl, rfl⟩
        · intro i q h
          simp only at h ⊢
          rw [Dict.get?_set] at h
          split at h
          · rename_i he; subst he; cases h
            exact ⟨(hC.uid _ p hp).1, hrz⟩
          · exact hC.uid i q h
        · exact hC.ckid
        · exact hC.intLt
        · intro i c hu
          obtain ⟨a1, a2⟩ := hC.note i c hu
          refine ⟨a1, ?_⟩
          rcases a2 with a2 | ⟨a2, a3⟩
          · left; exact a2
          · right
            have hne : id ≠ i := by
              intro he; subst he
              exact hst (a3 p hp).1
            refine ⟨?_, ?_⟩
            · simp only [List.map_append, List.map_cons, List.map_nil, List.mem_append,
                List.mem_singleton, not_or]
              exact ⟨a2, fun he => hne he.symm⟩
            · intro q h
              simp only at h
              rw [Dict.get?_set_ne _ _ hne] at h
              exact a3 q h
        · exact hC.lo
        · exact hC.hi
      have hups : (addRateRes { s with
          users := s.users ++ [(id, p.rate)]
          sessions := s.sessions ++ [⟨id, p.rate, s.now, none⟩] } p.rate true).uprocs = s.uprocs := by
        unfold addRateRes; simp only; split <;> rfl
      rw [if_neg (by simp [hcr'])]
      have hfin : ∀ du, Inv l0 t0 { addRateRes { s with
          users := s.users ++ [(id, p.rate)]
          sessions := s.sessions ++ [⟨id, p.rate, s.now, none⟩] } p.rate true with
          uprocs := s.uprocs.set id { p with
            started := true
            due := du } } := by
        intro du
        have hck := ckLt hC hP
        have := PC_addRate { s with
          users := s.users ++ [(id, p.rate)]
          sessions := s.sessions ++ [⟨id, p.rate, s.now, none⟩] } p.rate true
          (s.uprocs.set id { p with
            started := true
            due := du }) (hCmid du) (by exact hck)
        exact ⟨hA'.congr rfl rfl rfl rfl rfl rfl rfl rfl rfl, fun _ => ⟨this.2, this.1⟩,
          CrashOK_none hcr'⟩
      rw [hups]
      split
      · exact hfin none
      · split
        · exact ⟨hA'.congr rfl rfl rfl rfl rfl rfl rfl rfl rfl, (fun h => by cases h),
            by unfold CrashOK; trivial⟩
        · exact hfin _

theorem intUser_inv {s : St} (hA : A l0 t0 s) (hcr : s.crash = none) (hC : C s) (hP : P s) (id : Nat)
    (c : Cause) (hn : c = .stop ∨ id ∉ s.users.map (·.1) ∧
      ∀ q, s.uprocs.get? id = some q → q.started = true ∧ c = stopCause q.rate) :
    Inv l0 t0 (intUser s id c) := by
  unfold intUser
  split
  · exact ⟨hA, fun _ => ⟨hC, hP⟩, CrashOK_none hcr⟩
  · rename_i p hp
    simp only
    rcases hn with rfl | ⟨h1, h2⟩
    · rw [if_neg (Ne.symm (stopCause_ne_stop _))]
      simp only [↓reduceIte]
      refine removeUser_inv hA id p.rate _ hcr hC hP ?_ rfl
      intro r' hr'
      obtain ⟨q, h1, _, h3⟩ := hC.alive _ hr'
      simp only at h1 h3
      rw [hp] at h1; cases h1; exact h3.symm
    · rw [if_pos (h2 p hp).2]
      refine ⟨hA.congr rfl rfl rfl rfl rfl rfl rfl rfl rfl, fun _ => ⟨?_, ?_⟩, CrashOK_none hcr⟩
      · constructor
        · intro u hu
          obtain ⟨q, a1, a2⟩ := hC.alive u hu
          refine ⟨q, ?_, a2⟩
          simp only
          rw [Dict.get?_del_ne]; exact a1
          intro he; exact h1 (he ▸ List.mem_map.mpr ⟨u, hu, rfl⟩)
        · intro i q h
          simp only [Dict.get?_del] at h
          split at h
          · cases h
          · exact hC.uid i q h
        · exact hC.ckid
        · exact hC.intLt
        · intro i c hu
          obtain ⟨a1, a2⟩ := hC.note i c hu
          refine ⟨a1, ?_⟩
          rcases a2 with a2 | ⟨a2, a3⟩
          · left; exact a2
          · right
            refine ⟨a2, ?_⟩
            intro q h
            simp only [Dict.get?_del] at h
            split at h
            · cases h
            · exact a3 q h
        · exact hC.lo
        · exact hC.hi
      · exact ⟨hP.chk0, hP.plan, hP.int⟩

theorem beginCheck_inv {s : St} (hA : A l0 t0 s) (hcr : s.crash = none) (k : Nat) (q : List U)
    (hC : C s) (hP : P s) (hq : s.urgent = .initCheck k :: q) :
    Inv l0 t0 (beginCheck { s with urgent := q } k) := by
  have hC0 := C_pop hC hq
  have hA0 : A l0 t0 { s with urgent := q } := hA.congr rfl rfl rfl rfl rfl rfl rfl rfl rfl
  unfold beginCheck
  simp only
  by_cases h1 : s.checks.get? k = some none
  · simp only [h1, ne_eq, not_true_eq_false, ↓reduceIte]
    by_cases h2 : s.rate = 0
    · rw [if_pos h2]
      refine ⟨hA.congr rfl rfl rfl rfl rfl rfl rfl rfl rfl, fun _ => ⟨?_, ?_⟩, CrashOK_none hcr⟩
      · refine ⟨hC0.alive, hC0.uid, ?_, hC0.intLt, hC0.note, hC0.lo, hC0.hi⟩
        intro k' v h
        simp only [Dict.get?_del] at h
        split at h
        · cases h
        · exact hC.ckid k' v h
      · have hn := hP.chk0.mpr h2
        refine ⟨hP.chk0, ?_, ?_⟩
        · intro k' hk'; simp only at hk'; rw [hn] at hk'; cases hk'
        · intro k' _; simp only; rw [hn]; simp
    · rw [if_neg h2]
      have hrd : readLevel { s with urgent := q } = readLevel s := rfl
      have hlo := hC.lo
      have hhi := hC.hi
      have hw : ¬ ((if s.rate > 0 then s.cap else 0) - readLevel { s with urgent := q }) / s.rate < 0 := by
        rw [hrd, not_lt]
        split
        · rename_i hpos
          exact div_nonneg (by linarith) (le_of_lt hpos)
        · rename_i hpos
          have : s.rate ≤ 0 := not_lt.mp hpos
          exact div_nonneg_of_nonpos (by linarith) this
      rw [if_neg hw]
      refine ⟨hA.congr rfl rfl rfl rfl rfl rfl rfl rfl rfl, fun _ => ⟨?_, ?_⟩, CrashOK_none hcr⟩
      · refine ⟨hC0.alive, hC0.uid, ?_, hC0.intLt, hC0.note, hC0.lo, hC0.hi⟩
        intro k' v h
        simp only [Dict.get?_set] at h
        split at h
        · rename_i he; subst he; exact hC.ckid _ _ h1
        · exact hC.ckid k' v h
      · refine ⟨hP.chk0, ?_, ?_⟩
        · intro k' hk'
          simp only at hk' ⊢
          by_cases he : k = k'
          · subst he
            right
            refine ⟨_, Dict.get?_set_self _ _ _, ?_, ?_⟩
            · have := not_lt.mp hw
              show s.now ≤ s.now + _
              linarith
            · show readLevel s + s.rate * (_ - s.now) = target s
              unfold target
              rw [hrd]
              field_simp
              ring
          · rw [Dict.get?_set_ne _ _ he]
            rcases hP.plan k' hk' with ⟨a1, a2⟩ | a1
            · left
              refine ⟨a1, ?_⟩
              rw [hq] at a2
              rcases List.mem_cons.mp a2 with a2 | a2
              · cases a2; exact absurd rfl he
              · exact a2
            · right; exact a1
        · intro k' hk'
          exact hP.int k' (by rw [hq]; exact List.mem_cons_of_mem _ hk')
  · simp only [h1, ne_eq, not_false_eq_true, ↓reduceIte]
    refine ⟨hA0, fun _ => ⟨hC0, P_pop hP hq ?_⟩, CrashOK_none hcr⟩
    intro k' _ h3 h4
    cases h4; exact h1 h3

theorem step_inv {s : St} (h : Inv l0 t0 s) (op : Op) : Inv l0 t0 (step s op) := by
  unfold step
  by_cases hcr : s.crash = none
  swap
  · simp only [ne_eq, hcr, not_false_eq_true, ↓reduceIte]; exact h
  simp only [ne_eq, hcr, not_true_eq_false, ↓reduceIte]
  obtain ⟨hA, hB, hok⟩ := h
  obtain ⟨hC, hP⟩ := hB hcr
  have hsame : Inv l0 t0 s := ⟨hA, hB, hok⟩
  cases op with
  | newUser r rt =>
    simp only [doNew]
    by_cases hr : r = 0
    · simp only [hr, ↓reduceIte]; exact hsame
    · simp only [hr, ↓reduceIte]
      refine ⟨hA.congr rfl rfl rfl rfl rfl rfl rfl rfl rfl, fun _ => ⟨?_, ?_⟩, CrashOK_none hcr⟩
      · constructor
        · intro u hu
          obtain ⟨q, a1, a2⟩ := hC.alive u hu
          refine ⟨q, ?_, a2⟩
          simp only
          rw [Dict.get?_set_ne]; exact a1
          have := (hC.uid _ _ a1).1; omega
        · intro i q hi
          simp only [Dict.get?_set] at hi ⊢
          split at hi
          · cases hi; exact ⟨by omega, hr⟩
          · have := hC.uid i q hi
            exact ⟨by omega, this.2⟩
        · intro k v hk
          have := hC.ckid k v hk
          simp only; omega
        · intro k hk
          simp only [List.mem_append, List.mem_singleton, reduceCtorEq, or_false] at hk ⊢
          have := hC.intLt k hk; omega
        · intro i c hu
          simp only [List.mem_append, List.mem_singleton, reduceCtorEq, or_false] at hu ⊢
          obtain ⟨a1, a2⟩ := hC.note i c hu
          refine ⟨by omega, ?_⟩
          rw [Dict.get?_set_ne _ _ (by omega)]; exact a2
        · exact hC.lo
        · exact hC.hi
      · refine ⟨hP.chk0, ?_, ?_⟩
        · intro k hk
          rcases hP.plan k hk with ⟨a1, a2⟩ | a1
          · left; exact ⟨a1, List.mem_append_left _ a2⟩
          · right; exact a1
        · intro k hk
          simp only [List.mem_append, List.mem_singleton, reduceCtorEq, or_false] at hk
          exact hP.int k hk
  | cancel id =>
    simp only [doCancel]
    by_cases hh : s.uprocs.has id = true
    · simp only [hh, ↓reduceIte]
      obtain ⟨q, hq⟩ : ∃ q, s.uprocs.get? id = some q := by
        unfold Dict.has at hh; exact Option.isSome_iff_exists.mp hh
      refine ⟨hA.congr rfl rfl rfl rfl rfl rfl rfl rfl rfl, fun _ => ⟨?_, ?_⟩, CrashOK_none hcr⟩
      · refine ⟨hC.alive, hC.uid, hC.ckid, ?_, ?_, hC.lo, hC.hi⟩
        · intro k hk
          simp only [List.mem_append, List.mem_singleton, reduceCtorEq, or_false] at hk ⊢
          exact hC.intLt k hk
        · intro i c hu
          rcases List.mem_append.mp hu with hu | hu
          · exact hC.note i c hu
          · simp at hu
            obtain ⟨rfl, rfl⟩ := hu
            exact ⟨(hC.uid _ _ hq).1, Or.inl rfl⟩
      · refine ⟨hP.chk0, ?_, ?_⟩
        · intro k hk
          rcases hP.plan k hk with ⟨a1, a2⟩ | a1
          · left; exact ⟨a1, List.mem_append_left _ a2⟩
          · right; exact a1
        · intro k hk
          simp only [List.mem_append, List.mem_singleton, reduceCtorEq, or_false] at hk
          exact hP.int k hk
    · simp only [hh, Bool.false_eq_true, ↓reduceIte]; exact hsame
  | urgent =>
    simp only [doUrgent]
    split
    · exact hsame
    · rename_i u q hq
      have hA0 : A l0 t0 { s with urgent := q } := hA.congr rfl rfl rfl rfl rfl rfl rfl rfl rfl
      have hC0 := C_pop hC hq
      have hP0 : (∀ k, u ≠ .initCheck k) → P { s with urgent := q } :=
        fun hu => P_pop hP hq (fun k _ _ => hu k)
      cases u with
      | initUser id => exact beginUser_inv hA0 hcr hC0 (hP0 (by simp)) id
      | intUser id c =>
        exact intUser_inv hA0 hcr hC0 (hP0 (by simp)) id c (hC.note id c (by rw [hq]; simp)).2
      | initCheck k => exact beginCheck_inv hA hcr k q hC hP hq
      | intCheck k =>
        simp only
        split
        · refine finish_inv hA0 hcr hC0 (hP0 (by simp)) k ?_
          intro hk
          exact absurd hk (hP.int k (by rw [hq]; simp))
        · exact ⟨hA0, fun _ => ⟨hC0, hP0 (by simp)⟩, CrashOK_none hcr⟩
  | fireUser id =>
    simp only [doFireUser]
    split
    · exact hsame
    · rename_i p hp
      split
      · refine removeUser_inv hA id p.rate _ hcr hC hP ?_ rfl
        intro r' hr'
        obtain ⟨q, h1, _, h3⟩ := hC.alive _ hr'
        simp only at h1 h3
        rw [hp] at h1; cases h1; exact h3.symm
      · exact hsame
  | fireCheck k =>
    simp only [doFireCheck]
    split
    · rename_i hf
      refine finish_inv hA hcr hC hP k ?_
      intro hk
      rcases hP.plan k hk with ⟨a1, _⟩ | ⟨d, a1, _, a3⟩
      · rw [hf.2] at a1; cases a1
      · rw [hf.2] at a1; cases a1
        simpa using a3
    · exact hsame
  | advance t =>
    simp only [doAdvance]
    split
    · rename_i hcan
      unfold canAdvance at hcan
      simp only [Bool.and_eq_true, decide_eq_true_eq, List.isEmpty_iff, List.all_eq_true] at hcan
      obtain ⟨⟨⟨h1, h2⟩, h3⟩, h4⟩ := hcan
      have hA' : A l0 t0 { s with now := t } := by
        obtain ⟨a1, a2, a3, a4, a5, a6, a7, a8, a9, a10, a11, a12⟩ := hA
        exact ⟨le_trans a1 (le_of_lt h1), a2, a3, a4, a5, a6, a7, a8, a9, a10, a11, a12⟩
      have hrd : readLevel { s with now := t } = readLevel s + s.rate * (t - s.now) := by
        unfold readLevel; ring
      -- the level stays in bounds up to the wake-up of the checker
      have hplan : ∀ k, s.checking = some k → ∃ d, s.checks.get? k = some (some d) ∧ t ≤ d ∧
          readLevel s + s.rate * (d - s.now) = target s := by
        intro k hk
        rcases hP.plan k hk with ⟨_, a2⟩ | ⟨d, a1, _, a3⟩
        · rw [h2] at a2; simp at a2
        · exact ⟨d, a1, by simpa using h4 _ (Dict.mem_of_get? a1), a3⟩
      have hb : 0 ≤ readLevel { s with now := t } ∧ readLevel { s with now := t } ≤ s.cap := by
        rw [hrd]
        have hlo := hC.lo
        have hhi := hC.hi
        cases hc : s.checking with
        | none =>
          rw [hP.chk0.mp hc]; constructor <;> linarith
        | some k =>
          obtain ⟨d, _, b2, b3⟩ := hplan k hc
          unfold target at b3
          split at b3
          · rename_i hpos
            have e1 : s.rate * (t - s.now) ≤ s.rate * (d - s.now) :=
              mul_le_mul_of_nonneg_left (by linarith) (le_of_lt hpos)
            have e2 : 0 ≤ s.rate * (t - s.now) := mul_nonneg (le_of_lt hpos) (by linarith)
            constructor <;> linarith
          · rename_i hpos
            have hn : s.rate ≤ 0 := not_lt.mp hpos
            have e1 : s.rate * (d - s.now) ≤ s.rate * (t - s.now) :=
              mul_le_mul_of_nonpos_left (by linarith) hn
            have e2 : s.rate * (t - s.now) ≤ 0 := mul_nonpos_of_nonpos_of_nonneg hn (by linarith)
            constructor <;> linarith
      refine ⟨hA', fun _ => ⟨⟨hC.alive, hC.uid, hC.ckid, hC.intLt, hC.note, hb.1, hb.2⟩, ?_⟩,
        CrashOK_none hcr⟩
      refine ⟨hP.chk0, ?_, hP.int⟩
      intro k hk
      right
      obtain ⟨d, b1, b2, b3⟩ := hplan k hk
      refine ⟨d, b1, b2, ?_⟩
      rw [hrd]
      show _ = target s
      rw [← b3]
      simp only; ring
    · exact hsame

theorem init_inv (cap lvl : Rat) (ee ef : Bool) (t0 : Rat) (h0 : 0 ≤ lvl) (h1 : lvl ≤ cap) :
    Inv lvl t0 (init cap lvl ee ef t0) := by
  refine ⟨?_, fun _ => ⟨?_, ?_⟩, CrashOK_none rfl⟩
  · constructor <;> simp [init, truth, openUsers]
  · constructor <;> simp [init, readLevel, h0, h1]
  · constructor <;> simp [init]

theorem run_inv {s : St} (h : Inv l0 t0 s) (ops : List Op) : Inv l0 t0 (run s ops) := by
  induction ops generalizing s with
  | nil => exact h
  | cons op ops ih => exact ih (step_inv h op)

end Verif.Cont
