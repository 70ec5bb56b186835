import Verif.Stepped.Spec

/-! # Invariant of the stepped motion manager -/

namespace Verif.Stepped

theorem said_append (l k : List Told) (s a : Obj) : said (l ++ k) s a = said l s a ++ said k s a := by simp [said]

theorem said_one (n : Told) (s a : Obj) : said [n] s a = if n.sensor = s ∧ n.object = a then [n.entered] else [] := by
  by_cases h : n.sensor = s ∧ n.object = a <;> simp [said, h]

theorem alternates_snoc {b x : Bool} : ∀ {l : List Bool}, Alternates b l → (l = [] → x = b) → (∀ y, l.getLast? = some y → x = !y) →
    Alternates b (l ++ [x])
  | [], _, h1, _ => ⟨h1 rfl, trivial⟩
  | y :: l, h, _, h2 => by
    refine ⟨h.1, ?_⟩
    refine alternates_snoc h.2 (fun hl => ?_) (fun z hz => ?_)
    · subst hl
      have := h2 y rfl
      rw [this, h.1]
    · refine h2 z ?_
      cases l with
      | nil => cases hz
      | cons w l => simpa using hz

/-- Between operations. -/
structure InvA (σ : St) : Prop where
  nodup : σ.view.Nodup
  aware : ∀ s a, (s, a) ∈ σ.view ↔ Aware σ.log s a
  alt : ∀ s a, Alternates true (said σ.log s a)
  other : ∀ n ∈ σ.log, n.sensor ≠ n.object

/-- Between operations, if no sensor hides objects. -/
structure Inv (σ : St) : Prop extends InvA σ where
  det : ∀ s a, (s, a) ∈ σ.view → σ.det a = true

/-- No sensor hides objects. -/
def Quiet (L : Look) : Prop := ∀ s a, L.hides s a = []

/-- What an operation does not touch. -/
structure Same (σ τ : St) : Prop where
  now : τ.now = σ.now
  sensors : τ.sensors = σ.sensors
  detectables : τ.detectables = σ.detectables
  isRunning : τ.isRunning = σ.isRunning
  pending : τ.pending = σ.pending
  loops : τ.loops = σ.loops
  checks : τ.checks = σ.checks

theorem Same.rfl' (σ : St) : Same σ σ := ⟨rfl, rfl, rfl, rfl, rfl, rfl, rfl⟩

theorem Same.trans {σ τ υ : St} (h : Same σ τ) (k : Same τ υ) : Same σ υ :=
  ⟨k.1.trans h.1, k.2.trans h.2, k.3.trans h.3, k.4.trans h.4, k.5.trans h.5, k.6.trans h.6, k.7.trans h.7⟩

/-- Telling a sensor the opposite of what it knows. -/
theorem tell {σ : St} (h : InvA σ) {s a : Obj} {v : Bool} (hv : (s, a) ∈ σ.view ↔ v = false) :
    (∀ s' a', Alternates true (said (σ.log ++ [⟨s, a, v⟩]) s' a')) ∧
      ∀ s' a', Aware (σ.log ++ [⟨s, a, v⟩]) s' a' ↔ if s' = s ∧ a' = a then v = true else (s', a') ∈ σ.view := by
  have hne : ∀ s' a', ¬(s' = s ∧ a' = a) → said (σ.log ++ [⟨s, a, v⟩]) s' a' = said σ.log s' a' := by
    intro s' a' hh
    rw [said_append, said_one, if_neg (fun hc => hh ⟨hc.1.symm, hc.2.symm⟩), List.append_nil]
  have he : said (σ.log ++ [⟨s, a, v⟩]) s a = said σ.log s a ++ [v] := by
    rw [said_append, said_one, if_pos ⟨rfl, rfl⟩]
  refine ⟨fun s' a' => ?_, fun s' a' => ?_⟩
  · by_cases hh : s' = s ∧ a' = a
    · obtain ⟨rfl, rfl⟩ := hh
      rw [he]
      refine alternates_snoc (h.alt _ _) (fun hl => ?_) (fun y hy => ?_)
      · cases v with
        | true => rfl
        | false =>
          have := (h.aware _ _).1 (hv.2 rfl)
          rw [Aware, hl] at this; cases this
      · cases y with
        | true =>
          have := hv.1 ((h.aware _ _).2 hy)
          rw [this]; rfl
        | false =>
          cases v with
          | true => rfl
          | false =>
            have := (h.aware _ _).1 (hv.2 rfl)
            rw [Aware, hy] at this; cases this
    · rw [hne _ _ hh]; exact h.alt _ _
  · by_cases hh : s' = s ∧ a' = a
    · obtain ⟨rfl, rfl⟩ := hh
      rw [if_pos ⟨rfl, rfl⟩, Aware, he]
      simp
    · rw [if_neg hh, Aware, hne _ _ hh]; exact (h.aware _ _).symm

theorem said_hidden {σ : St} (h : InvA σ) (a s b : Obj) :
    said ((σ.view.filter (fun p => p.2 = a)).map fun p => (⟨p.1, a, false⟩ : Told)) s b = if b = a ∧ (s, a) ∈ σ.view then [false] else [] := by
  have hx : ∀ l : List (Obj × Obj), l.Nodup →
      said ((l.filter (fun p => p.2 = a)).map fun p => (⟨p.1, a, false⟩ : Told)) s b = if b = a ∧ (s, a) ∈ l then [false] else [] := by
    intro l hl
    induction l with
    | nil => simp [said]
    | cons p l ih =>
      have ih := ih (List.nodup_cons.1 hl).2
      by_cases hp : p.2 = a
      · rw [List.filter_cons_of_pos (by simpa using hp), List.map_cons, ← List.singleton_append, said_append, said_one, ih]
        by_cases hs : p.1 = s
        · have hpe : p = (s, a) := by rw [← hs, ← hp]
          have hnm : (s, a) ∉ l := by rw [← hpe]; exact (List.nodup_cons.1 hl).1
          by_cases hb : b = a
          · simp [hs, hb, hnm, hpe]
          · have hb' : ¬ a = b := fun hc => hb hc.symm
            simp [hb, hb']
        · have : (s, a) ≠ p := fun hc => hs (by rw [← hc])
          simp [hs, this]
      · rw [List.filter_cons_of_neg (by simpa using hp), ih]
        have : (s, a) ≠ p := fun hc => hp (by rw [← hc])
        simp [this]
  exact hx _ h.nodup


theorem said_hide {σ : St} (h : InvA σ) (a s b : Obj) :
    said (hide σ a).log s b = said σ.log s b ++ if b = a ∧ (s, a) ∈ σ.view then [false] else [] := by
  show said (σ.log ++ _) s b = _
  rw [said_append]
  exact congrArg _ (said_hidden h a s b)

theorem hide_aware {σ : St} (h : InvA σ) (a s b : Obj) : Aware (hide σ a).log s b ↔ (s, b) ∈ σ.view ∧ b ≠ a := by
  rw [Aware, said_hide h]
  by_cases hc : b = a ∧ (s, a) ∈ σ.view
  · rw [if_pos hc]; simp [hc.1]
  · rw [if_neg hc, List.append_nil, ← Aware, ← h.aware]
    refine ⟨fun hv => ⟨hv, fun hb => hc ⟨hb, by rw [← hb]; exact hv⟩⟩, fun hv => hv.1⟩

theorem hide_invA {σ : St} (h : InvA σ) (a : Obj) : InvA (hide σ a) := by
  refine ⟨h.nodup.filter _, fun s b => ?_, fun s b => ?_, fun n hn => ?_⟩
  · refine Iff.trans ?_ (hide_aware h a s b).symm
    simp [hide, moverNotDetectable]
  · rw [said_hide h]
    by_cases hc : b = a ∧ (s, a) ∈ σ.view
    · rw [if_pos hc]
      have hl : (said σ.log s b).getLast? = some true := (h.aware s b).1 (by rw [hc.1]; exact hc.2)
      refine alternates_snoc (h.alt _ _) (fun hn => ?_) (fun y hy => ?_)
      · rw [hn] at hl; cases hl
      · rw [hl] at hy; cases hy; rfl
    · rw [if_neg hc, List.append_nil]; exact h.alt _ _
  · rcases List.mem_append.1 (show n ∈ σ.log ++ _ from hn) with hn | hn
    · exact h.other n hn
    · simp only [List.mem_map, List.mem_filter, decide_eq_true_eq] at hn
      obtain ⟨p, ⟨hp1, hp2⟩, rfl⟩ := hn
      have hv : (p.1, a) ∈ σ.view := by rw [← hp2]; exact hp1
      have hl := (h.aware _ _).1 hv
      intro hc
      simp only at hc
      have hne : said σ.log p.1 a ≠ [] := by intro hnil; rw [Aware, hnil] at hl; cases hl
      obtain ⟨x, xs, hx⟩ := List.exists_cons_of_ne_nil hne
      have hxm : x ∈ said σ.log p.1 a := by rw [hx]; exact List.mem_cons_self ..
      simp only [said, List.mem_map, List.mem_filter, decide_eq_true_eq] at hxm
      obtain ⟨m, ⟨hm1, hm2, hm3⟩, -⟩ := hxm
      exact h.other m hm1 (by rw [hm2, hm3, hc])

theorem hide_inv {σ : St} (h : Inv σ) (a : Obj) : Inv (hide σ a) := by
  refine ⟨hide_invA h.toInvA a, fun s b hp => ?_⟩
  have := List.mem_filter.1 hp
  have hne : b ≠ a := by simpa using this.2
  show (if b = a then false else σ.det b) = true
  rw [if_neg hne]
  exact h.det s b this.1

theorem hide_same (σ : St) (a : Obj) : Same σ (hide σ a) := ⟨rfl, rfl, rfl, rfl, rfl, rfl, rfl⟩

theorem hideAll (l : List Obj) (σ : St) (h : InvA σ) : InvA (l.foldl hide σ) ∧ Same σ (l.foldl hide σ) := by
  induction l generalizing σ with
  | nil => exact ⟨h, Same.rfl' _⟩
  | cons a l ih => exact ⟨(ih _ (hide_invA h a)).1, (hide_same σ a).trans (ih _ (hide_invA h a)).2⟩

/-! ### With any sensors -/

theorem updateAwareness_invA (L : Look) {σ : St} (h : InvA σ) {s a : Obj} (hsa : a ≠ s) (v : Bool) :
    InvA (updateAwareness L σ s a v) ∧ Same σ (updateAwareness L σ s a v) := by
  have hoth : ∀ v, ∀ n ∈ σ.log ++ [(⟨s, a, v⟩ : Told)], n.sensor ≠ n.object := by
    intro v n hn
    rcases List.mem_append.1 hn with hn | hn
    · exact h.other n hn
    · simp only [List.mem_singleton] at hn; subst hn; exact fun hc => hsa hc.symm
  unfold updateAwareness
  cases v with
  | true =>
    simp only [if_true]
    by_cases hm : (s, a) ∈ σ.view
    · rw [if_pos hm]; exact ⟨h, Same.rfl' _⟩
    · rw [if_neg hm]
      obtain ⟨h1, h2⟩ := tell h (s := s) (a := a) (v := true) (by simp [hm])
      have hmid : InvA { σ with view := σ.view ++ [(s, a)], log := σ.log ++ [⟨s, a, true⟩] } := by
        refine ⟨List.Nodup.append h.nodup (by simp) (by simpa using hm), fun s' a' => ?_, h1, hoth true⟩
        refine Iff.trans ?_ (h2 s' a').symm
        by_cases hh : s' = s ∧ a' = a
        · rw [if_pos hh, hh.1, hh.2]; simp
        · rw [if_neg hh]
          simp only [List.mem_append, List.mem_singleton, Prod.mk.injEq]
          exact ⟨fun hc => hc.resolve_right hh, .inl⟩
      have := hideAll (L.hides s a) _ hmid
      have h0 : Same σ { σ with view := σ.view ++ [(s, a)], log := σ.log ++ [⟨s, a, true⟩] } := ⟨rfl, rfl, rfl, rfl, rfl, rfl, rfl⟩
      exact ⟨this.1, h0.trans this.2⟩
  | false =>
    simp only [Bool.false_eq_true, if_false]
    by_cases hm : (s, a) ∈ σ.view
    · rw [if_pos hm]
      obtain ⟨h1, h2⟩ := tell h (s := s) (a := a) (v := false) (by simp [hm])
      refine ⟨⟨h.nodup.filter _, fun s' a' => ?_, h1, hoth false⟩, ⟨rfl, rfl, rfl, rfl, rfl, rfl, rfl⟩⟩
      refine Iff.trans ?_ (h2 s' a').symm
      by_cases hh : s' = s ∧ a' = a
      · rw [if_pos hh, hh.1, hh.2]; simp
      · rw [if_neg hh]
        simp only [List.mem_filter, decide_eq_true_eq, ne_eq, Prod.mk.injEq, decide_not, Bool.not_eq_eq_eq_not, Bool.not_true, decide_eq_false_iff_not]
        exact ⟨fun hc => hc.1, fun hc => ⟨hc, hh⟩⟩
    · rw [if_neg hm]; exact ⟨h, Same.rfl' _⟩

theorem checkObjects_invA (L : Look) (s : Obj) (as : List Obj) (σ : St) (h : InvA σ) :
    InvA (checkObjects L s as σ).1 ∧ Same σ (checkObjects L s as σ).1 ∧ (checkObjects L s as σ).2 ≠ .refused := by
  induction as generalizing σ with
  | nil => exact ⟨h, Same.rfl' _, by simp [checkObjects]⟩
  | cons a as ih =>
    by_cases ha : a = s
    · simp only [checkObjects, if_pos ha]; exact ih σ h
    · simp only [checkObjects, if_neg ha]
      cases L.sees s a with
      | none => exact ⟨h, Same.rfl' _, by simp⟩
      | some v =>
        obtain ⟨h1, h2⟩ := updateAwareness_invA L h ha v
        obtain ⟨k1, k2, k3⟩ := ih _ h1
        exact ⟨k1, h2.trans k2, k3⟩

theorem checkSensors_invA (L : Look) (as ss : List Obj) (σ : St) (h : InvA σ) :
    InvA (checkSensors L as ss σ).1 ∧ Same σ (checkSensors L as ss σ).1 ∧ (checkSensors L as ss σ).2 ≠ .refused := by
  induction ss generalizing σ with
  | nil => exact ⟨h, Same.rfl' _, by simp [checkSensors]⟩
  | cons s ss ih =>
    obtain ⟨h1, h2, h3⟩ := checkObjects_invA L s as σ h
    simp only [checkSensors]
    rcases hc : checkObjects L s as σ with ⟨τ, o⟩
    rw [hc] at h1 h2 h3
    cases o with
    | ok =>
      obtain ⟨k1, k2, k3⟩ := ih τ h1
      exact ⟨k1, h2.trans k2, k3⟩
    | error => exact ⟨h1, h2, by simp⟩
    | refused => exact absurd rfl h3

theorem runDetectable_invA (L : Look) (req : Option (List Obj)) (σ : St) (h : InvA σ) :
    InvA (runDetectable L req σ).1 ∧ Same σ (runDetectable L req σ).1 ∧ (runDetectable L req σ).2 ≠ .refused := by
  unfold runDetectable
  simp only
  split
  · exact checkSensors_invA L _ σ.sensors σ h
  · exact ⟨h, Same.rfl' _, by simp⟩

/-! ### With sensors that do not hide objects -/

theorem updateAwareness_inv (L : Look) (hq : Quiet L) {σ : St} (h : Inv σ) {s a : Obj} (hsa : a ≠ s) (hd : σ.det a = true) (v : Bool) :
    (updateAwareness L σ s a v).det = σ.det ∧ Inv (updateAwareness L σ s a v) ∧
      (∀ s' a', (s', a') ∈ (updateAwareness L σ s a v).view ↔ if s' = s ∧ a' = a then v = true else (s', a') ∈ σ.view) := by
  have hdet : (updateAwareness L σ s a v).det = σ.det := by
    unfold updateAwareness
    rw [hq]
    split <;> split <;> rfl
  have hview : ∀ s' a', (s', a') ∈ (updateAwareness L σ s a v).view ↔ if s' = s ∧ a' = a then v = true else (s', a') ∈ σ.view := by
    intro s' a'
    unfold updateAwareness
    rw [hq]
    by_cases hh : s' = s ∧ a' = a
    · rw [if_pos hh, hh.1, hh.2]
      cases v <;> by_cases hm : (s, a) ∈ σ.view <;> simp [hm]
    · rw [if_neg hh]
      have hne : (s', a') ≠ (s, a) := fun hc => hh (by simpa using hc)
      cases v <;> by_cases hm : (s, a) ∈ σ.view <;> simp [hm, hne]
  refine ⟨hdet, ⟨(updateAwareness_invA L h.toInvA hsa v).1, fun s' a' hp => ?_⟩, hview⟩
  rw [hdet]
  have := (hview s' a').1 hp
  split at this
  · rename_i hh; rw [hh.2]; exact hd
  · exact h.det s' a' this

/-- New notifications are true: the sensor was asked, and answered so. -/
def Truthful (L : Look) (det : Obj → Bool) (new : List Told) : Prop :=
  ∀ n ∈ new, det n.object = true ∧ L.sees n.sensor n.object = some n.entered

theorem updateAwareness_log (L : Look) (hq : Quiet L) (σ : St) (s a : Obj) (v : Bool) : ∃ new, (updateAwareness L σ s a v).log = σ.log ++ new ∧ ∀ n ∈ new, n = ⟨s, a, v⟩ := by
  unfold updateAwareness
  rw [hq]
  cases v <;> simp only [if_true, Bool.false_eq_true, if_false] <;> split
  · exact ⟨_, rfl, by simp⟩
  · exact ⟨[], by simp, by simp⟩
  · exact ⟨[], by simp, by simp⟩
  · exact ⟨_, rfl, by simp⟩

theorem checkObjects_inv (L : Look) (hq : Quiet L) (s : Obj) (as : List Obj) (σ : St) (h : Inv σ) (hd : ∀ a ∈ as, σ.det a = true) :
    Inv (checkObjects L s as σ).1 ∧ (checkObjects L s as σ).1.det = σ.det ∧
      (∃ new, (checkObjects L s as σ).1.log = σ.log ++ new ∧ Truthful L σ.det new) ∧
      (∀ s' a', s' ≠ s ∨ a' ∉ as → ((s', a') ∈ (checkObjects L s as σ).1.view ↔ (s', a') ∈ σ.view)) ∧
      ((checkObjects L s as σ).2 = .ok → ∀ a ∈ as, a ≠ s → ((s, a) ∈ (checkObjects L s as σ).1.view ↔ L.sees s a = some true)) ∧
      (checkObjects L s as σ).2 ≠ .refused := by
  induction as generalizing σ with
  | nil => exact ⟨h, rfl, ⟨[], by simp [checkObjects], by simp [Truthful]⟩, fun _ _ _ => Iff.rfl, by simp, by simp [checkObjects]⟩
  | cons a as ih =>
    have hd' : ∀ a ∈ as, σ.det a = true := fun a ha => hd a (List.mem_cons_of_mem _ ha)
    by_cases ha : a = s
    · simp only [checkObjects, if_pos ha]
      obtain ⟨h1, h2, h3, h4, h5, h6⟩ := ih σ h hd'
      refine ⟨h1, h2, h3, fun s' a' hh => h4 s' a' (hh.imp id fun hn hc => hn (List.mem_cons_of_mem _ hc)), fun ho b hb hbs => ?_, h6⟩
      rcases List.mem_cons.1 hb with rfl | hb
      · exact absurd ha hbs
      · exact h5 ho b hb hbs
    · simp only [checkObjects, if_neg ha]
      cases hl : L.sees s a with
      | none => exact ⟨h, rfl, ⟨[], by simp, by simp [Truthful]⟩, fun _ _ _ => Iff.rfl, fun ho => (by cases ho), by simp⟩
      | some v =>
        simp only
        obtain ⟨i0, i1, i2⟩ := updateAwareness_inv L hq h ha (hd a (List.mem_cons_self ..)) v
        obtain ⟨new, hn1, hn2⟩ := updateAwareness_log L hq σ s a v
        obtain ⟨h1, h2, ⟨new', h3, h3'⟩, h4, h5, h6⟩ := ih (updateAwareness L σ s a v) i1 (by rw [i0]; exact hd')
        refine ⟨h1, h2.trans i0, ⟨new ++ new', by rw [h3, hn1, List.append_assoc], fun n hn => ?_⟩, fun s' a' hh => ?_, fun ho b hb hbs => ?_, h6⟩
        · rcases List.mem_append.1 hn with hn | hn
          · rw [hn2 n hn]; exact ⟨hd a (List.mem_cons_self ..), hl⟩
          · have := h3' n hn; rwa [i0] at this
        · rw [h4 s' a' (hh.imp id fun hn hc => hn (List.mem_cons_of_mem _ hc)), i2, if_neg]
          rintro ⟨rfl, rfl⟩
          exact hh.elim (fun hc => hc rfl) (fun hc => hc (List.mem_cons_self ..))
        · by_cases hmem : b ∈ as
          · exact h5 ho b hmem hbs
          · have hba : b = a := (List.mem_cons.1 hb).resolve_right hmem
            subst hba
            rw [h4 s b (.inr hmem), i2, if_pos ⟨rfl, rfl⟩, hl, Option.some.injEq]

theorem checkSensors_inv (L : Look) (hq : Quiet L) (as : List Obj) (ss : List Obj) (σ : St) (h : Inv σ) (hd : ∀ a ∈ as, σ.det a = true) :
    Inv (checkSensors L as ss σ).1 ∧ (checkSensors L as ss σ).1.det = σ.det ∧
      (∃ new, (checkSensors L as ss σ).1.log = σ.log ++ new ∧ Truthful L σ.det new) ∧
      (∀ s' a', s' ∉ ss ∨ a' ∉ as → ((s', a') ∈ (checkSensors L as ss σ).1.view ↔ (s', a') ∈ σ.view)) ∧
      ((checkSensors L as ss σ).2 = .ok → ∀ s ∈ ss, ∀ a ∈ as, a ≠ s → ((s, a) ∈ (checkSensors L as ss σ).1.view ↔ L.sees s a = some true)) ∧
      (checkSensors L as ss σ).2 ≠ .refused := by
  induction ss generalizing σ with
  | nil => exact ⟨h, rfl, ⟨[], by simp [checkSensors], by simp [Truthful]⟩, fun _ _ _ => Iff.rfl, by simp, by simp [checkSensors]⟩
  | cons s ss ih =>
    obtain ⟨h1, h2, ⟨new, h3, h3'⟩, h4, h5, h6⟩ := checkObjects_inv L hq s as σ h hd
    simp only [checkSensors]
    rcases hc : checkObjects L s as σ with ⟨τ, o⟩
    rw [hc] at h1 h2 h3 h4 h5 h6
    simp only at h1 h2 h3 h4 h5 h6
    cases o with
    | ok =>
      simp only
      obtain ⟨k1, k2, ⟨new', k3, k3'⟩, k4, k5, k6⟩ := ih τ h1 (by rw [h2]; exact hd)
      refine ⟨k1, k2.trans h2, ⟨new ++ new', by rw [k3, h3, List.append_assoc], fun n hn => ?_⟩, fun s' a' hh => ?_, fun ho s' hs' a ha has => ?_, k6⟩
      · rcases List.mem_append.1 hn with hn | hn
        · exact h3' n hn
        · have := k3' n hn; rwa [h2] at this
      · rw [k4 s' a' (hh.imp (fun hn hc => hn (List.mem_cons_of_mem _ hc)) id),
          h4 s' a' (hh.imp (fun hn hc => hn (by rw [hc]; exact List.mem_cons_self ..)) id)]
      · by_cases hmem : s' ∈ ss
        · exact k5 ho s' hmem a ha has
        · have : s' = s := (List.mem_cons.1 hs').resolve_right hmem
          subst this
          rw [k4 s' a (.inl hmem)]
          exact h5 rfl a ha has
    | error =>
      simp only
      exact ⟨h1, h2, ⟨new, h3, h3'⟩, fun s' a' hh => h4 s' a' (hh.imp (fun hn hc => hn (by rw [hc]; exact List.mem_cons_self ..)) id),
        fun ho => (by cases ho), by simp⟩
    | refused => exact absurd rfl h6

/-- The objects `_run_detectable` looks at. -/
def targets (σ : St) (req : Option (List Obj)) : List Obj := (req.getD σ.detectables).filter σ.det

theorem runDetectable_inv (L : Look) (hq : Quiet L) (req : Option (List Obj)) (σ : St) (h : Inv σ) :
    Inv (runDetectable L req σ).1 ∧ (runDetectable L req σ).1.det = σ.det ∧
      (∃ new, (runDetectable L req σ).1.log = σ.log ++ new ∧ Truthful L σ.det new) ∧
      ((runDetectable L req σ).2 = .ok → ∀ s ∈ σ.sensors, ∀ a ∈ targets σ req, a ≠ s →
        ((s, a) ∈ (runDetectable L req σ).1.view ↔ L.sees s a = some true)) ∧
      (runDetectable L req σ).2 ≠ .refused := by
  unfold runDetectable
  simp only
  split
  · obtain ⟨h1, h2, h3, -, h5, h6⟩ := checkSensors_inv L hq ((req.getD σ.detectables).filter σ.det) σ.sensors σ h
      (fun a ha => (List.mem_filter.1 ha).2)
    exact ⟨h1, h2, h3, h5, h6⟩
  · exact ⟨h, rfl, ⟨[], by simp, by simp [Truthful]⟩, fun ho => (by cases ho), by simp⟩

end Verif.Stepped
