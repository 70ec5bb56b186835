import Verif.Build.Effect

/-!
# When a value is accepted
-/

namespace Verif.Build

theorem typeOk_iff {W : World} {s : St} {types : List Nat} {v : Val} :
    typeOk W s types v = true ↔ types = [] ∨ ∃ t ∈ types, isA W s v t = true := by
  unfold typeOk
  rw [Bool.or_eq_true, List.isEmpty_iff, List.any_eq_true]

theorem valid_iff {W : World} {valid : List Nat} {c : Nat} :
    ¬ (!valid.isEmpty && !valid.any (W.sub c)) = true ↔ valid = [] ∨ ∃ t ∈ valid, W.sub c t = true := by
  rw [Bool.and_eq_true, Bool.not_eq_true', Bool.not_eq_true', ← List.any_eq_true, ← List.isEmpty_iff]
  cases valid.isEmpty <;> cases valid.any (W.sub c) <;> simp

theorem setDesc_iff {W : World} {s : St} {a : Nat} {n : String} {r : Res} {D : Desc} :
    (setDesc W s a n r D).2 = true ↔ FitsDesc W r D := by
  unfold setDesc FitsDesc
  cases hc : D.kind.or r.default with
  | none => simp
  | some c =>
    simp only [Option.some.injEq, exists_eq_left']
    rw [← valid_iff]
    by_cases h1 : (!r.valid.isEmpty && !r.valid.any (W.sub c)) = true
    · rw [if_pos h1]; simp only [h1, not_true, false_and]; simp
    · rw [if_neg h1]; simp only [h1, not_false_eq_true, true_and]
      by_cases h2 : W.accepts c (update r.kw D.kw) D.modes = true
      · rw [if_pos h2]; simp [h2]
      · rw [if_neg h2]; simp [h2]

theorem setRes_iff {W : World} {s : St} {a : Nat} {n : String} {r : Res} {v : Val} (hb : s.beenSet a n = false) :
    (setRes W s a n r v).2 = true ↔ FitsRes W s r v := by
  have hb' : ¬ s.beenSet a n = true := by rw [hb]; simp
  unfold setRes
  rw [if_neg hb']
  cases v with
  | dict d => exact setDesc_iff
  | _ =>
    simp only [FitsRes]
    rw [← List.any_eq_true]
    split <;> simp_all

theorem setModes_iff {p : St × Bool} {a : Nat} {n : String} {m : Option (List String)} :
    (setModes p a n m).2 = true ↔ p.2 = true ∧ m ≠ none := by
  obtain ⟨s, b⟩ := p
  cases b <;> cases m <;> simp [setModes]

theorem setComm_iff {W : World} {s : St} {a : Nat} {n : String} {r : Res} {m : Option (List String)} {v : Val}
    (hb : s.beenSet a n = false) : (setComm W s a n r m v).2 = true ↔ Fits W s (.comm r m) v := by
  cases v with
  | dict d =>
    unfold setComm
    simp only [Fits]
    cases hm : (s.dicts d).modes with
    | some m' =>
      simp only
      have := setRes_iff (W := W) (s := { s with dicts := upd s.dicts d { s.dicts d with modes := none } }) (a := a) (n := n)
        (r := r) (v := .dict d) hb
      rw [setModes_iff, this]
      simp only [FitsRes, upd_same]
      simp
    | none =>
      simp only
      rw [setModes_iff, setRes_iff hb]
      have : ({ s.dicts d with modes := none } : Desc) = s.dicts d := by rw [← hm]
      rw [this]
      simp [FitsRes]
  | _ =>
    unfold setComm
    simp only [Fits]
    rw [setModes_iff, setRes_iff hb]

theorem makeEmpty_eq {W : World} {s : St} {r : Res} (h : FitsDesc W r .empty) :
    ∃ c, (r.valid = [] ∨ ∃ t ∈ r.valid, W.sub c t = true) ∧ makeEmpty W s r = (newObj s c (update r.kw []), some (.obj s.next)) := by
  obtain ⟨c, h1, h2, h3⟩ := h
  refine ⟨c, h2, ?_⟩
  have h1' : r.default = some c := by simpa [Desc.empty] using h1
  unfold makeEmpty
  rw [h1']
  simp only
  rw [if_neg (valid_iff.2 h2)]
  rw [if_pos]
  exact h3

theorem makeEmpty_none {W : World} {s : St} {r : Res} (h : ¬ FitsDesc W r .empty) : makeEmpty W s r = (s, none) := by
  unfold makeEmpty
  cases hc : r.default with
  | none => rfl
  | some c =>
    simp only
    split
    · rfl
    · rename_i h1
      split
      · rename_i h2
        exact absurd ⟨c, by simpa [Desc.empty] using hc, valid_iff.1 h1, h2⟩ h
      · rfl

theorem makeOne_eq {W : World} {s : St} {r : Res} {d : Nat} (h : FitsDesc W r (s.dicts d)) :
    ∃ c, (r.valid = [] ∨ ∃ t ∈ r.valid, W.sub c t = true) ∧
      makeOne W s r (.dict d) = (newObj s c (update r.kw (s.dicts d).kw), some (.obj s.next)) := by
  obtain ⟨c, h1, h2, h3⟩ := h
  refine ⟨c, h2, ?_⟩
  unfold makeOne
  simp only [h1]
  rw [if_neg (valid_iff.2 h2), if_pos h3]

theorem makeOne_none {W : World} {s : St} {r : Res} {d : Nat} (h : ¬ FitsDesc W r (s.dicts d)) :
    makeOne W s r (.dict d) = (s, none) := by
  unfold makeOne
  cases hc : (s.dicts d).kind.or r.default with
  | none => simp only [hc]
  | some c =>
    simp only [hc]
    split
    · rfl
    · rename_i h1
      split
      · rename_i h2
        exact absurd ⟨c, hc, valid_iff.1 h1, h2⟩ h
      · rfl

/-- Values that do not exist yet are not among the entries. -/
def EntriesKnown (s : St) (l : List (String × Option Val)) : Prop := ∀ e ∈ l, ∀ v, e.2 = some v → known s v = true

theorem known_mono {s s' : St} {a : Nat} {P : String → Prop} (h : Ext a P s s') {v : Val} (hv : known s v = true) :
    known s' v = true := by
  cases v <;> simp only [known, decide_eq_true_eq] at hv ⊢
  · exact Nat.lt_of_lt_of_le hv h.count
  all_goals exact Nat.lt_of_lt_of_le hv h.next

theorem isA_mono {W : World} {s s' : St} {a : Nat} {P : String → Prop} (h : Ext a P s s') {v : Val} (hv : known s v = true)
    (t : Nat) : isA W s' v t = isA W s v t := by
  cases v with
  | obj i =>
    simp only [known, decide_eq_true_eq] at hv
    simp only [isA]
    rw [h.cls i hv]
  | _ => rfl

/-- The dictionary is as it was, modes included. -/
theorem dict_eq {s s' : St} {a : Nat} {P : String → Prop} (h : Ext a P s s') {d : Nat}
    (hm : (s'.dicts d).modes = (s.dicts d).modes) : s'.dicts d = s.dicts d := by
  have h1 := h.kind d
  have h2 := h.kw d
  revert h1 h2 hm
  generalize s'.dicts d = x
  generalize s.dicts d = y
  rintro hm h1 h2
  cases x; cases y
  simp_all

theorem FitsEntry_mono {W : World} {s s' : St} {a : Nat} {P : String → Prop} (h : Ext a P s s') {r : Res} {v : Option Val}
    (hv : ∀ w, v = some w → known s w = true) (hd : ∀ d, v = some (.dict d) → s'.dicts d = s.dicts d) :
    FitsEntry W s' r v ↔ FitsEntry W s r v := by
  cases v with
  | none => rfl
  | some v =>
    cases v with
    | dict d => simp only [FitsEntry]; rw [hd d rfl]
    | _ =>
      simp only [FitsEntry]
      simp only [isA_mono (W := W) h (hv _ rfl)]

theorem makeEntry_dicts (W : World) (s : St) (r : Res) (v : Option Val) : (makeEntry W s r v).1.dicts = s.dicts := by
  cases v with
  | none =>
    by_cases hf : FitsDesc W r .empty
    · obtain ⟨c, _, he⟩ := makeEmpty_eq (s := s) hf
      simp only [makeEntry, he]; rfl
    · simp only [makeEntry, makeEmpty_none hf]
  | some v =>
    cases v with
    | dict d =>
      by_cases hf : FitsDesc W r (s.dicts d)
      · obtain ⟨c, _, he⟩ := makeOne_eq hf
        simp only [makeEntry, he]; rfl
      · simp only [makeEntry, makeOne_none hf]
    | _ => rfl

theorem makeAll_dicts (W : World) (r : Res) (l : List (String × Option Val)) : ∀ (s : St) (use : Dict String Val),
    (makeAll W r s l use).1.dicts = s.dicts := by
  induction l with
  | nil => exact fun s use => rfl
  | cons e l ih =>
    obtain ⟨k, v⟩ := e
    intro s use
    rw [makeAll_cons]
    have h := makeEntry_dicts W s r v
    split
    · rename_i s' x heq
      rw [heq] at h
      rw [ih]; exact h
    · rename_i s' heq
      rw [heq] at h
      exact h

/-- An acceptable entry is made, and passes the type check afterwards. -/
theorem makeEntry_fits {W : World} {s : St} {r : Res} {v : Option Val} (hf : FitsEntry W s r v) :
    ∃ x, (makeEntry W s r v).2 = some x ∧ typeOk W (makeEntry W s r v).1 r.valid x = true ∧
      (known (makeEntry W s r v).1 x = true ∨ v = some x) := by
  cases v with
  | none =>
    obtain ⟨c, h1, he⟩ := makeEmpty_eq (s := s) hf
    simp only [makeEntry, he]
    refine ⟨_, rfl, typeOk_iff.2 ?_, Or.inl (by simp [known, newObj])⟩
    simpa [isA, newObj, upd] using h1
  | some v =>
    cases v with
    | dict d =>
      obtain ⟨c, h1, he⟩ := makeOne_eq (s := s) hf
      simp only [makeEntry, he]
      refine ⟨_, rfl, typeOk_iff.2 ?_, Or.inl (by simp [known, newObj])⟩
      simpa [isA, newObj, upd] using h1
    | _ => exact ⟨_, rfl, typeOk_iff.2 hf, Or.inr rfl⟩

/-- What the loop returns passes the type check only if the entries were acceptable. -/
theorem makeEntry_not {W : World} {s : St} {r : Res} {v : Option Val} (hf : ¬ FitsEntry W s r v) {x : Val}
    (h : (makeEntry W s r v).2 = some x) : typeOk W s r.valid x = false ∧ v = some x ∧ (makeEntry W s r v).1 = s := by
  cases v with
  | none => simp only [makeEntry, makeEmpty_none hf] at h; cases h
  | some v =>
    cases v with
    | dict d => simp only [makeEntry, makeOne_none hf] at h; cases h
    | _ =>
      cases h
      refine ⟨?_, rfl, rfl⟩
      rw [← Bool.not_eq_true, typeOk_iff]
      exact hf

theorem typeOk_mono {W : World} {s s' : St} {a : Nat} {P : String → Prop} (h : Ext a P s s') {v : Val} (hv : known s v = true)
    (types : List Nat) : typeOk W s' types v = typeOk W s types v := by
  unfold typeOk
  have : isA W s' v = isA W s v := funext fun t => isA_mono h hv t
  rw [this]

theorem makeAll_iff {W : World} {r : Res} (l : List (String × Option Val)) : ∀ {s : St} {use : Dict String Val},
    (l.map (·.1)).Nodup → EntriesKnown s l → (∀ e ∈ use, known s e.2 = true) → (∀ k ∈ l.map (·.1), k ∉ use.keys) →
    ((∃ s' use', makeAll W r s l use = (s', some use') ∧ ∀ e ∈ use', typeOk W s' r.valid e.2 = true) ↔
      (∀ e ∈ l, FitsEntry W s r e.2) ∧ ∀ e ∈ use, typeOk W s r.valid e.2 = true) := by
  induction l with
  | nil =>
    intro s use _ _ _ _
    constructor
    · rintro ⟨_, _, h, h2⟩
      cases h
      exact ⟨by simp, h2⟩
    · rintro ⟨_, h⟩
      exact ⟨_, _, rfl, h⟩
  | cons e l ih =>
    obtain ⟨k, v⟩ := e
    intro s use hn hl hu hk
    simp only [List.map_cons, List.nodup_cons] at hn
    have hkv := hl (k, v) (by simp)
    rw [makeAll_cons]
    have hE := ext_makeEntry W s r v 0 (fun _ => False)
    have hD := makeEntry_dicts W s r v
    have huk : ∀ x : Val, use.set k x = use ++ [(k, x)] :=
      fun x => Dict.mem_set_new (Dict.get?_eq_none_iff.2 (hk k (by simp)))
    have key : ∀ s1 x, Ext 0 (fun _ => False) s s1 → s1.dicts = s.dicts → known s1 x = true →
        ((∃ s' use', makeAll W r s1 l (use.set k x) = (s', some use') ∧ ∀ e ∈ use', typeOk W s' r.valid e.2 = true) ↔
        (∀ e ∈ l, FitsEntry W s r e.2) ∧ (∀ e ∈ use, typeOk W s r.valid e.2 = true) ∧ typeOk W s1 r.valid x = true) := by
      intro s1 x hE hD hx
      rw [ih hn.2 (fun e he v hv => known_mono hE (hl e (by simp [he]) v hv))]
      · rw [huk]
        have e1 : (∀ e ∈ l, FitsEntry W s1 r e.2) ↔ ∀ e ∈ l, FitsEntry W s r e.2 :=
          forall_congr' fun e => forall_congr' fun he =>
            FitsEntry_mono hE (fun w hw => hl e (by simp [he]) w hw) (fun d _ => by rw [hD])
        have e2 : (∀ e ∈ use, typeOk W s1 r.valid e.2 = true) ↔ ∀ e ∈ use, typeOk W s r.valid e.2 = true :=
          forall_congr' fun e => forall_congr' fun he => by rw [typeOk_mono hE (hu e he)]
        rw [e1, ← e2]
        simp only [List.mem_append, List.mem_singleton]
        constructor
        · rintro ⟨h1, h2⟩
          exact ⟨h1, fun e he => h2 e (Or.inl he), h2 _ (Or.inr rfl)⟩
        · rintro ⟨h1, h2, h3⟩
          refine ⟨h1, fun e he => ?_⟩
          rcases he with he | rfl
          · exact h2 e he
          · exact h3
      · intro e he
        rw [huk] at he
        rcases List.mem_append.1 he with he | he
        · exact known_mono hE (hu e he)
        · rw [List.mem_singleton] at he; rw [he]; exact hx
      · intro k' hk'
        rw [Dict.keys_set]
        have hne : k' ≠ k := fun h => hn.1 (h ▸ hk')
        have := hk k' (by simp only [List.map_cons, List.mem_cons]; exact Or.inr hk')
        split
        · exact this
        · simp [this, hne]
    by_cases hf : FitsEntry W s r v
    · obtain ⟨x, h1, h2, h3⟩ := makeEntry_fits hf
      have hx : known (makeEntry W s r v).1 x = true := h3.elim id (fun h => known_mono hE (hkv x h))
      have := key _ x hE hD hx
      rw [show makeEntry W s r v = ((makeEntry W s r v).1, some x) from Prod.ext rfl h1]
      simp only
      rw [this]
      simp only [h2, and_true, List.forall_mem_cons, hf, true_and]
    · constructor
      · intro h
        exfalso
        cases h1 : (makeEntry W s r v).2 with
        | none =>
          rw [show makeEntry W s r v = ((makeEntry W s r v).1, none) from Prod.ext rfl h1] at h
          obtain ⟨_, _, h, _⟩ := h
          cases h
        | some x =>
          obtain ⟨g1, g2, g3⟩ := makeEntry_not hf h1
          have := key _ x hE hD (known_mono hE (hkv x g2))
          rw [show makeEntry W s r v = ((makeEntry W s r v).1, some x) from Prod.ext rfl h1] at h
          simp only at h
          rw [this] at h
          rw [g3, g1] at h
          exact absurd h.2.2 (by simp)
      · rintro ⟨h, _⟩
        exact absurd (h (k, v) (by simp)) hf

theorem accept_iff {W : World} {s : St} {types : List Nat} (l : Dict String Val) : ∀ (d : Dict String Val),
    (accept W s types d l).2 = true ↔ ∀ e ∈ l, typeOk W s types e.2 = true := by
  induction l with
  | nil => intro d; simp [accept]
  | cons p l ih =>
    obtain ⟨k0, v0⟩ := p
    intro d
    unfold accept
    split
    · rename_i h
      rw [ih]
      simp only [List.forall_mem_cons, h, true_and]
    · rename_i h
      simp only [List.forall_mem_cons, h]
      simp

/-- The dictionaries among the tables are Python dictionaries of existing things. -/
def TabOk (s : St) : Prop := ∀ t l, s.tables t = .named l → l.WF ∧ ∀ e ∈ l, known s e.2 = true

theorem names_entries (l : List String) : ∀ (d : Dict String (Option Val)), (∀ e ∈ d, e.2 = none) →
    ∀ e ∈ l.foldl (fun d k => Dict.set d k none) d, e.2 = none := by
  induction l with
  | nil => exact fun d h => h
  | cons k l ih =>
    intro d h
    refine ih _ (fun e he => ?_)
    rcases Dict.mem_set he with rfl | he
    · rfl
    · exact h e he

theorem entriesKnown {s : St} (h : TabOk s) (t : Nat) : EntriesKnown s (s.tables t).entries := by
  intro e he v hv
  cases ht : s.tables t with
  | named l =>
    rw [ht] at he
    simp only [Table.entries, List.mem_map] at he
    obtain ⟨p, hp, rfl⟩ := he
    cases hv
    exact (h t l ht).2 p hp
  | names l =>
    rw [ht] at he
    have := names_entries l [] (by simp) e he
    rw [this] at hv; cases hv

theorem setMulti_iff {W : World} {s : St} {a : Nat} {n : String} {r : Res} {v : Val} (ha : s.attrs a n = none) (hT : TabOk s) :
    (setMulti W s a n r v).2 = true ↔ Fits W s (.multi r) v := by
  have ha' : ¬ (s.attrs a n).isSome = true := by rw [ha]; simp
  unfold setMulti
  rw [if_neg ha']
  cases v with
  | table t =>
    simp only [Fits]
    have h := makeAll_iff (W := W) (r := r) (s.tables t).entries (s := s) (use := []) (entries_nodup fun l hl => (hT t l hl).1)
      (entriesKnown hT t) (by simp) (by simp [Dict.keys])
    have h' : (∀ e ∈ (s.tables t).entries, FitsEntry W s r e.2) ↔ (∀ e ∈ (s.tables t).entries, FitsEntry W s r e.2) ∧
      ∀ e ∈ ([] : Dict String Val), typeOk W s r.valid e.2 = true := by simp
    rw [h', ← h]
    generalize makeAll W r s (s.tables t).entries [] = q
    obtain ⟨s1, use⟩ := q
    cases use with
    | none => simp
    | some use =>
      simp only
      rw [accept_iff]
      constructor
      · exact fun h => ⟨_, _, rfl, h⟩
      · rintro ⟨_, _, h, h2⟩
        cases h
        exact h2
  | _ => simp [Fits]

/-- A value is accepted by a state that was not set before exactly if it fits. -/
theorem set_iff {W : World} {s : St} {a : Nat} {n : String} {d : Def} {v : Val} (ha : s.attrs a n = none)
    (hb : s.beenSet a n = false) (hT : TabOk s) : (set W s a n d v).2 = true ↔ Fits W s d v := by
  cases d with
  | plain p =>
    unfold set setPlain
    simp only [ha, Bool.and_false, Fits]
    rw [← typeOk_iff]
    by_cases h : typeOk W s p.types v = true
    · simp [h]
    · simp [h]
  | resource r => exact setRes_iff hb
  | comm r m => exact setComm_iff hb
  | multi r => exact setMulti_iff ha hT

/-- A default is taken exactly if there is one and it fits. -/
theorem setDefault_iff {W : World} {s : St} {a : Nat} {n : String} {d : Def} (ha : s.attrs a n = none)
    (hb : s.beenSet a n = false) : (d.hasDefault = true ∧ (setDefault W s a n d).2 = true) ↔ FitsDefault W s d := by
  have hp : ∀ (p : Plain) (s1 : St) (v : Val), s1.attrs a n = none → ((setPlain W s1 a n p v).2 = true ↔
      p.types = [] ∨ ∃ t ∈ p.types, isA W s1 v t = true) := by
    intro p s1 v h1
    unfold setPlain
    simp only [h1, Bool.and_false]
    rw [← typeOk_iff]
    by_cases h : typeOk W s1 p.types v = true
    · simp [h]
    · simp [h]
  cases d with
  | plain p =>
    unfold setDefault
    simp only [FitsDefault, Def.hasDefault]
    cases hf : p.factory with
    | some f =>
      cases f with
      | make c =>
        simp only [hp p (newObj s c []) (.obj s.next) ha]
        simp [isA, newObj, upd]
      | draw =>
        simp only [hp p { s with count := s.count + 1 } (.drawn s.count) ha]
        simp [isA]
    | none =>
      by_cases hd : p.default = .none
      · simp [hd]
      · simp only [hd, if_false, hp p s p.default ha]
        simp [hd]
  | resource r =>
    unfold setDefault
    have hb' : ¬ s.beenSet a n = true := by rw [hb]; simp
    simp only [if_neg hb', setDesc_iff, FitsDefault, Def.hasDefault]
    constructor
    · exact fun h => h.2
    · intro h
      refine ⟨?_, h⟩
      obtain ⟨c, h1, _⟩ := h
      simp only [Desc.empty, Option.none_or] at h1
      rw [h1]; rfl
  | comm r m =>
    unfold setDefault
    have hb' : ¬ s.beenSet a n = true := by rw [hb]; simp
    simp only [if_neg hb', setModes_iff, setDesc_iff, FitsDefault, Def.hasDefault]
    constructor
    · exact fun h => h.2
    · intro h
      refine ⟨?_, h⟩
      obtain ⟨⟨c, h1, _⟩, _⟩ := h
      simp only [Desc.empty, Option.none_or] at h1
      rw [h1]; rfl
  | multi r => simp [FitsDefault, Def.hasDefault]

end Verif.Build
