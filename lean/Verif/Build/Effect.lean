import Verif.Build.Lemmas

/-!
# What setting a state does
-/

namespace Verif.Build

/-- A resource stays as it was made; dictionaries keep their kinds and keyword arguments. -/
theorem Made.mono {s s' s0 s1 : St} {a : Nat} {P : String → Prop} (h : Ext a P s s') {i : Nat} (hi : i < s.next) {r : Res} {d : Nat}
    {b : Nat} {Q : String → Prop} (h0 : Ext b Q s0 s1) (hm : Made s i r (s1.dicts d)) : Made s' i r (s0.dicts d) := by
  unfold Made at hm ⊢
  rw [h.cls i hi, h.given i hi, ← h0.kind d, ← h0.kw d]
  exact hm

theorem Made.mono' {s s' : St} {a : Nat} {P : String → Prop} (h : Ext a P s s') {i : Nat} (hi : i < s.next) {r : Res} {D : Desc}
    (hm : Made s i r D) : Made s' i r D := by
  unfold Made at hm ⊢
  rw [h.cls i hi, h.given i hi]
  exact hm

theorem New.mono {s0 s1 s s' : St} (h0 : s0.next ≤ s1.next) (h : s.next ≤ s'.next) {i : Nat} (hi : New s1 s i) : New s0 s' i :=
  ⟨Nat.le_trans h0 hi.1, Nat.lt_of_lt_of_le hi.2 h⟩

theorem Entry.mono {s0 s1 s s' : St} {a b : Nat} {P Q : String → Prop} (h0 : Ext b Q s0 s1) (h : Ext a P s s') {r : Res}
    {x v : Option Val} (he : Entry s1 s r x v) : Entry s0 s' r x v := by
  cases v with
  | none =>
    obtain ⟨i, h1, h2, h3⟩ := he
    exact ⟨i, h1.mono h0.next h.next, h2.mono' h h1.2, h3⟩
  | some v =>
    cases v with
    | dict d =>
      obtain ⟨i, h1, h2, h3⟩ := he
      exact ⟨i, h1.mono h0.next h.next, h2.mono h h1.2 h0, h3⟩
    | _ => exact he

theorem Resource.mono {s0 s1 s s' : St} {a b c : Nat} {n : String} {P Q : String → Prop} (h0 : Ext b Q s0 s1) (h : Ext c P s s')
    (hn : a ≠ c ∨ ¬ P n) {r : Res} {v : Option Val} (he : Resource s1 s a n r v) : Resource s0 s' a n r v := by
  have hat := h.attrs a n hn
  cases v with
  | none =>
    obtain ⟨i, h1, h2, h3⟩ := he
    exact ⟨i, h1.mono h0.next h.next, h2.mono' h h1.2, hat.trans h3⟩
  | some v =>
    cases v with
    | dict d =>
      obtain ⟨i, h1, h2, h3⟩ := he
      exact ⟨i, h1.mono h0.next h.next, h2.mono h h1.2 h0, hat.trans h3⟩
    | _ => exact hat.trans he

/-- What was built stays so while other states are set; it does not matter if it was built a little later. -/
theorem Built.mono {s0 s1 s s' : St} {a b c : Nat} {n : String} {P Q : String → Prop} (h0 : Ext b Q s0 s1) (h : Ext c P s s')
    (hn : a ≠ c ∨ ¬ P n) {d : Def} {v : Option Val} (hv : ∀ t, v = some (.table t) → t < s0.next) (he : Built s1 s a n d v) :
    Built s0 s' a n d v := by
  have hat := h.attrs a n hn
  cases d with
  | plain p =>
    cases v with
    | some v => exact hat.trans he
    | none =>
      simp only [Built] at he ⊢
      split at he
      · obtain ⟨i, h1, h2, h3⟩ := he
        exact ⟨i, h1.mono h0.next h.next, (h.cls i h1.2).trans h2, hat.trans h3⟩
      · obtain ⟨j, h1, h2, h3⟩ := he
        exact ⟨j, Nat.le_trans h0.count h1, Nat.lt_of_lt_of_le h2 h.count, hat.trans h3⟩
      · exact hat.trans he
  | resource r => exact Resource.mono h0 h hn he
  | comm r m => exact Resource.mono h0 h hn he
  | multi r =>
    cases v with
    | none => exact he
    | some v =>
      cases v with
      | table t =>
        obtain ⟨j, l, h1, h2, h3, h4, h5⟩ := he
        have htab := h0.tables t (hv t rfl)
        rw [htab] at h4 h5
        exact ⟨j, l, h1.mono h0.next h.next, hat.trans h2, (h.tables j h1.2).trans h3, fun k v hk => (h4 k v hk).mono h0 h, h5⟩
      | _ => exact he

theorem setPlain_true {W : World} {s : St} {a : Nat} {n : String} {p : Plain} {v : Val} (h : (setPlain W s a n p v).2 = true) :
    (setPlain W s a n p v).1 = { s with attrs := upd2 s.attrs a n (some v) } := by
  revert h
  unfold setPlain
  generalize (p.frozen && (match s.attrs a n with | some w => decide (w ≠ .none) | none => false)) = b
  cases b
  · rw [if_neg (by simp)]
    split
    · intro _; rfl
    · intro h; cases h
  · intro h; cases h

/-- A new resource. -/
theorem setDesc_true {W : World} {s : St} {a : Nat} {n : String} {r : Res} {D : Desc} (h : (setDesc W s a n r D).2 = true) :
    New s (setDesc W s a n r D).1 s.next ∧ Made (setDesc W s a n r D).1 s.next r D ∧
      (setDesc W s a n r D).1.attrs a n = some (.obj s.next) ∧ (setDesc W s a n r D).1.next = s.next + 1 ∧
      (setDesc W s a n r D).1.modes = s.modes ∧ (setDesc W s a n r D).1.tables = s.tables := by
  cases hc : D.kind.or r.default with
  | none => simp [setDesc, hc] at h
  | some c =>
    simp only [setDesc, hc] at h ⊢
    by_cases h1 : (!r.valid.isEmpty && !r.valid.any (W.sub c)) = true
    · rw [if_pos h1] at h; cases h
    · rw [if_neg h1] at h ⊢
      by_cases h2 : W.accepts c (update r.kw D.kw) D.modes = true
      · rw [if_pos h2]
        refine ⟨⟨Nat.le_refl _, Nat.lt_succ_self _⟩, ⟨?_, ?_⟩, upd2_same .., rfl, rfl, rfl⟩
        · rw [hc]; simp [newObj, upd]
        · simp [newObj, upd]
      · rw [if_neg h2] at h; cases h

theorem setRes_true {W : World} {s : St} {a : Nat} {n : String} {r : Res} {v : Val} (h : (setRes W s a n r v).2 = true) :
    Resource s (setRes W s a n r v).1 a n r (some v) ∧ (setRes W s a n r v).1.modes = s.modes ∧
      (setRes W s a n r v).1.tables = s.tables := by
  have hother : ∀ w : Val, (if r.valid.any (isA W s w) then
      (({ s with attrs := upd2 s.attrs a n (some w), beenSet := upd2 s.beenSet a n true }, true) : St × Bool) else (s, false)).2 = true →
      (if r.valid.any (isA W s w) then
      (({ s with attrs := upd2 s.attrs a n (some w), beenSet := upd2 s.beenSet a n true }, true) : St × Bool) else (s, false)).1.attrs a n
        = some w ∧ (if r.valid.any (isA W s w) then
      (({ s with attrs := upd2 s.attrs a n (some w), beenSet := upd2 s.beenSet a n true }, true) : St × Bool) else (s, false)).1.modes = s.modes ∧
      (if r.valid.any (isA W s w) then
      (({ s with attrs := upd2 s.attrs a n (some w), beenSet := upd2 s.beenSet a n true }, true) : St × Bool) else (s, false)).1.tables =
        s.tables := by
    intro w
    split
    · intro _; exact ⟨upd2_same .., rfl, rfl⟩
    · intro h; cases h
  by_cases hb : s.beenSet a n = true
  · unfold setRes at h; rw [if_pos hb] at h; cases h
  · unfold setRes at h ⊢
    rw [if_neg hb] at h ⊢
    cases v with
    | dict d =>
      have hd := setDesc_true h
      exact ⟨⟨s.next, hd.1, hd.2.1, hd.2.2.1⟩, hd.2.2.2.2⟩
    | _ => exact hother _ h

theorem setModes_true {p : St × Bool} {a : Nat} {n : String} {m : Option (List String)} (h : (setModes p a n m).2 = true) :
    p.2 = true ∧ (setModes p a n m).1.modes a n = m ∧ (setModes p a n m).1 = { p.1 with modes := upd2 p.1.modes a n m } := by
  revert h
  unfold setModes
  split
  · rename_i h1
    intro _
    exact ⟨h1, upd2_same .., rfl⟩
  · intro h; cases h

theorem setComm_true {W : World} {s : St} {a : Nat} {n : String} {r : Res} {m : Option (List String)} {v : Val}
    (h : (setComm W s a n r m v).2 = true) :
    Resource s (setComm W s a n r m v).1 a n r (some v) ∧ (setComm W s a n r m v).1.modes a n = modesOf s m (some v) ∧
      (setComm W s a n r m v).1.tables = s.tables := by
  have hfin : ∀ (s1 : St) (m' : Option (List String)), s1.next = s.next → s1.cls = s.cls → s1.given = s.given →
      s1.tables = s.tables →
      (∀ d, (s1.dicts d).kind = (s.dicts d).kind ∧ (s1.dicts d).kw = (s.dicts d).kw) →
      (setModes (setRes W s1 a n r v) a n m').2 = true →
      Resource s (setModes (setRes W s1 a n r v) a n m').1 a n r (some v) ∧
        (setModes (setRes W s1 a n r v) a n m').1.modes a n = m' ∧
        (setModes (setRes W s1 a n r v) a n m').1.tables = s.tables := by
    intro s1 m' e1 e2 e3 e4 hd hok
    have h1 := setModes_true hok
    have h2 := setRes_true h1.1
    refine ⟨?_, h1.2.1, ?_⟩
    · rw [h1.2.2]
      have h3 := h2.1
      revert h3
      generalize (setRes W s1 a n r v).1 = q
      intro h3
      unfold Resource at h3 ⊢
      split
      · rename_i heq; cases heq
      · rename_i d heq
        cases heq
        obtain ⟨i, g1, g2, g3⟩ := h3
        refine ⟨i, ⟨by rw [← e1]; exact g1.1, g1.2⟩, ?_, g3⟩
        unfold Made at g2 ⊢
        rw [← (hd d).1, ← (hd d).2]
        exact g2
      · rename_i w hw heq
        cases heq
        split at h3
        · rename_i heq2; cases heq2
        · rename_i d heq2
          cases heq2
          exact absurd rfl (hw d)
        · rename_i w' _ heq2
          cases heq2
          exact h3
    · rw [h1.2.2]
      exact h2.2.2.trans e4
  cases v with
  | dict d =>
    cases hm' : (s.dicts d).modes with
    | some m' =>
      simp only [setComm, hm'] at h ⊢
      have := hfin { s with dicts := upd s.dicts d { s.dicts d with modes := none } } _ rfl rfl rfl rfl
        (fun e => by by_cases he : e = d <;> simp [upd, he]) h
      simp only [modesOf, hm', Option.some_or]
      exact this
    | none =>
      simp only [setComm, hm'] at h ⊢
      have := hfin s m rfl rfl rfl rfl (fun e => ⟨rfl, rfl⟩) h
      simp only [modesOf, hm', Option.none_or]
      exact this
  | _ => exact hfin s m rfl rfl rfl rfl (fun e => ⟨rfl, rfl⟩) h

theorem makeOne_some {W : World} {s : St} {r : Res} {v x : Val} (h : (makeOne W s r v).2 = some x) :
    Entry s (makeOne W s r v).1 r (some x) (some v) := by
  cases v with
  | dict d =>
    cases hc : (s.dicts d).kind.or r.default with
    | none => simp [makeOne, hc] at h
    | some c =>
      simp only [makeOne, hc] at h ⊢
      by_cases h1 : (!r.valid.isEmpty && !r.valid.any (W.sub c)) = true
      · rw [if_pos h1] at h; cases h
      · rw [if_neg h1] at h ⊢
        by_cases h2 : W.accepts c (update r.kw (s.dicts d).kw) (s.dicts d).modes = true
        · rw [if_pos h2] at h ⊢
          cases h
          refine ⟨s.next, ⟨Nat.le_refl _, Nat.lt_succ_self _⟩, ⟨?_, ?_⟩, rfl⟩
          · rw [hc]; simp [newObj, upd]
          · simp [newObj, upd]
        · rw [if_neg h2] at h; cases h
  | _ => cases h; rfl

theorem makeEmpty_some {W : World} {s : St} {r : Res} {x : Val} (h : (makeEmpty W s r).2 = some x) :
    Entry s (makeEmpty W s r).1 r (some x) none := by
  cases hc : r.default with
  | none => simp [makeEmpty, hc] at h
  | some c =>
    simp only [makeEmpty, hc] at h ⊢
    by_cases h1 : (!r.valid.isEmpty && !r.valid.any (W.sub c)) = true
    · rw [if_pos h1] at h; cases h
    · rw [if_neg h1] at h ⊢
      by_cases h2 : W.accepts c (update r.kw []) none = true
      · rw [if_pos h2] at h ⊢
        cases h
        refine ⟨s.next, ⟨Nat.le_refl _, Nat.lt_succ_self _⟩, ⟨?_, ?_⟩, rfl⟩
        · simp [newObj, upd, Desc.empty, hc]
        · simp [newObj, upd, Desc.empty]
      · rw [if_neg h2] at h; cases h

theorem makeEntry_some {W : World} {s : St} {r : Res} {v : Option Val} {x : Val} (h : (makeEntry W s r v).2 = some x) :
    Entry s (makeEntry W s r v).1 r (some x) v := by
  cases v
  · exact makeEmpty_some h
  · exact makeOne_some h

theorem makeAll_some {W : World} {r : Res} (l : List (String × Option Val)) : ∀ {s s' : St} {use use' : Dict String Val},
    (l.map (·.1)).Nodup → makeAll W r s l use = (s', some use') →
      (∀ k v, (k, v) ∈ l → Entry s s' r (use'.get? k) v) ∧ (∀ k, k ∉ l.map (·.1) → use'.get? k = use.get? k) ∧
      (use.WF → use'.WF) := by
  induction l with
  | nil =>
    intro s s' use use' _ h
    simp only [makeAll, Prod.mk.injEq, Option.some.injEq] at h
    obtain ⟨rfl, rfl⟩ := h
    exact ⟨by simp, fun _ _ => rfl, fun h => h⟩
  | cons p l ih =>
    obtain ⟨k0, v0⟩ := p
    intro s s' use use' hn h
    simp only [List.map_cons, List.nodup_cons] at hn
    rw [makeAll_cons] at h
    have hE := ext_makeEntry W s r v0 0 (fun _ => False)
    have hS := fun x => makeEntry_some (W := W) (s := s) (r := r) (v := v0) (x := x)
    split at h
    · rename_i s1 x heq
      rw [heq] at hE hS
      have hA := ext_makeAll W r 0 (fun _ => False) l s1 (use.set k0 x)
      rw [h] at hA
      obtain ⟨i1, i2, i3⟩ := ih hn.2 h
      refine ⟨?_, ?_, ?_⟩
      · intro k v hk
        rcases List.mem_cons.1 hk with hk | hk
        · cases hk
          rw [i2 _ hn.1, Dict.get?_set_self]
          exact (hS _ rfl).mono (Ext.refl 0 (fun _ => False) s) hA
        · exact (i1 k v hk).mono hE (Ext.refl 0 (fun _ => False) _)
      · intro k hk
        simp only [List.map_cons, List.mem_cons, not_or] at hk
        rw [i2 k hk.2, Dict.get?_set_ne _ _ (Ne.symm hk.1)]
      · exact fun hw => i3 (Dict.WF_set hw _ _)
    · cases h

theorem accept_true {W : World} {s : St} {types : List Nat} (l : Dict String Val) : ∀ {d : Dict String Val}, l.WF →
    (accept W s types d l).2 = true → (∀ k, (accept W s types d l).1.get? k = (l.get? k).or (d.get? k)) ∧
      ∀ p ∈ l, typeOk W s types p.2 = true := by
  induction l with
  | nil => intro d _ _; exact ⟨fun k => rfl, by simp⟩
  | cons p l ih =>
    obtain ⟨k0, v0⟩ := p
    intro d hw h
    have hn : k0 ∉ Dict.keys l ∧ Dict.WF l := by
      simpa [Dict.WF, Dict.keys] using hw
    by_cases ht : typeOk W s types v0 = true
    · rw [accept, if_pos ht] at h ⊢
      obtain ⟨h1, h2⟩ := ih hn.2 h
      refine ⟨fun k => ?_, fun p hp => ?_⟩
      · rw [h1, Dict.get?_cons, Dict.get?_set]
        by_cases hk : k0 = k
        · subst hk
          have : Dict.get? l k0 = none := Dict.get?_eq_none_iff.2 hn.1
          simp [this]
        · simp [hk]
      · rcases List.mem_cons.1 hp with hp | hp
        · rw [hp]; exact ht
        · exact h2 p hp
    · rw [accept, if_neg ht] at h; cases h

theorem names_entries_nodup (l : List String) (d : Dict String (Option Val)) (h : d.WF) :
    (l.foldl (fun d k => Dict.set d k none) d).WF := by
  induction l generalizing d with
  | nil => exact h
  | cons k l ih => exact ih _ (Dict.WF_set h _ _)

theorem entries_nodup {T : Table} (h : ∀ l, T = .named l → l.WF) : (T.entries.map (·.1)).Nodup := by
  cases T with
  | named l =>
    have := h l rfl
    unfold Table.entries
    rw [List.map_map]
    exact this
  | names l => exact names_entries_nodup l [] Dict.WF_nil

theorem setMulti_true {W : World} {s : St} {a : Nat} {n : String} {r : Res} {v : Val} (hT : ∀ t l, s.tables t = .named l → l.WF)
    (h : (setMulti W s a n r v).2 = true) : Built s (setMulti W s a n r v).1 a n (.multi r) (some v) := by
  unfold setMulti at h ⊢
  split at h
  · cases h
  · rename_i ha
    rw [if_neg ha]
    split at h
    · rename_i t
      simp only
      have hA := ext_makeAll W r 0 (fun _ => False) (s.tables t).entries s []
      split at h
      · cases h
      · rename_i s' use heq
        rw [heq] at hA
        simp only at h
        obtain ⟨h1, h2, h3⟩ := makeAll_some _ (entries_nodup (hT t)) heq
        have hw := h3 Dict.WF_nil
        obtain ⟨g1, _⟩ := accept_true _ hw h
        have hE : Ext 0 (fun _ => True) s' { s' with
            next := s'.next + 1, tables := upd s'.tables s'.next (.named (accept W s' r.valid [] use).1) } :=
          { Ext.refl 0 (fun _ => True) s' with
            next := Nat.le_succ _, tables := fun i hi => upd_ne _ _ (Nat.ne_of_lt hi) }
        refine ⟨s'.next, (accept W s' r.valid [] use).1, ⟨hA.next, Nat.lt_succ_self _⟩, upd2_same .., upd_same .., ?_, ?_⟩
        · intro k v hk
          have h4 := h1 k v hk
          have h5 : (accept W s' r.valid [] use).1.get? k = use.get? k := by rw [g1]; simp
          rw [h5]
          have h6 := h4.mono (Ext.refl 0 (fun _ => True) s) hE
          cases v with
          | none => exact h6
          | some v => cases v <;> exact h6
        · intro k hk
          rw [g1] at hk
          refine Classical.byContradiction (fun hc => hk ?_)
          rw [h2 k hc]
          rfl
    · cases h

/-- A state that was given holds what was given. -/
theorem built_set {W : World} {s : St} {a : Nat} {n : String} {d : Def} {v : Val} (hT : ∀ t l, s.tables t = .named l → l.WF)
    (h : (set W s a n d v).2 = true) : Built s (set W s a n d v).1 a n d (some v) := by
  cases d with
  | plain p =>
    have := setPlain_true h
    unfold set
    simp only
    rw [this]
    exact upd2_same ..
  | resource r => exact (setRes_true h).1
  | comm r m => exact (setComm_true h).1
  | multi r => exact setMulti_true hT h

theorem modes_set {W : World} {s : St} {a : Nat} {n : String} {r : Res} {m : Option (List String)} {v : Val}
    (h : (set W s a n (.comm r m) v).2 = true) :
    (set W s a n (.comm r m) v).1.modes a n = modesOf s m (some v) := (setComm_true h).2.1

/-- A state that was not given and has a default holds it. -/
theorem built_setDefault {W : World} {s : St} {a : Nat} {n : String} {d : Def} (ha : s.attrs a n = none)
    (h : (setDefault W s a n d).2 = true) : Built s (setDefault W s a n d).1 a n d none := by
  cases d with
  | plain p =>
    unfold setDefault at h ⊢
    simp only [Built] at h ⊢
    cases hf : p.factory with
    | some f =>
      cases f with
      | make c =>
        simp only [hf] at h ⊢
        rw [setPlain_true h]
        exact ⟨s.next, ⟨Nat.le_refl _, Nat.lt_succ_self _⟩, by simp [newObj, upd], upd2_same ..⟩
      | draw =>
        simp only [hf] at h ⊢
        rw [setPlain_true h]
        exact ⟨s.count, Nat.le_refl _, Nat.lt_succ_self _, upd2_same ..⟩
    | none =>
      simp only [hf] at h ⊢
      by_cases hd : p.default = .none
      · rw [if_pos hd, if_pos hd]; exact ha
      · rw [if_neg hd] at h ⊢
        rw [if_neg hd]
        rw [setPlain_true h]
        exact upd2_same ..
  | resource r =>
    unfold setDefault at h ⊢
    simp only at h ⊢
    split at h
    · cases h
    · rename_i hb
      rw [if_neg hb]
      have hd := setDesc_true h
      exact ⟨s.next, hd.1, hd.2.1, hd.2.2.1⟩
  | comm r m =>
    unfold setDefault at h ⊢
    simp only at h ⊢
    have h1 := setModes_true h
    rw [h1.2.2]
    have h2 := h1.1
    split at h2
    · cases h2
    · rename_i hb
      rw [if_neg hb]
      have hd := setDesc_true h2
      exact ⟨s.next, hd.1, hd.2.1, hd.2.2.1⟩
  | multi r => unfold setDefault at h; cases h

theorem modes_setDefault {W : World} {s : St} {a : Nat} {n : String} {r : Res} {m : Option (List String)}
    (h : (setDefault W s a n (.comm r m)).2 = true) : (setDefault W s a n (.comm r m)).1.modes a n = m := by
  unfold setDefault at h ⊢
  exact (setModes_true h).2.1

end Verif.Build
