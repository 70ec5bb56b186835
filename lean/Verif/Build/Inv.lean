import Verif.Build.Fits

/-!
# What holds in every state
-/

namespace Verif.Build

/-- States that hold one resource. -/
def Def.single : Def → Prop
  | .resource _ => True
  | .comm _ _ => True
  | _ => False

/-- The invariant of all reachable states. -/
structure Inv (s : St) : Prop where
  tab : TabOk s
  held : ∀ a n v, s.attrs a n = some v → known s v = true
  fresh : ∀ a, s.actors ≤ a → ∀ n, s.attrs a n = none ∧ s.beenSet a n = false
  nodefs : ∀ a, s.actors ≤ a → s.defs a = []
  been : ∀ a n d, (s.defs a).get? n = some d → d.single → (s.attrs a n).isSome = true → s.beenSet a n = true

theorem tabOk_of_eq {s s' : St} {a : Nat} {P : String → Prop} (h : Ext a P s s') (e : s'.tables = s.tables) (ht : TabOk s) :
    TabOk s' := by
  intro t l hl
  rw [e] at hl
  exact ⟨(ht t l hl).1, fun e he => known_mono h ((ht t l hl).2 e he)⟩

/-- What setting a state may do to it. -/
structure Eff (a : Nat) (n : String) (d : Def) (s s' : St) : Prop where
  tab : TabOk s → TabOk s'
  val : s'.attrs a n = s.attrs a n ∨ ∃ w, s'.attrs a n = some w ∧ known s' w = true
  been : d.single → s'.beenSet a n = true ∨ (s'.beenSet a n = s.beenSet a n ∧ s'.attrs a n = s.attrs a n)

theorem Eff.refl (a : Nat) (n : String) (d : Def) (s : St) : Eff a n d s s := ⟨fun h => h, Or.inl rfl, fun _ => Or.inr ⟨rfl, rfl⟩⟩

theorem eff_setPlain (W : World) (s : St) (a : Nat) (n : String) (p : Plain) (v : Val) (hv : known s v = true) :
    Eff a n (.plain p) s (setPlain W s a n p v).1 := by
  cases hb : (setPlain W s a n p v).2 with
  | true =>
    refine ⟨tabOk_of_eq (ext_setPlain W s a n p v) (by rw [setPlain_true hb]), Or.inr ⟨v, ?_, ?_⟩, fun h => h.elim⟩
    · rw [setPlain_true hb]; exact upd2_same ..
    · exact known_mono (ext_setPlain W s a n p v) hv
  | false =>
    have : (setPlain W s a n p v).1 = s := by
      revert hb
      unfold setPlain
      generalize (p.frozen && (match s.attrs a n with | some w => decide (w ≠ .none) | none => false)) = b
      cases b
      · rw [if_neg (by simp)]
        split
        · intro h; cases h
        · intro _; rfl
      · intro _; rfl
    rw [this]
    exact Eff.refl ..

theorem setDesc_false {W : World} {s : St} {a : Nat} {n : String} {r : Res} {D : Desc} (h : (setDesc W s a n r D).2 = false) :
    (setDesc W s a n r D).1 = s := by
  unfold setDesc at h ⊢
  cases hc : D.kind.or r.default with
  | none => rfl
  | some c =>
    simp only [hc] at h ⊢
    by_cases h1 : (!r.valid.isEmpty && !r.valid.any (W.sub c)) = true
    · rw [if_pos h1]
    · rw [if_neg h1] at h ⊢
      by_cases h2 : W.accepts c (update r.kw D.kw) D.modes = true
      · rw [if_pos h2] at h; cases h
      · rw [if_neg h2]

theorem setDesc_eq {W : World} {s : St} {a : Nat} {n : String} {r : Res} {D : Desc} (h : (setDesc W s a n r D).2 = true) :
    ∃ c kw, (setDesc W s a n r D).1 =
      { newObj s c kw with attrs := upd2 s.attrs a n (some (.obj s.next)), beenSet := upd2 s.beenSet a n true } := by
  obtain ⟨c, h1, h2, h3⟩ := setDesc_iff.1 h
  refine ⟨c, update r.kw D.kw, ?_⟩
  unfold setDesc
  simp only [h1]
  rw [if_neg (valid_iff.2 h2), if_pos h3]

theorem eff_setDesc (W : World) (s : St) (a : Nat) (n : String) (r : Res) (D : Desc) (d : Def) :
    Eff a n d s (setDesc W s a n r D).1 := by
  cases hb : (setDesc W s a n r D).2 with
  | true =>
    obtain ⟨c, kw, h⟩ := setDesc_eq hb
    refine ⟨tabOk_of_eq (ext_setDesc W s a n r D) (by rw [h]; rfl), Or.inr ⟨.obj s.next, ?_, ?_⟩, fun _ => Or.inl ?_⟩
    · rw [h]; exact upd2_same ..
    · rw [h]; simp [known, newObj]
    · rw [h]; exact upd2_same ..
  | false => rw [setDesc_false hb]; exact Eff.refl ..

theorem eff_setRes (W : World) (s : St) (a : Nat) (n : String) (r : Res) (v : Val) (hv : known s v = true) (d : Def) :
    Eff a n d s (setRes W s a n r v).1 := by
  have hother : Eff a n d s (if r.valid.any (isA W s v) then
      (({ s with attrs := upd2 s.attrs a n (some v), beenSet := upd2 s.beenSet a n true }, true) : St × Bool) else (s, false)).1 := by
    split
    · refine ⟨tabOk_of_eq (a := a) (P := fun m => m = n) ?_ rfl, Or.inr ⟨v, upd2_same .., ?_⟩, fun _ => Or.inl (upd2_same ..)⟩
      · exact { Ext.refl a (· = n) s with attrs := fun b m hm => upd2_ne _ _ hm, been := fun b m hm => upd2_ne _ _ hm }
      · cases v <;> exact hv
    · exact Eff.refl ..
  unfold setRes
  split
  · exact Eff.refl ..
  · cases v with
    | dict e => exact eff_setDesc ..
    | _ => exact hother

theorem Eff.modes {s : St} {p : St × Bool} {a : Nat} {n : String} {d : Def} (h : Eff a n d s p.1) (m : Option (List String)) :
    Eff a n d s (setModes p a n m).1 := by
  unfold setModes
  split
  · refine ⟨fun ht => ?_, ?_, h.been⟩
    · exact h.tab ht
    · rcases h.val with h | ⟨w, h1, h2⟩
      · exact Or.inl h
      · exact Or.inr ⟨w, h1, by cases w <;> exact h2⟩
  · exact h

theorem eff_setComm (W : World) (s : St) (a : Nat) (n : String) (r : Res) (m : Option (List String)) (v : Val) (hv : known s v = true)
    (d : Def) : Eff a n d s (setComm W s a n r m v).1 := by
  unfold setComm
  split
  · rename_i e
    split
    · have h := eff_setRes W { s with dicts := upd s.dicts e { s.dicts e with modes := none } } a n r (.dict e) hv d
      have h' : Eff a n d s (setRes W { s with dicts := upd s.dicts e { s.dicts e with modes := none } } a n r (.dict e)).1 :=
        ⟨fun ht => h.tab ht, h.val, h.been⟩
      exact h'.modes _
    · exact (eff_setRes W s a n r _ hv d).modes _
  · exact (eff_setRes W s a n r _ hv d).modes _

theorem makeEntry_new {W : World} {s : St} {r : Res} {v : Option Val} {x : Val} (h : (makeEntry W s r v).2 = some x) :
    (v = some x ∧ (makeEntry W s r v).1 = s) ∨ (x = .obj s.next ∧ known (makeEntry W s r v).1 x = true) := by
  cases v with
  | none =>
    by_cases hf : FitsDesc W r .empty
    · obtain ⟨c, _, he⟩ := makeEmpty_eq (s := s) hf
      simp only [makeEntry, he] at h ⊢
      cases h
      exact Or.inr ⟨rfl, by simp [known, newObj]⟩
    · simp only [makeEntry, makeEmpty_none hf] at h
      cases h
  | some v =>
    cases v with
    | dict d =>
      by_cases hf : FitsDesc W r (s.dicts d)
      · obtain ⟨c, _, he⟩ := makeOne_eq hf
        simp only [makeEntry, he] at h ⊢
        cases h
        exact Or.inr ⟨rfl, by simp [known, newObj]⟩
      · simp only [makeEntry, makeOne_none hf] at h
        cases h
    | _ => cases h; exact Or.inl ⟨rfl, rfl⟩

/-- The values made by the loop exist, and those made during it (that is, after `s0`) are under one name each. -/
theorem makeAll_use {W : World} {r : Res} {s0 : St} (l : List (String × Option Val)) : ∀ {s s' : St} {use use' : Dict String Val},
    Ext 0 (fun _ => False) s0 s → EntriesKnown s0 l → makeAll W r s l use = (s', some use') →
    (∀ k x, use.get? k = some x → known s x = true) →
    (∀ x, known s0 x = false → ∀ k k', use.get? k = some x → use.get? k' = some x → k = k') →
    (∀ k x, use'.get? k = some x → known s' x = true) ∧
    (∀ x, known s0 x = false → ∀ k k', use'.get? k = some x → use'.get? k' = some x → k = k') ∧ s'.tables = s.tables ∧
      (∀ k x, use'.get? k = some x → use.get? k = some x ∨ known s0 x = true ∨ known s x = false) := by
  induction l with
  | nil =>
    intro s s' use use' _ _ h h1 h2
    simp only [makeAll, Prod.mk.injEq, Option.some.injEq] at h
    obtain ⟨rfl, rfl⟩ := h
    exact ⟨h1, h2, rfl, fun k x h => Or.inl h⟩
  | cons e l ih =>
    obtain ⟨k0, v0⟩ := e
    intro s s' use use' hE hl h h1 h2
    rw [makeAll_cons] at h
    have hE' := ext_makeEntry W s r v0 0 (fun _ => False)
    have hN := fun x => makeEntry_new (W := W) (s := s) (r := r) (v := v0) (x := x)
    have hT : (makeEntry W s r v0).1.tables = s.tables := by
      cases v0 with
      | none =>
        by_cases hf : FitsDesc W r .empty
        · obtain ⟨c, _, he⟩ := makeEmpty_eq (s := s) hf
          simp only [makeEntry, he]; rfl
        · simp only [makeEntry, makeEmpty_none hf]
      | some v =>
        cases v with
        | dict d =>
          by_cases hf : FitsDesc W r (s.dicts d)
          · obtain ⟨c, _, he⟩ := makeOne_eq hf
            simp only [makeEntry, he]; rfl
          · simp only [makeEntry, makeOne_none hf]
        | _ => rfl
    split at h
    · rename_i s1 x heq
      rw [heq] at hE' hN hT
      simp only at hE' hN hT
      have hx : known s1 x = true ∧ (known s0 x = true ∨ known s x = false) := by
        rcases hN x rfl with ⟨g1, g2⟩ | ⟨g1, g2⟩
        · have := hl _ (List.mem_cons_self) x g1
          exact ⟨known_mono (hE.trans hE') this, Or.inl this⟩
        · exact ⟨g2, Or.inr (by rw [g1]; simp [known])⟩
      obtain ⟨i1, i2, i3, i4⟩ := ih (hE.trans hE') (fun e he v hv => hl e (List.mem_cons_of_mem _ he) v hv) h
        (by
          intro k y hy
          rw [Dict.get?_set] at hy
          split at hy
          · cases hy; exact hx.1
          · exact known_mono hE' (h1 k y hy))
        (by
          intro y hy k k' hk hk'
          rw [Dict.get?_set] at hk hk'
          have hno : ∀ j, use.get? j = some x → known s0 x = false → False := by
            intro j hj h0
            rcases hx.2 with g | g
            · rw [g] at h0; cases h0
            · rw [h1 j x hj] at g; cases g
          split at hk <;> split at hk'
          · rename_i e1 e2; exact e1.symm.trans e2
          · cases hk; exact (hno _ hk' hy).elim
          · cases hk'; exact (hno _ hk hy).elim
          · exact h2 y hy k k' hk hk')
      refine ⟨i1, i2, i3.trans hT, fun k y hy => ?_⟩
      rcases i4 k y hy with g | g | g
      · rw [Dict.get?_set] at g
        split at g
        · cases g
          exact Or.inr hx.2
        · exact Or.inl g
      · exact Or.inr (Or.inl g)
      · refine Or.inr (Or.inr ?_)
        cases hk : known s y with
        | false => rfl
        | true => rw [known_mono hE' hk] at g; cases g
    · cases h

theorem accept_sub {W : World} {s : St} {types : List Nat} (l : Dict String Val) : ∀ (d : Dict String Val), d.WF →
    (accept W s types d l).1.WF ∧ ∀ e ∈ (accept W s types d l).1, e ∈ d ∨ e ∈ l := by
  induction l with
  | nil => exact fun d h => ⟨h, fun e he => Or.inl he⟩
  | cons p l ih =>
    obtain ⟨k, v⟩ := p
    intro d h
    unfold accept
    split
    · obtain ⟨i1, i2⟩ := ih (d.set k v) (Dict.WF_set h k v)
      refine ⟨i1, fun e he => ?_⟩
      rcases i2 e he with g | g
      · rcases Dict.mem_set g with g | g
        · exact Or.inr (g ▸ List.mem_cons_self)
        · exact Or.inl g
      · exact Or.inr (List.mem_cons_of_mem _ g)
    · exact ⟨h, fun e he => Or.inl he⟩

theorem setMulti_shape (W : World) (s : St) (a : Nat) (n : String) (r : Res) (v : Val) (hT : TabOk s) :
    ((setMulti W s a n r v).1.attrs = s.attrs ∧ (setMulti W s a n r v).1.tables = s.tables) ∨
    ∃ j l, s.next ≤ j ∧ (setMulti W s a n r v).1.attrs = upd2 s.attrs a n (some (.table j)) ∧
      known (setMulti W s a n r v).1 (.table j) = true ∧
      (setMulti W s a n r v).1.tables = upd s.tables j (.named l) ∧ Dict.WF l ∧
      (∀ e ∈ l, known (setMulti W s a n r v).1 e.2 = true ∧ e.2 ≠ .table j) ∧
      (∀ x, known s x = false → ∀ k k', Dict.get? l k = some x → Dict.get? l k' = some x → k = k') ∧
      (∀ e ∈ l, (∃ t k, v = .table t ∧ (k, some e.2) ∈ (s.tables t).entries) ∨ known s e.2 = false) := by
  unfold setMulti
  split
  · exact Or.inl ⟨rfl, rfl⟩
  · cases v with
    | table t =>
      simp only
      have hA := ext_makeAll W r 0 (fun _ => False) (s.tables t).entries s []
      cases hm : makeAll W r s (s.tables t).entries [] with
      | mk s1 o =>
        rw [hm] at hA
        simp only at hA
        have hattr : ∀ (l : List (String × Option Val)) (s : St) (use : Dict String Val), (makeAll W r s l use).1.attrs = s.attrs ∧
            (makeAll W r s l use).1.tables = s.tables := by
          intro l
          induction l with
          | nil => exact fun s use => ⟨rfl, rfl⟩
          | cons e l ih =>
            obtain ⟨k, v⟩ := e
            intro s use
            rw [makeAll_cons]
            have hsame : (makeEntry W s r v).1.attrs = s.attrs ∧ (makeEntry W s r v).1.tables = s.tables := by
              cases v with
              | none =>
                by_cases hf : FitsDesc W r .empty
                · obtain ⟨c, _, he⟩ := makeEmpty_eq (s := s) hf
                  simp only [makeEntry, he]; exact ⟨rfl, rfl⟩
                · simp only [makeEntry, makeEmpty_none hf]; trivial
              | some v =>
                cases v with
                | dict d =>
                  by_cases hf : FitsDesc W r (s.dicts d)
                  · obtain ⟨c, _, he⟩ := makeOne_eq hf
                    simp only [makeEntry, he]; exact ⟨rfl, rfl⟩
                  · simp only [makeEntry, makeOne_none hf]; trivial
                | _ => exact ⟨rfl, rfl⟩
            split
            · rename_i s' x heq
              rw [heq] at hsame
              obtain ⟨i1, i2⟩ := ih s' (use.set k x)
              exact ⟨i1.trans hsame.1, i2.trans hsame.2⟩
            · rename_i s' heq
              rw [heq] at hsame
              exact hsame
        have hat := hattr (s.tables t).entries s []
        rw [hm] at hat
        simp only at hat
        cases o with
        | none => exact Or.inl hat
        | some use =>
          right
          simp only
          have hu := makeAll_use (s0 := s) _ (Ext.refl 0 _ s) (entriesKnown hT t) hm (by simp) (by simp)
          have hwf : Dict.WF use := (makeAll_some _ (entries_nodup fun l hl => (hT t l hl).1) hm).2.2 Dict.WF_nil
          obtain ⟨a1, a2⟩ := accept_sub (W := W) (s := s1) (types := r.valid) use [] Dict.WF_nil
          have a3 : ∀ e ∈ (accept W s1 r.valid [] use).1, Dict.get? use e.1 = some e.2 := by
            intro e he
            rcases a2 e he with g | g
            · cases g
            · exact Dict.get?_of_mem hwf g
          refine ⟨s1.next, (accept W s1 r.valid [] use).1, hA.next, by rw [hat.1], by simp [known], by rw [hat.2], a1, ?_, ?_, ?_⟩
          · intro e he
            have := hu.1 _ _ (a3 e he)
            refine ⟨?_, ?_⟩
            · revert this
              cases e.2 <;> simp only [known, decide_eq_true_eq] <;> intro h <;> omega
            · intro hc
              rw [hc] at this
              simp [known] at this
          · intro x hx k k' hk hk'
            exact hu.2.1 x hx k k' (a3 _ (Dict.mem_of_get? hk)) (a3 _ (Dict.mem_of_get? hk'))
          · intro e he
            have h3 := a3 e he
            have hms := makeAll_some _ (entries_nodup fun l hl => (hT t l hl).1) hm
            cases hk : known s e.2 with
            | false => exact Or.inr rfl
            | true =>
              left
              have hkin : e.1 ∈ (s.tables t).entries.map (·.1) := by
                refine Classical.byContradiction (fun hc => ?_)
                rw [hms.2.1 _ hc] at h3
                cases h3
              obtain ⟨p, hp, hpe⟩ := List.mem_map.1 hkin
              obtain ⟨k, w⟩ := p
              simp only at hpe
              subst hpe
              have hent := hms.1 _ _ hp
              rw [h3] at hent
              refine ⟨t, e.1, rfl, ?_⟩
              cases w with
              | none =>
                obtain ⟨i, g1, g2, g3⟩ := hent
                have g3' : e.2 = .obj i := Option.some.inj g3
                rw [g3'] at hk
                have := g1.1
                simp only [known, decide_eq_true_eq] at hk
                omega
              | some w =>
                cases w with
                | dict d =>
                  obtain ⟨i, g1, g2, g3⟩ := hent
                  have g3' : e.2 = .obj i := Option.some.inj g3
                  rw [g3'] at hk
                  have := g1.1
                  simp only [known, decide_eq_true_eq] at hk
                  omega
                | _ =>
                  have g3' := Option.some.inj hent
                  rw [g3']
                  exact hp
    | _ => exact Or.inl ⟨rfl, rfl⟩

theorem eff_setMulti (W : World) (s : St) (a : Nat) (n : String) (r r' : Res) (v : Val) (hT : TabOk s) :
    Eff a n (.multi r') s (setMulti W s a n r v).1 := by
  have hE := ext_setMulti W s a n r v
  rcases setMulti_shape W s a n r v hT with ⟨h1, h2⟩ | ⟨j, l, _, h1, h2, h3, h4, h5, _⟩
  · exact ⟨tabOk_of_eq hE h2, Or.inl (by rw [h1]), fun h => h.elim⟩
  · refine ⟨fun _ t l' hl => ?_, Or.inr ⟨_, by rw [h1]; exact upd2_same .., h2⟩, fun h => h.elim⟩
    rw [h3] at hl
    by_cases ht : t = j
    · rw [ht, upd_same] at hl
      cases hl
      exact ⟨h4, fun e he => (h5 e he).1⟩
    · rw [upd_ne _ _ ht] at hl
      exact ⟨(hT t l' hl).1, fun e he => known_mono hE ((hT t l' hl).2 e he)⟩

theorem eff_set (W : World) (s : St) (a : Nat) (n : String) (d : Def) (v : Val) (hv : known s v = true) (hT : TabOk s) :
    Eff a n d s (set W s a n d v).1 := by
  cases d with
  | plain p => exact eff_setPlain W s a n p v hv
  | resource r => exact eff_setRes W s a n r v hv _
  | comm r m => exact eff_setComm W s a n r m v hv _
  | multi r => exact eff_setMulti W s a n r r v hT

theorem eff_setDefault (W : World) (s : St) (a : Nat) (n : String) (d : Def) (hd : knownDef s d = true) :
    Eff a n d s (setDefault W s a n d).1 := by
  cases d with
  | plain p =>
    unfold setDefault
    simp only
    split
    · rename_i c _
      have h := eff_setPlain W (newObj s c []) a n p (.obj s.next) (by simp [known, newObj])
      refine ⟨fun ht => h.tab ?_, h.val, h.been⟩
      exact tabOk_of_eq (ext_newObj 0 (fun _ => True) s c []) rfl ht
    · have h := eff_setPlain W { s with count := s.count + 1 } a n p (.drawn s.count) (by simp [known])
      refine ⟨fun ht => h.tab ?_, h.val, h.been⟩
      refine tabOk_of_eq (s := s) (a := 0) (P := fun _ => True) ?_ rfl ht
      exact { Ext.refl 0 (fun _ => True) s with count := Nat.le_succ _ }
    · split
      · exact Eff.refl ..
      · exact eff_setPlain W s a n p p.default hd
  | resource r =>
    unfold setDefault
    simp only
    split
    · exact Eff.refl ..
    · exact eff_setDesc ..
  | comm r m =>
    unfold setDefault
    simp only
    refine Eff.modes ?_ _
    split
    · exact Eff.refl ..
    · exact eff_setDesc ..
  | multi r => exact Eff.refl ..

theorem inv_eff {s s' : St} {a : Nat} {n : String} {d : Def} (h : Inv s) (hE : Ext a (· = n) s s') (he : Eff a n d s s')
    (hd : (s.defs a).get? n = some d) : Inv s' := by
  have ha : a < s.actors := by
    refine Classical.byContradiction (fun hc => ?_)
    rw [h.nodefs a (Nat.le_of_not_lt hc)] at hd
    cases hd
  refine ⟨he.tab h.tab, ?_, ?_, ?_, ?_⟩
  · intro b m v hv
    by_cases hbm : b = a ∧ m = n
    · obtain ⟨rfl, rfl⟩ := hbm
      rcases he.val with g | ⟨w, g1, g2⟩
      · rw [g] at hv; exact known_mono hE (h.held _ _ _ hv)
      · rw [g1] at hv; cases hv; exact g2
    · rw [hE.attrs b m (Decidable.not_and_iff_or_not.1 hbm)] at hv
      exact known_mono hE (h.held _ _ _ hv)
  · intro b hb m
    rw [hE.actors] at hb
    have hne : b ≠ a := fun hc => absurd (hc ▸ hb) (Nat.not_le_of_lt ha)
    rw [hE.attrs b m (Or.inl hne), hE.been b m (Or.inl hne)]
    exact h.fresh b hb m
  · intro b hb
    rw [hE.actors] at hb
    rw [hE.defs]
    exact h.nodefs b hb
  · intro b m e hm hs hat
    rw [hE.defs] at hm
    by_cases hbm : b = a ∧ m = n
    · obtain ⟨rfl, rfl⟩ := hbm
      rw [hd] at hm
      cases hm
      rcases he.been hs with g | ⟨g1, g2⟩
      · exact g
      · rw [g1]; rw [g2] at hat; exact h.been _ _ _ hd hs hat
    · have hbm' : b ≠ a ∨ m ≠ n := Decidable.not_and_iff_or_not.1 hbm
      rw [hE.attrs b m hbm'] at hat
      rw [hE.been b m hbm']
      exact h.been _ _ _ hm hs hat

theorem inv_set {W : World} {s : St} {a : Nat} {n : String} {d : Def} {v : Val} (h : Inv s) (hd : (s.defs a).get? n = some d)
    (hv : known s v = true) : Inv (set W s a n d v).1 :=
  inv_eff h (ext_set W s a n d v) (eff_set W s a n d v hv h.tab) hd

theorem inv_setDefault {W : World} {s : St} {a : Nat} {n : String} {d : Def} (h : Inv s) (hd : (s.defs a).get? n = some d)
    (hv : knownDef s d = true) : Inv (setDefault W s a n d).1 :=
  inv_eff h (ext_setDefault W s a n d) (eff_setDefault W s a n d hv) hd

theorem knownDef_mono {s s' : St} {a : Nat} {P : String → Prop} (h : Ext a P s s') {d : Def} (hd : knownDef s d = true) :
    knownDef s' d = true := by
  have hk : ∀ kw : Dict String Val, knownDict s kw = true → knownDict s' kw = true := by
    intro kw
    unfold knownDict
    simp only [Bool.and_eq_true, List.all_eq_true]
    exact fun ⟨h1, h2⟩ => ⟨h1, fun p hp => known_mono h (h2 p hp)⟩
  cases d with
  | plain p => exact known_mono h hd
  | resource r => exact hk _ hd
  | comm r m => exact hk _ hd
  | multi r => exact hk _ hd

theorem inv_initGiven {W : World} {a : Nat} {defs : Dict String Def} (l : List (String × Val)) : ∀ {s : St}, Inv s →
    s.defs a = defs → (∀ e ∈ l, known s e.2 = true) → Inv (initGiven W a defs s l).1 := by
  induction l with
  | nil => exact fun h _ _ => h
  | cons e l ih =>
    obtain ⟨n, v⟩ := e
    intro s h hd hk
    unfold initGiven
    split
    · exact h
    · rename_i d hdn
      split
      · exact h
      · have h1 := inv_set (W := W) (v := v) h (by rw [hd]; exact hdn) (hk (n, v) List.mem_cons_self)
        have hE := ext_set W s a n d v
        split
        · rename_i s' heq
          rw [heq] at h1 hE
          exact ih h1 (hE.defs ▸ hd) (fun e he => known_mono hE (hk e (List.mem_cons_of_mem _ he)))
        · rename_i s' heq
          rw [heq] at h1
          exact h1

theorem inv_initRest {W : World} {a : Nat} {defs : Dict String Def} (l : List String) : ∀ {s : St}, Inv s →
    s.defs a = defs → (∀ n d, defs.get? n = some d → knownDef s d = true) → Inv (initRest W a defs s l).1 := by
  induction l with
  | nil => exact fun h _ _ => h
  | cons n l ih =>
    intro s h hd hk
    unfold initRest
    split
    · exact h
    · rename_i d hdn
      split
      · have h1 := inv_setDefault (W := W) h (by rw [hd]; exact hdn) (hk n d hdn)
        have hE := ext_setDefault W s a n d
        split
        · rename_i s' heq
          rw [heq] at h1 hE
          exact ih h1 (hE.defs ▸ hd) (fun n d hn => knownDef_mono hE (hk n d hn))
        · rename_i s' heq
          rw [heq] at h1
          exact h1
      · have h1 := ih h hd hk
        split
        · rename_i s' b heq
          rw [heq] at h1
          exact h1
        · rename_i s' heq
          rw [heq] at h1
          exact h1

/-- The state after the actor was registered. -/
def register (s : St) (defs : Dict String Def) : St := { s with actors := s.actors + 1, defs := upd s.defs s.actors defs }

theorem inv_register {s : St} (h : Inv s) (defs : Dict String Def) : Inv (register s defs) := by
  refine ⟨h.tab, ?_, ?_, ?_, ?_⟩
  · intro b m v hv
    have := h.held b m v hv
    cases v <;> exact this
  · intro b hb m
    exact h.fresh b (Nat.le_of_succ_le hb) m
  · intro b hb
    unfold register
    simp only
    rw [upd_ne _ _ (fun hc => absurd (hc ▸ hb) (Nat.not_succ_le_self _))]
    exact h.nodefs b (Nat.le_of_succ_le hb)
  · intro b m e hm hs hat
    by_cases hb : b = s.actors
    · subst hb
      have h1 : (register s defs).attrs s.actors m = none := (h.fresh _ (Nat.le_refl _) m).1
      rw [h1] at hat
      cases hat
    · have : (register s defs).defs b = s.defs b := upd_ne _ _ hb
      rw [this] at hm
      exact h.been b m e hm hs hat

theorem inv_construct {W : World} {s : St} {defs : Dict String Def} {args : List (String × Val)} {order : List String} (h : Inv s)
    (hk : ∀ e ∈ args, known s e.2 = true) (hdk : ∀ n d, defs.get? n = some d → knownDef s d = true) :
    Inv (construct W s defs args order).1 := by
  unfold construct
  split
  · exact h
  · simp only
    have h0 := inv_register h defs
    have hdefs : (register s defs).defs s.actors = defs := upd_same ..
    have h1 := inv_initGiven (W := W) args h0 hdefs (fun e he => by have := hk e he; revert this; cases e.2 <;> exact id)
    have hE := ext_initGiven W s.actors defs args (register s defs)
    have hdk' : ∀ n d, defs.get? n = some d → knownDef (register s defs) d = true := by
      intro n d hn
      have := hdk n d hn
      cases d with
      | plain p => simp only [knownDef] at this ⊢; revert this; cases p.default <;> exact id
      | _ =>
        simp only [knownDef, knownDict, Bool.and_eq_true, List.all_eq_true] at this ⊢
        refine ⟨this.1, fun p hp => ?_⟩
        have := this.2 p hp
        revert this
        cases p.2 <;> exact id
    change Inv (match initGiven W s.actors defs (register s defs) args with
      | (s, false) => (s, Out.raised)
      | (s_1, true) =>
        match initRest W s.actors defs s_1 order with
        | (s_2, some true) =>
          if "log" ∈ defs.keys then (s_2, Out.raised)
          else if (allNames defs).Nodup then (s_2, Out.made s.actors) else (s_2, Out.raised)
        | (s, _) => (s, Out.raised)).1
    split
    · rename_i s1 heq
      rw [heq] at h1
      exact h1
    · rename_i s1 heq
      rw [heq] at h1 hE
      have h2 := inv_initRest (W := W) order h1 (by rw [hE.defs]; exact hdefs) (fun n d hn => knownDef_mono hE (hdk' n d hn))
      split
      · rename_i s2 heq2
        rw [heq2] at h2
        split
        · exact h2
        · split <;> exact h2
      · rename_i s2 _ heq2
        rw [heq2] at h2
        exact h2

end Verif.Build
