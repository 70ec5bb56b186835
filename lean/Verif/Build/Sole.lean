import Verif.Build.Run

/-!
# What was made for a state is in that state only
-/

namespace Verif.Build

/-- What came into being after `s0` is at one place at most. -/
def Sole (s0 s : St) : Prop :=
  ∀ x, known s0 x = false → ∀ p q : Place, p.at s = some x → q.at s = some x → p = q

theorem place_known {s : St} (h : Inv s) {p : Place} {x : Val} (hp : p.at s = some x) : known s x = true := by
  cases p with
  | attr a n => exact h.held a n x hp
  | entry t k =>
    simp only [Place.at] at hp
    cases ht : s.tables t with
    | named l =>
      rw [ht] at hp
      exact (h.tab t l ht).2 _ (Dict.mem_of_get? hp)
    | names l => rw [ht] at hp; cases hp

theorem Sole.refl {s : St} (h : Inv s) : Sole s s := by
  intro x hx p q hp _
  rw [place_known h hp] at hx
  cases hx

/-- Filling one state with something old or something new. -/
theorem Sole.fill {s0 s s' : St} (h : Sole s0 s) (hI : Inv s) {a : Nat} {n : String} {w : Val}
    (ha : s'.attrs = upd2 s.attrs a n (some w)) (ht : s'.tables = s.tables) (hw : known s0 w = true ∨ known s w = false) :
    Sole s0 s' := by
  have hat : ∀ p : Place, ∀ x, p.at s' = some x → p.at s = some x ∨ (p = .attr a n ∧ x = w) := by
    intro p x hp
    cases p with
    | attr b m =>
      simp only [Place.at] at hp ⊢
      rw [ha] at hp
      by_cases hbm : b = a ∧ m = n
      · obtain ⟨rfl, rfl⟩ := hbm
        rw [upd2_same] at hp
        exact Or.inr ⟨rfl, (Option.some.inj hp).symm⟩
      · rw [upd2_ne _ _ (Decidable.not_and_iff_or_not.1 hbm)] at hp
        exact Or.inl hp
    | entry t k =>
      simp only [Place.at] at hp ⊢
      rw [ht] at hp
      exact Or.inl hp
  intro x hx p q hp hq
  have hno : ∀ r : Place, r.at s = some x → x = w → False := by
    intro r hr hxw
    subst hxw
    rcases hw with g | g
    · rw [g] at hx; cases hx
    · rw [place_known hI hr] at g; cases g
  rcases hat p x hp with g1 | ⟨g1, e1⟩ <;> rcases hat q x hq with g2 | ⟨g2, e2⟩
  · exact h x hx p q g1 g2
  · exact (hno p g1 e2).elim
  · exact (hno q g2 e1).elim
  · rw [g1, g2]

theorem Sole.same {s0 s s' : St} (h : Sole s0 s) (ha : s'.attrs = s.attrs) (ht : s'.tables = s.tables) : Sole s0 s' := by
  have hat : ∀ p : Place, p.at s' = p.at s := by
    intro p
    cases p <;> simp only [Place.at, ha, ht]
  intro x hx p q hp hq
  rw [hat] at hp hq
  exact h x hx p q hp hq

theorem setRes_shape {W : World} {s : St} {a : Nat} {n : String} {r : Res} {v : Val} (h : (setRes W s a n r v).2 = true) :
    ∃ w, (setRes W s a n r v).1.attrs = upd2 s.attrs a n (some w) ∧ (setRes W s a n r v).1.tables = s.tables ∧
      (w = v ∨ w = .obj s.next) := by
  have hother : ∀ v : Val, (if r.valid.any (isA W s v) then
      (({ s with attrs := upd2 s.attrs a n (some v), beenSet := upd2 s.beenSet a n true }, true) : St × Bool) else (s, false)).2 = true →
      (if r.valid.any (isA W s v) then
      (({ s with attrs := upd2 s.attrs a n (some v), beenSet := upd2 s.beenSet a n true }, true) : St × Bool) else (s, false)).1.attrs =
        upd2 s.attrs a n (some v) ∧ (if r.valid.any (isA W s v) then
      (({ s with attrs := upd2 s.attrs a n (some v), beenSet := upd2 s.beenSet a n true }, true) : St × Bool) else (s, false)).1.tables =
        s.tables := by
    intro v
    split
    · exact fun _ => ⟨rfl, rfl⟩
    · intro h; cases h
  unfold setRes at h ⊢
  by_cases hb : s.beenSet a n = true
  · rw [if_pos hb] at h; cases h
  · rw [if_neg hb] at h ⊢
    cases v with
    | dict d =>
      obtain ⟨c, kw, he⟩ := setDesc_eq h
      simp only [he]
      exact ⟨_, rfl, rfl, Or.inr rfl⟩
    | _ => exact ⟨_, (hother _ h).1, (hother _ h).2, Or.inl rfl⟩

theorem setModes_shape (p : St × Bool) (a : Nat) (n : String) (m : Option (List String)) :
    (setModes p a n m).1.attrs = p.1.attrs ∧ (setModes p a n m).1.tables = p.1.tables := by
  unfold setModes; split <;> exact ⟨rfl, rfl⟩

theorem setComm_shape {W : World} {s : St} {a : Nat} {n : String} {r : Res} {m : Option (List String)} {v : Val}
    (h : (setComm W s a n r m v).2 = true) :
    ∃ w, (setComm W s a n r m v).1.attrs = upd2 s.attrs a n (some w) ∧ (setComm W s a n r m v).1.tables = s.tables ∧
      (w = v ∨ w = .obj s.next) := by
  cases v with
  | dict d =>
    cases hm : (s.dicts d).modes with
    | some m' =>
      simp only [setComm, hm] at h ⊢
      obtain ⟨w, h1, h2, h3⟩ := setRes_shape (setModes_true h).1
      exact ⟨w, (setModes_shape ..).1.trans h1, (setModes_shape ..).2.trans h2, h3⟩
    | none =>
      simp only [setComm, hm] at h ⊢
      obtain ⟨w, h1, h2, h3⟩ := setRes_shape (setModes_true h).1
      exact ⟨w, (setModes_shape ..).1.trans h1, (setModes_shape ..).2.trans h2, h3⟩
  | _ =>
    simp only [setComm] at h ⊢
    obtain ⟨w, h1, h2, h3⟩ := setRes_shape (setModes_true h).1
    exact ⟨w, (setModes_shape ..).1.trans h1, (setModes_shape ..).2.trans h2, h3⟩

theorem known_next (s : St) : known s (.obj s.next) = false := by simp [known]

theorem Sole.multi {s0 s : St} (h : Sole s0 s) (hI : Inv s) (hI0 : Inv s0) {b : Nat} {Q : String → Prop} (hE : Ext b Q s0 s)
    (W : World) (a : Nat) (n : String) (r : Res) (v : Val) (hv : known s0 v = true) : Sole s0 (setMulti W s a n r v).1 := by
  rcases setMulti_shape W s a n r v hI.tab with ⟨h1, h2⟩ | ⟨j, l, hj, h1, h2, h3, h4, h5, h6, h7⟩
  · exact h.same h1 h2
  · have hjn : known s (.table j) = false := by simp only [known, decide_eq_false_iff_not]; omega
    have hold : ∀ e ∈ l, known s0 e.2 = true ∨ known s e.2 = false := by
      intro e he
      rcases h7 e he with ⟨t, k, hvt, hent⟩ | g
      · subst hvt
        left
        have htn : t < s0.next := by simpa [known] using hv
        rw [hE.tables t htn] at hent
        exact entriesKnown hI0.tab t _ hent _ rfl
      · exact Or.inr g
    have hat : ∀ p : Place, ∀ x, known s0 x = false → p.at (setMulti W s a n r v).1 = some x →
        p.at s = some x ∨ (p = .attr a n ∧ x = .table j) ∨
          (∃ k, p = .entry j k ∧ Dict.get? l k = some x ∧ known s x = false ∧ x ≠ .table j) := by
      intro p x hx hp
      cases p with
      | attr b m =>
        simp only [Place.at] at hp ⊢
        rw [h1] at hp
        by_cases hbm : b = a ∧ m = n
        · obtain ⟨rfl, rfl⟩ := hbm
          rw [upd2_same] at hp
          exact Or.inr (Or.inl ⟨rfl, (Option.some.inj hp).symm⟩)
        · rw [upd2_ne _ _ (Decidable.not_and_iff_or_not.1 hbm)] at hp
          exact Or.inl hp
      | entry t k =>
        simp only [Place.at] at hp ⊢
        rw [h3] at hp
        by_cases ht : t = j
        · subst ht
          rw [upd_same] at hp
          have hm := Dict.mem_of_get? hp
          refine Or.inr (Or.inr ⟨k, rfl, hp, ?_, (h5 _ hm).2⟩)
          rcases hold _ hm with g | g
          · simp only at g; rw [g] at hx; cases hx
          · exact g
        · rw [upd_ne _ _ ht] at hp
          exact Or.inl hp
    intro x hx p q hp hq
    have hno : ∀ r : Place, r.at s = some x → known s x = false → False := by
      intro r hr g
      rw [place_known hI hr] at g; cases g
    rcases hat p x hx hp with g1 | ⟨g1, e1⟩ | ⟨k, g1, e1, f1, d1⟩ <;>
      rcases hat q x hx hq with g2 | ⟨g2, e2⟩ | ⟨k', g2, e2, f2, d2⟩
    · exact h x hx p q g1 g2
    · exact (hno p g1 (e2 ▸ hjn)).elim
    · exact (hno p g1 f2).elim
    · exact (hno q g2 (e1 ▸ hjn)).elim
    · rw [g1, g2]
    · exact absurd e1 d2
    · exact (hno q g2 f1).elim
    · exact absurd e2 d1
    · rw [g1, g2, h6 x f1 k k' e1 e2]

theorem Sole.set {s0 s : St} (h : Sole s0 s) (hI : Inv s) (hI0 : Inv s0) {b : Nat} {Q : String → Prop} (hE : Ext b Q s0 s)
    {W : World} {a : Nat} {n : String} {d : Def} {v : Val} (hv : known s0 v = true) (hs : (Build.set W s a n d v).2 = true) :
    Sole s0 (Build.set W s a n d v).1 := by
  cases d with
  | plain p =>
    have := setPlain_true hs
    simp only [Build.set]
    rw [this]
    exact h.fill hI rfl rfl (Or.inl hv)
  | resource r =>
    obtain ⟨w, h1, h2, h3⟩ := setRes_shape hs
    exact h.fill hI h1 h2 (h3.elim (fun e => Or.inl (e ▸ hv)) (fun e => Or.inr (e ▸ known_next s)))
  | comm r m =>
    obtain ⟨w, h1, h2, h3⟩ := setComm_shape hs
    exact h.fill hI h1 h2 (h3.elim (fun e => Or.inl (e ▸ hv)) (fun e => Or.inr (e ▸ known_next s)))
  | multi r => exact h.multi hI hI0 hE W a n r v hv

theorem Sole.setDefault {s0 s : St} (h : Sole s0 s) (hI : Inv s) {W : World} {a : Nat} {n : String} {d : Def}
    (hd : knownDef s0 d = true) (hs : (Build.setDefault W s a n d).2 = true) : Sole s0 (Build.setDefault W s a n d).1 := by
  cases d with
  | plain p =>
    simp only [Build.setDefault] at hs ⊢
    split at hs
    · rename_i c _
      rw [setPlain_true hs]
      exact h.fill hI rfl rfl (Or.inr (known_next s))
    · rw [setPlain_true hs]
      exact h.fill hI rfl rfl (Or.inr (by simp [known]))
    · by_cases hp : p.default = .none
      · rw [if_pos hp]; exact h
      · rw [if_neg hp] at hs ⊢
        rw [setPlain_true hs]
        exact h.fill hI rfl rfl (Or.inl hd)
  | resource r =>
    simp only [Build.setDefault] at hs ⊢
    by_cases hb : s.beenSet a n = true
    · rw [if_pos hb] at hs; cases hs
    · rw [if_neg hb] at hs ⊢
      obtain ⟨c, kw, he⟩ := setDesc_eq hs
      rw [he]
      exact h.fill hI rfl rfl (Or.inr (known_next s))
  | comm r m =>
    simp only [Build.setDefault] at hs ⊢
    have hs' := (setModes_true hs).1
    by_cases hb : s.beenSet a n = true
    · rw [if_pos hb] at hs'; cases hs'
    · rw [if_neg hb] at hs' ⊢
      obtain ⟨c, kw, he⟩ := setDesc_eq hs'
      refine h.fill hI (a := a) (n := n) (w := .obj s.next) ?_ ?_ (Or.inr (known_next s))
      · rw [(setModes_shape ..).1, he]
      · rw [(setModes_shape ..).2, he]; rfl
  | multi r => exact h

theorem Sole.initGiven {s0 : St} (hI0 : Inv s0) {W : World} {a : Nat} {defs : Dict String Def} (l : List (String × Val)) : ∀ {s : St},
    Sole s0 s → Inv s → s.defs a = defs → Ext a (fun _ => True) s0 s → (∀ e ∈ l, known s0 e.2 = true) →
    (Build.initGiven W a defs s l).2 = true → Sole s0 (Build.initGiven W a defs s l).1 := by
  induction l with
  | nil => exact fun h _ _ _ _ _ => h
  | cons e l ih =>
    obtain ⟨n, v⟩ := e
    intro s hS hI hdefs hE0 hk h
    unfold Build.initGiven at h ⊢
    cases hd : defs.get? n with
    | none => rw [hd] at h; cases h
    | some d =>
      simp only [hd] at h ⊢
      cases hno : d.noInit with
      | true => rw [hno] at h; cases h
      | false =>
        simp only [hno, Bool.false_eq_true, if_false] at h ⊢
        have hE := ext_set W s a n d v
        have hkv := hk (n, v) List.mem_cons_self
        have hI' := inv_set (W := W) (v := v) hI (by rw [hdefs]; exact hd) (known_mono hE0 hkv)
        cases hs : (Build.set W s a n d v).2 with
        | false =>
          rw [show Build.set W s a n d v = ((Build.set W s a n d v).1, false) from Prod.ext rfl hs] at h
          cases h
        | true =>
          have hS' := hS.set hI hI0 hE0 hkv hs
          rw [show Build.set W s a n d v = ((Build.set W s a n d v).1, true) from Prod.ext rfl hs] at h ⊢
          simp only at h ⊢
          exact ih hS' hI' (hE.defs ▸ hdefs) (hE0.trans (hE.mono fun _ _ => trivial)) (fun e he => hk e (List.mem_cons_of_mem _ he)) h

theorem Sole.initRest {s0 : St} {W : World} {a : Nat} {defs : Dict String Def} (l : List String) : ∀ {s : St},
    Sole s0 s → Inv s → s.defs a = defs → Ext a (fun _ => True) s0 s → (∀ n d, defs.get? n = some d → knownDef s0 d = true) →
    (Build.initRest W a defs s l).2 = some true → Sole s0 (Build.initRest W a defs s l).1 := by
  induction l with
  | nil => exact fun h _ _ _ _ _ => h
  | cons n l ih =>
    intro s hS hI hdefs hE0 hk h
    unfold Build.initRest at h ⊢
    cases hd : defs.get? n with
    | none => rw [hd] at h; cases h
    | some d =>
      simp only [hd] at h ⊢
      cases hdef : d.hasDefault with
      | false =>
        rw [hdef] at h
        simp only [Bool.false_eq_true, if_false] at h
        split at h <;> cases h
      | true =>
        simp only [hdef, if_true] at h ⊢
        have hE := ext_setDefault W s a n d
        have hI' := inv_setDefault (W := W) hI (by rw [hdefs]; exact hd) (knownDef_mono hE0 (hk n d hd))
        cases hs : (Build.setDefault W s a n d).2 with
        | false =>
          rw [show Build.setDefault W s a n d = ((Build.setDefault W s a n d).1, false) from Prod.ext rfl hs] at h
          cases h
        | true =>
          have hS' := hS.setDefault hI (hk n d hd) hs
          rw [show Build.setDefault W s a n d = ((Build.setDefault W s a n d).1, true) from Prod.ext rfl hs] at h ⊢
          simp only at h ⊢
          exact ih hS' hI' (hE.defs ▸ hdefs) (hE0.trans (hE.mono fun _ _ => trivial)) hk h

/-! ## Unpacking `construct` -/

theorem construct_made {W : World} {s s' : St} {defs : Dict String Def} {args : List (String × Val)} {order : List String} {a : Nat}
    (h : construct W s defs args order = (s', .made a)) :
    a = s.actors ∧ order.Perm (unseen defs args) ∧ (args.map (·.1)).Nodup ∧
      (initGiven W a defs (register s defs) args).2 = true ∧
      (initRest W a defs (initGiven W a defs (register s defs) args).1 order).2 = some true ∧
      "log" ∉ defs.keys ∧ (allNames defs).Nodup ∧
      s' = (initRest W a defs (initGiven W a defs (register s defs) args).1 order).1 := by
  unfold construct at h
  split at h
  · cases h
  · rename_i hc
    simp only [Bool.or_eq_true, Bool.not_eq_true', decide_eq_false_iff_not, not_or, Bool.not_eq_false, Decidable.not_not,
      List.isPerm_iff] at hc
    simp only at h
    change (match initGiven W s.actors defs (register s defs) args with
      | (s, false) => (s, Out.raised)
      | (s_1, true) =>
        match initRest W s.actors defs s_1 order with
        | (s_2, some true) =>
          if "log" ∈ defs.keys then (s_2, Out.raised)
          else if (allNames defs).Nodup then (s_2, Out.made s.actors) else (s_2, Out.raised)
        | (s, _) => (s, Out.raised)) = (s', .made a) at h
    split at h
    · cases h
    · rename_i s1 heq
      split at h
      · rename_i s2 heq2
        split at h
        · cases h
        · rename_i hlog
          split at h
          · rename_i hnames
            cases h
            rw [heq]
            simp only
            rw [heq2]
            exact ⟨trivial, hc.1, hc.2, trivial, rfl, hlog, hnames, rfl⟩
          · cases h
      · cases h

theorem construct_made_iff {W : World} {s : St} {defs : Dict String Def} {args : List (String × Val)} {order : List String}
    (ho : order.Perm (unseen defs args)) (hn : (args.map (·.1)).Nodup) :
    (∃ s' a, construct W s defs args order = (s', .made a)) ↔
      (initGiven W s.actors defs (register s defs) args).2 = true ∧
      (initRest W s.actors defs (initGiven W s.actors defs (register s defs) args).1 order).2 = some true ∧
      "log" ∉ defs.keys ∧ (allNames defs).Nodup := by
  constructor
  · rintro ⟨s', a, h⟩
    obtain ⟨rfl, _, _, h1, h2, h3, h4, _⟩ := construct_made h
    exact ⟨h1, h2, h3, h4⟩
  · rintro ⟨h1, h2, h3, h4⟩
    refine ⟨(initRest W s.actors defs (initGiven W s.actors defs (register s defs) args).1 order).1, s.actors, ?_⟩
    unfold construct
    rw [if_neg (by simp [List.isPerm_iff, ho, hn])]
    simp only
    change (match initGiven W s.actors defs (register s defs) args with
      | (s, false) => (s, Out.raised)
      | (s_1, true) =>
        match initRest W s.actors defs s_1 order with
        | (s_2, some true) =>
          if "log" ∈ defs.keys then (s_2, Out.raised)
          else if (allNames defs).Nodup then (s_2, Out.made s.actors) else (s_2, Out.raised)
        | (s, _) => (s, Out.raised)) = _
    rw [show initGiven W s.actors defs (register s defs) args = ((initGiven W s.actors defs (register s defs) args).1, true) from
      Prod.ext rfl h1]
    simp only
    rw [show initRest W s.actors defs (initGiven W s.actors defs (register s defs) args).1 order =
      ((initRest W s.actors defs (initGiven W s.actors defs (register s defs) args).1 order).1, some true) from Prod.ext rfl h2]
    simp only
    rw [if_neg h3, if_pos h4]

theorem construct_out {W : World} {s : St} {defs : Dict String Def} {args : List (String × Val)} {order : List String}
    (ho : order.Perm (unseen defs args)) (hn : (args.map (·.1)).Nodup) :
    (construct W s defs args order).2 = .raised ∨ (construct W s defs args order).2 = .made s.actors := by
  unfold construct
  rw [if_neg (by simp [List.isPerm_iff, ho, hn])]
  simp only
  split
  · exact Or.inl rfl
  · split
    · split
      · exact Or.inl rfl
      · split
        · exact Or.inr rfl
        · exact Or.inl rfl
    · exact Or.inl rfl

/-- Whatever happens, only the new actor is touched. -/
theorem construct_ext {W : World} {s : St} {defs : Dict String Def} {args : List (String × Val)} {order : List String}
    (h : (construct W s defs args order).2 ≠ .impossible) :
    Ext s.actors (fun _ => True) (register s defs) (construct W s defs args order).1 := by
  unfold construct at h ⊢
  split at h
  · exact absurd rfl h
  · rename_i hc
    rw [if_neg hc]
    simp only
    have h1 := (ext_initGiven W s.actors defs args (register s defs)).mono (Q := fun _ => True) (fun _ _ => trivial)
    change Ext s.actors (fun _ => True) (register s defs) (match initGiven W s.actors defs (register s defs) args with
      | (s, false) => (s, Out.raised)
      | (s_1, true) =>
        match initRest W s.actors defs s_1 order with
        | (s_2, some true) =>
          if "log" ∈ defs.keys then (s_2, Out.raised)
          else if (allNames defs).Nodup then (s_2, Out.made s.actors) else (s_2, Out.raised)
        | (s, _) => (s, Out.raised)).1
    split
    · rename_i s1 heq
      rw [heq] at h1
      exact h1
    · rename_i s1 heq
      rw [heq] at h1
      have h2 := h1.trans ((ext_initRest W s.actors defs order s1).mono (Q := fun _ => True) (fun _ _ => trivial))
      split
      · rename_i s2 heq2
        rw [heq2] at h2
        split
        · exact h2
        · split <;> exact h2
      · rename_i s2 _ heq2
        rw [heq2] at h2
        exact h2

end Verif.Build
