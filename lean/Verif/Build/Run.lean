import Verif.Build.Inv

/-!
# Making an actor from beginning to end
-/

namespace Verif.Build

theorem inv_init : Inv init := by
  refine ⟨?_, ?_, ?_, ?_, ?_⟩
  · intro t l h
    cases h
    exact ⟨Dict.WF_nil, by simp⟩
  · intro a n v h; cases h
  · exact fun a _ n => ⟨rfl, rfl⟩
  · exact fun a _ => rfl
  · intro a n d h; cases h

theorem inv_newObj {s : St} (h : Inv s) (c : Nat) (kw : Dict String Val) : Inv (newObj s c kw) := by
  have hE := ext_newObj 0 (fun _ => False) s c kw
  exact ⟨tabOk_of_eq hE rfl h.tab, fun a n v hv => known_mono hE (h.held a n v hv), h.fresh, h.nodefs, h.been⟩

theorem known_step {s : St} {op : Op} {W : World} {defs : Dict String Def} {args : List (String × Val)} {order : List String}
    (hop : op = .construct defs args order) (h : (step W s op).2 ≠ .impossible) :
    (∀ e ∈ args, known s e.2 = true) ∧ (∀ n d, defs.get? n = some d → knownDef s d = true) ∧ Dict.WF defs ∧
      step W s op = construct W s defs args order := by
  subst hop
  simp only [step] at h ⊢
  split at h
  · rename_i hc
    rw [if_pos hc]
    simp only [Bool.and_eq_true, List.all_eq_true, decide_eq_true_eq] at hc
    exact ⟨hc.1.1, fun n d hn => (hc.2 _ (Dict.mem_of_get? hn)).2, hc.1.2, rfl⟩
  · exact absurd rfl h

theorem inv_step {W : World} {s : St} (h : Inv s) (op : Op) : Inv (step W s op).1 := by
  cases op with
  | newObj c => exact inv_newObj h c []
  | newDict D =>
    simp only [step]
    split
    · exact h
    · refine ⟨?_, fun a n v hv => ?_, h.fresh, h.nodefs, h.been⟩
      · intro t l hl
        refine ⟨(h.tab t l hl).1, fun e he => ?_⟩
        have := (h.tab t l hl).2 e he
        revert this
        cases e.2 <;> simp only [known, decide_eq_true_eq] <;> intro h <;> omega
      · have := h.held a n v hv
        revert this
        cases v <;> simp only [known, decide_eq_true_eq] <;> intro h <;> omega
  | newTable T =>
    simp only [step]
    have hk : ∀ v, known s v = true → known ({ s with next := s.next + 1, tables := upd s.tables s.next T } : St) v = true := by
      intro v
      cases v <;> simp only [known, decide_eq_true_eq] <;> intro h <;> omega
    split
    · exact h
    · rename_i hT
      refine ⟨?_, fun a n v hv => hk v (h.held a n v hv), h.fresh, h.nodefs, h.been⟩
      intro t l hl
      by_cases ht : t = s.next
      · subst ht
        simp only [upd_same] at hl
        subst hl
        simp only [knownTable, knownDict, Bool.not_eq_true, Bool.not_eq_false', Bool.and_eq_true, decide_eq_true_eq,
          List.all_eq_true] at hT
        exact ⟨hT.1, fun e he => hk _ (hT.2 e he)⟩
      · simp only [upd_ne _ _ ht] at hl
        exact ⟨(h.tab t l hl).1, fun e he => hk _ ((h.tab t l hl).2 e he)⟩
  | construct defs args order =>
    by_cases hi : (step W s (.construct defs args order)).2 = .impossible
    · simp only [step] at hi ⊢
      split
      · rename_i hc
        simp only [Bool.and_eq_true, List.all_eq_true, decide_eq_true_eq] at hc
        exact inv_construct h hc.1.1 (fun n d hn => (hc.2 _ (Dict.mem_of_get? hn)).2)
      · exact h
    · obtain ⟨h1, h2, _, h3⟩ := known_step rfl hi
      rw [h3]
      exact inv_construct h h1 h2
  | assign a n v =>
    simp only [step]
    cases hd : (s.defs a).get? n with
    | none => exact h
    | some d =>
      simp only
      split
      · exact h
      · rename_i hk
        have h1 := inv_set (W := W) (v := v) h hd (by simpa using hk)
        split
        · rename_i s' heq; rw [heq] at h1; exact h1
        · rename_i s' heq; rw [heq] at h1; exact h1
  | read a n =>
    have hres : ∀ d, (s.defs a).get? n = some d → d.single → Inv (setDefault W s a n d).1 := by
      intro d hd hs
      refine inv_eff h (ext_setDefault W s a n d) ?_ hd
      cases d with
      | plain p => exact hs.elim
      | multi r => exact hs.elim
      | resource r =>
        unfold setDefault
        simp only
        split
        · exact Eff.refl ..
        · exact eff_setDesc ..
      | comm r m =>
        unfold setDefault
        simp only
        refine Eff.modes ?_ _
        split
        · exact Eff.refl ..
        · exact eff_setDesc ..
    simp only [step, read]
    cases hd : (s.defs a).get? n with
    | none => exact h
    | some d =>
      simp only
      cases hat : s.attrs a n with
      | some v => exact h
      | none =>
        have key : ∀ d, (s.defs a).get? n = some d → d.single → Inv (match setDefault W s a n d with
            | (s, true) => match s.attrs a n with
              | some v => (s, Out.val v)
              | none => (s, .raised)
            | (s, false) => (s, .raised)).1 := by
          intro d hd hs
          have := hres d hd hs
          split
          · rename_i s' heq
            rw [heq] at this
            split <;> exact this
          · rename_i s' heq
            rw [heq] at this
            exact this
        cases d with
        | plain p => exact h
        | multi r => exact h
        | resource r => exact key _ hd trivial
        | comm r m => exact key _ hd trivial

theorem inv_run {W : World} (ops : List Op) : ∀ {s : St}, Inv s → Inv (run W s ops) := by
  induction ops with
  | nil => exact fun h => h
  | cons op ops ih => exact fun h => ih (inv_step h op)

/-! ## Dictionaries -/

theorem setRes_dicts (W : World) (s : St) (a : Nat) (n : String) (r : Res) (v : Val) : (setRes W s a n r v).1.dicts = s.dicts := by
  have hother : ∀ v : Val, (if r.valid.any (isA W s v) then
      (({ s with attrs := upd2 s.attrs a n (some v), beenSet := upd2 s.beenSet a n true }, true) : St × Bool) else (s, false)).1.dicts
        = s.dicts := by
    intro v; split <;> rfl
  unfold setRes
  split
  · rfl
  · cases v with
    | dict d =>
      simp only
      cases hb : (setDesc W s a n r (s.dicts d)).2 with
      | true => obtain ⟨c, kw, h⟩ := setDesc_eq hb; rw [h]; rfl
      | false => rw [setDesc_false hb]
    | _ => exact hother _

theorem setModes_dicts (p : St × Bool) (a : Nat) (n : String) (m : Option (List String)) : (setModes p a n m).1.dicts = p.1.dicts := by
  unfold setModes; split <;> rfl

/-- Only a communication store changes a dictionary: it takes the modes. -/
theorem set_dicts (W : World) (s : St) (a : Nat) (n : String) (d : Def) (v : Val) :
    (set W s a n d v).1.dicts = s.dicts ∨ ∃ r m e, d = .comm r m ∧ v = .dict e ∧ (s.dicts e).modes ≠ none ∧
      (set W s a n d v).1.dicts = upd s.dicts e { s.dicts e with modes := none } := by
  cases d with
  | plain p =>
    left
    unfold set setPlain
    simp only
    generalize (p.frozen && (match s.attrs a n with | some w => decide (w ≠ .none) | none => false)) = b
    cases b
    · rw [if_neg (by simp)]; split <;> rfl
    · rfl
  | resource r => exact Or.inl (setRes_dicts ..)
  | comm r m =>
    cases v with
    | dict e =>
      cases hm : (s.dicts e).modes with
      | none =>
        left
        simp only [set, setComm, hm]
        rw [setModes_dicts, setRes_dicts]
      | some m' =>
        right
        refine ⟨r, m, e, rfl, rfl, by rw [hm]; simp, ?_⟩
        simp only [set, setComm, hm]
        rw [setModes_dicts, setRes_dicts]
    | _ =>
      left
      simp only [set, setComm]
      rw [setModes_dicts, setRes_dicts]
  | multi r =>
    left
    simp only [set, setMulti]
    split
    · rfl
    · cases v with
      | table t =>
        simp only
        have := makeAll_dicts W r (s.tables t).entries s []
        split
        · rename_i s' heq; rw [heq] at this; exact this
        · rename_i s' use heq; rw [heq] at this; exact this
      | _ => rfl

theorem setDefault_dicts (W : World) (s : St) (a : Nat) (n : String) (d : Def) : (setDefault W s a n d).1.dicts = s.dicts := by
  have hp : ∀ (p : Plain) (s1 : St) (v : Val), (setPlain W s1 a n p v).1.dicts = s1.dicts := by
    intro p s1 v
    rcases set_dicts W s1 a n (.plain p) v with h | ⟨_, _, _, h, _⟩
    · exact h
    · cases h
  have hd : ∀ (r : Res) (D : Desc), (setDesc W s a n r D).1.dicts = s.dicts := by
    intro r D
    cases hb : (setDesc W s a n r D).2 with
    | true => obtain ⟨c, kw, h⟩ := setDesc_eq hb; rw [h]; rfl
    | false => rw [setDesc_false hb]
  cases d with
  | plain p =>
    simp only [setDefault]
    split
    · rw [hp]; rfl
    · rw [hp]
    · split
      · rfl
      · rw [hp]
  | resource r =>
    simp only [setDefault]
    split
    · rfl
    · exact hd ..
  | comm r m =>
    simp only [setDefault]
    rw [setModes_dicts]
    split
    · rfl
    · exact hd ..
  | multi r => rfl

theorem initRest_dicts (W : World) (a : Nat) (defs : Dict String Def) (l : List String) : ∀ s,
    (initRest W a defs s l).1.dicts = s.dicts := by
  induction l with
  | nil => exact fun s => rfl
  | cons n l ih =>
    intro s
    unfold initRest
    split
    · rfl
    · rename_i d _
      split
      · have h := setDefault_dicts W s a n d
        split
        · rename_i s' heq
          rw [heq] at h
          rw [ih]; exact h
        · rename_i s' heq
          rw [heq] at h
          exact h
      · have h := ih s
        split
        · rename_i s' b heq
          rw [heq] at h
          exact h
        · rename_i s' heq
          rw [heq] at h
          exact h

theorem initGiven_dicts {W : World} {a : Nat} {defs : Dict String Def} (l : List (String × Val)) : ∀ s (d : Nat),
    (∀ x ∈ l, ¬ TakesModes s defs d x) → (initGiven W a defs s l).1.dicts d = s.dicts d := by
  induction l with
  | nil => exact fun s d _ => rfl
  | cons e l ih =>
    obtain ⟨n, v⟩ := e
    intro s d hno
    unfold initGiven
    split
    · rfl
    · rename_i D hD
      split
      · rfl
      · have h : (set W s a n D v).1.dicts d = s.dicts d := by
          rcases set_dicts W s a n D v with h | ⟨r, m, e, h1, h2, h3, h4⟩
          · rw [h]
          · rw [h4]
            refine upd_ne _ _ (fun hc => ?_)
            subst hc
            exact hno (n, v) List.mem_cons_self ⟨h2, h3, r, m, h1 ▸ hD⟩
        split
        · rename_i s' heq
          rw [heq] at h
          simp only at h
          rw [ih s' d (fun x hx ht => hno x (List.mem_cons_of_mem _ hx) ?_), h]
          obtain ⟨h1, h2, h3⟩ := ht
          exact ⟨h1, by rw [← h]; exact h2, h3⟩
        · rename_i s' heq
          rw [heq] at h
          exact h

/-! ## The arguments -/

theorem Fits_mono {W : World} {s s' : St} {a : Nat} {P : String → Prop} (h : Ext a P s s') (hT : TabOk s) {d : Def} {v : Val}
    (hv : known s v = true) (hd : ∀ e, Mentions s e v → s'.dicts e = s.dicts e) : Fits W s' d v ↔ Fits W s d v := by
  have hi := fun t => isA_mono (W := W) h hv t
  have hres : ∀ r, FitsRes W s' r v ↔ FitsRes W s r v := by
    intro r
    cases v with
    | dict e => simp only [FitsRes]; rw [hd e rfl]
    | _ => simp only [FitsRes, hi]
  cases d with
  | plain p => simp only [Fits, hi]
  | resource r => exact hres r
  | comm r m =>
    cases v with
    | dict e => simp only [Fits]; rw [hd e rfl]
    | _ => simp only [Fits, hres]
  | multi r =>
    cases v with
    | table t =>
      simp only [known, decide_eq_true_eq] at hv
      simp only [Fits]
      rw [h.tables t hv]
      refine forall_congr' fun e => forall_congr' fun he => ?_
      exact FitsEntry_mono h (fun w hw => entriesKnown hT t e he w hw) (fun d' hd' => hd d' ⟨e, he, hd'⟩)
    | _ => simp only [Fits]

theorem FitsDefault_mono {W : World} {s s' : St} {a : Nat} {P : String → Prop} (h : Ext a P s s') {d : Def}
    (hd : knownDef s d = true) : FitsDefault W s' d ↔ FitsDefault W s d := by
  cases d with
  | plain p =>
    simp only [FitsDefault]
    cases p.factory with
    | some f => cases f <;> rfl
    | none => simp only [isA_mono (W := W) h hd]
  | _ => rfl

theorem Mentions_mono {s s' : St} {a : Nat} {P : String → Prop} (h : Ext a P s s') {v : Val} (hv : known s v = true) {e : Nat} :
    Mentions s' e v ↔ Mentions s e v := by
  cases v with
  | table t =>
    simp only [known, decide_eq_true_eq] at hv
    simp only [Mentions]
    rw [h.tables t hv]
  | _ => rfl

theorem TakesModes_mono {s s' : St} {a : Nat} {P : String → Prop} (h : Ext a P s s') {defs : Dict String Def} {d : Nat}
    {x : String × Val} (ht : TakesModes s' defs d x) : TakesModes s defs d x := by
  refine ⟨ht.1, ?_, ht.2.2⟩
  rcases h.popped d with g | g
  · rw [← g]; exact ht.2.1
  · exact absurd g ht.2.1

/-- Setting one argument leaves the dictionaries of the others alone. -/
theorem dict_kept {W : World} {s : St} {a : Nat} {defs : Dict String Def} {n : String} {v : Val} {l : List (String × Val)}
    (hA : Apart s defs ((n, v) :: l)) (hn : n ∉ l.map (·.1)) {D : Def} (hD : defs.get? n = some D) {y : String × Val} (hy : y ∈ l)
    {e : Nat} (hm : Mentions s e y.2) : (set W s a n D v).1.dicts e = s.dicts e := by
  rcases set_dicts W s a n D v with h | ⟨r, m, d, h1, h2, h3, h4⟩
  · rw [h]
  · rw [h4]
    refine upd_ne _ _ (fun hc => ?_)
    subst hc
    have := hA (n, v) List.mem_cons_self y (List.mem_cons_of_mem _ hy) e ⟨h2, h3, r, m, h1 ▸ hD⟩ hm
    exact hn (List.mem_map.2 ⟨y, hy, by rw [this]⟩)

theorem Apart.tail {s s' : St} {a : Nat} {P : String → Prop} (h : Ext a P s s') {defs : Dict String Def} {x : String × Val}
    {l : List (String × Val)} (hA : Apart s defs (x :: l)) (hk : ∀ e ∈ l, known s e.2 = true) : Apart s' defs l := by
  intro y hy z hz d ht hm
  exact hA y (List.mem_cons_of_mem _ hy) z (List.mem_cons_of_mem _ hz) d (TakesModes_mono h ht) ((Mentions_mono h (hk z hz)).1 hm)

/-- The states of an actor are untouched so far. -/
def Blank (s : St) (a : Nat) (P : String → Prop) : Prop := ∀ n, P n → s.attrs a n = none ∧ s.beenSet a n = false

theorem Blank.ext {s s' : St} {a : Nat} {P Q R : String → Prop} (h : Blank s a P) (hE : Ext a Q s s') (hR : ∀ n, R n → P n ∧ ¬ Q n) :
    Blank s' a R := by
  intro n hn
  obtain ⟨h1, h2⟩ := hR n hn
  rw [hE.attrs a n (Or.inr h2), hE.been a n (Or.inr h2)]
  exact h n h1

theorem initGiven_iff {W : World} {a : Nat} {defs : Dict String Def} (l : List (String × Val)) : ∀ {s : St}, Inv s → s.defs a = defs →
    (l.map (·.1)).Nodup → (∀ e ∈ l, known s e.2 = true) → Blank s a (· ∈ l.map (·.1)) → Apart s defs l →
    ((initGiven W a defs s l).2 = true ↔
      ∀ e ∈ l, ∃ d, defs.get? e.1 = some d ∧ d.noInit = false ∧ Fits W s d e.2) := by
  induction l with
  | nil => intro s _ _ _ _ _ _; simp [initGiven]
  | cons e l ih =>
    obtain ⟨n, v⟩ := e
    intro s hI hdefs hn hk hB hA
    simp only [List.map_cons, List.nodup_cons] at hn
    have hb := hB n (by simp)
    rw [List.forall_mem_cons]
    unfold initGiven
    cases hd : defs.get? n with
    | none => simp
    | some d =>
      simp only [Option.some.injEq, exists_eq_left']
      cases hno : d.noInit with
      | true => simp
      | false =>
        simp only [Bool.false_eq_true, if_false, true_and]
        have hset := set_iff (W := W) (d := d) (v := v) hb.1 hb.2 hI.tab
        have hE := ext_set W s a n d v
        have hkv := hk (n, v) List.mem_cons_self
        have hI' := inv_set (W := W) (v := v) hI (by rw [hdefs]; exact hd) hkv
        rw [← hset]
        cases hs : (set W s a n d v).2 with
        | false =>
          rw [show set W s a n d v = ((set W s a n d v).1, false) from Prod.ext rfl hs]
          simp
        | true =>
          rw [show set W s a n d v = ((set W s a n d v).1, true) from Prod.ext rfl hs]
          simp only [true_and]
          rw [ih hI' (hE.defs ▸ hdefs) hn.2 (fun e he => known_mono hE (hk e (List.mem_cons_of_mem _ he)))
            (hB.ext hE (fun m hm => ⟨by simp only [List.map_cons, List.mem_cons]; exact Or.inr hm, fun hc => hn.1 (hc ▸ hm)⟩))
            (hA.tail hE (fun e he => hk e (List.mem_cons_of_mem _ he)))]
          refine forall_congr' fun e => forall_congr' fun he => exists_congr fun d' => and_congr_right fun _ => and_congr_right fun _ => ?_
          exact Fits_mono hE hI.tab (hk e (List.mem_cons_of_mem _ he)) (fun x hx => dict_kept hA hn.1 hd he hx)

theorem initRest_iff {W : World} {a : Nat} {defs : Dict String Def} (l : List String) : ∀ {s : St}, Inv s → s.defs a = defs →
    l.Nodup → (∀ n d, defs.get? n = some d → knownDef s d = true) → Blank s a (· ∈ l) →
    ((initRest W a defs s l).2 = some true ↔ ∀ n ∈ l, ∃ d, defs.get? n = some d ∧ FitsDefault W s d) := by
  induction l with
  | nil => intro s _ _ _ _ _; simp [initRest]
  | cons n l ih =>
    intro s hI hdefs hn hk hB
    simp only [List.nodup_cons] at hn
    have hb := hB n (by simp)
    rw [List.forall_mem_cons]
    unfold initRest
    cases hd : defs.get? n with
    | none => simp
    | some d =>
      simp only [Option.some.injEq, exists_eq_left']
      have hset := setDefault_iff (W := W) (d := d) hb.1 hb.2
      rw [← hset]
      cases hdef : d.hasDefault with
      | false =>
        simp only [Bool.false_eq_true, if_false, false_and, iff_false]
        split <;> simp
      | true =>
        simp only [if_true, true_and]
        have hE := ext_setDefault W s a n d
        have hI' := inv_setDefault (W := W) hI (by rw [hdefs]; exact hd) (hk n d hd)
        cases hs : (setDefault W s a n d).2 with
        | false =>
          rw [show setDefault W s a n d = ((setDefault W s a n d).1, false) from Prod.ext rfl hs]
          simp
        | true =>
          rw [show setDefault W s a n d = ((setDefault W s a n d).1, true) from Prod.ext rfl hs]
          simp only [true_and]
          rw [ih hI' (hE.defs ▸ hdefs) hn.2 (fun n d hd => knownDef_mono hE (hk n d hd))
            (hB.ext hE (fun m hm => ⟨List.mem_cons_of_mem _ hm, fun hc => hn.1 (hc ▸ hm)⟩))]
          refine forall_congr' fun m => forall_congr' fun _ => exists_congr fun d' => and_congr_right fun hd' => ?_
          exact FitsDefault_mono hE (hk m d' hd')

/-! ## The values -/

theorem initGiven_built {W : World} {a : Nat} {defs : Dict String Def} (l : List (String × Val)) : ∀ {s : St}, Inv s →
    s.defs a = defs → (l.map (·.1)).Nodup → (∀ e ∈ l, known s e.2 = true) → (initGiven W a defs s l).2 = true →
    ∀ e ∈ l, ∃ d, defs.get? e.1 = some d ∧ d.noInit = false ∧ Built s (initGiven W a defs s l).1 a e.1 d (some e.2) := by
  induction l with
  | nil => intro s _ _ _ _ _ e he; cases he
  | cons e l ih =>
    obtain ⟨n, v⟩ := e
    intro s hI hdefs hn hk h
    simp only [List.map_cons, List.nodup_cons] at hn
    unfold initGiven at h ⊢
    cases hd : defs.get? n with
    | none => rw [hd] at h; cases h
    | some d =>
      simp only [hd] at h ⊢
      cases hno : d.noInit with
      | true => rw [hno] at h; cases h
      | false =>
        simp only [hno, Bool.false_eq_true, if_false] at h ⊢
        have hE := ext_set W s a n d v
        have hkv := hk (n, v) List.mem_cons_self
        have hI' := inv_set (W := W) (v := v) hI (by rw [hdefs]; exact hd) hkv
        cases hs : (set W s a n d v).2 with
        | false =>
          rw [show set W s a n d v = ((set W s a n d v).1, false) from Prod.ext rfl hs] at h
          cases h
        | true =>
          have hbuilt := built_set (fun t l hl => (hI.tab t l hl).1) hs
          rw [show set W s a n d v = ((set W s a n d v).1, true) from Prod.ext rfl hs] at h ⊢
          simp only at h ⊢
          intro e he
          rcases List.mem_cons.1 he with rfl | he
          · refine ⟨d, hd, hno, ?_⟩
            refine Built.mono (Ext.refl a (· = n) s) (ext_initGiven W a defs l _) (Or.inr hn.1) ?_ hbuilt
            intro t ht
            cases ht
            simpa [known] using hkv
          · obtain ⟨d', h1, h2, h3⟩ := ih hI' (hE.defs ▸ hdefs) hn.2
              (fun e he => known_mono hE (hk e (List.mem_cons_of_mem _ he))) h e he
            refine ⟨d', h1, h2, ?_⟩
            refine Built.mono hE (Ext.refl a (fun _ => False) _) (Or.inr id) ?_ h3
            intro t ht
            have := hk e (List.mem_cons_of_mem _ he)
            rw [Option.some.inj ht] at this
            simpa [known] using this

theorem initRest_built {W : World} {a : Nat} {defs : Dict String Def} (l : List String) : ∀ {s : St}, Blank s a (· ∈ l) → l.Nodup →
    (initRest W a defs s l).2 = some true →
    ∀ n ∈ l, ∃ d, defs.get? n = some d ∧ d.hasDefault = true ∧ Built s (initRest W a defs s l).1 a n d none := by
  induction l with
  | nil => intro s _ _ _ n hn; cases hn
  | cons n l ih =>
    intro s hB hn h
    simp only [List.nodup_cons] at hn
    unfold initRest at h ⊢
    cases hd : defs.get? n with
    | none => rw [hd] at h; cases h
    | some d =>
      simp only [hd] at h ⊢
      cases hdef : d.hasDefault with
      | false =>
        rw [hdef] at h
        simp only [Bool.false_eq_true, if_false] at h
        split at h <;> cases h
      | true =>
        simp only [hdef, if_true] at h ⊢
        have hE := ext_setDefault W s a n d
        cases hs : (setDefault W s a n d).2 with
        | false =>
          rw [show setDefault W s a n d = ((setDefault W s a n d).1, false) from Prod.ext rfl hs] at h
          cases h
        | true =>
          have hbuilt := built_setDefault (hB n (by simp)).1 hs
          rw [show setDefault W s a n d = ((setDefault W s a n d).1, true) from Prod.ext rfl hs] at h ⊢
          simp only at h ⊢
          intro m hm
          rcases List.mem_cons.1 hm with rfl | hm
          · refine ⟨d, hd, hdef, ?_⟩
            exact Built.mono (Ext.refl a (· = m) s) (ext_initRest W a defs l _) (Or.inr hn.1) (by intro t ht; cases ht) hbuilt
          · obtain ⟨d', h1, h2, h3⟩ := ih (hB.ext hE (fun m hm => ⟨List.mem_cons_of_mem _ hm, fun hc => hn.1 (hc ▸ hm)⟩)) hn.2 h m hm
            exact ⟨d', h1, h2, Built.mono hE (Ext.refl a (fun _ => False) _) (Or.inr id) (by intro t ht; cases ht) h3⟩

/-! ## The modes -/

theorem initGiven_modes {W : World} {a : Nat} {defs : Dict String Def} (l : List (String × Val)) : ∀ {s : St},
    (l.map (·.1)).Nodup → (∀ e ∈ l, known s e.2 = true) → Apart s defs l → (initGiven W a defs s l).2 = true →
    ∀ e ∈ l, ∀ r m, defs.get? e.1 = some (.comm r m) → (initGiven W a defs s l).1.modes a e.1 = modesOf s m (some e.2) := by
  induction l with
  | nil => intro s _ _ _ _ e he; cases he
  | cons e l ih =>
    obtain ⟨n, v⟩ := e
    intro s hn hk hA h
    simp only [List.map_cons, List.nodup_cons] at hn
    unfold initGiven at h ⊢
    cases hd : defs.get? n with
    | none => rw [hd] at h; cases h
    | some d =>
      simp only [hd] at h ⊢
      cases hno : d.noInit with
      | true => rw [hno] at h; cases h
      | false =>
        simp only [hno, Bool.false_eq_true, if_false] at h ⊢
        have hE := ext_set W s a n d v
        cases hs : (set W s a n d v).2 with
        | false =>
          rw [show set W s a n d v = ((set W s a n d v).1, false) from Prod.ext rfl hs] at h
          cases h
        | true =>
          have hkept := fun y hy e he => dict_kept (W := W) (a := a) (y := y) (e := e) hA hn.1 hd hy he
          have hmod : ∀ r m, d = .comm r m → (set W s a n d v).1.modes a n = modesOf s m (some v) := by
            intro r m hdm
            subst hdm
            exact modes_set hs
          rw [show set W s a n d v = ((set W s a n d v).1, true) from Prod.ext rfl hs] at h ⊢
          simp only at h ⊢
          intro e he r m hrm
          rcases List.mem_cons.1 he with rfl | he
          · rw [hd] at hrm
            rw [(ext_initGiven W a defs l _).modes a n (Or.inr hn.1)]
            exact hmod r m (Option.some.inj hrm)
          · rw [ih hn.2 (fun e he => known_mono hE (hk e (List.mem_cons_of_mem _ he)))
              (hA.tail hE (fun e he => hk e (List.mem_cons_of_mem _ he))) h e he r m hrm]
            have hke := hkept e he
            revert hke
            cases e.2 with
            | dict x =>
              intro hke
              simp only [modesOf]
              rw [hke x rfl]
            | _ => intro _; rfl

theorem initRest_modes {W : World} {a : Nat} {defs : Dict String Def} (l : List String) : ∀ {s : St}, l.Nodup →
    (initRest W a defs s l).2 = some true →
    ∀ n ∈ l, ∀ r m, defs.get? n = some (.comm r m) → (initRest W a defs s l).1.modes a n = m := by
  induction l with
  | nil => intro s _ _ n hn; cases hn
  | cons n l ih =>
    intro s hn h
    simp only [List.nodup_cons] at hn
    unfold initRest at h ⊢
    cases hd : defs.get? n with
    | none => rw [hd] at h; cases h
    | some d =>
      simp only [hd] at h ⊢
      cases hdef : d.hasDefault with
      | false =>
        rw [hdef] at h
        simp only [Bool.false_eq_true, if_false] at h
        split at h <;> cases h
      | true =>
        simp only [hdef, if_true] at h ⊢
        have hE := ext_setDefault W s a n d
        cases hs : (setDefault W s a n d).2 with
        | false =>
          rw [show setDefault W s a n d = ((setDefault W s a n d).1, false) from Prod.ext rfl hs] at h
          cases h
        | true =>
          have hmod : ∀ r m, d = .comm r m → (setDefault W s a n d).1.modes a n = m := by
            intro r m hdm
            subst hdm
            exact modes_setDefault hs
          rw [show setDefault W s a n d = ((setDefault W s a n d).1, true) from Prod.ext rfl hs] at h ⊢
          simp only at h ⊢
          intro k hk r m hrm
          rcases List.mem_cons.1 hk with rfl | hk
          · rw [hd] at hrm
            rw [(ext_initRest W a defs l _).modes a k (Or.inr hn.1)]
            exact hmod r m (Option.some.inj hrm)
          · exact ih hn.2 h k hk r m hrm

end Verif.Build
