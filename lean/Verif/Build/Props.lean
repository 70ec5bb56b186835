import Verif.Build.Draw

/-!
# C66: actors are built as they are declared
-/

namespace Verif.Build

/-! ## Preliminaries -/

theorem Built.register {s s' : St} {defs : Dict String Def} {a : Nat} {n : String} {d : Def} {v : Option Val}
    (h : Built (register s defs) s' a n d v) : Built s s' a n d v := by
  cases d with
  | plain p =>
    cases v with
    | some v => exact h
    | none => exact h
  | resource r => cases v with
    | none => exact h
    | some v => cases v <;> exact h
  | comm r m => cases v with
    | none => exact h
    | some v => cases v <;> exact h
  | multi r => cases v with
    | none => exact h
    | some v =>
      cases v with
      | table t =>
        obtain ⟨j, l, h1, h2, h3, h4, h5⟩ := h
        refine ⟨j, l, h1, h2, h3, fun k v hk => ?_, h5⟩
        have := h4 k v hk
        cases v with
        | none => exact this
        | some v => cases v <;> exact this
      | _ => exact h

theorem known_register {s : St} (defs : Dict String Def) (v : Val) : known (register s defs) v = known s v := by
  cases v <;> rfl

theorem knownDef_register {s : St} (defs : Dict String Def) (d : Def) : knownDef (register s defs) d = knownDef s d := by
  have hk : ∀ kw, knownDict (register s defs) kw = knownDict s kw := by
    intro kw
    unfold knownDict
    have : known (register s defs) = known s := funext (known_register defs)
    rw [this]
  cases d with
  | plain p => exact known_register ..
  | _ => exact hk _

/-- Everything that is known about a successful construction. -/
structure Facts (W : World) (s s' : St) (defs : Dict String Def) (args : List (String × Val)) (order : List String) (a : Nat) : Prop where
  inv : Inv s
  new : a = s.actors
  perm : order.Perm (unseen defs args)
  nodup : (args.map (·.1)).Nodup
  given : (initGiven W a defs (register s defs) args).2 = true
  rest : (initRest W a defs (initGiven W a defs (register s defs) args).1 order).2 = some true
  result : s' = (initRest W a defs (initGiven W a defs (register s defs) args).1 order).1
  args : ∀ e ∈ args, known s e.2 = true
  defsKnown : ∀ n d, defs.get? n = some d → knownDef s d = true
  wf : Dict.WF defs

theorem facts {W : World} {ops : List Op} {s' : St} {defs : Dict String Def} {args : List (String × Val)} {order : List String} {a : Nat}
    (h : step W (run W init ops) (.construct defs args order) = (s', .made a)) :
    Facts W (run W init ops) s' defs args order a := by
  obtain ⟨h1, h2, h3, h4⟩ := known_step (W := W) (s := run W init ops) rfl (by rw [h]; simp)
  rw [h4] at h
  obtain ⟨g1, g2, g3, g4, g5, _, _, g6⟩ := construct_made h
  exact ⟨inv_run ops inv_init, g1, g2, g3, g4, g5, g6, h1, h2, h3⟩

theorem unseen_nodup {defs : Dict String Def} (h : Dict.WF defs) (args : List (String × Val)) : (unseen defs args).Nodup :=
  List.Nodup.sublist List.filter_sublist h

theorem mem_unseen {defs : Dict String Def} {args : List (String × Val)} {n : String} :
    n ∈ unseen defs args ↔ n ∈ defs.keys ∧ n ∉ args.map (·.1) := by
  simp [unseen]

theorem blank_register {s : St} (h : Inv s) (defs : Dict String Def) (P : String → Prop) : Blank (register s defs) s.actors P :=
  fun n _ => h.fresh s.actors (Nat.le_refl _) n

/-- The world of the examples: class 0 are the stores, class 1 a kind of store, 7 a shape, 9 the numbers. Classes take any keyword
arguments but modes. -/
def W0 : World where
  sub := fun a b => decide (a = b) || (decide (a = 1) && decide (b = 0))
  valIs := fun v c => match v with | .atom _ => decide (c = 9) | _ => false
  drawnIs := fun c => decide (c = 9)
  accepts := fun _ _ m => m.isNone

/-- A class with a number, a random number, a store, a communication store and several stores. -/
def ship : Dict String Def :=
  [("fuel", .plain ⟨[9], .atom 4, none, false, false, false, []⟩), ("luck", .plain ⟨[9], .none, some .draw, true, false, false, []⟩),
   ("hold", .resource ⟨[0], some 1, [("capacity", .atom 5)]⟩), ("radio", .comm ⟨[0], some 0, []⟩ none),
   ("bays", .multi ⟨[0], some 1, []⟩)]

/-- Two dictionaries and a table for it. -/
def prep : List Op :=
  [.newDict ⟨some 0, none, [("capacity", .atom 8)]⟩, .newDict ⟨none, some ["voice"], []⟩, .newTable (.names ["port", "aft"])]

def shipArgs : List (String × Val) := [("hold", .dict 0), ("radio", .dict 1), ("bays", .table 2)]

/-! ## The values -/

/-- **C66.** An actor that could be made holds in every state what was given for it: values and resources themselves, dictionaries as new
resources of the kind, with the arguments they ask for, tables as new tables of such; and the default otherwise, as the class declares it.
Everything that was given is a state of the class. -/
theorem c66_values {W : World} {ops : List Op} {s' : St} {defs : Dict String Def} {args : List (String × Val)} {order : List String}
    {a : Nat} (h : step W (run W init ops) (.construct defs args order) = (s', .made a)) :
    (∀ n d, defs.get? n = some d → Built (run W init ops) s' a n d (Dict.get? args n)) ∧
      ∀ e ∈ args, ∃ d, defs.get? e.1 = some d ∧ d.noInit = false := by
  have F := facts h
  have hI := inv_register F.inv defs
  have hdefs : (register (run W init ops) defs).defs a = defs := by rw [F.new]; exact upd_same ..
  have hg := initGiven_built (W := W) args hI hdefs F.nodup (fun e he => by rw [known_register]; exact F.args e he) F.given
  have hE1 := ext_initGiven W a defs args (register (run W init ops) defs)
  have hB : Blank (initGiven W a defs (register (run W init ops) defs) args).1 a (· ∈ order) := by
    have hb := blank_register F.inv defs (fun _ => True)
    rw [← F.new] at hb
    refine hb.ext hE1 (fun n hn => ⟨trivial, ?_⟩)
    exact (mem_unseen.1 (F.perm.mem_iff.1 hn)).2
  have hon : order.Nodup := F.perm.nodup_iff.2 (unseen_nodup F.wf args)
  have hr := initRest_built order hB hon F.rest
  have hE2 := ext_initRest W a defs order (initGiven W a defs (register (run W init ops) defs) args).1
  refine ⟨fun n d hd => ?_, fun e he => ?_⟩
  · rw [F.result]
    by_cases hn : n ∈ args.map (·.1)
    · obtain ⟨⟨m, v⟩, he, rfl⟩ := List.mem_map.1 hn
      have hget : Dict.get? args m = some v := Dict.get?_of_mem F.nodup he
      rw [hget]
      obtain ⟨d', h1, _, h3⟩ := hg _ he
      simp only at h1 h3
      rw [hd] at h1
      cases h1
      refine Built.register (Built.mono (Ext.refl a (fun _ => False) _) hE2 (Or.inr ?_) ?_ h3)
      · exact fun hc => (mem_unseen.1 (F.perm.mem_iff.1 hc)).2 hn
      · intro t ht
        have := F.args _ he
        rw [Option.some.inj ht] at this
        exact of_decide_eq_true this
    · have hget : Dict.get? args n = none := Dict.get?_eq_none_iff.2 hn
      rw [hget]
      have hno : n ∈ order := F.perm.mem_iff.2 (mem_unseen.2 ⟨List.mem_map.2 ⟨(n, d), Dict.mem_of_get? hd, rfl⟩, hn⟩)
      obtain ⟨d', h1, _, h3⟩ := hr n hno
      rw [hd] at h1
      cases h1
      exact Built.register (Built.mono hE1 (Ext.refl a (fun _ => False) _) (Or.inr id) (by intro t ht; cases ht) h3)
  · obtain ⟨d, h1, h2, _⟩ := hg e he
    exact ⟨d, h1, h2⟩

/-- The ship of the example is made: fuel 4, the first random number, a store of kind 0 with capacity 8, a radio with its mode, two bays. -/
example : (step W0 (run W0 init prep) (.construct ship shipArgs ["luck", "fuel"])).2 = .made 0 := by decide +kernel

example : let s := (step W0 (run W0 init prep) (.construct ship shipArgs ["luck", "fuel"])).1
    (s.attrs 0 "fuel", s.attrs 0 "luck", s.attrs 0 "hold", s.attrs 0 "radio", s.attrs 0 "bays") =
      (some (.atom 4), some (.drawn 0), some (.obj 3), some (.obj 4), some (.table 7)) ∧ s.cls 3 = 0 ∧
      s.given 3 = [("capacity", .atom 8)] ∧ s.modes 0 "radio" = some ["voice"] ∧
      s.tables 7 = .named [("port", .obj 5), ("aft", .obj 6)] := by decide +kernel

theorem get?_update (l : Dict String Val) : ∀ (d : Dict String Val), l.WF → ∀ k, (update d l).get? k = (l.get? k).or (d.get? k) := by
  induction l with
  | nil => exact fun d _ k => rfl
  | cons p l ih =>
    obtain ⟨k0, v0⟩ := p
    intro d hw k
    have hn : k0 ∉ Dict.keys l ∧ Dict.WF l := by simpa [Dict.WF, Dict.keys] using hw
    unfold update
    rw [ih _ hn.2, Dict.get?_cons, Dict.get?_set]
    by_cases hk : k0 = k
    · subst hk
      have : Dict.get? l k0 = none := Dict.get?_eq_none_iff.2 hn.1
      simp [this]
    · simp [hk]

theorem kwOk_step {W : World} {s : St} (h : ∀ d, (s.dicts d).kw.WF) (op : Op) : ∀ d, ((step W s op).1.dicts d).kw.WF := by
  intro d
  cases op with
  | newObj c => exact h d
  | newTable T =>
    simp only [step]
    split <;> exact h d
  | newDict D =>
    simp only [step]
    split
    · exact h d
    · rename_i hD
      by_cases hd : d = s.next
      · subst hd
        simp only [upd_same]
        simp only [knownDict, Bool.not_eq_true, Bool.not_eq_false', Bool.and_eq_true, decide_eq_true_eq] at hD
        exact hD.1
      · simp only [upd_ne _ _ hd]; exact h d
  | construct defs args order =>
    by_cases hi : (step W s (.construct defs args order)).2 = .impossible
    · simp only [step] at hi ⊢
      split
      · rename_i hc
        rw [if_pos hc] at hi
        have : (construct W s defs args order).1 = s := by
          revert hi
          unfold construct
          split
          · exact fun _ => rfl
          · rename_i hc2
            simp only [Bool.or_eq_true, Bool.not_eq_true', decide_eq_false_iff_not, not_or, Bool.not_eq_false, Decidable.not_not,
              List.isPerm_iff] at hc2
            intro hi
            have := construct_out (W := W) (s := s) hc2.1 hc2.2
            unfold construct at this
            rw [if_neg (by simp [List.isPerm_iff, hc2.1, hc2.2])] at this
            simp only at hi this
            rw [hi] at this
            rcases this with g | g <;> cases g
        rw [this]; exact h d
      · exact h d
    · have hk := (known_step rfl hi).2.2.2
      rw [hk] at hi ⊢
      rw [(construct_ext hi).kw d]
      exact h d
  | assign a n v =>
    simp only [step]
    split
    · exact h d
    · rename_i D _
      split
      · exact h d
      · have hE := (ext_set W s a n D v).kw d
        split
        · rename_i s' heq; rw [heq] at hE; simp only; rw [hE]; exact h d
        · rename_i s' heq; rw [heq] at hE; simp only; rw [hE]; exact h d
  | read a n =>
    simp only [step, read]
    split
    · exact h d
    · rename_i D _
      split
      · exact h d
      · have hE := (ext_setDefault W s a n D).kw d
        split
        · split
          · rename_i s' heq
            rw [heq] at hE
            split <;> (simp only; rw [hE]; exact h d)
          · rename_i s' heq
            rw [heq] at hE
            simp only; rw [hE]; exact h d
        · split
          · rename_i s' heq
            rw [heq] at hE
            split <;> (simp only; rw [hE]; exact h d)
          · rename_i s' heq
            rw [heq] at hE
            simp only; rw [hE]; exact h d
        · exact h d

theorem kwOk_run {W : World} (ops : List Op) : ∀ {s : St}, (∀ d, (s.dicts d).kw.WF) → ∀ d, ((run W s ops).dicts d).kw.WF := by
  induction ops with
  | nil => exact fun h => h
  | cons op ops ih => exact fun h => ih (kwOk_step h op)

/-- **C66.** The keyword arguments: a resource made as a dictionary asks got what the dictionary says, and the default of the state for
arguments the dictionary does not mention. -/
theorem c66_arguments {W : World} {ops : List Op} {s' : St} {i d : Nat} {r : Res} (h : Made s' i r ((run W init ops).dicts d)) (k : String) :
    (s'.given i).get? k = match ((run W init ops).dicts d).kw.get? k with
      | some v => some v
      | none => r.kw.get? k := by
  rw [h.2, get?_update _ _ (kwOk_run ops (fun d => by simp [init, Desc.empty, Dict.WF_nil]) d)]
  cases ((run W init ops).dicts d).kw.get? k <;> rfl

example : Made (step W0 (run W0 init prep) (.construct ship shipArgs ["luck", "fuel"])).1 3 ⟨[0], some 1, [("capacity", .atom 5)]⟩
    ((run W0 init prep).dicts 0) := by unfold Made; decide +kernel

/-! ## When it succeeds -/

/-- **C66 (partial).** Making an actor succeeds exactly if every argument is a state of the class that may be given, and acceptable; every
other state has an acceptable default; no state is named `log`; and no name is used twice among states and recordings. Missing: a
dictionary with modes for a communication store that is also used elsewhere (`Apart`), see `c66_modes_lost`. -/
theorem c66_succeeds_partial {W : World} {ops : List Op} {defs : Dict String Def} {args : List (String × Val)} {order : List String}
    (hp : (step W (run W init ops) (.construct defs args order)).2 ≠ .impossible) (hA : Apart (run W init ops) defs args) :
    (∃ s' a, step W (run W init ops) (.construct defs args order) = (s', .made a)) ↔
      (∀ e ∈ args, ∃ d, defs.get? e.1 = some d ∧ d.noInit = false ∧ Fits W (run W init ops) d e.2) ∧
      (∀ n d, defs.get? n = some d → n ∉ args.map (·.1) → FitsDefault W (run W init ops) d) ∧
      "log" ∉ defs.keys ∧ (defs.flatMap fun p => p.1 :: p.2.recs).Nodup := by
  obtain ⟨h1, h2, h3, h4⟩ := known_step (W := W) (s := run W init ops) rfl hp
  rw [h4] at hp ⊢
  generalize hs : run W init ops = s at *
  have hI0 : Inv s := hs ▸ inv_run ops inv_init
  have hI := inv_register hI0 defs
  have hon : order.Perm (unseen defs args) ∧ (args.map (·.1)).Nodup := by
    unfold construct at hp
    split at hp
    · exact absurd rfl hp
    · rename_i hc
      simpa only [Bool.or_eq_true, Bool.not_eq_true', decide_eq_false_iff_not, not_or, Bool.not_eq_false, Decidable.not_not,
        List.isPerm_iff] using hc
  have hE0 : ∀ d v, Fits W (register s defs) d v ↔ Fits W s d v := by
    intro d v
    have hi : isA W (register s defs) v = isA W s v := by funext t; cases v <;> rfl
    cases d with
    | plain p => simp only [Fits, hi]
    | resource r => cases v <;> first | rfl | exact Iff.rfl
    | comm r m => cases v <;> first | rfl | exact Iff.rfl
    | multi r =>
      cases v with
      | table t =>
        simp only [Fits]
        refine forall_congr' fun e => forall_congr' fun _ => ?_
        cases e.2 with
        | none => rfl
        | some w => cases w <;> first | rfl | exact Iff.rfl
      | _ => rfl
  have hE0' : ∀ d, FitsDefault W (register s defs) d ↔ FitsDefault W s d := by
    intro d
    cases d with
    | plain p =>
      have hi : isA W (register s defs) p.default = isA W s p.default := by funext t; cases p.default <;> rfl
      simp only [FitsDefault, hi]
    | _ => rfl
  have hA' : Apart (register s defs) defs args := by
    intro x hx y hy d ht hm
    refine hA x hx y hy d ht ?_
    revert hm
    cases y.2 <;> exact id
  rw [construct_made_iff hon.1 hon.2]
  rw [initGiven_iff args hI (upd_same ..) hon.2 (fun e he => by rw [known_register]; exact h1 e he)
    (blank_register hI0 defs _) hA']
  have hord : order.Nodup := hon.1.nodup_iff.2 (unseen_nodup h3 args)
  have hE1 := ext_initGiven W s.actors defs args (register s defs)
  have hB : Blank (initGiven W s.actors defs (register s defs) args).1 s.actors (· ∈ order) := by
    refine (blank_register hI0 defs (fun _ => True)).ext hE1 (fun n hn => ⟨trivial, ?_⟩)
    exact (mem_unseen.1 (hon.1.mem_iff.1 hn)).2
  have hI1 := inv_initGiven (W := W) args hI (upd_same ..) (fun e he => by rw [known_register]; exact h1 e he)
  rw [initRest_iff order hI1 (by rw [hE1.defs]; exact upd_same ..) hord
    (fun n d hd => knownDef_mono hE1 (by rw [knownDef_register]; exact h2 n d hd)) hB]
  refine and_congr ?_ (and_congr_left fun _ => ?_)
  · exact forall_congr' fun e => forall_congr' fun _ => exists_congr fun d => and_congr_right fun _ => and_congr_right fun _ => hE0 d e.2
  · constructor
    · intro h n d hd hn
      obtain ⟨d', g1, g2⟩ := h n (hon.1.mem_iff.2 (mem_unseen.2 ⟨List.mem_map.2 ⟨(n, d), Dict.mem_of_get? hd, rfl⟩, hn⟩))
      rw [hd] at g1
      cases g1
      exact (hE0' d).1 ((FitsDefault_mono hE1 (by rw [knownDef_register]; exact h2 n d hd)).1 g2)
    · intro h n hn
      obtain ⟨g1, g2⟩ := mem_unseen.1 (hon.1.mem_iff.1 hn)
      cases hd : defs.get? n with
      | none => exact absurd g1 (Dict.get?_eq_none_iff.1 hd)
      | some d =>
        refine ⟨d, rfl, (FitsDefault_mono hE1 (by rw [knownDef_register]; exact h2 n d hd)).2 ((hE0' d).2 (h n d hd g2))⟩

/-- A state that is not declared, a value of a wrong type, a missing value, a state that may not be given, a class that is no store. -/
example : (step W0 (run W0 init prep) (.construct ship (("mast", .atom 1) :: shipArgs) ["luck", "fuel"])).2 = .raised := by decide +kernel
example : (step W0 (run W0 init prep) (.construct ship (("fuel", .dict 0) :: shipArgs) ["luck"])).2 = .raised := by decide +kernel
example : (step W0 (run W0 init prep) (.construct ship [("radio", .dict 1)] ["luck", "fuel", "hold", "bays"])).2 = .raised := by
  decide +kernel
example : (step W0 (run W0 init prep) (.construct ship (("luck", .atom 1) :: shipArgs) ["fuel"])).2 = .raised := by decide +kernel
example : (step W0 (run W0 init (prep ++ [.newDict ⟨some 7, none, []⟩])) (.construct ship
    [("hold", .dict 3), ("radio", .dict 1), ("bays", .table 2)] ["luck", "fuel"])).2 = .raised := by decide +kernel

/-- The arguments of the example are apart. -/
example : Apart (run W0 init prep) ship shipArgs := by
  intro x hx y hy d ht hm
  obtain ⟨h1, h2, r, m, h3⟩ := ht
  simp only [shipArgs, List.mem_cons, List.not_mem_nil, or_false] at hx hy
  rcases hx with rfl | rfl | rfl
  · simp [ship, Dict.get?] at h3
  · cases h1
    rcases hy with rfl | rfl | rfl
    · cases hm
    · rfl
    · obtain ⟨e, he, he2⟩ := hm
      have : ∀ e ∈ ((run W0 init prep).tables 2).entries, e.2 = none := by decide +kernel
      rw [this e he] at he2
      cases he2
  · cases h1

/-! ## The modes of communication stores -/

theorem modes_unchanged {W : World} {s : St} {a : Nat} {n : String} {defs : Dict String Def} {order : List String} (h : n ∉ order) :
    (initRest W a defs s order).1.modes a n = s.modes a n := (ext_initRest W a defs order s).modes a n (Or.inr h)

/-- **C66 (partial).** A communication store has the modes its dictionary names, else those of the class. Missing: dictionaries used more
than once. -/
theorem c66_modes_partial {W : World} {ops : List Op} {s' : St} {defs : Dict String Def} {args : List (String × Val)} {order : List String}
    {a : Nat} (h : step W (run W init ops) (.construct defs args order) = (s', .made a)) (hA : Apart (run W init ops) defs args)
    {n : String} {r : Res} {m : Option (List String)} (hn : defs.get? n = some (.comm r m)) :
    s'.modes a n = modesOf (run W init ops) m (Dict.get? args n) ∧ s'.modes a n ≠ none := by
  have F := facts h
  have hon : order.Nodup := F.perm.nodup_iff.2 (unseen_nodup F.wf args)
  have hkey : s'.modes a n = modesOf (run W init ops) m (Dict.get? args n) := by
    rw [F.result]
    by_cases hin : n ∈ args.map (·.1)
    · obtain ⟨⟨n', v⟩, he, rfl⟩ := List.mem_map.1 hin
      rw [modes_unchanged (fun hc => (mem_unseen.1 (F.perm.mem_iff.1 hc)).2 hin)]
      have hA' : Apart (register (run W init ops) defs) defs args := by
        intro x hx y hy d ht hm
        refine hA x hx y hy d ht ?_
        revert hm
        cases y.2 <;> exact id
      have := initGiven_modes args F.nodup (fun e he => by rw [known_register]; exact F.args e he) hA' F.given _ he r m hn
      simp only at this
      rw [this, Dict.get?_of_mem F.nodup he]
      cases v <;> rfl
    · rw [Dict.get?_eq_none_iff.2 hin]
      have hno : n ∈ order := F.perm.mem_iff.2 (mem_unseen.2 ⟨List.mem_map.2 ⟨_, Dict.mem_of_get? hn, rfl⟩, hin⟩)
      exact initRest_modes order hon F.rest n hno r m hn
  refine ⟨hkey, ?_⟩
  rw [hkey]
  have hs := (c66_succeeds_partial (W := W) (ops := ops) (order := order) (by rw [h]; simp) hA).1 ⟨s', a, h⟩
  cases hg : Dict.get? args n with
  | none =>
    have := hs.2.1 n _ hn (Dict.get?_eq_none_iff.1 hg)
    exact this.2
  | some v =>
    obtain ⟨d, g1, _, g3⟩ := hs.1 _ (Dict.mem_of_get? hg)
    simp only at g1 g3
    rw [hn] at g1
    cases g1
    cases v with
    | dict e =>
      simp only [modesOf]
      have := g3.2
      cases hm : ((run W init ops).dicts e).modes with
      | some x => simp
      | none =>
        rw [hm] at this
        simpa using this
    | _ => exact g3.2

example : (step W0 (run W0 init prep) (.construct ship shipArgs ["luck", "fuel"])).1.modes 0 "radio" = some ["voice"] := by decide +kernel

theorem initGiven_pop {W : World} {a : Nat} {defs : Dict String Def} (l : List (String × Val)) : ∀ (s : St),
    (initGiven W a defs s l).2 = true → ∀ n d r m, (n, Val.dict d) ∈ l → defs.get? n = some (.comm r m) →
    ((initGiven W a defs s l).1.dicts d).modes = none := by
  induction l with
  | nil => intro s _ n d r m h; cases h
  | cons e l ih =>
    obtain ⟨n0, v0⟩ := e
    intro s h n d r m hin hdef
    unfold initGiven at h ⊢
    cases hd : defs.get? n0 with
    | none => rw [hd] at h; cases h
    | some D =>
      simp only [hd] at h ⊢
      cases hno : D.noInit with
      | true => rw [hno] at h; cases h
      | false =>
        simp only [hno, Bool.false_eq_true, if_false] at h ⊢
        cases hs : (set W s a n0 D v0).2 with
        | false =>
          rw [show set W s a n0 D v0 = ((set W s a n0 D v0).1, false) from Prod.ext rfl hs] at h
          cases h
        | true =>
          have hdict := set_dicts W s a n0 D v0
          rw [show set W s a n0 D v0 = ((set W s a n0 D v0).1, true) from Prod.ext rfl hs] at h ⊢
          simp only at h ⊢
          rcases List.mem_cons.1 hin with heq | hin
          · cases heq
            have hnone : ((set W s a n0 D (.dict d)).1.dicts d).modes = none := by
              rcases hdict with g | ⟨r', m', e, g1, g2, g3, g4⟩
              · rw [hd] at hdef
                cases hdef
                rw [g]
                cases hm : (s.dicts d).modes with
                | none => rfl
                | some x =>
                  have := congrFun g d
                  simp only [set, setComm, hm] at this
                  rw [setModes_dicts, setRes_dicts] at this
                  simp only [upd_same] at this
                  rw [← this] at hm
                  cases hm
              · cases g2
                rw [g4, upd_same]
            rcases (ext_initGiven W a defs l (set W s a n0 D (.dict d)).1).popped d with g | g
            · rw [g, hnone]
            · exact g
          · exact ih _ h n d r m hin hdef

/-- **C66: the negative part.** Making an actor takes the modes out of the caller's dictionary. -/
theorem c66_modes_taken {W : World} {ops : List Op} {s' : St} {defs : Dict String Def} {args : List (String × Val)} {order : List String}
    {a : Nat} (h : step W (run W init ops) (.construct defs args order) = (s', .made a)) {n : String} {d : Nat}
    (hin : (n, .dict d) ∈ args) {r : Res} {m : Option (List String)} (hn : defs.get? n = some (.comm r m)) :
    (s'.dicts d).modes = none := by
  have F := facts h
  rw [F.result, initRest_dicts]
  exact initGiven_pop args _ F.given n d r m hin hn

/-- **C66: the negative part.** So the same call fails the second time, if the class names no modes. -/
theorem c66_modes_lost {W : World} {ops : List Op} {s' : St} {defs : Dict String Def} {args : List (String × Val)} {order : List String}
    {a : Nat} (h : step W (run W init ops) (.construct defs args order) = (s', .made a)) (hA : Apart (run W init ops) defs args)
    {n : String} {d : Nat} (hin : (n, .dict d) ∈ args) {r : Res} (hn : defs.get? n = some (.comm r none)) :
    (step W s' (.construct defs args order)).2 = .raised := by
  have F := facts h
  have hk := known_step (W := W) (s := run W init ops) rfl (by rw [h]; simp : _ ≠ Out.impossible)
  have hE := construct_ext (W := W) (s := run W init ops) (defs := defs) (args := args) (order := order) (by
    rw [← hk.2.2.2, h]; simp)
  rw [← hk.2.2.2, h] at hE
  simp only at hE
  have hs' : s' = run W init (ops ++ [.construct defs args order]) := by
    have : ∀ (l : List Op) (s : St) (op : Op), run W s (l ++ [op]) = (step W (run W s l) op).1 := by
      intro l
      induction l with
      | nil => exact fun s op => rfl
      | cons o l ih => exact fun s op => ih _ op
    rw [this, h]
  have hstep : step W s' (.construct defs args order) = construct W s' defs args order := by
    simp only [step]
    rw [if_pos]
    have hok : (step W (run W init ops) (.construct defs args order)).2 ≠ .impossible := by rw [h]; simp
    simp only [step] at hok
    split at hok
    · rename_i hc
      simp only [Bool.and_eq_true, List.all_eq_true, decide_eq_true_eq] at hc ⊢
      refine ⟨⟨fun e he => ?_, hc.1.2⟩, fun p hp => ⟨(hc.2 p hp).1, ?_⟩⟩
      · exact known_mono hE (by rw [known_register]; exact hc.1.1 e he)
      · exact knownDef_mono hE (by rw [knownDef_register]; exact (hc.2 p hp).2)
    · exact absurd rfl hok
  rw [hstep]
  rcases construct_out (W := W) (s := s') F.perm F.nodup with g | g
  · exact g
  · exfalso
    rw [← hstep] at g
    have hA' : Apart s' defs args := by
      intro x hx y hy e ht hm
      refine hA x hx y hy e ⟨ht.1, ?_, ht.2.2⟩ ?_
      · have := (TakesModes_mono hE ht).2.1
        exact this
      · have := (Mentions_mono hE (by rw [known_register]; exact F.args y hy)).1 hm
        revert this
        cases y.2 <;> exact id
    rw [hs'] at hA' g
    have hfit := (c66_succeeds_partial (W := W) (order := order) (by rw [g]; simp) hA').1 ⟨_, _, Prod.ext rfl g⟩
    obtain ⟨D, g1, _, g3⟩ := hfit.1 _ hin
    simp only at g1 g3
    rw [hn] at g1
    cases g1
    rw [← hs'] at g3
    have := c66_modes_taken h hin hn
    simp only [Fits, this] at g3
    simpa using g3.2

/-- Two ships from one dictionary: the second cannot be made. -/
example : (step W0 (step W0 (run W0 init prep) (.construct ship shipArgs ["luck", "fuel"])).1 (.construct ship shipArgs ["luck", "fuel"])).2
    = .raised := by decide +kernel

/-! ## What belongs to the actor alone -/

/-- **C66.** Everything that came into being for an actor, resources and tables and random numbers, is in one place only: no two states
share it, and nobody had it before. -/
theorem c66_own {W : World} {ops : List Op} {s' : St} {defs : Dict String Def} {args : List (String × Val)} {order : List String}
    {a : Nat} (h : step W (run W init ops) (.construct defs args order) = (s', .made a)) {x : Val} (hx : known (run W init ops) x = false) :
    (∀ p : Place, p.at (run W init ops) ≠ some x) ∧ ∀ p q : Place, p.at s' = some x → q.at s' = some x → p = q := by
  have F := facts h
  refine ⟨fun p hp => ?_, ?_⟩
  · rw [place_known F.inv hp] at hx
    cases hx
  · have hI := inv_register F.inv defs
    have hdefs : (register (run W init ops) defs).defs a = defs := by rw [F.new]; exact upd_same ..
    have hE1 := (ext_initGiven W a defs args (register (run W init ops) defs)).mono (Q := fun _ => True) (fun _ _ => trivial)
    have hS1 := Sole.initGiven hI (W := W) args (Sole.refl hI) hI hdefs (Ext.refl _ _ _)
      (fun e he => by rw [known_register]; exact F.args e he) F.given
    have hI1 := inv_initGiven (W := W) args hI hdefs (fun e he => by rw [known_register]; exact F.args e he)
    have hS2 := Sole.initRest (W := W) order hS1 hI1 (by rw [hE1.defs]; exact hdefs) hE1
      (fun n d hd => by rw [knownDef_register]; exact F.defsKnown n d hd) F.rest
    rw [F.result]
    exact hS2 x (by rw [known_register]; exact hx)

example : known (run W0 init prep) (.obj 5) = false ∧ (Place.entry 7 "port").at
    (step W0 (run W0 init prep) (.construct ship shipArgs ["luck", "fuel"])).1 = some (.obj 5) := by decide +kernel

/-- The negative part: a mutable object as the default of a state is the same for all actors. -/
theorem c66_shared_default : let P : Dict String Def := [("log book", .plain ⟨[], .obj 0, none, false, false, false, []⟩)]
    let s := run W0 init [.newObj 7, .construct P [] ["log book"], .construct P [] ["log book"]]
    s.actors = 2 ∧ s.attrs 0 "log book" = some (.obj 0) ∧ s.attrs 1 "log book" = some (.obj 0) := by decide +kernel

/-! ## What is left alone -/

/-- **C66 (partial).** Making an actor, whether it succeeds or not, changes nothing about other actors, about the objects and tables that
exist, and about the caller's dictionaries, but for the modes of those given to communication stores. Missing: these modes. -/
theorem c66_untouched_partial {W : World} {s : St} {defs : Dict String Def} {args : List (String × Val)} {order : List String} :
    let s' := (step W s (.construct defs args order)).1
    (∀ b n, b < s.actors → s'.attrs b n = s.attrs b n ∧ s'.modes b n = s.modes b n) ∧
    (∀ i, i < s.next → s'.cls i = s.cls i ∧ s'.given i = s.given i ∧ s'.tables i = s.tables i) ∧
    (∀ d, (s'.dicts d).kind = (s.dicts d).kind ∧ (s'.dicts d).kw = (s.dicts d).kw) ∧
    ∀ d, (∀ x ∈ args, ¬ TakesModes s defs d x) → s'.dicts d = s.dicts d := by
  intro s'
  by_cases hi : (step W s (.construct defs args order)).2 = .impossible
  · have : s' = s := by
      change (step W s (.construct defs args order)).1 = s
      simp only [step] at hi ⊢
      split
      · rename_i hc
        rw [if_pos hc] at hi
        unfold construct at hi ⊢
        split
        · rfl
        · rename_i hc2
          exfalso
          have hc3 := hc2
          simp only [Bool.or_eq_true, Bool.not_eq_true', decide_eq_false_iff_not, not_or, Bool.not_eq_false, Decidable.not_not,
            List.isPerm_iff] at hc3
          have := construct_out (W := W) (s := s) hc3.1 hc3.2
          unfold construct at this
          rw [hi] at this
          rcases this with g | g <;> cases g
      · rfl
    rw [this]
    exact ⟨fun _ _ _ => ⟨rfl, rfl⟩, fun _ _ => ⟨rfl, rfl, rfl⟩, fun _ => ⟨rfl, rfl⟩, fun _ _ => rfl⟩
  · have hk := (known_step rfl hi).2.2.2
    have hE : Ext s.actors (fun _ => True) (register s defs) s' := by
      change Ext s.actors (fun _ => True) (register s defs) (step W s (.construct defs args order)).1
      rw [hk] at hi ⊢
      exact construct_ext hi
    refine ⟨fun b n hb => ?_, fun i hi => ⟨hE.cls i hi, hE.given i hi, hE.tables i hi⟩, fun d => ⟨hE.kind d, hE.kw d⟩, fun d hd => ?_⟩
    · have hne : b ≠ s.actors := Nat.ne_of_lt hb
      exact ⟨hE.attrs b n (Or.inl hne), hE.modes b n (Or.inl hne)⟩
    · have hg := initGiven_dicts (W := W) (a := s.actors) args (register s defs) d hd
      change (step W s (.construct defs args order)).1.dicts d = s.dicts d
      rw [hk] at hi ⊢
      unfold construct at hi ⊢
      split
      · rfl
      · simp only
        change (match initGiven W s.actors defs (register s defs) args with
          | (s, false) => (s, Out.raised)
          | (s_1, true) =>
            match initRest W s.actors defs s_1 order with
            | (s_2, some true) =>
              if "log" ∈ defs.keys then (s_2, Out.raised)
              else if (allNames defs).Nodup then (s_2, Out.made s.actors) else (s_2, Out.raised)
            | (s, _) => (s, Out.raised)).1.dicts d = s.dicts d
        split
        · rename_i s1 heq
          rw [heq] at hg
          exact hg
        · rename_i s1 heq
          rw [heq] at hg
          have hr := congrFun (initRest_dicts W s.actors defs order s1) d
          split
          · rename_i s2 heq2
            rw [heq2] at hr
            split
            · exact hr.trans hg
            · split <;> exact hr.trans hg
          · rename_i s2 _ heq2
            rw [heq2] at hr
            exact hr.trans hg

example : ∀ x ∈ shipArgs, ¬ TakesModes (run W0 init prep) ship 0 x := by
  rintro x hx ⟨h1, h2, _⟩
  exact h2 (by decide +kernel)

/-- **C66: the negative part.** An actor that could not be made is registered like the others, with what was set so far. -/
theorem c66_registered {W : World} {s : St} {defs : Dict String Def} {args : List (String × Val)} {order : List String}
    (h : (step W s (.construct defs args order)).2 = .raised) :
    (step W s (.construct defs args order)).1.actors = s.actors + 1 ∧ (step W s (.construct defs args order)).1.defs s.actors = defs := by
  have hk := (known_step (W := W) (s := s) rfl (by rw [h]; simp)).2.2.2
  rw [hk] at h ⊢
  have hE := construct_ext (W := W) (s := s) (by rw [h]; simp)
  exact ⟨hE.actors, by rw [hE.defs]; exact upd_same ..⟩

example : let r := step W0 (run W0 init prep) (.construct ship [("hold", .dict 0), ("mast", .atom 1)] ["luck", "fuel", "radio", "bays"])
    r.2 = .raised ∧ r.1.actors = 1 ∧ r.1.attrs 0 "hold" = some (.obj 3) := by decide +kernel

/-! ## For ever -/

theorem forever_step {W : World} {s : St} (hI : Inv s) {a : Nat} {n : String} {d : Def} (hd : (s.defs a).get? n = some d)
    (hh : d.Holds) {v : Val} (hv : s.attrs a n = some v) (op : Op) :
    (step W s op).1.attrs a n = some v ∧ ((step W s op).1.defs a).get? n = some d := by
  have ha : a < s.actors := by
    refine Classical.byContradiction (fun hc => ?_)
    rw [hI.nodefs a (Nat.le_of_not_lt hc)] at hd
    cases hd
  cases op with
  | newObj c => exact ⟨hv, hd⟩
  | newDict D => simp only [step]; split <;> exact ⟨hv, hd⟩
  | newTable T => simp only [step]; split <;> exact ⟨hv, hd⟩
  | construct defs args order =>
    refine ⟨((c66_untouched_partial (W := W) (s := s) (defs := defs) (args := args) (order := order)).1 a n ha).1.trans hv, ?_⟩
    by_cases hi : (step W s (.construct defs args order)).2 = .impossible
    · simp only [step] at hi ⊢
      split
      · rename_i hc
        rw [if_pos hc] at hi
        unfold construct at hi ⊢
        split
        · exact hd
        · rename_i hc2
          exfalso
          have hc3 := hc2
          simp only [Bool.or_eq_true, Bool.not_eq_true', decide_eq_false_iff_not, not_or, Bool.not_eq_false, Decidable.not_not,
            List.isPerm_iff] at hc3
          have := construct_out (W := W) (s := s) hc3.1 hc3.2
          unfold construct at this
          rw [hi] at this
          rcases this with g | g <;> cases g
      · exact hd
    · have hk := (known_step rfl hi).2.2.2
      rw [hk] at hi ⊢
      rw [(construct_ext hi).defs]
      have : (register s defs).defs a = s.defs a := upd_ne _ _ (Nat.ne_of_lt ha)
      rw [this]
      exact hd
  | assign b m w =>
    simp only [step]
    cases hD : (s.defs b).get? m with
    | none => exact ⟨hv, hd⟩
    | some D =>
      simp only
      split
      · exact ⟨hv, hd⟩
      · have hE := ext_set W s b m D w
        have key : (set W s b m D w).1.attrs a n = some v := by
          by_cases hbm : a = b ∧ n = m
          · obtain ⟨rfl, rfl⟩ := hbm
            rw [hd] at hD
            cases hD
            cases d with
            | plain p => exact hh.elim
            | multi r =>
              simp only [set, setMulti]
              rw [if_pos (by rw [hv]; rfl)]
              exact hv
            | resource r =>
              have hb := hI.been a n _ hd trivial (by rw [hv]; rfl)
              simp only [set, setRes]
              rw [if_pos hb]
              exact hv
            | comm r m =>
              have hb := hI.been a n _ hd trivial (by rw [hv]; rfl)
              cases w with
              | dict e =>
                cases hm : (s.dicts e).modes with
                | none =>
                  simp only [set, setComm, hm]
                  rw [(setModes_shape ..).1]
                  unfold setRes
                  rw [if_pos hb]
                  exact hv
                | some x =>
                  simp only [set, setComm, hm]
                  rw [(setModes_shape ..).1]
                  unfold setRes
                  simp only [hb, if_true]
                  exact hv
              | _ =>
                simp only [set, setComm]
                rw [(setModes_shape ..).1]
                unfold setRes
                rw [if_pos hb]
                exact hv
          · rw [hE.attrs a n (Decidable.not_and_iff_or_not.1 hbm)]
            exact hv
        have hdf : ((set W s b m D w).1.defs a).get? n = some d := by rw [hE.defs]; exact hd
        split
        · rename_i s' heq
          rw [heq] at key hdf
          exact ⟨key, hdf⟩
        · rename_i s' heq
          rw [heq] at key hdf
          exact ⟨key, hdf⟩
  | read b m =>
    simp only [step, read]
    cases hD : (s.defs b).get? m with
    | none => exact ⟨hv, hd⟩
    | some D =>
      simp only
      cases hat : s.attrs b m with
      | some x => exact ⟨hv, hd⟩
      | none =>
        have hne : a ≠ b ∨ n ≠ m := by
          refine Decidable.not_and_iff_or_not.1 (fun hc => ?_)
          obtain ⟨rfl, rfl⟩ := hc
          rw [hv] at hat
          cases hat
        have hE := ext_setDefault W s b m D
        have key : (setDefault W s b m D).1.attrs a n = some v := (hE.attrs a n hne).trans hv
        have hdf : ((setDefault W s b m D).1.defs a).get? n = some d := by rw [hE.defs]; exact hd
        have both : (match setDefault W s b m D with
            | (s, true) => match s.attrs b m with
              | some v => (s, Out.val v)
              | none => (s, .raised)
            | (s, false) => (s, .raised)).1.attrs a n = some v ∧ ((match setDefault W s b m D with
            | (s, true) => match s.attrs b m with
              | some v => (s, Out.val v)
              | none => (s, .raised)
            | (s, false) => (s, .raised)).1.defs a).get? n = some d := by
          cases hq : setDefault W s b m D with
          | mk s' ok =>
            rw [hq] at key hdf
            cases ok with
            | false => exact ⟨key, hdf⟩
            | true =>
              simp only
              cases s'.attrs b m <;> exact ⟨key, hdf⟩
        cases D with
        | plain p => exact ⟨hv, hd⟩
        | multi r => exact ⟨hv, hd⟩
        | resource r => exact both
        | comm r m => exact both

/-- **C66.** The resource, or the table of resources, that a state holds stays the same for ever, whatever is assigned or made later. -/
theorem c66_forever {W : World} (ops ops' : List Op) {a : Nat} {n : String} {d : Def}
    (hd : ((run W init ops).defs a).get? n = some d) (hh : d.Holds) {v : Val} (hv : (run W init ops).attrs a n = some v) :
    (run W (run W init ops) ops').attrs a n = some v := by
  have key : ∀ (l : List Op) (s : St), Inv s → (s.defs a).get? n = some d → s.attrs a n = some v → (run W s l).attrs a n = some v := by
    intro l
    induction l with
    | nil => exact fun s _ _ h => h
    | cons op l ih =>
      intro s hI hd hv
      obtain ⟨h1, h2⟩ := forever_step (W := W) hI hd hh hv op
      exact ih _ (inv_step hI op) h2 h1
  exact key ops' _ (inv_run ops inv_init) hd hv

example : let s := run W0 init (prep ++ [.construct ship shipArgs ["luck", "fuel"], .newObj 0])
    (s.defs 0).get? "hold" = some (.resource ⟨[0], some 1, [("capacity", .atom 5)]⟩) ∧ s.attrs 0 "hold" = some (.obj 3) ∧
    (step W0 s (.assign 0 "hold" (.obj 8))).2 = .raised ∧ (step W0 s (.assign 0 "fuel" (.atom 9))).2 = .ok := by decide +kernel

/-! ## Random numbers -/

theorem drawn_iff {defs : Dict String Def} {n : String} : drawn defs n = true ↔ Draws defs n := by
  unfold drawn Draws
  cases h : defs.get? n with
  | none => simp
  | some d =>
    cases d with
    | plain p => simp [Def.draws]
    | _ => simp [Def.draws]

/-- **C66 (partial).** Every state that is filled at random and not given takes one random number, the next ones of the stage, each
another (`c66_own`). If there is one such state, it takes the next number. Missing: which takes which, see `c66_random_order`. -/
theorem c66_random_partial {W : World} {ops : List Op} {s' : St} {defs : Dict String Def} {args : List (String × Val)} {order : List String}
    {a : Nat} (h : step W (run W init ops) (.construct defs args order) = (s', .made a)) (names : List String) (hn : names.Nodup)
    (hd : ∀ n, n ∈ names ↔ Draws defs n ∧ n ∉ args.map (·.1)) :
    s'.count = (run W init ops).count + names.length ∧
      (∀ n ∈ names, ∃ j, (run W init ops).count ≤ j ∧ j < s'.count ∧ s'.attrs a n = some (.drawn j)) ∧
      ∀ n, names = [n] → s'.attrs a n = some (.drawn (run W init ops).count) := by
  have F := facts h
  have hon : order.Nodup := F.perm.nodup_iff.2 (unseen_nodup F.wf args)
  have hperm : (order.filter (drawn defs)).Perm names := by
    refine (List.perm_ext_iff_of_nodup (List.Nodup.sublist List.filter_sublist hon) hn).2 (fun n => ?_)
    rw [List.mem_filter, hd, drawn_iff, F.perm.mem_iff, mem_unseen]
    constructor
    · exact fun ⟨h1, h2⟩ => ⟨h2, h1.2⟩
    · rintro ⟨⟨p, h1, h2⟩, h3⟩
      exact ⟨⟨List.mem_map.2 ⟨_, Dict.mem_of_get? h1, rfl⟩, h3⟩, p, h1, h2⟩
  have hc : s'.count = (run W init ops).count + names.length := by
    rw [F.result, initRest_count order _ F.rest, initGiven_count, hperm.length_eq]
    rfl
  have hall : ∀ n ∈ names, ∃ j, (run W init ops).count ≤ j ∧ j < s'.count ∧ s'.attrs a n = some (.drawn j) := by
    intro n hnn
    obtain ⟨⟨p, h1, h2⟩, h3⟩ := (hd n).1 hnn
    have hb := (c66_values h).1 n _ h1
    rw [Dict.get?_eq_none_iff.2 h3] at hb
    simp only [Built, h2] at hb
    exact hb
  refine ⟨hc, hall, fun n hnn => ?_⟩
  obtain ⟨j, h1, h2, h3⟩ := hall n (by rw [hnn]; simp)
  rw [hc, hnn] at h2
  simp only [List.length_singleton] at h2
  have : j = (run W init ops).count := by omega
  rw [← this]
  exact h3

example : ∀ n, n ∈ ["luck"] ↔ Draws ship n ∧ n ∉ shipArgs.map (·.1) := by
  intro n
  rw [List.mem_singleton]
  constructor
  · rintro rfl
    exact ⟨⟨_, rfl, rfl⟩, by decide⟩
  · rintro ⟨⟨p, h1, h2⟩, h3⟩
    have hm := Dict.mem_of_get? h1
    simp only [ship, List.mem_cons, Prod.mk.injEq, List.not_mem_nil, or_false] at hm
    rcases hm with ⟨rfl, e⟩ | ⟨rfl, e⟩ | ⟨rfl, e⟩ | ⟨rfl, e⟩ | ⟨rfl, e⟩
    · cases e; cases h2
    · rfl
    · cases e
    · cases e
    · cases e

/-- **C66: the negative part.** Which state takes which number depends on the order in which Python walks through a set of strings, which
differs from one run of the interpreter to the next: the same program with the same seed can make different actors. -/
theorem c66_random_order : let D : Def := .plain ⟨[], .none, some .draw, false, false, false, []⟩
    (step W0 init (.construct [("x", D), ("y", D)] [] ["x", "y"])).2 = .made 0 ∧
    (step W0 init (.construct [("x", D), ("y", D)] [] ["y", "x"])).2 = .made 0 ∧
    (step W0 init (.construct [("x", D), ("y", D)] [] ["x", "y"])).1.attrs 0 "x" = some (.drawn 0) ∧
    (step W0 init (.construct [("x", D), ("y", D)] [] ["y", "x"])).1.attrs 0 "x" = some (.drawn 1) := by decide +kernel

/-! ## Classes -/

/-- **C66.** A class of actors can be declared exactly if no two classes it derives from declare a state of the same name; it then has
exactly the states they declare. So a state can not be declared anew in a subclass. -/
theorem c66_class (bases : List (List (String × Def))) :
    ((collect bases []).isSome = true ↔ (bases.flatten.map (·.1)).Nodup) ∧
      ∀ all, collect bases [] = some all → ∀ n d, all.get? n = some d ↔ ∃ b ∈ bases, (n, d) ∈ b := by
  rw [collect_eq]
  constructor
  · by_cases h : (bases.flatten.map (·.1)).Nodup
    · rw [if_pos ⟨h, by simp [Dict.keys]⟩]; simp only [Option.isSome_some, true_iff]; exact h
    · rw [if_neg (fun hc => h hc.1)]; simp only [Option.isSome_none, Bool.false_eq_true, false_iff]; exact h
  · intro all h n d
    split at h
    · rename_i hc
      cases h
      simp only [List.nil_append]
      constructor
      · intro hg
        exact List.mem_flatten.1 (Dict.mem_of_get? hg)
      · intro hg
        exact Dict.get?_of_mem hc.1 (List.mem_flatten.2 hg)
    · cases h

/-- A base class, a class with two more states; and one that declares a state anew. -/
example : (collect [[], [("fuel", .resource ⟨[], none, []⟩)], ship.tail] []).isSome = true :=
  (c66_class _).1.2 (by decide +kernel)
example : collect [[("fuel", .resource ⟨[], none, []⟩)], ship] [] = none := by
  rw [← Option.not_isSome_iff_eq_none, (c66_class _).1]
  decide +kernel

/-! ## What is not checked -/

/-- **C66: the negative part.** A `MultiStoreState` without valid types takes anything as a store, for instance a number. -/
theorem c66_anything : let s := run W0 init [.newTable (.named [("port", .atom 5)]),
      .construct [("bays", .multi ⟨[], none, []⟩)] [("bays", .table 0)] []]
    s.attrs 0 "bays" = some (.table 1) ∧ s.tables 1 = .named [("port", .atom 5)] := by decide +kernel

end Verif.Build
