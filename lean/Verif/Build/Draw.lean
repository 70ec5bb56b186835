import Verif.Build.Sole

/-!
# How many random numbers are drawn, and what classes collect
-/

namespace Verif.Build

/-- The default of the state is a random number. -/
def Def.draws : Def → Bool
  | .plain p => decide (p.factory = some .draw)
  | _ => false

theorem setPlain_count (W : World) (s : St) (a : Nat) (n : String) (p : Plain) (v : Val) : (setPlain W s a n p v).1.count = s.count := by
  unfold setPlain
  generalize (p.frozen && (match s.attrs a n with | some w => decide (w ≠ .none) | none => false)) = b
  cases b
  · rw [if_neg (by simp)]; split <;> rfl
  · rfl

theorem setDesc_count (W : World) (s : St) (a : Nat) (n : String) (r : Res) (D : Desc) : (setDesc W s a n r D).1.count = s.count := by
  cases hb : (setDesc W s a n r D).2 with
  | true => obtain ⟨c, kw, h⟩ := setDesc_eq hb; rw [h]; rfl
  | false => rw [setDesc_false hb]

theorem setRes_count (W : World) (s : St) (a : Nat) (n : String) (r : Res) (v : Val) : (setRes W s a n r v).1.count = s.count := by
  have hother : ∀ v : Val, (if r.valid.any (isA W s v) then
      (({ s with attrs := upd2 s.attrs a n (some v), beenSet := upd2 s.beenSet a n true }, true) : St × Bool) else (s, false)).1.count
        = s.count := by
    intro v; split <;> rfl
  unfold setRes
  split
  · rfl
  · cases v with
    | dict d => exact setDesc_count ..
    | _ => exact hother _

theorem setModes_count (p : St × Bool) (a : Nat) (n : String) (m : Option (List String)) : (setModes p a n m).1.count = p.1.count := by
  unfold setModes; split <;> rfl

theorem makeEntry_count (W : World) (s : St) (r : Res) (v : Option Val) : (makeEntry W s r v).1.count = s.count := by
  cases v with
  | none =>
    by_cases hf : FitsDesc W r .empty
    · obtain ⟨c, _, he⟩ := makeEmpty_eq (s := s) hf
      simp only [makeEntry, he]; rfl
    · simp only [makeEntry, makeEmpty_none hf]
  | some v =>
    cases v with
    | dict d =>
      by_cases hf : FitsDesc W r (s.dicts d)
      · obtain ⟨c, _, he⟩ := makeOne_eq hf
        simp only [makeEntry, he]; rfl
      · simp only [makeEntry, makeOne_none hf]
    | _ => rfl

theorem makeAll_count (W : World) (r : Res) (l : List (String × Option Val)) : ∀ (s : St) (use : Dict String Val),
    (makeAll W r s l use).1.count = s.count := by
  induction l with
  | nil => exact fun s use => rfl
  | cons e l ih =>
    obtain ⟨k, v⟩ := e
    intro s use
    rw [makeAll_cons]
    have h := makeEntry_count W s r v
    split
    · rename_i s' x heq
      rw [heq] at h
      rw [ih]; exact h
    · rename_i s' heq
      rw [heq] at h
      exact h

theorem set_count (W : World) (s : St) (a : Nat) (n : String) (d : Def) (v : Val) : (set W s a n d v).1.count = s.count := by
  cases d with
  | plain p => exact setPlain_count ..
  | resource r => exact setRes_count ..
  | comm r m =>
    cases v with
    | dict e =>
      cases hm : (s.dicts e).modes with
      | none => simp only [set, setComm, hm]; rw [setModes_count, setRes_count]
      | some m' => simp only [set, setComm, hm]; rw [setModes_count, setRes_count]
    | _ => simp only [set, setComm]; rw [setModes_count, setRes_count]
  | multi r =>
    simp only [set, setMulti]
    split
    · rfl
    · cases v with
      | table t =>
        simp only
        have := makeAll_count W r (s.tables t).entries s []
        split
        · rename_i s' heq; rw [heq] at this; exact this
        · rename_i s' use heq; rw [heq] at this; exact this
      | _ => rfl

theorem setDefault_count (W : World) (s : St) (a : Nat) (n : String) (d : Def) :
    (setDefault W s a n d).1.count = s.count + if d.draws then 1 else 0 := by
  cases d with
  | plain p =>
    obtain ⟨types, default, factory, noInit, frozen, allowNone, recs⟩ := p
    cases factory with
    | some f =>
      cases f with
      | make c => simp only [setDefault, Def.draws]; rw [setPlain_count]; simp [newObj]
      | draw => simp only [setDefault, Def.draws]; rw [setPlain_count]; simp
    | none =>
      simp only [setDefault, Def.draws]
      split
      · simp
      · rw [setPlain_count]; simp
  | resource r =>
    simp only [setDefault, Def.draws]
    split
    · simp
    · rw [setDesc_count]; simp
  | comm r m =>
    simp only [setDefault, Def.draws]
    rw [setModes_count]
    split
    · simp
    · rw [setDesc_count]; simp
  | multi r => simp [setDefault, Def.draws]

/-- The state `n` of the class draws a number. -/
def drawn (defs : Dict String Def) (n : String) : Bool :=
  match defs.get? n with
  | some d => d.draws
  | none => false

theorem initGiven_count {W : World} {a : Nat} {defs : Dict String Def} (l : List (String × Val)) : ∀ (s : St),
    (initGiven W a defs s l).1.count = s.count := by
  induction l with
  | nil => exact fun s => rfl
  | cons e l ih =>
    obtain ⟨n, v⟩ := e
    intro s
    unfold initGiven
    split
    · rfl
    · rename_i d _
      split
      · rfl
      · have h := set_count W s a n d v
        split
        · rename_i s' heq
          rw [heq] at h
          rw [ih]; exact h
        · rename_i s' heq
          rw [heq] at h
          exact h

theorem initRest_count {W : World} {a : Nat} {defs : Dict String Def} (l : List String) : ∀ (s : St),
    (initRest W a defs s l).2 = some true → (initRest W a defs s l).1.count = s.count + (l.filter (drawn defs)).length := by
  induction l with
  | nil => exact fun s _ => rfl
  | cons n l ih =>
    intro s h
    unfold initRest at h ⊢
    cases hd : defs.get? n with
    | none => rw [hd] at h; cases h
    | some d =>
      simp only [hd] at h ⊢
      cases hdef : d.hasDefault with
      | false =>
        rw [hdef] at h
        simp only [Bool.false_eq_true, if_false] at h
        split at h <;> cases h
      | true =>
        simp only [hdef, if_true] at h ⊢
        have hc := setDefault_count W s a n d
        have hdr : drawn defs n = d.draws := by simp [drawn, hd]
        cases hs : (setDefault W s a n d).2 with
        | false =>
          rw [show setDefault W s a n d = ((setDefault W s a n d).1, false) from Prod.ext rfl hs] at h
          cases h
        | true =>
          rw [show setDefault W s a n d = ((setDefault W s a n d).1, true) from Prod.ext rfl hs] at h ⊢
          simp only at h ⊢
          rw [ih _ h, hc, List.filter_cons, hdr]
          cases d.draws <;> simp <;> omega

/-! ## Classes -/

theorem collect_eq (bases : List (List (String × Def))) (all : Dict String Def) :
    collect bases all =
      if (bases.flatten.map (·.1)).Nodup ∧ ∀ n ∈ bases.flatten.map (·.1), n ∉ all.keys then some (all ++ bases.flatten) else none := by
  fun_induction collect bases all with
  | case1 all => simp
  | case2 bases all ih => rw [ih]; simp
  | case3 n d l bases all h =>
    rw [if_neg]
    rintro ⟨_, h2⟩
    exact h2 n (by simp) (Dict.has_iff.1 h)
  | case4 n d l bases all h ih =>
    have hn : n ∉ all.keys := fun hc => h (Dict.has_iff.2 hc)
    rw [ih]
    have hset : all.set n d = all ++ [(n, d)] := Dict.mem_set_new (Dict.get?_eq_none_iff.2 hn)
    rw [hset]
    have hkeys : Dict.keys (all ++ [(n, d)]) = all.keys ++ [n] := by simp [Dict.keys]
    rw [hkeys]
    have e : (((n, d) :: l) :: bases).flatten = (n, d) :: (l :: bases).flatten := rfl
    rw [e]
    simp only [List.map_cons, List.nodup_cons, List.mem_append, List.mem_singleton, List.forall_mem_cons, not_or]
    by_cases hc : ((l :: bases).flatten.map (·.1)).Nodup ∧ ∀ m ∈ (l :: bases).flatten.map (·.1), m ∉ all.keys ∧ ¬ m = n
    · rw [if_pos hc, if_pos]
      · simp
      · exact ⟨⟨fun hm => (hc.2 n hm).2 rfl, hc.1⟩, hn, fun m hm => (hc.2 m hm).1⟩
    · rw [if_neg hc, if_neg]
      rintro ⟨⟨h1, h2⟩, _, h3⟩
      exact hc ⟨h2, fun m hm => ⟨h3 m hm, fun he => h1 (he ▸ hm)⟩⟩

end Verif.Build
