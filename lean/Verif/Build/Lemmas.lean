import Verif.Build.Spec

/-!
# Helper lemmas: what setting one state leaves alone, and what it does
-/

namespace Verif.Build

theorem upd_same {α : Type} (f : Nat → α) (i : Nat) (x : α) : upd f i x i = x := by simp [upd]
theorem upd_ne {α : Type} (f : Nat → α) {i j : Nat} (x : α) (h : j ≠ i) : upd f i x j = f j := by simp [upd, h]
theorem upd2_same {α : Type} (f : Nat → String → α) (i : Nat) (n : String) (x : α) : upd2 f i n x i n = x := by simp [upd2]
theorem upd2_ne {α : Type} (f : Nat → String → α) {i j : Nat} {n m : String} (x : α) (h : j ≠ i ∨ m ≠ n) :
    upd2 f i n x j m = f j m := by
  unfold upd2
  rw [if_neg]
  rintro ⟨rfl, rfl⟩
  rcases h with h | h <;> exact h rfl

/-- What cannot change while states `P` of actor `a` are set. -/
structure Ext (a : Nat) (P : String → Prop) (s s' : St) : Prop where
  next : s.next ≤ s'.next
  cls : ∀ i < s.next, s'.cls i = s.cls i
  given : ∀ i < s.next, s'.given i = s.given i
  tables : ∀ i < s.next, s'.tables i = s.tables i
  kind : ∀ d, (s'.dicts d).kind = (s.dicts d).kind
  kw : ∀ d, (s'.dicts d).kw = (s.dicts d).kw
  popped : ∀ d, (s'.dicts d).modes = (s.dicts d).modes ∨ (s'.dicts d).modes = none
  actors : s'.actors = s.actors
  defs : s'.defs = s.defs
  attrs : ∀ b m, b ≠ a ∨ ¬ P m → s'.attrs b m = s.attrs b m
  modes : ∀ b m, b ≠ a ∨ ¬ P m → s'.modes b m = s.modes b m
  been : ∀ b m, b ≠ a ∨ ¬ P m → s'.beenSet b m = s.beenSet b m
  count : s.count ≤ s'.count

theorem Ext.refl (a : Nat) (P : String → Prop) (s : St) : Ext a P s s :=
  ⟨Nat.le_refl _, fun _ _ => rfl, fun _ _ => rfl, fun _ _ => rfl, fun _ => rfl, fun _ => rfl, fun _ => Or.inl rfl, rfl, rfl,
    fun _ _ _ => rfl, fun _ _ _ => rfl, fun _ _ _ => rfl, Nat.le_refl _⟩

theorem Ext.trans {a : Nat} {P : String → Prop} {s s' s'' : St} (h : Ext a P s s') (h' : Ext a P s' s'') : Ext a P s s'' where
  next := Nat.le_trans h.next h'.next
  cls i hi := (h'.cls i (Nat.lt_of_lt_of_le hi h.next)).trans (h.cls i hi)
  given i hi := (h'.given i (Nat.lt_of_lt_of_le hi h.next)).trans (h.given i hi)
  tables i hi := (h'.tables i (Nat.lt_of_lt_of_le hi h.next)).trans (h.tables i hi)
  kind d := (h'.kind d).trans (h.kind d)
  kw d := (h'.kw d).trans (h.kw d)
  popped d := by
    rcases h'.popped d with h2 | h2
    · rcases h.popped d with h1 | h1
      · exact Or.inl (h2.trans h1)
      · exact Or.inr (h2.trans h1)
    · exact Or.inr h2
  actors := h'.actors.trans h.actors
  defs := h'.defs.trans h.defs
  attrs b m hm := (h'.attrs b m hm).trans (h.attrs b m hm)
  modes b m hm := (h'.modes b m hm).trans (h.modes b m hm)
  been b m hm := (h'.been b m hm).trans (h.been b m hm)
  count := Nat.le_trans h.count h'.count

theorem Ext.mono {a : Nat} {P Q : String → Prop} {s s' : St} (h : Ext a P s s') (hPQ : ∀ m, P m → Q m) : Ext a Q s s' :=
  { h with
    attrs := fun b m hm => h.attrs b m (hm.imp_right (fun hq hp => hq (hPQ m hp)))
    modes := fun b m hm => h.modes b m (hm.imp_right (fun hq hp => hq (hPQ m hp)))
    been := fun b m hm => h.been b m (hm.imp_right (fun hq hp => hq (hPQ m hp))) }

theorem ext_setAttr (s : St) (a : Nat) (n : String) (v : Option Val) :
    Ext a (· = n) s { s with attrs := upd2 s.attrs a n v } :=
  { Ext.refl a (· = n) s with attrs := fun b m hm => upd2_ne _ _ hm }

theorem ext_newObj (a : Nat) (P : String → Prop) (s : St) (c : Nat) (kw : Dict String Val) : Ext a P s (newObj s c kw) :=
  { Ext.refl a P s with
    next := Nat.le_succ _
    cls := fun i hi => upd_ne _ _ (Nat.ne_of_lt hi)
    given := fun i hi => upd_ne _ _ (Nat.ne_of_lt hi) }

theorem ext_setPlain (W : World) (s : St) (a : Nat) (n : String) (p : Plain) (v : Val) :
    Ext a (· = n) s (setPlain W s a n p v).1 := by
  unfold setPlain
  repeat' split
  all_goals first | exact Ext.refl _ _ _ | exact ext_setAttr _ _ _ _

theorem ext_setDesc (W : World) (s : St) (a : Nat) (n : String) (r : Res) (D : Desc) :
    Ext a (· = n) s (setDesc W s a n r D).1 := by
  unfold setDesc
  split
  · exact Ext.refl _ _ _
  · split
    · exact Ext.refl _ _ _
    · simp only
      split
      · refine { ext_newObj a (· = n) s _ _ with attrs := ?_, been := ?_ }
        · exact fun b m hm => upd2_ne _ _ hm
        · exact fun b m hm => upd2_ne _ _ hm
      · exact Ext.refl _ _ _

theorem ext_setRes (W : World) (s : St) (a : Nat) (n : String) (r : Res) (v : Val) :
    Ext a (· = n) s (setRes W s a n r v).1 := by
  unfold setRes
  split
  · exact Ext.refl _ _ _
  · split
    · exact ext_setDesc ..
    · split
      · refine { Ext.refl a (· = n) s with attrs := ?_, been := ?_ }
        · exact fun b m hm => upd2_ne _ _ hm
        · exact fun b m hm => upd2_ne _ _ hm
      · exact Ext.refl _ _ _

theorem ext_setModes {s : St} {p : St × Bool} {a : Nat} {n : String} (h : Ext a (· = n) s p.1) (m : Option (List String)) :
    Ext a (· = n) s (setModes p a n m).1 := by
  unfold setModes
  split
  · exact { h with modes := fun b k hk => (upd2_ne _ _ hk).trans (h.modes b k hk) }
  · exact h

theorem ext_setComm (W : World) (s : St) (a : Nat) (n : String) (r : Res) (m : Option (List String)) (v : Val) :
    Ext a (· = n) s (setComm W s a n r m v).1 := by
  unfold setComm
  split
  · rename_i d
    split
    · refine ext_setModes (Ext.trans ?_ (ext_setRes ..)) _
      refine { Ext.refl a (· = n) s with kind := ?_, kw := ?_, popped := ?_ }
      · intro e
        by_cases h : e = d
        · rw [h]; simp [upd]
        · simp [upd, h]
      · intro e
        by_cases h : e = d
        · rw [h]; simp [upd]
        · simp [upd, h]
      · intro e
        by_cases h : e = d
        · rw [h]; exact Or.inr (by simp [upd])
        · exact Or.inl (by simp [upd, h])
    · exact ext_setModes (ext_setRes ..) _
  · exact ext_setModes (ext_setRes ..) _

theorem ext_makeOne (W : World) (s : St) (r : Res) (v : Val) (a : Nat) (P : String → Prop) : Ext a P s (makeOne W s r v).1 := by
  unfold makeOne
  split
  · split
    · exact Ext.refl _ _ _
    · split
      · exact Ext.refl _ _ _
      · simp only
        split
        · exact ext_newObj _ _ _ _ _
        · exact Ext.refl _ _ _
  · exact Ext.refl _ _ _

theorem ext_makeEmpty (W : World) (s : St) (r : Res) (a : Nat) (P : String → Prop) : Ext a P s (makeEmpty W s r).1 := by
  unfold makeEmpty
  repeat' split
  all_goals first | exact Ext.refl _ _ _ | exact ext_newObj _ _ _ _ _

/-- One turn of the loop of `makeAll`. -/
def makeEntry (W : World) (s : St) (r : Res) : Option Val → St × Option Val
  | some v => makeOne W s r v
  | none => makeEmpty W s r

theorem makeAll_cons (W : World) (r : Res) (s : St) (k : String) (v : Option Val) (l : List (String × Option Val))
    (use : Dict String Val) : makeAll W r s ((k, v) :: l) use =
      match makeEntry W s r v with
      | (s, some x) => makeAll W r s l (use.set k x)
      | (s, none) => (s, none) := by
  cases v <;> rfl

theorem ext_makeEntry (W : World) (s : St) (r : Res) (v : Option Val) (a : Nat) (P : String → Prop) :
    Ext a P s (makeEntry W s r v).1 := by
  cases v
  · exact ext_makeEmpty ..
  · exact ext_makeOne ..

theorem ext_makeAll (W : World) (r : Res) (a : Nat) (P : String → Prop) (l : List (String × Option Val)) :
    ∀ (s : St) (use : Dict String Val), Ext a P s (makeAll W r s l use).1 := by
  induction l with
  | nil => exact fun s use => Ext.refl _ _ _
  | cons p l ih =>
    obtain ⟨k, v⟩ := p
    intro s use
    rw [makeAll_cons]
    have h := ext_makeEntry W s r v a P
    split
    · rename_i s' x heq
      rw [heq] at h
      exact h.trans (ih _ _)
    · rename_i s' heq
      rw [heq] at h
      exact h

theorem ext_setMulti (W : World) (s : St) (a : Nat) (n : String) (r : Res) (v : Val) :
    Ext a (· = n) s (setMulti W s a n r v).1 := by
  unfold setMulti
  split
  · exact Ext.refl _ _ _
  · split
    · rename_i t
      have h := ext_makeAll W r a (· = n) (s.tables t).entries s []
      split
      · rename_i s' heq
        rw [heq] at h
        exact h
      · rename_i s' use heq
        rw [heq] at h
        refine h.trans ?_
        refine { Ext.refl a (· = n) s' with next := Nat.le_succ _, tables := ?_, attrs := ?_ }
        · exact fun i hi => upd_ne _ _ (Nat.ne_of_lt hi)
        · exact fun b m hm => upd2_ne _ _ hm
    · exact Ext.refl _ _ _

theorem ext_set (W : World) (s : St) (a : Nat) (n : String) (d : Def) (v : Val) : Ext a (· = n) s (set W s a n d v).1 := by
  unfold set
  split
  · exact ext_setPlain ..
  · exact ext_setRes ..
  · exact ext_setComm ..
  · exact ext_setMulti ..

theorem ext_setDefault (W : World) (s : St) (a : Nat) (n : String) (d : Def) : Ext a (· = n) s (setDefault W s a n d).1 := by
  unfold setDefault
  split
  · split
    · exact (ext_newObj a _ s _ _).trans (ext_setPlain ..)
    · refine Ext.trans ?_ (ext_setPlain ..)
      exact { Ext.refl a (· = n) s with count := Nat.le_succ _ }
    · split
      · exact Ext.refl _ _ _
      · exact ext_setPlain ..
  · split
    · exact Ext.refl _ _ _
    · exact ext_setDesc ..
  · refine ext_setModes ?_ _
    split
    · exact Ext.refl _ _ _
    · exact ext_setDesc ..
  · exact Ext.refl _ _ _

theorem ext_initGiven (W : World) (a : Nat) (defs : Dict String Def) (l : List (String × Val)) :
    ∀ s, Ext a (· ∈ l.map (·.1)) s (initGiven W a defs s l).1 := by
  induction l with
  | nil => exact fun s => Ext.refl _ _ _
  | cons p l ih =>
    obtain ⟨n, v⟩ := p
    intro s
    unfold initGiven
    split
    · exact Ext.refl _ _ _
    · rename_i d _
      split
      · exact Ext.refl _ _ _
      · have h := (ext_set W s a n d v).mono (Q := (· ∈ ((n, v) :: l).map (·.1))) (by rintro m rfl; simp)
        split
        · rename_i s' heq
          rw [heq] at h
          exact h.trans ((ih _).mono (by intro m hm; simp only [List.map_cons, List.mem_cons]; exact Or.inr hm))
        · rename_i s' heq
          rw [heq] at h
          exact h

theorem ext_initRest (W : World) (a : Nat) (defs : Dict String Def) (l : List String) :
    ∀ s, Ext a (· ∈ l) s (initRest W a defs s l).1 := by
  induction l with
  | nil => exact fun s => Ext.refl _ _ _
  | cons n l ih =>
    intro s
    unfold initRest
    have ih' := fun s => (ih s).mono (Q := (· ∈ n :: l)) (fun m hm => List.mem_cons_of_mem _ hm)
    split
    · exact Ext.refl _ _ _
    · rename_i d _
      split
      · have h := (ext_setDefault W s a n d).mono (Q := (· ∈ n :: l)) (by rintro m rfl; simp)
        split
        · rename_i s' heq
          rw [heq] at h
          exact h.trans (ih' _)
        · rename_i s' heq
          rw [heq] at h
          exact h
      · have h := ih' s
        split
        · rename_i s' b heq
          rw [heq] at h
          exact h
        · rename_i s' heq
          rw [heq] at h
          exact h

end Verif.Build
