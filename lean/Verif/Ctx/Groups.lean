import Verif.Ctx.Lemmas
import Mathlib.Data.List.Induction

/-!
# Groups of classes and what creating instances adds
-/

namespace Verif.Ctx

/-- A class brings in its declared groups and, unless told not to, its own name. -/
def Names (k : Cls) (g : Nat) : Prop := k.optOut = false ∧ (g ∈ k.declared ∨ (g = k.name ∧ k.skipName = false))

/-- Instances of class `c` belong to group `g`: the class has not opted out and it, or one of its ancestors that has not opted
out, brings in `g`. -/
def InGroup (cs : List Cls) (c g : Nat) : Prop :=
  ∃ k, cs[c]? = some k ∧ k.optOut = false ∧ (Names k g ∨ ∃ b ∈ k.bases, ∃ kb, cs[b]? = some kb ∧ Names kb g)

/-- Bases are defined earlier, and the ancestors of an ancestor are ancestors. -/
def Mro (cs : List Cls) : Prop :=
  ∀ (c : Nat) k, cs[c]? = some k → ∀ b ∈ k.bases, b < c ∧ ∀ kb, cs[b]? = some kb → ∀ x ∈ kb.bases, x ∈ k.bases

theorem mem_add {l : List Nat} {x y : Nat} : y ∈ add l x ↔ y ∈ l ∨ y = x := by
  unfold add
  split
  · constructor
    · exact Or.inl
    · rintro (h | h)
      · exact h
      · subst h; assumption
  · simp

theorem nodup_add {l : List Nat} {x : Nat} (h : l.Nodup) : (add l x).Nodup := by
  unfold add
  split
  · exact h
  · rw [List.nodup_append]
    exact ⟨h, by simp, by intro a ha b hb; simp at hb; subst hb; intro e; subst e; contradiction⟩

theorem mem_addAll (xs : List Nat) : ∀ {l : List Nat} {y : Nat}, y ∈ addAll l xs ↔ y ∈ l ∨ y ∈ xs := by
  induction xs with
  | nil => intro l y; simp [addAll]
  | cons x r ih =>
    intro l y
    have := ih (l := add l x) (y := y)
    simp only [addAll, List.foldl_cons] at this ⊢
    rw [this, mem_add, List.mem_cons]
    grind

theorem nodup_addAll (xs : List Nat) : ∀ {l : List Nat}, l.Nodup → (addAll l xs).Nodup := by
  induction xs with
  | nil => intro l h; exact h
  | cons x r ih => intro l h; exact ih (nodup_add h)

theorem mem_foldl_addAll (attrs : List (List Nat)) (bs : List Nat) : ∀ {l : List Nat} {y : Nat},
    y ∈ bs.foldl (fun g b => addAll g (attrs.getD b [])) l ↔ y ∈ l ∨ ∃ b ∈ bs, y ∈ attrs.getD b [] := by
  induction bs with
  | nil => intro l y; simp
  | cons b r ih =>
    intro l y
    rw [List.foldl_cons, ih, mem_addAll]
    simp only [List.mem_cons, exists_eq_or_imp]
    grind

theorem nodup_foldl_addAll (attrs : List (List Nat)) (bs : List Nat) : ∀ {l : List Nat}, l.Nodup →
    (bs.foldl (fun g b => addAll g (attrs.getD b [])) l).Nodup := by
  induction bs with
  | nil => intro l h; exact h
  | cons b r ih => intro l h; rw [List.foldl_cons]; exact ih (nodup_addAll _ h)

theorem mem_ownGroups {attrs : List (List Nat)} {k : Cls} {g : Nat} :
    g ∈ ownGroups attrs k ↔ k.optOut = false ∧ (Names k g ∨ ∃ b ∈ k.bases, g ∈ attrs.getD b []) := by
  unfold ownGroups Names
  cases ho : k.optOut with
  | true => simp
  | false =>
    simp only [Bool.false_eq_true, if_false, true_and]
    rw [mem_foldl_addAll]
    split <;> rename_i hc
    · rw [mem_add, mem_addAll]
      simp only [List.not_mem_nil, false_or]
      grind
    · rw [mem_addAll]
      simp only [List.not_mem_nil, false_or]
      have : k.skipName = false → k.name ∈ k.declared := by
        intro hs
        by_cases hm : k.name ∈ addAll [] k.declared
        · simpa [mem_addAll] using hm
        · exact absurd ⟨hm, hs⟩ hc
      grind

theorem nodup_ownGroups (attrs : List (List Nat)) (k : Cls) : (ownGroups attrs k).Nodup := by
  unfold ownGroups
  split
  · exact List.nodup_nil
  · apply nodup_foldl_addAll
    split
    · exact nodup_add (nodup_addAll _ List.nodup_nil)
    · exact nodup_addAll _ List.nodup_nil

theorem groupsOf_append (cs : List Cls) (k : Cls) : groupsOf (cs ++ [k]) = groupsOf cs ++ [ownGroups (groupsOf cs) k] := by
  simp [groupsOf]

theorem groupsOf_length (cs : List Cls) : (groupsOf cs).length = cs.length := by
  induction cs using List.reverseRecOn with
  | nil => rfl
  | append_singleton cs k ih => rw [groupsOf_append]; simp [ih]

theorem nodup_groups (cs : List Cls) (c : Nat) : ((groupsOf cs).getD c []).Nodup := by
  induction cs using List.reverseRecOn with
  | nil => simp [groupsOf]
  | append_singleton cs k ih =>
    rw [groupsOf_append, List.getD_eq_getElem?_getD]
    rw [List.getD_eq_getElem?_getD] at ih
    by_cases h : c < cs.length
    · rw [List.getElem?_append_left (by rw [groupsOf_length]; exact h)]; exact ih
    · rw [List.getElem?_append_right (by rw [groupsOf_length]; omega), groupsOf_length]
      cases hc : c - cs.length with
      | zero => simpa using nodup_ownGroups _ _
      | succ n => simp

/-- The groups of a class are those it should be in. -/
theorem mem_groupsOf (cs : List Cls) (h : Mro cs) (c g : Nat) : g ∈ (groupsOf cs).getD c [] ↔ InGroup cs c g := by
  induction cs using List.reverseRecOn generalizing c with
  | nil => simp [groupsOf, InGroup]
  | append_singleton cs k ih =>
    have hm : Mro cs := by
      intro c k' hk b hb
      have hlt : c < cs.length := (List.getElem?_eq_some_iff.1 hk).1
      have := h c k' (by rw [List.getElem?_append_left hlt]; exact hk) b hb
      refine ⟨this.1, fun kb hkb => this.2 kb ?_⟩
      rw [List.getElem?_append_left (List.getElem?_eq_some_iff.1 hkb).1]; exact hkb
    have old : ∀ c, c < cs.length → (cs ++ [k])[c]? = cs[c]? := fun c hc => List.getElem?_append_left hc
    rw [groupsOf_append, List.getD_eq_getElem?_getD]
    rcases Nat.lt_trichotomy c cs.length with hc | hc | hc
    · rw [List.getElem?_append_left (by rw [groupsOf_length]; exact hc), ← List.getD_eq_getElem?_getD, ih hm]
      constructor
      · rintro ⟨k', hk, ho, hh⟩
        refine ⟨k', by rw [old c hc]; exact hk, ho, ?_⟩
        rcases hh with hh | ⟨b, hb, kb, hkb, hn⟩
        · exact Or.inl hh
        · exact Or.inr ⟨b, hb, kb, by rw [old b (List.getElem?_eq_some_iff.1 hkb).1]; exact hkb, hn⟩
      · rintro ⟨k', hk, ho, hh⟩
        rw [old c hc] at hk
        refine ⟨k', hk, ho, ?_⟩
        rcases hh with hh | ⟨b, hb, kb, hkb, hn⟩
        · exact Or.inl hh
        · have hbc := (hm c k' hk b hb).1
          exact Or.inr ⟨b, hb, kb, by rw [← old b (by omega)]; exact hkb, hn⟩
    · have hk : (cs ++ [k])[c]? = some k := by subst hc; simp
      have e : (groupsOf cs ++ [ownGroups (groupsOf cs) k])[c]?.getD [] = ownGroups (groupsOf cs) k := by
        rw [List.getElem?_append_right (by rw [groupsOf_length]; omega), groupsOf_length, hc]; simp
      rw [e, mem_ownGroups]
      constructor
      · rintro ⟨ho, hh⟩
        refine ⟨k, hk, ho, ?_⟩
        rcases hh with hh | ⟨b, hb, hg⟩
        · exact Or.inl hh
        · obtain ⟨kb, hkb, ho', hh⟩ := (ih hm b).1 hg
          have hlt := (List.getElem?_eq_some_iff.1 hkb).1
          rcases hh with hh | ⟨b', hb', kb', hkb', hn⟩
          · exact Or.inr ⟨b, hb, kb, by rw [old b hlt]; exact hkb, hh⟩
          · have hlt' := (List.getElem?_eq_some_iff.1 hkb').1
            exact Or.inr ⟨b', (h c k hk b hb).2 kb (by rw [old b hlt]; exact hkb) b' hb', kb', by rw [old b' hlt']; exact hkb', hn⟩
      · rintro ⟨k', hk', ho, hh⟩
        rw [hk] at hk'
        cases hk'
        refine ⟨ho, ?_⟩
        rcases hh with hh | ⟨b, hb, kb, hkb, hn⟩
        · exact Or.inl hh
        · have hbc := (h c k hk b hb).1
          have hlt : b < cs.length := by omega
          exact Or.inr ⟨b, hb, (ih hm b).2 ⟨kb, by rw [← old b hlt]; exact hkb, hn.1, Or.inl hn⟩⟩
    · have e : (groupsOf cs ++ [ownGroups (groupsOf cs) k])[c]? = none := by
        rw [List.getElem?_eq_none_iff]; simp [groupsOf_length]; omega
      rw [e]
      simp only [Option.getD_none, List.not_mem_nil, false_iff]
      rintro ⟨k', hk', _⟩
      have := (List.getElem?_eq_some_iff.1 hk').1
      simp at this; omega

/-- The members of a group in a view. -/
def members (w : View) (g : Nat) : List Nat := ((w.ents.getD []).get? g).getD []

/-- The actors (or monitored resources) of a view. -/
def tracked (w : View) : Special → List Nat
  | .none => []
  | .actor => (w.lists.map (·.actors)).getD []
  | .monitored => (w.lists.map (·.monitored)).getD []

/-- An object that is listed somewhere. -/
def Listed (w : View) (x : Nat) : Prop := (∃ g, x ∈ members w g) ∨ ∃ k, x ∈ tracked w k

/-- Which special list the instances of a class go to. -/
def specialOf (cs : List Cls) (c : Nat) : Special := (cs[c]?.map (·.special)).getD .none

/-- The objects made, at this level, with their classes. -/
def madeIn (l : List Out) : List (Nat × Nat) :=
  l.filterMap fun o => match o with | .made a c => some (a, c) | _ => none

mutual
/-- The objects that commands try to make, at this level. -/
def makes : Cmd → List Nat
  | .op (.make o _) => [o]
  | .op _ => []
  | .block _ _ _ _ => []
  | .attempt body => makess body
def makess : List Cmd → List Nat
  | [] => []
  | c :: r => makes c ++ makess r
end

theorem vAddToGroup_new {cfg : Cfg} {w : View} {obj g : Nat} (hid : ∀ a b, cfg.eqv a b = decide (a = b))
    (hn : obj ∉ members w g) :
    (vAddToGroup cfg w obj g).2 = true ∧
    (∀ g', members (vAddToGroup cfg w obj g).1 g' = if g' = g then members w g ++ [obj] else members w g') ∧
    (vAddToGroup cfg w obj g).1.lists = w.lists ∧ (vAddToGroup cfg w obj g).1.ents ≠ none := by
  unfold vAddToGroup
  cases he : w.ents with
  | none =>
    refine ⟨rfl, ?_, rfl, by simp⟩
    intro g'
    simp only [members, he, Option.getD_some, Option.getD_none]
    by_cases hg : g' = g
    · subst hg; simp [Dict.get?]
    · have : g ≠ g' := fun h => hg h.symm
      simp [Dict.get?, hg, this]
  | some d =>
    simp only [members, he, Option.getD_some] at hn
    have hany : ((d.get? g).getD []).any (fun o => cfg.eqv obj o) = false := by
      rw [List.any_eq_false]
      intro o ho
      rw [hid]
      simp only [decide_eq_true_eq]
      intro h; subst h; exact hn ho
    simp only [hany, Bool.false_eq_true, if_false]
    refine ⟨trivial, ?_, trivial, by simp⟩
    intro g'
    simp only [members, he, Option.getD_some]
    by_cases hg : g' = g
    · subst hg; rw [Dict.get?_set_self]; simp
    · rw [Dict.get?_set_ne _ _ (fun h => hg h.symm)]; simp [hg]

theorem vAddGroups_new {cfg : Cfg} {obj : Nat} (hid : ∀ a b, cfg.eqv a b = decide (a = b)) (l : List Nat) :
    ∀ {w : View}, l.Nodup → (∀ g, obj ∉ members w g) →
    (vAddGroups cfg obj l w).2 = true ∧
    (∀ g, members (vAddGroups cfg obj l w).1 g = if g ∈ l ∧ g ∉ cfg.skip then members w g ++ [obj] else members w g) ∧
    (vAddGroups cfg obj l w).1.lists = w.lists := by
  suffices H : ∀ {w : View}, l.Nodup → (∀ g ∈ l, obj ∉ members w g) →
    (vAddGroups cfg obj l w).2 = true ∧
    (∀ g, members (vAddGroups cfg obj l w).1 g = if g ∈ l ∧ g ∉ cfg.skip then members w g ++ [obj] else members w g) ∧
    (vAddGroups cfg obj l w).1.lists = w.lists by
    intro w hd h; exact H hd fun g _ => h g
  induction l with
  | nil => intro w _ _; exact ⟨rfl, fun g => by simp [vAddGroups], rfl⟩
  | cons x r ih =>
    intro w hd h
    obtain ⟨hx, hd⟩ := List.nodup_cons.1 hd
    unfold vAddGroups
    by_cases hs : x ∈ cfg.skip
    · rw [if_pos hs]
      obtain ⟨h1, h2, h3⟩ := ih hd fun g hg => h g (List.mem_cons_of_mem _ hg)
      refine ⟨h1, fun g => ?_, h3⟩
      rw [h2]
      by_cases hg : g = x
      · subst hg; simp [hs]
      · simp [hg]
    · rw [if_neg hs]
      obtain ⟨a1, a2, a3, _⟩ := vAddToGroup_new (cfg := cfg) (w := w) (obj := obj) (g := x) hid (h x List.mem_cons_self)
      rw [if_pos a1]
      obtain ⟨h1, h2, h3⟩ := ih (w := (vAddToGroup cfg w obj x).1) hd fun g hg => by
        rw [a2, if_neg (by intro e; subst e; exact hx hg)]
        exact h g (List.mem_cons_of_mem _ hg)
      refine ⟨h1, fun g => ?_, h3.trans a3⟩
      rw [h2, a2]
      by_cases hg : g = x
      · subst hg; simp [hx, hs]
      · simp [hg]

/-- What a run in a context adds to the groups. -/
structure Adds (cfg : Cfg) (w w' : View) (outs : List Out) (tried : List Nat) : Prop where
  lists : w'.lists ≠ none
  groups : ∀ g, ∃ p : Nat → Bool, (∀ c, p c = true ↔ InGroup cfg.classes c g ∧ g ∉ cfg.skip) ∧
    members w' g = members w g ++ ((madeIn outs).filter fun x => p x.2).map (·.1)
  special : ∀ k, k ≠ .none →
    tracked w' k = tracked w k ++ ((madeIn outs).filter fun x => specialOf cfg.classes x.2 = k).map (·.1)
  objs : ∀ x ∈ madeIn outs, x.1 ∈ tried

theorem Adds.nil {cfg : Cfg} {w w' : View} {outs : List Out} {tried : List Nat} (h : w'.lists ≠ none)
    (hm : ∀ g, members w' g = members w g) (hk : ∀ k, tracked w' k = tracked w k) (ho : madeIn outs = []) : Adds cfg w w' outs tried := by
  classical
  refine ⟨h, fun g => ⟨fun c => decide (InGroup cfg.classes c g ∧ g ∉ cfg.skip), fun c => by simp, by rw [ho]; simp [hm]⟩,
    fun k _ => by rw [ho]; simp [hk], ?_⟩
  rw [ho]; simp

theorem madeIn_append (a b : List Out) : madeIn (a ++ b) = madeIn a ++ madeIn b := List.filterMap_append ..

theorem Adds.trans {cfg : Cfg} {a b c : View} {o o' : List Out} {t t' : List Nat} (h : Adds cfg a b o t)
    (h' : Adds cfg b c o' t') : Adds cfg a c (o ++ o') (t ++ t') := by
  refine ⟨h'.lists, fun g => ?_, fun k hk => ?_, ?_⟩
  · obtain ⟨p, hp, e⟩ := h.groups g
    obtain ⟨p', hp', e'⟩ := h'.groups g
    have : p' = p := by
      funext c
      have := (hp' c).trans (hp c).symm
      cases hpc : p c <;> cases hpc' : p' c <;> simp_all
    subst this
    exact ⟨p', hp, by rw [e', e, madeIn_append, List.filter_append, List.map_append, List.append_assoc]⟩
  · rw [h'.special k hk, h.special k hk, madeIn_append, List.filter_append, List.map_append, List.append_assoc]
  · intro x hx
    rw [madeIn_append] at hx
    rcases List.mem_append.1 hx with hx | hx
    · exact List.mem_append_left _ (h.objs x hx)
    · exact List.mem_append_right _ (h'.objs x hx)

theorem vAddSpecial_new (cfg : Cfg) (hid : ∀ a b, cfg.eqv a b = decide (a = b)) (w : View) (obj : Nat) (k : Special)
    (hl : w.lists ≠ none) (hn : obj ∉ tracked w k) :
    (vAddSpecial cfg w obj k).2 = true ∧ (vAddSpecial cfg w obj k).1.ents = w.ents ∧ (vAddSpecial cfg w obj k).1.lists ≠ none ∧
    ∀ k', k' ≠ .none → tracked (vAddSpecial cfg w obj k).1 k' = if k = k' then tracked w k' ++ [obj] else tracked w k' := by
  have hany : ∀ l : List Nat, obj ∉ l → l.any (fun o => cfg.eqv obj o) = false := by
    intro l h
    rw [List.any_eq_false]
    intro o ho
    rw [hid]
    simp only [decide_eq_true_eq]
    intro e; subst e; exact h ho
  unfold vAddSpecial
  cases k with
  | none => exact ⟨rfl, rfl, hl, fun k' h => by rw [if_neg (fun e => h e.symm)]⟩
  | actor =>
    cases h : w.lists with
    | none => exact absurd h hl
    | some l =>
      simp only [tracked, h, Option.map_some, Option.getD_some] at hn
      simp only [hany _ hn, Bool.false_eq_true, if_false]
      refine ⟨trivial, trivial, by simp, ?_⟩
      intro k' hk'
      cases k' with
      | none => exact absurd rfl hk'
      | actor => simp [tracked, h]
      | monitored => simp [tracked, h]
  | monitored =>
    cases h : w.lists with
    | none => exact absurd h hl
    | some l =>
      simp only [tracked, h, Option.map_some, Option.getD_some] at hn
      simp only [hany _ hn, Bool.false_eq_true, if_false]
      refine ⟨trivial, trivial, by simp, ?_⟩
      intro k' hk'
      cases k' with
      | none => exact absurd rfl hk'
      | actor => simp [tracked, h]
      | monitored => simp [tracked, h]

theorem vstep_adds {cfg : Cfg} (hid : ∀ a b, cfg.eqv a b = decide (a = b)) (hord : ∀ l, (cfg.ord l).Perm l) (hm : Mro cfg.classes)
    {w : View} (hl : w.lists ≠ none) (o : Op) (hf : ∀ x ∈ makes (.op o), ¬ Listed w x) :
    Adds cfg w (vstep cfg w o).1 [(vstep cfg w o).2] (makes (.op o)) := by
  have other : ∀ (w' : View) (out : Out), w'.ents = w.ents → w'.lists ≠ none → (∀ k, tracked w' k = tracked w k) → madeIn [out] = [] →
      Adds cfg w w' [out] (makes (.op o)) := by
    intro w' out h1 h2 h4 h3
    exact .nil h2 (fun g => by simp [members, h1]) h4 h3
  cases o with
  | make obj c =>
    cases hc : cfg.classes[c]? with
    | none => simp only [vstep, hc]; exact other _ _ rfl hl (fun k => by cases k <;> rfl) rfl
    | some k =>
      simp only [vstep, hc]
      have hp := hord ((groupsOf cfg.classes).getD c [])
      obtain ⟨h1, h2, h3⟩ := vAddGroups_new (cfg := cfg) (obj := obj) hid (cfg.ord ((groupsOf cfg.classes).getD c [])) (w := w)
        (hp.nodup_iff.2 (nodup_groups _ _)) (fun g hg => hf obj (by simp [makes]) (Or.inl ⟨g, hg⟩))
      rw [if_pos h1]
      have ht : ∀ k, tracked (vAddGroups cfg obj (cfg.ord ((groupsOf cfg.classes).getD c [])) w).1 k = tracked w k := by
        intro k; cases k <;> unfold tracked <;> rw [h3]
      obtain ⟨h4, h5, h6, h7⟩ := vAddSpecial_new cfg hid (vAddGroups cfg obj (cfg.ord ((groupsOf cfg.classes).getD c [])) w).1 obj k.special
        (by rw [h3]; exact hl) (by rw [ht]; exact fun h => hf obj (by simp [makes]) (Or.inr ⟨_, h⟩))
      refine ⟨h6, ?_, ?_, ?_⟩
      · intro g
        classical
        refine ⟨fun c => decide (InGroup cfg.classes c g ∧ g ∉ cfg.skip), fun c => by simp, ?_⟩
        have e : members (vAddSpecial cfg (vAddGroups cfg obj (cfg.ord ((groupsOf cfg.classes).getD c [])) w).1 obj k.special).1 g =
            members (vAddGroups cfg obj (cfg.ord ((groupsOf cfg.classes).getD c [])) w).1 g := by unfold members; rw [h5]
        have hi : (g ∈ cfg.ord ((groupsOf cfg.classes).getD c [])) ↔ InGroup cfg.classes c g := by
          rw [hp.mem_iff, mem_groupsOf _ hm]
        rw [e, h2, if_pos h4]
        by_cases hg : InGroup cfg.classes c g ∧ g ∉ cfg.skip
        · rw [if_pos ⟨hi.2 hg.1, hg.2⟩]; simp [madeIn, hg]
        · rw [if_neg (fun h => hg ⟨hi.1 h.1, h.2⟩)]; simp [madeIn, hg]
      · intro k' hk'
        rw [h7 k' hk', ht, if_pos h4]
        have : specialOf cfg.classes c = k.special := by simp [specialOf, hc]
        by_cases he : k.special = k'
        · rw [if_pos he]; simp [madeIn, this, he]
        · rw [if_neg he]; simp [madeIn, this, he]
      · rw [if_pos h4]; simp [madeIn, makes]
  | record v =>
    unfold vstep
    cases h : w.lists with
    | none => exact absurd h hl
    | some l =>
      cases h' : w.env with
      | none => exact other _ _ rfl hl (fun k => by cases k <;> rfl) rfl
      | some t => exact other _ _ rfl (by simp) (fun k => by cases k <;> simp [tracked, h]) rfl
  | runTo t =>
    unfold vstep
    cases h' : w.env with
    | none => exact other _ _ rfl hl (fun k => by cases k <;> rfl) rfl
    | some e => dsimp only; split <;> exact other _ _ rfl hl (fun k => by cases k <;> rfl) rfl
  | addVar x v =>
    unfold vstep
    cases h' : w.stage with
    | none => exact other _ _ rfl hl (fun k => by cases k <;> rfl) rfl
    | some e => dsimp only; split <;> exact other _ _ rfl hl (fun k => by cases k <;> rfl) rfl
  | setAttr x v =>
    unfold vstep
    cases h' : w.stage with
    | none => exact other _ _ rfl hl (fun k => by cases k <;> rfl) rfl
    | some e => dsimp only; split <;> exact other _ _ rfl hl (fun k => by cases k <;> rfl) rfl
  | setItem x v =>
    unfold vstep
    cases h' : w.stage with
    | none => exact other _ _ rfl hl (fun k => by cases k <;> rfl) rfl
    | some e => exact other _ _ rfl hl (fun k => by cases k <;> rfl) rfl
  | delAttr x =>
    unfold vstep
    cases h' : w.stage with
    | none => exact other _ _ rfl hl (fun k => by cases k <;> rfl) rfl
    | some e => dsimp only; split <;> exact other _ _ rfl hl (fun k => by cases k <;> rfl) rfl
  | getVar x =>
    unfold vstep
    cases h' : w.stage with
    | none => exact other _ _ rfl hl (fun k => by cases k <;> rfl) rfl
    | some e =>
      dsimp only
      split
      · exact other _ _ rfl hl (fun k => by cases k <;> rfl) rfl
      · refine other _ _ rfl hl (fun k => by cases k <;> rfl) ?_
        split <;> rfl

/-- What is listed afterwards was listed before or was made. -/
theorem Adds.mem {cfg : Cfg} {w w' : View} {o : List Out} {t : List Nat} (h : Adds cfg w w' o t) {x : Nat}
    (hx : Listed w' x) : Listed w x ∨ x ∈ t := by
  rcases hx with ⟨g, hx⟩ | ⟨k, hx⟩
  · obtain ⟨p, _, e⟩ := h.groups g
    rw [e] at hx
    rcases List.mem_append.1 hx with hx | hx
    · exact Or.inl (Or.inl ⟨g, hx⟩)
    · obtain ⟨y, hy, rfl⟩ := List.mem_map.1 hx
      exact Or.inr (h.objs y (List.mem_filter.1 hy).1)
  · have hk : k ≠ .none := by rintro rfl; simp [tracked] at hx
    rw [h.special k hk] at hx
    rcases List.mem_append.1 hx with hx | hx
    · exact Or.inl (Or.inr ⟨k, hx⟩)
    · obtain ⟨y, hy, rfl⟩ := List.mem_map.1 hx
      exact Or.inr (h.objs y (List.mem_filter.1 hy).1)

mutual
theorem eval_adds {cfg : Cfg} (hid : ∀ a b, cfg.eqv a b = decide (a = b)) (hord : ∀ l, (cfg.ord l).Perm l) (hm : Mro cfg.classes) :
    ∀ (cmd : Cmd) {w : View}, w.lists ≠ none → (makes cmd).Nodup → (∀ x ∈ makes cmd, ¬ Listed w x) →
    Adds cfg w (eval cfg w cmd).1 (eval cfg w cmd).2.2 (makes cmd)
  | .op o, w, hl, _, hf => by
    unfold eval
    exact vstep_adds hid hord hm hl o hf
  | .block c t rng body, w, hl, _, _ => by
    unfold eval
    exact .nil hl (fun _ => rfl) (fun _ => rfl) rfl
  | .attempt body, w, hl, hd, hf => by
    unfold eval
    simp only [makes] at hd hf ⊢
    exact evals_adds hid hord hm body hl hd hf
theorem evals_adds {cfg : Cfg} (hid : ∀ a b, cfg.eqv a b = decide (a = b)) (hord : ∀ l, (cfg.ord l).Perm l) (hm : Mro cfg.classes) :
    ∀ (l : List Cmd) {w : View}, w.lists ≠ none → (makess l).Nodup → (∀ x ∈ makess l, ¬ Listed w x) →
    Adds cfg w (evals cfg w l).1 (evals cfg w l).2.2 (makess l)
  | [], w, hl, _, _ => by
    unfold evals
    exact .nil hl (fun _ => rfl) (fun _ => rfl) rfl
  | cmd :: rest, w, hl, hd, hf => by
    simp only [makess] at hd hf
    rw [List.nodup_append] at hd
    have a := eval_adds hid hord hm cmd hl hd.1 fun x hx => hf x (List.mem_append_left _ hx)
    unfold evals
    by_cases hr : (eval cfg w cmd).2.1 = true
    · rw [if_pos hr]
      exact ⟨a.lists, a.groups, a.special, fun x hx => by simp only [makess]; exact List.mem_append_left _ (a.objs x hx)⟩
    · rw [if_neg hr]
      have b := evals_adds hid hord hm rest a.lists hd.2.1 fun x hx hc => by
        rcases a.mem hc with h | h
        · exact hf x (List.mem_append_right _ hx) h
        · exact hd.2.2 x h x hx rfl
      simp only [makess]
      exact a.trans b
end

end Verif.Ctx
