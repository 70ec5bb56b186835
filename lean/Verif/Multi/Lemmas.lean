import Verif.Multi.Spec

/-!
# Lemmas: removing the checks, the structure of multi-events
-/

namespace Verif.Multi

variable {cond : Nat → Option Cond} {h h' : Nat → Prop}

@[simp] theorem upd_same {α : Type} (f : Nat → α) (i : Nat) (x : α) : upd f i x i = x := by simp [upd]

theorem upd_ne {α : Type} (f : Nat → α) {i j : Nat} (x : α) (hj : j ≠ i) : upd f i x j = f j := by simp [upd, hj]

theorem upd_apply {α : Type} (f : Nat → α) (i j : Nat) (x : α) : upd f i x j = if j = i then x else f j := rfl

theorem In.trans {a b c : Nat} (h1 : In cond a b) (h2 : In cond b c) : In cond a c := by
  induction h1 with
  | self _ => exact h2
  | member hc hm _ ih => exact .member hc hm (ih h2)

/-- Whatever is in `c` is `c` or a member of something in `c`. -/
theorem In.last {c x : Nat} (hx : In cond c x) :
    x = c ∨ ∃ y k, In cond c y ∧ cond y = some k ∧ x ∈ k.members := by
  induction hx with
  | self c => exact Or.inl rfl
  | @member c m x k hc hm _ ih =>
    rcases ih with rfl | ⟨y, k', hy, hk', hx⟩
    · exact Or.inr ⟨c, k, .self c, hc, hm⟩
    · exact Or.inr ⟨y, k', .member hc hm hy, hk', hx⟩

theorem In.le (hlt : ∀ c k, cond c = some k → ∀ m ∈ k.members, m < c) {c x : Nat} (hx : In cond c x) : x ≤ c := by
  induction hx with
  | self c => exact Nat.le_refl _
  | member hc hm _ ih => exact Nat.le_of_lt (Nat.lt_of_le_of_lt ih (hlt _ _ hc _ hm))

theorem In.of_none {c x : Nat} (hc : cond c = none) (hx : In cond c x) : x = c := by
  cases hx with
  | self _ => rfl
  | member hc' _ _ => rw [hc] at hc'; cases hc'

theorem Occ.mono (hh : ∀ e, h e → h' e) {c : Nat} (ho : Occ cond h c) : Occ cond h' c := by
  induction ho with
  | plain hc he => exact .plain hc (hh _ he)
  | any hc hm _ ih => exact .any hc hm ih
  | all hc _ ih => exact .all hc ih

/-- Only what stands in a multi-event matters. -/
theorem Occ.congr {cond' : Nat → Option Cond} {c : Nat} (hc : ∀ x, In cond c x → cond' x = cond x)
    (hh : ∀ x, In cond c x → h x → h' x) (ho : Occ cond h c) : Occ cond' h' c := by
  induction ho with
  | @plain e he hp => exact .plain (by rw [hc e (.self e), he]) (hh e (.self e) hp)
  | @any e ms m he hm _ ih =>
    exact .any (by rw [hc e (.self e), he]) hm
      (ih (fun x hx => hc x (.member he hm hx)) (fun x hx => hh x (.member he hm hx)))
  | @all e ms he _ ih =>
    exact .all (by rw [hc e (.self e), he])
      (fun m hm => ih m hm (fun x hx => hc x (.member he hm hx)) (fun x hx => hh x (.member he hm hx)))

/-- A condition inside `c`, or `c` itself if it is a condition. -/
def CIn (cond : Nat → Option Cond) (c x : Nat) : Prop := In cond c x ∧ cond x ≠ none

theorem count_eraseAll (c : Nat) (l : List Nat) (f : Nat → List Cb) (e : Nat) (x : Cb) :
    ((l.foldl (fun f m => upd f m ((f m).erase (.check c))) f) e).count x
      = if x = .check c then (f e).count x - l.count e else (f e).count x := by
  induction l generalizing f with
  | nil => simp
  | cons a l ih =>
    rw [List.foldl_cons, ih]
    by_cases hx : x = .check c
    · subst hx
      simp only [if_true]
      by_cases ha : e = a
      · subst ha
        rw [upd_same, List.count_erase_self, List.count_cons_self]
        omega
      · rw [upd_ne _ _ ha, List.count_cons_of_ne (fun h => ha h.symm)]
    · simp only [if_neg hx]
      by_cases ha : e = a
      · subst ha
        rw [upd_same, List.count_erase_of_ne hx]
      · rw [upd_ne _ _ ha]

/-- What `forget` does to callbacks and marks. -/
structure Forgets (D : Nat → Prop) (p q : (Nat → List Cb) × (Nat → Bool)) : Prop where
  mark : ∀ x, q.2 x = true ↔ p.2 x = true ∨ D x
  gone : ∀ e c, D c → (q.1 e).count (.check c) = 0
  keep : ∀ e c, ¬ D c → (q.1 e).count (.check c) = (p.1 e).count (.check c)
  res : ∀ e t, (q.1 e).count (.resume t) = (p.1 e).count (.resume t)

theorem forget_fold (D : Nat → Nat → Prop) (f : (Nat → List Cb) × (Nat → Bool) → Nat → (Nat → List Cb) × (Nat → Bool))
    (B : (Nat → List Cb) × (Nat → Bool) → Prop) (hB : ∀ p m, B p → B (f p m))
    (hf : ∀ p m, B p → Forgets (D m) p (f p m)) (l : List Nat)
    (p : (Nat → List Cb) × (Nat → Bool)) (hp : B p) :
    Forgets (fun x => ∃ m ∈ l, D m x) p (l.foldl f p) := by
  induction l generalizing p with
  | nil => exact ⟨fun x => by simp, fun e c hc => by simp at hc, fun e c _ => rfl, fun e t => rfl⟩
  | cons a l ih =>
    have h1 := hf p a hp
    have h2 := ih (f p a) (hB p a hp)
    refine ⟨fun x => ?_, fun e c hc => ?_, fun e c hc => ?_, fun e t => ?_⟩
    · rw [List.foldl_cons, h2.mark, h1.mark]
      simp [or_assoc]
    · rw [List.foldl_cons]
      by_cases hl : ∃ m ∈ l, D m c
      · exact h2.gone e c hl
      · rw [h2.keep e c hl]
        rcases hc with ⟨m, hm, hd⟩
        rcases List.mem_cons.1 hm with rfl | hm
        · exact h1.gone e c hd
        · exact absurd ⟨m, hm, hd⟩ hl
    · rw [List.foldl_cons, h2.keep e c (fun ⟨m, hm, hd⟩ => hc ⟨m, List.mem_cons_of_mem _ hm, hd⟩),
        h1.keep e c (fun hd => hc ⟨a, List.mem_cons_self, hd⟩)]
    · rw [List.foldl_cons, h2.res, h1.res]

/-- No more checks of a condition are attached to an event than the condition has that event as member. -/
def Bounded (cond : Nat → Option Cond) (f : Nat → List Cb) : Prop :=
  ∀ c k e, cond c = some k → (f e).count (.check c) ≤ k.members.count e

theorem Forgets.bounded {D : Nat → Prop} {p q : (Nat → List Cb) × (Nat → Bool)} (hF : Forgets D p q)
    (hb : Bounded cond p.1) : Bounded cond q.1 := by
  intro c k e hc
  by_cases hD : D c
  · rw [hF.gone e c hD]; exact Nat.zero_le _
  · rw [hF.keep e c hD]; exact hb c k e hc

theorem forget_spec (hlt : ∀ c k, cond c = some k → ∀ m ∈ k.members, m < c) (d : Nat) :
    ∀ (p : (Nat → List Cb) × (Nat → Bool)) (c : Nat), c < d → Bounded cond p.1 →
      Forgets (CIn cond c) p (forget cond d p c) := by
  induction d with
  | zero => intro p c hc; omega
  | succ d ih =>
    intro p c hc hb
    unfold forget
    cases hcc : cond c with
    | none =>
      have hno : ∀ x, ¬ CIn cond c x := fun x hx => hx.2 (by rw [hx.1.of_none hcc]; exact hcc)
      exact ⟨fun x => by simp [hno x], fun e x hx => absurd hx (hno x), fun e x _ => rfl, fun e t => rfl⟩
    | some k =>
      have hsplit : ∀ x, CIn cond c x ↔ x = c ∨ ∃ m ∈ k.members, CIn cond m x := by
        intro x
        constructor
        · rintro ⟨hx, hxc⟩
          cases hx with
          | self _ => exact Or.inl rfl
          | @member _ m _ k' hk' hm hx =>
            rw [hcc] at hk'; cases hk'
            exact Or.inr ⟨m, hm, hx, hxc⟩
        · rintro (rfl | ⟨m, hm, hx, hxc⟩)
          · exact ⟨.self _, by rw [hcc]; simp⟩
          · exact ⟨.member hcc hm hx, hxc⟩
      simp only
      set p1 : (Nat → List Cb) × (Nat → Bool) :=
        (k.members.foldl (fun f m => upd f m ((f m).erase (.check c))) p.1, upd p.2 c true) with hp1
      have h1 : Forgets (fun x => x = c) p p1 := by
        refine ⟨fun x => ?_, fun e x hx => ?_, fun e x hx => ?_, fun e t => ?_⟩
        · simp only [hp1, upd_apply]
          by_cases hx : x = c <;> simp [hx]
        · subst hx
          simp only [hp1, count_eraseAll, if_true]
          have := hb x k e hcc
          omega
        · have hne : Cb.check x ≠ Cb.check c := fun h => hx (by injection h)
          simp only [hp1, count_eraseAll, if_neg hne]
        · simp only [hp1, count_eraseAll]
          rw [if_neg (by simp)]
      have hb1 := h1.bounded hb
      have h2 : Forgets (fun x => ∃ m ∈ k.members, CIn cond m x) p1 (k.members.foldl (forget cond d) p1) := by
        -- only members below `d` are met
        have hmem : ∀ l : List Nat, (∀ m ∈ l, m < d) → ∀ q : (Nat → List Cb) × (Nat → Bool), Bounded cond q.1 →
            Forgets (fun x => ∃ m ∈ l, CIn cond m x) q (l.foldl (forget cond d) q) := by
          intro l hl
          have hcong : ∀ q, l.foldl (forget cond d) q
              = l.foldl (fun q m => if m < d then forget cond d q m else q) q := by
            intro q
            apply List.foldl_ext
            intro q m hm
            rw [if_pos (hl m hm)]
          intro q hq
          rw [hcong]
          have := forget_fold (D := fun m x => m < d ∧ CIn cond m x)
            (f := fun q m => if m < d then forget cond d q m else q) (B := fun q => Bounded cond q.1)
            (fun q m hq => by
              by_cases hm : m < d
              · simp only [if_pos hm]; exact (ih q m hm hq).bounded hq
              · simp only [if_neg hm]; exact hq)
            (fun q m hq => by
              by_cases hm : m < d
              · simp only [if_pos hm, hm, true_and]; exact ih q m hm hq
              · simp only [if_neg hm, hm, false_and]
                exact ⟨fun x => by simp, fun e x hx => hx.elim, fun e x _ => rfl, fun e t => rfl⟩) l q hq
          have hD : (fun x => ∃ m ∈ l, m < d ∧ CIn cond m x) = fun x => ∃ m ∈ l, CIn cond m x := by
            funext x
            apply propext
            exact ⟨fun ⟨m, hm, _, hx⟩ => ⟨m, hm, hx⟩, fun ⟨m, hm, hx⟩ => ⟨m, hm, hl m hm, hx⟩⟩
          rw [hD] at this
          exact this
        exact hmem k.members (fun m hm => Nat.lt_of_lt_of_le (hlt c k hcc m hm) (Nat.le_of_lt_succ hc)) p1 hb1
      refine ⟨fun x => ?_, fun e x hx => ?_, fun e x hx => ?_, fun e t => ?_⟩
      · rw [h2.mark, h1.mark, hsplit, or_assoc]
      · by_cases hl : ∃ m ∈ k.members, CIn cond m x
        · exact h2.gone e x hl
        · rw [h2.keep e x hl]
          rcases (hsplit x).1 hx with hxc | hl'
          · exact h1.gone e x hxc
          · exact absurd hl' hl
      · rw [hsplit, not_or] at hx
        rw [h2.keep e x hx.2, h1.keep e x hx.1]
      · rw [h2.res, h1.res]

end Verif.Multi
