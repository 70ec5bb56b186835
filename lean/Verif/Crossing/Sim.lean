import Verif.Crossing.Legs

/-! # Two earths on which a search goes alike -/

namespace Verif.Crossing

variable {K : Type} [Field K] [LinearOrder K] [IsStrictOrderedRing K] [FloorRing K] {P Q : Type}

/-- Conditions that tell the same; where there are two points, they are in order. -/
def Like (rel : P → Q → Prop) (lt : Q → Q → Prop) (c : Cond P) (d : Cond Q) : Prop :=
  c.kind = d.kind ∧ rel c.b d.b ∧ ((c.e = none ∧ d.e = none) ∨ ∃ x y, c.e = some x ∧ d.e = some y ∧ rel x y ∧ lt d.b y)

/-- The earth `E` does with points that stand for points of `F` what `F` does, on stretches that go forward. -/
structure Fits (E : Earth K P) (F : Earth K Q) (rel : P → Q → Prop) (lt : Q → Q → Prop) : Prop where
  nonempty : ∀ a b n, E.samples a b n ≠ []
  inside : ∀ a α, rel a α → E.inside a = F.inside α
  dist : ∀ a b α β, rel a α → rel b β → lt α β → E.dist a b = F.dist α β
  quiet : ∀ a b α β n, rel a α → rel b β → lt α β → 3 ≤ n → E.raises a b n = false
  samples : ∀ a b α β n, rel a α → rel b β → lt α β → 3 ≤ n → List.Forall₂ rel (E.samples a b n) (F.samples α β n)
  forward : ∀ α β n, lt α β → 3 ≤ n → ∀ x y, Neighbours (F.samples α β n) x y → lt x y

variable {E : Earth K P} {F : Earth K Q} {rel : P → Q → Prop} {lt : Q → Q → Prop}

theorem flips_like (hin : ∀ a α, rel a α → E.inside a = F.inside α) {l : List P} {m : List Q} (h : List.Forall₂ rel l m) :
    (∀ x y, Neighbours m x y → lt x y) → List.Forall₂ (Like rel lt) (flips E.inside l) (flips F.inside m) := by
  induction h with
  | nil => intro _; simp [flips]
  | @cons a α l m h0 h1 ih =>
    intro hlt
    cases h1 with
    | nil => simp [flips]
    | @cons b β l m h2 h3 =>
      have ih := ih fun x y ⟨p, q, hpq⟩ => hlt x y ⟨α :: p, q, by rw [hpq]; rfl⟩
      have hab : lt α β := hlt α β ⟨[], m, rfl⟩
      rw [flips_cons, flips_cons]
      refine List.rel_append ?_ ih
      unfold flip
      rw [hin a α h0, hin b β h2]
      cases F.inside α <;> cases F.inside β
      · exact List.Forall₂.nil
      · exact List.Forall₂.cons ⟨rfl, h0, .inr ⟨b, β, rfl, rfl, h2, hab⟩⟩ List.Forall₂.nil
      · exact List.Forall₂.cons ⟨rfl, h0, .inr ⟨b, β, rfl, rfl, h2, hab⟩⟩ List.Forall₂.nil
      · exact List.Forall₂.nil

theorem last_like {l : List P} {m : List Q} (h : List.Forall₂ rel l m) {x : P} {y : Q} (hx : l.getLast? = some x) (hy : m.getLast? = some y) : rel x y := by
  induction h with
  | nil => cases hx
  | @cons a α l m h0 h1 ih =>
    cases h1 with
    | nil => cases hx; cases hy; exact h0
    | cons h2 h3 =>
      rw [List.getLast?_cons_cons] at hx hy
      exact ih hx hy

theorem head_like {l : List P} {m : List Q} (h : List.Forall₂ rel l m) {x : P} {y : Q} (hx : l.head? = some x) (hy : m.head? = some y) : rel x y := by
  cases h with
  | nil => cases hx
  | cons h0 _ => cases hx; cases hy; exact h0

theorem find_like (hf : Fits E F rel lt) (hF : ExactEnds F) {a b : P} {α β : Q} (ha : rel a α) (hb : rel b β) (hlt : lt α β) {between : K} (h0 : 0 < between)
    {m : List (Cond Q)} (h : findCrossings F α β between = .ok m) : ∃ l, findCrossings E a b between = .ok l ∧ List.Forall₂ (Like rel lt) l m := by
  cases hn : pointsFor (F.dist α β) between with
  | error e => simp [findCrossings, preprocess, hn, h0.ne'] at h
  | ok n =>
    have h3 := (pointsFor_spec _ _ h0 _ hn).1
    obtain ⟨f1, l1, k1, k2, k3⟩ := c45_crossing_list F hF.nonempty α β between h0.ne' n hn (hF.quiet _ _ _)
    obtain ⟨f2, l2, k4, k5, k6⟩ := c45_crossing_list E hf.nonempty a b between h0.ne' n (by rw [hf.dist a b α β ha hb hlt]; exact hn)
      (hf.quiet a b α β n ha hb hlt h3)
    rw [k3] at h
    cases h
    refine ⟨_, k6, ?_⟩
    have hs := hf.samples a b α β n ha hb hlt h3
    have hfirst := head_like hs k4 k1
    have hlast := last_like hs k5 k2
    unfold expected
    refine List.Forall₂.cons ⟨by rw [hf.inside _ _ hfirst], hfirst, .inl ⟨rfl, rfl⟩⟩ (List.rel_append ?_ ?_)
    · exact flips_like hf.inside hs (hf.forward α β n hlt h3)
    · exact List.Forall₂.cons ⟨by rw [hf.inside _ _ hlast], hlast, .inl ⟨rfl, rfl⟩⟩ List.Forall₂.nil

theorem splitDown_like (hf : Fits E F rel lt) (hF : ExactEnds F) (levels : List Nat) : ∀ {a b : P} {α β : Q} (_ : rel a α) (_ : rel b β) (_ : lt α β) {between : K}
    (_ : 0 < between) {s : Option (Cond P)} {s' : Option (Cond Q)} (_ : ∀ d, s' = some d → ∃ c, s = some c ∧ Like rel lt c d) {d : Cond Q}
    (_ : splitDown F α β between s' levels = .ok d), ∃ c, splitDown E a b between s levels = .ok c ∧ Like rel lt c d := by
  induction levels with
  | nil =>
    intro a b α β _ _ _ between _ s s' hs d h
    unfold splitDown at h ⊢
    cases s' with
    | none => cases h
    | some c' =>
      cases h
      obtain ⟨c, rfl, hc⟩ := hs _ rfl
      exact ⟨c, rfl, hc⟩
  | cons k levels ih =>
    intro a b α β ha hb hlt between h0 s s' hs d h
    unfold splitDown at h ⊢
    by_cases hk : k = 0
    · rw [if_pos hk] at h; cases h
    rw [if_neg hk] at h ⊢
    have h0' : 0 < between / (k : K) := div_pos h0 (by exact_mod_cast Nat.pos_of_ne_zero hk)
    cases hm : findCrossings F α β (between / k) with
    | error e => rw [hm] at h; cases h
    | ok m =>
      rw [hm] at h
      obtain ⟨l, hl, hlm⟩ := find_like hf hF ha hb hlt h0' hm
      rw [hl]
      simp only at h ⊢
      split at h
      · rename_i x c' z
        cases hlm with
        | @cons x' _ _ _ hx hr => cases hr with
          | @cons c _ _ _ hc hr => cases hr with
            | @cons z' _ _ _ hz hr => cases hr with
              | nil =>
                simp only
                split at h
                · cases h
                · rename_i hkind
                  rw [hc.1, if_neg hkind]
                  rcases hc.2.2 with ⟨h1, h2⟩ | ⟨u, v, h1, h2, h3, h4⟩
                  · rw [h2] at h; cases h
                  · rw [h2] at h
                    rw [h1]
                    exact ih hc.2.1 h3 h4 h0' (fun d hd => ⟨c, rfl, by cases hd; exact hc⟩) h
      · cases h

theorem refine_like (hf : Fits E F rel lt) (hF : ExactEnds F) {between : K} (h0 : 0 < between) (levels : List Nat) {l : List (Cond P)} {m : List (Cond Q)}
    (h : List.Forall₂ (Like rel lt) l m) : ∀ {r : List (Cond Q)}, refine F between levels m = .ok r →
      ∃ q, refine E between levels l = .ok q ∧ List.Forall₂ (Like rel lt) q r := by
  induction h with
  | nil => intro r hr; cases hr; exact ⟨[], rfl, List.Forall₂.nil⟩
  | @cons c d l m hcd _ ih =>
    intro r hr
    unfold refine at hr ⊢
    rcases hcd.2.2 with ⟨h1, h2⟩ | ⟨u, v, h1, h2, h3, h4⟩
    · rw [h2] at hr; cases hr
    rw [h2] at hr
    rw [h1]
    simp only at hr ⊢
    cases hd : splitDown F d.b v between none levels with
    | error e => rw [hd] at hr; cases hr
    | ok new =>
      obtain ⟨new', hn', hn⟩ := splitDown_like hf hF levels hcd.2.1 h3 h4 h0 (s := none) (s' := none) (by simp) hd
      rw [hd] at hr
      rw [hn']
      simp only at hr ⊢
      split at hr
      · cases hr
      rename_i hk
      rw [hn.1, hcd.1, if_neg hk]
      rcases hm : refine F between levels m with e | r'
      · rw [hm] at hr; split at hr <;> cases hr
      obtain ⟨q', hq, hqr⟩ := ih hm
      rw [hm] at hr
      rw [hq]
      by_cases hx : d.kind = .exit
      · simp only [hx, if_true] at hr ⊢
        cases hr
        exact ⟨_, rfl, List.Forall₂.cons ⟨rfl, hn.2.1, .inl ⟨rfl, rfl⟩⟩ hqr⟩
      · simp only [hx, if_false] at hr ⊢
        rcases hn.2.2 with ⟨n1, n2⟩ | ⟨x, y, n1, n2, n3, n4⟩
        · rw [n2] at hr; cases hr
        · rw [n2] at hr
          cases hr
          rw [n1]
          exact ⟨_, rfl, List.Forall₂.cons ⟨rfl, n3, .inl ⟨rfl, rfl⟩⟩ hqr⟩

theorem tail_like {α β : Type} {R : α → β → Prop} {l : List α} {m : List β} (h : List.Forall₂ R l m) : List.Forall₂ R l.tail m.tail := by
  cases h with
  | nil => exact List.Forall₂.nil
  | cons _ h => exact h

theorem dropLast_like {α β : Type} {R : α → β → Prop} {l : List α} {m : List β} (h : List.Forall₂ R l m) : List.Forall₂ R l.dropLast m.dropLast := by
  induction h with
  | nil => exact List.Forall₂.nil
  | cons h0 h1 ih =>
    cases h1 with
    | nil => exact List.Forall₂.nil
    | cons h2 h3 => exact List.Forall₂.cons h0 ih

/-- Whatever is found on `F` is found on `E`. -/
theorem intersections_like (hf : Fits E F rel lt) (hF : ExactEnds F) {a b : P} {α β : Q} (ha : rel a α) (hb : rel b β) (hlt : lt α β) {between : K}
    (h0 : 0 < between) (levels : List Nat) {m : List (Cond Q)} (h : intersections F α β between levels = .ok m) :
    ∃ l, intersections E a b between levels = .ok l ∧ List.Forall₂ (Like rel lt) l m := by
  unfold intersections at h ⊢
  cases hm : findCrossings F α β between with
  | error e => rw [hm] at h; cases h
  | ok rough =>
    rw [hm] at h
    obtain ⟨l, hl, hlm⟩ := find_like hf hF ha hb hlt h0 hm
    rw [hl]
    simp only at h ⊢
    cases hr : refine F between levels rough.tail.dropLast with
    | error e => rw [hr] at h; cases h
    | ok mid =>
      rw [hr] at h
      obtain ⟨q, hq, hqr⟩ := refine_like hf hF h0 levels (dropLast_like (tail_like hlm)) hr
      rw [hq]
      cases h
      refine ⟨_, rfl, List.rel_append (List.rel_append ?_ hqr) ?_⟩
      · cases hlm with
        | nil => exact List.Forall₂.nil
        | @cons c d _ _ hc _ =>
          simp only [List.head?_cons, hc.1]
          split
          · exact List.Forall₂.cons hc List.Forall₂.nil
          · exact List.Forall₂.nil
      · cases hx : l.getLast? with
        | none =>
          rw [List.getLast?_eq_none_iff] at hx
          subst hx
          cases hlm
          exact List.Forall₂.nil
        | some x =>
          cases hy : rough.getLast? with
          | none =>
            rw [List.getLast?_eq_none_iff] at hy
            subst hy
            cases hlm
            cases hx
          | some y =>
            have hc := last_like hlm hx hy
            simp only [hc.1]
            split
            · exact List.Forall₂.cons hc List.Forall₂.nil
            · exact List.Forall₂.nil

end Verif.Crossing
