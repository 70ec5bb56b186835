import Verif.Queued.Spec

/-! # The crossings along a path -/

namespace Verif.Queued

open Verif.Sphere (Tag)

variable {α L : Type} [Field α] [LinearOrder α] [IsStrictOrderedRing α]

/-- The pairs describe exactly when the mover is in range between `lo` and `hi`. -/
structure Good (inside : α → Prop) (lo hi : α) (ps : List (Entry α × Entry α)) : Prop where
  bounds : ∀ p ∈ ps, lo ≤ p.1.time ∧ p.1.time ≤ p.2.time ∧ p.2.time ≤ hi
  ordered : ps.Pairwise fun p q => p.2.time < q.1.time
  first : ∀ p ∈ ps, (p.1.kind = .startInside ∧ p.1.time = lo) ∨ p.1.kind = .enter
  second : ∀ p ∈ ps, (p.2.kind = .endInside ∧ p.2.time = hi) ∨ (p.2.kind = .exit ∧ p.2.time < hi)
  covers : ∀ τ, lo ≤ τ → τ ≤ hi → (inside τ ↔ ∃ p ∈ ps, p.1.time ≤ τ ∧ τ ≤ p.2.time)

def flat (ps : List (Entry α × Entry α)) : List (Entry α) := ps.flatMap fun p => [p.1, p.2]

theorem pairUp_flat (ps : List (Entry α × Entry α)) : pairUp (flat ps) = some ps := by
  induction ps with
  | nil => rfl
  | cons p ps ih =>
    show pairUp (p.1 :: p.2 :: flat ps) = _
    simp [pairUp, ih]

theorem Good.valid {inside : α → Prop} {lo hi : α} {ps} (h : Good inside lo hi ps) : ps.all valid = true := by
  rw [List.all_eq_true]
  intro p hp
  rcases h.first p hp with ⟨h1, _⟩ | h1 <;> rcases h.second p hp with ⟨h2, _⟩ | ⟨h2, _⟩ <;> simp [Queued.valid, h1, h2]

/-- Either the mover is outside at the end, or the last pair is one that ends inside. -/
theorem Good.last {inside : α → Prop} {lo hi : α} {ps} (h : Good inside lo hi ps) (hle : lo ≤ hi) :
    (¬ inside hi ∧ (∀ p ∈ ps, p.2.kind = .exit ∧ p.2.time < hi)) ∨
    (inside hi ∧ ∃ qs p, ps = qs ++ [p] ∧ p.2.kind = .endInside ∧ p.2.time = hi ∧ ∀ q ∈ qs, q.2.kind = .exit ∧ q.2.time < p.1.time) := by
  by_cases hi' : inside hi
  · right
    refine ⟨hi', ?_⟩
    obtain ⟨p, hp, h1, h2⟩ := (h.covers hi hle (le_refl _)).1 hi'
    obtain ⟨qs, rs, rfl⟩ := List.append_of_mem hp
    have hrs : rs = [] := by
      cases rs with
      | nil => rfl
      | cons r rs =>
        exfalso
        have hlt := (List.pairwise_append.1 h.ordered).2.1
        rw [List.pairwise_cons] at hlt
        have a := hlt.1 r (by simp)
        have b := h.bounds r (by simp)
        linarith [b.1, b.2.1, b.2.2]
    subst hrs
    refine ⟨qs, p, rfl, ?_⟩
    have hb := h.bounds p hp
    have hsec : p.2.kind = .endInside ∧ p.2.time = hi := by
      rcases h.second p hp with h3 | ⟨_, h3⟩
      · exact h3
      · linarith
    refine ⟨hsec.1, hsec.2, fun q hq => ?_⟩
    have hqp := (List.pairwise_append.1 h.ordered).2.2 q hq p (by simp)
    refine ⟨?_, hqp⟩
    rcases h.second q (by simp [hq]) with ⟨_, h3⟩ | h3
    · linarith
    · exact h3.1
  · left
    refine ⟨hi', fun p hp => ?_⟩
    rcases h.second p hp with ⟨_, h3⟩ | h3
    · exact absurd ((h.covers hi hle (le_refl _)).2 ⟨p, hp, by linarith [(h.bounds p hp).2.1], h3.ge⟩) hi'
    · exact h3

theorem Good.nil {inside : α → Prop} {lo hi : α} (h : ∀ τ, lo ≤ τ → τ ≤ hi → ¬ inside τ) : Good inside lo hi [] :=
  ⟨by simp, by simp, by simp, by simp, fun τ h1 h2 => by simp [h τ h1 h2]⟩

/-- A leg out of range is added. -/
theorem Good.extend {inside : α → Prop} {lo hi hi' : α} {ps} (h : Good inside lo hi ps) (hle : lo ≤ hi) (hx : hi ≤ hi')
    (hn : ∀ τ, hi ≤ τ → τ ≤ hi' → ¬ inside τ) : Good inside lo hi' ps := by
  have hout : ∀ p ∈ ps, p.2.kind = .exit ∧ p.2.time < hi := by
    rcases h.last hle with h | h
    · exact h.2
    · exact absurd h.1 (hn hi (le_refl _) hx)
  refine ⟨fun p hp => ⟨(h.bounds p hp).1, (h.bounds p hp).2.1, by linarith [(h.bounds p hp).2.2]⟩, h.ordered, h.first,
    fun p hp => .inr ⟨(hout p hp).1, by linarith [(hout p hp).2]⟩, fun τ h1 h2 => ?_⟩
  by_cases hτ : τ ≤ hi
  · exact h.covers τ h1 hτ
  · rw [not_le] at hτ
    refine ⟨fun hc => absurd hc (hn τ hτ.le h2), ?_⟩
    rintro ⟨p, hp, _, h4⟩
    linarith [(hout p hp).2]

theorem absorb_append (base : α) (k₁ k₂ : Tag) (t₁ t₂ : α) (acc : List (Entry α)) (hk : k₁ ≠ .endInside)
    (h : ∀ e ∈ acc.head?, e.kind ≠ .endInside) :
    absorb base acc [⟨k₁, t₁⟩, ⟨k₂, t₂⟩] = some (⟨k₂, base + t₂⟩ :: ⟨k₁, base + t₁⟩ :: acc) := by
  cases acc with
  | nil => simp [absorb, hk]
  | cons l acc =>
    have hl : l.kind ≠ .endInside := h l (by simp)
    simp [absorb, hl, hk]

theorem absorb_merge (base : α) (k₂ : Tag) (t₁ t₂ : α) (l l' : Entry α) (acc : List (Entry α)) (hl : l.kind = .endInside) (hl' : l'.kind ≠ .endInside) :
    absorb base (l :: l' :: acc) [⟨.startInside, t₁⟩, ⟨k₂, t₂⟩] = some (⟨k₂, base + t₂⟩ :: l' :: acc) := by
  simp [absorb, hl, hl']

theorem flat_append (ps qs : List (Entry α × Entry α)) : flat (ps ++ qs) = flat ps ++ flat qs := by simp [flat]

/-- One leg. -/
theorem absorb_good (inside : α → Prop) (lo x D : α) (hle : lo ≤ x) (hD : 0 ≤ D) (ps) (h : Good inside lo x ps)
    (es : List (Entry α)) (he : ExactLeg inside x D es) :
    ∃ ps', absorb x (flat ps).reverse es = some (flat ps').reverse ∧ Good inside lo (x + D) ps' := by
  rcases he with ⟨rfl, hn⟩ | ⟨k₁, k₂, t₁, t₂, rfl, h0, h12, h2, hin, hk1, hk2⟩
  · exact ⟨ps, by cases (flat ps).reverse <;> rfl, h.extend hle (by linarith) hn⟩
  · have hsecond : (k₂ = .endInside ∧ x + t₂ = x + D) ∨ (k₂ = .exit ∧ x + t₂ < x + D) := by
      rcases hk2 with ⟨hi, rfl⟩ | ⟨hi, rfl⟩
      · have := ((hin (x + D) (by linarith) (le_refl _)).1 hi).2
        exact .inl ⟨rfl, by linarith⟩
      · refine .inr ⟨rfl, ?_⟩
        by_contra hc
        exact hi ((hin (x + D) (by linarith) (le_refl _)).2 ⟨by linarith, by linarith⟩)
    rcases h.last hle with ⟨hx, hall⟩ | ⟨hx, qs, p, rfl, hp1, hp2, hall⟩
    · -- outside at the beginning of the leg
      have hk : k₁ = .enter := by
        rcases hk1 with ⟨hc, _⟩ | ⟨_, hk⟩
        · exact absurd hc hx
        · exact hk
      subst hk
      have ht1 : 0 < t₁ := by
        rcases lt_or_eq_of_le h0 with h | h
        · exact h
        · exact absurd ((hin x (le_refl _) (by linarith)).2 ⟨by linarith, by linarith⟩) hx
      refine ⟨ps ++ [(⟨.enter, x + t₁⟩, ⟨k₂, x + t₂⟩)], ?_, ?_⟩
      · rw [absorb_append x .enter k₂ t₁ t₂ _ (by decide)]
        · simp [flat]
        · intro e hee
          rcases List.eq_nil_or_concat ps with rfl | ⟨qs, p, rfl⟩
          · simp [flat] at hee
          · simp [flat] at hee
            rw [← hee, (hall p (by simp)).1]
            decide
      · refine ⟨fun p hp => ?_, ?_, fun p hp => ?_, fun p hp => ?_, fun τ h1 h2 => ?_⟩
        · rcases List.mem_append.1 hp with hp | hp
          · have := h.bounds p hp
            exact ⟨this.1, this.2.1, by linarith⟩
          · rw [List.mem_singleton] at hp
            subst hp
            exact ⟨by simp; linarith, by simp; linarith, by simp; linarith⟩
        · rw [List.pairwise_append]
          refine ⟨h.ordered, by simp, fun p hp q hq => ?_⟩
          rw [List.mem_singleton] at hq
          subst hq
          have := (hall p hp).2
          simp; linarith
        · rcases List.mem_append.1 hp with hp | hp
          · exact h.first p hp
          · rw [List.mem_singleton] at hp
            subst hp
            exact .inr rfl
        · rcases List.mem_append.1 hp with hp | hp
          · exact .inr ⟨(hall p hp).1, by linarith [(hall p hp).2]⟩
          · rw [List.mem_singleton] at hp
            subst hp
            exact hsecond
        · simp only [List.mem_append, List.mem_singleton]
          rcases le_or_gt x τ with hτ | hτ
          · rw [hin τ hτ h2]
            constructor
            · intro hc; exact ⟨_, .inr rfl, hc⟩
            · rintro ⟨p, hp | rfl, h3, h4⟩
              · linarith [(hall p hp).2]
              · exact ⟨h3, h4⟩
          · rw [h.covers τ h1 hτ.le]
            constructor
            · rintro ⟨p, hp, hc⟩; exact ⟨p, .inl hp, hc⟩
            · rintro ⟨p, hp | rfl, h3, h4⟩
              · exact ⟨p, hp, h3, h4⟩
              · simp at h3; linarith
    · -- inside at the beginning of the leg
      have hk : k₁ = .startInside := by
        rcases hk1 with ⟨_, hk⟩ | ⟨hc, _⟩
        · exact hk
        · exact absurd hx hc
      subst hk
      have ht1 : t₁ = 0 := by
        have := ((hin x (le_refl _) (by linarith)).1 hx).1
        linarith
      subst ht1
      have hbp := h.bounds p (by simp)
      have hp1' : p.1.kind ≠ .endInside := by
        rcases h.first p (by simp) with ⟨h3, _⟩ | h3 <;> rw [h3] <;> decide
      have hord := h.ordered
      rw [List.pairwise_append] at hord
      refine ⟨qs ++ [(p.1, ⟨k₂, x + t₂⟩)], ?_, ?_⟩
      · have : (flat (qs ++ [p])).reverse = p.2 :: p.1 :: (flat qs).reverse := by simp [flat]
        rw [this, absorb_merge x k₂ 0 t₂ p.2 p.1 _ hp1 hp1']
        simp [flat]
      · refine ⟨fun q hq => ?_, ?_, fun q hq => ?_, fun q hq => ?_, fun τ h1 h2 => ?_⟩
        · rcases List.mem_append.1 hq with hq | hq
          · have := h.bounds q (by simp [hq])
            exact ⟨this.1, this.2.1, by linarith⟩
          · rw [List.mem_singleton] at hq
            subst hq
            exact ⟨hbp.1, by simp; linarith, by simp; linarith⟩
        · rw [List.pairwise_append]
          refine ⟨hord.1, by simp, fun q hq r hr => ?_⟩
          rw [List.mem_singleton] at hr
          subst hr
          exact hord.2.2 q hq p (by simp)
        · rcases List.mem_append.1 hq with hq | hq
          · exact h.first q (by simp [hq])
          · rw [List.mem_singleton] at hq
            subst hq
            exact h.first p (by simp)
        · rcases List.mem_append.1 hq with hq | hq
          · exact .inr ⟨(hall q hq).1, by linarith [(hall q hq).2]⟩
          · rw [List.mem_singleton] at hq
            subst hq
            exact hsecond
        · simp only [List.mem_append, List.mem_singleton]
          rcases le_or_gt x τ with hτ | hτ
          · rw [hin τ hτ h2]
            constructor
            · intro hc; exact ⟨_, .inr rfl, by simp; linarith, hc.2⟩
            · rintro ⟨q, hq | rfl, h3, h4⟩
              · linarith [(hall q hq).2]
              · exact ⟨by linarith, h4⟩
          · rw [h.covers τ h1 hτ.le]
            constructor
            · rintro ⟨q, hq, hc⟩
              rcases List.mem_append.1 hq with hq | hq
              · exact ⟨q, .inl hq, hc⟩
              · rw [List.mem_singleton] at hq
                subst hq
                exact ⟨_, .inr rfl, hc.1, by simp; linarith⟩
            · rintro ⟨q, hq | rfl, h3, h4⟩
              · exact ⟨q, by simp [hq], h3, h4⟩
              · exact ⟨p, by simp, h3, by linarith⟩

/-- If the mover is nowhere in range on the rest of the path, nothing is added, whatever the times of the legs. -/
theorem scan_missed (I : Inter α L) (v t0 : α) (s : Nat) (inside : α → Prop) : ∀ (ws : List L) (Ds : List α) (x el : α) (acc),
    ExactPath I v s inside ws Ds x → (∀ τ, x ≤ τ → τ ≤ x + Ds.sum → ¬ inside τ) → 0 ≤ Ds.sum ∧ scan I v t0 s ws el acc = some acc
  | [], [], _, _, _, _, _ => ⟨by simp, rfl⟩
  | [_], [], _, _, _, _, _ => ⟨by simp, rfl⟩
  | w :: w' :: ws, D :: Ds, x, el, acc, h, hn => by
    obtain ⟨hD, res, hr, hl, hp, hrest⟩ := h
    have hsum : 0 ≤ Ds.sum := by
      by_contra hc
      push Not at hc
      have h0 : ∀ (ws : List L) (Ds : List α) (x : α), ExactPath I v s inside ws Ds x → 0 ≤ Ds.sum := by
        intro ws Ds
        induction Ds generalizing ws with
        | nil => intro x _; simp
        | cons D Ds ih =>
          intro x h
          match ws, h with
          | w :: w' :: ws, ⟨hD, _, _, _, _, hr⟩ => have := ih _ _ hr; simp; linarith
      exact absurd (h0 _ _ _ hrest) (not_le.2 hc)
    rw [List.sum_cons] at hn
    have ⟨_, ih⟩ := scan_missed I v t0 s inside (w' :: ws) Ds (x + D) (el + res.pathTime) acc hrest
      (fun τ h1 h2 => hn τ (by linarith) (by linarith))
    refine ⟨by simp; linarith, ?_⟩
    have hes : res.entries = [] := by
      rcases hl with ⟨he, _⟩ | ⟨_, _, t₁, t₂, _, h0, h12, h2, hin, _, _⟩
      · exact he
      · exact absurd ((hin (x + t₁) (by linarith) (by linarith)).2 ⟨le_refl _, by linarith⟩) (hn _ (by linarith) (by linarith))
    have habs : absorb (t0 + el) acc [] = some acc := by cases acc <;> rfl
    simp only [scan, hr, hes, habs, ih]

theorem scan_good (I : Inter α L) (v lo : α) (s : Nat) (inside : α → Prop) : ∀ (ws : List L) (Ds : List α) (el : α) (ps),
    ExactPath I v s inside ws Ds (lo + el) → 0 ≤ el → Good inside lo (lo + el) ps →
    ∃ ps', scan I v lo s ws el (flat ps).reverse = some (flat ps').reverse ∧ Good inside lo (lo + el + Ds.sum) ps'
  | [], [], _, ps, _, _, h => ⟨ps, rfl, by simpa using h⟩
  | [_], [], _, ps, _, _, h => ⟨ps, rfl, by simpa using h⟩
  | w :: w' :: ws, D :: Ds, el, ps, h, hel, hg => by
    have h' := h
    obtain ⟨hD, res, hr, hl, hp, hrest⟩ := h
    rcases hp with hp | hp
    · obtain ⟨ps', ha, hg'⟩ := absorb_good inside lo (lo + el) D (by linarith) hD ps hg res.entries hl
      have hrest' : ExactPath I v s inside (w' :: ws) Ds (lo + (el + D)) := by rw [← add_assoc]; exact hrest
      obtain ⟨ps'', hs, hg''⟩ := scan_good I v lo s inside (w' :: ws) Ds (el + D) ps' hrest' (by linarith) (by rw [← add_assoc]; exact hg')
      refine ⟨ps'', ?_, ?_⟩
      · simp only [scan, hr, ha, hp, hs]
      · rw [List.sum_cons]
        rwa [show lo + el + (D + Ds.sum) = lo + (el + D) + Ds.sum by ring]
    · rw [← List.sum_cons] at hp
      obtain ⟨h0, hs⟩ := scan_missed I v lo s inside _ _ (lo + el) el (flat ps).reverse h' hp
      exact ⟨ps, hs, hg.extend (by linarith) (by linarith) hp⟩

/-- The first leg. -/
theorem absorb_first (inside : α → Prop) (lo D : α) (hD : 0 ≤ D) (es : List (Entry α)) (he : ExactLeg inside lo D es) :
    ∃ ps', absorb lo [] es = some (flat ps').reverse ∧ Good inside lo (lo + D) ps' := by
  by_cases hx : inside lo
  · rcases he with ⟨_, hn⟩ | ⟨k₁, k₂, t₁, t₂, rfl, h0, h12, h2, hin, hk1, hk2⟩
    · exact absurd hx (hn lo (le_refl _) (by linarith))
    · have hk : k₁ = .startInside := by
        rcases hk1 with ⟨_, hk⟩ | ⟨hc, _⟩
        · exact hk
        · exact absurd hx hc
      subst hk
      have ht1 : t₁ = 0 := by
        have := ((hin lo (le_refl _) (by linarith)).1 hx).1
        linarith
      subst ht1
      refine ⟨[(⟨.startInside, lo + 0⟩, ⟨k₂, lo + t₂⟩)], by simp [absorb, flat], ?_⟩
      refine ⟨by simp; exact ⟨h12, h2⟩, by simp, by simp, ?_, by simpa using hin⟩
      simp only [List.mem_singleton, forall_eq]
      rcases hk2 with ⟨hi, rfl⟩ | ⟨hi, rfl⟩
      · have := ((hin (lo + D) (by linarith) (le_refl _)).1 hi).2
        exact .inl ⟨rfl, by linarith⟩
      · refine .inr ⟨rfl, ?_⟩
        by_contra hc
        exact hi ((hin (lo + D) (by linarith) (le_refl _)).2 ⟨by linarith, by linarith⟩)
  · exact absorb_good inside lo lo D (le_refl _) hD [] (Good.nil fun τ h1 h2 => by rwa [le_antisymm h2 h1]) es he

/-- The pairs found are the times in range. -/
theorem processPair_good (I : Inter α L) (t : Trip α L) (s : Nat) (inside : α → Prop) (Ds : List α)
    (h : ExactPath I t.speed s inside t.waypoints Ds t.start) (hne : Ds ≠ []) :
    ∃ ps, processPair I t s = some ps ∧ Good inside t.start (t.start + Ds.sum) ps := by
  suffices ∃ ps, scan I t.speed t.start s t.waypoints 0 [] = some (flat ps).reverse ∧ Good inside t.start (t.start + Ds.sum) ps by
    obtain ⟨ps, hs, hg⟩ := this
    refine ⟨ps, ?_, hg⟩
    unfold processPair
    rw [hs]
    simp only [List.reverse_reverse, pairUp_flat, hg.valid, if_true]
  obtain ⟨v, wps, lo⟩ := t
  match wps, Ds, h with
  | w :: w' :: ws, D :: Ds, h =>
    have h' := h
    obtain ⟨hD, res, hr, hl, hp, hrest⟩ := h
    obtain ⟨ps', ha, hg'⟩ := absorb_first inside lo D hD res.entries hl
    rcases hp with hp | hp
    · obtain ⟨ps'', hs, hg''⟩ := scan_good I v lo s inside (w' :: ws) Ds D ps' hrest hD hg'
      refine ⟨ps'', ?_, ?_⟩
      · simp only [scan, hr, add_zero, ha, hp, zero_add, hs]
      · rw [List.sum_cons]
        rwa [show lo + (D + Ds.sum) = lo + D + Ds.sum by ring]
    · rw [← List.sum_cons] at hp
      obtain ⟨h0, hs⟩ := scan_missed I v lo s inside _ _ lo 0 [] h' hp
      exact ⟨[], hs, Good.nil hp⟩
  | [_], [], _ => exact absurd rfl hne
  | [], [], _ => exact absurd rfl hne

end Verif.Queued
