import Verif.Multi.Kernel

/-!
# The invariant through `as_event` of a multi-event, and through whole runs
-/

namespace Verif.Multi

/-- What the loop of `Condition.__init__` has done after the members `l`. -/
structure Attached (c : Nat) (k : Cond) (l : List Nat) (s s' : St) : Prop where
  n : s'.n = s.n
  cond : s'.cond = s.cond
  ready : s'.ready = s.ready
  waiting : s'.waiting = s.waiting
  when : s'.when = s.when
  faked : s'.faked = s.faked
  parent : s'.parent = s.parent
  forgot : s'.forgot = s.forgot
  withdrawn : s'.withdrawn = s.withdrawn
  status : ∀ x, x ≠ c → s'.status x = s.status x
  bad : ∀ x, x ≠ c → s'.bad x = s.bad x
  count : ∀ x, x ≠ c → s'.count x = s.count x
  cbs : ∀ x cb, (s'.cbs x).count cb
    = (s.cbs x).count cb + if cb = .check c ∧ s.status x ≠ .processed then l.count x else 0
  own : (s'.status c = .pending ∧ s'.bad c = false ∧ s'.count c = l.countP (fun m => s.status m = .processed) ∧
      met k (s'.count c) = false ∧ ∀ m ∈ l, s.status m = .processed → s.bad m = false) ∨
    (s'.status c = .triggered ∧ (s'.bad c = true ∨ Good s k))

theorem attached_nil {s : St} {c : Nat} {k : Cond} (hp : s.status c = .pending) (hb : s.bad c = false)
    (h0 : s.count c = 0) (hk : k.members ≠ []) : Attached c k [] s s := by
  refine ⟨rfl, rfl, rfl, rfl, rfl, rfl, rfl, rfl, rfl, fun _ _ => rfl, fun _ _ => rfl, fun _ _ => rfl, ?_, Or.inl ?_⟩
  · intro x cb; simp
  · refine ⟨hp, hb, by simpa using h0, ?_, by simp⟩
    rw [h0]
    unfold met
    have : 0 < k.members.length := List.length_pos_of_ne_nil hk
    split <;> simp
    omega

/-- One more member. -/
theorem Attached.snoc {s s1 : St} {c : Nat} {k : Cond} {l : List Nat} {m : Nat} (h : Attached c k l s s1)
    (hc : s.cond c = some k) (hm : m ≠ c) (hcp : s.status c ≠ .processed)
    (hsub : ∃ r, k.members = l ++ m :: r) : Attached c k (l ++ [m]) s (attach c s1 m) := by
  unfold attach
  rw [h.status m hm]
  by_cases hp : s.status m = .processed
  · rw [if_pos hp]
    have hcbs : ∀ x cb, (s.cbs x).count cb + (if cb = .check c ∧ s.status x ≠ .processed then l.count x else 0)
        = (s.cbs x).count cb + if cb = .check c ∧ s.status x ≠ .processed then (l ++ [m]).count x else 0 := by
      intro x cb
      by_cases hx : x = m
      · subst hx; simp [hp]
      · simp [List.count_singleton, Ne.symm hx]
    unfold check
    have hck : s1.cond c = some k := by rw [h.cond, hc]
    simp only [hck]
    by_cases hpend : s1.status c ≠ .pending
    · rw [if_pos hpend]
      refine ⟨h.n, h.cond, h.ready, h.waiting, h.when, h.faked, h.parent, h.forgot, h.withdrawn, h.status, h.bad, h.count,
        fun x cb => (h.cbs x cb).trans (hcbs x cb), ?_⟩
      rcases h.own with h1 | h1
      · exact absurd h1.1 hpend
      · exact Or.inr h1
    · rw [if_neg hpend]
      have hpend : s1.status c = .pending := by simpa using hpend
      obtain ⟨hp1, hb1, hc1, hmet1, hgood1⟩ : s1.status c = .pending ∧ s1.bad c = false ∧
          s1.count c = l.countP (fun m => s.status m = .processed) ∧ met k (s1.count c) = false ∧
          ∀ m ∈ l, s.status m = .processed → s.bad m = false := by
        rcases h.own with h1 | h1
        · exact h1
        · rw [hpend] at h1; cases h1.1
      have hcnt : (l ++ [m]).countP (fun m => s.status m = .processed) = s1.count c + 1 := by
        rw [List.countP_append, hc1]; simp [hp]
      by_cases hbad : s1.bad m = true
      · rw [if_pos hbad]
        refine ⟨h.n, h.cond, h.ready, h.waiting, h.when, h.faked, h.parent, h.forgot, h.withdrawn, fun x hx => ?_,
          fun x hx => ?_, fun x hx => ?_, fun x cb => (h.cbs x cb).trans (hcbs x cb), ?_⟩
        · exact (upd_ne _ _ hx).trans (h.status x hx)
        · exact (upd_ne _ _ hx).trans (h.bad x hx)
        · exact (upd_ne _ _ hx).trans (h.count x hx)
        · exact Or.inr ⟨upd_same .., Or.inl (upd_same ..)⟩
      · rw [if_neg hbad]
        have hbm : s.bad m = false := by rw [← h.bad m hm]; simpa using hbad
        by_cases hmet : met k (s1.count c + 1) = true
        · rw [if_pos (by simpa using hmet)]
          refine ⟨h.n, h.cond, h.ready, h.waiting, h.when, h.faked, h.parent, h.forgot, h.withdrawn, fun x hx => ?_,
            h.bad, fun x hx => ?_, fun x cb => (h.cbs x cb).trans (hcbs x cb), ?_⟩
          · exact (upd_ne _ _ hx).trans (h.status x hx)
          · exact (upd_ne _ _ hx).trans (h.count x hx)
          · refine Or.inr ⟨upd_same .., Or.inr (Or.inr ?_)⟩
            obtain ⟨r, hr⟩ := hsub
            by_cases ha : k.all = true
            · rw [if_pos ha]
              unfold met at hmet
              rw [if_pos ha] at hmet
              have hlen : s1.count c + 1 = k.members.length := by simpa using hmet
              have hl2 : (l ++ [m]).countP (fun m => s.status m = .processed) ≤ (l ++ [m]).length := List.countP_le_length
              have hl3 : k.members.length = (l ++ [m]).length + r.length := by rw [hr]; simp; omega
              have hr0 : r = [] := List.length_eq_zero_iff.1 (by omega)
              have hall : (l ++ [m]).countP (fun m => s.status m = .processed) = (l ++ [m]).length := by
                rw [hr0] at hl3; simp at hl3; simp; simp at hcnt hl2; omega
              have hmem : k.members = l ++ [m] := by rw [hr, hr0]
              intro x hx
              rw [hmem] at hx
              have hxp : s.status x = .processed := by simpa using (List.countP_eq_length.1 hall) x hx
              refine ⟨hxp, ?_⟩
              rcases List.mem_append.1 hx with hx | hx
              · exact hgood1 x hx hxp
              · rw [List.mem_singleton.1 hx]; exact hbm
            · rw [if_neg ha]
              exact ⟨m, by rw [hr]; simp, hp, hbm⟩
        · rw [if_neg (by simpa using hmet)]
          refine ⟨h.n, h.cond, h.ready, h.waiting, h.when, h.faked, h.parent, h.forgot, h.withdrawn, h.status,
            h.bad, fun x hx => ?_, fun x cb => (h.cbs x cb).trans (hcbs x cb), ?_⟩
          · exact (upd_ne _ _ hx).trans (h.count x hx)
          · refine Or.inl ⟨hp1, hb1, ?_, ?_, ?_⟩
            · rw [hcnt]; exact upd_same ..
            · show met k (upd s1.count c (s1.count c + 1) c) = false
              rw [upd_same]; simpa using hmet
            · intro x hx hxp
              rcases List.mem_append.1 hx with hx | hx
              · exact hgood1 x hx hxp
              · rw [List.mem_singleton.1 hx]; exact hbm
  · rw [if_neg hp]
    refine ⟨h.n, h.cond, h.ready, h.waiting, h.when, h.faked, h.parent, h.forgot, h.withdrawn, h.status, h.bad, h.count,
      fun x cb => ?_, ?_⟩
    · show (upd s1.cbs m (s1.cbs m ++ [.check c]) x).count cb = _
      by_cases hx : x = m
      · subst hx
        rw [upd_same, List.count_append, h.cbs x cb]
        by_cases hcb : cb = .check c
        · subst hcb; simp [hp]; omega
        · simp [hcb, List.count_singleton, Ne.symm hcb]
      · rw [upd_ne _ _ hx, h.cbs x cb]
        simp [List.count_singleton, Ne.symm hx]
    · rcases h.own with h1 | h1
      · refine Or.inl ⟨h1.1, h1.2.1, ?_, h1.2.2.2.1, ?_⟩
        · rw [List.countP_append, h1.2.2.1]; simp [hp]
        · intro x hx hxp
          rcases List.mem_append.1 hx with hx | hx
          · exact h1.2.2.2.2 x hx hxp
          · rw [List.mem_singleton.1 hx] at hxp; exact absurd hxp hp
      · exact Or.inr h1

theorem attached_fold {s : St} {c : Nat} {k : Cond} (hc : s.cond c = some k) (hcp : s.status c = .pending)
    (hcb : s.bad c = false) (hcc : s.count c = 0) (hk : k.members ≠ []) (hmem : ∀ m ∈ k.members, m ≠ c) :
    Attached c k k.members s (k.members.foldl (attach c) s) := by
  have key : ∀ (l r : List Nat) (s1 : St), k.members = l ++ r → Attached c k l s s1 →
      Attached c k (l ++ r) s (r.foldl (attach c) s1) := by
    intro l r
    induction r generalizing l with
    | nil => intro s1 _ h; simpa using h
    | cons a r ih =>
      intro s1 hl h
      have h1 := h.snoc (m := a) hc (hmem a (by rw [hl]; simp)) (by rw [hcp]; simp) ⟨r, hl⟩
      have := ih (l ++ [a]) (attach c s1 a) (by rw [hl]; simp) h1
      simpa using this
  have := key [] k.members s (by simp) (attached_nil hcp hcb hcc hk)
  simpa using this

theorem Inv.due_fresh {s : St} (hI : Inv s) {c : Nat} (hc : s.n ≤ c) : due s c = 0 := by
  unfold due
  rw [List.countP_eq_zero]
  rintro ⟨e, cb⟩ hx
  simp only [decide_eq_true_eq]
  rintro rfl
  obtain ⟨k, hk, _⟩ := hI.rdyc e c hx
  have := (hI.lt c k hk).1
  omega

theorem Inv.cond_fresh {s : St} (hI : Inv s) {c : Nat} (hc : s.n ≤ c) : s.cond c = none := by
  cases h : s.cond c with
  | none => rfl
  | some k => have := (hI.lt c k h).1; omega

/-- A new condition, attached to its members. -/
theorem Inv.attached {s s' : St} (hI : Inv s) {k : Cond} (hm : makeable s k.members = true)
    (h : Attached s.n k k.members { s with n := s.n + 1, cond := upd s.cond s.n (some k),
                                           parent := fun m => if m ∈ k.members ∧ s.cond m ≠ none then some s.n
                                             else s.parent m } s')
    (hk : k.members ≠ []) : Inv s' := by
  have hmem : ∀ m ∈ k.members, m < s.n ∧ (s.cond m = none ∨ (s.parent m = none ∧ s.status m ≠ .processed ∧
      s.cbs m = [] ∧ k.members.count m = 1)) := by
    intro m hmm
    have := List.all_eq_true.1 hm m hmm
    simp only [Bool.and_eq_true, Bool.or_eq_true, decide_eq_true_eq] at this
    exact ⟨this.1, this.2.imp_right (fun h => ⟨h.1.1.1, h.1.1.2, h.1.2, h.2⟩)⟩
  have hfr := hI.fresh s.n (Nat.le_refl _)
  have hcf := hI.cond_fresh (Nat.le_refl s.n)
  have hcond : ∀ x, x ≠ s.n → s'.cond x = s.cond x := fun x hx => by rw [h.cond]; exact upd_ne _ _ hx
  have hcondc : s'.cond s.n = some k := by rw [h.cond]; exact upd_same ..
  have hstat : ∀ x, x ≠ s.n → s'.status x = s.status x := h.status
  have hbad : ∀ x, x ≠ s.n → s'.bad x = s.bad x := h.bad
  have hforg : s'.forgot = s.forgot := h.forgot
  have hready : s'.ready = s.ready := h.ready
  have hcnp : s'.status s.n ≠ .processed := by
    rcases h.own with h1 | h1 <;> rw [h1.1] <;> simp
  have hst : ∀ x, s'.status x = .processed ↔ s.status x = .processed := by
    intro x
    by_cases hx : x = s.n
    · subst hx
      exact ⟨fun h => absurd h hcnp, fun h => by rw [hfr.1] at h; cases h⟩
    · rw [hstat x hx]
  have hcbs : ∀ x cb, (s'.cbs x).count cb = (s.cbs x).count cb +
      if cb = .check s.n ∧ s.status x ≠ .processed then k.members.count x else 0 := h.cbs
  have hcbs' : ∀ x cb, cb ≠ .check s.n → (s'.cbs x).count cb = (s.cbs x).count cb := by
    intro x cb hcb; rw [hcbs]; simp [hcb]
  have hdue : ∀ c, due s' c = due s c := fun c => by unfold due; rw [hready]
  have hgood : ∀ k', (∀ m ∈ k'.members, m < s.n) → Good s k' → Good s' k' := by
    intro k' hlt hg
    refine hg.mono (fun m hm h1 h2 => ⟨(hst m).2 h1, ?_⟩)
    rw [hbad m (Nat.ne_of_lt (hlt m hm))]; exact h2
  have hold : ∀ c k', s'.cond c = some k' → c ≠ s.n → s.cond c = some k' := fun c k' hc hn => by
    rw [hcond c hn] at hc; exact hc
  have hnil : ∀ x, s.cbs x = [] → s.status x = .processed → s'.cbs x = [] := by
    intro x hx hp
    have : ∀ cb, (s'.cbs x).count cb = 0 := by
      intro cb; rw [hcbs, hx]; simp [hp]
    cases hfx : s'.cbs x with
    | nil => rfl
    | cons a l => have := this a; rw [hfx, List.count_cons_self] at this; omega
  have hsn : s'.n = s.n + 1 := h.n
  constructor
  case lt =>
    intro c k' hc
    rw [hsn]
    by_cases hcn : c = s.n
    · subst hcn
      rw [hcondc] at hc; cases hc
      exact ⟨Nat.lt_succ_self _, fun m hm => (hmem m hm).1⟩
    · have := hI.lt c k' (hold c k' hc hcn)
      exact ⟨Nat.lt_succ_of_lt this.1, this.2⟩
  case fresh =>
    intro x hx
    rw [hsn] at hx
    have hxn : x ≠ s.n := by omega
    have h0 := hI.fresh x (by omega)
    have hxm : x ∉ k.members := fun hm => by have := (hmem x hm).1; omega
    refine ⟨by rw [hstat x hxn]; exact h0.1, ?_, ?_, by rw [hforg]; exact h0.2.2.2.1, by rw [hbad x hxn]; exact h0.2.2.2.2.1,
      by rw [h.count x hxn]; exact h0.2.2.2.2.2.1, by rw [h.when]; exact h0.2.2.2.2.2.2.1,
      by rw [h.faked]; exact h0.2.2.2.2.2.2.2.1, by rw [h.withdrawn]; exact h0.2.2.2.2.2.2.2.2⟩
    · have : ∀ cb, (s'.cbs x).count cb = 0 := by
        intro cb; rw [hcbs, h0.2.1, List.count_eq_zero_of_not_mem hxm]; simp
      cases hfx : s'.cbs x with
      | nil => rfl
      | cons a l => have := this a; rw [hfx, List.count_cons_self] at this; omega
    · rw [h.parent]
      show (if x ∈ k.members ∧ s.cond x ≠ none then some s.n else s.parent x) = none
      rw [if_neg (fun h => hxm h.1)]; exact h0.2.2.1
  case isCond =>
    intro x c hx
    by_cases hcn : c = s.n
    · subst hcn; rw [hcondc]; simp
    · rw [hcond c hcn]
      refine hI.isCond x c ?_
      rw [← List.count_pos_iff] at hx ⊢
      rw [hcbs' x _ (by simpa using hcn)] at hx; exact hx
  case par =>
    intro c k' m hc hm hmc
    rw [h.parent]
    show (if m ∈ k.members ∧ s.cond m ≠ none then some s.n else s.parent m) = some c
    by_cases hcn : c = s.n
    · subst hcn
      rw [hcondc] at hc; cases hc
      have hmn : m ≠ s.n := Nat.ne_of_lt (hmem m hm).1
      rw [hcond m hmn] at hmc
      rw [if_pos ⟨hm, hmc⟩]
    · have hc0 := hold c k' hc hcn
      have hlt := hI.lt c k' hc0
      have hmn : m ≠ s.n := by have := hlt.2 m hm; omega
      rw [hcond m hmn] at hmc
      have hpar := hI.par c k' m hc0 hm hmc
      rw [if_neg]
      · exact hpar
      · rintro ⟨hmk, _⟩
        rcases (hmem m hmk).2 with h' | h'
        · exact hmc h'
        · rw [h'.1] at hpar; cases hpar
  case once =>
    intro c k' m hc hm hmc
    by_cases hcn : c = s.n
    · subst hcn
      rw [hcondc] at hc; cases hc
      rw [hcond m (Nat.ne_of_lt (hmem m hm).1)] at hmc
      rcases (hmem m hm).2 with h' | h'
      · exact absurd h' hmc
      · exact h'.2.2.2
    · have hc0 := hold c k' hc hcn
      have hlt := hI.lt c k' hc0
      have hmn : m ≠ s.n := by have := hlt.2 m hm; omega
      rw [hcond m hmn] at hmc
      exact hI.once c k' m hc0 hm hmc
  case att =>
    intro c k' x hc hf hx
    have hx0 : s.status x ≠ .processed := fun h => hx ((hst x).2 h)
    by_cases hcn : c = s.n
    · subst hcn
      rw [hcondc] at hc; cases hc
      rw [hcbs]
      have h0 : (s.cbs x).count (.check s.n) = 0 := by
        rw [List.count_eq_zero]
        intro hx; exact hI.isCond x s.n hx hcf
      rw [h0]; simp [hx0]
    · rw [hcbs' x _ (by simpa using hcn)]
      rw [hforg] at hf
      exact hI.att c k' x (hold c k' hc hcn) hf hx0
  case gone =>
    intro c x hf
    rw [hforg] at hf
    have hcn : c ≠ s.n := fun h => by rw [h, hfr.2.2.2.1] at hf; cases hf
    rw [hcbs' x _ (by simpa using hcn), hdue]
    exact hI.gone c x hf
  case cnt =>
    intro c k' hc hp hf
    by_cases hcn : c = s.n
    · subst hcn
      rw [hcondc] at hc; cases hc
      rcases h.own with h1 | h1
      · refine ⟨hk, ?_, h1.2.2.2.1, ?_⟩
        · rw [hdue, hI.due_fresh (Nat.le_refl _), h1.2.2.1]
          exact countP_congr' (fun m hm => (hst m).symm)
        · intro m hm hmp hmb
          have := h1.2.2.2.2 m hm ((hst m).1 hmp)
          rw [hbad m (Nat.ne_of_lt (hmem m hm).1), this] at hmb; cases hmb
      · rw [h1.1] at hp; cases hp
    · have hc0 := hold c k' hc hcn
      rw [hstat c hcn] at hp
      rw [hforg] at hf
      have h0 := hI.cnt c k' hc0 hp hf
      rw [h.count c hcn, hdue]
      refine ⟨h0.1, h0.2.1.trans (countP_congr' (fun m _ => (hst m).symm)), h0.2.2.1, ?_⟩
      intro m hm hmp hmb
      have hlt := hI.lt c k' hc0
      have hmn : m ≠ s.n := by have := hlt.2 m hm; omega
      rw [hbad m hmn] at hmb
      rw [hready]
      exact h0.2.2.2 m hm ((hst m).1 hmp) hmb
  case snd =>
    intro c k' hc hp hb
    by_cases hcn : c = s.n
    · subst hcn
      rw [hcondc] at hc; cases hc
      rcases h.own with h1 | h1
      · exact absurd h1.1 hp
      · rcases h1.2 with h2 | h2
        · rw [hb] at h2; cases h2
        · exact hgood k (fun m hm => (hmem m hm).1) h2
    · have hc0 := hold c k' hc hcn
      rw [hstat c hcn] at hp
      rw [hbad c hcn] at hb
      have hlt := hI.lt c k' hc0
      exact hgood k' (fun m hm => by have := hlt.2 m hm; omega) (hI.snd c k' hc0 hp hb)
  case forg =>
    intro m hm
    rw [hforg] at hm ⊢
    rcases hI.forg m hm with h' | ⟨p, h1, h2⟩
    · exact Or.inl ((hst m).2 h')
    · right
      rw [h.parent]
      refine ⟨p, ?_, h2⟩
      show (if m ∈ k.members ∧ s.cond m ≠ none then some s.n else s.parent m) = some p
      rw [if_neg]
      · exact h1
      · rintro ⟨hmk, hmc⟩
        rcases (hmem m hmk).2 with h' | h'
        · exact hmc h'
        · rw [h'.1] at h1; cases h1
  case pforg =>
    intro c hc hp
    have hcn : c ≠ s.n := fun h => by rw [h] at hp; exact hcnp hp
    rw [hforg]
    exact hI.pforg c (by rw [← hcond c hcn]; exact hc) ((hst c).1 hp)
  case procCbs =>
    intro x hx
    have hx := (hst x).1 hx
    exact hnil x (hI.procCbs x hx) hx
  case rdy =>
    intro x cb hx
    rw [hready] at hx
    have := hI.rdy x cb hx
    exact ⟨(hst x).2 this.1, by rw [hsn]; omega⟩
  case rdyc =>
    intro x c hx
    rw [hready] at hx
    obtain ⟨k', hk', hx'⟩ := hI.rdyc x c hx
    have hcn : c ≠ s.n := by have := (hI.lt c k' hk').1; omega
    exact ⟨k', by rw [hcond c hcn]; exact hk', hx'⟩
  case base1 =>
    intro x hx hp
    have hxn : x ≠ s.n := fun h => by rw [h, hcondc] at hx; cases hx
    rw [hcond x hxn] at hx
    rw [hstat x hxn] at hp
    rw [h.when, h.faked, hbad x hxn]
    exact hI.base1 x hx hp
  case base2 =>
    intro x hx
    rw [h.when] at hx
    have hxn : x ≠ s.n := fun h' => by rw [h'] at hx; exact hx hfr.2.2.2.2.2.2.1
    rw [hstat x hxn, hbad x hxn, h.faked, hcond x hxn]
    exact hI.base2 x hx
  case badp =>
    intro x hx
    by_cases hxn : x = s.n
    · subst hxn
      rcases h.own with h1 | h1
      · rw [h1.2.1] at hx; cases hx
      · rw [h1.1]; simp
    · rw [hbad x hxn] at hx
      rw [hstat x hxn]; exact hI.badp x hx
  case fakep =>
    intro x hx
    rw [h.faked] at hx
    have hxn : x ≠ s.n := fun h' => by
      rw [h'] at hx
      have h2 : s.faked s.n = true := hx
      rw [hfr.2.2.2.2.2.2.2.1] at h2; cases h2
    rw [hstat x hxn, hcond x hxn]
    exact hI.fakep x hx
  case wait =>
    intro t x
    rw [hcbs' x _ (by simp), hready, h.waiting]
    exact hI.wait t x
  case root =>
    intro t x hx
    rw [h.waiting] at hx
    have h0 := hI.root t x hx
    have hxn : x ≠ s.n := Nat.ne_of_lt h0.1
    refine ⟨by rw [hsn]; omega, fun hc => ?_⟩
    rw [hcond x hxn] at hc
    rw [h.parent]
    show (if x ∈ k.members ∧ s.cond x ≠ none then some s.n else s.parent x) = none
    rw [if_neg]
    · exact h0.2 hc
    · rintro ⟨hxm, _⟩
      rcases (hmem x hxm).2 with h' | h'
      · exact hc h'
      · have hw := hI.wait t x
        rw [h'.2.2.1, if_pos (show s.waiting t = some x from hx)] at hw
        simp only [List.count_nil, Nat.zero_add] at hw
        have hin : (x, Cb.resume t) ∈ s.ready := List.count_pos_iff.1 (by omega)
        exact h'.2.1 (hI.rdy x _ hin).1

/-- A condition without members. -/
theorem Inv.empty {s : St} (hI : Inv s) (all : Bool) :
    Inv { s with n := s.n + 1, cond := upd s.cond s.n (some ⟨all, []⟩), status := upd s.status s.n .triggered } := by
  have hfr := hI.fresh s.n (Nat.le_refl _)
  have hcf := hI.cond_fresh (Nat.le_refl s.n)
  have hold : ∀ c k', upd s.cond s.n (some ⟨all, []⟩) c = some k' → c ≠ s.n → s.cond c = some k' := fun c k' hc hn => by
    rw [upd_ne _ _ hn] at hc; exact hc
  have hst : ∀ x, upd s.status s.n .triggered x = .processed ↔ s.status x = .processed := by
    intro x
    by_cases hx : x = s.n
    · subst hx; simp [hfr.1]
    · rw [upd_ne _ _ hx]
  have hcases : ∀ c k', upd s.cond s.n (some ⟨all, []⟩) c = some k' → c = s.n ∧ k'.members = [] ∨
      c ≠ s.n ∧ s.cond c = some k' := by
    intro c k' hc
    by_cases hn : c = s.n
    · subst hn; rw [upd_same] at hc; cases hc; exact Or.inl ⟨rfl, rfl⟩
    · exact Or.inr ⟨hn, hold c k' hc hn⟩
  have hnone : ∀ x, s.n ≤ x → ∀ cb, (s.cbs x).count cb = 0 := fun x hx cb => by rw [(hI.fresh x hx).2.1]; rfl
  constructor
  case lt =>
    intro c k' hc
    show c < s.n + 1 ∧ _
    rcases hcases c k' hc with ⟨rfl, h⟩ | ⟨_, h⟩
    · rw [h]; exact ⟨Nat.lt_succ_self _, by simp⟩
    · exact ⟨Nat.lt_succ_of_lt (hI.lt c k' h).1, (hI.lt c k' h).2⟩
  case fresh =>
    intro x hx
    have hx' : s.n + 1 ≤ x := hx
    have h := hI.fresh x (by omega)
    refine ⟨?_, h.2⟩
    show upd s.status s.n .triggered x = .pending
    rw [upd_ne _ _ (by omega)]; exact h.1
  case isCond =>
    intro x c hx
    show upd s.cond s.n (some ⟨all, []⟩) c ≠ none
    by_cases hn : c = s.n
    · subst hn; simp
    · rw [upd_ne _ _ hn]; exact hI.isCond x c hx
  case par =>
    intro c k' m hc hm hmc
    rcases hcases c k' hc with ⟨rfl, h⟩ | ⟨hn, h⟩
    · rw [h] at hm; simp at hm
    · have hlt := hI.lt c k' h
      have hmn : m ≠ s.n := by have := hlt.2 m hm; omega
      change upd s.cond s.n (some ⟨all, []⟩) m ≠ none at hmc
      rw [upd_ne _ _ hmn] at hmc
      exact hI.par c k' m h hm hmc
  case once =>
    intro c k' m hc hm hmc
    rcases hcases c k' hc with ⟨rfl, h⟩ | ⟨hn, h⟩
    · rw [h] at hm; simp at hm
    · have hlt := hI.lt c k' h
      have hmn : m ≠ s.n := by have := hlt.2 m hm; omega
      change upd s.cond s.n (some ⟨all, []⟩) m ≠ none at hmc
      rw [upd_ne _ _ hmn] at hmc
      exact hI.once c k' m h hm hmc
  case att =>
    intro c k' x hc hf hx
    have hx : s.status x ≠ .processed := fun h => hx ((hst x).2 h)
    rcases hcases c k' hc with ⟨rfl, h⟩ | ⟨hn, h⟩
    · rw [h]
      show (s.cbs x).count (.check s.n) = 0
      rw [List.count_eq_zero]
      exact fun h => hI.isCond x s.n h hcf
    · exact hI.att c k' x h hf hx
  case gone => exact hI.gone
  case cnt =>
    intro c k' hc hp hf
    change upd s.status s.n .triggered c = .pending at hp
    rcases hcases c k' hc with ⟨rfl, h⟩ | ⟨hn, h⟩
    · simp at hp
    · rw [upd_ne _ _ hn] at hp
      have h0 := hI.cnt c k' h hp hf
      refine ⟨h0.1, h0.2.1.trans (countP_congr' (fun m _ => (hst m).symm)), h0.2.2.1, ?_⟩
      exact fun m hm hmp hmb => h0.2.2.2 m hm ((hst m).1 hmp) hmb
  case snd =>
    intro c k' hc hp hb
    rcases hcases c k' hc with ⟨rfl, h⟩ | ⟨hn, h⟩
    · exact Or.inl h
    · change upd s.status s.n .triggered c ≠ .pending at hp
      rw [upd_ne _ _ hn] at hp
      exact (hI.snd c k' h hp hb).mono (fun m _ h1 h2 => ⟨(hst m).2 h1, h2⟩)
  case forg => exact fun m hm => (hI.forg m hm).imp_left (hst m).2
  case pforg =>
    intro c hc hp
    have hp := (hst c).1 hp
    have hn : c ≠ s.n := fun h => by rw [h, hfr.1] at hp; cases hp
    change upd s.cond s.n (some ⟨all, []⟩) c ≠ none at hc
    rw [upd_ne _ _ hn] at hc
    exact hI.pforg c hc hp
  case procCbs => exact fun x hx => hI.procCbs x ((hst x).1 hx)
  case rdy =>
    intro x cb hx
    exact ⟨(hst x).2 (hI.rdy x cb hx).1, Nat.lt_succ_of_lt (hI.rdy x cb hx).2⟩
  case rdyc =>
    intro x c hx
    obtain ⟨k', hk', hx'⟩ := hI.rdyc x c hx
    have hn : c ≠ s.n := by have := (hI.lt c k' hk').1; omega
    exact ⟨k', (upd_ne _ _ hn).trans hk', hx'⟩
  case base1 =>
    intro x hx hp
    change upd s.cond s.n (some ⟨all, []⟩) x = none at hx
    change upd s.status s.n .triggered x ≠ .pending at hp
    have hn : x ≠ s.n := fun h => by subst h; simp at hx
    rw [upd_ne _ _ hn] at hx hp
    exact hI.base1 x hx hp
  case base2 =>
    intro x hx
    have h0 := hI.base2 x hx
    have hn : x ≠ s.n := fun h => by rw [h] at h0; exact h0.1 hfr.1
    exact ⟨by show upd s.status s.n .triggered x ≠ _; rw [upd_ne _ _ hn]; exact h0.1, h0.2.1, h0.2.2.1,
      (upd_ne _ _ hn).trans h0.2.2.2⟩
  case badp =>
    intro x hx
    have h0 := hI.badp x hx
    show upd s.status s.n .triggered x ≠ _
    by_cases hn : x = s.n
    · subst hn; simp
    · rw [upd_ne _ _ hn]; exact h0
  case fakep =>
    intro x hx
    have h0 := hI.fakep x hx
    have hn : x ≠ s.n := fun h => by rw [h] at h0; exact h0.1 hfr.1
    exact ⟨by show upd s.status s.n .triggered x ≠ _; rw [upd_ne _ _ hn]; exact h0.1, (upd_ne _ _ hn).trans h0.2⟩
  case wait => exact hI.wait
  case root =>
    intro t x hx
    have h0 := hI.root t x hx
    refine ⟨Nat.lt_succ_of_lt h0.1, fun hc => h0.2 ?_⟩
    change upd s.cond s.n (some ⟨all, []⟩) x ≠ none at hc
    rw [upd_ne _ _ (Nat.ne_of_lt h0.1)] at hc
    exact hc

theorem Inv.make {s : St} (hI : Inv s) (all : Bool) (ms : List Nat) (hm : makeable s ms = true) :
    Inv (make s all ms) := by
  unfold Multi.make
  simp only
  by_cases h0 : ms = []
  · subst h0
    rw [if_pos rfl]
    have := hI.empty all
    simpa using this
  · rw [if_neg h0]
    have hfr := hI.fresh s.n (Nat.le_refl _)
    have hlt : ∀ m ∈ ms, m ≠ s.n := by
      intro m hmm
      have := List.all_eq_true.1 hm m hmm
      simp only [Bool.and_eq_true, decide_eq_true_eq] at this
      have := this.1
      omega
    exact hI.attached (k := ⟨all, ms⟩) hm
      (attached_fold (k := ⟨all, ms⟩) (upd_same ..) hfr.1 hfr.2.2.2.2.1 hfr.2.2.2.2.2.1 h0 hlt) h0

theorem Inv.step {s : St} (hI : Inv s) (op : Op) : Inv (step s op).1 := by
  cases op with
  | newEvent k => exact hI.newEvent k
  | occur e ok => exact hI.occur e ok
  | make all ms =>
    unfold Multi.step
    simp only
    split
    · rename_i h; exact hI.make all ms h
    · exact hI
  | waitFor t e => exact hI.waitFor t e
  | process e => exact hI.process e
  | callback => exact hI.callback
  | interrupt t => exact hI.interrupt t
  | ignore t => exact hI.ignore t
  | tick =>
    unfold Multi.step tick
    simp only
    split
    · exact hI.ghost _ _
    · exact hI

theorem Inv.run {s : St} (hI : Inv s) (ops : List Op) : Inv (run s ops).1 := by
  induction ops generalizing s with
  | nil => exact hI
  | cons op ops ih => exact ih (hI.step op)

end Verif.Multi
