import Verif.Multi.Inv

/-!
# The invariant through the kernel's steps and the making of multi-events
-/

namespace Verif.Multi

theorem due_cons (s : St) (x : Nat × Cb) (r : List (Nat × Cb)) (hr : s.ready = x :: r) (c : Nat) :
    due s c = r.countP (fun p => p.2 = .check c) + if x.2 = .check c then 1 else 0 := by
  unfold due
  rw [hr, List.countP_cons]
  simp

/-- The next callback is a resumption. -/
theorem Inv.resume {s : St} (hI : Inv s) {e t : Nat} {r : List (Nat × Cb)} (hr : s.ready = (e, .resume t) :: r) :
    Inv { s with ready := r, waiting := upd s.waiting t none } := by
  have hsub : ∀ x, x ∈ r → x ∈ s.ready := fun x hx => by rw [hr]; exact List.mem_cons_of_mem _ hx
  have hdue : ∀ c, r.countP (fun p => p.2 = .check c) = due s c := by
    intro c; rw [due_cons s _ r hr c]; simp
  have hwt : s.waiting t = some e := by
    have h := hI.wait t e
    rw [hr, List.count_cons_self] at h
    by_contra hn
    rw [if_neg hn] at h
    omega
  constructor
  case lt => exact hI.lt
  case fresh => exact hI.fresh
  case isCond => exact hI.isCond
  case par => exact hI.par
  case once => exact hI.once
  case att => exact hI.att
  case gone => exact fun c x hf => ⟨(hI.gone c x hf).1, (hdue c).trans (hI.gone c x hf).2⟩
  case cnt =>
    intro c k hc hp hf
    have h := hI.cnt c k hc hp hf
    refine ⟨h.1, ?_, h.2.2.1, ?_⟩
    · show s.count c + r.countP (fun p => p.2 = .check c) = _
      rw [hdue]; exact h.2.1
    · intro m hm h1 h2
      have := h.2.2.2 m hm h1 h2
      rw [hr] at this
      rcases List.mem_cons.1 this with h | h
      · cases h
      · exact h
  case snd => exact hI.snd
  case forg => exact hI.forg
  case pforg => exact hI.pforg
  case procCbs => exact hI.procCbs
  case rdy => exact fun x cb hx => hI.rdy x cb (hsub _ hx)
  case rdyc => exact fun x c hx => hI.rdyc x c (hsub _ hx)
  case base1 => exact hI.base1
  case base2 => exact hI.base2
  case badp => exact hI.badp
  case fakep => exact hI.fakep
  case wait =>
    intro t' x
    show (s.cbs x).count (.resume t') + r.count (x, .resume t') = if upd s.waiting t none t' = some x then 1 else 0
    have h := hI.wait t' x
    rw [hr, List.count_cons] at h
    by_cases ht : t' = t
    · subst ht
      rw [upd_same]
      simp only [reduceCtorEq, if_false]
      by_cases hx : x = e
      · subst hx
        simp only [beq_self_eq_true, if_true, hwt] at h
        omega
      · have hne : s.waiting t' ≠ some x := by rw [hwt]; exact fun h => hx (Option.some.inj h).symm
        simp only [hne, if_false] at h
        omega
    · rw [upd_ne _ _ ht, ← h, if_neg]
      · omega
      · simp [Ne.symm ht]
  case root =>
    intro t' x hx
    change upd s.waiting t none t' = some x at hx
    by_cases ht : t' = t
    · subst ht; simp at hx
    · rw [upd_ne _ _ ht] at hx; exact hI.root t' x hx

/-- A check is called: of all the fields only those of the condition change. -/
theorem Inv.checked {s : St} (hI : Inv s) {e c : Nat} {r : List (Nat × Cb)} (hr : s.ready = (e, .check c) :: r)
    (cn : Nat) (st : Status) (b : Bool)
    (h : (st = s.status c ∧ s.status c ≠ .pending ∧ cn = s.count c ∧ b = s.bad c) ∨
      (s.status c = .pending ∧ cn = s.count c + 1 ∧ s.forgot c = false ∧ ∀ k, s.cond c = some k →
        (st = .triggered ∧ (b = true ∨ (b = false ∧ Good s k))) ∨
        (st = .pending ∧ b = false ∧ s.bad e = false ∧ met k (s.count c + 1) = false))) :
    Inv { s with ready := r, count := upd s.count c cn, status := upd s.status c st, bad := upd s.bad c b } := by
  have hsub : ∀ x, x ∈ r → x ∈ s.ready := fun x hx => by rw [hr]; exact List.mem_cons_of_mem _ hx
  obtain ⟨kc, hkc, hek⟩ := hI.rdyc e c (by rw [hr]; exact List.mem_cons_self)
  have hcn : c < s.n := (hI.lt c kc hkc).1
  have hst : ∀ x, upd s.status c st x = .processed ↔ s.status x = .processed := by
    intro x
    by_cases hx : x = c
    · subst hx
      rw [upd_same]
      rcases h with h | h
      · rw [h.1]
      · rcases h.2.2.2 kc hkc with h' | h' <;> rw [h'.1, h.1] <;> simp
    · rw [upd_ne _ _ hx]
  have hpend : ∀ x, upd s.status c st x = .pending → s.status x = .pending := by
    intro x hx
    by_cases hxc : x = c
    · subst hxc
      rw [upd_same] at hx
      rcases h with h | h
      · rw [← h.1]; exact hx
      · exact h.1
    · rw [upd_ne _ _ hxc] at hx; exact hx
  have hbad : ∀ x, s.status x = .processed → upd s.bad c b x = s.bad x := by
    intro x hx
    by_cases hxc : x = c
    · subst hxc
      rw [upd_same]
      rcases h with h | h
      · exact h.2.2.2
      · rw [h.1] at hx; cases hx
    · rw [upd_ne _ _ hxc]
  have hproc : ∀ k : Cond, proc { s with ready := r, count := upd s.count c cn, status := upd s.status c st,
                                         bad := upd s.bad c b } k = proc s k := fun k => countP_congr' (fun m _ => hst m)
  have hdue : ∀ c', r.countP (fun p => p.2 = .check c') + (if c' = c then 1 else 0) = due s c' := by
    intro c'
    rw [due_cons s _ r hr c']
    simp [eq_comm]
  have hgood : ∀ k : Cond, Good s k → Good { s with ready := r, count := upd s.count c cn, status := upd s.status c st,
                                                    bad := upd s.bad c b } k := by
    intro k hg
    refine hg.mono (fun m _ h1 h2 => ⟨(hst m).2 h1, ?_⟩)
    show upd s.bad c b m = false
    rw [hbad m h1]; exact h2
  constructor
  case lt => exact hI.lt
  case fresh =>
    intro x hx
    have hxc : x ≠ c := by have : s.n ≤ x := hx; omega
    have := hI.fresh x hx
    simp only [upd_ne _ _ hxc]
    exact this
  case isCond => exact hI.isCond
  case par => exact hI.par
  case once => exact hI.once
  case att => exact fun c k x hc hf hx => hI.att c k x hc hf (fun h => hx ((hst x).2 h))
  case gone =>
    intro c' x hf
    have h := hI.gone c' x hf
    refine ⟨h.1, ?_⟩
    show r.countP (fun p => p.2 = .check c') = 0
    have := hdue c'
    omega
  case cnt =>
    intro c' k hc' hp hf
    have hp0 := hpend c' hp
    have h0 := hI.cnt c' k hc' hp0 hf
    refine ⟨h0.1, ?_, ?_, ?_⟩
    · rw [hproc, ← h0.2.1, ← hdue c']
      show upd s.count c cn c' + r.countP (fun p => p.2 = .check c') = _
      by_cases hcc : c' = c
      · subst hcc
        rcases h with h | h
        · exact absurd hp0 h.2.1
        · rw [upd_same, h.2.1]; simp; omega
      · rw [upd_ne _ _ hcc, if_neg hcc]; omega
    · show met k (upd s.count c cn c') = false
      by_cases hcc : c' = c
      · subst hcc
        rcases h with h | h
        · exact absurd hp0 h.2.1
        · rw [upd_same, h.2.1]
          rcases h.2.2.2 k hc' with h' | h'
          · change upd s.status c' st c' = .pending at hp
            rw [upd_same, h'.1] at hp; cases hp
          · exact h'.2.2.2
      · rw [upd_ne _ _ hcc]; exact h0.2.2.1
    · intro m hm hmp hmb
      have hmp := (hst m).1 hmp
      change upd s.bad c b m = true at hmb
      rw [hbad m hmp] at hmb
      have hmem := h0.2.2.2 m hm hmp hmb
      rw [hr] at hmem
      rcases List.mem_cons.1 hmem with heq | h'
      · simp only [Prod.mk.injEq, Cb.check.injEq] at heq
        obtain ⟨rfl, rfl⟩ := heq
        rcases h with h | h
        · exact absurd hp0 h.2.1
        · rcases h.2.2.2 k hc' with h' | h'
          · change upd s.status c' st c' = .pending at hp
            rw [upd_same, h'.1] at hp; cases hp
          · rw [h'.2.2.1] at hmb; cases hmb
      · exact h'
  case snd =>
    intro c' k hc' hp hb'
    change upd s.status c st c' ≠ .pending at hp
    change upd s.bad c b c' = false at hb'
    by_cases hcc : c' = c
    · subst hcc
      rw [upd_same] at hp hb'
      rcases h with h | h
      · exact hgood k (hI.snd c' k hc' h.2.1 (h.2.2.2 ▸ hb'))
      · rcases h.2.2.2 k hc' with h' | h'
        · rcases h'.2 with hb | hb
          · rw [hb'] at hb; cases hb
          · exact hgood k hb.2
        · exact absurd h'.1 hp
    · rw [upd_ne _ _ hcc] at hp hb'
      exact hgood k (hI.snd c' k hc' hp hb')
  case forg => exact fun m hm => (hI.forg m hm).imp_left (fun h => (hst m).2 h)
  case pforg => exact fun c hc hp => hI.pforg c hc ((hst c).1 hp)
  case procCbs => exact fun x hx => hI.procCbs x ((hst x).1 hx)
  case rdy => exact fun x cb hx => ⟨(hst x).2 (hI.rdy x cb (hsub _ hx)).1, (hI.rdy x cb (hsub _ hx)).2⟩
  case rdyc => exact fun x c hx => hI.rdyc x c (hsub _ hx)
  case base1 =>
    intro x hx hxp
    change s.cond x = none at hx
    have hxc : x ≠ c := fun h => by rw [h, hkc] at hx; cases hx
    change upd s.status c st x ≠ .pending at hxp
    show s.when x ≠ none ∨ s.faked x = true ∨ upd s.bad c b x = true
    rw [upd_ne _ _ hxc] at hxp ⊢
    exact hI.base1 x hx hxp
  case base2 =>
    intro x hx
    have h0 := hI.base2 x hx
    have hxc : x ≠ c := fun h => by rw [h, hkc] at h0; cases h0.2.2.2
    show upd s.status c st x ≠ .pending ∧ upd s.bad c b x = false ∧ s.faked x = false ∧ s.cond x = none
    rw [upd_ne _ _ hxc, upd_ne _ _ hxc]
    exact h0
  case badp =>
    intro x hx
    change upd s.bad c b x = true at hx
    show upd s.status c st x ≠ .pending
    by_cases hxc : x = c
    · subst hxc
      rw [upd_same] at hx ⊢
      rcases h with h | h
      · rw [h.1]; exact h.2.1
      · rcases h.2.2.2 kc hkc with h' | h'
        · rw [h'.1]; simp
        · rw [h'.2.1] at hx; cases hx
    · rw [upd_ne _ _ hxc] at hx ⊢; exact hI.badp x hx
  case fakep =>
    intro x hx
    have h0 := hI.fakep x hx
    have hxc : x ≠ c := fun h => by rw [h, hkc] at h0; cases h0.2
    show upd s.status c st x ≠ .pending ∧ s.cond x = none
    rw [upd_ne _ _ hxc]
    exact h0
  case wait =>
    intro t x
    show (s.cbs x).count (.resume t) + r.count (x, .resume t) = _
    rw [← hI.wait t x, hr, List.count_cons_of_ne (by simp)]
  case root => exact hI.root

theorem proc_le (s : St) (k : Cond) : proc s k ≤ k.members.length := List.countP_le_length

theorem Inv.callback {s : St} (hI : Inv s) : Inv (callback s).1 := by
  unfold Multi.callback
  split
  · exact hI
  · rename_i e c r hr
    show Inv (check { s with ready := r } c e)
    obtain ⟨k, hk, hek⟩ := hI.rdyc e c (by rw [hr]; exact List.mem_cons_self)
    have hnf : s.forgot c = false := by
      cases hf : s.forgot c with
      | false => rfl
      | true =>
        have := (hI.gone c 0 hf).2
        rw [due_cons s _ r hr c] at this
        simp at this
    have hep := (hI.rdy e _ (by rw [hr]; exact List.mem_cons_self)).1
    unfold check
    simp only [hk]
    by_cases hp : s.status c ≠ .pending
    · rw [if_pos hp]
      have := hI.checked hr (s.count c) (s.status c) (s.bad c) (Or.inl ⟨rfl, hp, rfl, rfl⟩)
      rw [upd_self, upd_self, upd_self] at this
      exact this
    · rw [if_neg hp]
      have hp : s.status c = .pending := by simpa using hp
      have h0 := hI.cnt c k hk hp hnf
      by_cases hb : s.bad e = true
      · rw [if_pos hb]
        exact hI.checked hr (s.count c + 1) .triggered true
          (Or.inr ⟨hp, rfl, hnf, fun k' hk' => Or.inl ⟨rfl, Or.inl rfl⟩⟩)
      · rw [if_neg hb]
        have hb : s.bad e = false := by simpa using hb
        have hcb := hI.bad_pending hp
        by_cases hm : met k (s.count c + 1) = true
        · rw [if_pos (by simpa using hm)]
          have := hI.checked hr (s.count c + 1) .triggered (s.bad c) (Or.inr ⟨hp, rfl, hnf, fun k' hk' => by
            rw [hk] at hk'; cases hk'
            refine Or.inl ⟨rfl, Or.inr ⟨hcb, Or.inr ?_⟩⟩
            by_cases ha : k.all = true
            · rw [if_pos ha]
              have hlen : s.count c + 1 = k.members.length := by
                unfold met at hm
                rw [if_pos ha] at hm
                simpa using hm
              have hd : due s c = r.countP (fun p => p.2 = .check c) + 1 := by rw [due_cons s _ r hr c]; simp
              have hle := proc_le s k
              have hall : proc s k = k.members.length := by omega
              have hzero : r.countP (fun p => p.2 = .check c) = 0 := by omega
              have hevery : ∀ m ∈ k.members, s.status m = .processed := by
                intro m hm
                simpa using (List.countP_eq_length.1 hall) m hm
              intro m hm
              refine ⟨hevery m hm, ?_⟩
              cases hbm : s.bad m with
              | false => rfl
              | true =>
                have hmem := h0.2.2.2 m hm (hevery m hm) hbm
                rw [hr] at hmem
                rcases List.mem_cons.1 hmem with h | h
                · simp only [Prod.mk.injEq] at h
                  rw [h.1, hb] at hbm; cases hbm
                · have := List.countP_eq_zero.1 hzero _ h
                  simp at this
            · rw [if_neg ha]
              exact ⟨e, hek, hep, hb⟩⟩)
          rw [upd_self s.bad] at this
          simpa using this
        · rw [if_neg (by simpa using hm)]
          have hm : met k (s.count c + 1) = false := by simpa using hm
          have := hI.checked hr (s.count c + 1) (s.status c) (s.bad c) (Or.inr ⟨hp, rfl, hnf, fun k' hk' => by
            rw [hk] at hk'; cases hk'
            exact Or.inr ⟨hp, hcb, hb, hm⟩⟩)
          rw [upd_self, upd_self] at this
          exact this
  · rename_i e t r hr
    exact hI.resume hr

theorem Inv.bounded {s : St} (hI : Inv s) : Bounded s.cond s.cbs := by
  intro c k e hc
  by_cases hf : s.forgot c = true
  · rw [(hI.gone c e hf).1]; exact Nat.zero_le _
  · by_cases hp : s.status e = .processed
    · rw [hI.procCbs e hp]; exact Nat.zero_le _
    · rw [hI.att c k e hc (by simpa using hf) hp]; exact Nat.le_refl _

theorem countP_add_count (l : List Nat) (p : Nat → Prop) [DecidablePred p] (e : Nat) (he : ¬ p e) :
    l.countP (fun m => decide (m = e ∨ p m)) = l.countP (fun m => decide (p m)) + l.count e := by
  induction l with
  | nil => rfl
  | cons a l ih =>
    rw [List.countP_cons, List.countP_cons, List.count_cons, ih]
    by_cases ha : a = e
    · subst ha; simp [he]; omega
    · simp [ha]; omega

theorem countP_map_pair (e c : Nat) (l : List Cb) :
    (l.map (fun cb => (e, cb))).countP (fun p => decide (p.2 = .check c)) = l.count (.check c) := by
  induction l with
  | nil => rfl
  | cons a l ih =>
    rw [List.map_cons, List.countP_cons, List.count_cons, ih]
    simp

theorem count_map_pair (e x t : Nat) (l : List Cb) :
    (l.map (fun cb => (e, cb))).count (x, .resume t) = if x = e then l.count (.resume t) else 0 := by
  induction l with
  | nil => simp
  | cons a l ih =>
    rw [List.map_cons, List.count_cons, List.count_cons, ih]
    by_cases hx : x = e
    · subst hx; simp
    · simp [hx, Ne.symm hx]

theorem Inv.process {s : St} (hI : Inv s) (e : Nat) : Inv (process s e).1 := by
  unfold Multi.process
  split
  · exact hI
  rename_i hg
  simp only [not_or, Nat.not_le, ne_eq, Decidable.not_not] at hg
  obtain ⟨hr, hen, het⟩ := hg
  have hF := forget_spec hI.hlt (e + 1) (s.cbs, s.forgot) e (Nat.lt_succ_self e) hI.bounded
  simp only
  revert hF
  generalize forget s.cond (e + 1) (s.cbs, s.forgot) e = p
  obtain ⟨f, g⟩ := p
  intro hF
  have hmark : ∀ x, g x = true ↔ s.forgot x = true ∨ CIn s.cond e x := hF.mark
  have hgone : ∀ x c, CIn s.cond e c → (f x).count (.check c) = 0 := hF.gone
  have hkeep : ∀ x c, ¬ CIn s.cond e c → (f x).count (.check c) = (s.cbs x).count (.check c) := hF.keep
  have hres : ∀ x t, (f x).count (.resume t) = (s.cbs x).count (.resume t) := hF.res
  have hst : ∀ x, upd s.status e .processed x = .processed ↔ x = e ∨ s.status x = .processed := by
    intro x
    by_cases hx : x = e
    · subst hx; simp
    · rw [upd_ne _ _ hx]; simp [hx]
  have hpend : ∀ x, upd s.status e .processed x = .pending ↔ s.status x = .pending := by
    intro x
    by_cases hx : x = e
    · subst hx; simp [het]
    · rw [upd_ne _ _ hx]
  have hself : ∀ c, CIn s.cond e c → (f e).count (.check c) = 0 := fun c => hgone e c
  have hnf : ∀ c, g c = false → s.forgot c = false ∧ ¬ CIn s.cond e c := by
    intro c hc
    constructor
    · cases h : s.forgot c with
      | false => rfl
      | true => rw [(hmark c).2 (Or.inl h)] at hc; cases hc
    · intro h; rw [(hmark c).2 (Or.inr h)] at hc; cases hc
  have hdue0 : ∀ c, due s c = 0 := fun c => by unfold due; rw [hr]; rfl
  have hle : ∀ x cb, (upd f e [] x).count cb ≤ (f x).count cb := by
    intro x cb
    by_cases hx : x = e
    · subst hx; rw [upd_same]; exact Nat.zero_le _
    · rw [upd_ne _ _ hx]; exact Nat.le_refl _
  have hfle : ∀ x c, (f x).count (.check c) ≤ (s.cbs x).count (.check c) := by
    intro x c
    by_cases h : CIn s.cond e c
    · rw [hgone x c h]; exact Nat.zero_le _
    · rw [hkeep x c h]; exact Nat.le_refl _
  constructor
  case lt => exact hI.lt
  case fresh =>
    intro x hx
    have hxe : x ≠ e := by have : s.n ≤ x := hx; omega
    have h := hI.fresh x hx
    refine ⟨by show upd s.status e .processed x = _; rw [upd_ne _ _ hxe]; exact h.1, ?_, h.2.2.1, ?_, h.2.2.2.2⟩
    · show upd f e [] x = []
      rw [upd_ne _ _ hxe]
      have : ∀ cb, (f x).count cb = 0 := by
        intro cb
        cases cb with
        | check c => have := hfle x c; rw [h.2.1] at this; simpa using this
        | resume t => rw [hres, h.2.1]; rfl
      cases hfx : f x with
      | nil => rfl
      | cons a l => have := this a; rw [hfx, List.count_cons_self] at this; omega
    · show g x = false
      cases hgx : g x with
      | false => rfl
      | true =>
        rcases (hmark x).1 hgx with h' | h'
        · rw [h.2.2.2.1] at h'; cases h'
        · have := h'.1.le hI.hlt
          have : s.n ≤ x := hx
          omega
  case isCond =>
    intro x c hx
    change Cb.check c ∈ upd f e [] x at hx
    refine hI.isCond x c ?_
    rw [← List.count_pos_iff] at hx ⊢
    have := hle x (.check c)
    have := hfle x c
    omega
  case par => exact hI.par
  case once => exact hI.once
  case att =>
    intro c k x hc hf hx
    change upd s.status e .processed x ≠ .processed at hx
    have hxe : x ≠ e := fun h => hx ((hst x).2 (Or.inl h))
    show (upd f e [] x).count (.check c) = _
    rw [upd_ne _ _ hxe, hkeep x c (hnf c hf).2]
    exact hI.att c k x hc (hnf c hf).1 (fun h => hx ((hst x).2 (Or.inr h)))
  case gone =>
    intro c x hf
    have h0 : ∀ y, (f y).count (.check c) = 0 := by
      intro y
      by_cases h : CIn s.cond e c
      · exact hgone y c h
      · rw [hkeep y c h]
        rcases (hmark c).1 hf with h' | h'
        · exact (hI.gone c y h').1
        · exact absurd h' h
    constructor
    · show (upd f e [] x).count (.check c) = 0
      have := hle x (.check c)
      rw [h0 x] at this; omega
    · show ((f e).map (fun cb => (e, cb))).countP (fun p => decide (p.2 = .check c)) = 0
      rw [countP_map_pair]; exact h0 e
  case cnt =>
    intro c k hc hp hf
    have hp := (hpend c).1 hp
    obtain ⟨hf0, hni⟩ := hnf c hf
    have h0 := hI.cnt c k hc hp hf0
    refine ⟨h0.1, ?_, h0.2.2.1, ?_⟩
    · show s.count c + ((f e).map (fun cb => (e, cb))).countP (fun p => decide (p.2 = .check c)) = _
      rw [countP_map_pair, hkeep e c hni, hI.att c k e hc hf0 (by rw [het]; simp)]
      have h1 := h0.2.1
      rw [hdue0, Nat.add_zero] at h1
      rw [h1]
      show _ = k.members.countP (fun m => decide (upd s.status e .processed m = .processed))
      rw [countP_congr' (q := fun m => m = e ∨ s.status m = .processed) (fun m _ => hst m),
        countP_add_count _ _ _ (by rw [het]; simp)]
      rfl
    · intro m hm hmp hmb
      show (m, Cb.check c) ∈ (f e).map (fun cb => (e, cb))
      rcases (hst m).1 hmp with rfl | hmp
      · refine List.mem_map.2 ⟨.check c, ?_, rfl⟩
        rw [← List.count_pos_iff, hkeep m c hni, hI.att c k m hc hf0 (by rw [het]; simp), List.count_pos_iff]
        exact hm
      · have := h0.2.2.2 m hm hmp hmb
        rw [hr] at this; simp at this
  case snd =>
    intro c k hc hp hb
    have hp : s.status c ≠ .pending := fun h => hp ((hpend c).2 h)
    refine (hI.snd c k hc hp hb).mono (fun m _ h1 h2 => ⟨(hst m).2 (Or.inr h1), h2⟩)
  case forg =>
    intro m hm
    rcases (hmark m).1 hm with h | h
    · rcases hI.forg m h with h | ⟨p, h1, h2⟩
      · exact Or.inl ((hst m).2 (Or.inr h))
      · exact Or.inr ⟨p, h1, (hmark p).2 (Or.inl h2)⟩
    · rcases h.1.last with rfl | ⟨y, k, hy, hk, hmk⟩
      · exact Or.inl ((hst m).2 (Or.inl rfl))
      · exact Or.inr ⟨y, hI.par y k m hk hmk h.2, (hmark y).2 (Or.inr ⟨hy, by rw [hk]; simp⟩)⟩
  case pforg =>
    intro c hc hp
    rcases (hst c).1 hp with rfl | hp
    · exact (hmark c).2 (Or.inr ⟨.self c, hc⟩)
    · exact (hmark c).2 (Or.inl (hI.pforg c hc hp))
  case procCbs =>
    intro x hx
    show upd f e [] x = []
    rcases (hst x).1 hx with rfl | hp
    · exact upd_same ..
    · have hxe : x ≠ e := fun h => by rw [h, het] at hp; cases hp
      rw [upd_ne _ _ hxe]
      have h0 := hI.procCbs x hp
      have : ∀ cb, (f x).count cb = 0 := by
        intro cb
        cases cb with
        | check c => have := hfle x c; rw [h0] at this; simpa using this
        | resume t => rw [hres, h0]; rfl
      cases hfx : f x with
      | nil => rfl
      | cons a l => have := this a; rw [hfx, List.count_cons_self] at this; omega
  case rdy =>
    intro x cb hx
    obtain ⟨_, _, h⟩ := List.mem_map.1 hx
    injection h with h1 _
    subst h1
    exact ⟨(hst e).2 (Or.inl rfl), hen⟩
  case rdyc =>
    intro x c hx
    obtain ⟨cb, hcb, h⟩ := List.mem_map.1 hx
    injection h with h1 h2
    subst h1 h2
    rw [← List.count_pos_iff] at hcb
    have hpos : 0 < (s.cbs e).count (.check c) := Nat.lt_of_lt_of_le hcb (hfle e c)
    have hcc := hI.isCond e c (List.count_pos_iff.1 hpos)
    cases hk : s.cond c with
    | none => exact absurd hk hcc
    | some k =>
      refine ⟨k, rfl, ?_⟩
      have := hI.bounded c k e hk
      exact List.count_pos_iff.1 (by omega)
  case base1 => exact fun x hx hp => hI.base1 x hx (fun h => hp ((hpend x).2 h))
  case base2 =>
    intro x hx
    have h0 := hI.base2 x hx
    exact ⟨fun h => h0.1 ((hpend x).1 h), h0.2⟩
  case badp => exact fun x hx h => hI.badp x hx ((hpend x).1 h)
  case fakep => exact fun x hx => ⟨fun h => (hI.fakep x hx).1 ((hpend x).1 h), (hI.fakep x hx).2⟩
  case wait =>
    intro t x
    show (upd f e [] x).count (.resume t) + ((f e).map (fun cb => (e, cb))).count (x, .resume t) = _
    rw [← hI.wait t x, hr, count_map_pair]
    by_cases hx : x = e
    · subst hx; rw [upd_same]; simp [hres]
    · rw [upd_ne _ _ hx, hres]; simp [hx]
  case root => exact hI.root

end Verif.Multi
