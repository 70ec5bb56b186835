import Verif.Multi.Make

/-!
# Consequences of the invariant: completion, time, and cancelling
-/

namespace Verif.Multi

theorem settled_iff (s : St) : settled s = true ↔ s.ready = [] ∧ ∀ e, e < s.n → s.status e ≠ .triggered := by
  unfold settled
  simp [List.all_eq_true]

theorem Inv.settledStatus {s : St} (hI : Inv s) (hs : settled s = true) (e : Nat) :
    s.status e = .pending ∨ s.status e = .processed := by
  by_cases he : e < s.n
  · have := ((settled_iff s).1 hs).2 e he
    cases h : s.status e
    · exact Or.inl rfl
    · exact absurd h this
    · exact Or.inr rfl
  · exact Or.inl (hI.fresh e (by omega)).1

/-- At the end of an instant whatever has occurred is complete, unless its checks were removed. -/
theorem Inv.complete {s : St} (hI : Inv s) (hs : settled s = true) {c : Nat} (ho : Occ s.cond (Happened s) c) :
    (s.cond c ≠ none → s.forgot c = false ∨ s.status c = .processed) → s.status c = .processed := by
  have hdue : ∀ c, due s c = 0 := fun c => by unfold due; rw [((settled_iff s).1 hs).1]; rfl
  have hin : ∀ c k m, s.cond c = some k → m ∈ k.members → s.forgot c = false →
      (s.cond m ≠ none → s.forgot m = false ∨ s.status m = .processed) := by
    intro c k m hc hm hf hmc
    cases h : s.forgot m with
    | false => exact Or.inl rfl
    | true =>
      rcases hI.forg m h with h' | ⟨p, h1, h2⟩
      · exact Or.inr h'
      · rw [hI.par c k m hc hm hmc] at h1
        cases h1
        rw [hf] at h2; cases h2
  induction ho with
  | @plain e he hp =>
    intro _
    rcases hI.settledStatus hs e with h | h
    · exact absurd h (hI.base2 e hp).1
    · exact h
  | @any c ms m hc hm _ ih =>
    intro hf
    rcases hI.settledStatus hs c with hp | hp
    · rcases hf (by rw [hc]; simp) with hf | hf
      · have h0 := hI.cnt c _ hc hp hf
        have hmp := ih (hin c _ m hc hm hf)
        have hpos : 0 < proc s ⟨false, ms⟩ := by
          unfold proc
          rw [List.countP_pos_iff]
          exact ⟨m, hm, by simpa using hmp⟩
        have hmet := h0.2.2.1
        have h1 := h0.2.1
        rw [hdue, Nat.add_zero] at h1
        rw [h1] at hmet
        unfold met at hmet
        simp at hmet
        omega
      · exact hf
    · exact hp
  | @all c ms hc _ ih =>
    intro hf
    rcases hI.settledStatus hs c with hp | hp
    · rcases hf (by rw [hc]; simp) with hf | hf
      · have h0 := hI.cnt c _ hc hp hf
        have hall : proc s ⟨true, ms⟩ = ms.length := by
          unfold proc
          rw [List.countP_eq_length]
          intro m hm
          simpa using ih m hm (hin c _ m hc hm hf)
        have hmet := h0.2.2.1
        have h1 := h0.2.1
        rw [hdue, Nat.add_zero] at h1
        rw [h1, hall] at hmet
        unfold met at hmet
        simp at hmet
      · exact hf
    · exact hp

/-- What a task waits for is not inside anything. -/
theorem Inv.waitingRoot {s : St} (hI : Inv s) {t e : Nat} (hw : s.waiting t = some e) :
    s.cond e ≠ none → s.forgot e = false ∨ s.status e = .processed := by
  intro hc
  cases h : s.forgot e with
  | false => exact Or.inl rfl
  | true =>
    rcases hI.forg e h with h' | ⟨p, h1, _⟩
    · exact Or.inr h'
    · rw [(hI.root t e hw).2 hc] at h1; cases h1

theorem Inv.settledWaiting {s : St} (hI : Inv s) (hs : settled s = true) {t e : Nat} (hw : s.waiting t = some e) :
    ¬ Occ s.cond (Happened s) e ∧ s.status e = .pending := by
  have hnp := hI.unprocessed hw ((settled_iff s).1 hs).1
  exact ⟨fun ho => hnp (hI.complete hs ho (hI.waitingRoot hw)), (hI.settledStatus hs e).resolve_right hnp⟩

/-- An event that succeeded has occurred, if no Event in it was only triggered by a `cancel` and no Any in it is empty. -/
theorem Inv.sound {s : St} (hI : Inv s) (c : Nat) : s.status c ≠ .pending → s.bad c = false →
    (∀ x, In s.cond c x → s.faked x = false) →
    (∀ x ms, In s.cond c x → s.cond x = some ⟨false, ms⟩ → ms ≠ []) → Occ s.cond (Happened s) c := by
  induction c using Nat.strongRecOn with
  | ind c ih =>
    intro hp hb hf he
    cases hc : s.cond c with
    | none =>
      refine .plain hc ?_
      rcases hI.base1 c hc hp with h | h | h
      · exact h
      · rw [hf c (.self c)] at h; cases h
      · rw [hb] at h; cases h
    | some k =>
      obtain ⟨all, ms⟩ := k
      have hrec : ∀ m ∈ ms, s.status m = .processed ∧ s.bad m = false → Occ s.cond (Happened s) m := by
        intro m hm hmp
        exact ih m ((hI.lt c _ hc).2 m hm) (by rw [hmp.1]; simp) hmp.2
          (fun x hx => hf x (.member hc hm hx)) (fun x l hx => he x l (.member hc hm hx))
      have hg := hI.snd c _ hc hp hb
      cases all with
      | true =>
        refine .all hc (fun m hm => hrec m hm ?_)
        rcases hg with hg | hg
        · change ms = [] at hg
          rw [hg] at hm; simp at hm
        · exact hg m hm
      | false =>
        rcases hg with hg | hg
        · exact absurd hg (he c ms (.self c) hc)
        · obtain ⟨m, hm, h⟩ := hg
          exact .any hc hm (hrec m hm h)

/-- Nobody oversleeps. -/
structure Timely (s : St) : Prop where
  when : ∀ e i, s.when e = some i → i ≤ s.now
  since : ∀ t e, s.waiting t = some e → s.since t ≤ s.now ∧ (s.since t < s.now → ¬ Occ s.cond (Before s) e)

theorem timely_init : Timely init := ⟨by simp [init], by simp [init]⟩

/-- Steps within an instant. -/
theorem Timely.of {s s' : St} (hI : Inv s) (hT : Timely s) (hn : s'.now = s.now)
    (hc : ∀ x, x < s.n → s'.cond x = s.cond x)
    (hw : ∀ e, s'.when e = s.when e ∨ s'.when e = none ∨ s'.when e = some s.now)
    (hs : ∀ t e, s'.waiting t = some e → (s'.since t = s.now) ∨ (s.waiting t = some e ∧ s'.since t = s.since t)) :
    Timely s' := by
  refine ⟨fun e i hi => ?_, fun t e ht => ?_⟩
  · rw [hn]
    rcases hw e with h | h | h
    · exact hT.when e i (h ▸ hi)
    · rw [h] at hi; cases hi
    · rw [h] at hi; cases hi; exact Nat.le_refl _
  · rw [hn]
    rcases hs t e ht with h | ⟨h1, h2⟩
    · rw [h]; exact ⟨Nat.le_refl _, fun h => absurd h (Nat.lt_irrefl _)⟩
    · rw [h2]
      obtain ⟨ha, hb⟩ := hT.since t e h1
      refine ⟨ha, fun hlt ho => hb hlt ?_⟩
      have hen := (hI.root t e h1).1
      have hin : ∀ x, In s.cond e x → x < s.n := fun x hx => Nat.lt_of_le_of_lt (hx.le hI.hlt) hen
      have hin' : ∀ x, In s'.cond e x → In s.cond e x ∧ x < s.n := by
        intro x hx
        have key : ∀ c y, In s'.cond c y → c < s.n → In s.cond c y ∧ y < s.n := by
          intro c y hcy
          induction hcy with
          | self c => exact fun h => ⟨.self c, h⟩
          | @member c m y k hk hm _ ih =>
            intro hcn
            rw [hc c hcn] at hk
            obtain ⟨h1, h2⟩ := ih (Nat.lt_trans (hI.hlt c k hk m hm) hcn)
            exact ⟨.member hk hm h1, h2⟩
        exact key e x hx hen
      refine ho.congr (fun x hx => (hc x (hin' x hx).2).symm) (fun x hx hbx => ?_)
      obtain ⟨i, hi, hlt'⟩ := hbx
      rw [hn] at hlt'
      refine ⟨i, ?_, hlt'⟩
      rcases hw x with h | h | h
      · rw [← h]; exact hi
      · rw [h] at hi; cases hi
      · rw [h] at hi; cases hi; exact absurd hlt' (Nat.lt_irrefl _)

theorem acts_same (p : St × Bool) (l : List Nat) : (acts p l).1.now = p.1.now ∧ (acts p l).1.when = p.1.when ∧
    (acts p l).1.waiting = p.1.waiting ∧ (acts p l).1.since = p.1.since ∧ (acts p l).1.n = p.1.n ∧
    (acts p l).1.kind = p.1.kind ∧ (acts p l).1.cbs = p.1.cbs := by
  induction l generalizing p with
  | nil => exact ⟨rfl, rfl, rfl, rfl, rfl, rfl, rfl⟩
  | cons a l ih =>
    have h := ih (if p.2 then act p.1 a else p)
    have ha := act_same p.1 a
    have h1 : (if p.2 then act p.1 a else p).1.now = p.1.now ∧ (if p.2 then act p.1 a else p).1.when = p.1.when ∧
        (if p.2 then act p.1 a else p).1.waiting = p.1.waiting ∧ (if p.2 then act p.1 a else p).1.since = p.1.since ∧
        (if p.2 then act p.1 a else p).1.n = p.1.n ∧ (if p.2 then act p.1 a else p).1.kind = p.1.kind ∧
        (if p.2 then act p.1 a else p).1.cbs = p.1.cbs := by
      split
      · exact ⟨ha.2.2.2.2.2.2.1, ha.2.2.2.2.2.2.2.2.1, ha.2.2.2.2.2.1, ha.2.2.2.2.2.2.2.1, ha.1, ha.2.2.1, ha.2.2.2.1⟩
      · exact ⟨rfl, rfl, rfl, rfl, rfl, rfl, rfl⟩
    exact ⟨h.1.trans h1.1, h.2.1.trans h1.2.1, h.2.2.1.trans h1.2.2.1, h.2.2.2.1.trans h1.2.2.2.1,
      h.2.2.2.2.1.trans h1.2.2.2.2.1, h.2.2.2.2.2.1.trans h1.2.2.2.2.2.1, h.2.2.2.2.2.2.trans h1.2.2.2.2.2.2⟩

theorem check_same (s : St) (c e : Nat) : (check s c e).now = s.now ∧ (check s c e).when = s.when ∧
    (check s c e).waiting = s.waiting ∧ (check s c e).since = s.since ∧ (check s c e).cond = s.cond := by
  unfold check
  split
  · exact ⟨rfl, rfl, rfl, rfl, rfl⟩
  · split
    · exact ⟨rfl, rfl, rfl, rfl, rfl⟩
    · simp only
      split
      · exact ⟨rfl, rfl, rfl, rfl, rfl⟩
      · split <;> exact ⟨rfl, rfl, rfl, rfl, rfl⟩

theorem attach_same (c : Nat) (s : St) (e : Nat) : (attach c s e).now = s.now ∧ (attach c s e).when = s.when ∧
    (attach c s e).waiting = s.waiting ∧ (attach c s e).since = s.since ∧ (attach c s e).cond = s.cond := by
  unfold attach
  split
  · exact check_same s c e
  · exact ⟨rfl, rfl, rfl, rfl, rfl⟩

theorem attach_fold_same (c : Nat) (l : List Nat) (s : St) : (l.foldl (attach c) s).now = s.now ∧
    (l.foldl (attach c) s).when = s.when ∧ (l.foldl (attach c) s).waiting = s.waiting ∧
    (l.foldl (attach c) s).since = s.since ∧ (l.foldl (attach c) s).cond = s.cond := by
  induction l generalizing s with
  | nil => exact ⟨rfl, rfl, rfl, rfl, rfl⟩
  | cons a l ih =>
    have h1 := ih (attach c s a)
    have h2 := attach_same c s a
    exact ⟨h1.1.trans h2.1, h1.2.1.trans h2.2.1, h1.2.2.1.trans h2.2.2.1, h1.2.2.2.1.trans h2.2.2.2.1,
      h1.2.2.2.2.trans h2.2.2.2.2⟩

theorem make_same (s : St) (all : Bool) (ms : List Nat) : (make s all ms).now = s.now ∧
    (make s all ms).when = s.when ∧ (make s all ms).waiting = s.waiting ∧ (make s all ms).since = s.since ∧
    (make s all ms).cond = upd s.cond s.n (some ⟨all, ms⟩) := by
  unfold make
  simp only
  split
  · exact ⟨rfl, rfl, rfl, rfl, rfl⟩
  · exact attach_fold_same s.n ms _

theorem Timely.step {s : St} (hI : Inv s) (hT : Timely s) (op : Op) : Timely (step s op).1 := by
  cases op with
  | newEvent k => exact ⟨hT.when, hT.since⟩
  | occur e ok =>
    show Timely (occur s e ok).1
    unfold occur
    split
    · exact hT
    · refine Timely.of hI hT rfl (fun _ _ => rfl) (fun x => ?_) (fun t e h => Or.inr ⟨h, rfl⟩)
      show upd s.when e _ x = _ ∨ upd s.when e _ x = _ ∨ upd s.when e _ x = _
      by_cases hx : x = e
      · subst hx
        rw [upd_same]
        cases ok <;> simp
      · exact Or.inl (upd_ne _ _ hx)
  | make all ms =>
    unfold Multi.step
    simp only
    split
    · obtain ⟨h1, h2, h3, h4, h5⟩ := make_same s all ms
      refine Timely.of hI hT h1 (fun x hx => by rw [h5]; exact upd_ne _ _ (Nat.ne_of_lt hx)) (fun e => Or.inl (by rw [h2]))
        (fun t e h => Or.inr ⟨by rw [← h3]; exact h, by rw [h4]⟩)
    · exact hT
  | waitFor t e =>
    show Timely (waitFor s t e).1
    unfold waitFor
    split
    · exact hT
    · split
      · exact hT
      · refine Timely.of hI hT rfl (fun _ _ => rfl) (fun e => Or.inl rfl) (fun t' e' h => ?_)
        change upd s.waiting t (some e) t' = some e' at h
        show upd s.since t s.now t' = s.now ∨ (s.waiting t' = some e' ∧ upd s.since t s.now t' = s.since t')
        by_cases ht : t' = t
        · subst ht; exact Or.inl (upd_same ..)
        · rw [upd_ne _ _ ht] at h
          exact Or.inr ⟨h, upd_ne _ _ ht⟩
  | process e =>
    show Timely (process s e).1
    unfold process
    split
    · exact hT
    · exact Timely.of hI hT rfl (fun _ _ => rfl) (fun e => Or.inl rfl) (fun t e h => Or.inr ⟨h, rfl⟩)
  | callback =>
    show Timely (callback s).1
    unfold callback
    split
    · exact hT
    · rename_i e c r hr
      obtain ⟨h1, h2, h3, h4, h5⟩ := check_same { s with ready := r } c e
      exact Timely.of hI hT h1 (fun x _ => by rw [h5]) (fun e => Or.inl (by rw [h2]))
        (fun t e h => Or.inr ⟨by rw [h3] at h; exact h, by rw [h4]⟩)
    · rename_i e t r hr
      refine Timely.of hI hT rfl (fun _ _ => rfl) (fun e => Or.inl rfl) (fun t' e' h => Or.inr ⟨?_, rfl⟩)
      change upd s.waiting t none t' = some e' at h
      by_cases ht : t' = t
      · subst ht; simp at h
      · rw [upd_ne _ _ ht] at h; exact h
  | interrupt t =>
    show Timely (interrupt s t).1
    unfold interrupt
    split
    · exact hT
    · split
      · exact hT
      · rename_i e hw
        simp only
        rw [cancel_eq]
        obtain ⟨h1, h2, h3, h4, _⟩ := acts_same (leave s t e, true) (nodes (leave s t e).cond (e + 1) e)
        have h5 := acts_cond (leave s t e, true) (nodes (leave s t e).cond (e + 1) e)
        refine Timely.of hI hT h1 (fun x _ => by rw [h5]; rfl) (fun e => Or.inl (by rw [h2]; rfl))
          (fun t' e' h => Or.inr ⟨?_, by rw [h4]; rfl⟩)
        rw [h3] at h
        change upd s.waiting t none t' = some e' at h
        by_cases ht : t' = t
        · subst ht; simp at h
        · rw [upd_ne _ _ ht] at h; exact h
  | ignore t =>
    show Timely (ignore s t).1
    unfold ignore
    split
    · exact hT
    · split
      · exact hT
      · exact Timely.of hI hT rfl (fun _ _ => rfl) (fun e => Or.inl rfl) (fun t e h => Or.inr ⟨h, rfl⟩)
  | tick =>
    show Timely (tick s).1
    unfold tick
    split
    · rename_i hs
      refine ⟨fun e i hi => Nat.le_succ_of_le (hT.when e i hi), fun t e ht => ?_⟩
      refine ⟨Nat.le_succ_of_le (hT.since t e ht).1, fun _ ho => ?_⟩
      refine (hI.settledWaiting hs ht).1 (ho.mono ?_)
      rintro x ⟨i, hi, _⟩
      show s.when x ≠ none
      have hi : s.when x = some i := hi
      rw [hi]; simp
    · exact hT

theorem reach (ops : List Op) : Inv (run init ops).1 ∧ Timely (run init ops).1 := by
  have key : ∀ (ops : List Op) (s : St), Inv s → Timely s → Inv (run s ops).1 ∧ Timely (run s ops).1 := by
    intro ops
    induction ops with
    | nil => exact fun s h1 h2 => ⟨h1, h2⟩
    | cons op ops ih => exact fun s h1 h2 => ih _ (h1.step op) (h2.step h1 op)
  exact key ops init inv_init timely_init

/-! ## Cancelling -/

/-- Multi-events and Events: those that can be cancelled only while they are pending. -/
def needy (s : St) (x : Nat) : Bool := decide (s.cond x ≠ none) || decide (s.kind x = .event)

theorem act_needy_ok (s : St) (e : Nat) : (act s e).2 = true ↔ (needy s e = true → s.status e = .pending) := by
  unfold act needy
  cases hc : s.cond e with
  | some k => by_cases hp : s.status e = .pending <;> simp [hp]
  | none =>
    simp only
    cases hk : s.kind e <;> by_cases hp : s.status e = .pending <;> simp [hp]

theorem act_other (s : St) (e x : Nat) (h : x ≠ e) : (act s e).1.status x = s.status x ∧ (act s e).1.bad x = s.bad x ∧
    (act s e).1.withdrawn x = s.withdrawn x ∧ (act s e).1.faked x = s.faked x := by
  unfold act
  split
  · split
    · exact ⟨upd_ne _ _ h, upd_ne _ _ h, rfl, rfl⟩
    · exact ⟨rfl, rfl, rfl, rfl⟩
  · split
    · exact ⟨rfl, rfl, rfl, rfl⟩
    · exact ⟨rfl, rfl, rfl, rfl⟩
    · split
      · exact ⟨rfl, rfl, upd_ne _ _ h, rfl⟩
      · exact ⟨rfl, rfl, rfl, rfl⟩
    · split
      · exact ⟨upd_ne _ _ h, rfl, rfl, upd_ne _ _ h⟩
      · exact ⟨rfl, rfl, rfl, rfl⟩

theorem acts_other (p : St × Bool) (l : List Nat) (x : Nat) (h : x ∉ l) : (acts p l).1.status x = p.1.status x ∧
    (acts p l).1.bad x = p.1.bad x ∧ (acts p l).1.withdrawn x = p.1.withdrawn x ∧
    (acts p l).1.faked x = p.1.faked x := by
  induction l generalizing p with
  | nil => exact ⟨rfl, rfl, rfl, rfl⟩
  | cons a l ih =>
    have h1 := ih (if p.2 then act p.1 a else p) (fun hx => h (List.mem_cons_of_mem _ hx))
    have h2 : (if p.2 then act p.1 a else p).1.status x = p.1.status x ∧
        (if p.2 then act p.1 a else p).1.bad x = p.1.bad x ∧
        (if p.2 then act p.1 a else p).1.withdrawn x = p.1.withdrawn x ∧
        (if p.2 then act p.1 a else p).1.faked x = p.1.faked x := by
      split
      · exact act_other p.1 a x (fun hx => h (hx ▸ List.mem_cons_self))
      · exact ⟨rfl, rfl, rfl, rfl⟩
    exact ⟨h1.1.trans h2.1, h1.2.1.trans h2.2.1, h1.2.2.1.trans h2.2.2.1, h1.2.2.2.trans h2.2.2.2⟩

/-- What a successful cancellation of one event does. -/
theorem act_effect (s : St) (e : Nat) (h : (act s e).2 = true) :
    (act s e).1.status e = (if needy s e = true then .triggered else s.status e) ∧
    (act s e).1.bad e = (if s.cond e ≠ none then true else s.bad e) ∧
    (act s e).1.faked e = (if s.cond e = none ∧ s.kind e = .event then true else s.faked e) ∧
    (act s e).1.withdrawn e = (if s.cond e = none ∧ s.kind e = .request ∧ s.status e = .pending then true
      else s.withdrawn e) := by
  have hn := (act_needy_ok s e).1 h
  unfold act needy at *
  cases hc : s.cond e with
  | some k =>
    have hp : s.status e = .pending := by rw [hc] at hn; simpa using hn
    simp [hp]
  | none =>
    cases hk : s.kind e with
    | wait => simp
    | process => simp
    | request =>
      by_cases hp : s.status e = .pending <;> simp [hp]
    | event =>
      have hp : s.status e = .pending := by rw [hc, hk] at hn; simpa using hn
      simp [hp]

theorem acts_ok (l : List Nat) : ∀ s : St, ((acts (s, true) l).2 = true ↔
    (∀ x ∈ l, needy s x = true → s.status x = .pending) ∧ (l.filter (needy s)).Nodup) := by
  induction l with
  | nil => intro s; simp [acts]
  | cons a l ih =>
    intro s
    have hstep : acts (s, true) (a :: l) = acts (act s a) l := rfl
    have hneedy : needy (act s a).1 = needy s := by
      funext x
      unfold needy
      rw [(act_same s a).2.1, (act_same s a).2.2.1]
    rw [hstep]
    cases hr : act s a with
    | mk s1 b =>
      have hb : b = true ↔ (needy s a = true → s.status a = .pending) := by
        have := act_needy_ok s a; rw [hr] at this; exact this
      rw [hr] at hneedy
      cases b with
      | false =>
        rw [acts_false]
        simp only [Bool.false_eq_true, false_iff, not_and]
        intro h
        exact absurd (hb.2 (h a List.mem_cons_self)) (by simp)
      | true =>
        have ha := hb.1 rfl
        rw [ih s1, hneedy]
        have hst : ∀ x, x ≠ a → s1.status x = s.status x := by
          intro x hx
          have := (act_other s a x hx).1; rw [hr] at this; exact this
        have hsa : needy s a = true → s1.status a = .triggered := by
          intro hn
          have := (act_effect s a (by rw [hr])).1; rw [hr, if_pos hn] at this; exact this
        by_cases hn : needy s a = true
        · rw [List.filter_cons_of_pos hn, List.nodup_cons]
          constructor
          · rintro ⟨h1, h2⟩
            have hal : a ∉ l := by
              intro hal
              have := h1 a hal hn
              rw [hsa hn] at this; cases this
            refine ⟨?_, fun h => hal (List.mem_of_mem_filter h), h2⟩
            intro x hx hxn
            rcases List.mem_cons.1 hx with rfl | hx
            · exact ha hn
            · rw [← hst x (fun h => hal (h ▸ hx))]; exact h1 x hx hxn
          · rintro ⟨h1, h2, h3⟩
            have hal : a ∉ l := fun h => h2 (List.mem_filter.2 ⟨h, hn⟩)
            refine ⟨fun x hx hxn => ?_, h3⟩
            rw [hst x (fun h => hal (h ▸ hx))]
            exact h1 x (List.mem_cons_of_mem _ hx) hxn
        · rw [List.filter_cons_of_neg hn]
          constructor
          · rintro ⟨h1, h2⟩
            refine ⟨fun x hx hxn => ?_, h2⟩
            have hxa : x ≠ a := fun h => hn (h ▸ hxn)
            rw [← hst x hxa]
            exact h1 x ((List.mem_cons.1 hx).resolve_left hxa) hxn
          · rintro ⟨h1, h2⟩
            refine ⟨fun x hx hxn => ?_, h2⟩
            have hxa : x ≠ a := fun h => hn (h ▸ hxn)
            rw [hst x hxa]
            exact h1 x (List.mem_cons_of_mem _ hx) hxn

/-- What a successful cancellation does to the events it meets. -/
theorem acts_effect (l : List Nat) : ∀ s : St, (acts (s, true) l).2 = true → ∀ x ∈ l,
    (acts (s, true) l).1.status x = (if needy s x = true then .triggered else s.status x) ∧
    (acts (s, true) l).1.bad x = (if s.cond x ≠ none then true else s.bad x) ∧
    (acts (s, true) l).1.faked x = (if s.cond x = none ∧ s.kind x = .event then true else s.faked x) ∧
    (acts (s, true) l).1.withdrawn x = (if s.cond x = none ∧ s.kind x = .request ∧ s.status x = .pending then true
      else s.withdrawn x) := by
  induction l with
  | nil => intro s _ x hx; simp at hx
  | cons a l ih =>
    intro s hok x hx
    have hstep : acts (s, true) (a :: l) = acts (act s a) l := rfl
    rw [hstep] at hok ⊢
    cases hr : act s a with
    | mk s1 b =>
      rw [hr] at hok
      cases b with
      | false => rw [acts_false] at hok; cases hok
      | true =>
        have hsame := act_same s a
        have heff := act_effect s a (by rw [hr])
        rw [hr] at hsame heff
        have hneedy : needy s1 x = needy s x := by unfold needy; rw [hsame.2.1, hsame.2.2.1]
        by_cases hxl : x ∈ l
        · have h1 := ih s1 hok x hxl
          rw [hneedy, hsame.2.1, hsame.2.2.1] at h1
          by_cases hxa : x = a
          · subst hxa
            rw [heff.1, heff.2.1, heff.2.2.1, heff.2.2.2] at h1
            refine ⟨?_, ?_, ?_, ?_⟩
            · rw [h1.1]; split <;> rfl
            · rw [h1.2.1]; split <;> rfl
            · rw [h1.2.2.1]; split <;> rfl
            · rw [h1.2.2.2]
              by_cases hreq : s.cond x = none ∧ s.kind x = .request ∧ s.status x = .pending
              · have : needy s x = false := by unfold needy; rw [hreq.1, hreq.2.1]; simp
                simp [hreq, this]
              · rw [if_neg hreq, if_neg]
                rintro ⟨h1, h2, h3⟩
                have hnx : needy s x = false := by unfold needy; rw [h1, h2]; simp
                simp only [hnx, Bool.false_eq_true, if_false] at h3
                exact hreq ⟨h1, h2, h3⟩
          · have h2 := act_other s a x hxa
            rw [hr] at h2
            rw [h2.1, h2.2.1, h2.2.2.1, h2.2.2.2] at h1
            exact h1
        · have hxa : x = a := (List.mem_cons.1 hx).resolve_right hxl
          subst hxa
          have h1 := acts_other (s1, true) l x hxl
          exact ⟨h1.1.trans heff.1, h1.2.1.trans heff.2.1, h1.2.2.2.trans heff.2.2.1, h1.2.2.1.trans heff.2.2.2⟩

/-- Two multi-events around the same multi-event: one is inside the other. -/
theorem Inv.linear {s : St} (hI : Inv s) {a b x : Nat} (ha : In s.cond a x) (hb : In s.cond b x)
    (hx : s.cond x ≠ none) : In s.cond a b ∨ In s.cond b a := by
  have key : ∀ d x, d = a - x → In s.cond a x → In s.cond b x → s.cond x ≠ none → In s.cond a b ∨ In s.cond b a := by
    intro d
    induction d using Nat.strongRecOn with
    | ind d ih =>
      intro x hd ha hb hx
      rcases ha.last with rfl | ⟨y, k, hy, hk, hxk⟩
      · exact Or.inr hb
      · rcases hb.last with rfl | ⟨y', k', hy', hk', hxk'⟩
        · exact Or.inl ha
        · have h1 := hI.par y k x hk hxk hx
          have h2 := hI.par y' k' x hk' hxk' hx
          rw [h1] at h2
          cases h2
          have hlt := hI.hlt y k hk x hxk
          have hle := hy.le hI.hlt
          exact ih (a - y) (by omega) y rfl hy hy' (by rw [hk]; simp)
  exact key _ x rfl ha hb hx

/-- A multi-event is met once by `cancel`. -/
theorem Inv.node_once {s : St} (hI : Inv s) (x : Nat) (hx : s.cond x ≠ none) (d : Nat) :
    ∀ c, (nodes s.cond d c).count x ≤ 1 := by
  induction d with
  | zero => intro c; simp [nodes]
  | succ d ih =>
    intro c
    unfold nodes
    rw [List.count_cons]
    cases hc : s.cond c with
    | none => simp; split <;> omega
    | some k =>
      simp only
      have hzero : ∀ l : List Nat, (∀ m ∈ l, ¬ In s.cond m x) → (l.flatMap (nodes s.cond d)).count x = 0 := by
        intro l hl
        rw [List.count_eq_zero, List.mem_flatMap]
        rintro ⟨m, hm, hxm⟩
        exact hl m hm (nodes_lt hI.hlt d m x hxm)
      by_cases hxc : c = x
      · subst hxc
        rw [hzero k.members]
        · simp
        · intro m hm hin
          have := hin.le hI.hlt
          have := hI.hlt c k hc m hm
          omega
      · have hbeq : (c == x) = false := by simpa using hxc
        rw [hbeq]
        simp only [Bool.false_eq_true, if_false, Nat.add_zero]
        -- at most one member holds `x`, and that member is there once
        have hcondOf : ∀ m, In s.cond m x → s.cond m ≠ none := by
          intro m hm h0
          exact hx (by rw [hm.of_none h0]; exact h0)
        have huniq : ∀ m ∈ k.members, ∀ m' ∈ k.members, In s.cond m x → In s.cond m' x → m = m' := by
          have half : ∀ m ∈ k.members, ∀ m' ∈ k.members, In s.cond m m' → s.cond m' ≠ none → m = m' := by
            intro m hm m' hm' hin hc'
            rcases hin.last with h | ⟨y, ky, hy, hky, hmy⟩
            · exact h.symm
            · have h1 := hI.par y ky m' hky hmy hc'
              rw [hI.par c k m' hc hm' hc'] at h1
              cases h1
              have := hy.le hI.hlt
              have := hI.hlt c k hc m hm
              omega
          intro m hm m' hm' h1 h2
          rcases hI.linear h1 h2 hx with h | h
          · exact half m hm m' hm' h (hcondOf m' h2)
          · exact (half m' hm' m hm h (hcondOf m h1)).symm
        have hsum : ∀ l : List Nat, (∀ m ∈ l, m ∈ k.members) → (∀ m ∈ l, In s.cond m x → l.count m ≤ 1) →
            (l.flatMap (nodes s.cond d)).count x ≤ 1 := by
          intro l
          induction l with
          | nil => intro _ _; simp
          | cons a l ihl =>
            intro hsub hcount
            rw [List.flatMap_cons, List.count_append]
            by_cases hin : In s.cond a x
            · have hl0 : (l.flatMap (nodes s.cond d)).count x = 0 := by
                apply hzero
                intro m hm hmx
                have := huniq m (hsub m (List.mem_cons_of_mem _ hm)) a (hsub a List.mem_cons_self) hmx hin
                subst this
                have := hcount m List.mem_cons_self hin
                rw [List.count_cons_self] at this
                have : 0 < l.count m := List.count_pos_iff.2 hm
                omega
              rw [hl0]; exact ih a
            · have h0 : (nodes s.cond d a).count x = 0 :=
                List.count_eq_zero.2 (fun h => hin (nodes_lt hI.hlt d a x h))
              rw [h0, Nat.zero_add]
              apply ihl (fun m hm => hsub m (List.mem_cons_of_mem _ hm))
              intro m hm hmx
              have := hcount m (List.mem_cons_of_mem _ hm) hmx
              rw [List.count_cons] at this
              omega
        refine hsum k.members (fun m hm => hm) (fun m hm hmx => ?_)
        rw [hI.once c k m hc hm (hcondOf m hmx)]
        exact Nat.le_refl _

end Verif.Multi
