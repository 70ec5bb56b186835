import Verif.Multi.Lemmas

/-!
# The invariant of multi-events
-/

namespace Verif.Multi

/-- What made a condition succeed: one member, or all of them, were processed and had not failed. -/
def Good (s : St) (k : Cond) : Prop :=
  k.members = [] ∨ (if k.all = true then ∀ m ∈ k.members, s.status m = .processed ∧ s.bad m = false
    else ∃ m ∈ k.members, s.status m = .processed ∧ s.bad m = false)

/-- The checks of `c` still to be called. -/
def due (s : St) (c : Nat) : Nat := s.ready.countP (fun p => p.2 = .check c)

/-- How many members were processed. -/
def proc (s : St) (k : Cond) : Nat := k.members.countP (fun m => s.status m = .processed)

structure Inv (s : St) : Prop where
  lt : ∀ c k, s.cond c = some k → c < s.n ∧ ∀ m ∈ k.members, m < c
  fresh : ∀ e, s.n ≤ e → s.status e = .pending ∧ s.cbs e = [] ∧ s.parent e = none ∧ s.forgot e = false ∧
    s.bad e = false ∧ s.count e = 0 ∧ s.when e = none ∧ s.faked e = false ∧ s.withdrawn e = false
  isCond : ∀ e c, .check c ∈ s.cbs e → s.cond c ≠ none
  par : ∀ c k m, s.cond c = some k → m ∈ k.members → s.cond m ≠ none → s.parent m = some c
  once : ∀ c k m, s.cond c = some k → m ∈ k.members → s.cond m ≠ none → k.members.count m = 1
  att : ∀ c k e, s.cond c = some k → s.forgot c = false → s.status e ≠ .processed →
    (s.cbs e).count (.check c) = k.members.count e
  gone : ∀ c e, s.forgot c = true → (s.cbs e).count (.check c) = 0 ∧ due s c = 0
  cnt : ∀ c k, s.cond c = some k → s.status c = .pending → s.forgot c = false →
    k.members ≠ [] ∧ s.count c + due s c = proc s k ∧ met k (s.count c) = false ∧
    ∀ m ∈ k.members, s.status m = .processed → s.bad m = true → (m, .check c) ∈ s.ready
  snd : ∀ c k, s.cond c = some k → s.status c ≠ .pending → s.bad c = false → Good s k
  forg : ∀ m, s.forgot m = true → s.status m = .processed ∨ ∃ p, s.parent m = some p ∧ s.forgot p = true
  pforg : ∀ c, s.cond c ≠ none → s.status c = .processed → s.forgot c = true
  procCbs : ∀ e, s.status e = .processed → s.cbs e = []
  rdy : ∀ e cb, (e, cb) ∈ s.ready → s.status e = .processed ∧ e < s.n
  rdyc : ∀ e c, (e, .check c) ∈ s.ready → ∃ k, s.cond c = some k ∧ e ∈ k.members
  base1 : ∀ e, s.cond e = none → s.status e ≠ .pending → s.when e ≠ none ∨ s.faked e = true ∨ s.bad e = true
  base2 : ∀ e, s.when e ≠ none → s.status e ≠ .pending ∧ s.bad e = false ∧ s.faked e = false ∧ s.cond e = none
  badp : ∀ e, s.bad e = true → s.status e ≠ .pending
  fakep : ∀ e, s.faked e = true → s.status e ≠ .pending ∧ s.cond e = none
  wait : ∀ t e, (s.cbs e).count (.resume t) + s.ready.count (e, .resume t) = if s.waiting t = some e then 1 else 0
  root : ∀ t e, s.waiting t = some e → e < s.n ∧ (s.cond e ≠ none → s.parent e = none)

theorem inv_init : Inv init := by
  constructor <;> simp [init, due]

/-- The base event `s.n` is new. -/
theorem Inv.newEvent {s : St} (hI : Inv s) (k : Kind) : Inv { s with n := s.n + 1, kind := upd s.kind s.n k } where
  lt := fun c k hc => ⟨Nat.lt_succ_of_lt (hI.lt c k hc).1, (hI.lt c k hc).2⟩
  fresh := fun e he => hI.fresh e (Nat.le_of_succ_le he)
  isCond := hI.isCond
  par := hI.par
  once := hI.once
  att := hI.att
  gone := hI.gone
  cnt := hI.cnt
  snd := hI.snd
  forg := hI.forg
  pforg := hI.pforg
  procCbs := hI.procCbs
  rdy := fun e cb h => ⟨(hI.rdy e cb h).1, Nat.lt_succ_of_lt (hI.rdy e cb h).2⟩
  rdyc := hI.rdyc
  base1 := hI.base1
  base2 := hI.base2
  badp := hI.badp
  fakep := hI.fakep
  wait := hI.wait
  root := fun t e h => ⟨Nat.lt_succ_of_lt (hI.root t e h).1, (hI.root t e h).2⟩

theorem countP_congr' {l : List Nat} {p q : Nat → Prop} [DecidablePred p] [DecidablePred q]
    (h : ∀ m ∈ l, p m ↔ q m) : l.countP (fun m => decide (p m)) = l.countP (fun m => decide (q m)) :=
  List.countP_congr (fun m hm => by simp [h m hm])

/-- Fields that do not matter. -/
theorem Inv.ghost {s : St} (hI : Inv s) (since : Nat → Nat) (now : Nat) :
    Inv { s with since := since, now := now } :=
  ⟨hI.lt, hI.fresh, hI.isCond, hI.par, hI.once, hI.att, hI.gone, hI.cnt, hI.snd, hI.forg, hI.pforg, hI.procCbs, hI.rdy, hI.rdyc,
    hI.base1, hI.base2, hI.badp, hI.fakep, hI.wait, hI.root⟩

theorem Inv.withdraw {s : St} (hI : Inv s) {e : Nat} (he : e < s.n) :
    Inv { s with withdrawn := upd s.withdrawn e true } where
  lt := hI.lt
  fresh := fun e' h => by
    have := hI.fresh e' h
    refine ⟨this.1, this.2.1, this.2.2.1, this.2.2.2.1, this.2.2.2.2.1, this.2.2.2.2.2.1, this.2.2.2.2.2.2.1,
      this.2.2.2.2.2.2.2.1, ?_⟩
    show upd s.withdrawn e true e' = false
    rw [upd_ne _ _ (by have : s.n ≤ e' := h; omega)]
    exact this.2.2.2.2.2.2.2.2
  isCond := hI.isCond
  par := hI.par
  once := hI.once
  att := hI.att
  gone := hI.gone
  cnt := hI.cnt
  snd := hI.snd
  forg := hI.forg
  pforg := hI.pforg
  procCbs := hI.procCbs
  rdy := hI.rdy
  rdyc := hI.rdyc
  base1 := hI.base1
  base2 := hI.base2
  badp := hI.badp
  fakep := hI.fakep
  wait := hI.wait
  root := hI.root

theorem Good.mono {s s' : St} {k : Cond} (hg : Good s k)
    (h : ∀ m ∈ k.members, s.status m = .processed → s.bad m = false → s'.status m = .processed ∧ s'.bad m = false) :
    Good s' k := by
  rcases hg with hg | hg
  · exact Or.inl hg
  · right
    by_cases ha : k.all = true
    · rw [if_pos ha] at hg ⊢
      exact fun m hm => h m hm (hg m hm).1 (hg m hm).2
    · rw [if_neg ha] at hg ⊢
      obtain ⟨m, hm, h1, h2⟩ := hg
      exact ⟨m, hm, h m hm h1 h2⟩

/-- A pending event is triggered; nothing else changes but its ghost fields. -/
theorem Inv.trigger {s : St} (hI : Inv s) {e : Nat} (he : e < s.n) (hp : s.status e = .pending) (b : Bool)
    (w : Option Nat) (f : Bool)
    (hc : ∀ k, s.cond e = some k → (b = true ∨ Good s k) ∧ w = none)
    (hf : f = true → s.cond e = none) (hw : w ≠ none → b = false ∧ f = false) (hb : s.cond e = none → w ≠ none ∨ f = true ∨ b = true) :
    Inv { s with status := upd s.status e .triggered, bad := upd s.bad e b, when := upd s.when e w,
                 faked := upd s.faked e f } := by
  have hst : ∀ x, upd s.status e .triggered x = .processed ↔ s.status x = .processed := by
    intro x
    by_cases hx : x = e
    · subst hx; simp [hp]
    · rw [upd_ne _ _ hx]
  have hne : ∀ x, s.status x = .processed → x ≠ e := fun x hx h => by rw [h, hp] at hx; cases hx
  have hpend : ∀ x, upd s.status e .triggered x = .pending → x ≠ e ∧ s.status x = .pending := by
    intro x hx
    by_cases h : x = e
    · subst h; simp at hx
    · rw [upd_ne _ _ h] at hx; exact ⟨h, hx⟩
  constructor
  case lt => exact hI.lt
  case fresh =>
    intro x hx
    have hxe : x ≠ e := by have : s.n ≤ x := hx; omega
    have := hI.fresh x hx
    simp only [upd_ne _ _ hxe]
    exact this
  case isCond => exact hI.isCond
  case par => exact hI.par
  case once => exact hI.once
  case att => exact fun c k x hc hf hx => hI.att c k x hc hf (fun h => hx ((hst x).2 h))
  case gone => exact hI.gone
  case cnt =>
    intro c k hck hcp hf
    obtain ⟨hce, hcp⟩ := hpend c hcp
    have h := hI.cnt c k hck hcp hf
    refine ⟨h.1, ?_, h.2.2.1, ?_⟩
    · refine h.2.1.trans ?_
      exact countP_congr' (fun m _ => (hst m).symm)
    · intro m hm hmp hmb
      have hmp := (hst m).1 hmp
      change upd s.bad e b m = true at hmb
      rw [upd_ne _ _ (hne m hmp)] at hmb
      exact h.2.2.2 m hm hmp hmb
  case snd =>
    intro c k hck hcp hcb
    have hmono : Good s k → Good { s with status := upd s.status e .triggered, bad := upd s.bad e b,
                                          when := upd s.when e w, faked := upd s.faked e f } k := by
      intro hg
      refine hg.mono (fun m _ h1 h2 => ⟨(hst m).2 h1, ?_⟩)
      show upd s.bad e b m = false
      rw [upd_ne _ _ (hne m h1)]; exact h2
    by_cases hce : c = e
    · subst hce
      change upd s.bad c b c = false at hcb
      rw [upd_same] at hcb
      rcases (hc k hck).1 with h | h
      · rw [hcb] at h; cases h
      · exact hmono h
    · change upd s.bad e b c = false at hcb
      change upd s.status e .triggered c ≠ .pending at hcp
      rw [upd_ne _ _ hce] at hcb hcp
      exact hmono (hI.snd c k hck hcp hcb)
  case forg => exact fun m hm => (hI.forg m hm).imp_left (fun h => (hst m).2 h)
  case pforg => exact fun c hc hp => hI.pforg c hc ((hst c).1 hp)
  case procCbs => exact fun x hx => hI.procCbs x ((hst x).1 hx)
  case rdy => exact fun x cb hx => ⟨(hst x).2 (hI.rdy x cb hx).1, (hI.rdy x cb hx).2⟩
  case rdyc => exact hI.rdyc
  case base1 =>
    intro x hx hxp
    change upd s.status e .triggered x ≠ .pending at hxp
    show upd s.when e w x ≠ none ∨ upd s.faked e f x = true ∨ upd s.bad e b x = true
    by_cases hxe : x = e
    · subst hxe; simp only [upd_same]; exact hb hx
    · rw [upd_ne _ _ hxe] at hxp
      simp only [upd_ne _ _ hxe]; exact hI.base1 x hx hxp
  case base2 =>
    intro x hx
    change upd s.when e w x ≠ none at hx
    show upd s.status e .triggered x ≠ .pending ∧ upd s.bad e b x = false ∧ upd s.faked e f x = false ∧ s.cond x = none
    by_cases hxe : x = e
    · subst hxe
      simp only [upd_same] at hx ⊢
      refine ⟨by simp, (hw hx).1, (hw hx).2, ?_⟩
      cases hcx : s.cond x with
      | none => rfl
      | some k => exact absurd (hc k hcx).2 hx
    · rw [upd_ne _ _ hxe] at hx
      simp only [upd_ne _ _ hxe]; exact hI.base2 x hx
  case badp =>
    intro x hx
    change upd s.bad e b x = true at hx
    show upd s.status e .triggered x ≠ .pending
    by_cases hxe : x = e
    · subst hxe; simp
    · rw [upd_ne _ _ hxe] at hx ⊢; exact hI.badp x hx
  case fakep =>
    intro x hx
    change upd s.faked e f x = true at hx
    show upd s.status e .triggered x ≠ .pending ∧ s.cond x = none
    by_cases hxe : x = e
    · subst hxe; rw [upd_same] at hx; exact ⟨by simp, hf hx⟩
    · rw [upd_ne _ _ hxe] at hx ⊢; exact hI.fakep x hx
  case wait => exact hI.wait
  case root => exact hI.root

/-- `upd` with the value that is there. -/
theorem upd_self {α : Type} (f : Nat → α) (i : Nat) : upd f i (f i) = f := by
  funext j; by_cases h : j = i
  · subst h; simp
  · rw [upd_ne _ _ h]

theorem Inv.when_pending {s : St} (hI : Inv s) {e : Nat} (hp : s.status e = .pending) : s.when e = none := by
  by_contra h; exact (hI.base2 e h).1 hp

theorem Inv.bad_pending {s : St} (hI : Inv s) {e : Nat} (hp : s.status e = .pending) : s.bad e = false := by
  cases h : s.bad e with
  | false => rfl
  | true => exact absurd hp (hI.badp e h)

theorem Inv.fake_pending {s : St} (hI : Inv s) {e : Nat} (hp : s.status e = .pending) : s.faked e = false := by
  cases h : s.faked e with
  | false => rfl
  | true => exact absurd hp (hI.fakep e h).1

theorem Inv.occur {s : St} (hI : Inv s) (e : Nat) (ok : Bool) : Inv (occur s e ok).1 := by
  unfold Multi.occur
  split
  · exact hI
  · rename_i h
    simp only [not_or, Nat.not_le, ne_eq, Decidable.not_not] at h
    obtain ⟨he, hc, hp, _, hk⟩ := h
    have hff := hI.fake_pending hp
    have := hI.trigger he hp (!ok) (if ok then some s.now else none) (s.faked e)
      (fun k hk => by rw [hc] at hk; cases hk) (fun _ => hc) (by cases ok <;> simp [hff]) (by cases ok <;> simp)
    rw [upd_self] at this
    exact this

theorem Inv.act {s : St} (hI : Inv s) {e : Nat} (he : e < s.n) : Inv (act s e).1 := by
  unfold Multi.act
  split
  · rename_i k hk
    split
    · rename_i hp
      have := hI.trigger he hp true (s.when e) (s.faked e) (fun _ _ => ⟨Or.inl rfl, hI.when_pending hp⟩)
        (fun h => absurd hp (hI.fakep e h).1) (fun h => absurd (hI.when_pending hp) h) (fun _ => by simp)
      rw [upd_self, upd_self] at this
      exact this
    · exact hI
  · rename_i hc
    split
    · exact hI
    · exact hI
    · split
      · exact hI.withdraw he
      · exact hI
    · split
      · rename_i hp
        have := hI.trigger he hp (s.bad e) (s.when e) true (fun k hk => by rw [hc] at hk; cases hk)
          (fun _ => hc) (fun h => absurd (hI.when_pending hp) h) (fun _ => by simp)
        rw [upd_self, upd_self] at this
        exact this
      · exact hI

/-- `act` never changes the structure. -/
theorem act_same (s : St) (e : Nat) : (act s e).1.n = s.n ∧ (act s e).1.cond = s.cond ∧ (act s e).1.kind = s.kind ∧
    (act s e).1.cbs = s.cbs ∧ (act s e).1.ready = s.ready ∧ (act s e).1.waiting = s.waiting ∧ (act s e).1.now = s.now ∧
    (act s e).1.since = s.since ∧ (act s e).1.when = s.when ∧ (act s e).1.parent = s.parent ∧
    (act s e).1.forgot = s.forgot ∧ (act s e).1.count = s.count := by
  unfold act
  split
  · split <;> exact ⟨rfl, rfl, rfl, rfl, rfl, rfl, rfl, rfl, rfl, rfl, rfl, rfl⟩
  · split
    · exact ⟨rfl, rfl, rfl, rfl, rfl, rfl, rfl, rfl, rfl, rfl, rfl, rfl⟩
    · exact ⟨rfl, rfl, rfl, rfl, rfl, rfl, rfl, rfl, rfl, rfl, rfl, rfl⟩
    · split <;> exact ⟨rfl, rfl, rfl, rfl, rfl, rfl, rfl, rfl, rfl, rfl, rfl, rfl⟩
    · split <;> exact ⟨rfl, rfl, rfl, rfl, rfl, rfl, rfl, rfl, rfl, rfl, rfl, rfl⟩

/-- `act` on one event after the other, up to the first error. -/
def acts (p : St × Bool) (l : List Nat) : St × Bool := l.foldl (fun p e => if p.2 then act p.1 e else p) p

theorem acts_append (p : St × Bool) (l l' : List Nat) : acts p (l ++ l') = acts (acts p l) l' := List.foldl_append ..

theorem acts_false (s : St) (l : List Nat) : acts (s, false) l = (s, false) := by
  induction l with
  | nil => rfl
  | cons a l ih => exact ih

theorem acts_cond (p : St × Bool) (l : List Nat) : (acts p l).1.cond = p.1.cond := by
  induction l generalizing p with
  | nil => rfl
  | cons a l ih =>
    show (acts (if p.2 then act p.1 a else p) l).1.cond = _
    rw [ih]
    split
    · exact (act_same p.1 a).2.1
    · rfl

/-- `cancel` acts on the events of the tree one after the other. -/
theorem cancel_eq (d : Nat) : ∀ (s : St) (e : Nat), cancel d s e = acts (s, true) (nodes s.cond d e) := by
  induction d with
  | zero => intro s e; rfl
  | succ d ih =>
    intro s e
    show _ = acts (act s e) _
    unfold cancel
    cases hr : act s e with
    | mk s1 b =>
      have hc1 : s1.cond = s.cond := by have := (act_same s e).2.1; rw [hr] at this; exact this
      cases b with
      | false => simp [acts_false]
      | true =>
        cases hk : s.cond e with
        | none => simp [acts]
        | some k =>
          simp only [if_true]
          have key : ∀ (l : List Nat) (p : St × Bool), p.1.cond = s.cond →
              l.foldl (fun p m => if p.2 then cancel d p.1 m else p) p = acts p (l.flatMap (nodes s.cond d)) := by
            intro l
            induction l with
            | nil => intro p _; rfl
            | cons a l ihl =>
              intro p hp
              rw [List.flatMap_cons, acts_append, List.foldl_cons]
              have h1 : (if p.2 then cancel d p.1 a else p) = acts p (nodes s.cond d a) := by
                obtain ⟨s', b⟩ := p
                cases b with
                | true =>
                  simp only [if_true]
                  rw [ih, show s'.cond = s.cond from hp]
                | false => simp [acts_false]
              rw [h1]
              exact ihl _ (by rw [acts_cond]; exact hp)
          exact key k.members (s1, true) hc1

theorem nodes_lt {cond : Nat → Option Cond} (hlt : ∀ c k, cond c = some k → ∀ m ∈ k.members, m < c) (d : Nat) :
    ∀ c, ∀ x ∈ nodes cond d c, In cond c x := by
  induction d with
  | zero => intro c x hx; simp [nodes] at hx
  | succ d ih =>
    intro c x hx
    unfold nodes at hx
    rcases List.mem_cons.1 hx with rfl | hx
    · exact .self _
    · cases hk : cond c with
      | none => rw [hk] at hx; simp at hx
      | some k =>
        rw [hk] at hx
        simp only [List.mem_flatMap] at hx
        obtain ⟨m, hm, hx⟩ := hx
        exact .member hk hm (ih m x hx)

theorem mem_nodes {cond : Nat → Option Cond} (hlt : ∀ c k, cond c = some k → ∀ m ∈ k.members, m < c) {c x : Nat}
    (hx : In cond c x) : ∀ d, c < d → x ∈ nodes cond d c := by
  induction hx with
  | self c =>
    intro d hd
    cases d with
    | zero => omega
    | succ d => exact List.mem_cons_self
  | @member c m x k hc hm _ ih =>
    intro d hd
    cases d with
    | zero => omega
    | succ d =>
      unfold nodes
      refine List.mem_cons_of_mem _ ?_
      rw [hc]
      exact List.mem_flatMap.2 ⟨m, hm, ih d (by have := hlt c k hc m hm; omega)⟩

theorem Inv.acts {p : St × Bool} (hI : Inv p.1) (l : List Nat) (hl : ∀ x ∈ l, x < p.1.n) : Inv (acts p l).1 := by
  induction l generalizing p with
  | nil => exact hI
  | cons a l ih =>
    show Inv (Multi.acts (if p.2 then Multi.act p.1 a else p) l).1
    apply ih
    · split
      · exact hI.act (hl a List.mem_cons_self)
      · exact hI
    · intro x hx
      split
      · rw [(act_same p.1 a).1]; exact hl x (List.mem_cons_of_mem _ hx)
      · exact hl x (List.mem_cons_of_mem _ hx)

theorem Inv.hlt {s : St} (hI : Inv s) : ∀ c k, s.cond c = some k → ∀ m ∈ k.members, m < c :=
  fun c k h => (hI.lt c k h).2

theorem Inv.cancel {s : St} (hI : Inv s) {e : Nat} (he : e < s.n) (d : Nat) : Inv (cancel d s e).1 := by
  rw [cancel_eq]
  exact Inv.acts (p := (s, true)) hI _
    (fun x hx => Nat.lt_of_le_of_lt ((nodes_lt hI.hlt d e x hx).le hI.hlt) he)

/-- A task stops waiting. -/
theorem Inv.leave {s : St} (hI : Inv s) {t e : Nat} (hw : s.waiting t = some e) (hr : s.ready = []) :
    Inv (leave s t e) := by
  have hcount : ∀ x cb, cb ≠ .resume t → ((upd s.cbs e ((s.cbs e).erase (.resume t))) x).count cb = (s.cbs x).count cb := by
    intro x cb hcb
    by_cases hx : x = e
    · subst hx; rw [upd_same, List.count_erase_of_ne hcb]
    · rw [upd_ne _ _ hx]
  constructor
  case lt => exact hI.lt
  case fresh =>
    intro x hx
    have h := hI.fresh x hx
    refine ⟨h.1, ?_, h.2.2⟩
    show upd s.cbs e ((s.cbs e).erase (.resume t)) x = []
    have : e < s.n := (hI.root t e hw).1
    rw [upd_ne _ _ (by have : s.n ≤ x := hx; omega)]; exact h.2.1
  case isCond =>
    intro x c hx
    refine hI.isCond x c ?_
    change Cb.check c ∈ upd s.cbs e ((s.cbs e).erase (.resume t)) x at hx
    rw [← List.count_pos_iff, hcount x _ (by simp)] at hx
    exact List.count_pos_iff.1 hx
  case par => exact hI.par
  case once => exact hI.once
  case att =>
    intro c k x hc hf hx
    exact (hcount x _ (by simp)).trans (hI.att c k x hc hf hx)
  case gone =>
    intro c x hf
    exact ⟨(hcount x _ (by simp)).trans (hI.gone c x hf).1, (hI.gone c x hf).2⟩
  case cnt => exact hI.cnt
  case snd => exact hI.snd
  case forg => exact hI.forg
  case pforg => exact hI.pforg
  case procCbs =>
    intro x hx
    show upd s.cbs e ((s.cbs e).erase (.resume t)) x = []
    by_cases hxe : x = e
    · subst hxe; rw [upd_same, hI.procCbs x hx]; rfl
    · rw [upd_ne _ _ hxe]; exact hI.procCbs x hx
  case rdy => exact hI.rdy
  case rdyc => exact hI.rdyc
  case base1 => exact hI.base1
  case base2 => exact hI.base2
  case badp => exact hI.badp
  case fakep => exact hI.fakep
  case wait =>
    intro t' x
    show (upd s.cbs e ((s.cbs e).erase (.resume t)) x).count (.resume t') + s.ready.count (x, .resume t')
      = if upd s.waiting t none t' = some x then 1 else 0
    have h := hI.wait t' x
    rw [hr] at h ⊢
    simp only [List.count_nil, Nat.add_zero] at h ⊢
    by_cases ht : t' = t
    · subst ht
      rw [upd_same]
      simp only [reduceCtorEq, if_false]
      by_cases hx : x = e
      · subst hx; rw [upd_same, List.count_erase_self, h, if_pos hw]
      · rw [upd_ne _ _ hx, h, if_neg]
        rw [hw]; exact fun h => hx (Option.some.inj h).symm
    · rw [upd_ne _ _ ht, hcount x _ (by simpa using ht), h]
  case root =>
    intro t' x hx
    change upd s.waiting t none t' = some x at hx
    by_cases ht : t' = t
    · subst ht; simp at hx
    · rw [upd_ne _ _ ht] at hx; exact hI.root t' x hx

/-- A task begins to wait. -/
theorem Inv.enter {s : St} (hI : Inv s) {t e : Nat} (hw : s.waiting t = none) (he : e < s.n)
    (hroot : s.cond e ≠ none → s.parent e = none) (hp : s.status e ≠ .processed) :
    Inv { s with cbs := upd s.cbs e (s.cbs e ++ [.resume t]), waiting := upd s.waiting t (some e) } := by
  have hcount : ∀ x cb, cb ≠ .resume t → ((upd s.cbs e (s.cbs e ++ [.resume t])) x).count cb = (s.cbs x).count cb := by
    intro x cb hcb
    by_cases hx : x = e
    · subst hx
      rw [upd_same, List.count_append]
      simp [List.count_singleton, Ne.symm hcb]
    · rw [upd_ne _ _ hx]
  constructor
  case lt => exact hI.lt
  case fresh =>
    intro x hx
    have h := hI.fresh x hx
    refine ⟨h.1, ?_, h.2.2⟩
    show upd s.cbs e (s.cbs e ++ [.resume t]) x = []
    rw [upd_ne _ _ (by have : s.n ≤ x := hx; omega)]; exact h.2.1
  case isCond =>
    intro x c hx
    refine hI.isCond x c ?_
    change Cb.check c ∈ upd s.cbs e (s.cbs e ++ [.resume t]) x at hx
    rw [← List.count_pos_iff, hcount x _ (by simp)] at hx
    exact List.count_pos_iff.1 hx
  case par => exact hI.par
  case once => exact hI.once
  case att =>
    intro c k x hc hf hx
    exact (hcount x _ (by simp)).trans (hI.att c k x hc hf hx)
  case gone =>
    intro c x hf
    exact ⟨(hcount x _ (by simp)).trans (hI.gone c x hf).1, (hI.gone c x hf).2⟩
  case cnt => exact hI.cnt
  case snd => exact hI.snd
  case forg => exact hI.forg
  case pforg => exact hI.pforg
  case procCbs =>
    intro x hx
    show upd s.cbs e (s.cbs e ++ [.resume t]) x = []
    by_cases hxe : x = e
    · subst hxe; exact absurd hx hp
    · rw [upd_ne _ _ hxe]; exact hI.procCbs x hx
  case rdy => exact hI.rdy
  case rdyc => exact hI.rdyc
  case base1 => exact hI.base1
  case base2 => exact hI.base2
  case badp => exact hI.badp
  case fakep => exact hI.fakep
  case wait =>
    intro t' x
    show (upd s.cbs e (s.cbs e ++ [.resume t]) x).count (.resume t') + s.ready.count (x, .resume t')
      = if upd s.waiting t (some e) t' = some x then 1 else 0
    have h := hI.wait t' x
    by_cases ht : t' = t
    · subst ht
      rw [upd_same]
      rw [hw] at h
      simp only [reduceCtorEq, if_false, Option.some.injEq] at h ⊢
      by_cases hx : x = e
      · subst hx
        rw [upd_same, List.count_append]
        simp
        omega
      · rw [upd_ne _ _ hx, if_neg (fun h => hx h.symm)]; exact h
    · rw [upd_ne _ _ ht, hcount x _ (by simpa using ht), h]
  case root =>
    intro t' x hx
    change upd s.waiting t (some e) t' = some x at hx
    by_cases ht : t' = t
    · subst ht
      rw [upd_same] at hx
      cases hx
      exact ⟨he, hroot⟩
    · rw [upd_ne _ _ ht] at hx; exact hI.root t' x hx

theorem Inv.waitFor {s : St} (hI : Inv s) (t e : Nat) : Inv (waitFor s t e).1 := by
  unfold Multi.waitFor
  split
  · exact hI
  · rename_i h
    simp only [not_or, Nat.not_le, ne_eq, Decidable.not_not, not_and] at h
    split
    · exact hI
    · rename_i hp
      exact (hI.enter h.1 h.2.1 h.2.2 hp).ghost _ _

theorem Inv.interrupt {s : St} (hI : Inv s) (t : Nat) : Inv (interrupt s t).1 := by
  unfold Multi.interrupt
  split
  · exact hI
  · rename_i hr
    split
    · exact hI
    · rename_i e hw
      exact (hI.leave hw (by simpa using hr)).cancel (hI.root t e hw).1 _

theorem Inv.unprocessed {s : St} (hI : Inv s) {t e : Nat} (hw : s.waiting t = some e) (hr : s.ready = []) :
    s.status e ≠ .processed := by
  intro hp
  have h := hI.wait t e
  rw [hr, hI.procCbs e hp, if_pos hw] at h
  simp at h

theorem Inv.ignore {s : St} (hI : Inv s) (t : Nat) : Inv (ignore s t).1 := by
  unfold Multi.ignore
  split
  · exact hI
  · rename_i hr
    split
    · exact hI
    · rename_i e hw
      have hr : s.ready = [] := by simpa using hr
      have h1 := hI.leave hw hr
      have h2 := h1.enter (t := t) (e := e) (by simp [Multi.leave]) (hI.root t e hw).1 (hI.root t e hw).2
        (hI.unprocessed hw hr)
      have e1 : upd (Multi.leave s t e).waiting t (some e) = s.waiting := by
        funext x
        by_cases hx : x = t
        · subst hx; rw [upd_same, hw]
        · rw [upd_ne _ _ hx]; exact upd_ne _ _ hx
      have e2 : upd (Multi.leave s t e).cbs e ((Multi.leave s t e).cbs e ++ [.resume t])
          = upd s.cbs e ((s.cbs e).erase (.resume t) ++ [.resume t]) := by
        funext x
        by_cases hx : x = e
        · subst hx; simp [Multi.leave]
        · rw [upd_ne _ _ hx, upd_ne _ _ hx]; exact upd_ne _ _ hx
      rw [e1, e2] at h2
      exact h2

end Verif.Multi
