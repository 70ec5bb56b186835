import Verif.Nucleus.Model

/-!
# C31: the nucleus interrupts exactly the watching networks

The specification keeps only which networks the actor has and which network watches which state. `c31_interrupts`: a change
that does not fail has interrupted the current process of every watching network once, with the name and the value, and
nothing else; `c31_succeeds`: it does not fail when every watching network is still on the actor and its process, if it has
one, is neither over nor the caller; `c31_unwatched`, `c31_removed`, `c31_remove_ok`. Where it fails: a network that was
deleted from the actor (`c31_deleted_network`), a process that changes a state its own network watches (`c31_own_network`),
and a state changed while the network is between tasks, as in a decision task that does not hold (`c31_between_tasks`).
-/

namespace Verif.Nucleus

/-- Networks of the actor, and who watches what. -/
structure Sp where
  nets : Nat → Prop
  W : Nat → Nat → Prop

def Sp.init : Sp := ⟨fun _ => False, fun _ _ => False⟩

/-- `l` is an order of the set. -/
def Order (l : List Nat) (S : Nat → Prop) : Prop := l.Nodup ∧ ∀ x, x ∈ l ↔ S x

def Sp.step (sp : Sp) : Op → Sp
  | .addNet n => { sp with nets := fun m => sp.nets m ∨ m = n }
  | .delNet n => { sp with nets := fun m => sp.nets m ∧ m ≠ n }
  | .watch n states => { sp with W := fun m x => sp.W m x ∨ (m = n ∧ sp.nets n ∧ x ∈ states) }
  | .unwatch n ord => { sp with W := fun m x => sp.W m x ∧ ¬ (m = n ∧ sp.nets n ∧ Order ord (sp.W n)) }
  | .start _ _ => sp
  | .finish _ => sp
  | .change _ _ _ _ => sp

def Sp.run (sp : Sp) : List Op → Sp
  | [] => sp
  | op :: r => Sp.run (sp.step op) r

/-- Who watches what after the operations. -/
def Watching (ops : List Op) : Nat → Nat → Prop := (Sp.run Sp.init ops).W

/-- The process that a network started last. -/
def Doing (ops : List Op) (n : Nat) : Option Nat :=
  ops.foldl (fun c op => match op with | .start m p => if n = m then some p else c | _ => c) none

/-- A process is over. -/
def Over (ops : List Op) (p : Nat) : Bool :=
  ops.foldl (fun c op => match op with | .start _ q => if p = q then false else c | .finish q => if p = q then true else c | _ => c) false

/-! ## The invariant -/

def look (d : Dict Nat (List Nat)) (k : Nat) : List Nat := (d.get? k).getD []

theorem entry_snd (d : Dict Nat (List Nat)) (k : Nat) : (entry d k).2 = look d k := by
  unfold entry look
  cases d.get? k <;> rfl

theorem look_entry (d : Dict Nat (List Nat)) (k k' : Nat) : look (entry d k).1 k' = look d k' := by
  unfold entry look
  cases h : d.get? k with
  | some l => rfl
  | none =>
    by_cases hk : k = k'
    · subst hk; simp [h]
    · simp [Dict.get?_set_ne _ _ hk]

theorem look_set (d : Dict Nat (List Nat)) (k : Nat) (l : List Nat) (k' : Nat) :
    look (d.set k l) k' = if k' = k then l else look d k' := by
  unfold look
  by_cases h : k' = k
  · subst h; simp
  · rw [Dict.get?_set_ne _ _ (Ne.symm h), if_neg h]

theorem look_del (d : Dict Nat (List Nat)) (k k' : Nat) :
    look (d.del k) k' = if k' = k then [] else look d k' := by
  unfold look
  by_cases h : k' = k
  · subst h; simp
  · rw [Dict.get?_del_ne _ (Ne.symm h), if_neg h]

theorem mem_add (l : List Nat) (x y : Nat) : y ∈ add l x ↔ y ∈ l ∨ y = x := by
  unfold add
  split
  · rename_i h
    constructor
    · exact Or.inl
    · rintro (h' | rfl)
      · exact h'
      · exact h
  · simp

theorem nodup_add {l : List Nat} (h : l.Nodup) (x : Nat) : (add l x).Nodup := by
  unfold add
  split
  · exact h
  · rename_i hx
    simp only [List.nodup_append, h, true_and, List.nodup_cons, List.not_mem_nil, not_false_iff, List.nodup_nil,
      List.mem_singleton]
    rintro a ha b rfl rfl
    exact hx ha

structure Inv (s : St) (sp : Sp) : Prop where
  netsN : s.nets.Nodup
  nets : ∀ n, n ∈ s.nets ↔ sp.nets n
  sW : ∀ n x, n ∈ look s.smap x ↔ sp.W n x
  nW : ∀ n x, x ∈ look s.nmap n ↔ sp.W n x
  sN : ∀ x, (look s.smap x).Nodup
  nN : ∀ n, (look s.nmap n).Nodup

theorem init_inv : Inv init Sp.init :=
  ⟨by simp [init], by simp [init, Sp.init], by simp [init, Sp.init, look], by simp [init, Sp.init, look],
    by simp [init, look], by simp [init, look]⟩

/-- What an operation on the maps leaves alone. -/
structure Same (s s' : St) : Prop where
  nets : s'.nets = s.nets
  cur : s'.cur = s.cur
  ended : s'.ended = s.ended
  sent : s'.sent = s.sent

theorem Same.refl (s : St) : Same s s := ⟨rfl, rfl, rfl, rfl⟩

theorem Same.trans {a b c : St} (h : Same a b) (k : Same b c) : Same a c :=
  ⟨k.nets.trans h.nets, k.cur.trans h.cur, k.ended.trans h.ended, k.sent.trans h.sent⟩

theorem register_inv (n : Nat) (states : List Nat) : ∀ (s : St) (sp : Sp), Inv s sp →
    Inv (register s n states) { sp with W := fun m x => sp.W m x ∨ (m = n ∧ x ∈ states) } ∧
    Same s (register s n states) := by
  induction states with
  | nil =>
    intro s sp h
    refine ⟨?_, Same.refl s⟩
    simp only [register, List.not_mem_nil, and_false, or_false]
    exact h
  | cons x r ih =>
    intro s sp h
    simp only [register]
    generalize hs : ({ s with smap := s.smap.set x (add (entry s.smap x).2 n),
                              nmap := s.nmap.set n (add (entry s.nmap n).2 x) } : St) = s1
    have h1 : Inv s1 { sp with W := fun m y => sp.W m y ∨ (m = n ∧ y = x) } := by
      subst hs
      refine ⟨h.netsN, h.nets, ?_, ?_, ?_, ?_⟩
      · intro m y
        simp only [look_set, entry_snd]
        split
        · rename_i e; subst e
          rw [mem_add, h.sW]; simp
        · rename_i e
          rw [h.sW]; simp [e]
      · intro m y
        simp only [look_set, entry_snd]
        split
        · rename_i e; subst e
          rw [mem_add, h.nW]; simp
        · rename_i e
          rw [h.nW]; simp [e]
      · intro y
        simp only [look_set, entry_snd]
        split
        · exact nodup_add (h.sN _) _
        · exact h.sN _
      · intro y
        simp only [look_set, entry_snd]
        split
        · exact nodup_add (h.nN _) _
        · exact h.nN _
    obtain ⟨h2, h3⟩ := ih s1 _ h1
    refine ⟨?_, Same.trans (by subst hs; exact ⟨rfl, rfl, rfl, rfl⟩) h3⟩
    have e : (fun m y => (sp.W m y ∨ (m = n ∧ y = x)) ∨ (m = n ∧ y ∈ r)) =
        fun m y => sp.W m y ∨ (m = n ∧ y ∈ x :: r) := by
      funext m y
      simp only [List.mem_cons, eq_iff_iff]
      tauto
    rw [← e]
    exact h2

/-- The state map while the states in `left` still have to forget `n`. -/
theorem unregister_ok (n : Nat) (left : List Nat) : ∀ (s : St), left.Nodup → (∀ x ∈ left, n ∈ look s.smap x) →
    (∀ x, (look s.smap x).Nodup) →
    (unregister s n left).2 = .ok ∧ Same s (unregister s n left).1 ∧ (unregister s n left).1.nmap = s.nmap ∧
    (∀ m x, m ∈ look (unregister s n left).1.smap x ↔ m ∈ look s.smap x ∧ ¬ (m = n ∧ x ∈ left)) ∧
    ∀ x, (look (unregister s n left).1.smap x).Nodup := by
  induction left with
  | nil =>
    intro s _ _ hN
    simp only [unregister, List.not_mem_nil, and_false, not_false_iff, and_true]
    exact ⟨trivial, Same.refl s, trivial, fun _ _ => trivial, hN⟩
  | cons x r ih =>
    intro s hnd hm hN
    obtain ⟨hx, hr⟩ := List.nodup_cons.mp hnd
    simp only [unregister, entry_snd]
    rw [if_pos (hm x (by simp))]
    generalize hs : ({ s with smap := (entry s.smap x).1.set x ((look s.smap x).erase n) } : St) = s1
    have e1 : ∀ y, look s1.smap y = if y = x then (look s.smap x).erase n else look s.smap y := by
      intro y; subst hs; simp only [look_set, look_entry]
    obtain ⟨a, b, c, d, e⟩ := ih s1 hr
      (by
        intro y hy
        rw [e1, if_neg (by rintro rfl; exact hx hy)]
        exact hm y (by simp [hy]))
      (by
        intro y; rw [e1]
        split
        · exact (hN x).erase n
        · exact hN y)
    refine ⟨a, Same.trans (by subst hs; exact ⟨rfl, rfl, rfl, rfl⟩) b, c.trans (by subst hs; rfl), ?_, e⟩
    intro m y
    rw [d, e1]
    split
    · rename_i hy; subst hy
      rw [(hN y).mem_erase_iff]
      simp only [List.mem_cons, true_or, and_true]
      tauto
    · rename_i hy
      simp only [List.mem_cons, hy, false_or]

theorem send_same (self : Option Nat) (x : Nat) (v : Int) (l : List Nat) : ∀ (s : St),
    (send s self x v l).1.nets = s.nets ∧ (send s self x v l).1.smap = s.smap ∧ (send s self x v l).1.nmap = s.nmap ∧
    (send s self x v l).1.cur = s.cur ∧ (send s self x v l).1.ended = s.ended := by
  induction l with
  | nil => intro s; exact ⟨rfl, rfl, rfl, rfl, rfl⟩
  | cons n r ih =>
    intro s
    unfold send
    split
    · split
      · exact ih s
      · split
        · exact ⟨rfl, rfl, rfl, rfl, rfl⟩
        · exact ih _
    · exact ⟨rfl, rfl, rfl, rfl, rfl⟩

theorem order_isPerm {l ord : List Nat} {S : Nat → Prop} (hN : l.Nodup) (hS : ∀ x, x ∈ l ↔ S x) :
    ord.isPerm l = true ↔ Order ord S := by
  rw [List.isPerm_iff]
  constructor
  · intro h
    exact ⟨h.nodup_iff.mpr hN, fun x => (h.mem_iff).trans (hS x)⟩
  · rintro ⟨h1, h2⟩
    exact (List.perm_ext_iff_of_nodup h1 hN).mpr (fun x => (h2 x).trans (hS x).symm)

theorem step_inv {s : St} {sp : Sp} (h : Inv s sp) (op : Op) : Inv (step s op).1 (sp.step op) := by
  cases op with
  | addNet n =>
    simp only [step, Sp.step]
    split
    · rename_i hn
      refine ⟨h.netsN, ?_, h.sW, h.nW, h.sN, h.nN⟩
      intro m
      rw [h.nets]
      constructor
      · exact Or.inl
      · rintro (h' | rfl)
        · exact h'
        · exact (h.nets m).mp hn
    · rename_i hn
      refine ⟨?_, ?_, h.sW, h.nW, h.sN, h.nN⟩
      · have := nodup_add h.netsN n
        simpa [add, hn] using this
      · intro m
        simp [h.nets]
  | delNet n =>
    simp only [step, Sp.step]
    split
    · refine ⟨h.netsN.erase n, ?_, h.sW, h.nW, h.sN, h.nN⟩
      intro m
      show m ∈ s.nets.erase n ↔ _
      rw [h.netsN.mem_erase_iff, h.nets]
      tauto
    · rename_i hn
      refine ⟨h.netsN, ?_, h.sW, h.nW, h.sN, h.nN⟩
      intro m
      show m ∈ s.nets ↔ _
      rw [h.nets]
      constructor
      · intro h'
        exact ⟨h', by rintro rfl; exact hn ((h.nets m).mpr h')⟩
      · exact And.left
  | watch n states =>
    simp only [step, Sp.step, addNetwork]
    split
    · rename_i hn
      have := (register_inv n states s sp h).1
      have hn' := (h.nets n).mp hn
      simpa [hn'] using this
    · rename_i hn
      have hn' : ¬ sp.nets n := fun h' => hn ((h.nets n).mpr h')
      simpa [hn'] using h
  | unwatch n ord =>
    simp only [step, Sp.step, removeNetwork, entry_snd]
    split
    · rename_i hn
      have hn' := (h.nets n).mp hn
      have hp := order_isPerm (ord := ord) (h.nN n) (h.nW n)
      split
      · rename_i ho
        have hord := hp.mp ho
        obtain ⟨a, b, c, d, e⟩ := unregister_ok n ord { s with nmap := (entry s.nmap n).1 } hord.1
          (fun x hx => (h.sW n x).mpr ((hord.2 x).mp hx)) h.sN
        rcases hu : unregister { s with nmap := (entry s.nmap n).1 } n ord with ⟨s2, o⟩
        rw [hu] at a b c d e
        dsimp only at a b c d e
        subst a
        dsimp only
        refine ⟨?_, ?_, ?_, ?_, e, ?_⟩
        · dsimp only; rw [b.nets]; exact h.netsN
        · intro m; dsimp only; rw [b.nets]; exact h.nets m
        · intro m x
          dsimp only
          rw [d]
          rw [h.sW]
          constructor
          · rintro ⟨h1, h2⟩
            exact ⟨h1, fun ⟨e1, _, _⟩ => h2 ⟨e1, (hord.2 x).mpr (e1 ▸ h1)⟩⟩
          · rintro ⟨h1, h2⟩
            exact ⟨h1, fun ⟨e1, _⟩ => h2 ⟨e1, hn', hord⟩⟩
        · intro m x
          dsimp only
          rw [look_del, c]
          rw [look_entry]
          split
          · rename_i e1; subst e1
            simp [hn', hord]
          · rename_i e1
            rw [h.nW]; simp [e1]
        · intro m
          dsimp only
          rw [look_del, c]
          rw [look_entry]
          split
          · exact List.nodup_nil
          · exact h.nN m
      · rename_i ho
        have hord : ¬ Order ord (sp.W n) := fun h' => ho (hp.mpr h')
        simpa [hord] using h
    · rename_i hn
      have hn' : ¬ sp.nets n := fun h' => hn ((h.nets n).mpr h')
      simpa [hn'] using h
  | start n p => exact ⟨h.netsN, h.nets, h.sW, h.nW, h.sN, h.nN⟩
  | finish p => exact ⟨h.netsN, h.nets, h.sW, h.nW, h.sN, h.nN⟩
  | change self x v ord =>
    simp only [step, Sp.step, sendChange]
    split
    · exact h
    · split
      · obtain ⟨a, b, c, _, _⟩ := send_same self x v ord s
        exact ⟨by rw [a]; exact h.netsN, by rw [a]; exact h.nets, by rw [b]; exact h.sW, by rw [c]; exact h.nW,
          by rw [b]; exact h.sN, by rw [c]; exact h.nN⟩
      · exact h

theorem run_inv (ops : List Op) : ∀ {s : St} {sp : Sp}, Inv s sp → Inv (run s ops) (Sp.run sp ops) := by
  induction ops with
  | nil => intro s sp h; exact h
  | cons op r ih => intro s sp h; exact ih (step_inv h op)

/-- The interrupts a change of `x` to `v` should send, for the networks in this order. -/
def want (s : St) (x : Nat) (v : Int) (ord : List Nat) : List Sent :=
  ord.filterMap fun n => (s.cur n).map fun p => ⟨n, p, x, v⟩

theorem send_ok (self : Option Nat) (x : Nat) (v : Int) (l : List Nat) : ∀ (s : St), (send s self x v l).2 = .ok →
    (send s self x v l).1.sent = s.sent ++ want s x v l := by
  induction l with
  | nil => intro s _; simp [send, want]
  | cons n r ih =>
    intro s h
    unfold send at h ⊢
    split at h
    · rename_i hn
      rw [if_pos hn]
      cases hc : s.cur n with
      | none =>
        rw [hc] at h
        dsimp only at h ⊢
        rw [ih s h]
        simp [want, hc]
      | some p =>
        rw [hc] at h
        dsimp only at h ⊢
        split at h
        · simp at h
        · rename_i he
          rw [if_neg he, ih _ h]
          simp [want, hc]
    · simp at h

theorem send_succeeds (self : Option Nat) (x : Nat) (v : Int) (l : List Nat) : ∀ (s : St),
    (∀ n ∈ l, n ∈ s.nets ∧ ∀ p, s.cur n = some p → s.ended p = false ∧ self ≠ some p) →
    (send s self x v l).2 = .ok := by
  induction l with
  | nil => intro s _; rfl
  | cons n r ih =>
    intro s h
    unfold send
    obtain ⟨h1, h2⟩ := h n (by simp)
    rw [if_pos h1]
    cases hc : s.cur n with
    | none => exact ih s fun m hm => h m (by simp [hm])
    | some p =>
      obtain ⟨h3, h4⟩ := h2 p hc
      dsimp only
      rw [if_neg (by simp [h3, h4])]
      exact ih _ fun m hm => h m (by simp [hm])

theorem unregister_same (n : Nat) (l : List Nat) : ∀ s : St, Same s (unregister s n l).1 := by
  induction l with
  | nil => intro s; exact Same.refl s
  | cons x r ih =>
    intro s
    simp only [unregister]
    split
    · have h := ih { s with smap := (entry s.smap x).1.set x ((entry s.smap x).2.erase n) }
      exact ⟨h.nets, h.cur, h.ended, h.sent⟩
    · exact ⟨rfl, rfl, rfl, rfl⟩

theorem register_same (n : Nat) (l : List Nat) : ∀ s : St, Same s (register s n l) := by
  induction l with
  | nil => intro s; exact Same.refl s
  | cons x r ih =>
    intro s
    simp only [register]
    have h := ih { s with smap := s.smap.set x (add (entry s.smap x).2 n), nmap := s.nmap.set n (add (entry s.nmap n).2 x) }
    exact ⟨h.nets, h.cur, h.ended, h.sent⟩

theorem step_procs (s : St) (op : Op) (n p : Nat) :
    (step s op).1.cur n = (match op with | .start m p => if n = m then some p else s.cur n | _ => s.cur n) ∧
    (step s op).1.ended p = (match op with | .start _ q => if p = q then false else s.ended p | .finish q => if p = q then true else s.ended p | _ => s.ended p) := by
  cases op with
  | addNet m => simp only [step]; split <;> exact ⟨rfl, rfl⟩
  | delNet m => simp only [step]; split <;> exact ⟨rfl, rfl⟩
  | watch m l =>
    simp only [step, addNetwork]
    split
    · have := register_same m l s
      exact ⟨by rw [this.cur], by rw [this.ended]⟩
    · exact ⟨rfl, rfl⟩
  | unwatch m l =>
    simp only [step, removeNetwork]
    split
    · split
      · have := unregister_same m l { s with nmap := (entry s.nmap m).1 }
        split
        · rename_i h; rw [h] at this; exact ⟨by dsimp only at this ⊢; rw [this.cur], by dsimp only at this ⊢; rw [this.ended]⟩
        · rename_i h; rw [h] at this; exact ⟨by dsimp only at this ⊢; rw [this.cur], by dsimp only at this ⊢; rw [this.ended]⟩
      · exact ⟨rfl, rfl⟩
    · exact ⟨rfl, rfl⟩
  | start m q => exact ⟨rfl, rfl⟩
  | finish q => exact ⟨rfl, rfl⟩
  | change self x v ord =>
    simp only [step, sendChange]
    split
    · exact ⟨rfl, rfl⟩
    · split
      · obtain ⟨-, -, -, a, b⟩ := send_same self x v ord s
        exact ⟨by rw [a], by rw [b]⟩
      · exact ⟨rfl, rfl⟩

theorem run_procs (ops : List Op) (n p : Nat) : (run init ops).cur n = Doing ops n ∧ (run init ops).ended p = Over ops p := by
  have key : ∀ (ops : List Op) (s : St),
      (run s ops).cur n = ops.foldl (fun c op => match op with | .start m p => if n = m then some p else c | _ => c) (s.cur n) ∧
      (run s ops).ended p = ops.foldl (fun c op => match op with | .start _ q => if p = q then false else c | .finish q => if p = q then true else c | _ => c) (s.ended p) := by
    intro ops
    induction ops with
    | nil => intro s; exact ⟨rfl, rfl⟩
    | cons op r ih =>
      intro s
      obtain ⟨h1, h2⟩ := ih (step s op).1
      obtain ⟨h3, h4⟩ := step_procs s op n p
      rw [h3] at h1
      rw [h4] at h2
      simp only [List.foldl_cons]
      exact ⟨h1, h2⟩
  exact key ops init

/-! ## The theorems -/

/-- **C31 (exactly the watching networks).** After any operations, a change of state `x` to `v` that does not fail has sent
exactly these new interrupts: one for each network that watches `x` and has a current process, to that process, with the
name and the value. -/
theorem c31_interrupts (ops : List Op) (self : Option Nat) (x : Nat) (v : Int) (ord : List Nat)
    (h : (step (run init ops) (.change self x v ord)).2 = .ok) :
    ∃ new : List Sent, (step (run init ops) (.change self x v ord)).1.sent = (run init ops).sent ++ new ∧ new.Nodup ∧
      (new.map (·.net)).Nodup ∧
      ∀ e, e ∈ new ↔ Watching ops e.net x ∧ Doing ops e.net = some e.proc ∧ e.state = x ∧ e.value = v := by
  simp only [← fun n => (run_procs ops n 0).1]
  have inv := run_inv ops init_inv
  generalize run init ops = s at inv h ⊢
  have key : ∀ l : List Nat, l.Nodup → (∀ n, n ∈ l ↔ Watching ops n x) → (want s x v l).Nodup ∧
      ((want s x v l).map (·.net)).Nodup ∧ ∀ e : Sent, e ∈ want s x v l ↔
        Watching ops e.net x ∧ s.cur e.net = some e.proc ∧ e.state = x ∧ e.value = v := by
    intro l hl hw
    have hs : ((want s x v l).map (·.net)).Sublist l := by
      clear hw hl
      induction l with
      | nil => simp [want]
      | cons n r ih =>
        unfold want at ih ⊢
        cases hc : s.cur n with
        | none => simpa [hc] using ih.cons n
        | some p => simpa [hc] using ih
    refine ⟨(hs.nodup hl).of_map, hs.nodup hl, ?_⟩
    rintro ⟨n, p, y, z⟩
    simp only [want, List.mem_filterMap, Option.map_eq_some_iff, Sent.mk.injEq]
    constructor
    · rintro ⟨m, hm, q, hq, rfl, rfl, rfl, rfl⟩
      exact ⟨(hw m).mp hm, hq, rfl, rfl⟩
    · rintro ⟨h1, h2, rfl, rfl⟩
      exact ⟨n, (hw n).mpr h1, p, h2, rfl, rfl, rfl, rfl⟩
  simp only [step, sendChange] at h ⊢
  split at h
  · rename_i hl
    refine ⟨[], by simp, List.nodup_nil, List.nodup_nil, ?_⟩
    intro e
    have := inv.sW e.net x
    simp only [look, hl, Option.getD_none, List.not_mem_nil, false_iff] at this
    simp only [List.not_mem_nil, false_iff]
    rintro ⟨hw, _⟩
    exact this hw
  · rename_i l hl
    split at h
    · rename_i ho
      rw [if_pos ho]
      have hN := inv.sN x
      have hW := fun n => inv.sW n x
      simp only [look, hl, Option.getD_some] at hN hW
      have hord := (order_isPerm hN hW).mp ho
      obtain ⟨k1, k2, k3⟩ := key ord hord.1 hord.2
      exact ⟨_, send_ok self x v ord s h, k1, k2, k3⟩
    · simp at h

/-- **C31 (when it does not fail).** If every network that watches `x` is on the actor and its current process, if any, is
neither over nor the one that makes the change, the change does not fail, in whatever order the set is gone through. -/
theorem c31_succeeds (ops : List Op) (self : Option Nat) (x : Nat) (v : Int) (ord : List Nat)
    (ho : Order ord (fun n => Watching ops n x))
    (hw : ∀ n, Watching ops n x → (Sp.run Sp.init ops).nets n ∧
      ∀ p, Doing ops n = some p → Over ops p = false ∧ self ≠ some p) :
    (step (run init ops) (.change self x v ord)).2 = .ok := by
  simp only [← fun n => (run_procs ops n 0).1, ← fun p => (run_procs ops 0 p).2] at hw
  have inv := run_inv ops init_inv
  generalize run init ops = s at inv hw ⊢
  simp only [step, sendChange]
  split
  · rfl
  · rename_i l hl
    have hN := inv.sN x
    have hW := fun n => inv.sW n x
    simp only [look, hl, Option.getD_some] at hN hW
    rw [if_pos ((order_isPerm hN hW).mpr ho)]
    refine send_succeeds self x v ord s fun n hn => ?_
    obtain ⟨h1, h2⟩ := hw n ((ho.2 n).mp hn)
    exact ⟨(inv.nets n).mpr h1, h2⟩

/-- **C31 (other states).** A change of a state nobody watches does nothing and does not fail. -/
theorem c31_unwatched (ops : List Op) (self : Option Nat) (x : Nat) (v : Int) (hx : ∀ n, ¬ Watching ops n x) :
    step (run init ops) (.change self x v []) = (run init ops, .ok) := by
  have inv := run_inv ops init_inv
  generalize run init ops = s at inv ⊢
  simp only [step, sendChange]
  split
  · rfl
  · rename_i l hl
    have hN := inv.sN x
    have hW := fun n => inv.sW n x
    simp only [look, hl, Option.getD_some] at hN hW
    rw [if_pos ((order_isPerm (ord := []) hN hW).mpr ⟨List.nodup_nil, fun n => by
      simp only [List.not_mem_nil, false_iff]; exact hx n⟩)]
    rfl

theorem Sp.run_append (sp : Sp) (a b : List Op) : Sp.run sp (a ++ b) = Sp.run (Sp.run sp a) b := by
  induction a generalizing sp with
  | nil => rfl
  | cons op r ih => exact ih _

theorem run_append (s : St) (a b : List Op) : run s (a ++ b) = run (run s a) b := by
  induction a generalizing s with
  | nil => rfl
  | cons op r ih => exact ih _

/-- **C31 (removing works).** Removing a network that the actor has does not fail, whether or not it watches anything. -/
theorem c31_remove_ok (ops : List Op) (n : Nat) (ord : List Nat) (hn : (Sp.run Sp.init ops).nets n)
    (ho : Order ord (Watching ops n)) : (step (run init ops) (.unwatch n ord)).2 = .ok := by
  have inv := run_inv ops init_inv
  generalize run init ops = s at inv ⊢
  simp only [step, removeNetwork, entry_snd]
  rw [if_pos ((inv.nets n).mpr hn), if_pos ((order_isPerm (inv.nN n) (inv.nW n)).mpr ho)]
  obtain ⟨a, _⟩ := unregister_ok n ord { s with nmap := (entry s.nmap n).1 } ho.1
    (fun x hx => (inv.sW n x).mpr ((ho.2 x).mp hx)) inv.sN
  rcases hu : unregister { s with nmap := (entry s.nmap n).1 } n ord with ⟨s2, o⟩
  rw [hu] at a
  dsimp only at a
  subst a
  rfl

/-- **C31 (removed).** After a network was removed, and as long as it is not added again, it watches nothing, so no change
interrupts it (with `c31_interrupts`); what the others watch is what it would have been without the removal. -/
theorem c31_removed (ops more : List Op) (n : Nat) (ord : List Nat) (hn : (Sp.run Sp.init ops).nets n)
    (ho : Order ord (Watching ops n)) (hm : ∀ states, Op.watch n states ∉ more) :
    (∀ x, ¬ Watching (ops ++ .unwatch n ord :: more) n x) ∧
    ∀ m x, m ≠ n → (Watching (ops ++ .unwatch n ord :: more) m x ↔ Watching (ops ++ more) m x) := by
  have key : ∀ (more : List Op) (a b : Sp), a.nets = b.nets → (∀ x, ¬ a.W n x) → (∀ m x, m ≠ n → (a.W m x ↔ b.W m x)) →
      (∀ states, Op.watch n states ∉ more) →
      (∀ x, ¬ (Sp.run a more).W n x) ∧ ∀ m x, m ≠ n → ((Sp.run a more).W m x ↔ (Sp.run b more).W m x) := by
    intro more
    induction more with
    | nil => intro a b _ h2 h3 _; exact ⟨h2, h3⟩
    | cons op r ih =>
      intro a b h1 h2 h3 h4
      refine ih (a.step op) (b.step op) ?_ ?_ ?_ (fun st hs => h4 st (List.mem_cons_of_mem _ hs))
      · cases op <;> simp [Sp.step, h1]
      · intro x
        cases op with
        | watch k states =>
          simp only [Sp.step, not_or]
          refine ⟨h2 x, ?_⟩
          rintro ⟨rfl, _⟩
          exact h4 states (by simp)
        | unwatch k o => simp only [Sp.step]; exact fun h => h2 x h.1
        | _ => exact h2 x
      · intro m x hmn
        cases op with
        | watch k states => simp only [Sp.step, h1, h3 m x hmn]
        | unwatch k o =>
          simp only [Sp.step, h3 m x hmn, h1]
          by_cases hk : m = k
          · subst hk
            have : a.W m = b.W m := funext fun y => propext (h3 m y hmn)
            rw [this]
          · simp [hk]
        | _ => exact h3 m x hmn
  unfold Watching
  rw [Sp.run_append, Sp.run_append]
  simp only [Sp.run]
  refine key more _ _ rfl ?_ ?_ hm
  · intro x
    rintro ⟨_, h⟩
    exact h ⟨rfl, hn, ho⟩
  · intro m x hmn
    simp [Sp.step, hmn]

/-! ## Cases -/

/-- Two networks with running tasks watch state 7, one of them also state 8; a third one is removed again. -/
def sample : List Op :=
  [.addNet 1, .addNet 2, .addNet 3, .start 1 10, .start 2 20, .start 3 30, .watch 1 [7, 8], .watch 2 [7], .watch 3 [7, 8],
    .unwatch 3 [8, 7]]

example : (step (run init sample) (.change none 7 5 [2, 1])).2 = .ok ∧
    (step (run init sample) (.change none 7 5 [2, 1])).1.sent = [⟨2, 20, 7, 5⟩, ⟨1, 10, 7, 5⟩] ∧
    (step (run init sample) (.change none 8 5 [1])).1.sent = [⟨1, 10, 8, 5⟩] ∧
    (step (run init sample) (.change none 9 5 [])).1.sent = [] := by decide +kernel

example : Watching sample 1 7 ∧ Watching sample 2 7 ∧ ¬ Watching sample 3 7 ∧ ¬ Watching sample 2 8 := by
  have inv := run_inv sample init_inv
  refine ⟨(inv.sW _ _).mp (by decide +kernel), (inv.sW _ _).mp (by decide +kernel), fun h => ?_, fun h => ?_⟩
  · exact absurd ((inv.sW _ _).mpr h) (by decide +kernel)
  · exact absurd ((inv.sW _ _).mpr h) (by decide +kernel)

example : Order [8, 7] (Watching [.addNet 3, .watch 3 [7, 8]] 3) := by
  refine ⟨by decide, fun x => ?_⟩
  simp [Watching, Sp.run, Sp.step, Sp.init]
  omega

/-! ## Where the code does not keep the property -/

/-- A network deleted from the actor that watches a state: the change fails, other networks that watch it may not be told,
and the network cannot be removed from the nucleus any more. -/
theorem c31_deleted_network : ∃ ops : List Op, Watching ops 2 7 ∧ Doing ops 2 = some 20 ∧
    Over ops 20 = false ∧ (Sp.run Sp.init ops).nets 2 ∧
    (step (run init ops) (.change none 7 5 [1, 2])).2 = .raised ∧
    (step (run init ops) (.change none 7 5 [1, 2])).1.sent = [] ∧
    ∀ ord, (step (run init ops) (.unwatch 1 ord)).2 = .raised := by
  refine ⟨[.addNet 1, .addNet 2, .start 1 10, .start 2 20, .watch 1 [7], .watch 2 [7], .delNet 1], ?_, by decide +kernel,
    by decide +kernel, ?_, by decide +kernel, by decide +kernel, fun ord => rfl⟩
  · simp [Watching, Sp.run, Sp.step, Sp.init]
  · simp [Sp.run, Sp.step, Sp.init]

/-- A task that changes a state its own network watches fails, since a process cannot interrupt itself. -/
theorem c31_own_network : ∃ ops : List Op, Watching ops 1 7 ∧ (Sp.run Sp.init ops).nets 1 ∧ Doing ops 1 = some 10 ∧
    Over ops 10 = false ∧ (step (run init ops) (.change (some 10) 7 5 [1])).2 = .raised := by
  refine ⟨[.addNet 1, .start 1 10, .watch 1 [7]], ?_, ?_, by decide +kernel, by decide +kernel, by decide +kernel⟩
  · simp [Watching, Sp.run, Sp.step, Sp.init]
  · simp [Sp.run, Sp.step, Sp.init]

/-- Between the end of a task and the start of the next one as a process, the network still has the process that is over:
a change made then fails. This is where `make_decision` of a decision task with `DO_NOT_HOLD` runs. -/
theorem c31_between_tasks : ∃ ops : List Op, Watching ops 1 7 ∧ (Sp.run Sp.init ops).nets 1 ∧
    (step (run init ops) (.change none 7 5 [1])).2 = .raised := by
  refine ⟨[.addNet 1, .start 1 10, .watch 1 [7], .finish 10], ?_, ?_, by decide +kernel⟩
  · simp [Watching, Sp.run, Sp.step, Sp.init]
  · simp [Sp.run, Sp.step, Sp.init]

end Verif.Nucleus
