import Verif.Event.Model

/-!
# Invariant of the Event model
-/

namespace Verif.Event

open Verif

variable {P V : Type}

@[simp] theorem upd_self {α : Type} (f : Nat → α) (i : Nat) (x : α) : upd f i x i = x := by simp [upd]

theorem upd_ne {α : Type} (f : Nat → α) {i j : Nat} (x : α) (h : j ≠ i) : upd f i x j = f j := by simp [upd, h]

/-- Well-formed states; `T` lists the armings triggered so far. -/
structure Inv (s : St P V) (T : List Nat) : Prop where
  cur_ok : ∀ e, e < s.nEv → s.cur e < s.nSim ∧ s.owner (s.cur e) = e
  own_ok : ∀ i, i < s.nSim → s.owner i < s.nEv
  wtr : ∀ i w, w ∈ s.waiters i → i < s.nSim ∧ s.waiting w = some (s.owner i, i) ∧ s.status i ≠ .processed
  rdy : ∀ w e i, (w, e, i) ∈ s.ready →
    s.waiting w = some (e, i) ∧ i < s.nSim ∧ s.owner i = e ∧ s.status i = .processed
  wait : ∀ w e i, s.waiting w = some (e, i) → w ∈ s.waiters i ∨ (w, e, i) ∈ s.ready
  wnd : ∀ i, (s.waiters i).Nodup
  rnd : (s.ready.map Prod.fst).Nodup
  kn : ∀ k e, (k, .ev e) ∈ s.know → e < s.nEv
  trig : ∀ i, i ∈ T ↔ i < s.nSim ∧ s.status i ≠ .pending
  tnd : T.Nodup

theorem Inv.init (p0 : P) : Inv (init p0 : St P V) [] where
  cur_ok := by simp [Event.init]
  own_ok := by simp [Event.init]
  wtr := by simp [Event.init]
  rdy := by simp [Event.init]
  wait := by simp [Event.init]
  wnd := by simp [Event.init]
  rnd := by simp [Event.init]
  kn := by simp [Event.init]
  trig := by simp [Event.init]
  tnd := by simp

theorem Inv.knowing {s : St P V} {T : List Nat} (h : Inv s T) (k : Dict String (Val V))
    (hk : ∀ n e, (n, .ev e) ∈ k → e < s.nEv) : Inv { s with know := k } T :=
  ⟨h.cur_ok, h.own_ok, h.wtr, h.rdy, h.wait, h.wnd, h.rnd, hk, h.trig, h.tnd⟩

theorem Inv.paying {s : St P V} {T : List Nat} (h : Inv s T) (f : Nat → P) : Inv { s with pay := f } T :=
  ⟨h.cur_ok, h.own_ok, h.wtr, h.rdy, h.wait, h.wnd, h.rnd, h.kn, h.trig, h.tnd⟩

/-- Arming an event, possibly one just created. -/
theorem Inv.armed {s s' : St P V} {T : List Nat} (h : Inv s T) (e : Nat)
    (h1 : s'.nSim = s.nSim + 1) (h2 : s'.owner = upd s.owner s.nSim e)
    (h3 : s'.status = upd s.status s.nSim .pending) (h4 : s'.waiters = upd s.waiters s.nSim [])
    (h5 : s'.cur = upd s.cur e s.nSim) (h6 : s'.waiting = s.waiting) (h7 : s'.ready = s.ready)
    (h8 : s'.know = s.know) (h9 : s.nEv ≤ s'.nEv) (he : e < s'.nEv) (hne : ∀ e', e' < s'.nEv → e' ≠ e → e' < s.nEv) :
    Inv s' T where
  cur_ok := by
    intro e' he'
    rw [h5, h1, h2]
    by_cases hee : e' = e
    · subst hee; simp
    · rw [upd_ne _ _ hee]
      have := h.cur_ok e' (hne e' he' hee)
      rw [upd_ne _ _ (by omega)]
      exact ⟨by omega, this.2⟩
  own_ok := by
    intro i hi
    rw [h2]
    by_cases hi' : i = s.nSim
    · subst hi'; simpa using he
    · rw [upd_ne _ _ hi']
      have := h.own_ok i (by omega)
      omega
  wtr := by
    intro i w hw
    rw [h4] at hw
    by_cases hi' : i = s.nSim
    · subst hi'; simp at hw
    · rw [upd_ne _ _ hi'] at hw
      have := h.wtr i w hw
      rw [h2, h3, h6, upd_ne _ _ hi', upd_ne _ _ hi', h1]
      exact ⟨by omega, this.2⟩
  rdy := by
    intro w e' i hi
    rw [h7] at hi
    have := h.rdy w e' i hi
    have hi' : i ≠ s.nSim := by omega
    rw [h2, h3, h6, upd_ne _ _ hi', upd_ne _ _ hi', h1]
    exact ⟨this.1, by omega, this.2.2⟩
  wait := by
    intro w e' i hi
    rw [h6] at hi
    rw [h7, h4]
    rcases h.wait w e' i hi with hw | hw
    · left
      have := (h.wtr i w hw).1
      rw [upd_ne _ _ (by omega)]; exact hw
    · exact Or.inr hw
  wnd := by
    intro i
    rw [h4]
    by_cases hi' : i = s.nSim
    · subst hi'; simp
    · rw [upd_ne _ _ hi']; exact h.wnd i
  rnd := by rw [h7]; exact h.rnd
  kn := by
    intro k e' hk
    rw [h8] at hk
    have := h.kn k e' hk
    omega
  trig := by
    intro i
    rw [h.trig, h1, h3]
    by_cases hi' : i = s.nSim
    · subst hi'; simp
    · rw [upd_ne _ _ hi']
      constructor <;> (rintro ⟨a, b⟩; exact ⟨by omega, b⟩)
  tnd := h.tnd

theorem Inv.arm {s : St P V} {T : List Nat} (h : Inv s T) {e : Nat} (he : e < s.nEv) : Inv (arm s e) T :=
  h.armed e rfl rfl rfl rfl rfl rfl rfl rfl (Nat.le_refl _) he (fun _ h _ => h)

theorem Inv.create {s : St P V} {T : List Nat} (h : Inv s T) (p0 : P) (a : Bool) : Inv (create p0 s a).1 T :=
  h.armed s.nEv rfl rfl rfl rfl rfl rfl rfl rfl (by simp [Event.create, Event.arm]) (by simp [Event.create, Event.arm])
    (by intro e' h1 h2; simp [Event.create, Event.arm] at h1; omega)

theorem Inv.triggered {s : St P V} {T : List Nat} (h : Inv s T) {i : Nat} (hi : i < s.nSim)
    (hp : s.status i = .pending) : Inv { s with status := upd s.status i .triggered } (T ++ [i]) where
  cur_ok := h.cur_ok
  own_ok := h.own_ok
  wtr := by
    intro j w hw
    have := h.wtr j w hw
    refine ⟨this.1, this.2.1, ?_⟩
    simp only [upd]
    split
    · simp
    · exact this.2.2
  rdy := by
    intro w e j hj
    have := h.rdy w e j hj
    refine ⟨this.1, this.2.1, this.2.2.1, ?_⟩
    simp only
    rw [upd_ne]
    · exact this.2.2.2
    · rintro rfl; rw [hp] at this; simp at this
  wait := h.wait
  wnd := h.wnd
  rnd := h.rnd
  kn := h.kn
  trig := by
    intro j
    simp only [List.mem_append, List.mem_singleton]
    rw [h.trig]
    by_cases hj : j = i
    · subst hj; simp [hi]
    · rw [upd_ne _ _ hj]; simp [hj]
  tnd := by
    rw [List.nodup_append]
    refine ⟨h.tnd, by simp, ?_⟩
    intro a ha b hb
    simp only [List.mem_singleton] at hb
    subst hb
    rintro rfl
    exact ((h.trig a).1 ha).2 hp

theorem Inv.waits {s : St P V} {T : List Nat} (h : Inv s T) {w e : Nat} (he : e < s.nEv)
    (hw : s.waiting w = none) (hp : s.status (s.cur e) ≠ .processed) :
    Inv { s with waiters := upd s.waiters (s.cur e) (s.waiters (s.cur e) ++ [w]),
                 waiting := upd s.waiting w (some (e, s.cur e)) } T where
  cur_ok := h.cur_ok
  own_ok := h.own_ok
  wtr := by
    intro i v hv
    simp only at hv ⊢
    have hc := h.cur_ok e he
    have old : v ∈ s.waiters i → i < s.nSim ∧ upd s.waiting w (some (e, s.cur e)) v = some (s.owner i, i) ∧
        s.status i ≠ .processed := by
      intro hv
      have := h.wtr i v hv
      have hne : v ≠ w := by rintro rfl; rw [hw] at this; simp at this
      rw [upd_ne _ _ hne]; exact this
    by_cases hi : i = s.cur e
    · subst hi
      simp only [upd_self, List.mem_append, List.mem_singleton] at hv
      rcases hv with hv | rfl
      · exact old hv
      · exact ⟨hc.1, by rw [upd_self, hc.2], hp⟩
    · rw [upd_ne _ _ hi] at hv
      exact old hv
  rdy := by
    intro v e' i hi
    have := h.rdy v e' i hi
    have hne : v ≠ w := by rintro rfl; rw [hw] at this; simp at this
    simp only
    rw [upd_ne _ _ hne]; exact this
  wait := by
    intro v e' i hv
    simp only at hv ⊢
    by_cases hne : v = w
    · subst hne
      simp only [upd_self, Option.some.injEq, Prod.mk.injEq] at hv
      obtain ⟨rfl, rfl⟩ := hv
      left; simp
    · rw [upd_ne _ _ hne] at hv
      rcases h.wait v e' i hv with h1 | h1
      · left
        by_cases hi : i = s.cur e
        · subst hi; simp [h1]
        · rw [upd_ne _ _ hi]; exact h1
      · exact Or.inr h1
  wnd := by
    intro i
    simp only
    by_cases hi : i = s.cur e
    · subst hi
      rw [upd_self, List.nodup_append]
      refine ⟨h.wnd _, by simp, ?_⟩
      intro a ha b hb
      simp only [List.mem_singleton] at hb
      subst hb
      rintro rfl
      have := h.wtr _ a ha
      rw [hw] at this; simp at this
    · rw [upd_ne _ _ hi]; exact h.wnd i
  rnd := h.rnd
  kn := h.kn
  trig := h.trig
  tnd := h.tnd

theorem Inv.process {s : St P V} {T : List Nat} (h : Inv s T) {i : Nat} (hi : i < s.nSim) (hr : s.ready = [])
    (hp : s.status i = .triggered) :
    Inv { s with status := upd s.status i .processed, waiters := upd s.waiters i [],
                 ready := (s.waiters i).map (fun w => (w, s.owner i, i)) } T where
  cur_ok := h.cur_ok
  own_ok := h.own_ok
  wtr := by
    intro j w hw
    simp only at hw ⊢
    by_cases hj : j = i
    · subst hj; simp at hw
    · rw [upd_ne _ _ hj] at hw ⊢
      exact h.wtr j w hw
  rdy := by
    intro w e j hj
    simp only [List.mem_map, Prod.mk.injEq] at hj
    obtain ⟨v, hv, rfl, rfl, rfl⟩ := hj
    have := h.wtr i v hv
    exact ⟨this.2.1, this.1, rfl, by simp⟩
  wait := by
    intro w e j hw
    simp only at hw ⊢
    rcases h.wait w e j hw with h1 | h1
    · by_cases hj : j = i
      · subst hj
        right
        have := (h.wtr j w h1).2.1
        rw [hw] at this
        simp only [Option.some.injEq, Prod.mk.injEq] at this
        simp only [List.mem_map, Prod.mk.injEq]
        exact ⟨w, h1, rfl, this.1.symm, trivial⟩
      · left; rw [upd_ne _ _ hj]; exact h1
    · rw [hr] at h1; simp at h1
  wnd := by
    intro j
    simp only
    by_cases hj : j = i
    · subst hj; simp
    · rw [upd_ne _ _ hj]; exact h.wnd j
  rnd := by
    simp only [List.map_map]
    have : (Prod.fst ∘ fun w => (w, s.owner i, i)) = (id : Nat → Nat) := rfl
    rw [this, List.map_id]
    exact h.wnd i
  kn := h.kn
  trig := by
    intro j
    rw [h.trig]
    simp only
    by_cases hj : j = i
    · subst hj; simp [hp]
    · rw [upd_ne _ _ hj]
  tnd := h.tnd

theorem Inv.resumed {s : St P V} {T : List Nat} (h : Inv s T) {w e i : Nat} {r : List (Nat × Nat × Nat)}
    (hr : s.ready = (w, e, i) :: r) : Inv { s with ready := r, waiting := upd s.waiting w none } T := by
  have hnd := h.rnd
  rw [hr] at hnd
  simp only [List.map_cons, List.nodup_cons, List.mem_map, not_exists, not_and] at hnd
  have hw := h.rdy w e i (by rw [hr]; simp)
  exact {
    cur_ok := h.cur_ok
    own_ok := h.own_ok
    wtr := by
      intro j v hv
      simp only at hv ⊢
      have := h.wtr j v hv
      have hne : v ≠ w := by
        rintro rfl
        rw [hw.1] at this
        simp only [Option.some.injEq, Prod.mk.injEq] at this
        obtain ⟨_, ⟨_, rfl⟩, h3⟩ := this
        exact h3 hw.2.2.2
      rw [upd_ne _ _ hne]; exact this
    rdy := by
      intro v e' j hj
      simp only at hj ⊢
      have := h.rdy v e' j (by rw [hr]; exact List.mem_cons_of_mem _ hj)
      have hne : v ≠ w := by rintro rfl; exact hnd.1 _ hj rfl
      rw [upd_ne _ _ hne]; exact this
    wait := by
      intro v e' j hv
      simp only at hv ⊢
      by_cases hne : v = w
      · subst hne; simp at hv
      · rw [upd_ne _ _ hne] at hv
        rcases h.wait v e' j hv with h1 | h1
        · exact Or.inl h1
        · rw [hr] at h1
          rcases List.mem_cons.1 h1 with h2 | h2
          · simp only [Prod.mk.injEq] at h2; exact absurd h2.1 hne
          · exact Or.inr h2
    wnd := h.wnd
    rnd := hnd.2
    kn := h.kn
    trig := h.trig
    tnd := h.tnd }

theorem Inv.removed {s : St P V} {T : List Nat} (h : Inv s T) {w e i : Nat} (hr : s.ready = [])
    (hw : s.waiting w = some (e, i)) :
    Inv { s with waiters := upd s.waiters i ((s.waiters i).erase w), waiting := upd s.waiting w none } T where
  cur_ok := h.cur_ok
  own_ok := h.own_ok
  wtr := by
    intro j v hv
    simp only at hv ⊢
    have hv' : v ∈ s.waiters j ∧ v ≠ w := by
      by_cases hj : j = i
      · subst hj
        rw [upd_self] at hv
        have := (List.Nodup.mem_erase_iff (h.wnd j)).1 hv
        exact ⟨this.2, this.1⟩
      · rw [upd_ne _ _ hj] at hv
        refine ⟨hv, ?_⟩
        rintro rfl
        have := h.wtr j v hv
        rw [hw] at this
        simp only [Option.some.injEq, Prod.mk.injEq] at this
        exact hj this.2.1.2.symm
    rw [upd_ne _ _ hv'.2]
    exact h.wtr j v hv'.1
  rdy := by intro v e' j hj; simp only at hj; rw [hr] at hj; simp at hj
  wait := by
    intro v e' j hv
    simp only at hv ⊢
    by_cases hne : v = w
    · subst hne; simp at hv
    · rw [upd_ne _ _ hne] at hv
      rcases h.wait v e' j hv with h1 | h1
      · left
        by_cases hj : j = i
        · subst hj
          rw [upd_self]
          exact (List.Nodup.mem_erase_iff (h.wnd j)).2 ⟨hne, h1⟩
        · rw [upd_ne _ _ hj]; exact h1
      · exact Or.inr h1
  wnd := by
    intro j
    simp only
    by_cases hj : j = i
    · subst hj; rw [upd_self]; exact (h.wnd j).erase w
    · rw [upd_ne _ _ hj]; exact h.wnd j
  rnd := h.rnd
  kn := h.kn
  trig := h.trig
  tnd := h.tnd

/-! ## Knowledge operations keep stored events valid -/

/-- Every event stored in the knowledge is below `n`. -/
def EvsBelow (n : Nat) (d : Dict String (Val V)) : Prop := ∀ k e, (k, .ev e) ∈ d → e < n

theorem EvsBelow.set {n : Nat} {d : Dict String (Val V)} (h : EvsBelow n d) {k : String} {v : Val V}
    (hv : ∀ e, v = .ev e → e < n) : EvsBelow n (d.set k v) := by
  intro k' e hk
  rcases Dict.mem_set hk with hk | hk
  · simp only [Prod.mk.injEq] at hk
    exact hv e hk.2.symm
  · exact h k' e hk

theorem EvsBelow.del {n : Nat} {d : Dict String (Val V)} (h : EvsBelow n d) (k : String) : EvsBelow n (d.del k) := by
  intro k' e hk
  exact h k' e (List.mem_filter.1 hk).1

theorem EvsBelow.setK {n : Nat} {d : Dict String (Val V)} (h : EvsBelow n d) {k : String} {v : Val V} (o : Bool)
    (hv : ∀ e, v = .ev e → e < n) : EvsBelow n (Know.setK d k v o).1 := by
  unfold Know.setK
  split
  · exact h
  · exact h.set hv

theorem EvsBelow.clearK {n : Nat} {d : Dict String (Val V)} (h : EvsBelow n d) (k : String) :
    EvsBelow n (Know.clearK d k).1 := by
  unfold Know.clearK
  split
  · exact h
  · exact h.del k

theorem EvsBelow.getClear {n : Nat} {d : Dict String (Val V)} (h : EvsBelow n d) (k : String) :
    EvsBelow n (Know.getClear d k).1 := by
  have hc := h.clearK k
  unfold Know.getClear
  split
  · split
    · rename_i heq; rw [heq] at hc; exact hc
    · rename_i heq; rw [heq] at hc; exact hc
  · exact h

theorem EvsBelow.setBulk {n : Nat} (kv : List (String × Val V)) (o : Bool) : ∀ {d : Dict String (Val V)},
    EvsBelow n d → (∀ p ∈ kv, ∀ e, p.2 = .ev e → e < n) → EvsBelow n (Know.setBulk d kv o).1 := by
  induction kv with
  | nil => intro d h _; exact h
  | cons p kv ih =>
    intro d h hv
    obtain ⟨k, v⟩ := p
    have h1 := h.setK (k := k) (v := v) o (fun e he => hv (k, v) (by simp) e he)
    simp only [Know.setBulk]
    split
    · rename_i d1 heq
      rw [heq] at h1
      exact ih h1 (fun p hp => hv p (List.mem_cons_of_mem _ hp))
    · rename_i d1 o hx heq
      rw [heq] at h1; exact h1

theorem EvsBelow.clearBulk {n : Nat} (ns : List String) : ∀ {d : Dict String (Val V)},
    EvsBelow n d → EvsBelow n (Know.clearBulk d ns).1 := by
  induction ns with
  | nil => intro d h; exact h
  | cons k ns ih =>
    intro d h
    have h1 := h.clearK k
    simp only [Know.clearBulk]
    split
    · rename_i d1 heq
      rw [heq] at h1
      exact ih h1
    · rename_i d1 o hx heq
      rw [heq] at h1; exact h1

theorem EvsBelow.getClearBulk {n : Nat} (ns : List String) : ∀ {d : Dict String (Val V)} {acc},
    EvsBelow n d → EvsBelow n (Know.getClearBulk d ns acc).1 := by
  induction ns with
  | nil => intro d _ h; exact h
  | cons k ns ih =>
    intro d _ h
    have h1 := h.getClear k
    simp only [Know.getClearBulk]
    split
    · rename_i d1 v heq
      rw [heq] at h1
      exact ih h1
    · rename_i d1 o hx heq
      rw [heq] at h1; exact h1

theorem EvsBelow.step {s : St P V} {op : Know.Op String (Val V)} (h : EvsBelow s.nEv s.know) (hk : known s op = true) :
    EvsBelow s.nEv (Know.step s.know op).1 := by
  cases op with
  | get n m => exact h
  | set n v o =>
    refine h.setK o ?_
    intro e he
    subst he
    simpa [known] using hk
  | clear n => exact h.clearK n
  | getClear n => exact h.getClear n
  | setBulk kv o =>
    refine EvsBelow.setBulk kv o h ?_
    intro p hp e he
    simp only [known, List.all_eq_true] at hk
    have := hk p hp
    rw [he] at this
    simpa using this
  | clearBulk ns => exact EvsBelow.clearBulk ns h
  | getBulk ns m => exact h
  | getClearBulk ns => exact EvsBelow.getClearBulk ns h

/-! ## All steps -/

/-- The arming a call triggered. -/
def trigOf : Out P V → List Nat
  | .triggered _ i => [i]
  | .cancelled _ i => [i]
  | _ => []

theorem Inv.succeed {s : St P V} {T : List Nat} (h : Inv s T) {e : Nat} (he : e < s.nEv) (p : P) :
    Inv (succeed s e p).1 (T ++ trigOf (succeed s e p).2) := by
  unfold Event.succeed
  split
  · simpa [trigOf] using h
  · simp only
    split
    · rename_i hp
      exact (h.paying (upd s.pay e p)).triggered (h.cur_ok e he).1 hp
    · simpa [trigOf] using h.paying (upd s.pay e p)

theorem Inv.cancel {s : St P V} {T : List Nat} (h : Inv s T) {e : Nat} (he : e < s.nEv) :
    Inv (cancel s e).1 (T ++ trigOf (cancel s e).2) := by
  unfold Event.cancel
  split
  · rename_i hp
    exact h.triggered (h.cur_ok e he).1 hp
  · simpa [trigOf] using h

theorem Inv.interrupt {s : St P V} {T : List Nat} (h : Inv s T) (w : Nat) :
    Inv (interrupt s w).1 (T ++ trigOf (interrupt s w).2) := by
  unfold Event.interrupt
  split
  · simpa [trigOf] using h
  · rename_i hr
    simp only [ne_eq, Decidable.not_not] at hr
    split
    · simpa [trigOf] using h
    · rename_i e i hw
      have he : e < s.nEv := by
        rcases h.wait w e i hw with h1 | h1
        · have := h.wtr i w h1
          rw [hw] at this
          simp only [Option.some.injEq, Prod.mk.injEq] at this
          have h2 := h.own_ok i this.1
          rw [← this.2.1.1] at h2
          exact h2
        · rw [hr] at h1; simp at h1
      have h1 := h.removed hr hw
      have h2 := h1.knowing
        (s.know.filter (fun p => match p.2 with | .ev e' => decide (e' ≠ e) | _ => true))
        (fun n e' hm => h.kn n e' (List.mem_filter.1 hm).1)
      exact h2.cancel he

theorem Inv.createK {s : St P V} {T : List Nat} (h : Inv s T) (p0 : P) (n : String) :
    Inv (createK p0 s n).1 (T ++ trigOf (createK p0 s n).2) := by
  have h1 := h.create p0 true
  have h2 : EvsBelow (Event.create p0 s true).1.nEv (Know.setK (Event.create p0 s true).1.know n (.ev (Event.create p0 s true).2) false).1 :=
    EvsBelow.setK (h1.kn) false (by
      intro e he
      simp only [Val.ev.injEq] at he
      subst he
      simp [Event.create, Event.arm])
  unfold Event.createK
  simp only
  split
  · rename_i k heq
    rw [heq] at h2
    simpa [trigOf] using h1.knowing k h2
  · rename_i k o hx heq
    rw [heq] at h2
    simpa [trigOf] using h1.knowing k h2

theorem Inv.succeedK {s : St P V} {T : List Nat} (h : Inv s T) (n : String) (p : P) :
    Inv (succeedK s n p).1 (T ++ trigOf (succeedK s n p).2) := by
  have h2 : EvsBelow s.nEv (Know.clearK s.know n).1 := EvsBelow.clearK (h.kn) n
  unfold Event.succeedK
  split
  · rename_i e he
    have hg : s.know.get? n = some (.ev e) := by
      unfold Know.getK at he
      split at he
      · simp at he
      · simpa using he
    split
    · rename_i k heq
      rw [heq] at h2
      exact (h.knowing k h2).succeed (h.kn n e (Dict.mem_of_get? hg)) p
    · rename_i k o hx heq
      rw [heq] at h2
      simpa [trigOf] using h.knowing k h2
  · simpa [trigOf] using h

theorem Inv.yield {s : St P V} {T : List Nat} (h : Inv s T) (w : Nat) {e : Nat} (he : e < s.nEv) :
    Inv (yield s w e).1 (T ++ trigOf (yield s w e).2) := by
  unfold Event.yield
  split
  · simpa [trigOf] using h
  · rename_i hw
    simp only [ne_eq, Decidable.not_not] at hw
    split
    · simpa [trigOf] using h
    · simp only [trigOf, List.append_nil]
      by_cases hp : s.status (s.cur e) = .processed
      · rw [if_pos hp]
        exact (h.arm he).waits (by exact he) (by exact hw) (by simp [Event.arm])
      · rw [if_neg hp]
        exact h.waits he hw hp

theorem Inv.step {s : St P V} {T : List Nat} (h : Inv s T) (p0 : P) (op : Op P V) :
    Inv (step p0 s op).1 (T ++ trigOf (step p0 s op).2) := by
  cases op with
  | create a => simpa [Event.step, trigOf] using h.create p0 a
  | yield w e =>
    simp only [Event.step]
    split
    · rename_i he; exact h.yield w he
    · simpa [trigOf] using h
  | succeed e p =>
    simp only [Event.step]
    split
    · rename_i he; exact h.succeed he p
    · simpa [trigOf] using h
  | cancel e =>
    simp only [Event.step]
    split
    · rename_i he; exact h.cancel he
    · simpa [trigOf] using h
  | reset e =>
    simp only [Event.step]
    split
    · rename_i he; simpa [trigOf] using h.arm he
    · simpa [trigOf] using h
  | process i =>
    simp only [Event.step, Event.process]
    split
    · simpa [trigOf] using h
    · rename_i hc
      simp only [ne_eq, not_or, Decidable.not_not, Nat.not_le] at hc
      simpa [trigOf] using h.process hc.2.1 hc.1 hc.2.2
  | resume =>
    simp only [Event.step, Event.resume]
    split
    · simpa [trigOf] using h
    · rename_i w e i r hr
      simpa [trigOf] using h.resumed hr
  | interrupt w => exact h.interrupt w
  | know op =>
    simp only [Event.step]
    split
    · rename_i hk
      simpa [trigOf] using h.knowing _ (EvsBelow.step (h.kn) hk)
    · simpa [trigOf] using h
  | createK n => exact h.createK p0 n
  | succeedK n p => exact h.succeedK n p

end Verif.Event
