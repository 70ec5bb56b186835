import Verif.Tank.Props

/-!
# Properties C58 (no missed wake-ups) and C59 (capacity) for monitored containers
-/

namespace Verif.Tank

/-- The oldest waiting get asks for more than there is. -/
def HeadDry (s : St) : Prop := ∀ p ∈ s.getQ.head?, s.level < p.2

/-- The oldest waiting put does not fit: the container is bounded and would overflow. -/
def HeadFull (s : St) : Prop := ∀ p ∈ s.putQ.head?, ∃ c, s.cap = some c ∧ c < s.level + p.2

/-- A triggered put is not yet processed. -/
def PutPending (s : St) : Prop := ∃ i, Ev.put i ∈ s.evq

/-- A triggered get is not yet processed. -/
def GetPending (s : St) : Prop := ∃ i x, Ev.got i x ∈ s.evq

theorem record_eq (s : St) : record s = { s with log := (record s).log } := by
  unfold record; split <;> rfl

theorem getLoop_spec (q : List (Nat × Rat)) (s : St) :
    (∀ p ∈ (getLoop q s).1.head?, (getLoop q s).2.level < p.2) ∧
    (((getLoop q s).1 = q ∧ (getLoop q s).2 = s) ∨ GetPending (getLoop q s).2) ∧
    (∃ l, (getLoop q s).2.evq = s.evq ++ l ∧ 2 * (getLoop q s).1.length + l.length ≤ 2 * q.length) ∧
    (getLoop q s).2.putQ = s.putQ ∧ (getLoop q s).2.cap = s.cap ∧ (getLoop q s).2.now = s.now := by
  induction q generalizing s with
  | nil => exact ⟨by simp [getLoop], .inl ⟨rfl, rfl⟩, ⟨[], by simp [getLoop]⟩, rfl, rfl, rfl⟩
  | cons p q ih =>
    obtain ⟨i, x⟩ := p
    simp only [getLoop]
    split
    · have hr := record_eq { s with level := s.level - x, evq := s.evq ++ [.got i x] }
      obtain ⟨h1, h2, ⟨l, h3, h3'⟩, h4, h5, h6⟩ := ih (record { s with level := s.level - x, evq := s.evq ++ [.got i x] })
      have e1 : (record { s with level := s.level - x, evq := s.evq ++ [.got i x] }).evq = s.evq ++ [.got i x] := by
        rw [hr]
      refine ⟨h1, .inr ⟨i, x, ?_⟩, ⟨.got i x :: l, ?_, ?_⟩, ?_, ?_, ?_⟩
      · rw [h3, e1]; simp
      · rw [h3, e1]; simp
      · simp only [List.length_cons]; omega
      · rw [h4, hr]
      · rw [h5, hr]
      · rw [h6, hr]
    · rename_i hx
      refine ⟨?_, .inl ⟨rfl, rfl⟩, ⟨[], by simp⟩, rfl, rfl, rfl⟩
      intro p hp
      simp only [List.head?_cons, Option.mem_def, Option.some.injEq] at hp
      subst hp
      exact not_le.1 hx

theorem not_fits {s : St} {x : Rat} (h : ¬ fits s x = true) : ∃ c, s.cap = some c ∧ c < s.level + x := by
  unfold fits at h
  split at h
  · simp at h
  · rename_i c hc
    simp only [decide_eq_true_eq, not_le] at h
    exact ⟨c, hc, by linarith⟩

theorem putLoop_spec (q : List (Nat × Rat)) (s : St) :
    (∀ p ∈ (putLoop q s).1.head?, ∃ c, (putLoop q s).2.cap = some c ∧ c < (putLoop q s).2.level + p.2) ∧
    (((putLoop q s).1 = q ∧ (putLoop q s).2 = s) ∨ PutPending (putLoop q s).2) ∧
    (∃ l, (putLoop q s).2.evq = s.evq ++ l ∧ 2 * (putLoop q s).1.length + l.length ≤ 2 * q.length) ∧
    (putLoop q s).2.getQ = s.getQ ∧ (putLoop q s).2.cap = s.cap ∧ (putLoop q s).2.now = s.now := by
  induction q generalizing s with
  | nil => exact ⟨by simp [putLoop], .inl ⟨rfl, rfl⟩, ⟨[], by simp [putLoop]⟩, rfl, rfl, rfl⟩
  | cons p q ih =>
    obtain ⟨i, x⟩ := p
    simp only [putLoop]
    split
    · have hr := record_eq { s with level := s.level + x, evq := s.evq ++ [.put i], accepted := s.accepted ++ [(i, x)] }
      obtain ⟨h1, h2, ⟨l, h3, h3'⟩, h4, h5, h6⟩ :=
        ih (record { s with level := s.level + x, evq := s.evq ++ [.put i], accepted := s.accepted ++ [(i, x)] })
      have e1 : (record { s with level := s.level + x, evq := s.evq ++ [.put i], accepted := s.accepted ++ [(i, x)] }).evq =
          s.evq ++ [.put i] := by rw [hr]
      refine ⟨h1, .inr ⟨i, ?_⟩, ⟨.put i :: l, ?_, ?_⟩, ?_, ?_, ?_⟩
      · rw [h3, e1]; simp
      · rw [h3, e1]; simp
      · simp only [List.length_cons]; omega
      · rw [h4, hr]
      · rw [h5, hr]
      · rw [h6, hr]
    · rename_i hx
      refine ⟨?_, .inl ⟨rfl, rfl⟩, ⟨[], by simp⟩, rfl, rfl, rfl⟩
      intro p hp
      simp only [List.head?_cons, Option.mem_def, Option.some.injEq] at hp
      subst hp
      exact not_fits hx

/-- Nobody at the head of a queue could be served, unless the event that will serve them is pending. -/
structure Served (s : St) : Prop where
  get : HeadDry s ∨ PutPending s
  put : HeadFull s ∨ GetPending s

/-- Serving the get queue. -/
theorem Served.trigGet {s : St} (h : HeadFull s ∨ GetPending s) : Served (trigGet s) := by
  obtain ⟨h1, h2, ⟨l, h3, -⟩, h4, h5, -⟩ := getLoop_spec s.getQ s
  unfold Verif.Tank.trigGet
  simp only
  rw [record_eq]
  refine ⟨.inl h1, ?_⟩
  rcases h2 with ⟨-, h2⟩ | ⟨i, x, h2⟩
  · rcases h with h | ⟨i, x, h⟩
    · left
      unfold HeadFull
      simp only [h2]
      exact h
    · right
      exact ⟨i, x, by simp only [h2]; exact h⟩
  · exact .inr ⟨i, x, h2⟩

/-- Serving the put queue. -/
theorem Served.trigPut {s : St} (h : HeadDry s ∨ PutPending s) : Served (trigPut s) := by
  obtain ⟨h1, h2, ⟨l, h3, -⟩, h4, h5, -⟩ := putLoop_spec s.putQ s
  unfold Verif.Tank.trigPut
  simp only
  rw [record_eq]
  refine ⟨?_, .inl h1⟩
  rcases h2 with ⟨-, h2⟩ | ⟨i, h2⟩
  · rcases h with h | ⟨i, h⟩
    · left
      unfold HeadDry
      simp only [h2]
      exact h
    · right
      exact ⟨i, by simp only [h2]; exact h⟩
  · exact .inr ⟨i, h2⟩

/-- Every step but an interrupt of a waiting request keeps `Served`. -/
theorem Served.step {s : St} (h : Served s) (op : Op)
    (hi : ∀ id, op = .interrupt id → id ∉ (s.putQ ++ s.getQ).map (·.1)) : Served (step s op) := by
  cases op with
  | put x =>
    simp only [Verif.Tank.step, doPut]
    split
    · exact h
    · exact Served.trigPut h.get
  | get x =>
    simp only [Verif.Tank.step, doGet]
    split
    · exact h
    · exact Served.trigGet h.put
  | interrupt id =>
    have := hi id rfl
    simp only [List.map_append, List.mem_append, not_or, List.mem_map, not_exists, not_and] at this
    have h1 : s.putQ.filter (fun p => p.1 ≠ id) = s.putQ :=
      List.filter_eq_self.2 fun p hp => by simpa using this.1 p hp
    have h2 : s.getQ.filter (fun p => p.1 ≠ id) = s.getQ :=
      List.filter_eq_self.2 fun p hp => by simpa using this.2 p hp
    refine ⟨?_, ?_⟩
    · rcases h.get with h | h
      · left; simp only [HeadDry, Verif.Tank.step, doInterrupt, h2]; exact h
      · exact .inr h
    · rcases h.put with h | h
      · left; simp only [HeadFull, Verif.Tank.step, doInterrupt, h1]; exact h
      · exact .inr h
  | process =>
    simp only [Verif.Tank.step, doProcess]
    split
    · exact h
    · rename_i i q hq
      refine Served.trigGet ?_
      rcases h.put with h | ⟨j, x, h⟩
      · exact .inl h
      · right
        rw [hq] at h
        exact ⟨j, x, by simpa using h⟩
    · rename_i i x q hq
      have h1 : Served (Verif.Tank.trigPut { s with evq := q }) := by
        refine Served.trigPut ?_
        rcases h.get with h | ⟨j, h⟩
        · exact .inl h
        · right
          rw [hq] at h
          exact ⟨j, by simpa using h⟩
      split <;> exact ⟨h1.get, h1.put⟩
  | advance t =>
    simp only [Verif.Tank.step, doAdvance]
    split <;> exact ⟨h.get, h.put⟩

/-- No interrupt of the history hits a request that is still waiting in a queue. -/
def NoWithdrawal (s : St) : List Op → Bool
  | [] => true
  | op :: ops =>
    (match op with
      | .interrupt id => decide (id ∉ (s.putQ ++ s.getQ).map (·.1))
      | _ => true) && NoWithdrawal (step s op) ops

/-- **C58** (containers), full statement: at every instant with nothing left to process, the oldest waiting
get asks for more than the level and the oldest waiting put would overflow the container. *Missing*:
histories in which a request still waiting in a queue is withdrawn by an interrupt
(`c58_withdrawn_head_blocks`). -/
theorem c58_container_partial (cap : Option Rat) (lvl t0 : Rat) (ops : List Op)
    (hw : NoWithdrawal (init cap lvl t0) ops = true) :
    let s := run (init cap lvl t0) ops
    s.evq = [] →
      (∀ i x q, s.getQ = (i, x) :: q → s.level < x) ∧
      (∀ i x q, s.putQ = (i, x) :: q → ∃ c, s.cap = some c ∧ c < s.level + x) := by
  have key : ∀ (ops : List Op) (s : St), Served s → NoWithdrawal s ops = true → Served (run s ops) := by
    intro ops
    induction ops with
    | nil => intro s h _; exact h
    | cons op ops ih =>
      intro s h hw
      simp only [NoWithdrawal, Bool.and_eq_true] at hw
      refine ih _ (h.step op ?_) hw.2
      rintro id rfl
      simpa using hw.1
  intro s he
  have h : Served s := key ops _ ⟨.inl (by simp [HeadDry, init]), .inl (by simp [HeadFull, init])⟩ hw
  refine ⟨fun i x q hq => ?_, fun i x q hq => ?_⟩
  · rcases h.get with h1 | ⟨j, h1⟩
    · exact h1 (i, x) (by rw [hq]; rfl)
    · rw [he] at h1; simp at h1
  · rcases h.put with h1 | ⟨j, y, h1⟩
    · exact h1 (i, x) (by rw [hq]; rfl)
    · rw [he] at h1; simp at h1

/-- A get of exactly what is there is served at once; the next one waits, and a put that would overflow
waits too. -/
example : let s := run (init (some 10) 4 0) [.get 4, .process, .get 1, .put 11]
    NoWithdrawal (init (some 10) 4 0) [.get 4, .process, .get 1, .put 11] = true ∧
    s.evq = [] ∧ s.delivered = [(0, 4)] ∧ s.getQ = [(1, 1)] ∧ s.putQ = [(2, 11)] := by decide +kernel

/-- With nothing to process, the kernel alone serves nobody. -/
theorem idle_run (s : St) (he : s.evq = []) (ops : List Op)
    (ho : ∀ op ∈ ops, op = .process ∨ ∃ t, op = .advance t) :
    (run s ops).getQ = s.getQ ∧ (run s ops).putQ = s.putQ ∧ (run s ops).delivered = s.delivered ∧
    (run s ops).level = s.level := by
  induction ops generalizing s with
  | nil => exact ⟨rfl, rfl, rfl, rfl⟩
  | cons op ops ih =>
    have h1 : (step s op).evq = [] ∧ (step s op).getQ = s.getQ ∧ (step s op).putQ = s.putQ ∧
        (step s op).delivered = s.delivered ∧ (step s op).level = s.level := by
      rcases ho op (by simp) with rfl | ⟨t, rfl⟩
      · simp [step, doProcess, he]
      · simp only [step, doAdvance]; split <;> simp [he]
    obtain ⟨h1, h2, h3, h4, h5⟩ := h1
    obtain ⟨g1, g2, g3, g4⟩ := ih (step s op) h1 (fun op' ho' => ho op' (List.mem_cons_of_mem _ ho'))
    exact ⟨g1.trans h2, g2.trans h3, g3.trans h4, g4.trans h5⟩

/-- **C58** fails for containers when a waiting task is interrupted: a get of 1 queues behind a get of 5
for which the level does not suffice; the task of the get of 5 is interrupted; the level is 2, and the get
of 1 is not served however long the simulation goes on, unless someone makes another request. -/
theorem c58_withdrawn_head_blocks :
    let s := run (init none 0 0) [.get 5, .get 1, .put 2, .process, .interrupt 0]
    s.evq = [] ∧ s.getQ = [(1, 1)] ∧ s.level = 2 ∧
    ∀ ops, (∀ op ∈ ops, op = .process ∨ ∃ t, op = .advance t) →
      (run s ops).getQ = [(1, 1)] ∧ (run s ops).level = 2 ∧ (run s ops).delivered = [] := by
  intro s
  have h : s.evq = [] ∧ s.getQ = [(1, 1)] ∧ s.level = 2 ∧ s.delivered = [] := by decide +kernel
  refine ⟨h.1, h.2.1, h.2.2.1, fun ops ho => ?_⟩
  obtain ⟨h1, -, h3, h4⟩ := idle_run s h.1 ops ho
  rw [h1, h3, h4]
  exact ⟨h.2.1, h.2.2.1, h.2.2.2⟩

/-- The same for puts: a put of 1 queues behind a put of 9 that does not fit, which is withdrawn. -/
theorem c58_withdrawn_put_blocks :
    let s := run (init (some 10) 5 0) [.put 9, .put 1, .interrupt 0]
    s.evq = [] ∧ s.putQ = [(1, 1)] ∧ s.level = 5 ∧
    ∀ ops, (∀ op ∈ ops, op = .process ∨ ∃ t, op = .advance t) →
      (run s ops).putQ = [(1, 1)] ∧ (run s ops).level = 5 := by
  intro s
  have h : s.evq = [] ∧ s.putQ = [(1, 1)] ∧ s.level = 5 := by decide +kernel
  refine ⟨h.1, h.2.1, h.2.2, fun ops ho => ?_⟩
  obtain ⟨-, h2, -, h4⟩ := idle_run s h.1 ops ho
  rw [h2, h4]
  exact ⟨h.2.1, h.2.2⟩

/-- Twice the waiting requests and once the triggered ones. -/
def measure (s : St) : Nat := 2 * (s.putQ.length + s.getQ.length) + s.evq.length

theorem measure_trigGet (s : St) : measure (trigGet s) ≤ measure s ∧ (trigGet s).now = s.now := by
  obtain ⟨-, -, ⟨l, h3, h3'⟩, h4, -, h6⟩ := getLoop_spec s.getQ s
  unfold trigGet
  simp only
  rw [record_eq]
  refine ⟨?_, h6⟩
  simp only [measure, h4, h3, List.length_append]
  omega

theorem measure_trigPut (s : St) : measure (trigPut s) ≤ measure s ∧ (trigPut s).now = s.now := by
  obtain ⟨-, -, ⟨l, h3, h3'⟩, h4, -, h6⟩ := putLoop_spec s.putQ s
  unfold trigPut
  simp only
  rw [record_eq]
  refine ⟨?_, h6⟩
  simp only [measure, h4, h3, List.length_append]
  omega

theorem measure_process (s : St) (he : s.evq ≠ []) :
    measure (doProcess s) < measure s ∧ (doProcess s).now = s.now := by
  simp only [doProcess]
  split
  · contradiction
  · rename_i i q hq
    have := measure_trigGet { s with evq := q }
    have h2 : measure { s with evq := q } < measure s := by simp [measure, hq]
    exact ⟨lt_of_le_of_lt this.1 h2, this.2⟩
  · rename_i i x q hq
    have := measure_trigPut { s with evq := q }
    have h2 : measure { s with evq := q } < measure s := by simp [measure, hq]
    split <;> exact ⟨lt_of_le_of_lt this.1 h2, this.2⟩

/-- **C58** (settling, containers). Finitely many kernel steps leave nothing to process, within the
instant. -/
theorem c58_container_settles (s : St) :
    ∃ k, (run s (List.replicate k .process)).evq = [] ∧ (run s (List.replicate k .process)).now = s.now := by
  generalize hm : measure s = m
  induction m using Nat.strongRecOn generalizing s with
  | ind m ih =>
    by_cases he : s.evq = []
    · exact ⟨0, he, rfl⟩
    · have hlt := measure_process s he
      obtain ⟨k, h1, h2⟩ := ih _ (hm ▸ hlt.1) (doProcess s) rfl
      refine ⟨k + 1, ?_, ?_⟩
      · rw [List.replicate_succ]; exact h1
      · rw [List.replicate_succ]
        show (run (doProcess s) (List.replicate k .process)).now = _
        rw [h2, hlt.2]

example : (run (init (some 10) 4 0) [.get 4, .put 3]).evq ≠ [] ∧
    (run (run (init (some 10) 4 0) [.get 4, .put 3]) (List.replicate 2 .process)).evq = [] := by decide +kernel

/-- **C59** (containers). Whatever is put, taken and interrupted, the level stays between 0 and the
capacity. -/
theorem c59_container_bounds (cap : Option Rat) (lvl t0 : Rat) (h0 : 0 ≤ lvl)
    (h1 : ∀ c, cap = some c → lvl ≤ c) (ops : List Op) :
    0 ≤ (run (init cap lvl t0) ops).level ∧ ∀ c, cap = some c → (run (init cap lvl t0) ops).level ≤ c := by
  have h := run_inv cap lvl t0 h0 h1 ops
  refine ⟨h.lo, fun c hc => h.hi c ?_⟩
  have key : ∀ (ops : List Op) (s : St), (run s ops).cap = s.cap := by
    intro ops
    induction ops with
    | nil => intro s; rfl
    | cons op ops ih =>
      intro s
      show (run (step s op) ops).cap = s.cap
      rw [ih]
      have hg : ∀ s : St, (trigGet s).cap = s.cap := fun s => by
        obtain ⟨-, -, -, -, h5, -⟩ := getLoop_spec s.getQ s
        unfold trigGet; simp only; rw [record_eq]; exact h5
      have hp : ∀ s : St, (trigPut s).cap = s.cap := fun s => by
        obtain ⟨-, -, -, -, h5, -⟩ := putLoop_spec s.putQ s
        unfold trigPut; simp only; rw [record_eq]; exact h5
      cases op with
      | put x => simp only [step, doPut]; split; · rfl
                 · exact hp _
      | get x => simp only [step, doGet]; split; · rfl
                 · exact hg _
      | interrupt id => rfl
      | process =>
        simp only [step, doProcess]
        split
        · rfl
        · exact hg _
        · split <;> exact hp _
      | advance t => simp only [step, doAdvance]; split <;> rfl
  rw [key]; exact hc

example : (run (init (some 10) 4 0) [.put 6, .put 1]).level = 10 ∧
    (run (init (some 10) 4 0) [.get 5]).level = 4 := by decide +kernel

end Verif.Tank
