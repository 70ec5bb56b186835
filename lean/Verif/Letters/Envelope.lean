import Verif.Letters.Props

/-! # C74: messages as envelopes -/

namespace Verif.Letters

/-- The same message, but for the time it was sent. -/
def Kept (m m' : Message) : Prop :=
  m'.sender = m.sender ∧ m'.content = m.content ∧ m'.dest = m.dest ∧ m'.mode = m.mode ∧ m'.created = m.created ∧ m'.timeReceived = m.timeReceived

theorem Kept.refl (m : Message) : Kept m m := ⟨rfl, rfl, rfl, rfl, rfl, rfl⟩

theorem Kept.trans {a b c : Message} (h : Kept a b) (h' : Kept b c) : Kept a c :=
  ⟨h'.1.trans h.1, h'.2.1.trans h.2.1, h'.2.2.1.trans h.2.2.1, h'.2.2.2.1.trans h.2.2.2.1, h'.2.2.2.2.1.trans h.2.2.2.2.1, h'.2.2.2.2.2.trans h.2.2.2.2.2⟩

/-- Every message is still there. -/
def Keeps (s s' : St) : Prop := ∀ (ref : Nat) m, s.heap[ref]? = some m → ∃ m', s'.heap[ref]? = some m' ∧ Kept m m'

theorem Keeps.of_eq {s s' : St} (h : s'.heap = s.heap) : Keeps s s' := fun ref m hm => ⟨m, by rw [h]; exact hm, .refl m⟩

theorem logAttempt_heap (s : St) (p : Proc) (e : Event) (a b : Nat) : (logAttempt s p e a b).heap = s.heap := by unfold logAttempt; split <;> rfl

theorem deliver_keeps (cfg : Cfg) (s : St) (i : Nat) (p : Proc) (e : Event) : Keeps s (deliver cfg s i p e) := by
  intro ref m hm
  have h : (deliver cfg s i p e).heap = (stamp (logAttempt s p e p.curr p.dest) p.ref).heap := by
    unfold deliver; cases cfg.storeOf p.dest <;> rfl
  rw [h]
  unfold stamp
  simp only [logAttempt_heap]
  rw [List.getElem?_modify, hm]
  by_cases hr : p.ref = ref
  · exact ⟨_, rfl, by simp [hr, Kept]⟩
  · exact ⟨_, rfl, by simp [hr, Kept]⟩

theorem Keeps.trans {a b c : St} (h : Keeps a b) (h' : Keeps b c) : Keeps a c := by
  intro ref m hm
  obtain ⟨m1, h1, h2⟩ := h ref m hm
  obtain ⟨m2, h3, h4⟩ := h' ref m1 h1
  exact ⟨m2, h3, h2.trans h4⟩

theorem arriveHop_keeps (cfg : Cfg) (s : St) (i : Nat) (p : Proc) (hop : Nat) : Keeps s (arriveHop cfg s i p hop) := by
  unfold arriveHop
  cases cfg.routing with
  | none => exact deliver_keeps cfg s i p .sent
  | some g => exact .of_eq rfl

theorem check_keeps (cfg : Cfg) (s : St) (i : Nat) (p : Proc) (hop n : Nat) : Keeps s (check cfg s i p hop n) := by
  unfold check
  split
  · exact .of_eq rfl
  · split
    · split
      · refine .of_eq ?_
        unfold giveUp
        split <;> exact logAttempt_heap _ _ _ _ _
      · refine .of_eq ?_
        simp only
        split <;> exact logAttempt_heap _ _ _ _ _
    · unfold pass
      cases cfg.routing with
      | none =>
        simp only
        split
        · exact .of_eq rfl
        · exact arriveHop_keeps cfg s i p hop
      | some g =>
        simp only
        split
        · exact .of_eq (logAttempt_heap _ _ _ _ _)
        · exact Keeps.trans (.of_eq (logAttempt_heap _ _ _ _ _)) (arriveHop_keeps cfg _ i p hop)

theorem choose_keeps (cfg : Cfg) (s : St) (i : Nat) (p : Proc) : Keeps s (choose cfg s i p) := by
  unfold choose
  cases cfg.routing with
  | none => exact .of_eq rfl
  | some g =>
    simp only
    split
    · exact deliver_keeps cfg s i p .reached
    · split
      · exact .of_eq (logAttempt_heap _ _ _ _ _)
      · exact .of_eq rfl

theorem step_keeps (cfg : Cfg) (s : St) (op : Op) : Keeps s (step cfg s op).1 := by
  cases op with
  | advance d => simp only [step]; split <;> exact .of_eq rfl
  | make g a b =>
    have key : ∀ c : Message, Keeps s { s with heap := s.heap ++ [c] } := fun c ref m hm =>
      ⟨m, by simp only; rw [List.getElem?_append_left (List.getElem?_eq_some_iff.1 hm).1]; exact hm, .refl m⟩
    cases g with
    | message ref => exact .of_eq rfl
    | _ => exact key _
  | put ref => simp only [step]; split <;> exact .of_eq rfl
  | take =>
    simp only [step]
    split
    · exact .of_eq rfl
    · split <;> exact .of_eq rfl
  | resume i =>
    simp only [step]
    split
    · exact .of_eq rfl
    · rename_i p hp
      split
      · cases hph : p.ph with
        | choosing d => exact choose_keeps cfg s i p
        | trying hop n d => exact check_keeps cfg s i p hop n
        | moving hop d => exact arriveHop_keeps cfg s i p hop
        | _ => exact .of_eq rfl
      · exact .of_eq rfl
  | accept i =>
    simp only [step]
    split
    · exact .of_eq rfl
    · rename_i p hp
      cases hph : p.ph <;> exact .of_eq rfl
  | _ => exact .of_eq rfl

theorem run_keeps (cfg : Cfg) (ops : List Op) : ∀ s : St, Keeps s (run cfg s ops).1 := by
  induction ops with
  | nil => exact fun s => .of_eq rfl
  | cons op r ih => exact fun s => (step_keeps cfg s op).trans (ih _)

/-- **C74, what is on the envelope.** `make_put` with anything but a `Message` makes a new message: its sender, destination and the mode of the manager,
the time, and the content — text as the message, a dictionary as the data, a content as it is. All this stays for ever, whatever happens;
`time_received` stays `None`. -/
theorem c74_envelope (cfg : Cfg) (s : St) (g : Given) (source dest : Nat) (hg : ∀ ref, g ≠ .message ref) (ops : List Op) :
    ∃ ref m, (step cfg s (.make g source dest)).2 = .made ref ∧ s.heap[ref]? = none ∧ (run cfg s (.make g source dest :: ops)).1.heap[ref]? = some m ∧
      m.sender = source ∧ m.dest = dest ∧ m.mode = cfg.mode ∧ m.created = s.now ∧ m.timeReceived = none ∧
      (∀ x, g = .text x → m.content = ⟨none, some x⟩) ∧ (∀ d, g = .dict d → m.content = ⟨some d, none⟩) ∧ ∀ c, g = .content c → m.content = c := by
  have key : ∀ c, (step cfg s (.make g source dest)) = ({ s with heap := s.heap ++ [⟨source, c, dest, none, none, cfg.mode, s.now⟩] }, .made s.heap.length) →
      ∃ m, (run cfg s (.make g source dest :: ops)).1.heap[s.heap.length]? = some m ∧ Kept ⟨source, c, dest, none, none, cfg.mode, s.now⟩ m := by
    intro c hc
    have h0 : (step cfg s (.make g source dest)).1.heap[s.heap.length]? = some ⟨source, c, dest, none, none, cfg.mode, s.now⟩ := by rw [hc]; simp
    exact run_keeps cfg ops _ _ _ h0
  have hlen : s.heap[s.heap.length]? = none := by simp
  cases g with
  | message ref => exact absurd rfl (hg ref)
  | text x =>
    obtain ⟨m, h1, k1, k2, k3, k4, k5, k6⟩ := key ⟨none, some x⟩ rfl
    exact ⟨_, m, rfl, hlen, h1, k1, k3, k4, k5, k6, by rintro _ ⟨⟩; exact k2, by rintro _ ⟨⟩, by rintro _ ⟨⟩⟩
  | dict d =>
    obtain ⟨m, h1, k1, k2, k3, k4, k5, k6⟩ := key ⟨some d, none⟩ rfl
    exact ⟨_, m, rfl, hlen, h1, k1, k3, k4, k5, k6, by rintro _ ⟨⟩, by rintro _ ⟨⟩; exact k2, by rintro _ ⟨⟩⟩
  | content c =>
    obtain ⟨m, h1, k1, k2, k3, k4, k5, k6⟩ := key c rfl
    exact ⟨_, m, rfl, hlen, h1, k1, k3, k4, k5, k6, by rintro _ ⟨⟩, by rintro _ ⟨⟩, by rintro _ ⟨⟩; exact k2⟩

/-- Every state is like one with the logging on. -/
theorem logged {cfg : Cfg} (hr : 0 < cfg.rate) (t : Rat) (b : Bool) (ops : List Op) : ∃ ops', On ops' ∧ ButLogging ops ops' ∧
    Inv cfg (run cfg (init t true) ops').1 ∧ (run cfg (init t b) ops).2 = (run cfg (init t true) ops').2 ∧
    Alike (run cfg (init t b) ops).1 (run cfg (init t true) ops').1 := by
  let f : Op → Op := fun o => match o with
    | .setLogging _ => .setLogging true
    | o => o
  have hB : ButLogging ops (ops.map f) := by
    unfold ButLogging
    rw [List.forall₂_map_right_iff, List.forall₂_same]
    intro o _
    cases o with
    | setLogging x => exact .inr ⟨x, true, rfl, rfl⟩
    | _ => exact .inl rfl
  have hO : On (ops.map f) := by
    intro x hx
    rw [List.mem_map] at hx
    obtain ⟨o, -, ho⟩ := hx
    cases o <;> simp only [f, reduceCtorEq, Op.setLogging.injEq] at ho
    exact ho.symm
  obtain ⟨h1, h2⟩ := c73_harmless cfg hB (s := init t b) (s' := init t true) rfl
  exact ⟨_, hO, hB, reach hr t hO, h1, h2⟩

theorem lastSent_notes {cfg : Cfg} {s : St} (inv : Inv cfg s) {i : Nat} {p : Proc} (hp : s.procs[i]? = some p) (hu : ∀ q ∈ s.procs, q.ref = p.ref → q.id = i)
    {l : List Note} {T : Rat} {e : Event} {a b : Nat} (he : e.final = true) (h : notes s.log i = l ++ [(T, e, a, b)]) : lastSent s.log p.ref = some T := by
  have hf : (s.log.filter fun x => x.message == p.ref && x.event.final) = (s.log.filter fun x => x.id == i).filter fun x => x.event.final := by
    rw [List.filter_filter]
    refine List.filter_congr fun x hx => ?_
    obtain ⟨q, q1, q2, -⟩ := inv.known x hx
    have hid := inv.ids _ _ q1
    by_cases hm : x.message = p.ref
    · have := hu q (List.mem_of_getElem? q1) (by rw [← q2, hm])
      rw [hid] at this
      simp [hm, this]
    · have : x.id ≠ i := by
        intro hx'
        rw [hx', hp] at q1
        cases q1
        exact hm q2
      have e1 : (x.message == p.ref) = false := beq_eq_false_iff_ne.2 hm
      have e2 : (x.id == i) = false := beq_eq_false_iff_ne.2 this
      rw [e1, e2, Bool.false_and, Bool.and_false]
  unfold lastSent
  rw [hf]
  have hn : ((s.log.filter fun x => x.id == i).map fun e => ((e.time, e.event, e.current, e.dest) : Note)) = l ++ [(T, e, a, b)] := h
  generalize s.log.filter (fun x => x.id == i) = es at hn
  have h1 : es ≠ [] := by rintro rfl; simp at hn
  obtain ⟨init, x, rfl⟩ : ∃ init x, es = init ++ [x] := ⟨es.dropLast, es.getLast h1, (List.dropLast_append_getLast h1).symm⟩
  rw [List.map_append, List.map_singleton] at hn
  obtain ⟨-, h2⟩ := List.append_inj' hn rfl
  simp only [List.cons.injEq, Prod.mk.injEq, and_true] at h2
  rw [List.filter_append, List.filter_cons_of_pos (by rw [h2.2.1]; exact he)]
  simp [h2.1]

/-- **C74, the time on a message that is sent once.** When a message arrives in a store without a limit, and it has no other transmission, it carries the
present time as the time it was sent, is at the actor it is addressed to, and was made before. -/
theorem c74_sent_partial (cfg : Cfg) (hr : 0 < cfg.rate) (t : Rat) (b : Bool) (ops : List Op) (i a st id ref : Nat) (T : Rat)
    (harr : (step cfg (run cfg (init t b) ops).1 (.accept i)).2 = .arrived a st id ref T)
    (hu : ∀ q ∈ (run cfg (init t b) ops).1.procs, q.ref = ref → q.id = id) :
    ∃ m, (step cfg (run cfg (init t b) ops).1 (.accept i)).1.heap[ref]? = some m ∧ m.dest = a ∧ cfg.storeOf a = some st ∧ T = (run cfg (init t b) ops).1.now ∧
      ∃ T', m.timeSent = some T' ∧ m.created ≤ T' ∧ T' ≤ T ∧ (cfg.limited a st = false → T' = T) := by
  obtain ⟨ops', -, -, inv, -, hal⟩ := logged hr t b ops
  generalize (run cfg (init t b) ops).1 = s at *
  generalize (run cfg (init t true) ops').1 = s' at *
  obtain ⟨c, l, rfl⟩ := alike_iff.1 hal
  have e1 : (relog s c l).procs = s.procs := rfl
  have e2 : (relog s c l).heap = s.heap := rfl
  have e3 : (relog s c l).now = s.now := rfl
  simp only [step] at harr ⊢
  cases hp : s.procs[i]? with
  | none => rw [hp] at harr; cases harr
  | some p =>
    rw [hp] at harr
    simp only at harr ⊢
    cases hph : p.ph with
    | putting st' t0 =>
      rw [hph] at harr
      simp only [Out.arrived.injEq] at harr
      obtain ⟨rfl, rfl, rfl, rfl, rfl⟩ := harr
      obtain ⟨m, h1, h2, h3, h4, h5⟩ := inv.good p (List.mem_of_getElem? hp)
      have hid : p.id = i := inv.ids i p hp
      obtain ⟨g1, -, -⟩ := inv.stamps _ _ h1
      have hlate := inv.late p (List.mem_of_getElem? hp)
      unfold Good at h5
      rw [hph] at h5
      rw [hid] at h5 hu
      have key : ∃ l' e a b, e.final = true ∧ notes (relog s c l).log i = l' ++ [(t0, e, a, b)] ∧ cfg.storeOf p.dest = some st' ∧ p.born ≤ t0 := by
        cases hc : cfg.routing with
        | none =>
          rw [hc] at h5
          obtain ⟨-, k1, k, k2, k3, k4⟩ := h5
          have hk : 0 ≤ (k : Rat) * cfg.rate := mul_nonneg (Nat.cast_nonneg _) hr.le
          have hdl : 0 ≤ delay cfg := le_max_left _ _
          exact ⟨_, _, _, _, rfl, k4, k1, by linarith⟩
        | some q =>
          rw [hc] at h5
          obtain ⟨k1, l', k2, k3⟩ := h5
          have := c73_duration k2
          have hk : 0 ≤ (times .waiting l' : Rat) * cfg.rate := mul_nonneg (Nat.cast_nonneg _) hr.le
          have hdl : 0 ≤ (times .moved l' : Rat) * delay cfg := mul_nonneg (Nat.cast_nonneg _) (le_max_left _ _)
          exact ⟨_, _, _, _, rfl, k3, k1, by linarith⟩
      obtain ⟨l', e, a, b, he, hn, hst, hb⟩ := key
      have hT := lastSent_notes inv hp hu he hn
      rw [hT] at g1
      -- the entry is in the log, hence not in the future
      have hmem : ((t0, e, a, b) : Note) ∈ notes (relog s c l).log i := by rw [hn]; simp
      unfold notes at hmem
      rw [List.mem_map] at hmem
      obtain ⟨x, hx, hxe⟩ := hmem
      obtain ⟨-, -, -, hxt⟩ := inv.known x (List.mem_of_mem_filter hx)
      simp only [Prod.mk.injEq] at hxe
      rw [hxe.1, e3] at hxt
      refine ⟨m, h1, h2, hst, rfl, t0, g1, h3.trans hb, hxt, fun hlim => ?_⟩
      have := hlate t0 (by unfold due; rw [hph]; simp [hlim])
      rw [e3] at this
      exact le_antisymm hxt this
    | _ => rw [hph] at harr; cases harr

/-! ### Examples -/

/-- Point to point, a check each half hour for an hour, a quarter of an hour to send, stores named 7. -/
def cfg0 : Cfg := ⟨1/2, 1, 1/4, some 3, none, fun _ => some 7, fun _ _ => false⟩

/-- The link is down at first: one vain check, then the message goes. -/
def sample : List Op :=
  [.setDegraded true, .make (.text 9) 1 2, .put 0, .take, .resume 0, .setDegraded false, .advance (1/2), .resume 0, .advance (1/4), .resume 0]

example : (run cfg0 (init 0 true) sample).1.log = [⟨0, 0, .waiting, 0, 1, 2⟩, ⟨0, 3/4, .sent, 0, 1, 2⟩] := by decide +kernel
example : On sample := by intro b hb; simp [sample] at hb
example : (step cfg0 (run cfg0 (init 0 true) sample).1 (.accept 0)).2 = .arrived 2 7 0 0 (3/4) := by decide +kernel
example : ∀ q ∈ (run cfg0 (init 0 true) sample).1.procs, q.ref = 0 → q.id = 0 := by decide +kernel

/-- A network 1 → 2 → 3 and 1 → 4 → 3, with the node 2 blocked. -/
def cfg1 : Cfg := { cfg0 with routing := some (false, id) }

def sample1 : List Op :=
  [.connect 1 2 false, .connect 2 3 false, .connect 1 4 false, .connect 4 3 false, .setNodes [2], .make (.dict 5) 1 3, .put 0, .take, .resume 0, .resume 0,
   .advance (1/2), .resume 0, .advance (1/2), .resume 0, .resume 0, .resume 0, .advance (1/4), .resume 0, .resume 0, .resume 0, .advance (1/4), .resume 0,
   .resume 0, .accept 0]

example : (run cfg1 (init 0 true) sample1).1.log.map (fun e => (e.time, e.event, e.current, e.dest)) =
    [(0, .waiting, 1, 2), (1/2, .waiting, 1, 2), (1, .stopped, 1, 2), (1, .moved, 1, 4), (5/4, .moved, 4, 3), (3/2, .reached, 3, 3)] := by decide +kernel

/-- **C74 is violated by messages sent twice**: the copy that has already been received changes its `time_sent`, from 1/4 to 5/4. -/
theorem c74_twice : ∃ (cfg : Cfg) (ops ops' : List Op) (m m' : Message), 0 < cfg.rate ∧
    (run cfg (init 0 false) ops).2.getLast? = some (.arrived 2 7 0 0 (1/4)) ∧ (run cfg (init 0 false) ops).1.heap[0]? = some m ∧ m.timeSent = some (1/4) ∧
    (run cfg (init 0 false) (ops ++ ops')).2.getLast? = some (.arrived 2 7 1 0 (5/4)) ∧ (run cfg (init 0 false) (ops ++ ops')).1.heap[0]? = some m' ∧
    m'.timeSent = some (5/4) :=
  ⟨cfg0, [.make (.text 9) 1 2, .put 0, .take, .resume 0, .advance (1/4), .resume 0, .accept 0],
    [.advance (3/4), .make (.message 0) 5 6, .put 0, .take, .resume 1, .advance (1/4), .resume 1, .accept 1],
    ⟨1, ⟨none, some 9⟩, 2, some (1/4), none, some 3, 0⟩, ⟨1, ⟨none, some 9⟩, 2, some (5/4), none, some 3, 0⟩, by decide +kernel⟩

/-- **C74 is violated by the time of receipt**: nothing ever sets it. -/
theorem c74_received (cfg : Cfg) (hr : 0 < cfg.rate) (t : Rat) (b : Bool) (ops : List Op) : ∀ m ∈ (run cfg (init t b) ops).1.heap, m.timeReceived = none := by
  obtain ⟨ops', -, -, inv, -, hal⟩ := logged hr t b ops
  generalize (run cfg (init t b) ops).1 = s at *
  generalize (run cfg (init t true) ops').1 = s' at *
  obtain ⟨c, l, rfl⟩ := alike_iff.1 hal
  intro m hm
  obtain ⟨ref, href⟩ := List.mem_iff_getElem?.1 hm
  exact (inv.stamps ref m href).2.1

end Verif.Letters
