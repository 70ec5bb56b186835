import Verif.Letters.Run

/-! # C73: the debug log tells the way of each message. C74: messages as envelopes -/

namespace Verif.Letters

/-- Still at it, or arrived, or given up, or failed. -/
inductive Outcome where
  | pending
  | arrived
  | dropped
  | failed
deriving DecidableEq, Repr

def outcome : Ph → Outcome
  | .choosing _ | .trying _ _ _ | .moving _ _ | .putting _ _ => .pending
  | .done => .arrived
  | .dropped => .dropped
  | .crashed => .failed

theorem reach {cfg : Cfg} (hr : 0 < cfg.rate) (t : Rat) {ops : List Op} (hon : On ops) : Inv cfg (run cfg (init t true) ops).1 :=
  run_inv hr ops (init_inv cfg t) hon

/-- What the entries of a point to point transmission say, from `sender` to `dest`, started at `born`. -/
def Tells (cfg : Cfg) (sender dest : Nat) (born : Rat) (l : List Note) : Outcome → Prop
  | .pending => ∃ k : Nat, (∀ j : Nat, j < k → (j : Int) ≠ budget cfg) ∧ l = waits cfg.rate sender dest born k ∨ ∃ t, Straight cfg sender dest born t l
  | .arrived => ∃ t, Straight cfg sender dest born t l
  | .dropped => GivenUp cfg sender dest born l
  | .failed => cfg.storeOf dest = none ∧ ∃ t, Straight cfg sender dest born t l

/-- **C73, point to point.** With logging on, the entries of a transmission are: one "Can't send, waiting" for each vain check, at `born`, `born + rate`, …;
then "Sent message" the delay after the first check that succeeded, or "Stopped trying to send" if the whole budget was used; nothing else. -/
theorem c73_direct (cfg : Cfg) (hr : 0 < cfg.rate) (hd : cfg.routing = none) (t : Rat) (ops : List Op) (hon : On ops) (i : Nat) (p : Proc)
    (hp : (run cfg (init t true) ops).1.procs[i]? = some p) :
    ∃ m, (run cfg (init t true) ops).1.heap[p.ref]? = some m ∧ m.dest = p.dest ∧
      Tells cfg m.sender m.dest p.born (notes (run cfg (init t true) ops).1.log i) (outcome p.ph) := by
  have inv := reach hr t hon
  obtain ⟨m, h1, h2, -, -, h5⟩ := inv.good p (List.mem_of_getElem? hp)
  rw [inv.ids i p hp] at h5
  refine ⟨m, h1, h2, ?_⟩
  unfold Good at h5
  rw [hd] at h5
  rw [h2]
  obtain ⟨-, h5⟩ := h5
  cases hph : p.ph with
  | choosing _ => rw [hph] at h5; exact h5.elim
  | trying hop n d => rw [hph] at h5; exact ⟨n, .inl ⟨h5.2.2.2, h5.2.1⟩⟩
  | moving hop d => rw [hph] at h5; obtain ⟨k, g1, -, g3⟩ := h5; exact ⟨k, .inl ⟨g1, g3⟩⟩
  | putting st t => rw [hph] at h5; exact ⟨0, .inr ⟨t, h5.2⟩⟩
  | done => rw [hph] at h5; exact h5
  | dropped => rw [hph] at h5; exact h5
  | crashed => rw [hph] at h5; exact h5

/-- What the entries of a routed transmission say. -/
def TellsWay (cfg : Cfg) (sender dest : Nat) (born : Rat) (l : List Note) : Outcome → Prop
  | .pending => ∃ c t l', Way cfg sender born c t l' ∧ ((∃ (hop k : Nat), (∀ j : Nat, j < k → (j : Int) ≠ budget cfg) ∧ l = l' ++ waits cfg.rate c hop t k) ∨
      (c = dest ∧ l = l' ++ [(t, .reached, dest, dest)]))
  | .arrived => ∃ t l', Way cfg sender born dest t l' ∧ l = l' ++ [(t, .reached, dest, dest)]
  | .dropped => ∃ c t l', Way cfg sender born c t l' ∧ c ≠ dest ∧ l = l' ++ [(t, .noRoute, c, dest)]
  | .failed => cfg.storeOf dest = none ∧ ∃ t l', Way cfg sender born dest t l' ∧ l = l' ++ [(t, .reached, dest, dest)]

/-- **C73, routed.** With logging on, the entries of a transmission are its way: attempts that follow one another in place and time, each with its vain
checks and either "Stopped trying to send" or "Moved message"; at the end "Destination reached" at the destination or "No message route available"
elsewhere; nothing else. -/
theorem c73_routed (cfg : Cfg) (hr : 0 < cfg.rate) (hd : cfg.routing ≠ none) (t : Rat) (ops : List Op) (hon : On ops) (i : Nat) (p : Proc)
    (hp : (run cfg (init t true) ops).1.procs[i]? = some p) :
    ∃ m, (run cfg (init t true) ops).1.heap[p.ref]? = some m ∧ m.dest = p.dest ∧
      TellsWay cfg m.sender m.dest p.born (notes (run cfg (init t true) ops).1.log i) (outcome p.ph) := by
  have inv := reach hr t hon
  obtain ⟨m, h1, h2, -, -, h5⟩ := inv.good p (List.mem_of_getElem? hp)
  rw [inv.ids i p hp] at h5
  refine ⟨m, h1, h2, ?_⟩
  unfold Good at h5
  rw [h2]
  cases hc : cfg.routing with
  | none => exact absurd hc hd
  | some g =>
    rw [hc] at h5
    cases hph : p.ph with
    | choosing d => rw [hph] at h5; exact ⟨p.curr, d, _, h5, .inl ⟨0, 0, fun j hj => absurd hj (Nat.not_lt_zero _), by simp [waits]⟩⟩
    | trying hop n d => rw [hph] at h5; obtain ⟨t, l', g1, g2, -, g4⟩ := h5; exact ⟨p.curr, t, l', g1, .inl ⟨hop, n, g4, g2⟩⟩
    | moving hop d => rw [hph] at h5; exact ⟨hop, d, _, h5, .inl ⟨0, 0, fun j hj => absurd hj (Nat.not_lt_zero _), by simp [waits]⟩⟩
    | putting st t => rw [hph] at h5; obtain ⟨-, l', g1, g2⟩ := h5; exact ⟨p.dest, t, l', g1, .inr ⟨rfl, g2⟩⟩
    | done => rw [hph] at h5; exact h5
    | dropped => rw [hph] at h5; obtain ⟨t, l', g⟩ := h5; exact ⟨p.curr, t, l', g⟩
    | crashed => rw [hph] at h5; exact h5

/-- How often an event is noted. -/
def times (e : Event) (l : List Note) : Nat := l.countP fun n => n.2.1 == e

theorem times_waits (rate : Rat) (c hop : Nat) (t : Rat) (k : Nat) : times .waiting (waits rate c hop t k) = k ∧ times .moved (waits rate c hop t k) = 0 := by
  unfold times waits
  constructor
  · rw [List.countP_eq_length.2 (by simp)]; simp
  · rw [List.countP_eq_zero]; simp

/-- **C73, the time a way takes**: the retry rate for each "Can't send, waiting", the delay for each "Moved message". -/
theorem c73_duration {cfg : Cfg} {sender c : Nat} {born t : Rat} {l : List Note} (h : Way cfg sender born c t l) :
    t = born + times .waiting l * cfg.rate + times .moved l * delay cfg := by
  induction h with
  | start => simp [times]
  | fail hop k hk h ih =>
    rename_i c t l
    obtain ⟨h1, h2⟩ := times_waits cfg.rate c hop t k
    unfold times at h1 h2 ih ⊢
    simp only [List.countP_append, h1, h2]
    simp
    linarith
  | move hop k hk h ih =>
    rename_i c t l
    obtain ⟨h1, h2⟩ := times_waits cfg.rate c hop t k
    unfold times at h1 h2 ih ⊢
    simp only [List.countP_append, h1, h2]
    simp
    linarith

/-- **C73, order.** The log is in the order of time, and every entry belongs to a transmission, whose message it names. -/
theorem c73_order (cfg : Cfg) (hr : 0 < cfg.rate) (t : Rat) (ops : List Op) (hon : On ops) :
    ((run cfg (init t true) ops).1.log.Pairwise fun a b => a.time ≤ b.time) ∧
      ∀ e ∈ (run cfg (init t true) ops).1.log, ∃ p, (run cfg (init t true) ops).1.procs[e.id]? = some p ∧ e.message = p.ref ∧ p.born ≤ e.time ∧
        e.time ≤ (run cfg (init t true) ops).1.now := by
  have inv := reach hr t hon
  refine ⟨inv.sorted, fun e he => ?_⟩
  obtain ⟨p, h1, h2, h3⟩ := inv.known e he
  refine ⟨p, h1, h2, ?_, h3⟩
  obtain ⟨m, -, -, -, -, g⟩ := inv.good p (List.mem_of_getElem? h1)
  have hmem : (e.time, e.event, e.current, e.dest) ∈ notes (run cfg (init t true) ops).1.log p.id := by
    unfold notes
    rw [List.mem_map]
    exact ⟨e, by simp [he, inv.ids _ _ h1], rfl⟩
  have hw : ∀ (c hop : Nat) (t0 : Rat) (k : Nat) (n : Note), n ∈ waits cfg.rate c hop t0 k → t0 ≤ n.1 := by
    intro c hop t0 k n hn
    unfold waits at hn
    rw [List.mem_map] at hn
    obtain ⟨j, -, rfl⟩ := hn
    have : 0 ≤ (j : Rat) * cfg.rate := mul_nonneg (Nat.cast_nonneg _) hr.le
    simp only
    linarith
  have hdl : 0 ≤ delay cfg := le_max_left _ _
  have hway : ∀ {c : Nat} {t0 : Rat} {l : List Note}, Way cfg m.sender p.born c t0 l → p.born ≤ t0 ∧ ∀ n ∈ l, p.born ≤ n.1 := by
    intro c t0 l h
    induction h with
    | start => simp
    | fail hop k hk h ih =>
      rename_i c t0 l
      have hk0 : 0 ≤ (k : Rat) * cfg.rate := mul_nonneg (Nat.cast_nonneg _) hr.le
      refine ⟨by linarith, fun n hn => ?_⟩
      simp only [List.mem_append, List.mem_singleton] at hn
      rcases hn with (hn | hn) | rfl
      · exact ih.2 n hn
      · exact ih.1.trans (hw _ _ _ _ _ hn)
      · simp only; linarith
    | move hop k hk h ih =>
      rename_i c t0 l
      have hk0 : 0 ≤ (k : Rat) * cfg.rate := mul_nonneg (Nat.cast_nonneg _) hr.le
      refine ⟨by linarith, fun n hn => ?_⟩
      simp only [List.mem_append, List.mem_singleton] at hn
      rcases hn with (hn | hn) | rfl
      · exact ih.2 n hn
      · exact ih.1.trans (hw _ _ _ _ _ hn)
      · simp only; linarith
  have hst : ∀ {t0 : Rat} {l : List Note}, Straight cfg m.sender p.dest p.born t0 l → ∀ n ∈ l, p.born ≤ n.1 := by
    rintro t0 l ⟨k, -, h1, rfl⟩ n hn
    have hk0 : 0 ≤ (k : Rat) * cfg.rate := mul_nonneg (Nat.cast_nonneg _) hr.le
    rcases List.mem_append.1 hn with hn | hn
    · exact hw _ _ _ _ _ hn
    · rw [List.mem_singleton] at hn; subst hn; simp only; linarith
  have hend : ∀ {c : Nat} {t0 : Rat} {l l' : List Note} {ev : Event} {a b : Nat}, Way cfg m.sender p.born c t0 l' → l = l' ++ [(t0, ev, a, b)] → ∀ n ∈ l, p.born ≤ n.1 := by
    rintro c t0 l l' ev a b h rfl n hn
    rcases List.mem_append.1 hn with hn | hn
    · exact (hway h).2 n hn
    · rw [List.mem_singleton] at hn; subst hn; exact (hway h).1
  generalize hl : notes (run cfg (init t true) ops).1.log p.id = l at g hmem
  suffices hs : ∀ n ∈ l, p.born ≤ n.1 from hs _ hmem
  unfold Good at g
  cases hc : cfg.routing with
  | none =>
    rw [hc] at g
    obtain ⟨-, g⟩ := g
    cases hph : p.ph with
    | choosing d => rw [hph] at g; exact g.elim
    | trying hop n d => rw [hph] at g; intro x hx; rw [g.2.1] at hx; exact hw _ _ _ _ _ hx
    | moving hop d => rw [hph] at g; obtain ⟨k, -, -, g⟩ := g; intro x hx; rw [g] at hx; exact hw _ _ _ _ _ hx
    | putting st t0 => rw [hph] at g; exact hst g.2
    | done => rw [hph] at g; exact hst g.choose_spec
    | dropped =>
      rw [hph] at g
      obtain ⟨k, -, rfl⟩ := g
      have hk0 : 0 ≤ (k : Rat) * cfg.rate := mul_nonneg (Nat.cast_nonneg _) hr.le
      intro n hn
      rcases List.mem_append.1 hn with hn | hn
      · exact hw _ _ _ _ _ hn
      · rw [List.mem_singleton] at hn; subst hn; simp only; linarith
    | crashed => rw [hph] at g; exact hst g.2.choose_spec
  | some q =>
    rw [hc] at g
    cases hph : p.ph with
    | choosing d => rw [hph] at g; exact (hway g).2
    | trying hop n d =>
      rw [hph] at g
      obtain ⟨t0, l', g1, rfl, -⟩ := g
      intro x hx
      rcases List.mem_append.1 hx with hx | hx
      · exact (hway g1).2 x hx
      · exact (hway g1).1.trans (hw _ _ _ _ _ hx)
    | moving hop d => rw [hph] at g; exact (hway g).2
    | putting st t0 => rw [hph] at g; obtain ⟨-, l', g1, g2⟩ := g; exact hend g1 g2
    | done => rw [hph] at g; obtain ⟨t0, l', g1, g2⟩ := g; exact hend g1 g2
    | dropped => rw [hph] at g; obtain ⟨t0, l', g1, -, g2⟩ := g; exact hend g1 g2
    | crashed => rw [hph] at g; obtain ⟨-, t0, l', g1, g2⟩ := g; exact hend g1 g2

/-! ### One step -/

/-- What a new entry says about the moment it is made. -/
def Holds (cfg : Cfg) (s : St) (e : Entry) : Prop :=
  e.time = s.now ∧
  match e.event with
  | .waiting => blocked s e.current e.dest = true
  | .stopped => blocked s e.current e.dest = true
  | .moved => blocked s e.current e.dest = false
  | .noRoute => e.current ≠ e.dest ∧ ∃ g ord failed, cfg.routing = some (g, ord) ∧ Routing.selectHop ord s.net e.current e.dest failed = none
  | .reached => e.current = e.dest
  | .sent => True

/-- At most one more entry, and that a true one. -/
def More (cfg : Cfg) (s s' : St) : Prop := s'.log = s.log ∨ s.logging = true ∧ ∃ e, s'.log = s.log ++ [e] ∧ Holds cfg s e

theorem deliver_more (cfg : Cfg) (s : St) (i : Nat) (p : Proc) (e : Event) (h : Holds cfg s ⟨p.id, s.now, e, p.ref, p.curr, p.dest⟩) :
    More cfg s (deliver cfg s i p e) := by
  unfold deliver logAttempt
  by_cases hl : s.logging = true
  · right
    refine ⟨hl, _, ?_, h⟩
    rw [if_pos hl]
    cases cfg.storeOf p.dest <;> rfl
  · left
    rw [if_neg hl]
    cases cfg.storeOf p.dest <;> rfl

theorem arriveHop_log (cfg : Cfg) (s : St) (i : Nat) (p : Proc) (hop : Nat) (h : cfg.routing ≠ none) : (arriveHop cfg s i p hop).log = s.log := by
  unfold arriveHop
  cases hc : cfg.routing with
  | none => exact absurd hc h
  | some g => rfl

theorem logAttempt_more (cfg : Cfg) (s s' : St) (p : Proc) (e : Event) (a b : Nat) (h : Holds cfg s ⟨p.id, s.now, e, p.ref, a, b⟩)
    (hs : s'.log = (logAttempt s p e a b).log) : More cfg s s' := by
  unfold logAttempt at hs
  by_cases hl : s.logging = true
  · rw [if_pos hl] at hs; exact .inr ⟨hl, _, hs, h⟩
  · rw [if_neg hl] at hs; exact .inl hs

theorem check_more (cfg : Cfg) (s : St) (i : Nat) (p : Proc) (hop n : Nat) : More cfg s (check cfg s i p hop n) := by
  unfold check
  split
  · exact .inl rfl
  · split
    · rename_i hb
      split
      · refine logAttempt_more cfg s _ p .stopped p.curr hop ⟨rfl, hb⟩ ?_
        unfold giveUp
        split <;> rfl
      · refine logAttempt_more cfg s _ p .waiting p.curr hop ⟨rfl, hb⟩ ?_
        simp only
        split <;> rfl
    · rename_i hb
      unfold pass
      cases hc : cfg.routing with
      | none =>
        simp only
        split
        · exact .inl rfl
        · unfold arriveHop; rw [hc]; exact deliver_more cfg s i p .sent ⟨rfl, trivial⟩
      | some g =>
        simp only
        refine logAttempt_more cfg s _ p .moved p.curr hop ⟨rfl, by simpa using hb⟩ ?_
        split
        · rfl
        · rw [arriveHop_log _ _ _ _ _ (by simp [hc])]

theorem choose_more (cfg : Cfg) (s : St) (i : Nat) (p : Proc) : More cfg s (choose cfg s i p) := by
  unfold choose
  cases hc : cfg.routing with
  | none => exact .inl rfl
  | some g =>
    obtain ⟨g, ord⟩ := g
    simp only
    split
    · rename_i he
      exact deliver_more cfg s i p .reached ⟨rfl, he⟩
    · rename_i he
      cases hsel : Routing.selectHop ord s.net p.curr p.dest p.failed with
      | none => exact logAttempt_more cfg s _ p .noRoute p.curr p.dest ⟨rfl, he, g, ord, p.failed, hc, hsel⟩ rfl
      | some hop => exact .inl rfl

/-- **C73, entries are true.** An operation adds at most one entry, at the present time, and none while logging is off; "waiting" and "stopped" are noted
only when the link they name is blocked at this moment, "moved" only when it is not, "reached" only at the destination, "no route" only when the
routing finds none. -/
theorem c73_true (cfg : Cfg) (s : St) (op : Op) : More cfg s (step cfg s op).1 := by
  cases op with
  | advance d => simp only [step]; split <;> exact .inl rfl
  | make g a b => cases g <;> exact .inl rfl
  | put ref => simp only [step]; split <;> exact .inl rfl
  | take =>
    simp only [step]
    split
    · exact .inl rfl
    · split <;> exact .inl rfl
  | resume i =>
    simp only [step]
    split
    · exact .inl rfl
    · rename_i p hp
      split
      · cases hph : p.ph with
        | choosing d => exact choose_more cfg s i p
        | trying hop n d => exact check_more cfg s i p hop n
        | moving hop d =>
          simp only
          cases hc : cfg.routing with
          | none => unfold arriveHop; rw [hc]; exact deliver_more cfg s i p .sent ⟨rfl, trivial⟩
          | some g => exact .inl (arriveHop_log _ _ _ _ _ (by simp [hc]))
        | _ => exact .inl rfl
      · exact .inl rfl
  | accept i =>
    simp only [step]
    split
    · exact .inl rfl
    · rename_i p hp
      cases hph : p.ph <;> exact .inl rfl
  | _ => exact .inl rfl

/-- Nothing is noted while logging is off. -/
theorem c73_off (cfg : Cfg) (s : St) (h : s.logging = false) (op : Op) : (step cfg s op).1.log = s.log := by
  rcases c73_true cfg s op with h' | ⟨h', -⟩
  · exact h'
  · rw [h] at h'; cases h'

/-! ### Logging changes nothing else -/

/-- The same state with another log. -/
def relog (s : St) (b : Bool) (l : List Entry) : St := { s with logging := b, log := l }

/-- Equal but for the log. -/
def Alike (s s' : St) : Prop := relog s false [] = relog s' false []

theorem alike_iff {s s' : St} : Alike s s' ↔ ∃ b l, s' = relog s b l := by
  constructor
  · intro h
    obtain ⟨n, d, li, no, ne, he, inc, pr, lo, lg⟩ := s
    obtain ⟨n', d', li', no', ne', he', inc', pr', lo', lg'⟩ := s'
    simp only [Alike, relog, St.mk.injEq] at h
    obtain ⟨rfl, rfl, rfl, rfl, rfl, rfl, rfl, rfl, -, -⟩ := h
    exact ⟨lo', lg', rfl⟩
  · rintro ⟨b, l, rfl⟩; rfl

theorem log_alike (s : St) (p : Proc) (e : Event) (a b : Nat) (c : Bool) (l : List Entry) :
    ∃ c' l', logAttempt (relog s c l) p e a b = relog (logAttempt s p e a b) c' l' := by
  unfold logAttempt
  have h : ∀ x : St, ∃ c' l', x = relog x c' l' := fun x => ⟨x.logging, x.log, rfl⟩
  cases c <;> cases hs : s.logging <;> simp [relog, hs] <;> exact ⟨_, _, rfl⟩

theorem deliver_alike (cfg : Cfg) (s : St) (i : Nat) (p : Proc) (e : Event) (c : Bool) (l : List Entry) :
    ∃ c' l', deliver cfg (relog s c l) i p e = relog (deliver cfg s i p e) c' l' := by
  obtain ⟨c', l', h⟩ := log_alike s p e p.curr p.dest c l
  have hn : (relog s c l).now = s.now := rfl
  unfold deliver
  rw [h, hn]
  cases cfg.storeOf p.dest <;> exact ⟨c', l', rfl⟩

theorem arriveHop_alike (cfg : Cfg) (s : St) (i : Nat) (p : Proc) (hop : Nat) (c : Bool) (l : List Entry) :
    ∃ c' l', arriveHop cfg (relog s c l) i p hop = relog (arriveHop cfg s i p hop) c' l' := by
  unfold arriveHop
  cases cfg.routing with
  | none => exact deliver_alike cfg s i p .sent c l
  | some g => exact ⟨c, l, rfl⟩

theorem check_alike (cfg : Cfg) (s : St) (i : Nat) (p : Proc) (hop n : Nat) (c : Bool) (l : List Entry) :
    ∃ c' l', check cfg (relog s c l) i p hop n = relog (check cfg s i p hop n) c' l' := by
  have hb : blocked (relog s c l) p.curr hop = blocked s p.curr hop := rfl
  have hn : (relog s c l).now = s.now := rfl
  unfold check
  cases nTries cfg with
  | none => exact ⟨c, l, rfl⟩
  | some k =>
    simp only
    rw [hb, hn]
    split
    · split
      · obtain ⟨c', l', h⟩ := log_alike s p .stopped p.curr hop c l
        rw [h]
        unfold giveUp
        have hn' : ∀ x : St, (relog x c' l').now = x.now := fun _ => rfl
        rw [hn']
        cases cfg.routing <;> exact ⟨c', l', rfl⟩
      · obtain ⟨c', l', h⟩ := log_alike s p .waiting p.curr hop c l
        rw [h]
        split <;> exact ⟨c', l', rfl⟩
    · unfold pass
      cases cfg.routing with
      | none =>
        simp only
        split
        · exact ⟨c, l, rfl⟩
        · exact arriveHop_alike cfg s i p hop c l
      | some g =>
        simp only
        obtain ⟨c', l', h⟩ := log_alike s p .moved p.curr hop c l
        rw [h]
        split
        · exact ⟨c', l', rfl⟩
        · exact arriveHop_alike cfg _ i p hop c' l'

theorem choose_alike (cfg : Cfg) (s : St) (i : Nat) (p : Proc) (c : Bool) (l : List Entry) :
    ∃ c' l', choose cfg (relog s c l) i p = relog (choose cfg s i p) c' l' := by
  unfold choose
  cases cfg.routing with
  | none => exact ⟨c, l, rfl⟩
  | some g =>
    obtain ⟨g, ord⟩ := g
    simp only
    split
    · exact deliver_alike cfg s i p .reached c l
    · have hn : (relog s c l).net = s.net := rfl
      rw [hn]
      cases Routing.selectHop ord s.net p.curr p.dest p.failed with
      | none =>
        obtain ⟨c', l', h⟩ := log_alike s p .noRoute p.curr p.dest c l
        simp only
        rw [h]
        exact ⟨c', l', rfl⟩
      | some hop => exact ⟨c, l, rfl⟩

theorem step_alike (cfg : Cfg) (s : St) (op : Op) (c : Bool) (l : List Entry) :
    (step cfg (relog s c l) op).2 = (step cfg s op).2 ∧ ∃ c' l', (step cfg (relog s c l) op).1 = relog (step cfg s op).1 c' l' := by
  cases op with
  | advance d =>
    simp only [step]
    have h1 : (relog s c l).now = s.now := rfl
    have h2 : (relog s c l).procs = s.procs := rfl
    rw [h1, h2]
    split <;> exact ⟨rfl, c, l, rfl⟩
  | make g a b => cases g <;> exact ⟨rfl, c, l, rfl⟩
  | put ref =>
    simp only [step]
    have h1 : (relog s c l).heap = s.heap := rfl
    rw [h1]
    split <;> exact ⟨rfl, c, l, rfl⟩
  | take =>
    simp only [step]
    have h1 : (relog s c l).heap = s.heap := rfl
    have h2 : (relog s c l).incoming = s.incoming := rfl
    rw [h1, h2]
    split
    · exact ⟨rfl, c, l, rfl⟩
    · split <;> exact ⟨rfl, c, l, rfl⟩
  | resume i =>
    simp only [step]
    have h1 : (relog s c l).procs = s.procs := rfl
    have h2 : (relog s c l).now = s.now := rfl
    rw [h1, h2]
    split
    · exact ⟨rfl, c, l, rfl⟩
    · rename_i p hp
      split
      · cases hph : p.ph with
        | choosing d => exact ⟨rfl, choose_alike cfg s i p c l⟩
        | trying hop n d => exact ⟨rfl, check_alike cfg s i p hop n c l⟩
        | moving hop d => exact ⟨rfl, arriveHop_alike cfg s i p hop c l⟩
        | _ => exact ⟨rfl, c, l, rfl⟩
      · exact ⟨rfl, c, l, rfl⟩
  | accept i =>
    simp only [step]
    have h1 : (relog s c l).procs = s.procs := rfl
    rw [h1]
    split
    · exact ⟨rfl, c, l, rfl⟩
    · rename_i p hp
      cases hph : p.ph <;> exact ⟨rfl, c, l, rfl⟩
  | setLogging b => exact ⟨rfl, b, l, rfl⟩
  | _ => exact ⟨rfl, c, l, rfl⟩

/-- The same operations, but for switching the logging on and off. -/
def ButLogging (ops ops' : List Op) : Prop := List.Forall₂ (fun a b => a = b ∨ ∃ x y, a = .setLogging x ∧ b = .setLogging y) ops ops'

/-- **C73, logging has no influence.** Whenever logging is switched on or off, the messages, their stamps, the transmissions and the deliveries are the
same. -/
theorem c73_harmless (cfg : Cfg) {ops ops' : List Op} (h : ButLogging ops ops') : ∀ {s s' : St}, Alike s s' →
    (run cfg s ops).2 = (run cfg s' ops').2 ∧ Alike (run cfg s ops).1 (run cfg s' ops').1 := by
  induction h with
  | nil => exact fun h => ⟨rfl, h⟩
  | cons hop _ ih =>
    intro s s' hs
    obtain ⟨b, l, rfl⟩ := alike_iff.1 hs
    have key : ∀ a' : Op, ∀ a : Op, (a = a' ∨ ∃ x y, a = .setLogging x ∧ a' = .setLogging y) →
        (step cfg s a).2 = (step cfg (relog s b l) a').2 ∧ Alike (step cfg s a).1 (step cfg (relog s b l) a').1 := by
      rintro a' a (rfl | ⟨x, y, rfl, rfl⟩)
      · obtain ⟨h1, c', l', h2⟩ := step_alike cfg s a b l
        exact ⟨h1.symm, alike_iff.2 ⟨c', l', h2⟩⟩
      · exact ⟨rfl, rfl⟩
    obtain ⟨k1, k2⟩ := key _ _ hop
    obtain ⟨k3, k4⟩ := ih k2
    exact ⟨by simp only [run, k1, k3], k4⟩

end Verif.Letters
