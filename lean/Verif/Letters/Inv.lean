import Verif.Letters.Spec

/-! # What holds of every transmission -/

namespace Verif.Letters

/-- A transmission and its entries. -/
def Good (cfg : Cfg) (sender : Nat) (p : Proc) (l : List Note) : Prop :=
  match cfg.routing with
  | none => p.curr = sender ∧
    match p.ph with
    | .choosing _ => False
    | .trying hop n d => hop = p.dest ∧ l = waits cfg.rate sender p.dest p.born n ∧ d = p.born + n * cfg.rate ∧ ∀ j : Nat, j < n → (j : Int) ≠ budget cfg
    | .moving _ d => ∃ k : Nat, (∀ j : Nat, j < k → (j : Int) ≠ budget cfg) ∧ d = p.born + k * cfg.rate + delay cfg ∧ l = waits cfg.rate sender p.dest p.born k
    | .putting st t => cfg.storeOf p.dest = some st ∧ Straight cfg sender p.dest p.born t l
    | .done => ∃ t, Straight cfg sender p.dest p.born t l
    | .dropped => GivenUp cfg sender p.dest p.born l
    | .crashed => cfg.storeOf p.dest = none ∧ ∃ t, Straight cfg sender p.dest p.born t l
  | some _ =>
    match p.ph with
    | .choosing d => Way cfg sender p.born p.curr d l
    | .trying hop n d => ∃ t l', Way cfg sender p.born p.curr t l' ∧ l = l' ++ waits cfg.rate p.curr hop t n ∧ d = t + n * cfg.rate ∧
        ∀ j : Nat, j < n → (j : Int) ≠ budget cfg
    | .moving hop d => Way cfg sender p.born hop d l
    | .putting st t => cfg.storeOf p.dest = some st ∧ ∃ l', Way cfg sender p.born p.dest t l' ∧ l = l' ++ [(t, .reached, p.dest, p.dest)]
    | .done => ∃ t l', Way cfg sender p.born p.dest t l' ∧ l = l' ++ [(t, .reached, p.dest, p.dest)]
    | .dropped => ∃ t l', Way cfg sender p.born p.curr t l' ∧ p.curr ≠ p.dest ∧ l = l' ++ [(t, .noRoute, p.curr, p.dest)]
    | .crashed => cfg.storeOf p.dest = none ∧ ∃ t l', Way cfg sender p.born p.dest t l' ∧ l = l' ++ [(t, .reached, p.dest, p.dest)]

structure Inv (cfg : Cfg) (s : St) : Prop where
  on : s.logging = true
  ids : ∀ (i : Nat) (p : Proc), s.procs[i]? = some p → p.id = i
  known : ∀ e ∈ s.log, ∃ p, s.procs[e.id]? = some p ∧ e.message = p.ref ∧ e.time ≤ s.now
  sorted : s.log.Pairwise fun a b => a.time ≤ b.time
  good : ∀ p ∈ s.procs, ∃ m, s.heap[p.ref]? = some m ∧ m.dest = p.dest ∧ m.created ≤ p.born ∧ p.born ≤ s.now ∧ Good cfg m.sender p (notes s.log p.id)
  late : ∀ p ∈ s.procs, ∀ t, due cfg p = some t → s.now ≤ t
  stamps : ∀ (ref : Nat) m, s.heap[ref]? = some m → m.timeSent = lastSent s.log ref ∧ m.timeReceived = none ∧ m.created ≤ s.now

theorem init_inv (cfg : Cfg) (t : Rat) : Inv cfg (init t true) := by
  constructor <;> simp [init]

/-- A process goes on, with at most one entry. -/
def applied (s : St) (i : Nat) (p' : Proc) (ev : Option (Event × Nat × Nat)) : St :=
  { s with procs := s.procs.set i p'
           log := s.log ++ (ev.map fun e => ⟨p'.id, s.now, e.1, p'.ref, e.2.1, e.2.2⟩).toList
           heap := if ev.any (fun e => e.1.final) then s.heap.modify p'.ref fun m => { m with timeSent := some s.now } else s.heap }

/-- What stays as it is. -/
def Same (p p' : Proc) : Prop := p'.id = p.id ∧ p'.ref = p.ref ∧ p'.dest = p.dest ∧ p'.born = p.born

theorem waits_succ (rate : Rat) (c hop : Nat) (t : Rat) (k : Nat) :
    waits rate c hop t (k + 1) = waits rate c hop t k ++ [(t + k * rate, .waiting, c, hop)] := by
  simp [waits, List.range_succ]

theorem notes_append (a b : List Entry) (id : Nat) : notes (a ++ b) id = notes a id ++ notes b id := by simp [notes]

theorem lastSent_append (a : List Entry) (e : Entry) (ref : Nat) :
    lastSent (a ++ [e]) ref = if e.message = ref ∧ e.event.final = true then some e.time else lastSent a ref := by
  unfold lastSent
  rw [List.filter_append]
  by_cases h : e.message = ref ∧ e.event.final = true
  · rw [if_pos h, List.filter_cons_of_pos (by simp [h])]; simp
  · rw [if_neg h, List.filter_cons_of_neg (by simpa using h)]; simp

theorem Inv.apply {cfg : Cfg} {s : St} (h : Inv cfg s) {i : Nat} {p p' : Proc} (hp : s.procs[i]? = some p) (hs : Same p p') (ev : Option (Event × Nat × Nat))
    (hg : ∀ sender, Good cfg sender p (notes s.log p.id) → Good cfg sender p' (notes s.log p.id ++ (ev.map fun e => ((s.now, e.1, e.2.1, e.2.2) : Note)).toList))
    (hd : ∀ t, due cfg p' = some t → s.now ≤ t) : Inv cfg (applied s i p' ev) := by
  obtain ⟨s1, s2, s3, s4⟩ := hs
  have hid := h.ids i p hp
  have hi : i < s.procs.length := (List.getElem?_eq_some_iff.1 hp).1
  have hget : ∀ j, (s.procs.set i p')[j]? = if i = j then some p' else s.procs[j]? := by
    intro j
    rw [List.getElem?_set]
    simp [hi]
  have hheap : ∀ (ref : Nat) m, (applied s i p' ev).heap[ref]? = some m → ∃ m0, s.heap[ref]? = some m0 ∧ m.sender = m0.sender ∧ m.dest = m0.dest ∧
      m.created = m0.created ∧ m.timeReceived = m0.timeReceived ∧
      m.timeSent = if ref = p.ref ∧ ev.any (fun e => e.1.final) = true then some s.now else m0.timeSent := by
    intro ref m hm
    unfold applied at hm
    simp only at hm
    split at hm
    · rename_i hf
      rw [List.getElem?_modify] at hm
      cases h0 : s.heap[ref]? with
      | none => rw [h0] at hm; simp at hm
      | some m0 =>
        rw [h0] at hm
        simp only [Option.map_eq_map, Option.map_some, Option.some.injEq] at hm
        refine ⟨m0, rfl, ?_⟩
        rw [s2] at hm
        by_cases hr : p.ref = ref
        · rw [if_pos hr] at hm
          subst hm
          simp [hr, hf]
        · rw [if_neg hr] at hm
          subst hm
          simp [Ne.symm hr]
    · rename_i hf
      exact ⟨m, hm, rfl, rfl, rfl, rfl, by simp [hf]⟩
  have hheap' : ∀ (ref : Nat) m0, s.heap[ref]? = some m0 → ∃ m, (applied s i p' ev).heap[ref]? = some m := by
    intro ref m0 h0
    unfold applied
    simp only
    split
    · rw [List.getElem?_modify, h0]; exact ⟨_, rfl⟩
    · exact ⟨m0, h0⟩
  refine ⟨h.on, fun j q hq => ?_, fun e he => ?_, ?_, fun q hq => ?_, fun q hq t ht => ?_, fun ref m hm => ?_⟩
  · rw [show (applied s i p' ev).procs = s.procs.set i p' from rfl, hget] at hq
    split at hq
    · rename_i hij; cases hq; rw [s1, hid, hij]
    · exact h.ids j q hq
  · have hcase : e ∈ s.log ∨ (e.id = p.id ∧ e.message = p.ref ∧ e.time = s.now) := by
      have he : e ∈ s.log ++ _ := he
      rcases List.mem_append.1 he with he | he
      · exact .inl he
      · right
        cases ev with
        | none => simp at he
        | some v => simp at he; subst he; exact ⟨s1, s2, rfl⟩
    show ∃ q, (s.procs.set i p')[e.id]? = some q ∧ e.message = q.ref ∧ e.time ≤ s.now
    rcases hcase with he | ⟨e1, e2, e3⟩
    · obtain ⟨q, q1, q2, q3⟩ := h.known e he
      by_cases hij : i = e.id
      · rw [← hij, hp] at q1
        cases q1
        exact ⟨p', by rw [hget, if_pos hij], by rw [q2, s2], q3⟩
      · exact ⟨q, by rw [hget, if_neg hij]; exact q1, q2, q3⟩
    · exact ⟨p', by rw [hget, if_pos (by rw [e1, hid])], by rw [e2, s2], by rw [e3]⟩
  · show (s.log ++ _).Pairwise _
    rw [List.pairwise_append]
    refine ⟨h.sorted, by cases ev <;> simp, fun a ha b hb => ?_⟩
    cases ev with
    | none => simp at hb
    | some v =>
      simp at hb
      subst hb
      obtain ⟨-, -, -, q⟩ := h.known a ha
      exact q
  · have hq : q ∈ s.procs.set i p' := hq
    obtain ⟨j, hj⟩ := List.mem_iff_getElem?.1 hq
    rw [hget] at hj
    have hn : ∀ id, notes (applied s i p' ev).log id = notes s.log id ++ if id = p.id then (ev.map fun e => ((s.now, e.1, e.2.1, e.2.2) : Note)).toList else [] := by
      intro id
      show notes (s.log ++ _) id = _
      rw [notes_append]
      cases ev with
      | none => simp [notes]
      | some v =>
        by_cases hc : id = p.id
        · simp [notes, hc, s1]
        · simp [notes, hc, s1, Ne.symm hc]
    split at hj
    · cases hj
      obtain ⟨m0, g1, g2, g3, g4, g5⟩ := h.good p (List.mem_of_getElem? hp)
      obtain ⟨m, hm⟩ := hheap' _ _ g1
      obtain ⟨m0', k1, k2, k3, k4, -⟩ := hheap _ _ hm
      rw [g1] at k1
      cases k1
      refine ⟨m, by rw [s2]; exact hm, by rw [k3, s3, g2], by rw [k4, s4]; exact g3, by rw [s4]; exact g4, ?_⟩
      rw [hn, s1, if_pos rfl, k2]
      exact hg _ g5
    · rename_i hij
      obtain ⟨m0, g1, g2, g3, g4, g5⟩ := h.good q (List.mem_of_getElem? hj)
      obtain ⟨m, hm⟩ := hheap' _ _ g1
      obtain ⟨m0', k1, k2, k3, k4, -⟩ := hheap _ _ hm
      rw [g1] at k1
      cases k1
      refine ⟨m, hm, by rw [k3, g2], by rw [k4]; exact g3, g4, ?_⟩
      have hne : q.id ≠ p.id := by rw [h.ids j q hj, hid]; exact Ne.symm hij
      rw [hn, if_neg hne, List.append_nil, k2]
      exact g5
  · have hq : q ∈ s.procs.set i p' := hq
    obtain ⟨j, hj⟩ := List.mem_iff_getElem?.1 hq
    rw [hget] at hj
    split at hj
    · cases hj; exact hd t ht
    · exact h.late q (List.mem_of_getElem? hj) t ht
  · obtain ⟨m0, k1, k2, k3, k4, k5, k6⟩ := hheap _ _ hm
    obtain ⟨g1, g2, g3⟩ := h.stamps ref m0 k1
    refine ⟨?_, by rw [k5, g2], by rw [k4]; exact g3⟩
    rw [k6]
    show _ = lastSent (s.log ++ _) ref
    cases ev with
    | none => simpa using g1
    | some v =>
      simp only [Option.map_some, Option.toList_some, lastSent_append, Option.any_some, s2]
      by_cases hc : ref = p.ref ∧ v.1.final = true
      · rw [if_pos hc, if_pos ⟨hc.1.symm, hc.2⟩]
      · rw [if_neg hc, if_neg (fun hx => hc ⟨hx.1.symm, hx.2⟩)]; exact g1

theorem logAttempt_on {s : St} (h : s.logging = true) (p : Proc) (e : Event) (a b : Nat) :
    logAttempt s p e a b = { s with log := s.log ++ [⟨p.id, s.now, e, p.ref, a, b⟩] } := by unfold logAttempt; rw [if_pos h]

/-- A change of the rest of the state. -/
theorem Inv.same {cfg : Cfg} {s s' : St} (h : Inv cfg s) (h1 : s'.logging = true) (h2 : s'.procs = s.procs) (h3 : s'.log = s.log) (h4 : s'.heap = s.heap)
    (h5 : s'.now = s.now) : Inv cfg s' := by
  refine ⟨h1, ?_, ?_, ?_, ?_, ?_, ?_⟩
  · rw [h2]; exact h.ids
  · rw [h2, h3, h5]; exact h.known
  · rw [h3]; exact h.sorted
  · rw [h2, h3, h4, h5]; exact h.good
  · rw [h2, h5]; exact h.late
  · rw [h3, h4, h5]; exact h.stamps

theorem deliver_inv {cfg : Cfg} {s : St} (h : Inv cfg s) {i : Nat} {p : Proc} (hp : s.procs[i]? = some p) (e : Event) (he : e.final = true)
    (hg : ∀ sender, Good cfg sender p (notes s.log p.id) → ∀ ph, ph = .crashed ∧ cfg.storeOf p.dest = none ∨ (∃ st, ph = .putting st s.now ∧ cfg.storeOf p.dest = some st) →
      Good cfg sender { p with ph := ph } (notes s.log p.id ++ [(s.now, e, p.curr, p.dest)])) : Inv cfg (deliver cfg s i p e) := by
  unfold deliver
  rw [logAttempt_on h.on]
  cases hst : cfg.storeOf p.dest with
  | none =>
    have x : Inv cfg (applied s i { p with ph := .crashed } (some (e, p.curr, p.dest))) :=
      h.apply (p' := { p with ph := .crashed }) hp ⟨rfl, rfl, rfl, rfl⟩ _ (fun sender hs => hg sender hs _ (.inl ⟨rfl, hst⟩)) (fun t ht => by simp [due] at ht)
    convert x using 1
    simp [applied, setProc, stamp, he]
  | some st =>
    have x : Inv cfg (applied s i { p with ph := .putting st s.now } (some (e, p.curr, p.dest))) := by
      refine h.apply (p' := { p with ph := .putting st s.now }) hp ⟨rfl, rfl, rfl, rfl⟩ _ (fun sender hs => hg sender hs _ (.inr ⟨st, rfl, hst⟩)) (fun t ht => ?_)
      simp only [due] at ht
      split at ht
      · cases ht
      · cases ht; exact le_rfl
    convert x using 1
    simp [applied, setProc, stamp, he]

end Verif.Letters
