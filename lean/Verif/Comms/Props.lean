import Verif.Comms.Model
import Mathlib.Tactic.Linarith
import Mathlib.Tactic.Ring
import Mathlib.Data.List.Range
import Mathlib.Data.List.Nodup
import Mathlib.Tactic.FieldSimp

/-!
# C33–C35: point-to-point messages

Everything is stated about what a run shows: the checks of the link made for a message (`checks`), with time and result, and
its arrivals in stores (`arrivals`).
-/

namespace Verif.Comms

/-- The checks made for message `id`, in order. -/
def checks (outs : List Out) (id : Nat) : List (Rat × Bool) :=
  outs.filterMap fun o => match o with
    | .checked j t b => if j = id then some (t, b) else none
    | _ => none

/-- Where, what and when of the arrivals of message `id`. -/
def arrivals (outs : List Out) (id : Nat) : List (Nat × Nat × Nat × Rat) :=
  outs.filterMap fun o => match o with
    | .arrived a st j c t => if j = id then some (a, st, c, t) else none
    | _ => none

/-- The messages handed to the manager, in order. -/
def sends : List Op → List Msg
  | [] => []
  | .send source dest content :: r => ⟨source, dest, content⟩ :: sends r
  | .resend m _ _ :: r => m :: sends r
  | _ :: r => sends r

/-- `k` failed checks, the first at `t`, one every `rate`. -/
def failures (t rate : Rat) (k : Nat) : List (Rat × Bool) := (List.range k).map fun j => (t + j * rate, true)

theorem failures_succ (t rate : Rat) (k : Nat) : failures t rate (k + 1) = failures t rate k ++ [(t + k * rate, true)] := by
  simp [failures, List.range_succ]

theorem checks_append (a b : List Out) (id : Nat) : checks (a ++ b) id = checks a id ++ checks b id := by
  simp [checks]

theorem arrivals_append (a b : List Out) (id : Nat) : arrivals (a ++ b) id = arrivals a id ++ arrivals b id := by
  simp [arrivals]

/-- None of the first `k` checks was the last one allowed. -/
def Allowed (cfg : Cfg) (k : Nat) : Prop := ∀ j : Nat, j < k → nTries cfg ≠ some (j : Int)

/-- The delay before the message is put. -/
def delay (cfg : Cfg) : Rat := if 0 < cfg.sendTime then cfg.sendTime else 0

/-- Check number `k` was the first that found the link working. -/
def Passed (cfg : Cfg) (p : Proc) (outs : List Out) (k : Nat) : Prop :=
  Allowed cfg k ∧ checks outs p.id = failures p.born cfg.rate k ++ [(p.born + k * cfg.rate, false)]

/-- What holds of a process, given everything shown so far. -/
def Good (cfg : Cfg) (outs : List Out) (p : Proc) : Prop :=
  match p.ph with
  | .trying n due => Allowed cfg n ∧ (n ≠ 0 → cfg.rate > 0) ∧ due = p.born + n * cfg.rate ∧
      checks outs p.id = failures p.born cfg.rate n ∧ arrivals outs p.id = []
  | .sending due => cfg.rate ≠ 0 ∧ 0 < cfg.sendTime ∧ arrivals outs p.id = [] ∧
      ∃ k : Nat, Passed cfg p outs k ∧ due = p.born + k * cfg.rate + delay cfg
  | .putting _ since => cfg.rate ≠ 0 ∧ arrivals outs p.id = [] ∧
      ∃ k : Nat, Passed cfg p outs k ∧ since = p.born + k * cfg.rate + delay cfg
  | .done => cfg.rate ≠ 0 ∧ ∃ (k : Nat) (st : Nat) (t : Rat), Passed cfg p outs k ∧
      arrivals outs p.id = [(p.msg.dest, st, p.msg.content, t)] ∧ p.born + k * cfg.rate + delay cfg ≤ t ∧
      (cfg.limited p.msg.dest st = false → t = p.born + k * cfg.rate + delay cfg)
  | .dropped => cfg.rate ≠ 0 ∧ arrivals outs p.id = [] ∧
      ∃ k : Nat, nTries cfg = some (k : Int) ∧ Allowed cfg k ∧ checks outs p.id = failures p.born cfg.rate (k + 1)
  | .crashed => arrivals outs p.id = [] ∧ (cfg.rate ≤ 0 ∨ ∃ k : Nat, Passed cfg p outs k)

structure Inv (cfg : Cfg) (ms : List Msg) (s : St) (outs : List Out) : Prop where
  ids : s.procs.map (·.id) ++ s.incoming.map (·.1) = List.range s.nextId
  msgs : s.procs.map (·.msg) ++ s.incoming.map (·.2) = ms
  len : ms.length = s.nextId
  good : ∀ p ∈ s.procs, Good cfg outs p
  fresh : ∀ id, id ∉ s.procs.map (·.id) → checks outs id = [] ∧ arrivals outs id = []
  time : ∀ p ∈ s.procs, ∀ t, due cfg p = some t → s.now ≤ t
  since : ∀ p ∈ s.procs, ∀ st t, p.ph = .putting st t → t ≤ s.now

theorem init_inv (cfg : Cfg) (t : Rat) : Inv cfg [] (init t) [] :=
  ⟨rfl, rfl, rfl, by simp [init], fun _ _ => ⟨rfl, rfl⟩, by simp [init], by simp [init]⟩

/-- What is shown about other messages does not matter. -/
theorem Good.other {cfg : Cfg} {outs : List Out} {p : Proc} (h : Good cfg outs p) {o : Out}
    (h1 : checks [o] p.id = []) (h2 : arrivals [o] p.id = []) : Good cfg (outs ++ [o]) p := by
  have e1 : checks (outs ++ [o]) p.id = checks outs p.id := by rw [checks_append, h1, List.append_nil]
  have e2 : arrivals (outs ++ [o]) p.id = arrivals outs p.id := by rw [arrivals_append, h2, List.append_nil]
  unfold Good at h ⊢
  simp only [Passed, e1, e2] at h ⊢
  exact h

theorem Good.silent {cfg : Cfg} {outs : List Out} {p : Proc} (h : Good cfg outs p) : Good cfg (outs ++ [.silent]) p :=
  h.other rfl rfl

theorem Inv.quiet {cfg : Cfg} {msgs : List Msg} {s s' : St} {outs : List Out} (h : Inv cfg msgs s outs)
    (h1 : s'.procs = s.procs) (h2 : s'.incoming = s.incoming) (h3 : s'.nextId = s.nextId) (h4 : s'.now = s.now) :
    Inv cfg msgs s' (outs ++ [.silent]) := by
  refine ⟨by rw [h1, h2, h3]; exact h.ids, by rw [h1, h2]; exact h.msgs, h.len.trans h3.symm, ?_, ?_, ?_, ?_⟩
  · intro p hp; rw [h1] at hp; exact (h.good p hp).silent
  · intro id hid; rw [h1] at hid
    obtain ⟨a, b⟩ := h.fresh id hid
    exact ⟨by rw [checks_append, a]; rfl, by rw [arrivals_append, b]; rfl⟩
  · intro p hp; rw [h1] at hp; rw [h4]; exact h.time p hp
  · intro p hp; rw [h1] at hp; rw [h4]; exact h.since p hp

/-- Replacing process `i` by one that is the same but for its phase. -/
theorem Inv.change {cfg : Cfg} {msgs : List Msg} {s : St} {outs : List Out} (h : Inv cfg msgs s outs) {i : Nat} {p : Proc}
    (hp : s.procs[i]? = some p) (ph : Ph) (o : Out)
    (hg : Good cfg (outs ++ [o]) { p with ph := ph })
    (ho : ∀ id, id ≠ p.id → checks [o] id = [] ∧ arrivals [o] id = [])
    (ht : ∀ t, due cfg { p with ph := ph } = some t → s.now ≤ t) (hsn : ∀ st t, ph = .putting st t → t ≤ s.now) :
    Inv cfg msgs { s with procs := s.procs.set i { p with ph := ph } } (outs ++ [o]) := by
  have hlt : i < s.procs.length := (List.getElem?_eq_some_iff.mp hp).1
  have hpi : s.procs[i] = p := (List.getElem?_eq_some_iff.mp hp).2
  have hids : (s.procs.set i { p with ph := ph }).map (·.id) = s.procs.map (·.id) := by
    rw [List.map_set]
    have : ({ p with ph := ph } : Proc).id = (s.procs.map (·.id))[i]'(by simpa using hlt) := by simp [hpi]
    rw [this, List.set_getElem_self]
  have hms : (s.procs.set i { p with ph := ph }).map (·.msg) = s.procs.map (·.msg) := by
    rw [List.map_set]
    have : ({ p with ph := ph } : Proc).msg = (s.procs.map (·.msg))[i]'(by simpa using hlt) := by simp [hpi]
    rw [this, List.set_getElem_self]
  have hnd : (s.procs.map (·.id)).Nodup := by
    have : (s.procs.map (·.id) ++ s.incoming.map (·.1)).Nodup := by rw [h.ids]; exact List.nodup_range
    exact (List.nodup_append.mp this).1
  have hne : ∀ q ∈ s.procs.set i { p with ph := ph }, q = { p with ph := ph } ∨ (q ∈ s.procs ∧ q.id ≠ p.id) := by
    intro q hq
    obtain ⟨j, hj, hqj⟩ := List.mem_iff_getElem.mp hq
    rw [List.getElem_set] at hqj
    split at hqj
    · exact Or.inl hqj.symm
    · rename_i hij
      right
      have hj' : j < s.procs.length := by simpa using hj
      refine ⟨hqj ▸ List.getElem_mem _, fun he => hij ?_⟩
      have h1 : (s.procs.map (·.id))[i]'(by simpa using hlt) = (s.procs.map (·.id))[j]'(by simpa using hj') := by
        simp [hpi, hqj, he]
      exact (hnd.getElem_inj_iff).mp h1
  refine ⟨by dsimp only; rw [hids]; exact h.ids, by dsimp only; rw [hms]; exact h.msgs, h.len, ?_, ?_, ?_, ?_⟩
  · intro q hq
    rcases hne q hq with rfl | ⟨hq', hid⟩
    · exact hg
    · exact (h.good q hq').other (ho _ hid).1 (ho _ hid).2
  · intro id hid
    dsimp only at hid
    rw [hids] at hid
    obtain ⟨a, b⟩ := h.fresh id hid
    have hne' : id ≠ p.id := by
      rintro rfl
      exact hid (List.mem_map.mpr ⟨p, hpi ▸ List.getElem_mem hlt, rfl⟩)
    exact ⟨by rw [checks_append, a, (ho id hne').1]; rfl, by rw [arrivals_append, b, (ho id hne').2]; rfl⟩
  · intro q hq t
    rcases hne q hq with rfl | ⟨hq', _⟩
    · exact ht t
    · exact h.time q hq' t
  · intro q hq
    rcases hne q hq with rfl | ⟨hq', _⟩
    · exact hsn
    · exact h.since q hq'

theorem Inv.same {cfg : Cfg} {msgs : List Msg} {s : St} {outs : List Out} (h : Inv cfg msgs s outs) :
    Inv cfg msgs s (outs ++ [.silent]) := h.quiet rfl rfl rfl rfl

theorem Inv.added {cfg : Cfg} {msgs : List Msg} {s : St} {outs : List Out} (h : Inv cfg msgs s outs) (m : Msg) :
    Inv cfg (msgs ++ [m]) { s with incoming := s.incoming ++ [(s.nextId, m)], nextId := s.nextId + 1 }
      (outs ++ [.silent]) := by
  have h' := h.same
  refine ⟨?_, ?_, ?_, h'.good, h'.fresh, h'.time, h'.since⟩
  · dsimp only
    rw [List.map_append, ← List.append_assoc, h.ids, List.range_succ]; rfl
  · dsimp only
    rw [List.map_append, ← List.append_assoc, h.msgs]; rfl
  · simp [h.len]

/-- The message a put is tried for now. -/
theorem startPut_good {cfg : Cfg} {s : St} {outs : List Out} {p : Proc} {k : Nat} (hr : cfg.rate ≠ 0)
    (ha : arrivals outs p.id = []) (hk : Passed cfg p outs k) (hn : s.now = p.born + k * cfg.rate + delay cfg) :
    Good cfg outs { p with ph := startPut cfg s p.msg } ∧
    (∀ t, due cfg { p with ph := startPut cfg s p.msg } = some t → s.now ≤ t) ∧
    (∀ st t, startPut cfg s p.msg = .putting st t → t ≤ s.now) := by
  unfold startPut
  split
  · exact ⟨⟨ha, Or.inr ⟨k, hk⟩⟩, fun t ht => by simp [due] at ht, fun st t ht => by simp at ht⟩
  · refine ⟨⟨hr, ha, k, hk, hn⟩, fun t ht => ?_, fun st t ht => ?_⟩
    · simp only [due] at ht
      split at ht
      · simp at ht
      · simp only [Option.some.injEq] at ht; exact le_of_eq ht
    · simp only [Ph.putting.injEq] at ht; exact le_of_eq ht.2.symm

theorem step_inv {cfg : Cfg} {msgs : List Msg} {s : St} {outs : List Out} (h : Inv cfg msgs s outs) (op : Op) :
    Inv cfg (msgs ++ sends [op]) (step cfg s op).1 (outs ++ [(step cfg s op).2]) := by
  cases op with
  | advance d =>
    simp only [sends, List.append_nil, step]
    split
    · rename_i hd
      have h' := h.same
      refine ⟨h'.ids, h'.msgs, h'.len, h'.good, h'.fresh, hd.2, ?_⟩
      intro p hp st t ht
      have := h.since p hp st t ht
      dsimp only
      linarith [hd.1]
    · exact h.same
  | send a b c => exact h.added ⟨a, b, c⟩
  | resend m a b => exact h.added m
  | take =>
    simp only [sends, List.append_nil, step]
    split
    · exact h.same
    · rename_i id m r hin
      have hids := h.ids
      have hmsgs := h.msgs
      rw [hin] at hids hmsgs
      refine ⟨?_, ?_, h.len, ?_, ?_, ?_, ?_⟩
      · simpa using hids
      · simpa using hmsgs
      · intro p hp
        dsimp only at hp
        rw [List.mem_append] at hp
        rcases hp with hp | hp
        · exact (h.good p hp).silent
        · simp only [List.mem_singleton] at hp
          subst hp
          have hnew : id ∉ s.procs.map (·.id) := by
            have : (s.procs.map (·.id) ++ ((id, m) :: r).map (·.1)).Nodup := by rw [hids]; exact List.nodup_range
            intro hm
            exact (List.nodup_append.mp this).2.2 id hm id (by simp) rfl
          obtain ⟨a, b⟩ := h.fresh id hnew
          refine ⟨fun j hj => absurd hj (by omega), by simp, by simp, ?_, ?_⟩
          · rw [checks_append, a]; rfl
          · rw [arrivals_append, b]; rfl
      · intro j hj
        simp only [List.map_append, List.mem_append, not_or] at hj
        obtain ⟨a, b⟩ := h.fresh j hj.1
        exact ⟨by rw [checks_append, a]; rfl, by rw [arrivals_append, b]; rfl⟩
      · intro p hp t ht
        dsimp only at hp
        rw [List.mem_append] at hp
        rcases hp with hp | hp
        · exact h.time p hp t ht
        · simp only [List.mem_singleton] at hp
          subst hp
          simp only [due, Option.some.injEq] at ht
          exact le_of_eq ht
      · intro p hp
        dsimp only at hp
        rw [List.mem_append] at hp
        rcases hp with hp | hp
        · exact h.since p hp
        · simp only [List.mem_singleton] at hp
          subst hp
          intro st t ht; simp at ht
  | resume i =>
    simp only [sends, List.append_nil, step]
    cases hp : s.procs[i]? with
    | none => exact h.same
    | some p =>
      have hg := h.good p (by obtain ⟨hl, rfl⟩ := List.getElem?_eq_some_iff.mp hp; exact List.getElem_mem hl)
      dsimp only
      cases hph : p.ph with
      | trying n due =>
        dsimp only
        split
        · rename_i hd
          unfold Good at hg
          rw [hph] at hg
          obtain ⟨g1, g2, g3, g4, g5⟩ := hg
          by_cases h0 : cfg.rate = 0
          · rw [if_pos h0]
            have hc : check cfg s p.msg n = .crashed := by simp [check, nTries, h0]
            rw [hc]
            exact h.change hp _ _ ⟨by rw [arrivals_append, g5]; rfl, Or.inl (le_of_eq h0)⟩ (fun _ _ => ⟨rfl, rfl⟩)
              (fun t ht => by simp [Comms.due] at ht) (fun st t ht => by simp at ht)
          rw [if_neg h0]
          generalize hb : blocked s p.msg.sender p.msg.dest = b
          have ec : checks (outs ++ [.checked p.id s.now b]) p.id = failures p.born cfg.rate n ++ [(p.born + n * cfg.rate, b)] := by
            rw [checks_append, g4, ← g3, hd]; simp [checks]
          have ea : arrivals (outs ++ [.checked p.id s.now b]) p.id = [] := by
            rw [arrivals_append, g5]; rfl
          have eo : ∀ id, id ≠ p.id → checks [.checked p.id s.now b] id = [] ∧ arrivals [.checked p.id s.now b] id = [] := by
            intro id hid
            refine ⟨?_, rfl⟩
            simp [checks, Ne.symm hid]
          have key : Good cfg (outs ++ [.checked p.id s.now b]) { p with ph := check cfg s p.msg n } ∧
              (∀ t, Comms.due cfg { p with ph := check cfg s p.msg n } = some t → s.now ≤ t) ∧
              (∀ st t, check cfg s p.msg n = .putting st t → t ≤ s.now) := by
            unfold check
            cases hN : nTries cfg with
            | none =>
              have hr : cfg.rate = 0 := by
                unfold nTries at hN
                by_contra hc
                rw [if_neg hc] at hN
                simp at hN
              exact ⟨⟨ea, Or.inl (le_of_eq hr)⟩, fun t ht => by simp [Comms.due] at ht, fun st t ht => by simp at ht⟩
            | some k =>
              have hr : cfg.rate ≠ 0 := by
                rintro hc
                simp [nTries, hc] at hN
              dsimp only
              rw [hb]
              cases b with
              | true =>
                simp only [if_true]
                split
                · rename_i hnk
                  refine ⟨⟨hr, ea, n, by rw [hN, hnk], g1, ?_⟩, fun t ht => by simp [Comms.due] at ht, fun st t ht => by simp at ht⟩
                  rw [failures_succ]; exact ec
                · rename_i hnk
                  split
                  · rename_i hneg
                    exact ⟨⟨ea, Or.inl (le_of_lt hneg)⟩, fun t ht => by simp [Comms.due] at ht, fun st t ht => by simp at ht⟩
                  · rename_i hneg
                    have hpos : cfg.rate > 0 := lt_of_le_of_ne (not_lt.mp hneg) (Ne.symm hr)
                    refine ⟨⟨?_, fun _ => hpos, ?_, ?_, ea⟩, fun t ht => ?_, fun st t ht => by simp at ht⟩
                    · intro j hj
                      rcases Nat.lt_succ_iff_lt_or_eq.mp hj with hj | rfl
                      · exact g1 j hj
                      · rw [hN]
                        intro he
                        simp only [Option.some.injEq] at he
                        exact hnk he.symm
                    · rw [← hd, g3]; push_cast; ring
                    · rw [failures_succ]; exact ec
                    · simp only [Comms.due, Option.some.injEq] at ht
                      rw [← ht]; linarith
              | false =>
                simp only [Bool.false_eq_true, if_false]
                have hpass : Passed cfg p (outs ++ [.checked p.id s.now false]) n := ⟨g1, ec⟩
                split
                · rename_i hst
                  refine ⟨⟨hr, hst, ea, n, hpass, ?_⟩, fun t ht => ?_, fun st t ht => by simp at ht⟩
                  · rw [← hd, g3, delay, if_pos hst]
                  · simp only [Comms.due, Option.some.injEq] at ht
                    rw [← ht]; linarith
                · rename_i hst
                  refine startPut_good hr ea hpass ?_
                  rw [delay, if_neg hst, ← hd, g3]; ring
          exact h.change hp _ _ key.1 eo key.2.1 key.2.2
        · exact h.same
      | sending due =>
        dsimp only
        split
        · rename_i hd
          unfold Good at hg
          rw [hph] at hg
          obtain ⟨g1, g2, g3, k, g4, g5⟩ := hg
          have h' : Good cfg (outs ++ [.silent]) { p with ph := startPut cfg s p.msg } ∧ _ ∧ _ :=
            startPut_good (k := k) g1 (by rw [arrivals_append, g3]; rfl)
              ⟨g4.1, by rw [checks_append, g4.2]; simp [checks]⟩ (by rw [← hd, g5])
          exact h.change hp _ _ h'.1 (fun _ _ => ⟨rfl, rfl⟩) h'.2.1 h'.2.2
        · exact h.same
      | putting st t => exact h.same
      | done => exact h.same
      | dropped => exact h.same
      | crashed => exact h.same
  | accept i =>
    simp only [sends, List.append_nil, step]
    cases hp : s.procs[i]? with
    | none => exact h.same
    | some p =>
      have hmem : p ∈ s.procs := by obtain ⟨hl, rfl⟩ := List.getElem?_eq_some_iff.mp hp; exact List.getElem_mem hl
      have hg := h.good p hmem
      dsimp only
      cases hph : p.ph with
      | putting st t =>
        dsimp only
        have hs := h.since p hmem st t hph
        unfold Good at hg
        rw [hph] at hg
        obtain ⟨g1, g2, k, g3, g4⟩ := hg
        refine h.change hp .done _ ?_ (fun id hid => ⟨rfl, by simp [arrivals, Ne.symm hid]⟩)
          (fun t ht => by simp [due] at ht) (fun st t ht => by simp at ht)
        refine ⟨g1, k, st, s.now, ⟨g3.1, by rw [checks_append, g3.2]; simp [checks]⟩, ?_, by rw [← g4]; exact hs, ?_⟩
        · rw [arrivals_append, g2]; simp [arrivals]
        · intro hl
          have := h.time p hmem t (by simp [due, hph, hl])
          rw [← g4]
          exact le_antisymm this hs
      | trying n d => exact h.same
      | sending d => exact h.same
      | done => exact h.same
      | dropped => exact h.same
      | crashed => exact h.same
  | setDegraded b => simp only [sends, List.append_nil]; exact h.quiet rfl rfl rfl rfl
  | setLinks b => simp only [sends, List.append_nil]; exact h.quiet rfl rfl rfl rfl
  | setNodes b => simp only [sends, List.append_nil]; exact h.quiet rfl rfl rfl rfl
  | connect a b => simp only [sends, List.append_nil]; exact h.quiet rfl rfl rfl rfl

theorem sends_cons (op : Op) (r : List Op) : sends (op :: r) = sends [op] ++ sends r := by
  cases op <;> simp [sends]

theorem run_inv (cfg : Cfg) (ops : List Op) : ∀ (msgs : List Msg) (s : St) (outs : List Out), Inv cfg msgs s outs →
    Inv cfg (msgs ++ sends ops) (run cfg s ops).1 (outs ++ (run cfg s ops).2) := by
  induction ops with
  | nil => intro msgs s outs h; simpa [run, sends] using h
  | cons op r ih =>
    intro msgs s outs h
    have := ih _ _ _ (step_inv h op)
    rw [sends_cons]
    simpa [run] using this

/-- The invariant for a whole run. -/
theorem reach (cfg : Cfg) (t : Rat) (ops : List Op) :
    Inv cfg (sends ops) (run cfg (init t) ops).1 (run cfg (init t) ops).2 := by
  simpa using run_inv cfg ops [] (init t) [] (init_inv cfg t)

/-- The process of message `id` is process number `id`. -/
theorem Inv.at_id {cfg : Cfg} {msgs : List Msg} {s : St} {outs : List Out} (h : Inv cfg msgs s outs) {i : Nat} {p : Proc}
    (hp : s.procs[i]? = some p) : p.id = i ∧ msgs[i]? = some p.msg := by
  obtain ⟨hl, rfl⟩ := List.getElem?_eq_some_iff.mp hp
  constructor
  · have h1 : (s.procs.map (·.id) ++ s.incoming.map (·.1))[i]? = some s.procs[i].id := by
      rw [List.getElem?_append_left (by simpa using hl)]; simp [hl]
    rw [h.ids] at h1
    rw [List.getElem?_range] at h1
    · simpa using h1.symm
    · by_contra hc
      rw [List.getElem?_eq_none (by simpa using hc)] at h1
      simp at h1
  · rw [← h.msgs, List.getElem?_append_left (by simpa using hl)]; simp [hl]

/-! ## C33 -/

/-- The number of retries allowed is the least one whose total time is not less than the maximum. -/
theorem c33_budget (cfg : Cfg) (hr : 0 < cfg.rate) :
    ∃ N : Int, nTries cfg = some N ∧ cfg.max ≤ N * cfg.rate ∧ N * cfg.rate < cfg.max + cfg.rate := by
  refine ⟨⌈cfg.max / cfg.rate⌉, by simp [nTries, ne_of_gt hr], ?_, ?_⟩
  · have := Int.le_ceil (cfg.max / cfg.rate)
    calc cfg.max = cfg.max / cfg.rate * cfg.rate := by field_simp
      _ ≤ _ := mul_le_mul_of_nonneg_right this (le_of_lt hr)
  · have := Int.ceil_lt_add_one (cfg.max / cfg.rate)
    calc (⌈cfg.max / cfg.rate⌉ : Rat) * cfg.rate < (cfg.max / cfg.rate + 1) * cfg.rate :=
          mul_lt_mul_of_pos_right this hr
      _ = _ := by field_simp

/-- Still at it, or arrived, or given up, or failed. -/
inductive Outcome where
  | pending
  | arrived
  | dropped
  | failed
deriving DecidableEq, Repr

def outcome : Ph → Outcome
  | .trying _ _ | .sending _ | .putting _ _ => .pending
  | .done => .arrived
  | .dropped => .dropped
  | .crashed => .failed

theorem allowed_le {cfg : Cfg} {N : Nat} (hN : nTries cfg = some (N : Int)) {k : Nat} (hk : Allowed cfg k) : k ≤ N := by
  by_contra hc
  exact hk N (by omega) hN

/-- **C33.** With a positive rate, and `N` the retries that the maximum time allows. For each transmission, started at
`born`: the checks made so far are at `born`, `born + rate`, ...; all but perhaps the last found the link blocked, and there
are at most `N + 1`. Once one finds it working there are no more: the message is on its way and arrives the delay later (or
as soon as a limited store accepts it). If all `N + 1` found it blocked it is dropped; it is dropped in no other case. -/
theorem c33_retry_policy (cfg : Cfg) (t : Rat) (ops : List Op) (hr : 0 < cfg.rate) (N : Nat) (hN : nTries cfg = some (N : Int))
    (i : Nat) (p : Proc) (hp : (run cfg (init t) ops).1.procs[i]? = some p) :
    let outs := (run cfg (init t) ops).2
    (∃ k : Nat, k ≤ N ∧ checks outs i = failures p.born cfg.rate k ∧ outcome p.ph = .pending) ∨
    (∃ k : Nat, k ≤ N ∧ checks outs i = failures p.born cfg.rate k ++ [(p.born + k * cfg.rate, false)] ∧
      ((outcome p.ph = .pending ∧ arrivals outs i = []) ∨ (outcome p.ph = .failed ∧ arrivals outs i = []) ∨
       (outcome p.ph = .arrived ∧ ∃ st t', arrivals outs i = [(p.msg.dest, st, p.msg.content, t')] ∧
          p.born + k * cfg.rate + delay cfg ≤ t' ∧
          (cfg.limited p.msg.dest st = false → t' = p.born + k * cfg.rate + delay cfg)))) ∨
    (checks outs i = failures p.born cfg.rate (N + 1) ∧ outcome p.ph = .dropped ∧ arrivals outs i = []) := by
  have inv := reach cfg t ops
  intro outs
  obtain ⟨hid, _⟩ := inv.at_id hp
  have hg := inv.good p (by obtain ⟨hl, rfl⟩ := List.getElem?_eq_some_iff.mp hp; exact List.getElem_mem hl)
  unfold Good at hg
  cases hph : p.ph with
  | trying n d =>
    rw [hph] at hg
    obtain ⟨g1, _, _, g4, _⟩ := hg
    exact Or.inl ⟨n, allowed_le hN g1, hid ▸ g4, rfl⟩
  | sending d =>
    rw [hph] at hg
    obtain ⟨_, _, g3, k, g4, _⟩ := hg
    exact Or.inr (Or.inl ⟨k, allowed_le hN g4.1, hid ▸ g4.2, Or.inl ⟨rfl, hid ▸ g3⟩⟩)
  | putting st d =>
    rw [hph] at hg
    obtain ⟨_, g3, k, g4, _⟩ := hg
    exact Or.inr (Or.inl ⟨k, allowed_le hN g4.1, hid ▸ g4.2, Or.inl ⟨rfl, hid ▸ g3⟩⟩)
  | done =>
    rw [hph] at hg
    obtain ⟨_, k, st, t', g4, g5, g6, g7⟩ := hg
    exact Or.inr (Or.inl ⟨k, allowed_le hN g4.1, hid ▸ g4.2, Or.inr (Or.inr ⟨rfl, st, t', hid ▸ g5, g6, g7⟩)⟩)
  | dropped =>
    rw [hph] at hg
    obtain ⟨_, g3, k, g4, _, g5⟩ := hg
    rw [hN] at g4
    simp only [Option.some.injEq, Nat.cast_inj] at g4
    subst g4
    exact Or.inr (Or.inr ⟨hid ▸ g5, rfl, hid ▸ g3⟩)
  | crashed =>
    rw [hph] at hg
    obtain ⟨g3, g4 | ⟨k, g4⟩⟩ := hg
    · exact absurd g4 (not_le.mpr hr)
    · exact Or.inr (Or.inl ⟨k, allowed_le hN g4.1, hid ▸ g4.2, Or.inr (Or.inl ⟨rfl, hid ▸ g3⟩)⟩)

/-- **C33 (progress).** A transmission waiting for a check is at the time `due` it should be checked, time cannot pass
beyond that, and when it is resumed then, the check is made: working, it goes on at once; blocked, it waits or is
dropped. -/
theorem c33_check_made (cfg : Cfg) (t : Rat) (ops : List Op) (hr : cfg.rate ≠ 0) (i n : Nat) (p : Proc) (d : Rat)
    (hp : (run cfg (init t) ops).1.procs[i]? = some p) (hph : p.ph = .trying n d) :
    let s := (run cfg (init t) ops).1
    s.now ≤ d ∧ d = p.born + n * cfg.rate ∧ (∀ e, (step cfg s (.advance e)).1.now ≤ d) ∧
    (d = s.now → (step cfg s (.resume i)).2 = .checked i s.now (blocked s p.msg.sender p.msg.dest)) := by
  have inv := reach cfg t ops
  intro s
  have hmem : p ∈ s.procs := by obtain ⟨hl, rfl⟩ := List.getElem?_eq_some_iff.mp hp; exact List.getElem_mem hl
  have hg := inv.good p hmem
  unfold Good at hg
  rw [hph] at hg
  have hd := inv.time p hmem d (by simp [due, hph])
  refine ⟨hd, hg.2.2.1, ?_, ?_⟩
  · intro e
    simp only [step]
    split
    · rename_i he
      exact he.2 p hmem d (by simp [due, hph])
    · exact hd
  · intro hds
    obtain ⟨hid, _⟩ := inv.at_id hp
    have hp' : s.procs[i]? = some p := hp
    simp only [step, hp', hph, if_pos hds, hid, if_neg hr]

/-! ## C34 -/

/-- **C34.** The check of a message from `a` to `b` finds the link blocked exactly when all is degraded, or `a` or `b` is a
listed node, or the link from `a` to `b` is listed. -/
theorem c34_exactly_configured (cfg : Cfg) (t : Rat) (ops : List Op) (i id : Nat) (t' : Rat) (b : Bool) (p : Proc)
    (hp : (run cfg (init t) ops).1.procs[i]? = some p)
    (h : (step cfg (run cfg (init t) ops).1 (.resume i)).2 = .checked id t' b) :
    (b = true ↔ (run cfg (init t) ops).1.degraded = true ∨ p.msg.sender ∈ (run cfg (init t) ops).1.nodes ∨
      p.msg.dest ∈ (run cfg (init t) ops).1.nodes ∨ (p.msg.sender, p.msg.dest) ∈ (run cfg (init t) ops).1.links) := by
  generalize (run cfg (init t) ops).1 = s at hp h ⊢
  simp only [step, hp] at h
  split at h
  · split at h
    · split at h
      · simp at h
      simp only [Out.checked.injEq] at h
      rw [← h.2.2]
      unfold blocked linkCompare
      simp only [Bool.or_eq_true]
      by_cases hn : p.msg.sender ∈ s.nodes ∨ p.msg.dest ∈ s.nodes
      · rw [if_pos hn]; simp only [or_true, true_iff]
        rcases hn with hn | hn
        · exact Or.inr (Or.inl hn)
        · exact Or.inr (Or.inr (Or.inl hn))
      · rw [if_neg hn]
        rw [not_or] at hn
        simp only [hn.1, hn.2, false_or]
        apply or_congr Iff.rfl
        rw [List.any_eq_true]
        constructor
        · rintro ⟨⟨x, y⟩, hm, hxy⟩
          simp only [Bool.and_eq_true, beq_iff_eq] at hxy
          obtain ⟨rfl, rfl⟩ := hxy
          exact hm
        · intro hm
          exact ⟨_, hm, by simp⟩
    · simp at h
  · split at h <;> simp at h
  · simp at h

/-- **C34 (direction).** Listing the opposite direction, or any other pair, does not block a message from `a` to `b`. -/
theorem c34_directed (s : St) (a b x y : Nat) (hxy : (x, y) ≠ (a, b)) :
    blocked { s with links := (x, y) :: s.links } a b = blocked s a b := by
  have : ¬ (a = x ∧ b = y) := fun ⟨h1, h2⟩ => hxy (by rw [h1, h2])
  unfold blocked linkCompare
  dsimp only
  split
  · rfl
  · congr 1
    rw [List.any_cons]
    have : (a == x && b == y) = false := by
      rw [Bool.eq_false_iff]; simpa using this
    rw [this, Bool.false_or]

/-! ## C35 -/

/-- **C35 (at most once, unaltered, right place).** A message handed to the manager arrives at most once in all stores, in
its destination, with its content; nothing arrives that was not handed over. -/
theorem c35_at_most_once (cfg : Cfg) (t : Rat) (ops : List Op) (id : Nat) :
    (arrivals (run cfg (init t) ops).2 id).length ≤ 1 ∧
    ∀ a ∈ arrivals (run cfg (init t) ops).2 id, ∃ m, (sends ops)[id]? = some m ∧ a.1 = m.dest ∧ a.2.2.1 = m.content := by
  have inv := reach cfg t ops
  by_cases hid : id ∈ (run cfg (init t) ops).1.procs.map (·.id)
  · obtain ⟨p, hp, rfl⟩ := List.mem_map.mp hid
    obtain ⟨i, hi⟩ := List.mem_iff_getElem?.mp hp
    obtain ⟨h1, h2⟩ := inv.at_id hi
    have hg := inv.good p hp
    unfold Good at hg
    have none_ : arrivals (run cfg (init t) ops).2 p.id = [] →
        (arrivals (run cfg (init t) ops).2 p.id).length ≤ 1 ∧
        ∀ a ∈ arrivals (run cfg (init t) ops).2 p.id, ∃ m, (sends ops)[p.id]? = some m ∧ a.1 = m.dest ∧ a.2.2.1 = m.content := by
      intro h; rw [h]; simp
    cases hph : p.ph with
    | done =>
      rw [hph] at hg
      obtain ⟨_, k, st, t', _, g5, _, _⟩ := hg
      rw [g5]
      refine ⟨by simp, ?_⟩
      intro a ha
      simp only [List.mem_singleton] at ha
      subst ha
      exact ⟨p.msg, h1 ▸ h2, rfl, rfl⟩
    | trying n d => rw [hph] at hg; exact none_ hg.2.2.2.2
    | sending d => rw [hph] at hg; exact none_ hg.2.2.1
    | putting st d => rw [hph] at hg; exact none_ hg.2.1
    | dropped => rw [hph] at hg; exact none_ hg.2.1
    | crashed => rw [hph] at hg; exact none_ hg.1
  · rw [(inv.fresh id hid).2]; simp

/-- Nothing is left to do. -/
def Quiescent (s : St) : Prop := s.incoming = [] ∧ ∀ p ∈ s.procs, outcome p.ph ≠ .pending

/-- **C35 (exactly once or dropped).** When nothing is left to do, each message handed over has arrived exactly once if one
of the checks found the link working, and not at all if all `N + 1` found it blocked; one of the two holds, unless the
transmission failed because the destination has no store. -/
theorem c35_exactly_once (cfg : Cfg) (t : Rat) (ops : List Op) (hr : 0 < cfg.rate) (N : Nat) (hN : nTries cfg = some (N : Int))
    (hq : Quiescent (run cfg (init t) ops).1) (id : Nat) (m : Msg) (hm : (sends ops)[id]? = some m) :
    let outs := (run cfg (init t) ops).2
    ((∃ t', (t', false) ∈ checks outs id) ∧ ∃ st t', arrivals outs id = [(m.dest, st, m.content, t')]) ∨
    ((checks outs id).length = N + 1 ∧ (∀ c ∈ checks outs id, c.2 = true) ∧ arrivals outs id = []) ∨
    ((∃ t', (t', false) ∈ checks outs id) ∧ arrivals outs id = [] ∧
      ∃ p, (run cfg (init t) ops).1.procs[id]? = some p ∧ outcome p.ph = .failed) := by
  have inv := reach cfg t ops
  intro outs
  have hlen : (run cfg (init t) ops).1.procs.length = (sends ops).length := by
    have := congrArg List.length inv.msgs
    rw [hq.1] at this
    simpa using this
  have hlt : id < (run cfg (init t) ops).1.procs.length := by
    rw [hlen]; exact (List.getElem?_eq_some_iff.mp hm).1
  obtain ⟨p, hp⟩ : ∃ p, (run cfg (init t) ops).1.procs[id]? = some p := ⟨_, List.getElem?_eq_getElem hlt⟩
  obtain ⟨_, h2⟩ := inv.at_id hp
  rw [hm] at h2
  simp only [Option.some.injEq] at h2
  have hne := hq.2 p (by obtain ⟨hl, rfl⟩ := List.getElem?_eq_some_iff.mp hp; exact List.getElem_mem hl)
  rcases c33_retry_policy cfg t ops hr N hN id p hp with ⟨k, _, _, h⟩ | ⟨k, hk, hc, h⟩ | ⟨hc, hd, ha⟩
  · exact absurd h hne
  · have hf : ∃ t', (t', false) ∈ checks outs id := ⟨p.born + k * cfg.rate, by rw [hc]; simp⟩
    rcases h with ⟨h, _⟩ | ⟨h, ha⟩ | ⟨_, st, t', ha, _⟩
    · exact absurd h hne
    · exact Or.inr (Or.inr ⟨hf, ha, p, hp, h⟩)
    · exact Or.inl ⟨hf, st, t', by rw [h2]; exact ha⟩
  · refine Or.inr (Or.inl ⟨by rw [hc]; simp [failures], ?_, ha⟩)
    intro c hcm
    rw [hc] at hcm
    simp only [failures, List.mem_map] at hcm
    obtain ⟨j, _, rfl⟩ := hcm
    rfl

/-- The store of `actor` that messages should go to: the connected one, if the actor has it; without a connection the first
communication store that has the manager's mode. -/
def RightStore (cfg : Cfg) (s : St) (actor st : Nat) : Prop :=
  (s.connected.get? actor = some st ∧ ∃ ms, (st, ms) ∈ cfg.states actor) ∨
  (s.connected.get? actor = none ∧ ∃ a b modes, cfg.states actor = a ++ (st, some modes) :: b ∧
      cfg.mode ∈ modes ∧ ∀ q ∈ a, ∀ ms, q.2 = some ms → cfg.mode ∉ ms)

theorem getState_some {mode : Nat} {l : List (Nat × Option (List Nat))} {st : Nat} (hx : getState mode l = some st) :
    ∃ a b modes, l = a ++ (st, some modes) :: b ∧ mode ∈ modes ∧ ∀ q ∈ a, ∀ ms, q.2 = some ms → mode ∉ ms := by
  induction l with
  | nil => simp [getState] at hx
  | cons q r ih =>
    obtain ⟨name, ms⟩ := q
    cases ms with
    | none =>
      simp only [getState] at hx
      obtain ⟨a, b, modes, h1, h2, h3⟩ := ih hx
      refine ⟨(name, none) :: a, b, modes, by rw [h1]; rfl, h2, ?_⟩
      intro q hq ms hms
      simp only [List.mem_cons] at hq
      rcases hq with rfl | hq
      · simp at hms
      · exact h3 q hq ms hms
    | some ms =>
      simp only [getState] at hx
      split at hx
      · rename_i hm
        simp only [Option.some.injEq] at hx
        subst hx
        exact ⟨[], r, ms, rfl, hm, by simp⟩
      · rename_i hm
        obtain ⟨a, b, modes, h1, h2, h3⟩ := ih hx
        refine ⟨(name, some ms) :: a, b, modes, by rw [h1]; rfl, h2, ?_⟩
        intro q hq ms' hms
        simp only [List.mem_cons] at hq
        rcases hq with rfl | hq
        · simp only [Option.some.injEq] at hms
          subst hms; exact hm
        · exact h3 q hq ms' hms

theorem getState_none {mode : Nat} {l : List (Nat × Option (List Nat))} (hx : getState mode l = none) :
    ∀ q ∈ l, ∀ ms, q.2 = some ms → mode ∉ ms := by
  induction l with
  | nil => simp
  | cons q r ih =>
    obtain ⟨name, ms⟩ := q
    cases ms with
    | none =>
      simp only [getState] at hx
      intro q hq ms hms
      simp only [List.mem_cons] at hq
      rcases hq with rfl | hq
      · simp at hms
      · exact ih hx q hq ms hms
    | some ms =>
      simp only [getState] at hx
      split at hx
      · simp at hx
      · rename_i hm
        intro q hq ms' hms
        simp only [List.mem_cons] at hq
        rcases hq with rfl | hq
        · simp only [Option.some.injEq] at hms
          subst hms; exact hm
        · exact ih hx q hq ms' hms

theorem storeOf_some {cfg : Cfg} {s : St} {actor st : Nat} (h : storeOf cfg s actor = some st) : RightStore cfg s actor st := by
  unfold storeOf at h
  split at h
  · rename_i name hname
    split at h
    · rename_i hm
      simp only [Option.some.injEq] at h
      subst h
      obtain ⟨q, hq, rfl⟩ := List.mem_map.mp hm
      exact Or.inl ⟨hname, q.2, hq⟩
    · simp at h
  · rename_i hnone
    exact Or.inr ⟨hnone, getState_some h⟩

theorem storeOf_none {cfg : Cfg} {s : St} {actor : Nat} (h : storeOf cfg s actor = none) (st : Nat) : ¬ RightStore cfg s actor st := by
  unfold storeOf at h
  split at h
  · rename_i name hname
    split at h
    · simp at h
    · rename_i hm
      rintro (⟨h1, ms, h2⟩ | ⟨h1, _⟩)
      · rw [hname] at h1
        simp only [Option.some.injEq] at h1
        subst h1
        exact hm (List.mem_map.mpr ⟨_, h2, rfl⟩)
      · rw [hname] at h1; simp at h1
  · rename_i hnone
    rintro (⟨h1, _⟩ | ⟨_, a, b, modes, h2, h3, _⟩)
    · rw [hnone] at h1; simp at h1
    · exact getState_none h (st, some modes) (by rw [h2]; simp) modes rfl h3

/-- **C35 (the store).** When a transmission comes to putting its message, it is into the right store of the destination; it
fails, with a positive rate, only if there is none. -/
theorem c35_right_store (cfg : Cfg) (s : St) (i : Nat) (p : Proc) (ph : Ph) (hp : s.procs[i]? = some p)
    (h : (step cfg s (.resume i)).1.procs[i]? = some { p with ph := ph }) (hne : ph ≠ p.ph) :
    (∀ st since, ph = .putting st since → RightStore cfg s p.msg.dest st ∧ since = s.now) ∧
    (0 < cfg.rate → ph = .crashed → ∀ st, ¬ RightStore cfg s p.msg.dest st) := by
  have hlt : i < s.procs.length := (List.getElem?_eq_some_iff.mp hp).1
  have key : ∀ ph, startPut cfg s p.msg = ph → (∀ st since, ph = .putting st since → RightStore cfg s p.msg.dest st ∧ since = s.now) ∧
      (0 < cfg.rate → ph = .crashed → ∀ st, ¬ RightStore cfg s p.msg.dest st) := by
    rintro _ rfl
    unfold startPut
    cases hs : storeOf cfg s p.msg.dest with
    | none => exact ⟨by simp, fun _ _ st => storeOf_none hs st⟩
    | some x =>
      refine ⟨?_, by simp⟩
      intro st since h'
      simp only [Ph.putting.injEq] at h'
      obtain ⟨rfl, rfl⟩ := h'
      exact ⟨storeOf_some hs, rfl⟩
  have same : (∀ q : Proc, some p = some { p with ph := ph } → False) := by
    intro _ hh
    simp only [Option.some.injEq] at hh
    exact hne (congrArg Proc.ph hh).symm
  simp only [step, hp] at h
  split at h
  · split at h
    · simp only [List.getElem?_set_self hlt, Option.some.injEq] at h
      rename_i n d _ _
      have h' : check cfg s p.msg n = ph := congrArg Proc.ph h
      unfold check at h'
      split at h'
      · rename_i hN
        have hr : cfg.rate = 0 := by
          unfold nTries at hN
          by_contra hc
          rw [if_neg hc] at hN
          simp at hN
        subst h'
        exact ⟨by simp, fun h0 => absurd h0 (by rw [hr]; simp)⟩
      · split at h'
        · split at h'
          · subst h'; exact ⟨by simp, by simp⟩
          · split at h'
            · rename_i hneg
              subst h'; exact ⟨by simp, fun h0 => absurd h0 (not_lt.mpr (le_of_lt hneg))⟩
            · subst h'; exact ⟨by simp, by simp⟩
        · split at h'
          · subst h'; exact ⟨by simp, by simp⟩
          · exact key ph h'
    · rw [hp] at h; exact (same p h).elim
  · split at h
    · simp only [List.getElem?_set_self hlt, Option.some.injEq] at h
      exact key ph (congrArg Proc.ph h)
    · rw [hp] at h; exact (same p h).elim
  · rw [hp] at h; exact (same p h).elim

/-! ## A case -/

/-- Retries every 1/2 for at most 1, delay 1/4; every actor has a communication store 7 for mode 1. -/
def cfg0 : Cfg := ⟨1/2, 1, 1/4, 1, fun _ => [(6, none), (7, some [0, 1])], fun _ _ => false⟩

/-- Message 0 from 1 to 2 finds the link blocked once; message 1 from 2 to 1 gets through; message 2 from 1 to 3 finds node
3 blocked three times. -/
def sample : List Op :=
  [.setLinks [(1, 2)], .setNodes [3], .send 1 2 11, .send 2 1 12, .send 1 3 13, .take, .take, .take, .resume 0, .resume 1,
    .resume 2, .advance (1/4), .resume 1, .accept 1, .setLinks [], .advance (1/4), .resume 0, .resume 2, .advance (1/4),
    .resume 0, .accept 0, .advance (1/4), .resume 2]

example : nTries cfg0 = some 2 := by decide +kernel

example : (run cfg0 (init 0) sample).1.procs.map (·.ph) = [.done, .done, .dropped] ∧
    (run cfg0 (init 0) sample).1.incoming = [] ∧
    checks (run cfg0 (init 0) sample).2 0 = [(0, true), (1/2, false)] ∧
    arrivals (run cfg0 (init 0) sample).2 0 = [(2, 7, 11, 3/4)] ∧
    arrivals (run cfg0 (init 0) sample).2 1 = [(1, 7, 12, 1/4)] ∧
    checks (run cfg0 (init 0) sample).2 2 = [(0, true), (1/2, true), (1, true)] := by decide +kernel

/-! ## Where the code does not keep the property -/

/-- `make_put` with a `Message` and another destination: it arrives at the destination it already had. -/
theorem c35_destination_ignored : ∃ (cfg : Cfg) (ops : List Op) (m : Msg),
    Op.resend m 2 3 ∈ ops ∧ m.dest ≠ 3 ∧ arrivals (run cfg (init 0) ops).2 0 = [(m.dest, 7, m.content, 1/4)] :=
  ⟨cfg0, [.resend ⟨1, 2, 11⟩ 2 3, .take, .resume 0, .advance (1/4), .resume 0, .accept 0], ⟨1, 2, 11⟩,
    by simp, by decide, by decide +kernel⟩

/-- With a negative maximum time smaller than minus the rate the manager never gives up. -/
theorem c33_negative_budget : ∃ cfg : Cfg, 0 < cfg.rate ∧ cfg.max < 0 ∧
    ∀ (t : Rat) (ops : List Op) (p : Proc), p ∈ (run cfg (init t) ops).1.procs → p.ph ≠ .dropped := by
  refine ⟨⟨1, -2, 0, 0, fun _ => [], fun _ _ => false⟩, by norm_num, by norm_num, ?_⟩
  intro t ops p hp hph
  have hg := (reach _ t ops).good p hp
  unfold Good at hg
  rw [hph] at hg
  obtain ⟨_, _, k, hk, _⟩ := hg
  have : nTries (⟨1, -2, 0, 0, fun _ => [], fun _ _ => false⟩ : Cfg) = some (-2) := by decide +kernel
  rw [this] at hk
  simp only [Option.some.injEq] at hk
  omega

end Verif.Comms
