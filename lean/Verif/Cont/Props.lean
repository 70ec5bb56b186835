import Verif.Cont.Inv

/-!
# Properties C06 (continuous container log), C07, C08, C09, C52

All theorems are about every history (`ops`) from a container created with an initial level within its
capacity. The code does not check the upper bound, see `c08_init_above_capacity`.
-/

namespace Verif.Cont

/-- A container whose initial level is within its capacity, after any history. -/
abbrev after (cap l0 : Rat) (ee ef : Bool) (t0 : Rat) (ops : List Op) : St :=
  run (init cap l0 ee ef t0) ops

/-! ## C07 -/

/-- **C07.** At every moment of every history the reported level is the initial level plus, for every
connection ever made, its signed rate times the time it has been connected; and the open connections are
exactly the container's active users. -/
theorem c07_level_is_integral (cap l0 : Rat) (ee ef : Bool) (t0 : Rat) (h0 : 0 ≤ l0) (h1 : l0 ≤ cap)
    (ops : List Op) :
    let s := after cap l0 ee ef t0 ops
    readLevel s = l0 + (s.sessions.map (fun x => x.rate * x.lasted s.now)).sum ∧
    openUsers s.sessions = s.users := by
  have h := run_inv (init_inv cap l0 ee ef t0 h0 h1) ops
  exact ⟨h.a.read, h.a.users⟩

/-- **C07 (reads).** The internal catch-up that reads and monitoring perform never changes the level, at
this or any later time. -/
theorem c07_reads_invisible (cap l0 : Rat) (ee ef : Bool) (t0 : Rat) (h0 : 0 ≤ l0) (h1 : l0 ≤ cap)
    (ops : List Op) (t : Rat) :
    let s := after cap l0 ee ef t0 ops
    s.now ≤ t → readLevel { setLevel s with now := t } = readLevel { s with now := t } := by
  intro s ht
  have h := (run_inv (init_inv cap l0 ee ef t0 h0 h1) ops).a
  rw [setLevel_eq _ h.lastNow]
  simp only [readLevel]
  ring

/-- A fill at 2 per unit, joined by a drain at 3 at time 2 that stops by itself at time 4. -/
def demo : List Op :=
  [.newUser 2 none, .urgent, .urgent, .advance 2, .newUser (-3) (some 2), .urgent, .urgent, .urgent,
    .advance 3, .advance 4, .fireUser 2, .urgent, .urgent, .advance 5]

example : (0 : Rat) ≤ 1 ∧ (1 : Rat) ≤ 20 ∧ readLevel (after 20 1 true true 0 demo) = 5 ∧
    (after 20 1 true true 0 demo).crash = none := by decide +kernel

/-! ## C06, continuous container -/

/-- **C06 (continuous container).** The log starts with the initial amount, its entries are strictly
later and later, and at *every* instant up to now the amount really held is the straight line between the
surrounding entries, or from the last entry on the straight line with the current net rate. -/
theorem c06_continuous_log (cap l0 : Rat) (ee ef : Bool) (t0 : Rat) (h0 : 0 ≤ l0) (h1 : l0 ≤ cap)
    (ops : List Op) :
    let s := after cap l0 ee ef t0 ops
    let held := fun t => l0 + (s.sessions.map (fun x => x.rate * x.lasted t)).sum
    s.log.head? = some (t0, l0) ∧ s.log.IsChain (Segment held) ∧
    (∀ e ∈ s.log, e.2 = held e.1) ∧
    ∃ e, s.log.getLast? = some e ∧ e.1 ≤ s.now ∧
      ∀ t, e.1 ≤ t → t ≤ s.now → held t = e.2 + s.rate * (t - e.1) := by
  have h := (run_inv (init_inv cap l0 ee ef t0 h0 h1) ops).a
  refine ⟨h.logHead, h.logSeg, fun e he => (h.logTrue e he).1, _, h.logLast, h.lastNow, ?_⟩
  intro t h3 _
  have := truth_linear l0 _ _ t h3 h.sess
  rw [← h.level, h.users, ← h.rate] at this
  exact this

example : (after 20 1 true true 0 demo).log = [(0, 1), (2, 5), (4, 3)] := by decide +kernel

/-! ## C08 -/

/-- **C08 (bounds).** As long as the simulation runs, the level is within `[0, capacity]`. -/
theorem c08_within_bounds (cap l0 : Rat) (ee ef : Bool) (t0 : Rat) (h0 : 0 ≤ l0) (h1 : l0 ≤ cap)
    (ops : List Op) :
    let s := after cap l0 ee ef t0 ops
    s.crash = none → 0 ≤ readLevel s ∧ readLevel s ≤ s.cap := by
  intro s hc
  have h := (run_inv (init_inv cap l0 ee ef t0 h0 h1) ops).b hc
  exact ⟨h.1.lo, h.1.hi⟩

/-- **C08 (not after).** Time never passes while the container is empty and draining, or full and
filling: the stop happens at that very instant. -/
theorem c08_no_time_at_bound (cap l0 : Rat) (ee ef : Bool) (t0 : Rat) (h0 : 0 ≤ l0) (h1 : l0 ≤ cap)
    (ops : List Op) (t : Rat) :
    let s := after cap l0 ee ef t0 ops
    s.crash = none → (step s (.advance t)).now ≠ s.now →
      ¬ (readLevel s = 0 ∧ s.rate < 0) ∧ ¬ (readLevel s = s.cap ∧ 0 < s.rate) := by
  intro s hc hadv
  have h := (run_inv (init_inv cap l0 ee ef t0 h0 h1) ops).b hc
  have hP := h.2
  change P s at hP
  have hcan : canAdvance s t = true := by
    by_contra hno
    apply hadv
    simp [step, hc, doAdvance, hno]
  unfold canAdvance at hcan
  simp only [Bool.and_eq_true, decide_eq_true_eq, List.isEmpty_iff, List.all_eq_true] at hcan
  obtain ⟨⟨⟨b1, b2⟩, _⟩, b4⟩ := hcan
  have main : s.rate ≠ 0 → readLevel s ≠ target s := by
    intro hr he
    cases hk : s.checking with
    | none => exact hr (hP.chk0.mp hk)
    | some k =>
      rcases hP.plan k hk with ⟨_, a2⟩ | ⟨d, a1, a2, a3⟩
      · rw [b2] at a2; simp at a2
      · have b5 : t ≤ d := by simpa using b4 _ (Dict.mem_of_get? a1)
        have : s.rate * (d - s.now) = 0 := by linarith
        rcases mul_eq_zero.mp this with h | h
        · exact hr h
        · linarith
  constructor
  · rintro ⟨e1, e2⟩
    apply main (ne_of_lt e2)
    unfold target; rw [if_neg (by linarith)]; exact e1
  · rintro ⟨e1, e2⟩
    apply main (ne_of_gt e2)
    unfold target; rw [if_pos e2]; exact e1

/-- **C08 (not before).** Every empty notification was sent when the container really held nothing, every
full notification when it really held its capacity. -/
theorem c08_notified_at_bound (cap l0 : Rat) (ee ef : Bool) (t0 : Rat) (h0 : 0 ≤ l0) (h1 : l0 ≤ cap)
    (ops : List Op) :
    let s := after cap l0 ee ef t0 ops
    ∀ n ∈ s.notes, n.cause = .empty ∧ l0 + (s.sessions.map (fun x => x.rate * x.lasted n.time)).sum = 0 ∨
      n.cause = .full ∧ l0 + (s.sessions.map (fun x => x.rate * x.lasted n.time)).sum = s.cap := by
  intro s n hn
  have h := (run_inv (init_inv cap l0 ee ef t0 h0 h1) ops).a
  obtain ⟨a1, _, a3⟩ := h.notes n hn
  rcases a3 with ⟨b1, b2⟩ | ⟨b1, b2⟩
  · left; exact ⟨b1, by rw [b2] at a1; exact a1.symm⟩
  · right; exact ⟨b1, by rw [b2] at a1; exact a1.symm⟩

/-- **C08 (errors).** The simulation is only ended by the container with the empty error, when it was
asked for and the container is exactly empty, or the full error likewise; the "level out of bounds" error
never happens. (The remaining causes are a negative run time requested by the caller and the race
`c09_cancel_race_ends_simulation`.) -/
theorem c08_errors (cap l0 : Rat) (ee ef : Bool) (t0 : Rat) (h0 : 0 ≤ l0) (h1 : l0 ≤ cap)
    (ops : List Op) :
    let s := after cap l0 ee ef t0 ops
    (s.crash = some .empty → s.errEmpty = true ∧ readLevel s = 0) ∧
    (s.crash = some .full → s.errFull = true ∧ readLevel s = s.cap) ∧
    s.crash ≠ some .bounds ∧ s.crash ≠ some .terminated ∧ s.crash ≠ some .foreign := by
  intro s
  have h := (run_inv (init_inv cap l0 ee ef t0 h0 h1) ops).ok
  change CrashOK s at h
  unfold CrashOK at h
  refine ⟨?_, ?_, ?_, ?_, ?_⟩ <;> intro hc <;> rw [hc] at h <;> exact h

/-- Draining 4 at rate 2: empty at time 2, the drain is told and disconnected, the fill then continues. -/
def drain : List Op :=
  [.newUser (-3) none, .newUser 1 none, .urgent, .urgent, .urgent, .urgent, .urgent, .advance 2,
    .fireCheck 3, .urgent, .urgent, .advance 4]

example : (after 10 4 false false 0 drain).notes = [⟨2, 0, .empty, 0⟩] ∧
    readLevel (after 10 4 false false 0 drain) = 2 ∧ (after 10 4 false false 0 drain).crash = none ∧
    (after 10 4 true true 0 drain).crash = some .empty := by decide +kernel

/-- The constructor accepts an initial level above the capacity, and the container stays above it. -/
theorem c08_init_above_capacity :
    let s := after 5 8 false false 0 [.newUser (-1) none, .urgent, .urgent, .advance 1]
    s.crash = none ∧ readLevel s = 7 ∧ s.cap = 5 := by decide +kernel

/-! ### notified users are disconnected at that instant -/

/-- Every notification has closed the connection of the notified user at that time. -/
def Closed (s : St) : Prop := ∀ n ∈ s.notes, ∃ x ∈ s.sessions, x.id = n.id ∧ x.stop = some n.time

theorem closed_persist (R : Nat → Bool) (t : Rat) (ss : List Sess) (id : Nat) (e : Rat)
    (h : ∃ x ∈ ss, x.id = id ∧ x.stop = some e) :
    ∃ x ∈ closeSess R t ss, x.id = id ∧ x.stop = some e := by
  obtain ⟨x, hx, h1, h2⟩ := h
  refine ⟨x, ?_, h1, h2⟩
  simp only [closeSess, List.mem_map]
  exact ⟨x, hx, by simp [h2]⟩

theorem addRate_sess (s : St) (d : Rat) (b : Bool) :
    (addRate s d b).sessions = s.sessions ∧ (addRate s d b).notes = s.notes := by
  have hb : ∀ s : St, (setLevelBase s).sessions = s.sessions ∧ (setLevelBase s).notes = s.notes := by
    intro s; unfold setLevelBase; split <;> exact ⟨rfl, rfl⟩
  have h0 : ∀ s : St, (setLevel s).sessions = s.sessions ∧ (setLevel s).notes = s.notes := by
    intro s; unfold setLevel; simp only; split <;> exact hb s
  have h1 : ∀ s : St, (addRate' s d).sessions = s.sessions ∧ (addRate' s d).notes = s.notes := by
    intro s; unfold addRate'; simp only
    split <;> exact h0 s
  unfold addRate
  split
  · split
    · split
      · exact h1 _
      · exact ⟨rfl, rfl⟩
    · exact h1 _
  · exact h1 _

theorem removeUser_closed (s : St) (id : Nat) (r : Rat) (h : Closed s) : Closed (removeUser s id r) := by
  unfold removeUser
  split
  · intro n hn
    rw [(addRate_sess _ _ _).2] at hn
    rw [(addRate_sess _ _ _).1]
    simp only
    exact closed_persist _ _ _ _ _ (h n hn)
  · exact h

theorem setLevel_sess (s : St) : (setLevel s).sessions = s.sessions ∧ (setLevel s).notes = s.notes ∧
    (setLevel s).users = s.users ∧ (setLevel s).now = s.now := by
  have hb : (setLevelBase s).sessions = s.sessions ∧ (setLevelBase s).notes = s.notes ∧
      (setLevelBase s).users = s.users ∧ (setLevelBase s).now = s.now := by
    unfold setLevelBase; split <;> exact ⟨rfl, rfl, rfl, rfl⟩
  unfold setLevel; simp only; split <;> exact hb

theorem drop_closed (s : St) (c : Cause) (sel : Nat × Rat → Bool) (ho : openUsers s.sessions = s.users)
    (h : Closed s) :
    Closed (dropUsers (notify s (s.users.filter sel) c) (s.users.filter sel)) := by
  unfold dropUsers
  split
  · rename_i he
    rw [he]
    intro n hn
    simp only [notify, List.map_nil, List.append_nil] at hn ⊢
    exact h n hn
  · intro n hn
    rw [(addRate_sess _ _ _).2] at hn
    rw [(addRate_sess _ _ _).1]
    simp only [notify] at hn ⊢
    rcases List.mem_append.mp hn with hn | hn
    · exact closed_persist _ _ _ _ _ (h n hn)
    · obtain ⟨p, hp, rfl⟩ := List.mem_map.mp hn
      have hp' := (List.mem_filter.mp hp).1
      rw [← ho] at hp'
      obtain ⟨x, hx, rfl⟩ := List.mem_map.mp hp'
      obtain ⟨hx1, hx2⟩ := List.mem_filter.mp hx
      have hx3 : x.stop = none := by simpa using hx2
      refine ⟨{ x with stop := some s.now }, ?_, rfl, rfl⟩
      simp only [closeSess, List.mem_map]
      refine ⟨x, hx1, ?_⟩
      rw [if_pos]
      refine ⟨?_, hx3⟩
      rw [decide_eq_true_eq]
      exact ⟨_, hp, rfl⟩

theorem finish_closed (s : St) (k : Nat) (ho : openUsers s.sessions = s.users) (h : Closed s) :
    (finishCheck s k).crash = none → Closed (finishCheck s k) := by
  obtain ⟨e1, e2, e3, e4⟩ := setLevel_sess { s with checks := s.checks.del k }
  unfold finishCheck
  simp only
  generalize setLevel { s with checks := s.checks.del k } = s1 at *
  have ho1 : openUsers s1.sessions = s1.users := by rw [e1, e3]; exact ho
  have h1 : Closed s1 := by intro n hn; rw [e1]; rw [e2] at hn; exact h n hn
  split
  · unfold checkEmpty
    split
    · exact fun _ => h1
    · simp only
      split
      · split
        · intro hc; cases hc
        · split
          · intro hc; cases hc
          · exact fun _ => drop_closed s1 .empty _ ho1 h1
      · intro hc; cases hc
  · split
    · unfold checkFull
      split
      · exact fun _ => h1
      · simp only
        split
        · split
          · intro hc; cases hc
          · split
            · intro hc; cases hc
            · exact fun _ => drop_closed s1 .full _ ho1 h1
        · intro hc; cases hc
    · exact fun _ => h1

theorem step_closed (l0 t0 : Rat) (s : St) (op : Op) (hi : Inv l0 t0 s) (h : s.crash = none → Closed s) :
    (step s op).crash = none → Closed (step s op) := by
  unfold step
  by_cases hcr : s.crash = none
  swap
  · rw [if_pos hcr]; exact h
  rw [if_neg (by simp [hcr])]
  have h := h hcr
  cases op with
  | newUser r rt => simp only [doNew]; split <;> exact fun _ => h
  | cancel id => simp only [doCancel]; split <;> exact fun _ => h
  | urgent =>
    simp only [doUrgent]
    split
    · exact fun _ => h
    · rename_i u q hq
      have h0 : Closed { s with urgent := q } := h
      cases u with
      | initUser id =>
        simp only
        unfold beginUser
        split
        · exact fun _ => h0
        · split
          · exact fun _ => h0
          · rename_i p hp hst
            have ha : Closed (addUser { s with urgent := q } id p.rate) := by
              intro n hn
              unfold addUser at hn ⊢
              rw [(addRate_sess _ _ _).2] at hn
              rw [(addRate_sess _ _ _).1]
              obtain ⟨x, hx, hx'⟩ := h0 n hn
              exact ⟨x, List.mem_append_left _ hx, hx'⟩
            simp only
            split
            · exact fun _ => ha
            · split
              · exact fun _ => ha
              · split
                · intro hc; cases hc
                · exact fun _ => ha
      | intUser id c =>
        simp only
        unfold intUser
        split
        · exact fun _ => h0
        · simp only
          split
          · exact fun _ => h0
          · split
            · exact fun _ => removeUser_closed _ _ _ h0
            · intro hc; cases hc
      | initCheck k =>
        simp only
        unfold beginCheck
        split
        · exact fun _ => h0
        · split
          · exact fun _ => h0
          · simp only
            intro hc
            by_cases hw : ((if s.rate > 0 then s.cap else 0) - readLevel { s with urgent := q }) / s.rate < 0
            · rw [if_pos hw] at hc; simp at hc
            · rw [if_neg hw]; exact h0
      | intCheck k =>
        simp only
        split
        · exact finish_closed _ _ hi.a.users h0
        · exact fun _ => h0
  | fireUser id =>
    simp only [doFireUser]
    split
    · exact fun _ => h
    · split
      · exact fun _ => removeUser_closed _ _ _ h
      · exact fun _ => h
  | fireCheck k =>
    simp only [doFireCheck]
    split
    · exact finish_closed _ _ hi.a.users h
    · exact fun _ => h
  | advance t => simp only [doAdvance]; split <;> exact fun _ => h

/-- **C08 (effect).** Every user that was told empty/full was disconnected at that very time. -/
theorem c08_notified_disconnected (cap l0 : Rat) (ee ef : Bool) (t0 : Rat) (h0 : 0 ≤ l0) (h1 : l0 ≤ cap)
    (ops : List Op) :
    let s := after cap l0 ee ef t0 ops
    s.crash = none → ∀ n ∈ s.notes, ∃ x ∈ s.sessions, x.id = n.id ∧ x.stop = some n.time := by
  have key : ∀ (ops : List Op) (s : St), Inv l0 t0 s → (s.crash = none → Closed s) →
      ((run s ops).crash = none → Closed (run s ops)) := by
    intro ops
    induction ops with
    | nil => intro s _ h; exact h
    | cons op ops ih => intro s hi h; exact ih _ (step_inv hi op) (step_closed l0 t0 s op hi h)
  exact key ops _ (init_inv cap l0 ee ef t0 h0 h1) (fun _ n hn => by simp [init] at hn)

/-! ## C09 -/

/-- **C09.** The net rate is the sum of the signed rates of the users connected now; each of them is a live
process with that rate. -/
theorem c09_rate_is_sum (cap l0 : Rat) (ee ef : Bool) (t0 : Rat) (h0 : 0 ≤ l0) (h1 : l0 ≤ cap)
    (ops : List Op) :
    let s := after cap l0 ee ef t0 ops
    s.rate = (s.users.map (·.2)).sum ∧ (s.users.map (·.1)).Nodup ∧
    (s.crash = none → ∀ p ∈ s.users, ∃ q, s.uprocs.get? p.1 = some q ∧ q.started = true ∧ q.rate = p.2) := by
  have h := run_inv (init_inv cap l0 ee ef t0 h0 h1) ops
  exact ⟨h.a.rate, h.a.nodup, fun hc => (h.b hc).1.alive⟩

/-- **C09 (idle).** With nobody connected the net rate is zero and the level stays what it is at every
later time. -/
theorem c09_idle_constant (cap l0 : Rat) (ee ef : Bool) (t0 : Rat) (h0 : 0 ≤ l0) (h1 : l0 ≤ cap)
    (ops : List Op) (t : Rat) :
    let s := after cap l0 ee ef t0 ops
    s.users = [] → s.rate = 0 ∧ readLevel { s with now := t } = readLevel s := by
  intro s hu
  have h := (run_inv (init_inv cap l0 ee ef t0 h0 h1) ops).a.rate
  change s.rate = (s.users.map (·.2)).sum at h
  rw [hu] at h
  simp only [List.map_nil, List.sum_nil] at h
  exact ⟨h, by simp [readLevel, h]⟩

example : (after 10 4 false false 0 (drain ++ [.cancel 1, .urgent, .urgent, .advance 9])).users = [] ∧
    readLevel (after 10 4 false false 0 (drain ++ [.cancel 1, .urgent, .urgent, .advance 9])) = 2 := by
  decide +kernel

/-- **A race in the code (recorded under C09).** The level reaches 0 at time 2 while user 0 drains at 2 and
user 1 fills at 1. At that very instant user 1 is cancelled, which queues a
re-plan, and before the re-plan is processed user 0 is cancelled as well. The re-plan disconnects user 0
because the container is empty; the queued cancellation then removes it a second time and the simulation
ends with `ValueError: list.remove(x): x not in list`. -/
theorem c09_cancel_race_ends_simulation :
    let s := after 10 2 false false 0
      [.newUser (-2) none, .newUser 1 none, .urgent, .urgent, .urgent, .urgent, .urgent, .advance 2,
        .cancel 1, .urgent, .cancel 0, .urgent, .urgent, .urgent]
    s.crash = some .notMember ∧ s.notes = [⟨2, 0, .empty, 0⟩] := by decide +kernel

/-! ## C52 -/

/-- **C52 (time until full/empty).** With the extra rate added, the container reaches its bound exactly
after the predicted time and is within its bounds until then; the prediction is infinite only when the
net rate is zero. -/
theorem c52_time_until_done (cap l0 : Rat) (ee ef : Bool) (t0 : Rat) (h0 : 0 ≤ l0) (h1 : l0 ≤ cap)
    (ops : List Op) (extra : Rat) :
    let s := after cap l0 ee ef t0 ops
    s.crash = none →
    (timeUntilDone s extra = none ↔ extra + s.rate = 0) ∧
    ∀ t, timeUntilDone s extra = some t → 0 ≤ t ∧
      (readLevel s + (extra + s.rate) * t = if extra + s.rate > 0 then s.cap else 0) ∧
      ∀ u, 0 ≤ u → u ≤ t → 0 ≤ readLevel s + (extra + s.rate) * u ∧
        readLevel s + (extra + s.rate) * u ≤ s.cap := by
  intro s hc
  obtain ⟨hC, _⟩ := (run_inv (init_inv cap l0 ee ef t0 h0 h1) ops).b hc
  have hlo : 0 ≤ readLevel s := hC.lo
  have hhi : readLevel s ≤ s.cap := hC.hi
  unfold timeUntilDone
  simp only
  rcases lt_trichotomy (extra + s.rate) 0 with hr | hr | hr
  · rw [if_neg (by linarith), if_pos hr]
    refine ⟨by simp; exact ne_of_lt hr, ?_⟩
    intro t ht
    cases ht
    have hne : extra + s.rate ≠ 0 := ne_of_lt hr
    have e : (extra + s.rate) * (-readLevel s / (extra + s.rate)) = -readLevel s := by field_simp
    refine ⟨div_nonneg_of_nonpos (by linarith) (le_of_lt hr), ?_, ?_⟩
    · rw [e, if_neg (by linarith)]; ring
    · intro u hu hu'
      have := mul_le_mul_of_nonpos_left hu' (le_of_lt hr)
      rw [e] at this
      have h3 := mul_nonpos_of_nonpos_of_nonneg (le_of_lt hr) hu
      constructor <;> linarith
  · rw [if_neg (by linarith), if_neg (by linarith)]
    exact ⟨by simp [hr], by intro t ht; cases ht⟩
  · rw [if_pos hr]
    refine ⟨by simp; exact ne_of_gt hr, ?_⟩
    intro t ht
    cases ht
    have hne : extra + s.rate ≠ 0 := ne_of_gt hr
    have e : (extra + s.rate) * ((s.cap - readLevel s) / (extra + s.rate)) = s.cap - readLevel s := by
      field_simp
    refine ⟨div_nonneg (by linarith) (le_of_lt hr), ?_, ?_⟩
    · rw [e, if_pos hr]; ring
    · intro u hu hu'
      have := mul_le_mul_of_nonneg_left hu' (le_of_lt hr)
      rw [e] at this
      have h3 := mul_nonneg (le_of_lt hr) hu
      constructor <;> linarith

/-- **C52 (time until a level), the part that holds.** When the level was brought up to date at the
current instant (`last = now`: right after any connect or disconnect), the prediction is right: the level is
reached after exactly that time, and if the prediction is infinite it is never reached. Missing: reads at
later instants, see `c52_time_until_level_stale`. -/
theorem c52_time_until_level_partial (s : St) (lvl extra : Rat) (h : s.last = s.now) :
    (∀ t, timeUntilLevel s lvl extra = some t → 0 ≤ t ∧ readLevel s + (extra + s.rate) * t = lvl ∧
      ∀ u, 0 ≤ u → u < t → readLevel s + (extra + s.rate) * u ≠ lvl) ∧
    (timeUntilLevel s lvl extra = none → ∀ t, 0 ≤ t → readLevel s + (extra + s.rate) * t ≠ lvl) := by
  have hr : readLevel s = s.level := by simp [readLevel, h]
  unfold timeUntilLevel
  simp only [hr]
  by_cases h1 : s.level = lvl
  · rw [if_pos h1]
    refine ⟨?_, by simp⟩
    intro t ht; cases ht
    exact ⟨le_refl _, by rw [h1]; ring, fun u h1 h2 => absurd h1 (not_le.mpr h2)⟩
  · rw [if_neg h1]
    by_cases h2 : extra + s.rate = 0
    · rw [if_pos h2]
      refine ⟨by simp, ?_⟩
      intro _ t _
      rw [h2]; simpa using h1
    · rw [if_neg h2]
      have e : (extra + s.rate) * ((lvl - s.level) / (extra + s.rate)) = lvl - s.level := by field_simp
      have uniq : ∀ u, s.level + (extra + s.rate) * u = lvl → u = (lvl - s.level) / (extra + s.rate) := by
        intro u hu
        rw [eq_div_iff h2]; linarith
      split
      · rename_i hp
        refine ⟨?_, by simp⟩
        intro t ht; cases ht
        refine ⟨le_of_lt hp, by rw [e]; ring, ?_⟩
        intro u _ hu he
        exact absurd (uniq u he) (ne_of_lt hu)
      · rename_i hp
        refine ⟨by simp, ?_⟩
        intro _ t ht he
        have := uniq t he
        have h0 : t = 0 := le_antisymm (by rw [this]; exact not_lt.mp hp) ht
        rw [h0] at he
        apply h1; linarith

example : (after 20 1 true true 0 (demo.take 8)).last = (after 20 1 true true 0 (demo.take 8)).now ∧
    timeUntilLevel (after 20 1 true true 0 (demo.take 8)) 3 (-1) = some 1 := by decide +kernel

/-- **C52 is false of the code for `time_until_level`.** It starts from the level stored at the last rate
change: filling at 2 per unit since time 0 from level 1, at time 1 (level 3) it predicts that level 5 is 2
away although it is reached after 1. -/
theorem c52_time_until_level_stale :
    let s := after 20 1 true true 0 (demo.take 3 ++ [.advance 1])
    s.crash = none ∧ readLevel s = 3 ∧ s.rate = 2 ∧ timeUntilLevel s 5 0 = some 2 ∧
      readLevel s + s.rate * 1 = 5 := by decide +kernel

end Verif.Cont
