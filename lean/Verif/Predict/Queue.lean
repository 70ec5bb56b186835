import Verif.Predict.Model
import Mathlib.Data.List.Basic
import Mathlib.Tactic.Linarith

/-! # The event queue, and lists -/

namespace Verif.Predict

variable {K : Type} [Field K] [LinearOrder K] [IsStrictOrderedRing K]

theorem schedule_perm (y : Item K) (q : List (Item K)) : (schedule y q).Perm (y :: q) := by
  induction q with
  | nil => exact List.Perm.refl _
  | cons x q ih =>
    unfold schedule
    split
    · exact (ih.cons x).trans (List.Perm.swap _ _ _)
    · exact List.Perm.refl _

theorem scheduleL_perm (ys q : List (Item K)) : (scheduleL ys q).Perm (ys ++ q) := by
  induction ys generalizing q with
  | nil => exact List.Perm.refl _
  | cons y ys ih =>
    refine (ih (schedule y q)).trans ?_
    refine ((schedule_perm y q).append_left ys).trans ?_
    exact List.perm_middle

theorem mem_scheduleL {ys q : List (Item K)} {i : Item K} : i ∈ scheduleL ys q ↔ i ∈ ys ∨ i ∈ q := by
  rw [(scheduleL_perm ys q).mem_iff, List.mem_append]

theorem mem_schedule {y : Item K} {q : List (Item K)} {i : Item K} : i ∈ schedule y q ↔ i = y ∨ i ∈ q := by
  rw [(schedule_perm y q).mem_iff, List.mem_cons]

/-- The order of the queue: by time, and Timeouts go before the conditions `ids` that succeed at their time. -/
def R (ids : List Nat) (x y : Item K) : Prop := x.time ≤ y.time ∧ ∀ id ∈ ids, x.ent = .cond id → ∀ k, y.ent = .timeout k → x.time < y.time

theorem before_time {x y : Item K} (h : x.before y = true) : x.time ≤ y.time := by
  simp only [Item.before, Bool.or_eq_true, decide_eq_true_eq, Bool.and_eq_true] at h
  rcases h with h | ⟨h, -⟩
  · exact h.le
  · exact h.le

theorem not_before {x y : Item K} (h : ¬ x.before y = true) : y.time ≤ x.time ∧ (y.urgent = false → y.time < x.time) := by
  simp only [Item.before, Bool.or_eq_true, decide_eq_true_eq, Bool.and_eq_true, not_or, not_and, not_lt] at h
  refine ⟨h.1, fun hu => lt_of_le_of_ne h.1 fun he => ?_⟩
  exact (h.2 he.symm).2 (by simp [hu])

theorem schedule_sorted (ids : List Nat) (y : Item K) (q : List (Item K)) (h : q.Pairwise (R ids)) (h1 : ∀ x ∈ q, x.time ≤ y.time → R ids x y)
    (h2 : ∀ z ∈ q, y.time ≤ z.time → (y.urgent = false → y.time < z.time) → R ids y z) : (schedule y q).Pairwise (R ids) := by
  induction q with
  | nil => exact List.pairwise_singleton _ _
  | cons x q ih =>
    obtain ⟨hx, hq⟩ := List.pairwise_cons.1 h
    unfold schedule
    split
    · rename_i hb
      refine List.pairwise_cons.2 ⟨fun z hz => ?_, ih hq (fun z hz => h1 z (List.mem_cons_of_mem _ hz)) (fun z hz => h2 z (List.mem_cons_of_mem _ hz))⟩
      rcases mem_schedule.1 hz with rfl | hz
      · exact h1 x (List.mem_cons_self ..) (before_time hb)
      · exact hx z hz
    · rename_i hb
      obtain ⟨g1, g2⟩ := not_before hb
      refine List.pairwise_cons.2 ⟨fun z hz => h2 z hz ?_ ?_, h⟩
      · rcases List.mem_cons.1 hz with rfl | hz
        · exact g1
        · exact g1.trans (hx z hz).1
      · intro hu
        rcases List.mem_cons.1 hz with rfl | hz
        · exact g2 hu
        · exact (g2 hu).trans_le (hx z hz).1

/-- Something of other processes is put into the queue. -/
theorem sorted_other (ids : List Nat) (y : Item K) (hy : y.ent = .other) (q : List (Item K)) (h : q.Pairwise (R ids)) : (schedule y q).Pairwise (R ids) :=
  schedule_sorted ids y q h (fun x _ hx => ⟨hx, fun id _ _ k hk => by rw [hy] at hk; cases hk⟩) (fun z _ hz _ => ⟨hz, fun id _ he => by rw [hy] at he; cases he⟩)

theorem sorted_others (ids : List Nat) (ys : List (Item K)) (hy : ∀ y ∈ ys, y.ent = .other) (q : List (Item K)) (h : q.Pairwise (R ids)) :
    (scheduleL ys q).Pairwise (R ids) := by
  induction ys generalizing q with
  | nil => exact h
  | cons y ys ih => exact ih (fun z hz => hy z (List.mem_cons_of_mem _ hz)) _ (sorted_other ids y (hy y (List.mem_cons_self ..)) q h)

/-- A condition is put into the queue. -/
theorem sorted_conds (ids : List Nat) (now : K) (cs : List Nat) (q : List (Item K)) (h : q.Pairwise (R ids)) :
    (scheduleL (cs.map fun id => ⟨now, false, .cond id⟩) q).Pairwise (R ids) := by
  induction cs generalizing q with
  | nil => exact h
  | cons c cs ih =>
    refine ih _ (schedule_sorted ids _ q h (fun x _ hx => ⟨hx, fun id _ _ k hk => by cases hk⟩) (fun z _ hz hlt => ⟨hz, fun id _ _ k _ => hlt rfl⟩))

/-- Timeouts are put into the queue, when none of the conditions is in it. -/
theorem sorted_timeouts (ids : List Nat) (ys : List (Item K)) (hy : ∀ y ∈ ys, ∃ k, y.ent = .timeout k) (q : List (Item K)) (h : q.Pairwise (R ids))
    (hids : ∀ i ∈ q, ∀ id ∈ ids, i.ent ≠ .cond id) : (scheduleL ys q).Pairwise (R ids) := by
  induction ys generalizing q with
  | nil => exact h
  | cons y ys ih =>
    obtain ⟨k, hk⟩ := hy y (List.mem_cons_self ..)
    refine ih (fun z hz => hy z (List.mem_cons_of_mem _ hz)) _ (schedule_sorted ids y q h (fun x hx hle => ⟨hle, fun id hid he => absurd he (hids x hx id hid)⟩)
      (fun z _ hz _ => ⟨hz, fun id _ he => by rw [hk] at he; cases he⟩)) (fun i hi id hid => ?_)
    rcases mem_schedule.1 hi with rfl | hi
    · rw [hk]; simp
    · exact hids i hi id hid

/-! ### Minimum and maximum -/

theorem foldl_min_le (ts : List K) (t : K) : ts.foldl min t ≤ t ∧ ∀ x ∈ ts, ts.foldl min t ≤ x := by
  induction ts generalizing t with
  | nil => exact ⟨le_refl _, by simp⟩
  | cons y ys ih =>
    obtain ⟨h1, h2⟩ := ih (min t y)
    refine ⟨h1.trans (min_le_left ..), fun x hx => ?_⟩
    rcases List.mem_cons.1 hx with rfl | hx
    · exact h1.trans (min_le_right ..)
    · exact h2 x hx

theorem foldl_min_mem (ts : List K) (t : K) : ts.foldl min t = t ∨ ts.foldl min t ∈ ts := by
  induction ts generalizing t with
  | nil => exact .inl rfl
  | cons y ys ih =>
    show ys.foldl min (min t y) = t ∨ ys.foldl min (min t y) ∈ y :: ys
    rcases ih (min t y) with h | h
    · rw [h]
      rcases min_choice t y with h | h <;> rw [h] <;> simp
    · exact .inr (List.mem_cons_of_mem _ h)

theorem le_foldl_max (ts : List K) (t : K) : t ≤ ts.foldl max t ∧ ∀ x ∈ ts, x ≤ ts.foldl max t := by
  induction ts generalizing t with
  | nil => exact ⟨le_refl _, by simp⟩
  | cons y ys ih =>
    obtain ⟨h1, h2⟩ := ih (max t y)
    refine ⟨(le_max_left ..).trans h1, fun x hx => ?_⟩
    rcases List.mem_cons.1 hx with rfl | hx
    · exact (le_max_right ..).trans h1
    · exact h2 x hx

theorem foldl_max_mem (ts : List K) (t : K) : ts.foldl max t = t ∨ ts.foldl max t ∈ ts := by
  induction ts generalizing t with
  | nil => exact .inl rfl
  | cons y ys ih =>
    show ys.foldl max (max t y) = t ∨ ys.foldl max (max t y) ∈ y :: ys
    rcases ih (max t y) with h | h
    · rw [h]
      rcases max_choice t y with h | h <;> rw [h] <;> simp
    · exact .inr (List.mem_cons_of_mem _ h)

theorem agg_mem (all : Bool) (ts : List K) (h : ts ≠ []) : agg all ts ∈ ts := by
  cases ts with
  | nil => exact absurd rfl h
  | cons t ts =>
    cases all
    · rcases foldl_min_mem ts t with h | h <;> simp [agg, minD, h]
    · rcases foldl_max_mem ts t with h | h <;> simp [agg, maxD, h]

theorem agg_any (ts : List K) (x : K) (h : x ∈ ts) : agg false ts ≤ x := by
  cases ts with
  | nil => cases h
  | cons t ts =>
    rcases List.mem_cons.1 h with rfl | h
    · exact (foldl_min_le ts _).1
    · exact (foldl_min_le ts _).2 x h

theorem agg_all (ts : List K) (x : K) (h : x ∈ ts) : x ≤ agg true ts := by
  cases ts with
  | nil => cases h
  | cons t ts =>
    rcases List.mem_cons.1 h with rfl | h
    · exact (le_foldl_max ts _).1
    · exact (le_foldl_max ts _).2 x h

theorem agg_add (all : Bool) (d : K) (ts : List K) (h : ts ≠ []) : agg all (ts.map (d + ·)) = d + agg all ts := by
  have hm := agg_mem all ts h
  have hm' := agg_mem all (ts.map (d + ·)) (by simpa using h)
  obtain ⟨x, hx, he⟩ := List.mem_map.1 hm'
  have hin : d + agg all ts ∈ ts.map (d + ·) := List.mem_map.2 ⟨_, hm, rfl⟩
  cases all
  · have h1 := agg_any _ _ hin
    have h2 := agg_any _ _ hx
    rw [← he] at h1 ⊢
    linarith
  · have h1 := agg_all _ _ hin
    have h2 := agg_all _ _ hx
    rw [← he] at h1 ⊢
    linarith

/-! ### `_check` -/

theorem check_other (all : Bool) (size n c : Nat) (st : CStat) (h : st ≠ .pending) : check all size n (c, st) = (c, st) := by
  induction n with
  | zero => rfl
  | succ n ih => unfold check; rw [if_neg h, ih]

theorem check_any (size n c : Nat) : check false size n (c, .pending) = if n = 0 then (c, .pending) else (c + 1, .triggered) := by
  cases n with
  | zero => rfl
  | succ n =>
    unfold check
    simp only [if_true, Bool.not_false, Bool.true_or]
    rw [check_other _ _ _ _ _ (by simp)]
    simp

theorem check_all (size n c : Nat) (hc : c < size) (hn : c + n ≤ size) :
    check true size n (c, .pending) = if c + n = size then (size, .triggered) else (c + n, .pending) := by
  induction n generalizing c with
  | zero => rw [check, if_neg (by omega)]; rfl
  | succ n ih =>
    unfold check
    simp only [if_true, Bool.not_true, Bool.false_or, decide_eq_true_eq]
    by_cases h : c + 1 = size
    · rw [if_pos h, check_other _ _ _ _ _ (by simp), if_pos (by omega), h]
    · rw [if_neg h, ih (c + 1) (by omega) (by omega)]
      have : c + 1 + n = c + (n + 1) := by omega
      rw [this]

end Verif.Predict
