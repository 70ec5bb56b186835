import Verif.Units.Model
import Mathlib.Algebra.Order.Field.Basic
import Mathlib.Tactic.Ring
import Mathlib.Tactic.Linarith

/-!
# C48: unit conversion

The tables are finite, so facts about all pairs of units are checked entry by entry by the kernel; the theorems are for
all values, all strings given as units, and all functions that can stand for `str.lower`.
-/

namespace Verif.Units

/-- The English names of the time units and the units they stand for. -/
def spelled : List (String × String) :=
  [("second", "s"), ("seconds", "s"), ("minute", "min"), ("minutes", "min"), ("hour", "hr"), ("hours", "hr"),
    ("days", "day"), ("weeks", "week")]

/-- `str.lower` leaves the names in the tables alone. -/
def Lower (lower : String → String) : Prop :=
  ∀ u ∈ distanceUnits ++ timeUnits ++ alternates.keys, lower u = u

/-- The table computed by the kernel, for reading. -/
theorem entry_mem {t : Dict String Row} {a b : String} {x : Rat} (h : entry t a b = some x) :
    ∃ row, (a, row) ∈ t ∧ (b, x) ∈ row := by
  unfold entry at h
  cases hr : t.get? a with
  | none => simp [hr] at h
  | some row =>
    simp only [hr, Option.bind_some] at h
    exact ⟨row, Dict.mem_of_get? hr, Dict.mem_of_get? h⟩

/-- A fact about all entries of the table. -/
theorem table_all {p : String → String → Rat → Bool}
    (h : table.all (fun r => r.2.all (fun q => p r.1 q.1 q.2)) = true) {a b : String} {x : Rat}
    (hx : entry table a b = some x) : p a b x = true := by
  obtain ⟨row, h1, h2⟩ := entry_mem hx
  rw [List.all_eq_true] at h
  have := h _ h1
  rw [List.all_eq_true] at this
  exact this _ h2

theorem back {a b : String} {x y : Rat} (hx : entry table a b = some x) (hy : entry table b a = some y) :
    x * y = 1 := by
  have h := table_all (p := fun a b x => match entry table b a with
    | some y => decide (x * y = 1)
    | none => true) (by decide +kernel) hx
  simp only [hy] at h
  exact of_decide_eq_true h

/-- **C48 (there and back), the part that holds.** For every value and every two unit names: if converting from `a` to
`b` works and converting back works, the original value comes back. Missing: converting back may be impossible, see
`c48_no_way_back`. -/
theorem c48_roundtrip_partial (lower : String → String) (v w : Rat) (a b : String)
    (h : unitConvert lower v a b = some w) (hb : (unitConvert lower w b a).isSome) :
    unitConvert lower w b a = some v := by
  unfold unitConvert at h hb ⊢
  cases hx : entry table (canon lower a) (canon lower b) with
  | none => simp [hx] at h
  | some x =>
    cases hy : entry table (canon lower b) (canon lower a) with
    | none => simp [hy] at hb
    | some y =>
      simp only [hx, Option.map_some, Option.some.injEq] at h
      simp only [Option.map_some, Option.some.injEq]
      rw [← h, mul_assoc, back hx hy, mul_one]

example : unitConvert id 3 "nmi" "ft" ≠ none ∧
    (unitConvert id 3 "nmi" "ft").bind (unitConvert id · "ft" "nmi") = some 3 ∧
    (unitConvert id 3 "weeks" "day").bind (unitConvert id · "day" "week") = some 3 := by decide +kernel

/-- **C48 is false of the code (1)**: hours, minutes and seconds cannot be converted to days or weeks, although days
and weeks can be converted to them. -/
theorem c48_no_way_back :
    unitConvert id 1 "day" "hr" = some 24 ∧ unitConvert id 24 "hr" "day" = none ∧
    unitConvert id 60 "min" "week" = none ∧ unitConvert id 1 "week" "min" = some 10080 := by decide +kernel

/-- **C48 is false of the code (2)**: days cannot be converted to days, nor weeks to weeks. -/
theorem c48_day_to_day : unitConvert id 1 "day" "days" = none ∧ unitConvert id 1 "weeks" "week" = none := by
  decide +kernel

theorem canon_of {lower : String → String} (hl : Lower lower) {u : String}
    (h : u ∈ distanceUnits ++ timeUnits) : canon lower u = u := by
  unfold canon
  rw [hl u (by simp only [List.mem_append] at h ⊢; exact Or.inl h)]
  have : (distanceUnits ++ timeUnits).all (fun u => (alternates.get? u).getD u == u) = true := by decide +kernel
  rw [List.all_eq_true] at this
  exact eq_of_beq (this u h)

/-- **C48 (identity and completeness), the part that holds.** All conversions between two distance units, and between
two of the standard times, are defined, and so reversible; converting any of these to itself is the identity.
Missing: days and weeks, see `c48_day_to_day`. -/
theorem c48_standard_units_partial (lower : String → String) (hl : Lower lower) (v : Rat) (a b : String)
    (h : (a ∈ distanceUnits ∧ b ∈ distanceUnits) ∨ (a ∈ ["s", "min", "hr"] ∧ b ∈ ["s", "min", "hr"])) :
    (∃ w, unitConvert lower v a b = some w ∧ unitConvert lower w b a = some v) ∧
    unitConvert lower v a a = some v := by
  have hmem : ∀ u, u ∈ distanceUnits ∨ u ∈ ["s", "min", "hr"] → canon lower u = u := by
    intro u hu
    apply canon_of hl
    simp only [distanceUnits, timeUnits, List.mem_append, List.mem_cons, List.not_mem_nil, or_false] at hu ⊢
    tauto
  have ha : canon lower a = a := hmem a (by tauto)
  have hb : canon lower b = b := hmem b (by tauto)
  have hd : distanceUnits.all (fun a => distanceUnits.all (fun b => (entry table a b).isSome)) = true := by
    decide +kernel
  have hs : ["s", "min", "hr"].all (fun a => ["s", "min", "hr"].all (fun b => (entry table a b).isSome)) = true := by
    decide +kernel
  have hi : (distanceUnits ++ ["s", "min", "hr"]).all (fun a => entry table a a == some 1) = true := by
    decide +kernel
  simp only [List.all_eq_true] at hd hs hi
  have hsome : (entry table a b).isSome ∧ (entry table b a).isSome := by
    rcases h with ⟨h1, h2⟩ | ⟨h1, h2⟩
    · exact ⟨hd a h1 b h2, hd b h2 a h1⟩
    · exact ⟨hs a h1 b h2, hs b h2 a h1⟩
  constructor
  · obtain ⟨x, hx⟩ := Option.isSome_iff_exists.mp hsome.1
    have h1 : unitConvert lower v a b = some (v * x) := by simp [unitConvert, ha, hb, hx]
    refine ⟨_, h1, c48_roundtrip_partial lower v _ a b h1 ?_⟩
    simp [unitConvert, ha, hb, hsome.2]
  · have hai : a ∈ distanceUnits ++ ["s", "min", "hr"] := by
      rw [List.mem_append]; tauto
    have := eq_of_beq (hi a hai)
    simp [unitConvert, ha, this]

example : Lower id ∧ unitConvert id 26 "mi" "km" = some (2600000000000 / 62137119223) := by
  refine ⟨fun _ _ => rfl, by decide +kernel⟩

/-- **C48 (names).** An alternate name, in any capitalisation, behaves like the unit it stands for. -/
theorem c48_alternates (lower : String → String) (hl : Lower lower) (v : Rat) (alt u x : String)
    (h : (alt, u) ∈ spelled) (n : String) (hn : lower n = alt) :
    unitConvert lower v n x = unitConvert lower v u x ∧ unitConvert lower v x n = unitConvert lower v x u := by
  have h1 : canon lower n = u := by
    unfold canon
    rw [hn]
    have : spelled.all (fun p => alternates.get? p.1 == some p.2) = true := by decide +kernel
    rw [List.all_eq_true] at this
    rw [eq_of_beq (this _ h)]
    rfl
  have h2 : canon lower u = u := by
    apply canon_of hl
    have : spelled.all (fun p => decide (p.2 ∈ distanceUnits ++ timeUnits)) = true := by decide +kernel
    rw [List.all_eq_true] at this
    exact of_decide_eq_true (this _ h)
  simp only [unitConvert, h1, h2, and_self]

example : ("hours", "hr") ∈ spelled ∧ unitConvert id 2 "hours" "minutes" = some 120 := by decide +kernel

/-- **C48 (errors).** A conversion succeeds only if both names are known units of the same quantity: an unknown name,
or a distance with a time, raises. -/
theorem c48_raises (lower : String → String) (v : Rat) (a b : String)
    (h : ¬ ((canon lower a ∈ distanceUnits ∧ canon lower b ∈ distanceUnits) ∨
      (canon lower a ∈ timeUnits ∧ canon lower b ∈ timeUnits))) : unitConvert lower v a b = none := by
  cases hx : entry table (canon lower a) (canon lower b) with
  | none => simp [unitConvert, hx]
  | some x =>
    have := table_all (p := fun a b _ => decide ((a ∈ distanceUnits ∧ b ∈ distanceUnits) ∨
      (a ∈ timeUnits ∧ b ∈ timeUnits))) (by decide +kernel) hx
    exact absurd (of_decide_eq_true this) h

example : unitConvert id 1 "furlong" "m" = none ∧ unitConvert id 1 "km" "hr" = none := by decide +kernel

/-- **C48 (order).** Conversions keep signs: a defined conversion multiplies by a positive number, the same for all
values. -/
theorem c48_positive_factor (lower : String → String) (a b : String) (v w : Rat)
    (h : unitConvert lower v a b = some w) :
    ∃ x, 0 < x ∧ w = v * x ∧ ∀ v', unitConvert lower v' a b = some (v' * x) := by
  unfold unitConvert at h ⊢
  cases hx : entry table (canon lower a) (canon lower b) with
  | none => simp [hx] at h
  | some x =>
    simp only [hx, Option.map_some, Option.some.injEq] at h
    have := table_all (p := fun _ _ x => decide (0 < x)) (by decide +kernel) hx
    exact ⟨x, of_decide_eq_true this, h.symm, fun v' => by simp⟩

example : unitConvert id 3 "ft" "mi" = some (1 / 1760) := by decide +kernel

/-- **C48 (consistent times).** Converting a time in two steps gives the same as in one step, whenever all three
conversions are possible. -/
theorem c48_times_consistent (lower : String → String) (v w x y : Rat) (a b c : String)
    (ht : canon lower a ∈ timeUnits) (h1 : unitConvert lower v a b = some w) (h2 : unitConvert lower w b c = some x)
    (h3 : unitConvert lower v a c = some y) : x = y := by
  unfold unitConvert at h1 h2 h3
  cases hx : entry table (canon lower a) (canon lower b) with
  | none => simp [hx] at h1
  | some p =>
    cases hy : entry table (canon lower b) (canon lower c) with
    | none => simp [hy] at h2
    | some q =>
      cases hz : entry table (canon lower a) (canon lower c) with
      | none => simp [hz] at h3
      | some r =>
        simp only [hx, hy, hz, Option.map_some, Option.some.injEq] at h1 h2 h3
        have h := table_all (p := fun a b p => !decide (a ∈ timeUnits) || table.all (fun row => !decide (row.1 = b) ||
          row.2.all (fun e => match entry table a e.1 with
            | some r => decide (p * e.2 = r)
            | none => true))) (by decide +kernel) hx
        simp only [ht, decide_true, Bool.not_true, Bool.false_or] at h
        obtain ⟨row, hr1, hr2⟩ := entry_mem hy
        rw [List.all_eq_true] at h
        have h := h _ hr1
        simp only [decide_true, Bool.not_true, Bool.false_or] at h
        rw [List.all_eq_true] at h
        have h := h _ hr2
        simp only [hz] at h
        rw [← h2, ← h3, ← h1, mul_assoc, of_decide_eq_true h]

example : unitConvert id 2 "week" "day" = some 14 ∧ unitConvert id 14 "day" "hr" = some 336 ∧
    unitConvert id 2 "week" "hr" = some 336 := by decide +kernel

/-- **Distances are not consistent**: miles to kilometres to nautical miles differs from miles to nautical miles (the
factors of the table are rounded independently). -/
theorem c48_distances_inconsistent :
    (unitConvert id 1000000 "mi" "km").bind (unitConvert id · "km" "nmi") ≠ unitConvert id 1000000 "mi" "nmi" := by
  decide +kernel

/-- What holds instead: for every value, two steps and one step differ by less than two parts in a million. -/
theorem c48_distances_nearly_consistent (lower : String → String) (v w x y : Rat) (a b c : String)
    (h1 : unitConvert lower v a b = some w) (h2 : unitConvert lower w b c = some x)
    (h3 : unitConvert lower v a c = some y) (hv : 0 ≤ v) : |x - y| ≤ y / 500000 := by
  unfold unitConvert at h1 h2 h3
  cases hx : entry table (canon lower a) (canon lower b) with
  | none => simp [hx] at h1
  | some p =>
    cases hy : entry table (canon lower b) (canon lower c) with
    | none => simp [hy] at h2
    | some q =>
      cases hz : entry table (canon lower a) (canon lower c) with
      | none => simp [hz] at h3
      | some r =>
        simp only [hx, hy, hz, Option.map_some, Option.some.injEq] at h1 h2 h3
        have h := table_all (p := fun a b p => table.all (fun row => !decide (row.1 = b) ||
          row.2.all (fun e => match entry table a e.1 with
            | some r => decide (p * e.2 - r ≤ r / 500000 ∧ r - p * e.2 ≤ r / 500000)
            | none => true))) (by decide +kernel) hx
        obtain ⟨row, hr1, hr2⟩ := entry_mem hy
        rw [List.all_eq_true] at h
        have h := h _ hr1
        simp only [decide_true, Bool.not_true, Bool.false_or] at h
        rw [List.all_eq_true] at h
        have h := h _ hr2
        simp only [hz] at h
        obtain ⟨g1, g2⟩ := of_decide_eq_true h
        have e1 : x - y = v * (p * q - r) := by rw [← h2, ← h3, ← h1]; ring
        have e2 : y / 500000 = v * (r / 500000) := by rw [← h3]; ring
        rw [e1, e2, abs_le]
        constructor
        · have := mul_le_mul_of_nonneg_left g2 hv
          linarith [this]
        · exact mul_le_mul_of_nonneg_left g1 hv

example : unitConvert id 1000000 "mi" "nmi" = some 868976 ∧
    ((unitConvert id 1000000 "mi" "km").bind (unitConvert id · "km" "nmi")).isSome = true := by decide +kernel

/-! ### What the units are -/

/-- The international definitions: metres for lengths (`false`) and seconds for times (`true`). -/
def meaning : Dict String (Bool × Rat) :=
  [("m", false, 1), ("km", false, 1000), ("mi", false, 1609344 / 1000), ("nmi", false, 1852), ("ft", false, 3048 / 10000),
    ("s", true, 1), ("second", true, 1), ("seconds", true, 1), ("min", true, 60), ("minute", true, 60), ("minutes", true, 60),
    ("hr", true, 3600), ("hour", true, 3600), ("hours", true, 3600), ("day", true, 86400), ("days", true, 86400),
    ("week", true, 604800), ("weeks", true, 604800)]

theorem meaning_canon (lower : String → String) (u : String) : meaning.get? (canon lower u) = meaning.get? (lower u) := by
  unfold canon
  cases h : alternates.get? (lower u) with
  | none => rfl
  | some c =>
    have := Dict.mem_of_get? h
    have hall : alternates.all (fun e => meaning.get? e.2 == meaning.get? e.1) = true := by decide +kernel
    rw [List.all_eq_true] at hall
    exact eq_of_beq (hall _ this)

/-- **C48 (sizes).** A conversion that works is between two lengths or two times, and gives what the definitions of the units say: exactly for times,
within one part in a million for lengths. -/
theorem c48_sizes (lower : String → String) (v w : Rat) (a b : String) (h : unitConvert lower v a b = some w) :
    ∃ k x y, meaning.get? (lower a) = some (k, x) ∧ meaning.get? (lower b) = some (k, y) ∧ (k = true → w = v * (x / y)) ∧
      |w - v * (x / y)| ≤ |v| * (x / y) / 1000000 := by
  unfold unitConvert at h
  cases hx : entry table (canon lower a) (canon lower b) with
  | none => simp [hx] at h
  | some p =>
    simp only [hx, Option.map_some, Option.some.injEq] at h
    have ht := table_all (p := fun a b p => match meaning.get? a, meaning.get? b with
      | some (k, x), some (l, y) => k == l && (!k || decide (p = x / y)) && decide (p - x / y ≤ x / y / 1000000 ∧ x / y - p ≤ x / y / 1000000)
      | _, _ => false) (by decide +kernel) hx
    simp only [meaning_canon] at ht
    split at ht
    · rename_i k x l y e1 e2
      simp only [Bool.and_eq_true, beq_iff_eq, Bool.or_eq_true, Bool.not_eq_true', decide_eq_true_eq] at ht
      obtain ⟨⟨rfl, h1⟩, h2, h3⟩ := ht
      refine ⟨k, x, y, e1, e2, fun hk => ?_, ?_⟩
      · rcases h1 with h1 | h1
        · simp [hk] at h1
        · rw [← h, h1]
      · rw [← h, ← mul_sub, abs_mul, mul_div_assoc]
        exact mul_le_mul_of_nonneg_left (abs_le.2 ⟨by linarith, h2⟩) (abs_nonneg v)
    · exact absurd ht (by simp)

example : unitConvert id (-26) "mi" "nmi" = some (-26 * (868976 / 1000000)) ∧ unitConvert id 3 "weeks" "min" = some 30240 := by decide +kernel

end Verif.Units
