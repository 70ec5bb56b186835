import Verif.Active.Model
import Mathlib.Data.List.Chain

/-!
# Specification vocabulary for C10-C14 on active states

What a user sees of one state in a trace: rates switched on and off by tasks, and assignments. From these
alone we say what the state must read.
-/

namespace Verif.Active

/-- What happened to one state. -/
inductive SEv where
  | on (t : Nat) (r : Rat)
  | off (t : Nat)
  | set (x : Rat)
deriving DecidableEq, Repr

/-- The events of state `n` visible in one observation of the trace. -/
def eventsOf (n : Nat) : Rat × Op × Out → List (Rat × SEv)
  | (τ, .activate m t (some r), .ok) => if m = n then [(τ, .on t r)] else []
  | (τ, .deactivate m t, .ok) => if m = n then [(τ, .off t)] else []
  | (τ, .deactivateAll t _, .all done _) => if n ∈ done then [(τ, .off t)] else []
  | (τ, .assign m x, .ok) => if m = n then [(τ, .set x)] else []
  | _ => []

/-- The events of state `n` in a trace. -/
def events (n : Nat) (tr : Trace) : List (Rat × SEv) := tr.flatMap (eventsOf n)

/-- When task `t` next switches off. -/
def nextOff (t : Nat) : List (Rat × SEv) → Option Rat
  | [] => none
  | (τ, .off t') :: evs => if t' = t then some τ else nextOff t evs
  | _ :: evs => nextOff t evs

/-- How much of the time up to `x` a rate switched on at `s` and off at `e` (if ever) was on. -/
def onTime (s : Rat) (e : Option Rat) (x : Rat) : Rat :=
  max s (match e with
    | none => x
    | some e => min e x) - s

/-- Σ over all rates ever switched on: rate × time it was on up to `x`. -/
def accrued : List (Rat × SEv) → Rat → Rat
  | [], _ => 0
  | (τ, .on t r) :: evs, x => r * onTime τ (nextOff t evs) x + accrued evs x
  | _ :: evs, x => accrued evs x

/-- A small simulator that also copes with assignments: value `v` at time `at_` and the rates now on. -/
structure Sp where
  v : Rat
  at_ : Rat
  rates : List (Nat × Rat)
deriving DecidableEq, Repr

/-- The value at time `x`. -/
def Sp.valueAt (sp : Sp) (x : Rat) : Rat := sp.v + (sp.rates.map (·.2)).sum * (x - sp.at_)

/-- One event. -/
def Sp.ev (sp : Sp) : Rat × SEv → Sp
  | (τ, .on t r) => ⟨sp.valueAt τ, τ, sp.rates ++ [(t, r)]⟩
  | (τ, .off t) => ⟨sp.valueAt τ, τ, sp.rates.filter (fun p => p.1 ≠ t)⟩
  | (τ, .set x) => ⟨x, τ, sp.rates⟩

/-- All events, from value `v0` at `t0`. -/
def simulate (v0 t0 : Rat) (evs : List (Rat × SEv)) : Sp := evs.foldl Sp.ev ⟨v0, t0, []⟩

/-- No assignments. -/
def NoSet (evs : List (Rat × SEv)) : Prop := ∀ e ∈ evs, ∀ x, e.2 ≠ .set x

/-- Events are in time order, between `a` and `b`. -/
def InOrder : Rat → List (Rat × SEv) → Rat → Prop
  | a, [], b => a ≤ b
  | a, e :: evs, b => a ≤ e.1 ∧ InOrder e.1 evs b

/-- Recorded values, without the activation markers. -/
def values (h : List (Rat × Entry)) : List (Rat × Rat) :=
  h.filterMap (fun e => match e.2 with
    | .val v => some (e.1, v)
    | _ => none)

/-- Between two consecutive recorded values the quantity `f` is the straight line through them. -/
def Segment (f : Rat → Rat) (a b : Rat × Rat) : Prop :=
  a.1 ≤ b.1 ∧ ∀ t, a.1 ≤ t → t ≤ b.1 → (f t - a.2) * (b.1 - a.1) = (b.2 - a.2) * (t - a.1)

/-! ## The simulator agrees with the closed form -/

theorem inOrder_le {a b : Rat} {evs : List (Rat × SEv)} (h : InOrder a evs b) : a ≤ b := by
  induction evs generalizing a with
  | nil => exact h
  | cons e evs ih => exact le_trans h.1 (ih h.2)

theorem nextOff_ge {a b : Rat} {evs : List (Rat × SEv)} (h : InOrder a evs b) (t : Nat) (e : Rat)
    (he : nextOff t evs = some e) : a ≤ e := by
  induction evs generalizing a with
  | nil => simp [nextOff] at he
  | cons x evs ih =>
    obtain ⟨τ, x⟩ := x
    cases x with
    | on _ _ => exact le_trans h.1 (ih h.2 he)
    | set _ => exact le_trans h.1 (ih h.2 he)
    | off t' =>
      simp only [nextOff] at he
      split at he
      · simp at he; subst he; exact h.1
      · exact le_trans h.1 (ih h.2 he)

theorem onTime_split {s τ x : Rat} {e : Option Rat} (h1 : s ≤ τ) (h2 : τ ≤ x)
    (h3 : ∀ e', e = some e' → τ ≤ e') : onTime s e x = (τ - s) + onTime τ e x := by
  unfold onTime
  cases e with
  | none => simp only; rw [max_eq_right (le_trans h1 h2), max_eq_right h2]; ring
  | some e =>
    have := le_min (h3 e rfl) h2
    simp only
    rw [max_eq_right (le_trans h1 this), max_eq_right this]; ring

/-- Σ over the rates currently on. -/
def pending (rates : List (Nat × Rat)) (s : Rat) (evs : List (Rat × SEv)) (x : Rat) : Rat :=
  (rates.map (fun p => p.2 * onTime s (nextOff p.1 evs) x)).sum

theorem pending_on (rates : List (Nat × Rat)) (s τ x : Rat) (t : Nat) (r : Rat) (evs : List (Rat × SEv))
    (h1 : s ≤ τ) (h2 : InOrder τ evs x) :
    pending rates s ((τ, .on t r) :: evs) x = (rates.map (·.2)).sum * (τ - s) + pending rates τ evs x := by
  unfold pending
  induction rates with
  | nil => simp
  | cons p rates ih =>
    simp only [List.map_cons, List.sum_cons]
    rw [ih]
    have : nextOff p.1 ((τ, SEv.on t r) :: evs) = nextOff p.1 evs := rfl
    rw [this, onTime_split h1 (inOrder_le h2) (fun e he => nextOff_ge h2 _ e he)]
    ring

theorem pending_off (rates : List (Nat × Rat)) (s τ x : Rat) (t : Nat) (evs : List (Rat × SEv))
    (h1 : s ≤ τ) (h2 : InOrder τ evs x) :
    pending rates s ((τ, .off t) :: evs) x =
      (rates.map (·.2)).sum * (τ - s) + pending (rates.filter (fun p => p.1 ≠ t)) τ evs x := by
  unfold pending
  induction rates with
  | nil => simp
  | cons p rates ih =>
    simp only [List.map_cons, List.sum_cons]
    rw [ih]
    by_cases hp : p.1 = t
    · have hn : nextOff p.1 ((τ, SEv.off t) :: evs) = some τ := by simp [nextOff, hp]
      rw [hn, onTime_split h1 (inOrder_le h2) (fun e he => by simp at he; exact le_of_eq he)]
      have h0 : onTime τ (some τ) x = 0 := by
        simp [onTime, min_eq_left (inOrder_le h2)]
      rw [h0]
      simp only [List.filter_cons, hp, ne_eq, not_true_eq_false, decide_false, Bool.false_eq_true, if_false]
      ring
    · have hn : nextOff p.1 ((τ, SEv.off t) :: evs) = nextOff p.1 evs := by
        simp [nextOff, Ne.symm hp]
      rw [hn, onTime_split h1 (inOrder_le h2) (fun e he => nextOff_ge h2 _ e he)]
      simp only [List.filter_cons, hp, ne_eq, not_false_eq_true, decide_true, if_true, List.map_cons,
        List.sum_cons]
      ring

theorem foldl_ev (evs : List (Rat × SEv)) (sp : Sp) (x : Rat) (h : InOrder sp.at_ evs x) (hs : NoSet evs) :
    (evs.foldl Sp.ev sp).valueAt x = sp.v + pending sp.rates sp.at_ evs x + accrued evs x := by
  induction evs generalizing sp with
  | nil =>
    have hle : sp.at_ ≤ x := h
    simp only [List.foldl_nil, Sp.valueAt, accrued, pending, nextOff]
    have : (sp.rates.map (fun p => p.2 * onTime sp.at_ none x)).sum =
        (sp.rates.map (·.2)).sum * (x - sp.at_) := by
      induction sp.rates with
      | nil => simp
      | cons p l ih =>
        simp only [List.map_cons, List.sum_cons, ih]
        simp only [onTime, max_eq_right hle]; ring
    rw [this]; ring
  | cons e evs ih =>
    obtain ⟨τ, e⟩ := e
    have hs' : NoSet evs := fun e he => hs e (List.mem_cons_of_mem _ he)
    cases e with
    | set y => exact absurd rfl (hs (τ, .set y) (by simp) y)
    | on t r =>
      simp only [List.foldl_cons]
      rw [ih _ (by exact h.2) hs', pending_on _ _ _ _ _ _ _ h.1 h.2]
      simp only [Sp.ev, accrued, Sp.valueAt, pending, List.map_append, List.sum_append, List.map_cons,
        List.map_nil, List.sum_cons, List.sum_nil]
      ring
    | off t =>
      simp only [List.foldl_cons]
      rw [ih _ (by exact h.2) hs', pending_off _ _ _ _ _ _ h.1 h.2]
      simp only [Sp.ev, accrued, Sp.valueAt, pending]
      ring

/-- The simulator gives the declarative amount. -/
theorem simulate_closed (v0 t0 x : Rat) (evs : List (Rat × SEv)) (h : InOrder t0 evs x) (hs : NoSet evs) :
    (simulate v0 t0 evs).valueAt x = v0 + accrued evs x := by
  unfold simulate
  rw [foldl_ev evs ⟨v0, t0, []⟩ x h hs]
  simp [pending]

/-- Later events do not change what had accrued earlier. -/
theorem accrued_append (evs later : List (Rat × SEv)) (x : Rat) (hl : ∀ e ∈ later, x ≤ e.1) :
    accrued (evs ++ later) x = accrued evs x := by
  have h0 : ∀ later : List (Rat × SEv), (∀ e ∈ later, x ≤ e.1) → accrued later x = 0 := by
    intro later
    induction later with
    | nil => intro _; rfl
    | cons e later ih =>
      intro hl
      have ih := ih (fun e he => hl e (List.mem_cons_of_mem _ he))
      have hx : x ≤ e.1 := hl e (by simp)
      obtain ⟨τ, e⟩ := e
      cases e with
      | on t r =>
        simp only [accrued, ih]
        have : onTime τ (nextOff t later) x = 0 := by
          unfold onTime
          cases nextOff t later with
          | none => simp [max_eq_left hx]
          | some e => simp [max_eq_left (le_trans (min_le_right e x) hx)]
        rw [this]; ring
      | off t => exact ih
      | set y => exact ih
  have hn : ∀ (evs : List (Rat × SEv)) (t : Nat) (s : Rat),
      onTime s (nextOff t (evs ++ later)) x = onTime s (nextOff t evs) x := by
    intro evs t s
    induction evs with
    | nil =>
      simp only [List.nil_append, nextOff]
      have : ∀ e, nextOff t later = some e → x ≤ e := by
        intro e he
        clear h0
        induction later with
        | nil => simp [nextOff] at he
        | cons y later ih =>
          obtain ⟨τ, y⟩ := y
          cases y with
          | on _ _ => exact ih (fun e he => hl e (List.mem_cons_of_mem _ he)) he
          | set _ => exact ih (fun e he => hl e (List.mem_cons_of_mem _ he)) he
          | off t' =>
            simp only [nextOff] at he
            split at he
            · simp at he; subst he; exact hl (τ, .off t') (by simp)
            · exact ih (fun e he => hl e (List.mem_cons_of_mem _ he)) he
      unfold onTime
      cases h : nextOff t later with
      | none => rfl
      | some e => simp [min_eq_right (this e h)]
    | cons y evs ih =>
      obtain ⟨τ, y⟩ := y
      cases y with
      | on _ _ => exact ih
      | set _ => exact ih
      | off t' =>
        simp only [List.cons_append, nextOff]
        split
        · rfl
        · exact ih
  induction evs with
  | nil => simp only [List.nil_append]; rw [h0 later hl]; rfl
  | cons e evs ih =>
    obtain ⟨τ, e⟩ := e
    cases e with
    | on t r => simp only [List.cons_append, accrued, ih, hn]
    | off t => exact ih
    | set y => exact ih

end Verif.Active
