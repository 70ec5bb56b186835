import Verif.Util.Log
import Mathlib.Data.List.Chain

/-!
# Recorded histories

Specification vocabulary for state recording: what it means that a history `h` is a faithful record of the
values `w` a state was given. No source file of `/repo` is modelled here except the append rule, which
occurs three times in the source in the same form.
-/

namespace Verif.Recorded

open Verif.Log

variable {V : Type}

/-- The append rule of `_do_record` (states.py:202-207), `_do_record_funcs` (178-183) and
`_KeyValueBase._record_single` (1203-1209): the first entry is stored; later ones unless duplicates are off
and `_compare` (60-75) says the new `(time, value)` pair equals the last one. Tuple comparison looks at the
values only if the times are equal; `same` is the outcome of comparing the values (`False` on an
exception). -/
def append (dup : Bool) (same : V → V → Bool) (h : List (Rat × V)) (e : Rat × V) : List (Rat × V) :=
  match h.getLast? with
  | none => [e]
  | some l => if dup || !(decide (e.1 = l.1) && same e.2 l.2) then h ++ [e] else h

/-- Two attributed values agree: both absent, or equal, or equal as far as `==` can tell. -/
def Agree (same : V → V → Bool) : Option V → Option V → Prop
  | none, none => True
  | some x, some y => x = y ∨ same x y = true
  | _, _ => False

/-- `h` is a faithful history of the values `w` given so far, at time `now`. -/
structure Faithful (dup : Bool) (same : V → V → Bool) (h w : List (Rat × V)) (now : Rat) : Prop where
  sub : h.Sublist w
  ordered : Ordered w
  upto : UpTo w now
  look : ∀ t, Agree same (lookup w t) (lookup h t)
  chain : dup = false → h.IsChain (fun a b => ¬ (b.1 = a.1 ∧ same b.2 a.2 = true))
  full : dup = true → h = w

theorem Faithful.nil (dup : Bool) (same : V → V → Bool) (now : Rat) :
    Faithful dup same ([] : List (Rat × V)) [] now where
  sub := List.Sublist.refl _
  ordered := by simp [Ordered]
  upto := by simp [UpTo]
  look := fun t => by simp [lookup, Agree]
  chain := fun _ => List.IsChain.nil
  full := fun _ => rfl

theorem Faithful.later {dup : Bool} {same : V → V → Bool} {h w : List (Rat × V)} {now now' : Rat}
    (f : Faithful dup same h w now) (hn : now ≤ now') : Faithful dup same h w now' :=
  { f with upto := fun e he => le_trans (f.upto e he) hn }

theorem agree_refl (same : V → V → Bool) (o : Option V) : Agree same o o := by
  cases o <;> simp [Agree]

theorem Faithful.extend {dup : Bool} {same : V → V → Bool} {h w : List (Rat × V)} {now : Rat}
    (f : Faithful dup same h w now) (v : V) :
    Faithful dup same (append dup same h (now, v)) (w ++ [(now, v)]) now := by
  have hord : Ordered (w ++ [(now, v)]) := by
    unfold Ordered
    rw [List.pairwise_append]
    refine ⟨f.ordered, by simp, ?_⟩
    intro a ha b hb
    simp at hb; subst hb; exact f.upto a ha
  have hup : UpTo (w ++ [(now, v)]) now := by
    intro e he
    rcases List.mem_append.mp he with he | he
    · exact f.upto e he
    · simp at he; subst he; exact le_refl _
  have huph : UpTo h now := fun e he => f.upto e (f.sub.subset he)
  have hw : ∀ t, now ≤ t → lookup (w ++ [(now, v)]) t = some v := by
    intro t ht
    rw [lookup_append]
    have : lookup [(now, v)] t = some v := by simp [lookup, ht]
    rw [this]; rfl
  have hw' : ∀ (x : List (Rat × V)) t, t < now → lookup (x ++ [(now, v)]) t = lookup x t := by
    intro x t ht
    rw [lookup_append, lookup_none_of_gt (b := [(now, v)])]
    · rfl
    · intro e he; simp at he; subst he; exact ht
  -- the two outcomes of the append rule
  have happ : ∀ h', h' = h ++ [(now, v)] →
      (dup = false → ∀ l, h.getLast? = some l → ¬ (now = l.1 ∧ same v l.2 = true)) →
      Faithful dup same h' (w ++ [(now, v)]) now := by
    intro h' he hd
    subst he
    refine ⟨f.sub.append (List.Sublist.refl _), hord, hup, ?_, ?_, fun hdup => by rw [f.full hdup]⟩
    · intro t
      by_cases ht : now ≤ t
      · rw [hw t ht, lookup_append]
        have : lookup [(now, v)] t = some v := by simp [lookup, ht]
        rw [this]; exact Or.inl rfl
      · rw [hw' w t (not_le.mp ht), hw' h t (not_le.mp ht)]
        exact f.look t
    · intro hdup
      rw [List.isChain_append]
      refine ⟨f.chain hdup, List.IsChain.singleton _, ?_⟩
      intro x hx y hy
      simp at hy; subst hy
      exact hd hdup x hx
  unfold append
  split
  · rename_i hl
    have hnil : h = [] := by simpa using hl
    refine happ _ (by rw [hnil]; rfl) ?_
    intro _ l hl'; rw [hnil] at hl'; simp at hl'
  · rename_i l hl
    split
    · rename_i hc
      refine happ _ rfl ?_
      intro hdup l' hl'
      rw [hl] at hl'; cases hl'
      rintro ⟨ha, hb⟩
      simp [hdup, ha, hb] at hc
    · rename_i hc
      simp only [Bool.or_eq_true, Bool.not_eq_true', Bool.and_eq_false_iff, not_or, Bool.not_eq_true,
        decide_eq_false_iff_not, not_not] at hc
      obtain ⟨hdup, hnow, hsame⟩ := hc
      refine ⟨f.sub.trans (List.sublist_append_left _ _), hord, hup, ?_, f.chain, fun hd => by
        rw [hd] at hdup; exact absurd hdup (by simp)⟩
      intro t
      by_cases ht : now ≤ t
      · rw [hw t ht, lookup_all (fun e he => le_trans (huph e he) ht), hl]
        right
        simpa using hsame
      · rw [hw' w t (not_le.mp ht)]
        exact f.look t

end Verif.Recorded
