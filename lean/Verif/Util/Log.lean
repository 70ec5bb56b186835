import Mathlib.Algebra.Order.Ring.Rat
import Mathlib.Tactic.Linarith

/-!
# Time-stamped logs

Specification vocabulary shared by the recording properties: the value that a log of `(time, value)`
entries (oldest first) attributes to an instant is the value of its last entry not after that instant.
No source file of `/repo` is modelled here.
-/

namespace Verif.Log

variable {ν : Type}

/-- The value a log attributes to the instant `t`: its last entry with time `≤ t`. -/
def lookup (log : List (Rat × ν)) (t : Rat) : Option ν :=
  (log.filter (fun e => decide (e.1 ≤ t))).getLast?.map (·.2)

/-- Entries are in time order. -/
def Ordered (log : List (Rat × ν)) : Prop := log.Pairwise (fun a b => a.1 ≤ b.1)

/-- All entries are at or before `now`. -/
def UpTo (log : List (Rat × ν)) (now : Rat) : Prop := ∀ e ∈ log, e.1 ≤ now

theorem lookup_append (a b : List (Rat × ν)) (t : Rat) :
    lookup (a ++ b) t = (lookup b t).or (lookup a t) := by
  unfold lookup
  rw [List.filter_append, List.getLast?_append]
  cases (b.filter (fun e => decide (e.1 ≤ t))).getLast? <;> simp

theorem lookup_none_of_gt {b : List (Rat × ν)} {t : Rat} (h : ∀ e ∈ b, t < e.1) :
    lookup b t = none := by
  unfold lookup
  have : b.filter (fun e => decide (e.1 ≤ t)) = [] := by
    rw [List.filter_eq_nil_iff]
    intro e he
    have := h e he
    simp; exact this
  rw [this]; rfl

theorem lookup_all {b : List (Rat × ν)} {t : Rat} (h : ∀ e ∈ b, e.1 ≤ t) :
    lookup b t = b.getLast?.map (·.2) := by
  unfold lookup
  rw [List.filter_eq_self.mpr]
  intro e he; simp [h e he]

/-- `log` and `snaps` say the same at every instant; `log` is in order, up to `now`, and ends with the
current value `v`. -/
structure Faithful (log snaps : List (Rat × ν)) (now : Rat) (v : ν) : Prop where
  ordered : Ordered log
  upto : UpTo log now
  supto : UpTo snaps now
  cur : log.getLast?.map (·.2) = some v
  same : ∀ t, lookup log t = lookup snaps t

theorem Faithful.start (now : Rat) (v : ν) : Faithful [(now, v)] [(now, v)] now v where
  ordered := by simp [Ordered]
  upto := by intro e he; simp at he; subst he; exact le_refl _
  supto := by intro e he; simp at he; subst he; exact le_refl _
  cur := rfl
  same := fun _ => rfl

/-- One step: the new log extends the old one by entries at the new time and ends with the new value;
the snapshot of the new value is appended to `snaps`. -/
theorem Faithful.extend {log snaps : List (Rat × ν)} {now now' : Rat} {v v' : ν}
    (h : Faithful log snaps now v) (hn : now ≤ now') {ext : List (Rat × ν)}
    (he : ∀ e ∈ ext, e.1 = now') (hc : (log ++ ext).getLast?.map (·.2) = some v') :
    Faithful (log ++ ext) (snaps ++ [(now', v')]) now' v' where
  ordered := by
    unfold Ordered
    rw [List.pairwise_append]
    refine ⟨h.ordered, ?_, ?_⟩
    · clear hc
      induction ext with
      | nil => simp
      | cons a ext ih =>
        refine List.pairwise_cons.mpr ⟨?_, ih (fun e h => he e (List.mem_cons_of_mem _ h))⟩
        intro b hb
        rw [he a (List.mem_cons_self ..), he b (List.mem_cons_of_mem _ hb)]
    · intro a ha b hb
      rw [he b hb]; exact le_trans (h.upto a ha) hn
  upto := by
    intro e hm
    rcases List.mem_append.mp hm with hm | hm
    · exact le_trans (h.upto e hm) hn
    · rw [he e hm]
  supto := by
    intro e hm
    rcases List.mem_append.mp hm with hm | hm
    · exact le_trans (h.supto e hm) hn
    · simp at hm; subst hm; exact le_refl _
  cur := hc
  same := by
    intro t
    by_cases ht : now' ≤ t
    · have h1 : lookup (log ++ ext) t = some v' := by
        rw [lookup_all, hc]
        intro e hm
        rcases List.mem_append.mp hm with hm | hm
        · exact le_trans (le_trans (h.upto e hm) hn) ht
        · rw [he e hm]; exact ht
      have h2 : lookup (snaps ++ [(now', v')]) t = some v' := by
        rw [lookup_append]
        have : lookup [(now', v')] t = some v' := by simp [lookup, ht]
        rw [this]; rfl
      rw [h1, h2]
    · have ht' : t < now' := not_le.mp ht
      rw [lookup_append, lookup_append, lookup_none_of_gt (b := ext),
        lookup_none_of_gt (b := [(now', v')]), h.same]
      · intro e hm; simp at hm; subst hm; exact ht'
      · intro e hm; rw [he e hm]; exact ht'

end Verif.Log
