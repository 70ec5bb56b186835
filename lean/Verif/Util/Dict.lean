/-!
# Python dictionaries

A small model of a Python `dict` used by all the other models: a list of key/value pairs in insertion
order.  Assigning to an existing key keeps its position (CPython semantics), assigning to a new key
appends, deleting removes the entry.  No source file of `/repo` is modelled here.
-/

namespace Verif

/-- A Python dict as an insertion-ordered association list. -/
abbrev Dict (κ ν : Type) := List (κ × ν)

namespace Dict

set_option linter.unusedSectionVars false

variable {κ ν : Type} [DecidableEq κ]

/-- `d.get(k)`; `none` when absent. -/
def get? : Dict κ ν → κ → Option ν
  | [], _ => none
  | (k', v) :: d, k => if k' = k then some v else get? d k

/-- `k in d`. -/
def has (d : Dict κ ν) (k : κ) : Bool := (get? d k).isSome

/-- `d[k] = v`. -/
def set : Dict κ ν → κ → ν → Dict κ ν
  | [], k, v => [(k, v)]
  | (k', v') :: d, k, v => if k' = k then (k', v) :: d else (k', v') :: set d k v

/-- `d.pop(k, None)` / `del d[k]` (all entries with the key; keys are unique in reachable dicts). -/
def del (d : Dict κ ν) (k : κ) : Dict κ ν := d.filter (fun p => p.1 ≠ k)

/-- `list(d.keys())`. -/
def keys (d : Dict κ ν) : List κ := d.map (·.1)

/-- `list(d.values())`. -/
def vals (d : Dict κ ν) : List ν := d.map (·.2)

/-- Keys are unique. -/
def WF (d : Dict κ ν) : Prop := d.keys.Nodup

@[simp] theorem get?_nil (k : κ) : get? ([] : Dict κ ν) k = none := rfl

theorem get?_cons (p : κ × ν) (d : Dict κ ν) (k : κ) :
    get? (p :: d) k = if p.1 = k then some p.2 else get? d k := rfl

theorem get?_set (d : Dict κ ν) (k : κ) (v : ν) (k' : κ) :
    get? (set d k v) k' = if k = k' then some v else get? d k' := by
  induction d with
  | nil => simp [set, get?_cons]
  | cons p d ih =>
    simp only [set]
    split
    · rename_i h; simp only [get?_cons, h]; split <;> simp_all
    · simp only [get?_cons, ih]
      split
      · rename_i h1 h2; subst h2; split <;> simp_all
      · rfl

@[simp] theorem get?_set_self (d : Dict κ ν) (k : κ) (v : ν) : get? (set d k v) k = some v := by
  simp [get?_set]

theorem get?_set_ne (d : Dict κ ν) {k k' : κ} (v : ν) (h : k ≠ k') :
    get? (set d k v) k' = get? d k' := by simp [get?_set, h]

theorem get?_del (d : Dict κ ν) (k k' : κ) :
    get? (del d k) k' = if k = k' then none else get? d k' := by
  induction d with
  | nil => simp [del]
  | cons p d ih =>
    simp only [del, List.filter_cons] at ih ⊢
    by_cases h : p.1 = k
    · simp only [h, ne_eq, not_true_eq_false, decide_false, Bool.false_eq_true, ↓reduceIte, ih,
        get?_cons]
      split <;> simp_all
    · simp only [ne_eq, h, not_false_eq_true, decide_true, ↓reduceIte, get?_cons, ih]
      by_cases h2 : p.1 = k' <;> by_cases h3 : k = k' <;> simp_all

@[simp] theorem get?_del_self (d : Dict κ ν) (k : κ) : get? (del d k) k = none := by
  simp [get?_del]

theorem get?_del_ne (d : Dict κ ν) {k k' : κ} (h : k ≠ k') : get? (del d k) k' = get? d k' := by
  simp [get?_del, h]

theorem mem_of_get? {d : Dict κ ν} {k : κ} {v : ν} (h : get? d k = some v) : (k, v) ∈ d := by
  induction d with
  | nil => simp at h
  | cons p d ih =>
    rw [get?_cons] at h
    split at h
    · rename_i hk; cases h; subst hk; simp
    · exact List.mem_cons_of_mem _ (ih h)

theorem get?_eq_none_iff {d : Dict κ ν} {k : κ} : get? d k = none ↔ k ∉ d.keys := by
  induction d with
  | nil => simp [keys]
  | cons p d ih =>
    rw [get?_cons]
    simp only [keys, List.map_cons, List.mem_cons, not_or] at ih ⊢
    split
    · rename_i h; simp [h]
    · rename_i h; rw [ih]; constructor
      · intro h2; exact ⟨fun e => h e.symm, h2⟩
      · exact fun h2 => h2.2

theorem has_iff {d : Dict κ ν} {k : κ} : d.has k = true ↔ k ∈ d.keys := by
  unfold has
  cases h : get? d k with
  | none => simp [get?_eq_none_iff.mp h]
  | some v =>
    simp only [Option.isSome_some, true_iff]
    exact Classical.not_not.mp (fun hc => by simp [get?_eq_none_iff.mpr hc] at h)

theorem get?_of_mem {d : Dict κ ν} (wf : d.WF) {k : κ} {v : ν} (h : (k, v) ∈ d) :
    get? d k = some v := by
  induction d with
  | nil => simp at h
  | cons p d ih =>
    simp only [WF, keys, List.map_cons, List.nodup_cons] at wf
    rw [get?_cons]
    rcases List.mem_cons.mp h with h | h
    · subst h; simp
    · have : k ∈ d.map (·.1) := List.mem_map.mpr ⟨_, h, rfl⟩
      split
      · rename_i hk; exact absurd (hk ▸ this) wf.1
      · exact ih wf.2 h

theorem mem_set {d : Dict κ ν} {k : κ} {v : ν} {p : κ × ν} (h : p ∈ set d k v) : p = (k, v) ∨ p ∈ d := by
  induction d with
  | nil => simpa [set] using h
  | cons q d ih =>
    simp only [set] at h
    split at h
    · rename_i hk
      rcases List.mem_cons.1 h with h | h
      · exact Or.inl (by rw [h, hk])
      · exact Or.inr (List.mem_cons_of_mem _ h)
    · rcases List.mem_cons.1 h with h | h
      · exact Or.inr (h ▸ List.mem_cons_self)
      · rcases ih h with h | h
        · exact Or.inl h
        · exact Or.inr (List.mem_cons_of_mem _ h)

theorem WF_nil : WF ([] : Dict κ ν) := by simp [WF, keys]

theorem keys_set (d : Dict κ ν) (k : κ) (v : ν) :
    (set d k v).keys = if k ∈ d.keys then d.keys else d.keys ++ [k] := by
  induction d with
  | nil => simp [set, keys]
  | cons p d ih =>
    simp only [keys] at ih
    simp only [set]
    split
    · rename_i h; subst h; simp [keys]
    · rename_i h
      have h' : ¬ k = p.1 := fun e => h e.symm
      simp only [keys, List.map_cons, ih, List.mem_cons, h', false_or]
      split <;> simp_all

theorem keys_del (d : Dict κ ν) (k : κ) : (del d k).keys = d.keys.filter (fun x => x ≠ k) := by
  simp [del, keys, List.filter_map, Function.comp_def]

theorem WF_set {d : Dict κ ν} (wf : d.WF) (k : κ) (v : ν) : (set d k v).WF := by
  unfold WF; rw [keys_set]; split
  · exact wf
  · rename_i h
    rw [List.nodup_append]
    refine ⟨wf, by simp, ?_⟩
    intro a ha b hb; simp at hb; subst hb; intro e; subst e; exact h ha

theorem WF_del {d : Dict κ ν} (wf : d.WF) (k : κ) : (del d k).WF := by
  unfold WF; rw [keys_del]; exact wf.filter _

theorem mem_set_new {d : Dict κ ν} {k : κ} {v : ν} (h : get? d k = none) : set d k v = d ++ [(k, v)] := by
  induction d with
  | nil => rfl
  | cons p d ih =>
    rw [get?_cons] at h
    simp only [set]
    split at h
    · cases h
    · rename_i hk; simp [hk, ih h]

theorem del_absent {d : Dict κ ν} {k : κ} (h : get? d k = none) : del d k = d := by
  rw [get?_eq_none_iff] at h
  unfold del
  rw [List.filter_eq_self]
  intro p hp
  simp only [ne_eq, decide_not, Bool.not_eq_eq_eq_not, Bool.not_true, decide_eq_false_iff_not]
  intro e; exact h (List.mem_map.mpr ⟨p, hp, e⟩)

end Dict
end Verif
