import Verif.KeyVal.Props

/-!
# What reading a dictionary or dataclass state gives (C14)

The value a key has follows from the assignments alone: the last one given, whether or not its type was right
(`_DictionaryProxy.__setitem__` stores before it checks). A key that was never given a value raises.
-/

namespace Verif.KeyVal

variable {V : Type}

/-- The last value a list of pairs gives to a key, up to the first pair of a wrong type. -/
def lastOf (c : Cfg V) (k : Nat) (d : Option V) : List (Nat × V) → Option V
  | [] => d
  | (j, v) :: kvs => if c.okType j v then lastOf c k (if j = k then some v else d) kvs else d

/-- Whether the state has been given a dictionary and the value of the key, from the assignments alone. -/
def valueGiven (c : Cfg V) (k : Nat) (made : Bool) (d : Option V) : List (Op V) → Option V
  | [] => d
  | .create kvs :: ops => if made then valueGiven c k made d ops else valueGiven c k true (lastOf c k none kvs) ops
  | .setItem j v :: ops => valueGiven c k made (if made ∧ j = k then some v else d) ops
  | .setDefault j v :: ops => valueGiven c k made (if made ∧ j = k then some (d.getD v) else d) ops
  | _ :: ops => valueGiven c k made d ops

theorem fill_last (c : Cfg V) (k : Nat) (kvs : List (Nat × V)) : ∀ d : Dict Nat V,
    (fill c d kvs).1.get? k = lastOf c k (d.get? k) kvs := by
  induction kvs with
  | nil => intro d; rfl
  | cons p kvs ih =>
    intro d
    obtain ⟨j, v⟩ := p
    simp only [fill, lastOf]
    split
    · rw [ih, Dict.get?_set]
    · rfl

theorem recordKey_dict (c : Cfg V) (s : St V) (k : Nat) : (recordKey c s k).dict = s.dict := by
  unfold recordKey
  split
  · split <;> rfl
  · rfl

theorem setItem_dict (c : Cfg V) (s : St V) (d : Dict Nat V) (hd : s.dict = some d) (j : Nat) (v : V) :
    (setItem c s j v).1.dict = some (d.set j v) := by
  simp only [setItem, hd]
  split
  · rfl
  · exact recordKey_dict ..

theorem value_run (c : Cfg V) (k : Nat) (ops : List (Op V)) : ∀ s : St V,
    (run (stepD c) s ops).1.dict.bind (·.get? k) = valueGiven c k s.dict.isSome (s.dict.bind (·.get? k)) ops := by
  induction ops with
  | nil => intro s; rfl
  | cons o ops ih =>
    intro s
    have hr : (run (stepD c) s (o :: ops)).1 = (run (stepD c) (stepD c s o).1 ops).1 := rfl
    rw [hr, ih]
    cases o with
    | create kvs =>
      simp only [stepD, create, valueGiven]
      cases hd : s.dict with
      | some d => simp [hd]
      | none =>
        have hf := fill_last c k kvs []
        cases hx : fill c [] kvs with
        | mk d b =>
          rw [hx] at hf
          have hf' : d.get? k = lastOf c k none kvs := hf
          cases b
          · simp [hf']
          · simp [recordAll_dict, hf']
    | setItem j v =>
      cases hd : s.dict with
      | none => simp [stepD, setItem, hd, valueGiven]
      | some d =>
        simp only [stepD, setItem_dict c s d hd j v, valueGiven, Option.isSome_some, Option.bind_some, Dict.get?_set]
        by_cases h : j = k
        · simp [h]
        · have : ¬ k = j := fun e => h e.symm
          simp [h, this]
    | setDefault j v =>
      cases hd : s.dict with
      | none => simp [stepD, setDefault, hd, valueGiven]
      | some d =>
        cases hg : d.get? j with
        | some w =>
          simp only [stepD, setDefault, hd, hg, valueGiven, Option.isSome_some, Option.bind_some]
          by_cases h : j = k
          · subst h; simp [hg]
          · simp [h]
        | none =>
          have hs : (setDefault c s j v).1.dict = some (d.set j v) := by
            have := setItem_dict c s d hd j v
            simp only [setDefault, hd, hg]
            split
            · rename_i h; rw [h] at this; exact this
            · exact this
          simp only [stepD, hs, valueGiven, Option.isSome_some, Option.bind_some, Dict.get?_set]
          by_cases h : j = k
          · subst h; simp [hg]
          · have : ¬ k = j := fun e => h e.symm
            simp [h, this]
    | get j => rfl
    | advance dt =>
      simp only [stepD, valueGiven]
      split <;> rfl

/-- Reading a key gives the value last assigned to it, and raises if none was. -/
theorem c14_dict_reads (c : Cfg V) (t0 : Rat) (ops : List (Op V)) (k : Nat) :
    (stepD c (run (stepD c) (init t0) ops).1 (.get k)).2 =
      match valueGiven c k false none ops with
      | some v => .val v
      | none => .raised := by
  have h := value_run c k ops (init t0)
  have h' : (run (stepD c) (init t0) ops).1.dict.bind (·.get? k) = valueGiven c k false none ops := h
  simp only [stepD, getItem, h']
  cases valueGiven c k false none ops <;> rfl

example : let ops : List (Op Int) := [.setItem 1 9, .create [(1, 4), (2, -3), (3, 6)], .setDefault 1 8, .setDefault 5 7, .setItem 1 (-2)]
    (stepD demo (run (stepD demo) (init 0) ops).1 (.get 1)).2 = .val (-2) ∧
    (stepD demo (run (stepD demo) (init 0) ops).1 (.get 3)).2 = .raised ∧
    (stepD demo (run (stepD demo) (init 0) ops).1 (.get 5)).2 = .val 7 := by decide +kernel

/-! ## Dataclass states -/

/-- The value of a field, from the assignments alone: a value of a wrong type is refused, except at creation. -/
def fieldGiven (c : Cfg V) (k : Nat) (d : Option V) : List (OpC V) → Option V
  | [] => d
  | .create vals :: ops => fieldGiven c k (if d = none ∧ c.okObj then some (vals k) else d) ops
  | .set j v :: ops => fieldGiven c k (if d ≠ none ∧ j = k ∧ c.okType j v then some v else d) ops
  | _ :: ops => fieldGiven c k d ops

theorem get?_fields (vals : Nat → V) (k : Nat) (l : List Nat) (hk : k ∈ l) : Dict.get? (l.map fun j => (j, vals j)) k = some (vals k) := by
  induction l with
  | nil => cases hk
  | cons j l ih =>
    simp only [List.map_cons, Dict.get?_cons]
    by_cases h : j = k
    · simp [h]
    · rw [if_neg h]
      exact ih ((List.mem_cons.1 hk).resolve_left fun e => h e.symm)

/-- The field has a value as soon as there is an object, and the one given. -/
theorem field_run (c : Cfg V) (k : Nat) (hk : k ∈ c.fields) (ops : List (OpC V)) : ∀ s : St V, (s.dict = none ∨ (s.dict.bind (·.get? k)).isSome) →
    (run (stepC c) s ops).1.dict.bind (·.get? k) = fieldGiven c k (s.dict.bind (·.get? k)) ops := by
  induction ops with
  | nil => intro s _; rfl
  | cons o ops ih =>
    intro s hs
    have hr : (run (stepC c) s (o :: ops)).1 = (run (stepC c) (stepC c s o).1 ops).1 := rfl
    rw [hr]
    cases o with
    | create vals =>
      cases hd : s.dict with
      | some d =>
        have h1 : (stepC c s (.create vals)).1 = s := by simp [stepC, createObj, hd]
        rw [h1, ih s hs, hd]
        have : d.get? k ≠ none := by
          rcases hs with h | h
          · rw [hd] at h; cases h
          · rw [hd] at h; exact Option.isSome_iff_ne_none.1 h
        simp [fieldGiven, this]
      | none =>
        by_cases ho : c.okObj = true
        · have h1 : (stepC c s (.create vals)).1.dict = some (c.fields.map fun j => (j, vals j)) := by
            simp [stepC, createObj, hd, ho, recordAll_dict]
          rw [ih _ (.inr (by simp [h1, get?_fields vals k _ hk])), h1]
          simp [fieldGiven, ho, get?_fields vals k _ hk]
        · have h1 : (stepC c s (.create vals)).1 = s := by simp [stepC, createObj, hd, ho]
          rw [h1, ih s hs, hd]
          simp [fieldGiven, ho]
    | set j v =>
      cases hd : s.dict with
      | none =>
        have h1 : (stepC c s (.set j v)).1 = s := by simp [stepC, setAttr, hd]
        rw [h1, ih s hs, hd]
        simp [fieldGiven]
      | some d =>
        have hv : d.get? k ≠ none := by
          rcases hs with h | h
          · rw [hd] at h; cases h
          · rw [hd] at h; exact Option.isSome_iff_ne_none.1 h
        by_cases hj : j ∈ c.fields ∧ c.okType j v = true
        · have h1 : (stepC c s (.set j v)).1.dict = some (d.set j v) := by
            simp [stepC, setAttr, hd, hj.1, hj.2, recordKey_dict]
          have h2 : ((d.set j v).get? k).isSome := by
            rw [Dict.get?_set]
            split
            · rfl
            · exact Option.isSome_iff_ne_none.2 hv
          rw [ih _ (.inr (by rw [h1]; exact h2)), h1]
          simp only [fieldGiven, Option.bind_some, Dict.get?_set]
          by_cases h : j = k
          · simp [h, hv, h ▸ hj.2]
          · simp [h]
        · have h1 : (stepC c s (.set j v)).1 = s := by
            by_cases hf : j ∈ c.fields
            · have : c.okType j v = false := by simpa using fun h => hj ⟨hf, h⟩
              simp [stepC, setAttr, hd, hf, this]
            · simp only [stepC, setAttr, hd, if_neg hf]
              split <;> rfl
          have h2 : ¬ (j = k ∧ c.okType j v = true) := fun h => hj ⟨h.1 ▸ hk, h.2⟩
          rw [h1, ih s hs, hd]
          simp [fieldGiven, h2]
    | get j => exact ih s hs
    | advance dt =>
      have h1 : (stepC c s (.advance dt)).1.dict = s.dict := by simp only [stepC]; split <;> rfl
      rw [ih _ (by rw [h1]; exact hs), h1]
      rfl

/-- Reading a field gives the value last accepted for it, and raises if there is no object. -/
theorem c14_dataclass_reads (c : Cfg V) (t0 : Rat) (ops : List (OpC V)) (k : Nat) (hk : k ∈ c.fields) :
    (stepC c (run (stepC c) (init t0) ops).1 (.get k)).2 =
      match fieldGiven c k none ops with
      | some v => .val v
      | none => .raised := by
  have h' : (run (stepC c) (init t0) ops).1.dict.bind (·.get? k) = fieldGiven c k none ops := field_run c k hk ops (init t0) (.inl rfl)
  simp only [stepC, getItem, h']
  cases fieldGiven c k none ops <;> rfl

example : let ops : List (OpC Int) := [.set 1 9, .create (fun k => k - 2), .set 2 5, .set 2 (-1), .create (fun _ => 8)]
    1 ∈ demo.fields ∧ 2 ∈ demo.fields ∧ (stepC demo (run (stepC demo) (init 0) ops).1 (.get 1)).2 = .val (-1) ∧
    (stepC demo (run (stepC demo) (init 0) ops).1 (.get 2)).2 = .val 5 ∧
    (stepC demo (run (stepC demo) (init 0) [.set 1 9]).1 (.get 1)).2 = .raised := by decide +kernel

end Verif.KeyVal
