import Verif.KeyVal.Model

/-!
# Properties C14 and C16 for dictionary and dataclass states
-/

namespace Verif.KeyVal

open Verif.Log Verif.Recorded

variable {V : Type}

/-! ## Specification -/

/-- The well-typed values given to key `k`, by the trace: at creation (all values of a creation that
succeeded), by item assignment, and by `setdefault` when the key was absent. `has` says whether the key is
present. -/
def givenFrom (c : Cfg V) (k : Nat) (has : Bool) : List (Rat × Op V × Out V) → List (Rat × V)
  | [] => []
  | (τ, op, o) :: tr =>
    match op, o with
    | .create kvs, .ok =>
      match Dict.get? kvs k with
      | some v => (τ, v) :: givenFrom c k true tr
      | none => givenFrom c k has tr
    | .setItem j v, .ok => if j = k then (τ, v) :: givenFrom c k true tr else givenFrom c k has tr
    | .setDefault j v, .val _ =>
      if j = k ∧ has = false then (τ, v) :: givenFrom c k true tr else givenFrom c k has tr
    | _, _ => givenFrom c k has tr

/-- The values given to field `k` of a dataclass state. -/
def givenC (c : Cfg V) (k : Nat) : List (Rat × OpC V × Out V) → List (Rat × V)
  | [] => []
  | (τ, op, o) :: tr =>
    match op, o with
    | .create vals, .ok => (if k ∈ c.fields then [(τ, vals k)] else []) ++ givenC c k tr
    | .set j v, .ok => (if j = k ∧ k ∈ c.fields then [(τ, v)] else []) ++ givenC c k tr
    | _, _ => givenC c k tr

/-- No call tried to store a wrongly typed value. -/
def allTyped (c : Cfg V) : List (Op V) → Bool
  | [] => true
  | .create kvs :: ops => kvs.all (fun p => c.okType p.1 p.2) && allTyped c ops
  | .setItem k v :: ops => c.okType k v && allTyped c ops
  | .setDefault k v :: ops => c.okType k v && allTyped c ops
  | _ :: ops => allTyped c ops

/-! ## Lemmas -/

theorem recordAll_dict (c : Cfg V) (kvs : List (Nat × V)) : ∀ s : St V,
    (recordAll c s kvs).dict = s.dict ∧ (recordAll c s kvs).now = s.now := by
  induction kvs with
  | nil => intro s; exact ⟨rfl, rfl⟩
  | cons p kvs ih =>
    intro s
    obtain ⟨k, v⟩ := p
    simp only [recordAll]
    rw [(ih _).1, (ih _).2]
    split <;> exact ⟨rfl, rfl⟩

theorem recordAll_hist (c : Cfg V) (kvs : List (Nat × V)) : ∀ s : St V, (kvs.map (·.1)).Nodup → ∀ k,
    (recordAll c s kvs).hist k =
      if c.recording then
        match Dict.get? kvs k with
        | some v => append false c.same (s.hist k) (s.now, v)
        | none => s.hist k
      else s.hist k := by
  induction kvs with
  | nil => intro s _ k; simp [recordAll]
  | cons p kvs ih =>
    intro s hnd k
    obtain ⟨j, w⟩ := p
    simp only [List.map_cons, List.nodup_cons] at hnd
    simp only [recordAll]
    rw [ih _ hnd.2 k, Dict.get?_cons]
    by_cases hr : c.recording = true
    · simp only [hr, if_true, recordSingle, upd]
      by_cases hjk : j = k
      · subst hjk
        have : Dict.get? kvs j = none := by
          rw [Dict.get?_eq_none_iff]; exact hnd.1
        simp [this]
      · have hkj : ¬ k = j := fun e => hjk e.symm
        simp [hjk, hkj]
    · simp [hr]

theorem fill_ok {c : Cfg V} (kvs : Dict Nat V) : ∀ (d d' : Dict Nat V), fill c d kvs = (d', true) →
    d.WF → kvs.WF → (∀ k ∈ kvs.keys, Dict.get? d k = none) →
    d' = d ++ kvs ∧ kvs.all (fun p => c.okType p.1 p.2) = true := by
  induction kvs with
  | nil => intro d d' h _ _ _; simp [fill] at h; simp [h]
  | cons p kvs ih =>
    intro d d' h hd hk hn
    obtain ⟨k, v⟩ := p
    simp only [fill] at h
    simp only [Dict.WF, Dict.keys, List.map_cons, List.nodup_cons] at hk
    split at h
    · rename_i hok
      have hkn := hn k (by simp [Dict.keys])
      obtain ⟨e1, e2⟩ := ih _ _ h (Dict.WF_set hd k v) hk.2 (by
        intro j hj
        rw [Dict.get?_set]
        have : k ≠ j := fun e => hk.1 (e ▸ hj)
        rw [if_neg this]
        exact hn j (by simp only [Dict.keys, List.map_cons, List.mem_cons]; exact Or.inr hj))
      refine ⟨?_, by rw [List.all_cons, hok, e2]; rfl⟩
      rw [e1, Dict.mem_set_new hkn]
      simp
    · simp at h

theorem fill_typed {c : Cfg V} (kvs : Dict Nat V) : ∀ (d : Dict Nat V),
    (∀ p ∈ d, c.okType p.1 p.2 = true) → ∀ p ∈ (fill c d kvs).1, c.okType p.1 p.2 = true := by
  induction kvs with
  | nil => intro d h; exact h
  | cons p kvs ih =>
    intro d h
    obtain ⟨k, v⟩ := p
    simp only [fill]
    split
    · rename_i hok
      apply ih
      intro q hq
      have : ∀ d : Dict Nat V, (∀ p ∈ d, c.okType p.1 p.2 = true) →
          ∀ q ∈ Dict.set d k v, c.okType q.1 q.2 = true := by
        intro d
        induction d with
        | nil => intro _ q hq; simp [Dict.set] at hq; rw [hq]; exact hok
        | cons r d ihd =>
          intro h q hq
          simp only [Dict.set] at hq
          split at hq
          · rename_i hrk
            rcases List.mem_cons.mp hq with hq | hq
            · rw [hq, hrk]; exact hok
            · exact h q (List.mem_cons_of_mem _ hq)
          · rcases List.mem_cons.mp hq with hq | hq
            · rw [hq]; exact h r (by simp)
            · exact ihd (fun p hp => h p (List.mem_cons_of_mem _ hp)) q hq
      exact this d h q hq
    · exact h

theorem mem_append_rec {same : V → V → Bool} {dup : Bool} {h : List (Rat × V)} {e x : Rat × V}
    (hx : x ∈ append dup same h e) : x ∈ h ∨ x = e := by
  unfold append at hx
  split at hx
  · right; simpa using hx
  · split at hx
    · rcases List.mem_append.mp hx with hx | hx
      · exact Or.inl hx
      · right; simpa using hx
    · exact Or.inl hx

/-! ## C16 -/

/-- **C16 is false of dictionary states**: assigning a wrongly typed value raises, but the value is stored. -/
theorem c16_dict_keeps_wrong_value :
    let c : Cfg Int := ⟨true, false, fun _ v => decide (0 ≤ v), true, fun a b => decide (a = b), [], fun _ => false⟩
    let s := (run (stepD c) (init 0) [.create [(1, 5)]]).1
    (stepD c s (.setItem 1 (-7))).2 = .raised ∧ getItem (stepD c s (.setItem 1 (-7))).1 1 = .val (-7) ∧
    (stepD c s (.setItem 1 (-7))).1.hist 1 = [(0, 5)] := by decide +kernel

/-- **C16 is false of dataclass states at creation**: the fields of the object given at creation are not
checked. -/
theorem c16_dataclass_unchecked_at_creation :
    let c : Cfg Int := ⟨true, false, fun _ v => decide (0 ≤ v), true, fun a b => decide (a = b), [1],
      fun _ => false⟩
    (stepC c (init 0) (.create (fun _ => -7))).2 = .ok ∧
    getItem (stepC c (init 0) (.create (fun _ => -7))).1 1 = .val (-7) ∧
    (stepC c (init 0) (.create (fun _ => -7))).1.hist 1 = [(0, -7)] := by decide +kernel

/-- The histories of dictionary keys hold only well-typed values. -/
theorem dict_hist_typed (c : Cfg V) (s : St V) (op : Op V)
    (h : ∀ k, ∀ e ∈ s.hist k, c.okType k e.2 = true) :
    ∀ k, ∀ e ∈ (stepD c s op).1.hist k, c.okType k e.2 = true := by
  have hsingle : ∀ (s : St V) (j : Nat) (v : V), (∀ k, ∀ e ∈ s.hist k, c.okType k e.2 = true) →
      c.okType j v = true → ∀ k, ∀ e ∈ (recordSingle c s j v).hist k, c.okType k e.2 = true := by
    intro s j v h hv k e he
    simp only [recordSingle, upd] at he
    split at he
    · rename_i hk
      subst hk
      rcases mem_append_rec he with he | he
      · exact h k e he
      · rw [he]; exact hv
    · exact h k e he
  have hall : ∀ (kvs : List (Nat × V)) (s : St V), (∀ k, ∀ e ∈ s.hist k, c.okType k e.2 = true) →
      (∀ p ∈ kvs, c.okType p.1 p.2 = true) →
      ∀ k, ∀ e ∈ (recordAll c s kvs).hist k, c.okType k e.2 = true := by
    intro kvs
    induction kvs with
    | nil => intro s h _; exact h
    | cons p kvs ih =>
      intro s h hp
      obtain ⟨j, v⟩ := p
      simp only [recordAll]
      apply ih
      · split
        · exact hsingle s j v h (hp (j, v) (by simp))
        · exact h
      · intro q hq; exact hp q (List.mem_cons_of_mem _ hq)
  have hset : ∀ k v, ∀ j, ∀ e ∈ (setItem c s k v).1.hist j, c.okType j e.2 = true := by
    intro k v
    simp only [setItem]
    split
    · exact h
    · rename_i d hd
      split
      · exact h
      · rename_i hok
        simp only [recordKey]
        split
        · split
          · rename_i w hw
            simp only [Option.bind_some, Dict.get?_set_self, Option.some.injEq] at hw
            subst hw
            exact hsingle _ k v h (by simpa using hok)
          · exact h
        · exact h
  cases op with
  | create kvs =>
    simp only [stepD, create]
    split
    · exact h
    · split
      · rename_i d hf
        have ht := fill_typed (c := c) kvs [] (by simp)
        rw [hf] at ht
        exact hall d _ h ht
      · exact h
  | setItem k v => exact hset k v
  | setDefault k v =>
    simp only [stepD, setDefault]
    split
    · exact h
    · split
      · exact h
      · have h2 := hset k v
        split
        · rename_i s' heq; rw [heq] at h2; exact h2
        · exact h2
  | get k => exact h
  | advance dt => simp only [stepD]; split <;> exact h

/-- **C16 (dictionary states), the part that holds.** No history of a dictionary state ever holds a wrongly typed
value, whatever is attempted. Missing: the dictionary itself, see `c16_dict_keeps_wrong_value`. -/
theorem c16_dict_history_partial (c : Cfg V) (t0 : Rat) (ops : List (Op V)) (k : Nat) :
    ∀ e ∈ (run (stepD c) (init t0) ops).1.hist k, c.okType k e.2 = true := by
  have key : ∀ (ops : List (Op V)) (s : St V), (∀ k, ∀ e ∈ s.hist k, c.okType k e.2 = true) →
      ∀ k, ∀ e ∈ (run (stepD c) s ops).1.hist k, c.okType k e.2 = true := by
    intro ops
    induction ops with
    | nil => intro s h; exact h
    | cons op ops ih => intro s h; exact ih _ (dict_hist_typed c s op h)
  exact key ops _ (by simp [init]) k

/-- **C16 (dataclass states), the part that holds.** Assigning a wrongly typed value to a field raises and changes
nothing. Missing: the values at creation, see `c16_dataclass_unchecked_at_creation`. -/
theorem c16_dataclass_refused_partial (c : Cfg V) (s : St V) (k : Nat) (v : V) (hk : k ∈ c.fields)
    (hv : c.okType k v = false) : stepC c s (.set k v) = (s, .raised) := by
  simp only [stepC, setAttr]
  split
  · rfl
  · rw [if_pos hk, if_pos hv]

/-- A name that is not a field of the dataclass is ignored without any error. -/
theorem c16_dataclass_unknown_name_ignored (c : Cfg V) (s : St V) (d : Dict Nat V) (hd : s.dict = some d) (k : Nat)
    (v : V) (hk : k ∉ c.fields) (ha : c.attrs k = false) : stepC c s (.set k v) = (s, .ok) := by
  simp only [stepC, setAttr, hd]
  rw [if_neg hk]; simp [ha]

/-- For the examples: keys 1 and 2, non-negative values. -/
def demo : Cfg Int := ⟨true, true, fun _ v => decide (0 ≤ v), true, fun a b => decide (a = b), [1, 2], fun _ => false⟩

example : 1 ∈ demo.fields ∧ demo.okType 1 (-4) = false ∧ 9 ∉ demo.fields ∧ demo.attrs 9 = false := by decide

/-! ## C14 -/

/-- **C14 is false of dictionary states declared with `record_duplicates`**: assigning the same value twice at one
time records it once. -/
theorem c14_dict_duplicates_dropped :
    demo.dup = true ∧ (run (stepD demo) (init 0) [.create [(1, 5)], .setItem 1 5]).1.hist 1 = [(0, 5)] := by
  decide +kernel

/-- **C14 is false of dictionary states after a refused assignment**: the value differs from the last recorded
one. -/
theorem c14_dict_value_not_recorded :
    let s := (run (stepD demo) (init 0) [.create [(1, 5)], .setItem 1 (-2)]).1
    getItem s 1 = .val (-2) ∧ s.hist 1 = [(0, 5)] := by decide +kernel

/-- Invariant of a dictionary key. -/
structure Keeps (c : Cfg V) (k : Nat) (s : St V) (has : Bool) (w : List (Rat × V)) : Prop where
  wf : ∀ d, s.dict = some d → d.WF
  has : has = true ↔ (s.dict.bind (fun d => d.get? k)).isSome = true
  cur : s.dict.bind (fun d => d.get? k) = w.getLast?.map (·.2)
  hist : c.recording = true → Faithful false c.same (s.hist k) w s.now

theorem Keeps.setItem {c : Cfg V} {k : Nat} {s : St V} {has : Bool} {w : List (Rat × V)} (h : Keeps c k s has w)
    (j : Nat) (v : V) (d : Dict Nat V) (hd : s.dict = some d) (hv : c.okType j v = true) :
    ∃ s', KeyVal.setItem c s j v = (s', .ok) ∧ s'.now = s.now ∧
      Keeps c k s' (if j = k then true else has) (w ++ if j = k then [(s.now, v)] else []) := by
  refine ⟨recordKey c { s with dict := some (d.set j v) } j, ?_, ?_, ?_⟩
  · simp only [KeyVal.setItem, hd]; rw [if_neg (by simp [hv])]
  · simp only [recordKey]
    split
    · split <;> rfl
    · rfl
  · have hdict : (recordKey c { s with dict := some (d.set j v) } j).dict = some (d.set j v) := by
      simp only [recordKey]
      split
      · split <;> rfl
      · rfl
    have hnow : (recordKey c { s with dict := some (d.set j v) } j).now = s.now := by
      simp only [recordKey]
      split
      · split <;> rfl
      · rfl
    have hhist : (recordKey c { s with dict := some (d.set j v) } j).hist k =
        if c.recording = true ∧ j = k then append false c.same (s.hist k) (s.now, v) else s.hist k := by
      simp only [recordKey, Option.bind_some, Dict.get?_set_self]
      by_cases hr : c.recording = true
      · simp only [hr, if_true, recordSingle, upd]
        by_cases hjk : j = k
        · subst hjk; simp
        · have : ¬ k = j := fun e => hjk e.symm
          simp [hjk, this]
      · simp [hr]
    have hwf := h.wf d hd
    refine ⟨?_, ?_, ?_, ?_⟩
    · intro d' hd'; rw [hdict] at hd'; cases hd'; exact Dict.WF_set hwf j v
    · rw [hdict]
      simp only [Option.bind_some, Dict.get?_set]
      by_cases hjk : j = k
      · simp [hjk]
      · simp only [hjk, if_false]; rw [h.has, hd]; rfl
    · rw [hdict]
      simp only [Option.bind_some, Dict.get?_set]
      by_cases hjk : j = k
      · simp [hjk]
      · simp only [hjk, if_false, List.append_nil]; rw [← h.cur, hd]; rfl
    · intro hr
      rw [hhist, hnow]
      by_cases hjk : j = k
      · rw [if_pos ⟨hr, hjk⟩, if_pos hjk]
        exact (h.hist hr).extend v
      · rw [if_neg (fun e => hjk e.2), if_neg hjk, List.append_nil]
        exact h.hist hr

theorem Keeps.run {c : Cfg V} {k : Nat} (ops : List (Op V)) : ∀ {s : St V} {has : Bool} {w : List (Rat × V)}
    (_ : Keeps c k s has w) (_ : allTyped c ops = true) (_ : ∀ kvs, Op.create kvs ∈ ops → kvs.WF),
    ∃ has', Keeps c k (KeyVal.run (stepD c) s ops).1 has'
      (w ++ givenFrom c k has (KeyVal.run (stepD c) s ops).2) := by
  induction ops with
  | nil => intro s has w h _ _; exact ⟨has, by simpa [KeyVal.run, givenFrom] using h⟩
  | cons op ops ih =>
    intro s has w h ht hc
    have hc' : ∀ kvs, Op.create kvs ∈ ops → kvs.WF := fun kvs hk => hc kvs (List.mem_cons_of_mem _ hk)
    have done : ∀ (s' : St V) (o : Out V) (has' : Bool) (e : List (Rat × V)), stepD c s op = (s', o) →
        Keeps c k s' has' (w ++ e) → allTyped c ops = true →
        givenFrom c k has ((s.now, op, o) :: (KeyVal.run (stepD c) s' ops).2) =
          e ++ givenFrom c k has' (KeyVal.run (stepD c) s' ops).2 →
        ∃ has', Keeps c k (KeyVal.run (stepD c) s (op :: ops)).1 has'
          (w ++ givenFrom c k has (KeyVal.run (stepD c) s (op :: ops)).2) := by
      intro s' o has' e h1 h2 h3 h4
      obtain ⟨h'', h5⟩ := ih h2 h3 hc'
      refine ⟨h'', ?_⟩
      simp only [KeyVal.run, h1]
      rw [h4, ← List.append_assoc]
      exact h5
    cases op with
    | create kvs =>
      simp only [allTyped, Bool.and_eq_true] at ht
      cases hd : s.dict with
      | some d =>
        refine done s .raised has [] (by simp [stepD, create, hd]) (by simpa using h) ht.2 (by simp [givenFrom])
      | none =>
        have hwf := hc kvs (by simp)
        obtain ⟨d', hf⟩ : ∃ d', fill c [] kvs = (d', true) := by
          have : ∀ (kvs d : Dict Nat V), kvs.all (fun p => c.okType p.1 p.2) = true →
              ∃ d', fill c d kvs = (d', true) := by
            intro kvs
            induction kvs with
            | nil => intro d _; exact ⟨d, rfl⟩
            | cons p kvs ihk =>
              intro d ha
              rw [List.all_cons, Bool.and_eq_true] at ha
              simp only [fill]; rw [if_pos ha.1]; exact ihk _ ha.2
          exact this kvs [] ht.1
        have hd' : d' = kvs := by
          have := (fill_ok kvs [] d' hf Dict.WF_nil hwf (by simp)).1
          simpa using this
        subst hd'
        have hcur0 : w.getLast?.map (·.2) = none := by rw [← h.cur, hd]; rfl
        have hw0 : w = [] := by simpa using hcur0
        have hhas0 : has = false := by
          have := h.has; rw [hd] at this; simpa using this
        have hra := recordAll_dict c d' { s with dict := some d' }
        have hrh := recordAll_hist c d' { s with dict := some d' } hwf k
        refine done (recordAll c { s with dict := some d' } d') .ok ((d'.get? k).isSome)
          (match d'.get? k with
            | some v => [(s.now, v)]
            | none => []) (by simp [stepD, create, hd, hf]) ?_ ht.2 ?_
        · refine ⟨?_, ?_, ?_, ?_⟩
          · intro d'' hd''; rw [hra.1] at hd''; cases hd''; exact hwf
          · rw [hra.1]; rfl
          · rw [hra.1, hw0]
            simp only [Option.bind_some]
            cases Dict.get? d' k <;> rfl
          · intro hr
            rw [hrh, hra.2]
            simp only [hr, if_true]
            cases hg : Dict.get? d' k with
            | none => simpa using h.hist hr
            | some v => exact (h.hist hr).extend v
        · cases hg : Dict.get? d' k with
          | none => simp [givenFrom, hg, hhas0]
          | some v => simp [givenFrom, hg]
    | setItem j v =>
      simp only [allTyped, Bool.and_eq_true] at ht
      cases hd : s.dict with
      | none =>
        exact done s .raised has [] (by simp [stepD, KeyVal.setItem, hd]) (by simpa using h) ht.2
          (by simp [givenFrom])
      | some d =>
        obtain ⟨s', e1, e2, e3⟩ := h.setItem j v d hd ht.1
        refine done s' .ok _ _ (by simp only [stepD]; exact e1) e3 ht.2 ?_
        by_cases hjk : j = k <;> simp [givenFrom, hjk]
    | setDefault j v =>
      simp only [allTyped, Bool.and_eq_true] at ht
      cases hd : s.dict with
      | none =>
        exact done s .raised has [] (by simp [stepD, setDefault, hd]) (by simpa using h) ht.2
          (by simp [givenFrom])
      | some d =>
        cases hg : d.get? j with
        | some x =>
          refine done s (.val x) has [] (by simp [stepD, setDefault, hd, hg]) (by simpa using h) ht.2 ?_
          by_cases hjk : j = k
          · subst hjk
            have : has = true := by rw [h.has, hd]; simp [hg]
            simp [givenFrom, this]
          · simp [givenFrom, hjk]
        | none =>
          obtain ⟨s', e1, e2, e3⟩ := h.setItem j v d hd ht.1
          refine done s' (.val v) _ _ (by simp only [stepD, setDefault, hd, hg]; rw [e1]) e3 ht.2 ?_
          by_cases hjk : j = k
          · subst hjk
            have : has = false := by
              have := h.has; rw [hd] at this; simp [hg] at this; exact this
            simp [givenFrom, this]
          · simp [givenFrom, hjk]
    | get j =>
      refine done s (getItem s j) has [] rfl (by simpa using h) ht ?_
      unfold getItem
      split <;> simp [givenFrom]
    | advance dt =>
      by_cases hdt : 0 ≤ dt
      · refine done { s with now := s.now + dt } .ok has [] (by simp [stepD, hdt]) ?_ ht (by simp [givenFrom])
        rw [List.append_nil]
        exact ⟨h.wf, h.has, h.cur, fun hr => (h.hist hr).later (by simp only; linarith)⟩
      · exact done s .raised has [] (by simp [stepD, hdt]) (by simpa using h) ht (by simp [givenFrom])

/-- **C14 (dictionary states), the part that holds.** If no wrongly typed value is offered, the history of each key
faithfully records (without duplicates) the values the key was given, and the key holds the last of them.
Missing: `record_duplicates` (`c14_dict_duplicates_dropped`) and refused assignments
(`c14_dict_value_not_recorded`). -/
theorem c14_dict_history_partial (c : Cfg V) (t0 : Rat) (ops : List (Op V)) (k : Nat) (hr : c.recording = true)
    (ht : allTyped c ops = true) (hc : ∀ kvs, Op.create kvs ∈ ops → kvs.WF) :
    let s := (run (stepD c) (init t0) ops).1
    let w := givenFrom c k false (run (stepD c) (init t0) ops).2
    Faithful false c.same (s.hist k) w s.now ∧ s.dict.bind (fun d => d.get? k) = w.getLast?.map (·.2) := by
  have h0 : Keeps c k (init t0) false [] :=
    ⟨by simp [init], by simp [init], by simp [init], fun _ => Faithful.nil _ _ _⟩
  obtain ⟨has', h⟩ := Keeps.run ops h0 ht hc
  rw [List.nil_append] at h
  exact ⟨h.hist hr, h.cur⟩

/-- Calls for the examples. -/
def demoOps : List (Op Int) :=
  [.create [(1, 5), (2, 6)], .advance 1, .setItem 1 5, .setDefault 3 8, .setDefault 1 9, .advance 1, .setItem 3 2]

example : demo.recording = true ∧ allTyped demo demoOps = true ∧
    (run (stepD demo) (init 0) demoOps).1.hist 3 = [(1, 8), (2, 2)] := by decide +kernel

/-- **C14 (dataclass states), the part that holds.** The history of each field faithfully records (without
duplicates) the values it was given, and the field holds the last of them. Missing: `record_duplicates`. -/
theorem c14_dataclass_history_partial (c : Cfg V) (t0 : Rat) (ops : List (OpC V)) (k : Nat) (hk : k ∈ c.fields)
    (hnd : c.fields.Nodup) (hr : c.recording = true) :
    let s := (run (stepC c) (init t0) ops).1
    let w := givenC c k (run (stepC c) (init t0) ops).2
    Faithful false c.same (s.hist k) w s.now ∧ s.dict.bind (fun d => d.get? k) = w.getLast?.map (·.2) := by
  have key : ∀ (ops : List (OpC V)) (s : St V) (w : List (Rat × V)),
      (Faithful false c.same (s.hist k) w s.now ∧ s.dict.bind (fun d => d.get? k) = w.getLast?.map (·.2)) →
      (Faithful false c.same ((run (stepC c) s ops).1.hist k) (w ++ givenC c k (run (stepC c) s ops).2)
        (run (stepC c) s ops).1.now ∧
      (run (stepC c) s ops).1.dict.bind (fun d => d.get? k) =
        (w ++ givenC c k (run (stepC c) s ops).2).getLast?.map (·.2)) := by
    intro ops
    induction ops with
    | nil => intro s w h; simpa [run, givenC] using h
    | cons op ops ih =>
      intro s w h
      have done : ∀ (s' : St V) (o : Out V) (e : List (Rat × V)), stepC c s op = (s', o) →
          (Faithful false c.same (s'.hist k) (w ++ e) s'.now ∧
            s'.dict.bind (fun d => d.get? k) = (w ++ e).getLast?.map (·.2)) →
          givenC c k ((s.now, op, o) :: (run (stepC c) s' ops).2) = e ++ givenC c k (run (stepC c) s' ops).2 →
          (Faithful false c.same ((run (stepC c) s (op :: ops)).1.hist k)
            (w ++ givenC c k (run (stepC c) s (op :: ops)).2) (run (stepC c) s (op :: ops)).1.now ∧
          (run (stepC c) s (op :: ops)).1.dict.bind (fun d => d.get? k) =
            (w ++ givenC c k (run (stepC c) s (op :: ops)).2).getLast?.map (·.2)) := by
        intro s' o e h1 h2 h3
        have := ih s' (w ++ e) h2
        simp only [run, h1]
        rw [h3, ← List.append_assoc]
        exact this
      cases op with
      | create vals =>
        cases hd : s.dict with
        | some d =>
          exact done s .raised [] (by simp [stepC, createObj, hd]) (by simpa using h) (by simp [givenC])
        | none =>
          by_cases ho : c.okObj = false
          · exact done s .raised [] (by simp [stepC, createObj, hd, ho]) (by simpa using h) (by simp [givenC])
          · have hra := recordAll_dict c (c.fields.map (fun k => (k, vals k)))
              { s with dict := some (c.fields.map (fun k => (k, vals k))) }
            have hkeys : (c.fields.map (fun k => (k, vals k))).map (·.1) = c.fields := by
              simp [Function.comp_def]
            have hrh := recordAll_hist c (c.fields.map (fun k => (k, vals k)))
              { s with dict := some (c.fields.map (fun k => (k, vals k))) } (by rw [hkeys]; exact hnd) k
            have hg : Dict.get? (c.fields.map (fun k => (k, vals k))) k = some (vals k) :=
              Dict.get?_of_mem (by unfold Dict.WF Dict.keys; rw [hkeys]; exact hnd)
                (List.mem_map.mpr ⟨k, hk, rfl⟩)
            refine done _ .ok [(s.now, vals k)] (by simp only [stepC, createObj, hd]; rw [if_neg ho])
              ⟨?_, ?_⟩ (by simp [givenC, hk])
            · rw [hrh, hra.2]
              simp only [hr, if_true, hg]
              exact h.1.extend _
            · rw [hra.1]
              simp [hg]
      | set j v =>
        cases hd : s.dict with
        | none =>
          exact done s .raised [] (by simp [stepC, setAttr, hd]) (by simpa using h) (by simp [givenC])
        | some d =>
          by_cases hj : j ∈ c.fields
          · by_cases ht : c.okType j v = false
            · exact done s .raised [] (by simp [stepC, setAttr, hd, hj, ht]) (by simpa using h)
                (by simp [givenC])
            · have hrk : recordKey c { s with dict := some (d.set j v) } j =
                  recordSingle c { s with dict := some (d.set j v) } j v := by
                simp [recordKey, hr, Dict.get?_set_self]
              refine done (recordSingle c { s with dict := some (d.set j v) } j v) .ok
                (if j = k then [(s.now, v)] else []) (by
                  simp only [stepC, setAttr, hd]; rw [if_pos hj, if_neg ht, hrk]) ?_ (by
                  by_cases hjk : j = k <;> simp [givenC, hjk, hk])
              simp only [recordSingle, upd, Option.bind_some, Dict.get?_set]
              by_cases hjk : j = k
              · subst hjk
                simp only [if_pos]
                exact ⟨h.1.extend v, by simp⟩
              · have : ¬ k = j := fun e => hjk e.symm
                simp only [hjk, this, if_false, List.append_nil]
                refine ⟨h.1, ?_⟩
                rw [← h.2, hd]; rfl
          · by_cases ha : c.attrs j = true
            · exact done s .raised [] (by simp [stepC, setAttr, hd, hj, ha]) (by simpa using h)
                (by simp [givenC])
            · refine done s .ok [] (by simp [stepC, setAttr, hd, hj, ha]) (by simpa using h) ?_
              have : ¬ j = k := fun e => hj (e ▸ hk)
              simp [givenC, this]
      | get j =>
        refine done s (getItem s j) [] rfl (by simpa using h) ?_
        unfold getItem
        split <;> simp [givenC]
      | advance dt =>
        by_cases hdt : 0 ≤ dt
        · refine done { s with now := s.now + dt } .ok [] (by simp [stepC, hdt]) ?_ (by simp [givenC])
          rw [List.append_nil]
          exact ⟨h.1.later (by simp only; linarith), h.2⟩
        · exact done s .raised [] (by simp [stepC, hdt]) (by simpa using h) (by simp [givenC])
  have := key ops (init t0) [] ⟨Faithful.nil _ _ _, rfl⟩
  simpa using this

example : 1 ∈ demo.fields ∧ demo.fields.Nodup ∧ demo.recording = true ∧
    (run (stepC demo) (init 0) [.create (fun k => k), .advance 1, .set 1 4, .set 1 (-3), .set 9 1]).1.hist 1 =
      [(0, 1), (1, 4)] := by decide +kernel

end Verif.KeyVal
