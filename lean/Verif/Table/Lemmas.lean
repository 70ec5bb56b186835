import Verif.Table.Spec

namespace Verif.Table

variable {α : Type}

/-- Put a status on the last row. -/
def markLast (rows : List (Row α)) (m : Option Bool) : List (Row α) :=
  match m, rows.getLast? with
  | some on, some row => rows.dropLast ++ [{ row with status := some (statusOf on) }]
  | _, _ => rows

/-- The rows of one recorded value. -/
def rowsAt (e k : Nat) (n : Name) (av : Option Status) (x : Rat × Val α) : List (Row α) :=
  (items n x).map fun i => ⟨e, k, i.1, i.2.1, i.2.2, av⟩

def after (av : Option Status) : Val α → Option Status
  | .marker on => some (if on then .active else .inactive)
  | _ => av

/-- The table, looking ahead instead of going back. -/
def rowsOf (e k : Nat) (n : Name) (av : Option Status) : Hist α → List (Row α)
  | [] => []
  | x :: r => markLast (rowsAt e k n av x) (marksNow r).getLast? ++ rowsOf e k n (after av x.2) r

theorem markLast_append (a b : List (Row α)) (m : Option Bool) (hb : b ≠ []) : markLast (a ++ b) m = a ++ markLast b m := by
  cases m with
  | none => cases b.getLast? <;> simp [markLast]
  | some on =>
    obtain ⟨b', y, rfl⟩ : ∃ b' y, b = b' ++ [y] := ⟨b.dropLast, b.getLast hb, (List.dropLast_concat_getLast hb).symm⟩
    rw [← List.append_assoc]
    simp [markLast]

theorem markLast_length (a : List (Row α)) (m : Option Bool) : (markLast a m).length = a.length := by
  unfold markLast
  split
  · rename_i h
    have : a ≠ [] := by rintro rfl; simp at h
    have := List.length_pos_iff.2 this
    simp; omega
  · rfl

theorem markLast_ne (a : List (Row α)) (m : Option Bool) (h : a ≠ []) : markLast a m ≠ [] := by
  intro hc
  have := markLast_length a m
  rw [hc] at this
  exact h (List.eq_nil_of_length_eq_zero this.symm)

theorem markLast_twice (a : List (Row α)) (on : Bool) (m : Option Bool) :
    markLast (markLast a (some on)) m = markLast a (some (m.getD on)) := by
  by_cases h : a = []
  · subst h; cases m <;> simp [markLast]
  · obtain ⟨b', y, rfl⟩ : ∃ b' y, a = b' ++ [y] := ⟨a.dropLast, a.getLast h, (List.dropLast_concat_getLast h).symm⟩
    cases m <;> simp [markLast]

theorem marksNow_cons_marker (t : Rat) (on : Bool) (r : Hist α) : marksNow ((t, .marker on) :: r) = on :: marksNow r := rfl

theorem loop_eq (e k : Nat) (n : Name) (h : Hist α) : ∀ (data : List (Row α)) (av : Option Status),
    (∀ t l, (t, Val.fields l) ∈ h → l ≠ []) → (marksNow h ≠ [] → data ≠ []) →
    loop e k n h data av = some (markLast data (marksNow h).getLast? ++ rowsOf e k n av h) := by
  induction h with
  | nil => intro data av _ _; cases data.getLast? <;> simp [loop, rowsOf, markLast, marksNow]
  | cons x r ih =>
    intro data av hf hd
    have hf' : ∀ t l, (t, Val.fields l) ∈ r → l ≠ [] := fun t l h => hf t l (List.mem_cons_of_mem _ h)
    obtain ⟨t, v⟩ := x
    cases v with
    | marker on =>
      have hne : data ≠ [] := hd (by simp [marksNow])
      obtain ⟨b', y, rfl⟩ : ∃ b' y, data = b' ++ [y] := ⟨data.dropLast, data.getLast hne, (List.dropLast_concat_getLast hne).symm⟩
      unfold loop
      simp only [List.getLast?_append, List.getLast?_singleton, Option.or, List.dropLast_concat]
      rw [ih _ _ hf' (by simp)]
      have e1 : (b' ++ [{ y with status := some (statusOf on) }] : List (Row α)) = markLast (b' ++ [y]) (some on) := by
        simp [markLast]
      rw [e1, markLast_twice, marksNow_cons_marker]
      have e2 : (on :: marksNow r).getLast? = some ((marksNow r).getLast?.getD on) := by
        cases hm : marksNow r with
        | nil => rfl
        | cons a b => simp [List.getLast?_cons]
      rw [e2]
      have e3 : markLast (rowsAt e k n av (t, Val.marker on) : List (Row α)) (marksNow r).getLast? = [] := by
        unfold markLast rowsAt items; cases (marksNow r).getLast? <;> rfl
      rw [rowsOf, e3]
      simp [after]
    | fields l =>
      have hl := hf t l List.mem_cons_self
      have e1 : (l.map fun x => (⟨e, k, n ++ [x.1], t, x.2, av⟩ : Row α)) = rowsAt e k n av (t, .fields l) := by
        simp [rowsAt, items, Function.comp_def]
      have hne : rowsAt e k n av (t, Val.fields l) ≠ [] := by simp [rowsAt, items, hl]
      unfold loop
      rw [e1, ih _ _ hf' (by intro _ hc; exact hne (List.append_eq_nil_iff.1 hc).2), markLast_append _ _ _ hne]
      simp [rowsOf, marksNow, after, markLast]
    | scalar v =>
      have e1 : ([⟨e, k, n, t, v, av⟩] : List (Row α)) = rowsAt e k n av (t, .scalar v) := by simp [rowsAt, items]
      have hne : rowsAt e k n av (t, Val.scalar v) ≠ [] := by simp [rowsAt, items]
      unfold loop
      rw [e1, ih _ _ hf' (by intro _ hc; exact hne (List.append_eq_nil_iff.1 hc).2), markLast_append _ _ _ hne]
      simp [rowsOf, marksNow, after, markLast]

theorem toTable_eq (e k : Nat) (n : Name) (a : Bool) (h : Hist α) (hp : Proper h) :
    toTable e k n a h = some (rowsOf e k n (if a then some .inactive else none) h) := by
  unfold toTable
  rw [loop_eq e k n h [] _ hp.2]
  · simp [markLast]
  · intro hm
    cases h with
    | nil => exact absurd rfl hm
    | cons x r =>
      obtain ⟨t, v⟩ := x
      cases v with
      | marker on => exact absurd rfl (hp.1 t on r)
      | fields l => exact absurd rfl hm
      | scalar v => exact absurd rfl hm

theorem markLast_core (a : List (Row α)) (m : Option Bool) :
    (markLast a m).map (fun r => (r.state, r.time, r.value)) = a.map fun r => (r.state, r.time, r.value) := by
  by_cases h : a = []
  · subst h; cases m <;> rfl
  · obtain ⟨b', y, rfl⟩ : ∃ b' y, a = b' ++ [y] := ⟨a.dropLast, a.getLast h, (List.dropLast_concat_getLast h).symm⟩
    cases m <;> simp [markLast]

theorem markLast_who {e k : Nat} (a : List (Row α)) (m : Option Bool) (h : ∀ r ∈ a, r.entity = e ∧ r.kind = k) :
    ∀ r ∈ markLast a m, r.entity = e ∧ r.kind = k := by
  by_cases hn : a = []
  · subst hn; cases m <;> simp [markLast]
  · obtain ⟨b', y, rfl⟩ : ∃ b' y, a = b' ++ [y] := ⟨a.dropLast, a.getLast hn, (List.dropLast_concat_getLast hn).symm⟩
    cases m with
    | none => simpa [markLast] using h
    | some on =>
      intro r hr
      simp only [markLast, List.getLast?_append, List.getLast?_singleton, Option.or, List.dropLast_concat, List.mem_append,
        List.mem_singleton] at hr
      rcases hr with hr | rfl
      · exact h r (by simp [hr])
      · exact h y (by simp)

theorem markLast_status (e k : Nat) (n : Name) (av : Option Status) (x : Rat × Val α) (m : Option Bool) (j : Nat)
    (hj : j < (items n x).length) :
    ((markLast (rowsAt e k n av x) m)[j]?).map (·.status) =
      some (if j + 1 = (items n x).length ∧ m ≠ none then m.map statusOf else av) := by
  have hlen : (rowsAt e k n av x).length = (items n x).length := by simp [rowsAt]
  have hst : ∀ i, i < (items n x).length → ((rowsAt e k n av x)[i]?).map (·.status) = some av := by
    intro i hi
    simp [rowsAt, hi]
  cases m with
  | none => simpa [markLast] using hst j hj
  | some on =>
    have hne : rowsAt e k n av x ≠ [] := by
      intro hc; rw [hc] at hlen; simp at hlen; omega
    obtain ⟨b', y, hb⟩ : ∃ (b' : List (Row α)) (y : Row α), rowsAt e k n av x = b' ++ [y] :=
      ⟨_, (rowsAt e k n av x).getLast hne, (List.dropLast_concat_getLast hne).symm⟩
    rw [hb] at hlen hst ⊢
    simp only [List.length_append, List.length_singleton] at hlen
    simp only [markLast, List.getLast?_append, List.getLast?_singleton, Option.or, List.dropLast_concat]
    by_cases hl : j + 1 = (items n x).length
    · have : j = b'.length := by omega
      subst this
      rw [List.getElem?_append_right (Nat.le_refl _)]
      simp [hl]
    · have hlt : j < b'.length := by omega
      have := hst j hj
      rw [List.getElem?_append_left hlt] at this ⊢
      rw [this]
      simp [hl]

theorem rowsOf_core (e k : Nat) (n : Name) (h : Hist α) : ∀ av,
    (rowsOf e k n av h).map (fun r => (r.state, r.time, r.value)) = allItems n h := by
  induction h with
  | nil => intro av; rfl
  | cons x r ih =>
    intro av
    rw [rowsOf, List.map_append, markLast_core, ih]
    simp [allItems, rowsAt, Function.comp_def]

theorem rowsOf_length (e k : Nat) (n : Name) (h : Hist α) (av : Option Status) :
    (rowsOf e k n av h).length = (allItems n h).length := by
  rw [← rowsOf_core e k n h av, List.length_map]

theorem rowsOf_who (e k : Nat) (n : Name) (h : Hist α) : ∀ av, ∀ r ∈ rowsOf e k n av h, r.entity = e ∧ r.kind = k := by
  induction h with
  | nil => intro av r hr; simp [rowsOf] at hr
  | cons x r ih =>
    intro av y hy
    rw [rowsOf, List.mem_append] at hy
    rcases hy with hy | hy
    · exact markLast_who _ _ (by intro r hr; simp [rowsAt] at hr; obtain ⟨_, _, _, _, rfl⟩ := hr; exact ⟨rfl, rfl⟩) y hy
    · exact ih _ y hy

/-- The status between markers, from a given start. -/
def currentFrom (av : Option Status) (pre : Hist α) : Option Status :=
  match (marks pre).getLast? with
  | some true => some .active
  | some false => some .inactive
  | none => av

theorem currentFrom_cons (av : Option Status) (x : Rat × Val α) (pre : Hist α) :
    currentFrom av (x :: pre) = currentFrom (after av x.2) pre := by
  obtain ⟨t, v⟩ := x
  cases v with
  | scalar v => simp [currentFrom, marks, after]
  | fields l => simp [currentFrom, marks, after]
  | marker on =>
    simp only [currentFrom, after]
    have e : marks ((t, Val.marker on) :: pre) = on :: marks pre := rfl
    rw [e, List.getLast?_cons]
    cases (marks pre).getLast? with
    | none => cases on <;> rfl
    | some b => cases b <;> rfl

theorem rowsOf_status (e k : Nat) (n : Name) (pre : Hist α) : ∀ (av : Option Status) (x : Rat × Val α) (post : Hist α) (j : Nat),
    j < (items n x).length →
    ((rowsOf e k n av (pre ++ x :: post))[(allItems n pre).length + j]?).map (·.status) =
      some (if j + 1 = (items n x).length ∧ marksNow post ≠ [] then (marksNow post).getLast?.map statusOf else currentFrom av pre) := by
  induction pre with
  | nil =>
    intro av x post j hj
    have hl : (markLast (rowsAt e k n av x) (marksNow post).getLast?).length = (items n x).length := by
      rw [markLast_length]; simp [rowsAt]
    simp only [List.nil_append, rowsOf, allItems, List.flatMap_nil, List.length_nil, Nat.zero_add]
    rw [List.getElem?_append_left (by rw [hl]; exact hj), markLast_status _ _ _ _ _ _ _ hj]
    have : currentFrom av ([] : Hist α) = av := rfl
    rw [this]
    congr 1
    cases marksNow post with
    | nil => simp
    | cons a b => simp
  | cons y pre ih =>
    intro av x post j hj
    have hl : (markLast (rowsAt e k n av y) (marksNow (pre ++ x :: post)).getLast?).length = (items n y).length := by
      rw [markLast_length]; simp [rowsAt]
    rw [List.cons_append, rowsOf, List.getElem?_append_right (by rw [hl]; simp [allItems]; omega), hl]
    have e1 : (allItems n (y :: pre)).length + j - (items n y).length = (allItems n pre).length + j := by
      simp [allItems]; omega
    rw [e1, ih _ x post j hj, currentFrom_cons]

theorem table_of {e k : Nat} {n : Name} {a : Bool} {h : Hist α} {rows : List (Row α)}
    (hr : rows = rowsOf e k n (if a then some .inactive else none) h) : Table e k n a h rows := by
  subst hr
  refine ⟨rowsOf_who e k n h _, rowsOf_core e k n h _, ?_⟩
  rintro pre x post rfl j hj
  rw [rowsOf_status e k n pre _ x post j hj]
  rfl

end Verif.Table
