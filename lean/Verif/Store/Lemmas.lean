import Verif.Store.Model
import Verif.Store.Spec
import Mathlib.Data.List.Basic

/-! Helper lemmas for `Verif.Store.Props`. -/

namespace Verif.Store

variable {ι γ ν κ : Type}

/-! ### Selection -/

theorem Lt.trans [LinearOrder κ] {rev : Bool} {a b c : κ} (h1 : Lt rev a b) (h2 : Lt rev b c) :
    Lt rev a c := by
  unfold Lt at *; split <;> simp_all
  · exact lt_trans h2 h1
  · exact lt_trans h1 h2

theorem not_Lt_trans [LinearOrder κ] {rev : Bool} {a b c : κ} (h1 : ¬ Lt rev b a) (h2 : ¬ Lt rev c b) :
    ¬ Lt rev c a := by
  unfold Lt at *; split <;> simp_all
  · exact le_trans h2 h1
  · exact le_trans h1 h2

theorem Lt_of_Lt_of_not [LinearOrder κ] {rev : Bool} {a b c : κ} (h1 : Lt rev a b) (h2 : ¬ Lt rev c b) :
    Lt rev a c := by
  unfold Lt at *; split <;> simp_all
  · exact lt_of_le_of_lt h2 h1
  · exact lt_of_lt_of_le h1 h2

theorem better_none [LinearOrder κ] (rev : Bool) (v : κ) : better rev v none = true := rfl

theorem better_some [LinearOrder κ] (rev : Bool) (v m : κ) :
    better rev v (some m) = true ↔ Lt rev v m := by
  unfold better Lt; cases rev <;> simp

/-- The scan with a sorter, started with a candidate `m` (value `key m`): the result is either `m`, if no
matching element is strictly better, or the first best element of the list. -/
theorem scan_cand [LinearOrder κ] (r : SReq ι κ) (key : ι → κ) (hk : r.sorter = some key)
    (xs : List ι) (m : ι) :
    (scan r xs (some m) (some (key m)) = some m ∧
      ∀ y ∈ xs, r.filter y = true → ¬ Lt r.reverse (key y) (key m)) ∨
    (∃ pre x post, xs = pre ++ x :: post ∧ scan r xs (some m) (some (key m)) = some x ∧
      r.filter x = true ∧ Lt r.reverse (key x) (key m) ∧
      (∀ y ∈ pre, r.filter y = true → Lt r.reverse (key x) (key y)) ∧
      (∀ y ∈ post, r.filter y = true → ¬ Lt r.reverse (key y) (key x))) := by
  induction xs generalizing m with
  | nil => left; simp [scan]
  | cons a xs ih =>
    by_cases hf : r.filter a = true
    · by_cases hb : Lt r.reverse (key a) (key m)
      · right
        have hs : scan r (a :: xs) (some m) (some (key m)) = scan r xs (some a) (some (key a)) := by
          simp [scan, hf, hk, (better_some r.reverse (key a) (key m)).mpr hb]
        rcases ih a with ⟨h1, h2⟩ | ⟨pre, x, post, h1, h2, h3, h4, h5, h6⟩
        · exact ⟨[], a, xs, rfl, hs.trans h1, hf, hb, by simp, h2⟩
        · refine ⟨a :: pre, x, post, by simp [h1], hs.trans h2, h3, h4.trans hb, ?_, h6⟩
          intro y hy hfy
          rcases List.mem_cons.mp hy with rfl | hy
          · exact h4
          · exact h5 y hy hfy
      · have hb' : better r.reverse (key a) (some (key m)) = false := by
          rw [← Bool.not_eq_true, better_some]; exact hb
        have hs : scan r (a :: xs) (some m) (some (key m)) = scan r xs (some m) (some (key m)) := by
          simp [scan, hf, hk, hb']
        rcases ih m with ⟨h1, h2⟩ | ⟨pre, x, post, h1, h2, h3, h4, h5, h6⟩
        · left
          refine ⟨hs.trans h1, ?_⟩
          intro y hy hfy
          rcases List.mem_cons.mp hy with rfl | hy
          · exact hb
          · exact h2 y hy hfy
        · right
          refine ⟨a :: pre, x, post, by simp [h1], hs.trans h2, h3, h4, ?_, h6⟩
          intro y hy hfy
          rcases List.mem_cons.mp hy with rfl | hy
          · exact Lt_of_Lt_of_not h4 hb
          · exact h5 y hy hfy
    · have hs : scan r (a :: xs) (some m) (some (key m)) = scan r xs (some m) (some (key m)) := by
        simp [scan, hf]
      rcases ih m with ⟨h1, h2⟩ | ⟨pre, x, post, h1, h2, h3, h4, h5, h6⟩
      · left
        refine ⟨hs.trans h1, ?_⟩
        intro y hy hfy
        rcases List.mem_cons.mp hy with rfl | hy
        · exact absurd hfy hf
        · exact h2 y hy hfy
      · right
        refine ⟨a :: pre, x, post, by simp [h1], hs.trans h2, h3, h4, ?_, h6⟩
        intro y hy hfy
        rcases List.mem_cons.mp hy with rfl | hy
        · exact absurd hfy hf
        · exact h5 y hy hfy

theorem scan_sorted [LinearOrder κ] (r : SReq ι κ) (key : ι → κ) (hk : r.sorter = some key)
    (xs : List ι) :
    (scan r xs none none = none ∧ ∀ y ∈ xs, r.filter y = false) ∨
    (∃ pre x post, xs = pre ++ x :: post ∧ scan r xs none none = some x ∧ r.filter x = true ∧
      (∀ y ∈ pre, r.filter y = true → Lt r.reverse (key x) (key y)) ∧
      (∀ y ∈ post, r.filter y = true → ¬ Lt r.reverse (key y) (key x))) := by
  induction xs with
  | nil => left; simp [scan]
  | cons a xs ih =>
    by_cases hf : r.filter a = true
    · right
      have hs : scan r (a :: xs) none none = scan r xs (some a) (some (key a)) := by
        simp [scan, hf, hk, better]
      rcases scan_cand r key hk xs a with ⟨h1, h2⟩ | ⟨pre, x, post, h1, h2, h3, h4, h5, h6⟩
      · exact ⟨[], a, xs, rfl, hs.trans h1, hf, by simp, h2⟩
      · refine ⟨a :: pre, x, post, by simp [h1], hs.trans h2, h3, ?_, h6⟩
        intro y hy hfy
        rcases List.mem_cons.mp hy with rfl | hy
        · exact h4
        · exact h5 y hy hfy
    · have hs : scan r (a :: xs) none none = scan r xs none none := by simp [scan, hf]
      have hf' : r.filter a = false := by simpa using hf
      rcases ih with ⟨h1, h2⟩ | ⟨pre, x, post, h1, h2, h3, h4, h5⟩
      · left
        refine ⟨hs.trans h1, ?_⟩
        intro y hy
        rcases List.mem_cons.mp hy with rfl | hy
        · exact hf'
        · exact h2 y hy
      · right
        refine ⟨a :: pre, x, post, by simp [h1], hs.trans h2, h3, ?_, h5⟩
        intro y hy hfy
        rcases List.mem_cons.mp hy with rfl | hy
        · exact absurd hfy hf
        · exact h4 y hy hfy

theorem scan_unsorted [LinearOrder κ] (r : SReq ι κ) (hk : r.sorter = none) (xs : List ι) :
    (scan r xs none none = none ∧ ∀ y ∈ xs, r.filter y = false) ∨
    (∃ pre x post, xs = pre ++ x :: post ∧ scan r xs none none = some x ∧ r.filter x = true ∧
      (∀ y ∈ pre, r.filter y = false)) := by
  induction xs with
  | nil => left; simp [scan]
  | cons a xs ih =>
    by_cases hf : r.filter a = true
    · right; exact ⟨[], a, xs, rfl, by simp [scan, hf, hk], hf, by simp⟩
    · have hs : scan r (a :: xs) none none = scan r xs none none := by simp [scan, hf]
      have hf' : r.filter a = false := by simpa using hf
      rcases ih with ⟨h1, h2⟩ | ⟨pre, x, post, h1, h2, h3, h4⟩
      · left
        refine ⟨hs.trans h1, ?_⟩
        intro y hy
        rcases List.mem_cons.mp hy with rfl | hy
        · exact hf'
        · exact h2 y hy
      · right
        refine ⟨a :: pre, x, post, by simp [h1], hs.trans h2, h3, ?_⟩
        intro y hy
        rcases List.mem_cons.mp hy with rfl | hy
        · exact hf'
        · exact h4 y hy

theorem removeFirst_split (eqv : ι → ι → Bool) (pre post : List ι) (x : ι) (hx : eqv x x = true)
    (hp : ∀ y ∈ pre, eqv y x = false) : removeFirst eqv x (pre ++ x :: post) = pre ++ post := by
  induction pre with
  | nil => simp [removeFirst, hx]
  | cons a pre ih =>
    have := hp a (List.mem_cons_self ..)
    simp [removeFirst, this, ih (fun y hy => hp y (List.mem_cons_of_mem _ hy))]

theorem removeFirst_length (eqv : ι → ι → Bool) (x : ι) (xs : List ι) (h : x ∈ xs)
    (hx : eqv x x = true) : (removeFirst eqv x xs).length + 1 = xs.length := by
  induction xs with
  | nil => simp at h
  | cons a xs ih =>
    unfold removeFirst
    split
    · simp
    · rcases List.mem_cons.mp h with rfl | h
      · simp_all
      · simp [ih h]

/-! ### The log -/

section
variable [DecidableEq ν]

/-- What `record` does, and what any composition of `record`s at a fixed time does. -/
structure LogStep (c : Cfg ι γ ν) (s s' : St ι γ ν) : Prop where
  now : s'.now = s.now
  ext : ∃ e, s'.log = s.log ++ e ∧ ∀ x ∈ e, x.1 = s.now

theorem LogStep.refl (c : Cfg ι γ ν) (s : St ι γ ν) : LogStep c s s := ⟨rfl, [], by simp⟩

theorem LogStep.trans {c : Cfg ι γ ν} {a b d : St ι γ ν} (h1 : LogStep c a b) (h2 : LogStep c b d) :
    LogStep c a d := by
  obtain ⟨n1, e1, l1, t1⟩ := h1
  obtain ⟨n2, e2, l2, t2⟩ := h2
  refine ⟨n2.trans n1, e1 ++ e2, by rw [l2, l1, List.append_assoc], ?_⟩
  intro x hx
  rcases List.mem_append.mp hx with h | h
  · exact t1 x h
  · rw [t2 x h, n1]

theorem LogStep.trans' {c : Cfg ι γ ν} {a b d : St ι γ ν} (h2 : LogStep c b d) (h1 : LogStep c a b) :
    LogStep c a d := h1.trans h2

theorem record_fields (c : Cfg ι γ ν) (s : St ι γ ν) :
    record c s = { s with log := (record c s).log } := by
  unfold record; simp only; split <;> rfl

theorem record_log (c : Cfg ι γ ν) (s : St ι γ ν) :
    (∃ e, (record c s).log = s.log ++ e ∧ ∀ x ∈ e, x.1 = s.now) ∧
    (record c s).log.getLast?.map (·.2) = some (c.itemFunc s.items) := by
  unfold record
  simp only
  split
  · exact ⟨⟨[(s.now, c.itemFunc s.items)], rfl, by simp⟩, by simp⟩
  · rename_i h
    exact ⟨⟨[], by simp, by simp⟩, by simpa using h⟩

/-- Setting fields other than the log and clock, then recording. -/
theorem LogStep.record (c : Cfg ι γ ν) {s s1 : St ι γ ν} (hn : s1.now = s.now) (hl : s1.log = s.log) :
    LogStep c s (record c s1) := by
  refine ⟨by rw [record_fields]; exact hn, ?_⟩
  obtain ⟨⟨e, h1, h2⟩, _⟩ := record_log c s1
  exact ⟨e, by rw [h1, hl], fun x hx => by rw [h2 x hx, hn]⟩

theorem LogStep.record2 (c : Cfg ι γ ν) {s s1 : St ι γ ν} (h : LogStep c s s1) :
    LogStep c s (Store.record c s1) := h.trans (.record c rfl rfl)

theorem record_cur (c : Cfg ι γ ν) (s : St ι γ ν) :
    (record c s).log.getLast?.map (·.2) = some (c.itemFunc (record c s).items) := by
  rw [(record_log c s).2, record_fields]

theorem trigPut_log (c : Cfg ι γ ν) (s : St ι γ ν) :
    LogStep c s (trigPut c s) ∧
    (trigPut c s).log.getLast?.map (·.2) = some (c.itemFunc (trigPut c s).items) := by
  unfold trigPut
  split
  · exact ⟨.record c rfl rfl, record_cur c s⟩
  · split
    · refine ⟨?_, record_cur _ _⟩
      exact LogStep.record2 c (LogStep.record c rfl rfl)
    · exact ⟨.record c rfl rfl, record_cur c s⟩

theorem getLoop_log (c : Cfg ι γ ν) (q : List (Nat × γ)) (s : St ι γ ν) :
    LogStep c s (getLoop c q s).2 := by
  induction q generalizing s with
  | nil => exact .refl c s
  | cons p q ih =>
    obtain ⟨i, g⟩ := p
    simp only [getLoop]
    split
    · split
      · exact LogStep.trans' (ih _) (LogStep.record c rfl rfl)
      · exact LogStep.record c rfl rfl
    · split
      · exact ih s
      · exact .refl c s

theorem trigGet_log (c : Cfg ι γ ν) (s : St ι γ ν) :
    LogStep c s (trigGet c s) ∧
    (trigGet c s).log.getLast?.map (·.2) = some (c.itemFunc (trigGet c s).items) := by
  unfold trigGet
  exact ⟨(getLoop_log c s.getQ s).trans (.record c rfl rfl), record_cur _ _⟩

/-- One operation on log and clock. -/
theorem step_log (c : Cfg ι γ ν) (s : St ι γ ν) (op : Op ι γ)
    (h : s.log.getLast?.map (·.2) = some (c.itemFunc s.items)) :
    s.now ≤ (step c s op).now ∧
    (∃ e, (step c s op).log = s.log ++ e ∧ ∀ x ∈ e, x.1 = (step c s op).now) ∧
    (step c s op).log.getLast?.map (·.2) = some (c.itemFunc (step c s op).items) := by
  have fin : ∀ {s0 s1 : St ι γ ν}, LogStep c s0 s1 → s0.now = s.now → s0.log = s.log →
      s.now ≤ s1.now ∧ ∃ e, s1.log = s.log ++ e ∧ ∀ x ∈ e, x.1 = s1.now := by
    intro s0 s1 ⟨n, e, l, t⟩ hn hl
    refine ⟨by rw [n, hn], e, by rw [l, hl], fun x hx => by rw [t x hx, n]⟩
  cases op with
  | put x =>
    have := trigPut_log c (enqPut s x)
    have f := fin this.1 rfl rfl
    exact ⟨f.1, f.2, this.2⟩
  | get g =>
    have := trigGet_log c (enqGet s g)
    have f := fin this.1 rfl rfl
    exact ⟨f.1, f.2, this.2⟩
  | interrupt id => exact ⟨le_refl _, ⟨[], by simp [step, doInterrupt], by simp⟩, h⟩
  | process =>
    simp only [step, doProcess]
    split
    · exact ⟨le_refl _, ⟨[], by simp, by simp⟩, h⟩
    · rename_i i q hq
      have := trigGet_log c { s with evq := q }
      have f := fin this.1 rfl rfl
      exact ⟨f.1, f.2, this.2⟩
    · rename_i i x q hq
      have := trigPut_log c { s with evq := q }
      have f := fin this.1 rfl rfl
      split
      · exact ⟨f.1, f.2, this.2⟩
      · exact ⟨f.1, f.2, this.2⟩
  | advance t =>
    simp only [step, doAdvance]
    split
    · rename_i hc; exact ⟨hc.1, ⟨[], by simp, by simp⟩, h⟩
    · exact ⟨le_refl _, ⟨[], by simp, by simp⟩, h⟩

end

/-! ### Requests and items -/

/-- Items of triggered, unprocessed gets. -/
def inflight : List (Ev ι) → List (Nat × ι)
  | [] => []
  | .put _ :: q => inflight q
  | .got i x :: q => (i, x) :: inflight q

theorem inflight_append (a b : List (Ev ι)) : inflight (a ++ b) = inflight a ++ inflight b := by
  induction a with
  | nil => rfl
  | cons e a ih => cases e <;> simp [inflight, ih]

/-- Selection takes an item out and keeps the others. -/
def SelPerm (c : Cfg ι γ ν) : Prop :=
  ∀ g items x rest, c.sel g items = some (x, rest) → items.Perm (x :: rest)

section
variable [DecidableEq ν]

/-- Effect of one attempt to serve the put queue. -/
inductive PutEff (s s' : St ι γ ν) : Prop
  | none (h : s' = { s with log := s'.log })
  | one (i : Nat) (x : ι) (q : List (Nat × ι)) (hq : s.putQ = (i, x) :: q) (hr : hasRoom s = true)
      (h : s' = { s with items := s.items ++ [x], putQ := q, evq := s.evq ++ [.put i],
                         accepted := s.accepted ++ [(i, x)], log := s'.log })

theorem trigPut_eff (c : Cfg ι γ ν) (s : St ι γ ν) : PutEff s (trigPut c s) := by
  unfold trigPut
  split
  · exact .none (record_fields c s)
  · rename_i i x q hq
    split
    · rename_i hr
      refine .one i x q hq hr ?_
      rw [record_fields, record_fields]
    · exact .none (record_fields c s)

/-- Effect of one pass over the get queue: served requests with their items. -/
structure GetEff (c : Cfg ι γ ν) (q q' : List (Nat × γ)) (s s' : St ι γ ν)
    (served : List (Nat × ι)) : Prop where
  fields : s' = { s with items := s'.items, evq := s'.evq, log := s'.log }
  evq : s'.evq = s.evq ++ served.map (fun p => Ev.got p.1 p.2)
  items : SelPerm c → s.items.Perm (served.map (·.2) ++ s'.items)
  ids : (q.map (·.1)).Perm (served.map (·.1) ++ q'.map (·.1))
  sub : q'.Sublist q

theorem getLoop_eff (c : Cfg ι γ ν) (q : List (Nat × γ)) (s : St ι γ ν) :
    ∃ served, GetEff c q (getLoop c q s).1 s (getLoop c q s).2 served := by
  induction q generalizing s with
  | nil => exact ⟨[], rfl, by simp [getLoop], fun _ => by simp [getLoop], by simp [getLoop], by simp [getLoop]⟩
  | cons p q ih =>
    obtain ⟨i, g⟩ := p
    simp only [getLoop]
    split
    · rename_i x rest hsel
      have hrec := record_fields c { s with items := rest, evq := s.evq ++ [Ev.got i x] }
      split
      · obtain ⟨served, h⟩ := ih (record c { s with items := rest, evq := s.evq ++ [Ev.got i x] })
        refine ⟨(i, x) :: served, ?_, ?_, ?_, ?_, ?_⟩
        · have := h.fields; rw [this]; rw [hrec]
        · rw [h.evq, hrec]; simp
        · intro hp
          have h1 := hp _ _ _ _ hsel
          have h2 := h.items hp
          rw [hrec] at h2
          simp only at h2
          rw [List.map_cons, List.cons_append]
          refine h1.trans ?_
          rw [← hrec] at h2
          exact List.Perm.cons x h2
        · simp only [List.map_cons, List.cons_append]
          exact List.Perm.cons i h.ids
        · exact h.sub.cons _
      · refine ⟨[(i, x)], ?_, ?_, ?_, ?_, ?_⟩
        · rw [hrec]
        · rw [hrec]; simp
        · intro hp
          have h1 := hp _ _ _ _ hsel
          rw [hrec]; simpa using h1
        · simp
        · exact List.sublist_cons_self _ _
    · split
      · obtain ⟨served, h⟩ := ih s
        refine ⟨served, h.fields, h.evq, h.items, ?_, ?_⟩
        · simp only [List.map_cons]
          exact (List.Perm.cons i h.ids).trans (List.perm_middle.symm)
        · exact h.sub.cons₂ _
      · exact ⟨[], rfl, by simp, fun _ => by simp, by simp, List.Sublist.refl _⟩

theorem trigGet_eff (c : Cfg ι γ ν) (s : St ι γ ν) :
    ∃ served : List (Nat × ι), (trigGet c s) = { s with
          items := (trigGet c s).items
          evq := (trigGet c s).evq
          log := (trigGet c s).log
          getQ := (trigGet c s).getQ } ∧
      (trigGet c s).evq = s.evq ++ served.map (fun p => Ev.got p.1 p.2) ∧
      (SelPerm c → s.items.Perm (served.map (·.2) ++ (trigGet c s).items)) ∧
      (s.getQ.map (·.1)).Perm (served.map (·.1) ++ (trigGet c s).getQ.map (·.1)) ∧
      (trigGet c s).getQ.Sublist s.getQ := by
  obtain ⟨served, h⟩ := getLoop_eff c s.getQ s
  have hrec := record_fields c { (getLoop c s.getQ s).2 with getQ := (getLoop c s.getQ s).1 }
  refine ⟨served, ?_, ?_, ?_, ?_, ?_⟩
  · unfold trigGet; simp only; rw [hrec]; simp only; rw [h.fields]
  · unfold trigGet; simp only; rw [hrec]; exact h.evq
  · intro hp; unfold trigGet; simp only; rw [hrec]; exact h.items hp
  · unfold trigGet; simp only; rw [hrec]; exact h.ids
  · unfold trigGet; simp only; rw [hrec]; exact h.sub

theorem inflight_got (l : List (Nat × ι)) : inflight (l.map (fun p => Ev.got p.1 p.2)) = l := by
  induction l with
  | nil => rfl
  | cons p l ih => simp [inflight, ih]

theorem run_append (c : Cfg ι γ ν) (s : St ι γ ν) (a b : List (Op ι γ)) :
    run c s (a ++ b) = run c (run c s a) b := by simp [run]

theorem run_induct (c : Cfg ι γ ν) {P : St ι γ ν → Prop} (hs : ∀ s op, P s → P (step c s op))
    {s : St ι γ ν} (h : P s) (ops : List (Op ι γ)) : P (run c s ops) := by
  induction ops generalizing s with
  | nil => exact h
  | cons op ops ih => exact ih (hs _ _ h)

end
end Verif.Store
