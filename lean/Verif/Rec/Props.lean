import Verif.Rec.Spec

/-!
# Properties C14-C16, C53, C54 for plain states
-/

namespace Verif.Rec

open Verif.Log Verif.Recorded

variable {V : Type}

theorem upd2_self {α : Type} (f : Nat → Nat → α) (i j : Nat) (x : α) : upd2 f i j x i j = x := by
  simp [upd2]

theorem upd2_ne {α : Type} (f : Nat → Nat → α) {i j i' j' : Nat} (x : α) (h : ¬ (i' = i ∧ j' = j)) :
    upd2 f i j x i' j' = f i' j' := by simp [upd2, h]

/-! ## Frame facts -/

/-- `recordFuncs` touches nothing but `fhist`. -/
theorem recordFuncs_eq (c : Cfg V) (a n : Nat) (x : V) (fs : List ((List (Rat × V) → V) × Nat)) :
    ∀ s : St V, recordFuncs c s a n x fs = { s with fhist := (recordFuncs c s a n x fs).fhist } := by
  induction fs with
  | nil => intro s; rfl
  | cons p fs ih =>
    intro s
    obtain ⟨f, name⟩ := p
    simp only [recordFuncs]
    rw [ih]

theorem record_eq (c : Cfg V) (s : St V) (a n : Nat) (x : V) :
    record c s a n x = { s with
      hist := if c.recording n then
        upd2 s.hist a n (append (c.dup n) c.same (s.hist a n) (s.now, x)) else s.hist
      fhist := (record c s a n x).fhist
      fed := if c.recording n then upd s.fed n (s.fed n ++ [(s.now, x)]) else s.fed } := by
  unfold record
  split
  · simp only
    rw [recordFuncs_eq]
  · rfl

/-- The fields of the state after a successful assignment. -/
structure AfterSet (c : Cfg V) (s s' : St V) (a n : Nat) (x : V) : Prop where
  now : s'.now = s.now
  value : s'.value = upd2 s.value a n (some x)
  hist : s'.hist = (record c s a n x).hist
  fhist : s'.fhist = (record c s a n x).fhist
  fed : s'.fed = (record c s a n x).fed
  cbs : s'.cbs = s.cbs
  listener : s'.listener = s.listener
  calls : s'.calls = s.calls ++ (s.cbs n).map (fun k => (k, a, n, x))
  sent : s'.sent = s.sent ++ (if s.listener a then [(a, n, x)] else [])

theorem recordFuncs_value (c : Cfg V) (a n : Nat) (x : V) (fs : List ((List (Rat × V) → V) × Nat))
    (u : Nat → Nat → Option V) : ∀ s : St V,
    recordFuncs c { s with value := u } a n x fs = { recordFuncs c s a n x fs with value := u } := by
  induction fs with
  | nil => intro s; rfl
  | cons p fs ih =>
    intro s
    obtain ⟨f, name⟩ := p
    exact ih { s with fhist := upd2 s.fhist a name <|
      (append (c.dup n) c.same (s.fhist a name) (s.now, f (s.fed n ++ [(s.now, x)]))) }

theorem record_value (c : Cfg V) (s : St V) (a n : Nat) (x : V) (u : Nat → Nat → Option V) :
    record c { s with value := u } a n x = { record c s a n x with value := u } := by
  unfold record
  split
  · exact congrArg (fun z : St V => { z with fed := upd z.fed n (z.fed n ++ [(z.now, x)]) })
      (recordFuncs_value c a n x (c.funcs n) u
        { s with hist := upd2 s.hist a n (Recorded.append (c.dup n) c.same (s.hist a n) (s.now, x)) })
  · rfl

theorem set_cases (c : Cfg V) (s : St V) (a n : Nat) (x : V) :
    set c s a n x = (s, .raised) ∨
    ∃ s', set c s a n x = (s', .ok) ∧ c.isState n = true ∧ c.okType n x = true ∧
      (c.frozen n = true → ∀ old, s.value a n = some old → c.isNone old = true) ∧
      AfterSet c s s' a n x := by
  unfold set
  split
  · left; rfl
  · rename_i hst
    split
    · left; rfl
    · rename_i hf
      split
      · left; rfl
      · rename_i hty
        right
        refine ⟨_, rfl, by simpa using hst, by simpa using hty, ?_, ?_⟩
        · intro hfr old ho
          rw [hfr, ho] at hf
          simpa using hf
        · rw [record_value]
          have he := record_eq c s a n x
          generalize hr : record c s a n x = r at he ⊢
          unfold broadcast callback
          split <;> rename_i hl
          · have hl' : s.listener a = true := by rw [he] at hl; exact hl
            constructor
            · rw [he]
            · rfl
            · rw [hr]
            · rw [hr]
            · rw [hr]
            · rw [he]
            · rw [he]
            · rw [he]
            · rw [he, if_pos hl']
          · have hl' : ¬ s.listener a = true := by rw [he] at hl; exact hl
            constructor
            · rw [he]
            · rfl
            · rw [hr]
            · rw [hr]
            · rw [hr]
            · rw [he]
            · rw [he]
            · rw [he]
            · rw [he, if_neg hl', List.append_nil]

/-! ## C16, C15: refused assignments -/

/-- **C16.** An assignment of a wrongly typed value, or to a frozen state holding a value other than `None`,
raises and changes nothing at all: not the value, nor any history, callback or notification. -/
theorem c16_refused_unchanged (c : Cfg V) (s : St V) (a n : Nat) (x : V)
    (h : c.okType n x = false ∨ (c.frozen n = true ∧ ∃ old, s.value a n = some old ∧ c.isNone old = false)) :
    step c s (.set a n x) = (s, .raised) := by
  rcases set_cases c s a n x with h1 | ⟨s', h1, _, h2, h3, _⟩
  · exact h1
  · rcases h with h | ⟨h4, old, h5, h6⟩
    · rw [h2] at h; simp at h
    · rw [h3 h4 old h5] at h6; simp at h6

theorem hist_step {c : Cfg V} {s : St V} (P : V → Prop) {a n : Nat}
    (hs : ∀ e ∈ s.hist a n, P e.2) {x : V} {b m : Nat} (hx : b = a ∧ m = n → P x) :
    ∀ e ∈ (record c s b m x).hist a n, P e.2 := by
  rw [record_eq]
  simp only
  split
  · by_cases hbm : a = b ∧ n = m
    · obtain ⟨rfl, rfl⟩ := hbm
      rw [upd2_self]
      intro e he
      have : e ∈ s.hist a n ∨ e = (s.now, x) := by
        unfold append at he
        split at he
        · right; simpa using he
        · split at he
          · rcases List.mem_append.mp he with he | he
            · exact Or.inl he
            · right; simpa using he
          · exact Or.inl he
      rcases this with h | h
      · exact hs e h
      · rw [h]; exact hx ⟨rfl, rfl⟩
    · rw [upd2_ne _ _ hbm]; exact hs
  · exact hs

/-- **C16.** In every reachable state, every value held and every value recorded passes the type check of its
state. -/
theorem c16_well_typed (c : Cfg V) (t0 : Rat) (ops : List (Op V)) (a n : Nat) :
    let s := (run c (init t0) ops).1
    (∀ v, s.value a n = some v → c.okType n v = true) ∧ (∀ e ∈ s.hist a n, c.okType n e.2 = true) := by
  have key : ∀ (ops : List (Op V)) (s : St V),
      ((∀ v, s.value a n = some v → c.okType n v = true) ∧ (∀ e ∈ s.hist a n, c.okType n e.2 = true)) →
      ((∀ v, (run c s ops).1.value a n = some v → c.okType n v = true) ∧
        (∀ e ∈ (run c s ops).1.hist a n, c.okType n e.2 = true)) := by
    intro ops
    induction ops with
    | nil => intro s h; exact h
    | cons op ops ih =>
      intro s h
      refine ih _ ?_
      cases op with
      | set b m x =>
        simp only [step]
        rcases set_cases c s b m x with h1 | ⟨s', h1, _, h2, _, h3⟩
        · rw [h1]; exact h
        · rw [h1]
          simp only
          rw [h3.value, h3.hist]
          constructor
          · intro v hv
            by_cases hbm : a = b ∧ n = m
            · obtain ⟨rfl, rfl⟩ := hbm
              rw [upd2_self] at hv; cases hv; exact h2
            · rw [upd2_ne _ _ hbm] at hv; exact h.1 v hv
          · exact hist_step (fun v => c.okType n v = true) h.2 (by rintro ⟨rfl, rfl⟩; exact h2)
      | get b m =>
        simp only [step, get]
        split
        · exact h
        · split <;> exact h
      | recordState b m =>
        simp only [step, recordState]
        split
        · exact h
        · split
          · exact h
          · rename_i v hv
            refine ⟨?_, hist_step (fun v => c.okType n v = true) h.2 (by
              rintro ⟨rfl, rfl⟩; exact h.1 v hv)⟩
            rw [record_eq]; exact h.1
      | addCallback m k => simp only [step, addCallback]; split <;> exact h
      | removeCallback m k => simp only [step, removeCallback]; split <;> exact h
      | attach b => simp only [step]; split <;> exact h
      | advance dt => simp only [step]; split <;> exact h
  exact key ops _ ⟨by simp [init], by simp [init]⟩

/-- A class with a frozen state whose values may be `None`. -/
def noneCfg : Cfg (Option Nat) where
  isState := fun _ => true
  frozen := fun _ => true
  recording := fun _ => true
  dup := fun _ => false
  okType := fun _ _ => true
  isNone := Option.isNone
  same := fun a b => decide (a = b)
  funcs := fun _ => []

/-- **C15 is false of the code**: a frozen state that was given `None` first accepts another value. -/
theorem c15_frozen_none_reassigned :
    let s := (run noneCfg (init 0) [.set 0 0 none]).1
    s.value 0 0 = some none ∧ (step noneCfg s (.set 0 0 (some 3))).2 = .ok ∧
      (step noneCfg s (.set 0 0 (some 3))).1.value 0 0 = some (some 3) := by decide +kernel

theorem frozen_step {c : Cfg V} {s : St V} {a n : Nat} {v : V} (hf : c.frozen n = true)
    (hv : s.value a n = some v) (hn : c.isNone v = false) (op : Op V) :
    (step c s op).1.value a n = some v := by
  cases op with
  | set b m x =>
    simp only [step]
    rcases set_cases c s b m x with h1 | ⟨s', h1, _, _, h2, h3⟩
    · rw [h1]; exact hv
    · rw [h1]
      simp only
      rw [h3.value]
      by_cases hbm : a = b ∧ n = m
      · obtain ⟨rfl, rfl⟩ := hbm
        have := h2 hf v hv
        rw [hn] at this; simp at this
      · rw [upd2_ne _ _ hbm]; exact hv
  | get b m =>
    simp only [step, get]
    split
    · exact hv
    · split <;> exact hv
  | recordState b m =>
    simp only [step, recordState]
    split
    · exact hv
    · split
      · exact hv
      · rw [record_eq]; exact hv
  | addCallback m k => simp only [step, addCallback]; split <;> exact hv
  | removeCallback m k => simp only [step, removeCallback]; split <;> exact hv
  | attach b => simp only [step]; split <;> exact hv
  | advance dt => simp only [step]; split <;> exact hv

theorem run_append (c : Cfg V) (a b : List (Op V)) : ∀ s : St V,
    run c s (a ++ b) = ((run c (run c s a).1 b).1, (run c s a).2 ++ (run c (run c s a).1 b).2) := by
  induction a with
  | nil => intro s; rfl
  | cons op a ih =>
    intro s
    simp only [List.cons_append, run, ih]

/-- **C15, the part that holds.** A frozen state that has successfully been given a value other than `None`
keeps that value whatever happens later, and every later assignment raises and changes nothing. Missing:
`None` as the first value, see `c15_frozen_none_reassigned`. -/
theorem c15_frozen_partial (c : Cfg V) (t0 : Rat) (before after : List (Op V)) (a n : Nat) (v : V)
    (hf : c.frozen n = true) (hn : c.isNone v = false)
    (hok : (step c (run c (init t0) before).1 (.set a n v)).2 = .ok) :
    let s := (run c (init t0) (before ++ .set a n v :: after)).1
    s.value a n = some v ∧ ∀ x, step c s (.set a n x) = (s, .raised) := by
  intro s
  have hs : s = (run c (step c (run c (init t0) before).1 (.set a n v)).1 after).1 := by
    simp only [s]; rw [run_append]; rfl
  have h0 : (step c (run c (init t0) before).1 (.set a n v)).1.value a n = some v := by
    rcases set_cases c (run c (init t0) before).1 a n v with h1 | ⟨s', h1, _, _, _, h3⟩
    · simp only [step] at hok; rw [h1] at hok; simp at hok
    · simp only [step]; rw [h1]; simp only; rw [h3.value, upd2_self]
  have key : ∀ (ops : List (Op V)) (s : St V), s.value a n = some v → (run c s ops).1.value a n = some v := by
    intro ops
    induction ops with
    | nil => intro s h; exact h
    | cons op ops ih => intro s h; exact ih _ (frozen_step hf h hn op)
  have h1 := key after _ h0
  rw [← hs] at h1
  exact ⟨h1, fun x => c16_refused_unchanged c s a n x (Or.inr ⟨hf, v, h1, hn⟩)⟩

/-- A class for the examples: state 0 is an integer recorded without duplicates, state 1 frozen, state 2
recorded with duplicates and with a running sum as recording function named 7; negative numbers count as
wrongly typed and 99 as `None`. -/
def demo : Cfg Int where
  isState := fun n => decide (n < 3)
  frozen := fun n => decide (n = 1)
  recording := fun n => decide (n ≠ 1)
  dup := fun n => decide (n = 2)
  okType := fun _ v => decide (0 ≤ v)
  isNone := fun v => decide (v = 99)
  same := fun a b => decide (a = b)
  funcs := fun n => if n = 2 then [(fun l => (l.map (·.2)).sum, 7)] else []

example : demo.frozen 1 = true ∧ demo.isNone 5 = false ∧
    (step demo (run demo (init 0) [.set 0 1 99, .set 3 0 2, .set 0 1 (-2)]).1 (.set 0 1 5)).2 = .ok := by
  decide +kernel

example : demo.okType 0 (-3) = false := by decide

/-! ## C14 -/

theorem writesOf_cons (a n : Nat) (cur : Nat → Option V) (e : Rat × Op V × Out V) (tr : Trace V) :
    ∃ w cur', (writesFrom n cur (e :: tr)) = w ++ writesFrom n cur' tr ∧ w = writesFrom n cur [e] ∧
      cur' = (match e.2.1, e.2.2 with
        | .set b m x, .ok => if m = n then (fun d => if d = b then some x else cur d) else cur
        | _, _ => cur) := by
  obtain ⟨τ, op, o⟩ := e
  cases op <;> cases o <;> (try exact ⟨[], cur, rfl, rfl, rfl⟩)
  · rename_i b m x
    by_cases hm : m = n
    · exact ⟨[(b, τ, x)], fun d => if d = b then some x else cur d, by simp [writesFrom, hm],
        by simp [writesFrom, hm], by simp [hm]⟩
    · exact ⟨[], cur, by simp [writesFrom, hm], by simp [writesFrom, hm], by simp [hm]⟩
  · rename_i b m
    by_cases hm : m = n
    · cases hc : cur b with
      | none => exact ⟨[], cur, by simp [writesFrom, hm, hc], by simp [writesFrom, hm, hc], rfl⟩
      | some v => exact ⟨[(b, τ, v)], cur, by simp [writesFrom, hm, hc], by simp [writesFrom, hm, hc], rfl⟩
    · exact ⟨[], cur, by simp [writesFrom, hm], by simp [writesFrom, hm], rfl⟩

/-- The state of a recording state `n` on all actors, after writes `w` (all actors, oldest first). -/
structure Keeps (c : Cfg V) (n : Nat) (s : St V) (cur : Nat → Option V) (w : List (Nat × Rat × V)) : Prop where
  val : ∀ a, s.value a n = cur a
  last : ∀ a, cur a = ((w.filter (fun e => decide (e.1 = a))).map (·.2)).getLast?.map (·.2)
  hist : c.recording n = true → ∀ a,
    Faithful (c.dup n) c.same (s.hist a n) ((w.filter (fun e => decide (e.1 = a))).map (·.2)) s.now
  fed : c.recording n = true → s.fed n = w.map (·.2)
  fhist : c.recording n = true → ∀ f name, (f, name) ∈ c.funcs n → ∀ a,
    Faithful (c.dup n) c.same (s.fhist a name) (outsFrom f a [] w) s.now

theorem outsFrom_append (f : List (Rat × V) → V) (a : Nat) (w w' : List (Nat × Rat × V)) :
    ∀ pre, outsFrom f a pre (w ++ w') = outsFrom f a pre w ++ outsFrom f a (pre ++ w.map (·.2)) w' := by
  induction w with
  | nil => intro pre; simp [outsFrom]
  | cons e w ih =>
    intro pre
    obtain ⟨b, e⟩ := e
    simp only [List.cons_append, outsFrom, ih, List.map_cons, List.append_assoc, List.cons_append,
      List.nil_append]

/-- All recording names of the class are different (checked at actor creation, actor.py:89-103). -/
def NamesDistinct (c : Cfg V) : Prop :=
  (∀ n, ((c.funcs n).map (·.2)).Nodup) ∧
  ∀ n m name, n ≠ m → name ∈ (c.funcs n).map (·.2) → name ∉ (c.funcs m).map (·.2)

theorem recordFuncs_fhist (c : Cfg V) (a n : Nat) (x : V) (fs : List ((List (Rat × V) → V) × Nat)) :
    ∀ (s : St V), (fs.map (·.2)).Nodup → ∀ b name,
    ((b ≠ a ∨ name ∉ fs.map (·.2)) → (recordFuncs c s a n x fs).fhist b name = s.fhist b name) ∧
    (∀ f, (f, name) ∈ fs → (recordFuncs c s a n x fs).fhist a name =
      append (c.dup n) c.same (s.fhist a name) (s.now, f (s.fed n ++ [(s.now, x)]))) := by
  induction fs with
  | nil => intro s _ b name; exact ⟨fun _ => rfl, by simp⟩
  | cons p fs ih =>
    intro s hnd b name
    obtain ⟨f0, name0⟩ := p
    simp only [List.map_cons, List.nodup_cons] at hnd
    simp only [recordFuncs]
    obtain ⟨h1, h2⟩ := ih { s with fhist := upd2 s.fhist a name0 <|
      (append (c.dup n) c.same (s.fhist a name0) (s.now, f0 (s.fed n ++ [(s.now, x)]))) } hnd.2 b name
    constructor
    · intro h
      rw [h1 (by
        rcases h with h | h
        · exact Or.inl h
        · right; simp only [List.map_cons, List.mem_cons, not_or] at h; exact h.2)]
      simp only
      rw [upd2_ne]
      rintro ⟨e1, e2⟩
      rcases h with h | h
      · exact h e1
      · simp [e2] at h
    · intro f hf
      rcases List.mem_cons.mp hf with hf | hf
      · simp only [Prod.mk.injEq] at hf
        obtain ⟨rfl, rfl⟩ := hf
        obtain ⟨h1', _⟩ := ih { s with fhist := upd2 s.fhist a name <|
          (append (c.dup n) c.same (s.fhist a name) (s.now, f (s.fed n ++ [(s.now, x)]))) } hnd.2 a name
        rw [h1' (Or.inr hnd.1)]
        simp only
        rw [upd2_self]
      · rw [h2 f hf]
        simp only
        rw [upd2_ne]
        rintro ⟨_, e2⟩
        exact hnd.1 (e2 ▸ List.mem_map.mpr ⟨_, hf, rfl⟩)

/-- The effect of one recording of state `m` on the data of state `n`. -/
theorem Keeps.record {c : Cfg V} (hc : NamesDistinct c) {n : Nat} {s : St V} {cur : Nat → Option V}
    {w : List (Nat × Rat × V)} (h : Keeps c n s cur w) (a m : Nat) (x : V) (cur' : Nat → Option V) (s' : St V)
    (hnow : s'.now = s.now) (hval : ∀ b, s'.value b n = cur' b)
    (hcur : ∀ b, cur' b = if m = n ∧ b = a then some x else cur b)
    (hhist : s'.hist = (record c s a m x).hist) (hfh : s'.fhist = (record c s a m x).fhist)
    (hfed : s'.fed = (record c s a m x).fed) :
    Keeps c n s' cur' (w ++ if m = n then [(a, s.now, x)] else []) := by
  by_cases hm : m = n
  · subst hm
    rw [if_pos rfl]
    have hflt : ∀ b, ((w ++ [(a, s.now, x)]).filter (fun e => decide (e.1 = b))).map (·.2) =
        (w.filter (fun e => decide (e.1 = b))).map (·.2) ++ if a = b then [(s.now, x)] else [] := by
      intro b
      rw [List.filter_append, List.map_append]
      by_cases hab : a = b <;> simp [hab]
    refine ⟨hval, ?_, ?_, ?_, ?_⟩
    · intro b
      rw [hflt, hcur]
      by_cases hab : a = b
      · subst hab; simp
      · rw [if_neg (by rintro ⟨_, e⟩; exact hab e.symm), if_neg hab, List.append_nil]; exact h.last b
    · intro hr b
      rw [hhist, hnow, hflt, record_eq]
      simp only
      rw [if_pos hr]
      by_cases hab : a = b
      · subst hab
        rw [upd2_self, if_pos rfl]
        exact (h.hist hr a).extend x
      · rw [upd2_ne _ _ (by rintro ⟨e, _⟩; exact hab e.symm), if_neg hab, List.append_nil]
        exact h.hist hr b
    · intro hr
      rw [hfed, record_eq]
      simp only
      rw [if_pos hr]
      simp [upd, h.fed hr]
    · intro hr f name hf b
      rw [hfh, hnow]
      have hrec : (Rec.record c s a m x).fhist b name =
          (recordFuncs c { s with hist := upd2 s.hist a m <|
            (append (c.dup m) c.same (s.hist a m) (s.now, x)) } a m x (c.funcs m)).fhist b name := by
        unfold Rec.record; rw [if_pos hr]
      rw [hrec, outsFrom_append]
      obtain ⟨h1, h2⟩ := recordFuncs_fhist c a m x (c.funcs m) { s with hist := upd2 s.hist a m <|
            (append (c.dup m) c.same (s.hist a m) (s.now, x)) } (hc.1 m) b name
      by_cases hab : a = b
      · subst hab
        rw [h2 f hf]
        simp only [outsFrom, if_pos, List.nil_append, List.append_nil]
        rw [h.fed hr]
        exact (h.fhist hr f name hf a).extend _
      · rw [h1 (Or.inl (fun e => hab e.symm))]
        simp only [outsFrom, if_neg hab, List.nil_append, List.append_nil]
        exact h.fhist hr f name hf b
  · rw [if_neg hm, List.append_nil]
    refine ⟨hval, ?_, ?_, ?_, ?_⟩
    · intro b; rw [hcur, if_neg (fun e => hm e.1)]; exact h.last b
    · intro hr b
      rw [hhist, hnow, record_eq]
      simp only
      split
      · rw [upd2_ne _ _ (fun e => hm e.2.symm)]; exact h.hist hr b
      · exact h.hist hr b
    · intro hr
      rw [hfed, record_eq]
      simp only
      split
      · simp only [upd]; rw [if_neg (fun e => hm e.symm)]; exact h.fed hr
      · exact h.fed hr
    · intro hr f name hf b
      rw [hfh, hnow]
      have : (Rec.record c s a m x).fhist b name = s.fhist b name := by
        unfold Rec.record
        split
        · have hn : name ∉ (c.funcs m).map (·.2) := by
            apply hc.2 n m name (fun e => hm e.symm)
            exact List.mem_map.mpr ⟨_, hf, rfl⟩
          exact (recordFuncs_fhist c a m x (c.funcs m) { s with hist := upd2 s.hist a m <|
            (append (c.dup m) c.same (s.hist a m) (s.now, x)) } (hc.1 m) b name).1 (Or.inr hn)
        · rfl
      rw [this]
      exact h.fhist hr f name hf b

theorem Keeps.congr {c : Cfg V} {n : Nat} {s s' : St V} {cur : Nat → Option V} {w : List (Nat × Rat × V)}
    (h : Keeps c n s cur w) (h1 : s.now ≤ s'.now) (h2 : s'.value = s.value) (h3 : s'.hist = s.hist)
    (h4 : s'.fhist = s.fhist) (h5 : s'.fed = s.fed) : Keeps c n s' cur w where
  val := fun a => by rw [h2]; exact h.val a
  last := h.last
  hist := fun hr a => by rw [h3]; exact (h.hist hr a).later h1
  fed := fun hr => by rw [h5]; exact h.fed hr
  fhist := fun hr f name hf a => by rw [h4]; exact (h.fhist hr f name hf a).later h1

theorem Keeps.run {c : Cfg V} (hc : NamesDistinct c) {n : Nat} (ops : List (Op V)) : ∀ {s : St V}
    {cur : Nat → Option V} {w : List (Nat × Rat × V)} (_ : Keeps c n s cur w),
    ∃ cur', Keeps c n (Rec.run c s ops).1 cur' (w ++ writesFrom n cur (Rec.run c s ops).2) := by
  induction ops with
  | nil => intro s cur w h; exact ⟨cur, by simpa [Rec.run, writesFrom] using h⟩
  | cons op ops ih =>
    intro s cur w h
    obtain ⟨w1, cur1, e1, e2, e3⟩ := writesOf_cons 0 n cur (s.now, op, (step c s op).2)
      (Rec.run c (step c s op).1 ops).2
    have h1 : Keeps c n (step c s op).1 cur1 (w ++ w1) := by
      rw [e2, e3]
      cases op with
      | set b m x =>
        simp only [step]
        rcases set_cases c s b m x with h1 | ⟨s', h1, _, _, _, h3⟩
        · rw [h1]; simpa [writesFrom] using h
        · rw [h1]
          have := h.record hc b m x (if m = n then (fun d => if d = b then some x else cur d) else cur) s'
            h3.now (by
              intro d
              rw [h3.value]
              by_cases hm : m = n
              · subst hm
                rw [if_pos rfl]
                by_cases hd : d = b
                · subst hd; simp [upd2_self]
                · rw [upd2_ne _ _ (fun e => hd e.1), if_neg hd]; exact h.val d
              · rw [if_neg hm, upd2_ne _ _ (fun e => hm e.2.symm)]; exact h.val d) (by
              intro d
              by_cases hm : m = n <;> by_cases hd : d = b <;> simp [hm, hd]) h3.hist h3.fhist h3.fed
          by_cases hm : m = n
          · simpa [writesFrom, hm] using this
          · simpa [writesFrom, hm] using this
      | get b m =>
        simp only [step, get]
        split
        · simpa [writesFrom] using h
        · split <;> simpa [writesFrom] using h
      | recordState b m =>
        simp only [step, recordState]
        split
        · simpa [writesFrom] using h
        · split
          · simpa [writesFrom] using h
          · rename_i v hv
            have hq := record_eq c s b m v
            have := h.record hc b m v cur (Rec.record c s b m v) (by rw [hq]) (by
              intro d; rw [hq]; exact h.val d) (by
              intro d
              split
              · rename_i hmd
                rw [hmd.2, ← h.val b, ← hmd.1, hv]
              · rfl) rfl rfl rfl
            by_cases hm : m = n
            · have hcb : cur b = some v := by rw [← h.val b, ← hm, hv]
              simpa [writesFrom, hm, hcb] using this
            · simpa [writesFrom, hm] using this
      | addCallback m k =>
        simp only [step, addCallback]
        split
        · simpa [writesFrom] using h
        · show Keeps c n _ cur (w ++ [])
          rw [List.append_nil]
          exact h.congr (le_refl _) rfl rfl rfl rfl
      | removeCallback m k =>
        simp only [step, removeCallback]
        split
        · show Keeps c n _ cur (w ++ [])
          rw [List.append_nil]
          exact h.congr (le_refl _) rfl rfl rfl rfl
        · simpa [writesFrom] using h
      | attach b =>
        simp only [step]
        split
        · simpa [writesFrom] using h
        · show Keeps c n _ cur (w ++ [])
          rw [List.append_nil]
          exact h.congr (le_refl _) rfl rfl rfl rfl
      | advance dt =>
        simp only [step]
        split
        · rename_i hdt
          show Keeps c n _ cur (w ++ [])
          rw [List.append_nil]
          exact h.congr (by simp only; linarith) rfl rfl rfl rfl
        · simpa [writesFrom] using h
    obtain ⟨cur', h2⟩ := ih h1
    refine ⟨cur', ?_⟩
    simp only [Rec.run]
    rw [e1, ← List.append_assoc]
    exact h2

theorem Keeps.init (c : Cfg V) (n : Nat) (t0 : Rat) : Keeps c n (init t0) (fun _ => none) [] where
  val := fun _ => rfl
  last := fun _ => rfl
  hist := fun _ _ => Faithful.nil _ _ _
  fed := fun _ => rfl
  fhist := fun _ _ _ _ _ => Faithful.nil _ _ _

/-- **C14 (plain states).** After any calls, for every recording state of every actor: its history is an
in-order selection of the values it was given; at every instant it attributes to the state the value it had
then (or one that `==` says is equal); without `record_duplicates` no two consecutive entries are equal as
`(time, value)`, with it every value is there; and the state's current value is the last one given. -/
theorem c14_history (c : Cfg V) (hc : NamesDistinct c) (t0 : Rat) (ops : List (Op V)) (a n : Nat)
    (hr : c.recording n = true) :
    let s := (run c (init t0) ops).1
    let w := writesOf a n (run c (init t0) ops).2
    (s.hist a n).Sublist w ∧ Ordered w ∧ UpTo w s.now ∧
    (∀ t, Agree c.same (lookup w t) (lookup (s.hist a n) t)) ∧
    (c.dup n = false → (s.hist a n).IsChain (fun x y => ¬ (y.1 = x.1 ∧ c.same y.2 x.2 = true))) ∧
    (c.dup n = true → s.hist a n = w) ∧
    s.value a n = w.getLast?.map (·.2) := by
  obtain ⟨cur', h⟩ := Keeps.run hc ops (Keeps.init c n t0)
  rw [List.nil_append] at h
  have f := h.hist hr a
  exact ⟨f.sub, f.ordered, f.upto, f.look, f.chain, f.full, (h.val a).trans (h.last a)⟩

theorem demo_names : NamesDistinct demo := by
  constructor
  · intro n; simp only [demo]; split <;> simp
  · intro n m name hnm
    simp only [demo]
    split <;> split <;> simp
    omega

/-- Calls for the examples. -/
def demoOps : List (Op Int) :=
  [.set 0 0 4, .set 0 0 4, .advance 1, .set 0 0 4, .set 1 2 1, .set 1 2 (-1), .advance 2, .set 0 0 7, .set 1 2 3,
    .recordState 1 2, .set 0 0 7]

example : demo.recording 0 = true ∧ (run demo (init 0) demoOps).1.hist 0 0 = [(0, 4), (1, 4), (3, 7)] ∧
    writesOf 0 0 (run demo (init 0) demoOps).2 = [(0, 4), (0, 4), (1, 4), (3, 7), (3, 7)] ∧
    (run demo (init 0) demoOps).1.hist 1 2 = [(1, 1), (3, 3), (3, 3)] := by decide +kernel

/-! ## C54: recording functions -/

/-- **C54 (what holds in general).** The history of a recording function on actor `a` is the faithful history
of its results at `a`'s assignments, where the function has been given the values of *all* actors of the
class, in order. -/
theorem c54_recording_functions (c : Cfg V) (hc : NamesDistinct c) (t0 : Rat) (ops : List (Op V)) (n : Nat)
    (hr : c.recording n = true) (f : List (Rat × V) → V) (name : Nat) (hf : (f, name) ∈ c.funcs n) (a : Nat) :
    let s := (run c (init t0) ops).1
    Faithful (c.dup n) c.same (s.fhist a name) (outsFrom f a [] (writes n (run c (init t0) ops).2)) s.now := by
  obtain ⟨cur', h⟩ := Keeps.run hc ops (Keeps.init c n t0)
  rw [List.nil_append] at h
  exact h.fhist hr f name hf a

theorem outsFrom_own (f : List (Rat × V) → V) (a : Nat) (w : List (Nat × Rat × V)) (hw : ∀ e ∈ w, e.1 = a) :
    ∀ pre, outsFrom f a pre w = outsFrom f a pre ((w.filter (fun e => decide (e.1 = a))).map (fun e => (a, e.2)))
      := by
  induction w with
  | nil => intro pre; rfl
  | cons e w ih =>
    intro pre
    obtain ⟨b, e⟩ := e
    have hb : b = a := hw (b, e) (by simp)
    subst hb
    simp only [outsFrom, List.filter_cons, decide_true, if_true, List.map_cons]
    rw [ih (fun e he => hw e (List.mem_cons_of_mem _ he))]

theorem outsFrom_pure (f : List (Rat × V) → V) (g : Rat × V → V) (hg : ∀ l e, f (l ++ [e]) = g e) (a : Nat)
    (w : List (Nat × Rat × V)) : ∀ pre, outsFrom f a pre w =
      ((w.filter (fun e => decide (e.1 = a))).map (·.2)).map (fun e => (e.1, g e)) := by
  induction w with
  | nil => intro pre; rfl
  | cons e w ih =>
    intro pre
    obtain ⟨b, e⟩ := e
    simp only [outsFrom, List.filter_cons, ih, hg]
    by_cases hb : b = a <;> simp [hb]

/-- **C54 (functions without memory).** A recording function that looks only at the value and time it is
given records, for each actor, exactly the function of that actor's own assignments. -/
theorem c54_memoryless (c : Cfg V) (hc : NamesDistinct c) (t0 : Rat) (ops : List (Op V)) (n : Nat)
    (hr : c.recording n = true) (f : List (Rat × V) → V) (name : Nat) (hf : (f, name) ∈ c.funcs n)
    (g : Rat × V → V) (hg : ∀ l e, f (l ++ [e]) = g e) (a : Nat) :
    let s := (run c (init t0) ops).1
    Faithful (c.dup n) c.same (s.fhist a name)
      ((writesOf a n (run c (init t0) ops).2).map (fun e => (e.1, g e))) s.now := by
  have := c54_recording_functions c hc t0 ops n hr f name hf a
  simp only at this
  rw [outsFrom_pure f g hg] at this
  exact this

/-- **C54, recorder objects, the part that holds.** If only one actor of the class is ever given a value for the
state, a recorder object with memory records the function of that actor's own values. Missing: several
actors of one class, see `c54_recorder_shared`. -/
theorem c54_recorder_partial (c : Cfg V) (hc : NamesDistinct c) (t0 : Rat) (ops : List (Op V)) (n : Nat)
    (hr : c.recording n = true) (f : List (Rat × V) → V) (name : Nat) (hf : (f, name) ∈ c.funcs n) (a : Nat)
    (hone : ∀ e ∈ writes n (run c (init t0) ops).2, e.1 = a) :
    let s := (run c (init t0) ops).1
    Faithful (c.dup n) c.same (s.fhist a name)
      (outsFrom f a [] ((writesOf a n (run c (init t0) ops).2).map (fun e => (a, e)))) s.now := by
  have := c54_recording_functions c hc t0 ops n hr f name hf a
  simp only at this
  rw [outsFrom_own f a _ hone] at this
  simpa [writesOf, Function.comp_def] using this

/-- **C54 is false of the code for recorder objects**: the object is created once with the class, so a running
sum on actor 1 includes the values of actor 0. -/
theorem c54_recorder_shared :
    let s := (run demo (init 0) [.set 0 2 100, .set 1 2 1]).1
    s.fhist 1 7 = [(0, 101)] ∧ writesOf 1 2 (run demo (init 0) [.set 0 2 100, .set 1 2 1]).2 = [(0, 1)] := by
  decide +kernel

example : demo.recording 2 = true ∧ (∀ e ∈ writes 2 (run demo (init 0) demoOps).2, e.1 = 1) ∧
    (run demo (init 0) demoOps).1.fhist 1 7 = [(1, 1), (3, 4), (3, 7)] := by
  decide +kernel

/-! ## C53: callbacks and notification -/

theorem calls_one (a m k : Nat) (x : V) (l : List Nat) (hl : l.Nodup) :
    ((l.map (fun k => (k, a, m, x))).filter (fun e => decide (e.1 = k ∧ e.2.2.1 = m))).map
      (fun e => (e.2.1, e.2.2.2)) = if k ∈ l then [(a, x)] else [] := by
  induction l with
  | nil => rfl
  | cons j l ih =>
    rw [List.nodup_cons] at hl
    have ih := ih hl.2
    rw [List.map_cons, List.filter_cons]
    by_cases hj : j = k
    · subst hj
      rw [if_neg hl.1] at ih
      rw [if_pos (by simp), List.map_cons, ih, if_pos (by simp)]
    · rw [if_neg (by simp [hj]), ih]
      have hj' : ¬ k = j := fun e => hj e.symm
      simp [hj']

theorem heard_sound {c : Cfg V} (n k : Nat) (ops : List (Op V)) : ∀ (s : St V) (on : Bool),
    ((s.cbs n).Nodup ∧ (k ∈ s.cbs n ↔ on = true)) →
    (((run c s ops).1.calls.filter (fun e => decide (e.1 = k ∧ e.2.2.1 = n))).map (fun e => (e.2.1, e.2.2.2)) =
    (s.calls.filter (fun e => decide (e.1 = k ∧ e.2.2.1 = n))).map (fun e => (e.2.1, e.2.2.2)) ++
      heard n k on (run c s ops).2) := by
  induction ops with
  | nil => intro s on _; simp [run, heard]
  | cons op ops ih =>
    intro s on hon
    simp only [run]
    have same : ∀ s' : St V, (step c s op).1 = s' → s'.cbs = s.cbs → s'.calls = s.calls →
        heard n k on ((s.now, op, (step c s op).2) :: (run c s' ops).2) = heard n k on (run c s' ops).2 →
        (((run c (step c s op).1 ops).1.calls.filter (fun e => decide (e.1 = k ∧ e.2.2.1 = n))).map
          (fun e => (e.2.1, e.2.2.2)) =
        (s.calls.filter (fun e => decide (e.1 = k ∧ e.2.2.1 = n))).map (fun e => (e.2.1, e.2.2.2)) ++
          heard n k on ((s.now, op, (step c s op).2) :: (run c (step c s op).1 ops).2)) := by
      intro s' h1 h2 h3 h4
      rw [h1, h4, ih s' on (by rw [h2]; exact hon), h3]
    cases op with
    | set a m x =>
      rcases set_cases c s a m x with h1 | ⟨s', h1, _, _, _, h3⟩
      · refine same s (by simp only [step]; rw [h1]) rfl rfl ?_
        simp only [step]; rw [h1]; rfl
      · simp only [step]
        rw [h1]
        simp only [heard]
        rw [ih s' on (by rw [h3.cbs]; exact hon), h3.calls, List.filter_append, List.map_append,
          List.append_assoc]
        congr 2
        by_cases hm : m = n
        · subst hm
          obtain ⟨hnd, hk⟩ := hon
          rw [calls_one a m k x _ hnd]
          by_cases ho : on = true
          · rw [if_pos (hk.mpr ho)]; simp [ho]
          · rw [if_neg (fun h => ho (hk.mp h))]; simp [ho]
        · have : ((s.cbs m).map (fun k => (k, a, m, x))).filter
              (fun e => decide (e.1 = k ∧ e.2.2.1 = n)) = [] := by
            rw [List.filter_eq_nil_iff]
            intro e he
            simp only [List.mem_map] at he
            obtain ⟨j, _, rfl⟩ := he
            simp [hm]
          rw [this]
          simp [hm]
    | get a m =>
      refine same s ?_ rfl rfl ?_
      · simp only [step, get]; split
        · rfl
        · split <;> rfl
      · cases h : (step c s (.get a m)).2 <;> rfl
    | recordState a m =>
      refine same (step c s (.recordState a m)).1 rfl ?_ ?_ ?_
      · simp only [step, recordState]; split
        · rfl
        · split
          · rfl
          · rw [record_eq]
      · simp only [step, recordState]; split
        · rfl
        · split
          · rfl
          · rw [record_eq]
      · cases h : (step c s (.recordState a m)).2 <;> rfl
    | addCallback m j =>
      simp only [step, heard]
      rw [ih (addCallback s m j) _ ?_]
      · congr 1
        unfold addCallback; split <;> rfl
      · unfold addCallback
        split
        · rename_i hj
          refine ⟨hon.1, ?_⟩
          by_cases hmj : m = n ∧ j = k
          · obtain ⟨rfl, rfl⟩ := hmj; simp [hj]
          · rw [hon.2]
            by_cases hm : m = n <;> by_cases hjk : j = k <;> simp_all
        · rename_i hj
          simp only [upd]
          by_cases hm : n = m
          · subst hm
            rw [if_pos rfl]
            refine ⟨?_, ?_⟩
            · rw [List.nodup_append]
              refine ⟨hon.1, by simp, ?_⟩
              intro a ha b hb e
              simp at hb; subst hb; subst e; exact hj ha
            · simp only [List.mem_append, List.mem_singleton, hon.2, decide_true, Bool.true_and,
                Bool.or_eq_true, decide_eq_true_eq]
              constructor
              · rintro (h | h)
                · exact Or.inl h
                · exact Or.inr h.symm
              · rintro (h | h)
                · exact Or.inl h
                · exact Or.inr h.symm
          · rw [if_neg hm]
            refine ⟨hon.1, ?_⟩
            have : ¬ m = n := fun e => hm e.symm
            simp [this, hon.2]
    | removeCallback m j =>
      simp only [step, removeCallback]
      split
      · rename_i hj
        simp only [heard]
        rw [ih _ (on && !(decide (m = n) && decide (j = k))) ?_]
        simp only [upd]
        by_cases hm : n = m
        · subst hm
          rw [if_pos rfl]
          refine ⟨hon.1.filter _, ?_⟩
          simp only [List.mem_filter, hon.2, decide_true, Bool.true_and, ne_eq, decide_not,
            Bool.not_eq_true', decide_eq_false_iff_not, Bool.and_eq_true]
          constructor
          · rintro ⟨h, h'⟩; exact ⟨h, fun e => h' e.symm⟩
          · rintro ⟨h, h'⟩; exact ⟨h, fun e => h' e.symm⟩
        · rw [if_neg hm]
          refine ⟨hon.1, ?_⟩
          have : ¬ m = n := fun e => hm e.symm
          simp [this, hon.2]
      · simp only [heard]
        exact ih s on hon
    | attach a =>
      refine same (step c s (.attach a)).1 rfl ?_ ?_ ?_
      · simp only [step]; split <;> rfl
      · simp only [step]; split <;> rfl
      · cases h : (step c s (.attach a)).2 <;> rfl
    | advance dt =>
      refine same (step c s (.advance dt)).1 rfl ?_ ?_ ?_
      · simp only [step]; split <;> rfl
      · simp only [step]; split <;> rfl
      · cases h : (step c s (.advance dt)).2 <;> rfl

/-- **C53 (callbacks).** The calls a callback key of a state receives are exactly the successful assignments of
that state made while the key was registered, each once, in order, with the actor and the new value. -/
theorem c53_callbacks (c : Cfg V) (t0 : Rat) (ops : List (Op V)) (n k : Nat) :
    ((run c (init t0) ops).1.calls.filter (fun e => decide (e.1 = k ∧ e.2.2.1 = n))).map
      (fun e => (e.2.1, e.2.2.2)) = heard n k false (run c (init t0) ops).2 := by
  rw [heard_sound n k ops (init t0) false ⟨by simp [init], by simp [init]⟩]
  simp [init]

/-- **C53 (nucleus).** The change notifications sent for an actor are exactly its successful assignments made
while it had a nucleus, each once, in order, with the state and the new value. -/
theorem c53_notifications (c : Cfg V) (t0 : Rat) (ops : List (Op V)) (a : Nat) :
    ((run c (init t0) ops).1.sent.filter (fun e => decide (e.1 = a))).map (fun e => e.2) =
      notified a false (run c (init t0) ops).2 := by
  have key : ∀ (ops : List (Op V)) (s : St V) (on : Bool), s.listener a = on →
      ((run c s ops).1.sent.filter (fun e => decide (e.1 = a))).map (fun e => e.2) =
      (s.sent.filter (fun e => decide (e.1 = a))).map (fun e => e.2) ++ notified a on (run c s ops).2 := by
    intro ops
    induction ops with
    | nil => intro s on _; simp [run, notified]
    | cons op ops ih =>
      intro s on hon
      simp only [run]
      have same : ∀ s' : St V, (step c s op).1 = s' → s'.listener = s.listener → s'.sent = s.sent →
          notified a on ((s.now, op, (step c s op).2) :: (run c s' ops).2) = notified a on (run c s' ops).2 →
          ((run c (step c s op).1 ops).1.sent.filter (fun e => decide (e.1 = a))).map (fun e => e.2) =
          (s.sent.filter (fun e => decide (e.1 = a))).map (fun e => e.2) ++
            notified a on ((s.now, op, (step c s op).2) :: (run c (step c s op).1 ops).2) := by
        intro s' h1 h2 h3 h4
        rw [h1, h4, ih s' on (by rw [h2]; exact hon), h3]
      cases op with
      | set b m x =>
        rcases set_cases c s b m x with h1 | ⟨s', h1, _, _, _, h3⟩
        · refine same s (by simp only [step]; rw [h1]) rfl rfl ?_
          simp only [step]; rw [h1]; rfl
        · simp only [step]
          rw [h1]
          simp only [notified]
          rw [ih s' on (by rw [h3.listener]; exact hon), h3.sent, List.filter_append, List.map_append,
            List.append_assoc]
          congr 2
          by_cases hb : b = a
          · subst hb
            rw [hon]
            cases on <;> simp
          · cases s.listener b <;> simp [hb]
      | get b m =>
        refine same s ?_ rfl rfl ?_
        · simp only [step, get]; split
          · rfl
          · split <;> rfl
        · cases h : (step c s (.get b m)).2 <;> rfl
      | recordState b m =>
        refine same (step c s (.recordState b m)).1 rfl ?_ ?_ ?_
        · simp only [step, recordState]; split
          · rfl
          · split
            · rfl
            · rw [record_eq]
        · simp only [step, recordState]; split
          · rfl
          · split
            · rfl
            · rw [record_eq]
        · cases h : (step c s (.recordState b m)).2 <;> rfl
      | addCallback m j =>
        refine same (step c s (.addCallback m j)).1 rfl ?_ ?_ ?_
        · simp only [step, addCallback]; split <;> rfl
        · simp only [step, addCallback]; split <;> rfl
        · cases h : (step c s (.addCallback m j)).2 <;> rfl
      | removeCallback m j =>
        refine same (step c s (.removeCallback m j)).1 rfl ?_ ?_ ?_
        · simp only [step, removeCallback]; split <;> rfl
        · simp only [step, removeCallback]; split <;> rfl
        · cases h : (step c s (.removeCallback m j)).2 <;> rfl
      | attach b =>
        simp only [step]
        split
        · simp only [notified]; exact ih s on hon
        · rename_i hb
          simp only [notified]
          rw [ih _ (on || decide (b = a)) ?_]
          simp only [upd]
          by_cases hab : a = b
          · subst hab; simp
          · have : ¬ b = a := fun e => hab e.symm
            simp [hab, this, hon]
      | advance dt =>
        refine same (step c s (.advance dt)).1 rfl ?_ ?_ ?_
        · simp only [step]; split <;> rfl
        · simp only [step]; split <;> rfl
        · cases h : (step c s (.advance dt)).2 <;> rfl
  rw [key ops (init t0) false rfl]
  simp [init]

theorem listener_kept (c : Cfg V) (a : Nat) (ops : List (Op V)) : ∀ s : St V, s.listener a = true → (run c s ops).1.listener a = true := by
  induction ops with
  | nil => intro s h; exact h
  | cons op ops ih =>
    intro s h
    refine ih _ ?_
    cases op with
    | set b m x =>
      rcases set_cases c s b m x with h1 | ⟨s', h1, _, _, _, h3⟩
      · simp only [step]; rw [h1]; exact h
      · simp only [step]; rw [h1]; show s'.listener a = true; rw [h3.listener]; exact h
    | get b m =>
      simp only [step, get]; split
      · exact h
      · split <;> exact h
    | recordState b m =>
      simp only [step, recordState]; split
      · exact h
      · split
        · exact h
        · rw [record_eq]; exact h
    | addCallback m j => simp only [step, addCallback]; split <;> exact h
    | removeCallback m j => simp only [step, removeCallback]; split <;> exact h
    | attach b =>
      simp only [step]; split
      · exact h
      · simp only [upd]; split
        · rfl
        · exact h
    | advance dt => simp only [step]; split <;> exact h

/-- **C53 (one nucleus).** Once an actor has a nucleus, attaching another one is refused, whatever happens in between, and changes nothing; before, it
is not. -/
theorem c53_one_nucleus (c : Cfg V) (t0 : Rat) (ops more : List (Op V)) (a : Nat)
    (h : (step c (run c (init t0) ops).1 (.attach a)).2 = .ok) :
    let s := (run c (step c (run c (init t0) ops).1 (.attach a)).1 more).1
    step c s (.attach a) = (s, .raised) := by
  intro s
  have hl : s.listener a = true := by
    refine listener_kept c a more _ ?_
    simp only [step] at h ⊢
    split at h
    · cases h
    · simp [upd, *]
  simp only [step]
  rw [if_pos hl]

theorem c53_attached (c : Cfg V) (t0 : Rat) (ops : List (Op V)) (a : Nat) (h : Op.attach a ∉ ops) :
    (step c (run c (init t0) ops).1 (.attach a)).2 = .ok := by
  have key : ∀ (ops : List (Op V)), Op.attach a ∉ ops → ∀ s : St V, s.listener a = false → (run c s ops).1.listener a = false := by
    intro ops
    induction ops with
    | nil => intro _ s h; exact h
    | cons op ops ih =>
      intro hn s h
      have hop : op ≠ Op.attach a := fun e => hn (by rw [e]; exact List.mem_cons_self ..)
      refine ih (fun hm => hn (List.mem_cons_of_mem _ hm)) _ ?_
      cases op with
      | set b m x =>
        rcases set_cases c s b m x with h1 | ⟨s', h1, _, _, _, h3⟩
        · simp only [step]; rw [h1]; exact h
        · simp only [step]; rw [h1]; show s'.listener a = false; rw [h3.listener]; exact h
      | get b m =>
        simp only [step, get]; split
        · exact h
        · split <;> exact h
      | recordState b m =>
        simp only [step, recordState]; split
        · exact h
        · split
          · exact h
          · rw [record_eq]; exact h
      | addCallback m j => simp only [step, addCallback]; split <;> exact h
      | removeCallback m j => simp only [step, removeCallback]; split <;> exact h
      | attach b =>
        simp only [step]; split
        · exact h
        · simp only [upd]; rw [if_neg (fun e => hop (by rw [e]))]; exact h
      | advance dt => simp only [step]; split <;> exact h
  simp only [step]
  rw [if_neg (by rw [key ops h _ rfl]; decide)]

example : (run demo (init 0) ([.attach 3, .set 3 0 1, .attach 3, .attach 2] : List (Op Int))).2.map (fun e => e.2.2) = [.ok, .ok, .raised, .ok] := by decide +kernel

example : heard 0 5 false (run demo (init 0) ([.set 0 0 1, .addCallback 0 5, .set 0 0 2, .set 3 0 (-1),
    .set 3 0 4, .removeCallback 0 5, .set 0 0 9] : List (Op Int))).2 = [(0, 2), (3, 4)] ∧
  notified 3 false (run demo (init 0) ([.set 3 0 1, .attach 3, .set 0 0 2, .set 3 0 (-1),
    .set 3 1 4] : List (Op Int))).2 = [(1, 4)] := by decide +kernel

end Verif.Rec
