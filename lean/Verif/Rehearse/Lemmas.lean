import Verif.Rehearse.Spec
import Verif.Clone.Equal
import Mathlib.Tactic.Linarith
import Mathlib.Tactic.Ring

/-! # Lemmas about rehearsals -/

namespace Verif.Rehearse

open Verif.Clone (World AOp Out New step Start stateView knowView queueView inPlace)

/-! ## Durations -/

theorem foldMin (ts : List Rat) : ∀ t : Rat,
    ts.foldl (fun a b => if b < a then b else a) t ∈ t :: ts ∧
    ∀ u ∈ t :: ts, ts.foldl (fun a b => if b < a then b else a) t ≤ u := by
  induction ts with
  | nil => intro t; simp
  | cons x ts ih =>
    intro t
    simp only [List.foldl_cons]
    obtain ⟨h1, h2⟩ := ih (if x < t then x else t)
    constructor
    · rcases List.mem_cons.mp h1 with h | h
      · rw [h]; split <;> simp
      · simp [h]
    · intro u hu
      have h0 := h2 _ (List.mem_cons_self)
      rcases List.mem_cons.mp hu with rfl | hu
      · refine le_trans h0 ?_
        split
        · rename_i h; exact le_of_lt h
        · exact le_refl _
      · rcases List.mem_cons.mp hu with rfl | hu
        · refine le_trans h0 ?_
          split
          · exact le_refl _
          · rename_i h; exact not_lt.mp h
        · exact h2 u (List.mem_cons_of_mem _ hu)

theorem foldMax (ts : List Rat) : ∀ t : Rat,
    ts.foldl (fun a b => if a < b then b else a) t ∈ t :: ts ∧
    ∀ u ∈ t :: ts, u ≤ ts.foldl (fun a b => if a < b then b else a) t := by
  induction ts with
  | nil => intro t; simp
  | cons x ts ih =>
    intro t
    simp only [List.foldl_cons]
    obtain ⟨h1, h2⟩ := ih (if t < x then x else t)
    constructor
    · rcases List.mem_cons.mp h1 with h | h
      · rw [h]; split <;> simp
      · simp [h]
    · intro u hu
      have h0 := h2 _ (List.mem_cons_self)
      rcases List.mem_cons.mp hu with rfl | hu
      · refine le_trans ?_ h0
        split
        · rename_i h; exact le_of_lt h
        · exact le_refl _
      · rcases List.mem_cons.mp hu with rfl | hu
        · refine le_trans ?_ h0
          split
          · exact le_refl _
          · rename_i h; exact not_lt.mp h
        · exact h2 u (List.mem_cons_of_mem _ hu)

theorem minL_iff (ts : List Rat) (t : Rat) : minL ts = some t ↔ t ∈ ts ∧ ∀ u ∈ ts, t ≤ u := by
  cases ts with
  | nil => simp [minL]
  | cons x r =>
    have h := foldMin r x
    simp only [minL, Option.some.injEq]
    constructor
    · rintro rfl; exact h
    · rintro ⟨h1, h2⟩
      exact le_antisymm (h.2 t h1) (h2 _ h.1)

theorem maxL_iff (ts : List Rat) (t : Rat) : maxL ts = some t ↔ t ∈ ts ∧ ∀ u ∈ ts, u ≤ t := by
  cases ts with
  | nil => simp [maxL]
  | cons x r =>
    have h := foldMax r x
    simp only [maxL, Option.some.injEq]
    constructor
    · rintro rfl; exact h
    · rintro ⟨h1, h2⟩
      exact le_antisymm (h2 _ h.1) (h.2 t h1)

mutual
theorem dur_of_calc : ∀ (e : Ev) (t : Rat), startOk e = true → calcT e = some t → Dur e t
  | .leaf t v, u, _, h => by
    simp only [calcT, Option.some.injEq] at h
    subst h
    exact .leaf t v
  | .any ms, u, hs, h => by
    simp only [calcT, Option.bind_eq_some_iff] at h
    obtain ⟨ts, h1, h2⟩ := h
    simp only [startOk] at hs
    obtain ⟨h3, h4⟩ := (minL_iff ts u).mp h2
    exact .any ms ts u (durL_of_calc ms ts hs h1) h3 h4
  | .all ms, u, hs, h => by
    simp only [calcT, Option.bind_eq_some_iff] at h
    obtain ⟨ts, h1, h2⟩ := h
    simp only [startOk] at hs
    obtain ⟨h3, h4⟩ := (maxL_iff ts u).mp h2
    exact .all ms ts u (durL_of_calc ms ts hs h1) h3 h4
  | .proc, _, hs, _ => by simp [startOk] at hs
theorem durL_of_calc : ∀ (ms : List Ev) (ts : List Rat), startOkL ms = true → calcL ms = some ts → List.Forall₂ Dur ms ts
  | [], ts, _, h => by
    simp only [calcL, Option.some.injEq] at h
    subst h
    exact .nil
  | m :: ms, ts, hs, h => by
    simp only [startOkL, Bool.and_eq_true] at hs
    have hp : isProc m = false := by
      cases m with
      | proc => simp [startOk] at hs
      | _ => rfl
    simp only [calcL, hp, Bool.false_eq_true, if_false, Option.bind_eq_some_iff, Option.map_eq_some_iff] at h
    obtain ⟨t, h1, ts', h2, rfl⟩ := h
    exact .cons (dur_of_calc m t hs.1 h1) (durL_of_calc ms ts' hs.2 h2)
end

mutual
theorem calc_of_dur : ∀ (e : Ev) (t : Rat), Dur e t → startOk e = true ∧ calcT e = some t
  | .leaf t v, u, h => by
    cases h
    simp [startOk, calcT]
  | .any ms, u, h => by
    cases h with
    | any _ ts _ h1 h2 h3 =>
      obtain ⟨a, b⟩ := calcL_of_dur ms ts h1
      simp only [startOk, calcT, a, b, Option.bind_some, true_and]
      exact (minL_iff ts u).mpr ⟨h2, h3⟩
  | .all ms, u, h => by
    cases h with
    | all _ ts _ h1 h2 h3 =>
      obtain ⟨a, b⟩ := calcL_of_dur ms ts h1
      simp only [startOk, calcT, a, b, Option.bind_some, true_and]
      exact (maxL_iff ts u).mpr ⟨h2, h3⟩
  | .proc, _, h => by cases h
theorem calcL_of_dur : ∀ (ms : List Ev) (ts : List Rat), List.Forall₂ Dur ms ts → startOkL ms = true ∧ calcL ms = some ts
  | [], ts, h => by
    cases h
    simp [startOkL, calcL]
  | m :: ms, ts, h => by
    cases h with
    | cons h1 h2 =>
      obtain ⟨a, b⟩ := calc_of_dur m _ h1
      obtain ⟨c, d⟩ := calcL_of_dur ms _ h2
      have hp : isProc m = false := by
        cases m with
        | proc => simp [startOk] at a
        | _ => rfl
      simp [startOkL, calcL, a, b, c, d, hp]
end

theorem dur_iff (e : Ev) (t : Rat) : Dur e t ↔ startOk e = true ∧ calcT e = some t :=
  ⟨calc_of_dur e t, fun h => dur_of_calc e t h.1 h.2⟩

theorem rehearseEv_iff (e : Ev) (t : Rat) (v : Option Nat) :
    rehearseEv e = some (t, v) ↔ Dur e t ∧ v = value e := by
  rw [dur_iff]
  unfold rehearseEv
  by_cases h : startOk e = true
  · simp only [h, if_true, Option.map_eq_some_iff, Prod.mk.injEq, true_and]
    constructor
    · rintro ⟨a, h1, rfl, rfl⟩; exact ⟨h1, rfl⟩
    · rintro ⟨h1, rfl⟩; exact ⟨t, h1, rfl, rfl⟩
  · simp [h]

theorem rehearseRoutine_iff (es : List Ev) : ∀ t, rehearseRoutine es = some t ↔
    ∃ ts, List.Forall₂ Dur es ts ∧ t = ts.sum := by
  induction es with
  | nil =>
    intro t
    simp only [rehearseRoutine, Option.some.injEq, List.forall₂_nil_left_iff, exists_eq_left, List.sum_nil]
    exact eq_comm
  | cons e es ih =>
    intro t
    simp only [rehearseRoutine, Option.bind_eq_some_iff, Option.map_eq_some_iff]
    constructor
    · rintro ⟨⟨a, v⟩, h1, b, h2, rfl⟩
      obtain ⟨ts, h3, rfl⟩ := (ih b).mp h2
      exact ⟨a :: ts, .cons ((rehearseEv_iff e a v).mp h1).1 h3, by simp⟩
    · rintro ⟨ts, h, rfl⟩
      cases h with
      | @cons _ a _ l h1 h2 =>
        exact ⟨(a, value e), (rehearseEv_iff e a _).mpr ⟨h1, rfl⟩, l.sum, (ih _).mpr ⟨l, h2, rfl⟩, by simp⟩

theorem rehearseY_iff (y : Yield) (t : Rat) (v : Option Nat) : rehearseY y = some (t, v) ↔ YDur y t v := by
  cases y with
  | ev e =>
    simp only [rehearseY, rehearseEv_iff]
    cases e with
    | leaf a b =>
      constructor
      · rintro ⟨h, rfl⟩; cases h; exact .leaf _ _
      · intro h; cases h; exact ⟨.leaf _ _, rfl⟩
    | any ms =>
      constructor
      · rintro ⟨h, rfl⟩; exact .any _ _ h
      · intro h; cases h with | any _ _ h => exact ⟨h, rfl⟩
    | all ms =>
      constructor
      · rintro ⟨h, rfl⟩; exact .all _ _ h
      · intro h; cases h with | all _ _ h => exact ⟨h, rfl⟩
    | proc =>
      constructor
      · rintro ⟨h, rfl⟩; cases h
      · intro h; cases h
  | routine es =>
    simp only [rehearseY, Option.map_eq_some_iff, rehearseRoutine_iff, Prod.mk.injEq]
    constructor
    · rintro ⟨_, ⟨ts, h, rfl⟩, rfl, rfl⟩; exact .routine es ts h
    · intro h; cases h with | routine _ ts h => exact ⟨_, ⟨ts, h, rfl⟩, rfl, rfl⟩
  | custom a b =>
    simp only [rehearseY, Option.some.injEq, Prod.mk.injEq]
    constructor
    · rintro ⟨rfl, rfl⟩; exact .custom _ _
    · intro h; cases h; exact ⟨rfl, rfl⟩
  | process =>
    simp only [rehearseY]
    constructor
    · simp
    · intro h; cases h
  | other =>
    simp only [rehearseY]
    constructor
    · simp
    · intro h; cases h

/-! ## What the code of a task leaves alone -/

/-- Everything but the actors, the environments made since, and the environments of actors made since. -/
structure Frame (s s' : St) : Prop where
  env : ∀ e, e < s.nextEnv → s'.envNow e = s.envNow e
  next : s.nextEnv ≤ s'.nextEnv
  real : s'.real = s.real
  task : s'.taskEnv = s.taskEnv
  reh : s'.rehearsing = s.rehearsing
  actors : ∀ j, j < s.w.actors.length → s'.actorEnv j = s.actorEnv j
  len : s.w.actors.length ≤ s'.w.actors.length

theorem Frame.refl (s : St) : Frame s s :=
  ⟨fun _ _ => rfl, Nat.le_refl _, rfl, rfl, rfl, fun _ _ => rfl, Nat.le_refl _⟩

theorem Frame.trans {a b c : St} (h : Frame a b) (k : Frame b c) : Frame a c :=
  ⟨fun e he => (k.env e (Nat.lt_of_lt_of_le he h.next)).trans (h.env e he), Nat.le_trans h.next k.next,
    k.real.trans h.real, k.task.trans h.task, k.reh.trans h.reh,
    fun j hj => (k.actors j (Nat.lt_of_lt_of_le hj h.len)).trans (h.actors j hj), Nat.le_trans h.len k.len⟩

theorem step_len (w : World) (i : Nat) (op : AOp) : w.actors.length ≤ (step w i op).1.actors.length ∧
    ∀ k, (step w i op).2 = .made k → k = w.actors.length ∧ ∃ extra, op = .clone extra := by
  have ev : ∀ a x w1 v, Clone.eval w a x = some (w1, v) → w1.actors = w.actors := by
    intro a x w1 v h
    cases x with
    | new x =>
      simp only [Clone.eval, Option.some.injEq] at h
      have := Clone.mk_grow w x
      rw [h] at this
      exact this.actors
    | state m => simp only [Clone.eval, Option.map_eq_some_iff, Prod.mk.injEq] at h; obtain ⟨_, _, rfl, _⟩ := h; rfl
    | know m => simp only [Clone.eval, Option.map_eq_some_iff, Prod.mk.injEq] at h; obtain ⟨_, _, rfl, _⟩ := h; rfl
  unfold step
  split
  · simp
  · rename_i a ha
    cases op with
    | setState n x =>
      simp only [Clone.stepA]
      split
      · simp
      · split
        · simp
        · split
          · simp
          · rename_i he; simp [Clone.setActor, ev _ _ _ _ he]
    | setKnow n x =>
      simp only [Clone.stepA]
      split
      · simp
      · rename_i he; simp [Clone.setActor, ev _ _ _ _ he]
    | clearKnow n => simp only [Clone.stepA]; split <;> simp [Clone.setActor]
    | poke l p c => simp only [Clone.stepA]; split <;> simp
    | addNet n => simp [Clone.stepA, Clone.setActor, Clone.allocL]
    | clearQ n => simp [Clone.stepA, Clone.setActor, Clone.allocL]
    | setQ n ts =>
      simp only [Clone.stepA, Clone.setQ]
      split
      · simp
      · split <;> simp [Clone.setActor, Clone.allocL]
    | appendQ n t => simp only [Clone.stepA]; split <;> simp
    | beginTask n t =>
      simp only [Clone.stepA, Clone.beginTask]
      split
      · simp
      · split
        · split <;> simp
        · simp [Clone.setActor, Clone.allocL]
    | clearTask n =>
      simp only [Clone.stepA, Clone.clearTask]
      split
      · simp
      · split <;> simp
    | clone extra =>
      simp only [Clone.stepA, Clone.clone]
      have gs := Clone.cloneStates_grow a.states w
      split
      · rename_i w1 heq
        rw [heq] at gs
        have : w1.actors = w.actors := gs.actors
        simp [this]
      · rename_i w1 sts heq
        rw [heq] at gs
        have h1 := gs.actors
        dsimp only at h1
        generalize hw2 : Clone.setActor w1 i { a with clones := a.clones + 1 } = w2
        have h2 : w2.actors.length = w.actors.length := by subst hw2; simp [Clone.setActor, h1]
        have g := (Clone.cloneKnow_grow a.know w2).trans
          (Clone.addKnow_grow extra (Clone.cloneKnow w2 a.know).1 (Clone.cloneKnow w2 a.know).2)
        have h3 : (Clone.addKnow (Clone.cloneKnow w2 a.know).1 (Clone.cloneKnow w2 a.know).2 extra).1.actors.length
            = w.actors.length := by rw [g.actors, h2]
        dsimp only
        refine ⟨by simp [h3], ?_⟩
        intro k hk
        simp only [Out.made.injEq] at hk
        exact ⟨by rw [← hk, h3], extra, rfl⟩

theorem stepC_w (s : St) (i : Nat) (op : AOp) : (stepC s i op).w = (step s.w i op).1 := by
  unfold stepC
  split <;> rename_i h <;> rw [h]

theorem stepC_frame (s : St) (i : Nat) (op : AOp) : Frame s (stepC s i op) := by
  obtain ⟨h1, h2⟩ := step_len s.w i op
  unfold stepC
  split
  · rename_i w k heq
    rw [heq] at h1 h2
    obtain ⟨rfl, _⟩ := h2 k rfl
    refine ⟨?_, Nat.le_succ _, rfl, rfl, rfl, ?_, h1⟩
    · intro e he; simp [mock, upd, Nat.ne_of_lt he]
    · intro j hj; simp [upd, Nat.ne_of_lt hj]
  · rename_i w o _ heq
    rw [heq] at h1
    exact ⟨fun _ _ => rfl, Nat.le_refl _, rfl, rfl, rfl, fun _ _ => rfl, h1⟩

theorem runC_frame (ops : List AOp) : ∀ (s : St) (i : Nat), Frame s (runC s i ops) := by
  induction ops with
  | nil => intro s i; exact Frame.refl s
  | cons op r ih => intro s i; exact (stepC_frame s i op).trans (ih _ _)

/-- What can be seen of actor `j`. -/
def SameView (w w' : World) (j : Nat) : Prop :=
  ∀ n d, stateView w' j n d = stateView w j n d ∧ knowView w' j n d = knowView w j n d ∧
    queueView w' j n = queueView w j n

theorem SameView.refl (w : World) (j : Nat) : SameView w w j := fun _ _ => ⟨rfl, rfl, rfl⟩

theorem SameView.trans {a b c : World} {j : Nat} (h : SameView a b j) (k : SameView b c j) : SameView a c j :=
  fun n d => ⟨(k n d).1.trans (h n d).1, (k n d).2.1.trans (h n d).2.1, (k n d).2.2.trans (h n d).2.2⟩

theorem runC_views (ops : List AOp) : ∀ (s : St) (k j : Nat), Start s.w → j ≠ k → j < s.w.actors.length →
    (∀ op ∈ ops, inPlace op = false) → Start (runC s k ops).w ∧ SameView s.w (runC s k ops).w j := by
  induction ops with
  | nil => intro s k j h _ _ _; exact ⟨h, SameView.refl _ _⟩
  | cons op r ih =>
    intro s k j h hjk hj hp
    have hs : Start (stepC s k op).w := by rw [stepC_w]; exact Clone.step_start h k op
    obtain ⟨h1, h2⟩ := ih (stepC s k op) k j hs hjk (Nat.lt_of_lt_of_le hj (stepC_frame s k op).len)
      (fun op hop => hp op (List.mem_cons_of_mem _ hop))
    refine ⟨h1, SameView.trans ?_ h2⟩
    rw [stepC_w]
    intro n d
    obtain ⟨a, b⟩ := Clone.c30_independent_partial s.w h [] j k op hj hjk n d
    exact ⟨a, b, Clone.c30_queues_partial s.w h [] j k op hj hjk (hp op (by simp)) n⟩

theorem runC_start (ops : List AOp) : ∀ (s : St) (k : Nat), Start s.w → Start (runC s k ops).w := by
  induction ops with
  | nil => intro s k h; exact h
  | cons op r ih => intro s k h; exact ih _ _ (by rw [stepC_w]; exact Clone.step_start h k op)

/-- Cloning shows on no actor that existed, not even the one that is cloned. -/
theorem clone_views {w w' : World} {i : Nat} {extra : List (Nat × New)} {o : Out} (hs : Start w)
    (h : step w i (.clone extra) = (w', o)) (j : Nat) (hj : j < w.actors.length) : SameView w w' j := by
  by_cases hji : j = i
  · subst hji
    have ha : w.actors[j]? = some w.actors[j] := List.getElem?_eq_getElem hj
    generalize w.actors[j] = a at ha
    have key : (∀ o, o < w.nextObj → w'.obj o = w.obj o) ∧ w'.lst = w.lst ∧
        ∃ c, w'.actors[j]? = some { a with clones := c } := by
      unfold step at h
      rw [ha] at h
      simp only [Clone.stepA, Clone.clone] at h
      have gs := Clone.cloneStates_grow a.states w
      split at h
      · rename_i w1 heq
        rw [heq] at gs
        cases h
        exact ⟨gs.obj, gs.lst, a.clones, by rw [gs.actors]; exact ha⟩
      · rename_i w1 sts heq
        rw [heq] at gs
        revert h
        generalize hw2 : Clone.setActor w1 j { a with clones := a.clones + 1 } = w2
        intro h
        have g := (Clone.cloneKnow_grow a.know w2).trans
          (Clone.addKnow_grow extra (Clone.cloneKnow w2 a.know).1 (Clone.cloneKnow w2 a.know).2)
        cases h
        have e1 : w2.nextObj = w1.nextObj := by subst hw2; rfl
        have e2 : w2.obj = w1.obj := by subst hw2; rfl
        have e3 : w2.lst = w1.lst := by subst hw2; rfl
        have e4 : w2.actors = w.actors.set j { a with clones := a.clones + 1 } := by
          subst hw2; show w1.actors.set j _ = _; rw [gs.actors]
        refine ⟨fun o ho => ?_, g.lst.trans (e3.trans gs.lst), a.clones + 1, ?_⟩
        · have hlt : o < w1.nextObj := Nat.lt_of_lt_of_le ho gs.next
          exact (g.obj o (by rw [e1]; exact hlt)).trans ((congrFun e2 o).trans (gs.obj o ho))
        · show (_ ++ _)[j]? = _
          rw [List.getElem?_append_left (by rw [g.actors, e4]; simpa using hj), g.actors, e4]
          simp [hj]
    obtain ⟨k1, k2, c, k3⟩ := key
    intro n d
    simp only [stateView, knowView, queueView, k3, ha, Option.bind_some, k2, and_true]
    have hv : ∀ v ∈ Clone.held a, Clone.view w' d v = Clone.view w d v := fun v hv =>
      Clone.view_congr (hs.good ha hv) (fun o ho => k1 o ((hs.good ha hv) o ho).1) d
    constructor
    · cases hg : a.states.get? n with
      | none => rfl
      | some s =>
        simp only [Option.map_some]
        rw [hv s.val (Clone.mem_held.mpr (Or.inl ⟨(n, s), Dict.mem_of_get? hg, rfl⟩))]
    · cases hg : a.know.get? n with
      | none => rfl
      | some v =>
        simp only [Option.map_some]
        rw [hv v (Clone.mem_held.mpr (Or.inr ⟨(n, v), Dict.mem_of_get? hg, rfl⟩))]
  · have e : w' = (step (Clone.run w []) i (.clone extra)).1 := by show w' = (step w i _).1; rw [h]
    intro n d
    obtain ⟨a, b⟩ := Clone.c30_independent_partial w hs [] j i (.clone extra) hj hji n d
    have c := Clone.c30_queues_partial w hs [] j i (.clone extra) hj hji rfl n
    rw [← e] at a b c
    exact ⟨a, b, c⟩

/-! ## The loop -/

/-- The operations in a script change no queue list in place. -/
def Quiet (script : Script) : Prop := ∀ p ∈ script, ∀ op ∈ p.1, inPlace op = false

/-- Everything but the environment `e` and what `Frame` leaves out. -/
structure LFrame (e : Nat) (s s' : St) : Prop where
  env : ∀ e', e' < s.nextEnv → e' ≠ e → s'.envNow e' = s.envNow e'
  next : s.nextEnv ≤ s'.nextEnv
  real : s'.real = s.real
  task : s'.taskEnv = s.taskEnv
  reh : s'.rehearsing = s.rehearsing
  actors : ∀ j, j < s.w.actors.length → s'.actorEnv j = s.actorEnv j
  len : s.w.actors.length ≤ s'.w.actors.length

theorem Frame.toL {e : Nat} {s s' : St} (h : Frame s s') : LFrame e s s' :=
  ⟨fun e' he _ => h.env e' he, h.next, h.real, h.task, h.reh, h.actors, h.len⟩

theorem LFrame.trans {e : Nat} {a b c : St} (h : LFrame e a b) (k : LFrame e b c) : LFrame e a c :=
  ⟨fun e' he hne => (k.env e' (Nat.lt_of_lt_of_le he h.next) hne).trans (h.env e' he hne), Nat.le_trans h.next k.next,
    k.real.trans h.real, k.task.trans h.task, k.reh.trans h.reh,
    fun j hj => (k.actors j (Nat.lt_of_lt_of_le hj h.len)).trans (h.actors j hj), Nat.le_trans h.len k.len⟩

theorem loop_frame (script : Script) : ∀ (s : St) (k e : Nat) (item : Option Nat),
    LFrame e s (loop s k e item script).1 := by
  induction script with
  | nil => intro s k e item; exact (Frame.refl s).toL
  | cons p r ih =>
    intro s k e item
    obtain ⟨ops, act⟩ := p
    have f := (runC_frame ops s k).toL (e := e)
    cases act with
    | ret => exact f
    | raise => exact f
    | yield y =>
      simp only [loop]
      split
      · exact f
      · rename_i t v _
        refine f.trans (LFrame.trans ?_ (ih _ k e v))
        refine ⟨?_, Nat.le_refl _, rfl, rfl, rfl, fun _ _ => rfl, Nat.le_refl _⟩
        intro e' _ hne
        simp [upd, hne]

theorem loop_views (script : Script) : ∀ (s : St) (k e : Nat) (item : Option Nat) (j : Nat), Start s.w → j ≠ k →
    j < s.w.actors.length → Quiet script →
    Start (loop s k e item script).1.w ∧ SameView s.w (loop s k e item script).1.w j := by
  induction script with
  | nil => intro s k e item j h _ _ _; exact ⟨h, SameView.refl _ _⟩
  | cons p r ih =>
    intro s k e item j h hjk hj hq
    obtain ⟨ops, act⟩ := p
    have f := runC_views ops s k j h hjk hj (hq (ops, act) (by simp))
    cases act with
    | ret => exact f
    | raise => exact f
    | yield y =>
      simp only [loop]
      split
      · exact f
      · rename_i t v _
        obtain ⟨h1, h2⟩ := ih { runC s k ops with envNow := upd (runC s k ops).envNow e ((runC s k ops).envNow e + t) }
          k e v j f.1 hjk (Nat.lt_of_lt_of_le hj (runC_frame ops s k).len)
          (fun p hp => hq p (List.mem_cons_of_mem _ hp))
        exact ⟨h1, f.2.trans h2⟩

/-- The clock of the understudy advances by the durations, and the values are sent back. -/
theorem loop_clock (script : Script) : ∀ (s : St) (k e : Nat) (item : Option Nat), e < s.nextEnv →
    (loop s k e item script).2.1 = .finished →
    ∃ tv : List (Rat × Option Nat), List.Forall₂ (fun y p => YDur y p.1 p.2) (yields script) tv ∧
      (loop s k e item script).1.envNow e = s.envNow e + (tv.map (·.1)).sum ∧
      (loop s k e item script).2.2 = item :: tv.map (·.2) := by
  induction script with
  | nil => intro s k e item _ h; simp [loop] at h
  | cons p r ih =>
    intro s k e item he h
    obtain ⟨ops, act⟩ := p
    have f := runC_frame ops s k
    cases act with
    | ret => exact ⟨[], .nil, by simp [loop, f.env e he], by simp [loop]⟩
    | raise => simp [loop] at h
    | yield y =>
      simp only [loop] at h ⊢
      split at h
      · simp at h
      · rename_i t v hy
        obtain ⟨tv, h1, h2, h3⟩ := ih { runC s k ops with envNow := upd (runC s k ops).envNow e ((runC s k ops).envNow e + t) }
          k e v (Nat.lt_of_lt_of_le he f.next) h
        refine ⟨(t, v) :: tv, .cons ((rehearseY_iff y t v).mp hy) h1, ?_, ?_⟩
        · rw [h2]
          simp only [upd, if_true, f.env e he, List.map_cons, List.sum_cons]
          ring
        · rw [h3]; rfl

/-- A rehearsal that reaches the end of the code finishes exactly if everything yielded has a duration. -/
theorem loop_finishes (script : Script) : ∀ (s : St) (k e : Nat) (item : Option Nat),
    (loop s k e item script).2.1 = .finished ↔
      ∃ (pre : Script) (ops : List AOp) (post : Script), script = pre ++ (ops, .ret) :: post ∧
        ∀ p ∈ pre, ∃ y t v, p.2 = .yield y ∧ YDur y t v := by
  induction script with
  | nil =>
    intro s k e item
    simp [loop]
  | cons p r ih =>
    intro s k e item
    obtain ⟨ops, act⟩ := p
    cases act with
    | ret =>
      simp only [loop, true_iff]
      exact ⟨[], ops, r, rfl, by simp⟩
    | raise =>
      simp only [loop, reduceCtorEq, false_iff]
      rintro ⟨pre, ops', post, h1, h2⟩
      cases pre with
      | nil => simp at h1
      | cons q pre =>
        simp only [List.cons_append, List.cons.injEq] at h1
        obtain ⟨y, t, v, h3, _⟩ := h2 q (by simp)
        rw [← h1.1] at h3
        simp at h3
    | yield y =>
      simp only [loop]
      split
      · rename_i hy
        simp only [reduceCtorEq, false_iff]
        rintro ⟨pre, ops', post, h1, h2⟩
        cases pre with
        | nil => simp at h1
        | cons q pre =>
          simp only [List.cons_append, List.cons.injEq] at h1
          obtain ⟨y', t, v, h3, h4⟩ := h2 q (by simp)
          rw [← h1.1] at h3
          simp only [Act.yield.injEq] at h3
          subst h3
          rw [(rehearseY_iff y t v).mpr h4] at hy
          simp at hy
      · rename_i t v hy
        rw [ih]
        constructor
        · rintro ⟨pre, ops', post, rfl, h2⟩
          refine ⟨(ops, .yield y) :: pre, ops', post, rfl, ?_⟩
          intro p hp
          rcases List.mem_cons.mp hp with rfl | hp
          · exact ⟨y, t, v, rfl, (rehearseY_iff y t v).mp hy⟩
          · exact h2 p hp
        · rintro ⟨pre, ops', post, h1, h2⟩
          cases pre with
          | nil => simp at h1
          | cons q pre =>
            simp only [List.cons_append, List.cons.injEq] at h1
            exact ⟨pre, ops', post, h1.2, fun p hp => h2 p (List.mem_cons_of_mem _ hp)⟩

end Verif.Rehearse
