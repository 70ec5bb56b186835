import Verif.Clone.Lemmas

/-!
# C30: clones are independent of their originals

`c30_equal`: what a clone starts with. `c30_independent_partial`: while the objects held by the actors hold only immutable
values, nothing done with one actor changes a state or a piece of knowledge of another. `c30_queues_partial`: nor a task
queue, unless a queue list is changed in place. Both restrictions are needed: `c30_nested_shared`, `c30_queue_shared`.
`c30_clone_of_clone` and `c30_resource_object`: some actors cannot be cloned.
-/

namespace Verif.Clone

/-- Independence of the states and knowledge: actor `j` does anything (including being cloned); what can be seen of actor
`i` is as before. `ops` is any history of all the actors. -/
theorem c30_independent_partial (w0 : World) (hs : Start w0) (ops : List (Nat × AOp)) (i j : Nat) (op : AOp)
    (hi : i < (run w0 ops).actors.length) (hij : i ≠ j) (n d : Nat) :
    stateView (step (run w0 ops) j op).1 i n d = stateView (run w0 ops) i n d ∧
    knowView (step (run w0 ops) j op).1 i n d = knowView (run w0 ops) i n d := by
  have h := run_start hs ops
  generalize run w0 ops = w at h hi
  unfold step
  split
  · exact ⟨rfl, rfl⟩
  · rename_i b hb
    have L := step_leaves h hb op
    have ha : w.actors[i]? = some w.actors[i] := List.getElem?_eq_getElem hi
    have ha' := L.other i hij hi
    have hview : ∀ v ∈ held w.actors[i], view (stepA w j b op).1 d v = view w d v := by
      intro v hv
      refine view_congr (h.good ha hv) ?_ d
      intro o ho
      subst ho
      exact L.obj o (h.flat i _ ha o hv).1 (h.apart i j _ b ha hb hij o hv)
    simp only [stateView, knowView, ha', ha, Option.bind_some]
    constructor
    · cases hg : w.actors[i].states.get? n with
      | none => rfl
      | some s =>
        simp only [Option.map_some]
        rw [hview s.val (mem_held.mpr (Or.inl ⟨(n, s), Dict.mem_of_get? hg, rfl⟩))]
    · cases hg : w.actors[i].know.get? n with
      | none => rfl
      | some v =>
        simp only [Option.map_some]
        rw [hview v (mem_held.mpr (Or.inr ⟨(n, v), Dict.mem_of_get? hg, rfl⟩))]

/-- The lists a step that is not in place leaves alone. -/
theorem step_lists {w : World} (h : Start w) {i : Nat} {a : Actor} (ha : w.actors[i]? = some a) (op : AOp)
    (hp : inPlace op = false) (q : Nat) (hq : q < w.nextLst) : (stepA w i a op).1.lst q = w.lst q := by
  have nl : ∀ c : List Nat, upd w.lst w.nextLst c q = w.lst q := fun c => by simp [upd, Nat.ne_of_lt hq]
  have ev : ∀ x w1 v, eval w a x = some (w1, v) → w1.lst = w.lst :=
    fun x w1 v he => (eval_good h ha he).1.lst
  cases op with
  | setState n x =>
    simp only [stepA]
    split
    · rfl
    · split
      · rfl
      · split
        · rfl
        · rename_i w1 v he
          exact congrFun (ev x w1 v he) q
  | setKnow n x =>
    simp only [stepA]
    split
    · rfl
    · rename_i w1 v he
      exact congrFun (ev x w1 v he) q
  | clearKnow n => simp only [stepA]; split <;> rfl
  | poke l p c => simp only [stepA]; split <;> rfl
  | addNet n => exact nl []
  | clearQ n => exact nl []
  | setQ n ts =>
    simp only [stepA, setQ]
    split
    · rfl
    · split
      · rfl
      · exact nl ts
  | appendQ n t => simp [inPlace] at hp
  | beginTask n t => simp [inPlace] at hp
  | clearTask n => simp [inPlace] at hp
  | clone extra =>
    simp only [stepA, clone]
    have gs := cloneStates_grow a.states w
    split
    · rename_i w1 heq
      rw [heq] at gs
      exact congrFun gs.lst q
    · rename_i w1 sts heq
      rw [heq] at gs
      generalize hw2 : setActor w1 i { a with clones := a.clones + 1 } = w2
      have g := (cloneKnow_grow a.know w2).trans (addKnow_grow extra (cloneKnow w2 a.know).1 (cloneKnow w2 a.know).2)
      have e : w2.lst = w1.lst := by subst hw2; rfl
      exact (congrFun g.lst q).trans ((congrFun e q).trans (congrFun gs.lst q))

/-- Independence of the task queues, for operations that put new lists in place. -/
theorem c30_queues_partial (w0 : World) (hs : Start w0) (ops : List (Nat × AOp)) (i j : Nat) (op : AOp)
    (hi : i < (run w0 ops).actors.length) (hij : i ≠ j) (hp : inPlace op = false) (n : Nat) :
    queueView (step (run w0 ops) j op).1 i n = queueView (run w0 ops) i n := by
  have h := run_start hs ops
  generalize run w0 ops = w at h hi
  unfold step
  split
  · rfl
  · rename_i b hb
    have L := step_leaves h hb op
    have ha : w.actors[i]? = some w.actors[i] := List.getElem?_eq_getElem hi
    have ha' := L.other i hij hi
    simp only [queueView, ha', ha, Option.bind_some]
    cases hg : w.actors[i].queues.get? n with
    | none => rfl
    | some q =>
      simp only [Option.map_some]
      rw [step_lists h hb op hp q (h.lists i _ ha q (List.mem_map.mpr ⟨(n, q), Dict.mem_of_get? hg, rfl⟩))]

/-- Two actors that hold different lists for a network do not disturb each other's queue even in place, and an actor that
replaces its list holds a list of its own: after `clear_task_queue`, `add_task_network` or a successful `set_task_queue` by
`j` no in-place operation of `j` on that network changes the queue of `i`. -/
theorem c30_queue_own_list (w0 : World) (hs : Start w0) (ops : List (Nat × AOp)) (i j n : Nat) (op op2 : AOp)
    (hi : i < (run w0 ops).actors.length) (hij : i ≠ j)
    (hop : op = .clearQ n ∨ op = .addNet n ∨ ∃ ts, op = .setQ n ts)
    (hok : (step (run w0 ops) j op).2 = .done)
    (hop2 : (∃ t, op2 = .appendQ n t) ∨ (∃ t, op2 = .beginTask n t) ∨ op2 = .clearTask n) (m : Nat) :
    queueView (step (step (run w0 ops) j op).1 j op2).1 i m = queueView (run w0 ops) i m := by
  have h := run_start hs ops
  generalize run w0 ops = w at h hi hok
  cases hb : w.actors[j]? with
  | none => simp [step, hb] at hok
  | some b =>
    have ha : w.actors[i]? = some w.actors[i] := List.getElem?_eq_getElem hi
    have hj : j < w.actors.length := (List.getElem?_eq_some_iff.mp hb).1
    obtain ⟨c, hc⟩ : ∃ c, (step w j op).1 =
        setActor (allocL w c).1 j { b with queues := b.queues.set n w.nextLst } := by
      rcases hop with rfl | rfl | ⟨ts, rfl⟩
      · exact ⟨[], by simp [step, hb, stepA]⟩
      · exact ⟨[], by simp [step, hb, stepA]⟩
      · refine ⟨ts, ?_⟩
        simp only [step, hb, stepA, setQ] at hok ⊢
        split at hok
        · simp at hok
        · split at hok
          · simp at hok
          · rename_i hq hne
            rw [if_neg hne]
    rw [hc]
    have hb1 : (setActor (allocL w c).1 j { b with queues := b.queues.set n w.nextLst }).actors[j]?
        = some { b with queues := b.queues.set n w.nextLst } := by simp [setActor, allocL, hj]
    have ha1 : (setActor (allocL w c).1 j { b with queues := b.queues.set n w.nextLst }).actors[i]?
        = some w.actors[i] := by
      simp only [setActor, allocL]
      rw [List.getElem?_set_ne (Ne.symm hij), ha]
    have old : ∀ q, w.actors[i].queues.get? m = some q → q < w.nextLst := fun q hg =>
      h.lists i _ ha q (List.mem_map.mpr ⟨(m, q), Dict.mem_of_get? hg, rfl⟩)
    have fin : ∀ w' : World, w'.actors[i]? = some w.actors[i] → (∀ q, q < w.nextLst → w'.lst q = w.lst q) →
        queueView w' i m = queueView w i m := by
      intro w' h1 h2
      simp only [queueView, h1, ha, Option.bind_some]
      cases hg : w.actors[i].queues.get? m with
      | none => rfl
      | some q => simp only [Option.map_some]; rw [h2 q (old q hg)]
    have u1 : ∀ c q, q < w.nextLst → upd w.lst w.nextLst c q = w.lst q := fun c q hq => by
      simp [upd, Nat.ne_of_lt hq]
    have u2 : ∀ c' q, q < w.nextLst → upd (upd w.lst w.nextLst c) w.nextLst c' q = w.lst q := fun c' q hq => by
      simp [upd, Nat.ne_of_lt hq]
    have u3 : ∀ c' c'' q, q < w.nextLst →
        upd (upd (upd w.lst w.nextLst c) (w.nextLst + 1) c') (w.nextLst + 1) c'' q = w.lst q := fun c' c'' q hq => by
      simp [upd, Nat.ne_of_lt hq, Nat.ne_of_lt (Nat.lt_succ_of_lt hq)]
    unfold step
    rw [hb1]
    rcases hop2 with ⟨t, rfl⟩ | ⟨t, rfl⟩ | rfl
    · simp only [stepA, Dict.get?_set_self]
      exact fin _ ha1 (u2 _)
    · simp only [stepA, beginTask, Dict.get?_set_self]
      split
      · split
        · exact fin _ ha1 (u1 c)
        · exact fin _ ha1 (u2 _)
      · refine fin _ ?_ (u3 _ _)
        simp only [setActor, allocL]
        rw [List.getElem?_set_ne (Ne.symm hij), List.getElem?_set_ne (Ne.symm hij), ha]
    · simp only [stepA, clearTask, Dict.get?_set_self]
      split
      · exact fin _ ha1 (u1 c)
      · exact fin _ ha1 (u2 _)

end Verif.Clone
