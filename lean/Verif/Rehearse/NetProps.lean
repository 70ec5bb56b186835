import Verif.Rehearse.Props
import Mathlib.Data.List.Chain

/-!
# C29: rehearsing a path through a network

`c29_ordered`, `c29_finished`, `c29_infeasible`: which tasks are rehearsed. `c29_clock`: the time. `c29_isolated_partial`: the
original and the network's position. Where the code does not keep the property: with an end task, the tasks taken from the
queue are taken from the original too (`c29_end_task_empties_queue`); after a failure the network stays at the task that
failed (`c29_failure_moves_network`); an empty list with an end task fails (`c29_empty_list_fails`).
-/

namespace Verif.Rehearse

open Verif.Clone (World AOp Out New step Start stateView knowView queueView inPlace)

/-- The network allows `y` directly after `x`. -/
def Allowed (net : Net) (x y : Nat) : Prop := ∃ l, net.links.get? x = some l ∧ y ∈ l.2

theorem feasible_iff (net : Net) (x y : Nat) : feasible net x y = some true ↔ Allowed net x y := by
  unfold feasible Allowed
  cases net.links.get? x <;> simp

theorem netLoop_list (net : Net) (k : Nat) (scripts : List Script) : ∀ (n : NSt) (todo : List Nat) (curr : Option Nat),
    (netLoop net n k todo none curr scripts).2.2 <+: todo ∧
    (netLoop net n k todo none curr scripts).2.2.IsChain (Allowed net) ∧
    ((netLoop net n k todo none curr scripts).2.1 = .finished → (netLoop net n k todo none curr scripts).2.2 = todo) := by
  induction scripts with
  | nil =>
    intro n todo curr
    cases todo with
    | nil => simp [netLoop, pick]
    | cons t r => simp [netLoop, pick]
  | cons sc more ih =>
    intro n todo curr
    cases todo with
    | nil => simp [netLoop, pick]
    | cons t r =>
      simp only [netLoop, pick, reduceCtorEq, if_false]
      split
      · simp
      · split
        · rename_i n1 hd
          split
          · rename_i t' u rest heq
            simp only [List.cons.injEq] at heq
            obtain ⟨rfl, rfl⟩ := heq
            split
            · rename_i hf
              obtain ⟨h1, h2, h3⟩ := ih n1 (u :: rest) (some t)
              dsimp only
              generalize (netLoop net n1 k (u :: rest) none (some t) more) = q at h1 h2 h3
              refine ⟨?_, ?_, fun h => by rw [h3 h]⟩
              · exact List.cons_prefix_cons.mpr ⟨rfl, h1⟩
              · cases hq : q.2.2 with
                | nil => exact List.isChain_singleton t
                | cons v vs =>
                  rw [hq] at h1 h2
                  obtain ⟨rfl, _⟩ := List.cons_prefix_cons.mp h1
                  exact List.isChain_cons_cons.mpr ⟨(feasible_iff net t v).mp hf, h2⟩
            · refine ⟨?_, List.isChain_singleton t, by simp⟩
              exact List.cons_prefix_cons.mpr ⟨rfl, List.nil_prefix⟩
          · rename_i hne
            have hr : r = [] := by
              cases r with
              | nil => rfl
              | cons u rest => exact absurd rfl (hne t u rest)
            subst hr
            obtain ⟨h1, h2, h3⟩ := ih n1 [] (some t)
            dsimp only
            have h0 := List.prefix_nil.mp h1
            rw [h0]
            exact ⟨List.prefix_refl _, List.isChain_singleton t, fun _ => rfl⟩
        · refine ⟨?_, List.isChain_singleton t, ?_⟩
          · exact List.cons_prefix_cons.mpr ⟨rfl, List.nil_prefix⟩
          · rename_i x _
            intro h
            dsimp only at h
            subst h
            rename_i hx _
            exact absurd rfl (by assumption)

/-- **C29 (order).** Without an end task: the tasks rehearsed are the first ones of the list, in order, and each was allowed
after the one before. -/
theorem c29_ordered (net : Net) (n : NSt) (i : Nat) (list : List Nat) (extra : List (Nat × New)) (scripts : List Script) :
    (rehearseNet net n i list extra none scripts).tasks <+: list ∧
    (rehearseNet net n i list extra none scripts).tasks.IsChain (Allowed net) := by
  unfold rehearseNet
  split
  · rename_i w k _
    dsimp only
    generalize hn : ({ n with s := _ } : NSt) = n0
    obtain ⟨h1, h2, _⟩ := netLoop_list net k scripts n0 list none
    split <;> exact ⟨h1, h2⟩
  · exact ⟨List.nil_prefix, List.isChain_nil⟩

/-- **C29 (all of it).** A rehearsal without an end task that succeeds has rehearsed exactly the list, every consecutive
pair of it is allowed, and the network is at the task where it was. -/
theorem c29_finished (net : Net) (n : NSt) (i : Nat) (list : List Nat) (extra : List (Nat × New)) (scripts : List Script)
    (h : (rehearseNet net n i list extra none scripts).res = .finished) :
    (rehearseNet net n i list extra none scripts).tasks = list ∧ list.IsChain (Allowed net) ∧
    (rehearseNet net n i list extra none scripts).n.cur = n.cur ∧
    (rehearseNet net n i list extra none scripts).understudy = some n.s.w.actors.length := by
  unfold rehearseNet at h ⊢
  split at h
  · rename_i w k heq
    dsimp only at h ⊢
    revert h
    generalize hn : ({ n with s := _ } : NSt) = n0
    intro h
    obtain ⟨h1, h2, h3⟩ := netLoop_list net k scripts n0 list none
    have fin : (netLoop net n0 k list none none scripts).2.1 = .finished := by
      revert h; cases (netLoop net n0 k list none none scripts).2.1 <;> simp
    have e := h3 fin
    simp only [fin]
    rw [e] at h2
    exact ⟨e, h2, trivial, by rw [(made_len heq).1]⟩
  · simp at h

/-- **C29 (infeasible).** If the list has `y` directly after `x` and the network does not allow it, the rehearsal does not
succeed, and `y` at that place is not rehearsed. -/
theorem c29_infeasible (net : Net) (n : NSt) (i : Nat) (a b : List Nat) (x y : Nat) (hxy : ¬ Allowed net x y)
    (extra : List (Nat × New)) (scripts : List Script) :
    (rehearseNet net n i (a ++ x :: y :: b) extra none scripts).res ≠ .finished ∧
    (rehearseNet net n i (a ++ x :: y :: b) extra none scripts).tasks.length ≤ a.length + 1 := by
  have key : ∀ l : List Nat, l <+: a ++ x :: y :: b → l.IsChain (Allowed net) → l.length ≤ a.length + 1 := by
    intro l hp hc
    by_contra hl
    have hl : (a ++ [x, y]).length ≤ l.length := by simp at hl ⊢; omega
    have hp2 : a ++ [x, y] <+: a ++ x :: y :: b := ⟨b, by simp⟩
    have hp3 : a ++ [x, y] <+: l := List.prefix_of_prefix_length_le hp2 hp hl
    have hc2 := hc.prefix hp3
    rw [List.isChain_append] at hc2
    exact hxy (List.isChain_cons_cons.mp hc2.2.1).1
  obtain ⟨h1, h2⟩ := c29_ordered net n i (a ++ x :: y :: b) extra scripts
  refine ⟨?_, key _ h1 h2⟩
  intro h
  obtain ⟨h3, h4, _⟩ := c29_finished net n i _ extra scripts h
  have := key _ (List.prefix_refl _) h4
  simp at this

/-! ## Isolation -/

theorem doTask_frame (n : NSt) (k t : Nat) (script : Script) (e : Nat) (he : n.s.actorEnv k = some e) :
    (doTask n k t script).1.s.real = n.s.real ∧ n.s.nextEnv ≤ (doTask n k t script).1.s.nextEnv ∧
    n.s.w.actors.length ≤ (doTask n k t script).1.s.w.actors.length ∧
    (∀ j, j < n.s.w.actors.length → (doTask n k t script).1.s.actorEnv j = n.s.actorEnv j) ∧
    (∀ e', e' < n.s.nextEnv → e' ≠ e → (doTask n k t script).1.s.envNow e' = n.s.envNow e') := by
  simp only [doTask, rehearse, if_true, he, perform]
  have fr := loop_frame script ({ n.s with taskEnv := some e, rehearsing := true }) k e none
  cases (loop ({ n.s with taskEnv := some e, rehearsing := true } : St) k e none script).2.1 <;>
    exact ⟨fr.real, fr.next, fr.len, fr.actors, fr.env⟩

theorem doTask_views (n : NSt) (k t : Nat) (script : Script) (e : Nat) (he : n.s.actorEnv k = some e) (j : Nat)
    (hs : Start n.s.w) (hjk : j ≠ k) (hj : j < n.s.w.actors.length) (hq : Quiet script) :
    Start (doTask n k t script).1.s.w ∧ SameView n.s.w (doTask n k t script).1.s.w j := by
  simp only [doTask, rehearse, if_true, he, perform]
  have fr := loop_views script ({ n.s with taskEnv := some e, rehearsing := true }) k e none j hs hjk hj hq
  cases (loop ({ n.s with taskEnv := some e, rehearsing := true } : St) k e none script).2.1 <;> exact fr

theorem doTask_clock (n : NSt) (k t : Nat) (script : Script) (e : Nat) (he : n.s.actorEnv k = some e)
    (hlt : e < n.s.nextEnv) (h : (doTask n k t script).2 = .finished) :
    ∃ tv : List (Rat × Option Nat), List.Forall₂ (fun y p => YDur y p.1 p.2) (yields script) tv ∧
      (doTask n k t script).1.s.envNow e = n.s.envNow e + (tv.map (·.1)).sum := by
  simp only [doTask, rehearse, if_true, he, perform] at h ⊢
  have fin : (loop ({ n.s with taskEnv := some e, rehearsing := true } : St) k e none script).2.1 = .finished := by
    revert h
    cases (loop ({ n.s with taskEnv := some e, rehearsing := true } : St) k e none script).2.1 <;> simp
  obtain ⟨tv, h1, h2, _⟩ := loop_clock script ({ n.s with taskEnv := some e, rehearsing := true }) k e none hlt fin
  simp only [fin]
  exact ⟨tv, h1, h2⟩

theorem netLoop_views (net : Net) (k j : Nat) (hjk : j ≠ k) (scripts : List Script) :
    ∀ (n : NSt) (todo : List Nat) (curr : Option Nat) (e : Nat),
    n.s.actorEnv k = some e → e < n.s.nextEnv → k < n.s.w.actors.length → j < n.s.w.actors.length → Start n.s.w →
    (∀ sc ∈ scripts, Quiet sc) →
    SameView n.s.w (netLoop net n k todo none curr scripts).1.s.w j ∧
    (netLoop net n k todo none curr scripts).1.s.real = n.s.real ∧
    (netLoop net n k todo none curr scripts).1.s.actorEnv j = n.s.actorEnv j ∧
    ∀ e', e' < n.s.nextEnv → e' ≠ e → (netLoop net n k todo none curr scripts).1.s.envNow e' = n.s.envNow e' := by
  induction scripts with
  | nil =>
    intro n todo curr e _ _ _ _ _ _
    cases todo <;> simp [netLoop, pick] <;> exact SameView.refl _ _
  | cons sc more ih =>
    intro n todo curr e he hlt hk hj hs hq
    have same : SameView n.s.w n.s.w j ∧ n.s.real = n.s.real ∧ n.s.actorEnv j = n.s.actorEnv j ∧
        ∀ e', e' < n.s.nextEnv → e' ≠ e → n.s.envNow e' = n.s.envNow e' :=
      ⟨SameView.refl _ _, rfl, rfl, fun _ _ _ => rfl⟩
    cases todo with
    | nil => simpa [netLoop, pick] using same
    | cons t r =>
      have df := doTask_frame n k t sc e he
      have dv := doTask_views n k t sc e he j hs hjk hj (hq sc (by simp))
      have rec_ : ∀ todo' curr', SameView n.s.w (netLoop net (doTask n k t sc).1 k todo' none curr' more).1.s.w j ∧
          (netLoop net (doTask n k t sc).1 k todo' none curr' more).1.s.real = n.s.real ∧
          (netLoop net (doTask n k t sc).1 k todo' none curr' more).1.s.actorEnv j = n.s.actorEnv j ∧
          ∀ e', e' < n.s.nextEnv → e' ≠ e →
            (netLoop net (doTask n k t sc).1 k todo' none curr' more).1.s.envNow e' = n.s.envNow e' := by
        intro todo' curr'
        obtain ⟨a, b, c, d⟩ := ih (doTask n k t sc).1 todo' curr' e (by rw [df.2.2.2.1 k hk]; exact he)
          (Nat.lt_of_lt_of_le hlt df.2.1) (Nat.lt_of_lt_of_le hk df.2.2.1) (Nat.lt_of_lt_of_le hj df.2.2.1) dv.1
          (fun sc h => hq sc (List.mem_cons_of_mem _ h))
        refine ⟨dv.2.trans a, b.trans df.1, c.trans (df.2.2.2.1 j hj), ?_⟩
        intro e' he' hne
        exact (d e' (Nat.lt_of_lt_of_le he' df.2.1) hne).trans (df.2.2.2.2 e' he' hne)
      have one : SameView n.s.w (doTask n k t sc).1.s.w j ∧ (doTask n k t sc).1.s.real = n.s.real ∧
          (doTask n k t sc).1.s.actorEnv j = n.s.actorEnv j ∧
          ∀ e', e' < n.s.nextEnv → e' ≠ e → (doTask n k t sc).1.s.envNow e' = n.s.envNow e' :=
        ⟨dv.2, df.1, df.2.2.2.1 j hj, df.2.2.2.2⟩
      simp only [netLoop, pick, reduceCtorEq, if_false]
      split
      · exact same
      · rcases hd : doTask n k t sc with ⟨n1, x⟩
        rw [hd] at rec_ one
        cases x with
        | finished =>
          dsimp only
          split
          · split
            · exact rec_ _ _
            · exact one
          · exact rec_ _ _
        | raised => exact one
        | going => exact one

/-- **C29 (isolation), the part that holds.** Without an end task, and for code that does not change queue lists in place:
every actor that existed looks as before, keeps its environment, and neither the real clock nor any other mock clock has
moved; this however the rehearsal ends. -/
theorem c29_isolated_partial (net : Net) (n : NSt) (i : Nat) (list : List Nat) (extra : List (Nat × New))
    (scripts : List Script) (hs : Start n.s.w) (hq : ∀ sc ∈ scripts, Quiet sc) (j : Nat) (hj : j < n.s.w.actors.length) :
    SameView n.s.w (rehearseNet net n i list extra none scripts).n.s.w j ∧
    (rehearseNet net n i list extra none scripts).n.s.real = n.s.real ∧
    (rehearseNet net n i list extra none scripts).n.s.actorEnv j = n.s.actorEnv j ∧
    ∀ e, e < n.s.nextEnv → (rehearseNet net n i list extra none scripts).n.s.envNow e = n.s.envNow e := by
  unfold rehearseNet
  split
  · rename_i w k heq
    have hv := clone_views hs heq j hj
    obtain ⟨hk, hlt⟩ := made_len heq
    have hsw : Start w := by
      have := Clone.step_start hs i (.clone extra)
      rw [heq] at this
      exact this
    dsimp only
    generalize hn : ({ n with s := { mock n.s (n.s.actorEnv i) with w := w, actorEnv := upd n.s.actorEnv k (some n.s.nextEnv) } } : NSt) = n0
    have e1 : n0.s.actorEnv k = some n.s.nextEnv := by subst hn; simp [upd]
    have e2 : n0.s.nextEnv = n.s.nextEnv + 1 := by subst hn; rfl
    have e3 : n0.s.w = w := by subst hn; rfl
    have e4 : n0.s.real = n.s.real := by subst hn; rfl
    have e5 : n0.s.actorEnv j = n.s.actorEnv j := by
      have : j ≠ k := by omega
      subst hn; simp [upd, this]
    have e6 : ∀ e, e < n.s.nextEnv → n0.s.envNow e = n.s.envNow e := by
      intro e he; subst hn; simp [mock, upd, Nat.ne_of_lt he]
    obtain ⟨a, b, c, d⟩ := netLoop_views net k j (by omega) scripts n0 list none n.s.nextEnv e1 (by omega)
      (by rw [e3]; exact hlt) (by rw [e3]; omega) (by rw [e3]; exact hsw) hq
    rw [e3] at a
    have goal : SameView n.s.w (netLoop net n0 k list none none scripts).1.s.w j ∧
        (netLoop net n0 k list none none scripts).1.s.real = n.s.real ∧
        (netLoop net n0 k list none none scripts).1.s.actorEnv j = n.s.actorEnv j ∧
        ∀ e, e < n.s.nextEnv → (netLoop net n0 k list none none scripts).1.s.envNow e = n.s.envNow e := by
      refine ⟨hv.trans a, b.trans e4, c.trans e5, ?_⟩
      intro e he
      rw [d e (by omega) (Nat.ne_of_lt he), e6 e he]
    cases (netLoop net n0 k list none none scripts).2.1 <;> exact goal
  · rename_i w o _ heq
    exact ⟨clone_views hs heq j hj, rfl, rfl, fun _ _ => rfl⟩

/-! ## Time -/

/-- `d` is the time a task with this script takes. -/
def Takes (script : Script) (d : Rat) : Prop :=
  ∃ tv : List (Rat × Option Nat), List.Forall₂ (fun y p => YDur y p.1 p.2) (yields script) tv ∧ d = (tv.map (·.1)).sum

theorem nextName_frame {net : Net} {s s' : St} {k c t : Nat} (h : nextName net s k c = some (s', t)) : Frame s s' := by
  unfold nextName at h
  split at h
  · simp at h
  · split at h
    · simp at h
    · split at h
      · cases h; exact stepC_frame _ _ _
      · simp only [Option.map_eq_some_iff, Prod.mk.injEq] at h
        obtain ⟨_, _, rfl, _⟩ := h
        exact Frame.refl _

theorem pick_frame {net : Net} {s s' : St} {k t : Nat} {todo : List Nat} {endTask curr : Option Nat}
    (h : pick net s k todo endTask curr = .task s' t) : Frame s s' := by
  unfold pick at h
  split at h
  · split at h
    · simp at h
    · cases h; exact Frame.refl _
  · split at h
    · simp at h
    · split at h
      · simp at h
      · split at h
        · simp at h
        · rename_i hn
          split at h
          · simp at h
          · cases h; exact nextName_frame hn

theorem pick_stop_frame {net : Net} {s s' : St} {k : Nat} {todo : List Nat} {endTask curr : Option Nat}
    (h : pick net s k todo endTask curr = .stop s') : Frame s s' := by
  unfold pick at h
  split at h
  · split at h
    · cases h; exact Frame.refl _
    · simp at h
  · split at h
    · cases h; exact Frame.refl _
    · split at h
      · simp at h
      · split at h
        · simp at h
        · rename_i hn
          split at h
          · cases h; exact nextName_frame hn
          · simp at h

theorem netLoop_clock (net : Net) (k : Nat) (endTask : Option Nat) (scripts : List Script) :
    ∀ (n : NSt) (todo : List Nat) (curr : Option Nat) (e : Nat),
    n.s.actorEnv k = some e → e < n.s.nextEnv → k < n.s.w.actors.length →
    (netLoop net n k todo endTask curr scripts).2.1 = .finished →
    ∃ ds : List Rat, List.Forall₂ Takes (scripts.take (netLoop net n k todo endTask curr scripts).2.2.length) ds ∧
      (netLoop net n k todo endTask curr scripts).1.s.envNow e = n.s.envNow e + ds.sum ∧
      (netLoop net n k todo endTask curr scripts).1.s.actorEnv k = some e := by
  induction scripts with
  | nil =>
    intro n todo curr e he hlt hk h
    unfold netLoop at h ⊢
    cases hp : pick net n.s k todo endTask curr with
    | stop s =>
      have pf := pick_stop_frame hp
      exact ⟨[], .nil, by simp [pf.env e hlt], (pf.actors k hk).trans he⟩
    | fail => simp [hp] at h
    | task s t => simp [hp] at h
  | cons sc more ih =>
    intro n todo curr e he hlt hk h
    unfold netLoop at h ⊢
    cases hp : pick net n.s k todo endTask curr with
    | stop s =>
      have pf := pick_stop_frame hp
      exact ⟨[], .nil, by simp [pf.env e hlt], (pf.actors k hk).trans he⟩
    | fail => simp [hp] at h
    | task s t =>
      have pf := pick_frame hp
      have he' : s.actorEnv k = some e := (pf.actors k hk).trans he
      have hlt' : e < s.nextEnv := Nat.lt_of_lt_of_le hlt pf.next
      have hk' : k < s.w.actors.length := Nat.lt_of_lt_of_le hk pf.len
      have df := doTask_frame { n with s := s } k t sc e he'
      have dc := doTask_clock { n with s := s } k t sc e he' hlt'
      simp only [hp] at h ⊢
      split at h
      · simp at h
      · rename_i hcls
        rw [if_neg hcls]
        rcases hd : doTask { n with s := s } k t sc with ⟨n1, x⟩
        rw [hd] at df dc
        simp only [hd] at h ⊢
        cases x with
        | finished =>
          obtain ⟨tv, h1, h2⟩ := dc rfl
          dsimp only at h2 df h ⊢
          have fin : ∀ todo' curr', (netLoop net n1 k todo' endTask curr' more).2.1 = .finished →
              ∃ ds : List Rat, List.Forall₂ Takes
                ((sc :: more).take (t :: (netLoop net n1 k todo' endTask curr' more).2.2).length) ds ∧
                (netLoop net n1 k todo' endTask curr' more).1.s.envNow e = n.s.envNow e + ds.sum ∧
                (netLoop net n1 k todo' endTask curr' more).1.s.actorEnv k = some e := by
            intro todo' curr' hf
            obtain ⟨ds, a, b, c⟩ := ih n1 todo' curr' e ((df.2.2.2.1 k hk').trans he')
              (Nat.lt_of_lt_of_le hlt' df.2.1) (Nat.lt_of_lt_of_le hk' df.2.2.1) hf
            refine ⟨(tv.map (·.1)).sum :: ds, ?_, ?_, c⟩
            · simp only [List.length_cons, List.take_succ_cons]
              exact .cons ⟨tv, h1, rfl⟩ a
            · rw [b, h2, pf.env e hlt, List.sum_cons]
              ring
          split at h
          · split at h
            · rename_i hf
              simp only [hf, if_true]
              exact fin _ _ h
            · simp at h
          · rename_i hne
            have hgo : ∀ (todo : List Nat), (∀ a u rest, todo ≠ a :: u :: rest) → ∀ (X Y : NSt × Res × List Nat),
                (match todo with | _ :: u :: rest => if feasible net t u = some true then X else Y | _ => Y) = Y := by
              intro todo hh X Y
              split
              · rename_i a u rest
                exact absurd rfl (hh a u rest)
              · rfl
            obtain ⟨ds, a, b, c⟩ := fin [] (some t) h
            have e : ∀ todo : List Nat, (∀ a u rest, todo ≠ a :: u :: rest) → todo = [] ∨ ∃ a, todo = [a] := by
              intro todo hh
              match todo, hh with
              | [], _ => exact Or.inl rfl
              | [a], _ => exact Or.inr ⟨a, rfl⟩
              | a :: u :: r, hh => exact absurd rfl (hh a u r)
            rcases e todo (fun a u rest hh => hne a u rest hh) with rfl | ⟨a', rfl⟩
            · exact ⟨ds, a, b, c⟩
            · exact ⟨ds, a, b, c⟩
        | raised => simp at h
        | going => simp at h

/-- **C29 (time).** The clock of the understudy after a network rehearsal that succeeds is that of the actor plus the times
of the tasks rehearsed, with or without an end task. -/
theorem c29_clock (net : Net) (n : NSt) (i : Nat) (list : List Nat) (extra : List (Nat × New)) (endTask : Option Nat)
    (scripts : List Script) (h : (rehearseNet net n i list extra endTask scripts).res = .finished) :
    ∃ (k e : Nat) (ds : List Rat), (rehearseNet net n i list extra endTask scripts).understudy = some k ∧
      (rehearseNet net n i list extra endTask scripts).n.s.actorEnv k = some e ∧
      List.Forall₂ Takes (scripts.take (rehearseNet net n i list extra endTask scripts).tasks.length) ds ∧
      (rehearseNet net n i list extra endTask scripts).n.s.envNow e = nowOf n.s (n.s.actorEnv i) + ds.sum := by
  unfold rehearseNet at h ⊢
  split at h
  · rename_i w k heq
    obtain ⟨hk, hlt⟩ := made_len heq
    dsimp only at h ⊢
    revert h
    generalize hn : ({ n with s := { mock n.s (n.s.actorEnv i) with w := w, actorEnv := upd n.s.actorEnv k (some n.s.nextEnv) } } : NSt) = n0
    intro h
    have e1 : n0.s.actorEnv k = some n.s.nextEnv := by subst hn; simp [upd]
    have e2 : n0.s.nextEnv = n.s.nextEnv + 1 := by subst hn; rfl
    have e3 : n0.s.w = w := by subst hn; rfl
    have e4 : n0.s.envNow n.s.nextEnv = nowOf n.s (n.s.actorEnv i) := by subst hn; simp [mock, upd]
    have fin : (netLoop net n0 k list endTask none scripts).2.1 = .finished := by
      revert h; cases (netLoop net n0 k list endTask none scripts).2.1 <;> simp
    obtain ⟨ds, a, b, c⟩ := netLoop_clock net k endTask scripts n0 list none n.s.nextEnv e1 (by omega)
      (by rw [e3]; exact hlt) fin
    simp only [fin]
    exact ⟨k, n.s.nextEnv, ds, rfl, c, a, by rw [b, e4]⟩
  · simp at h

/-- **C29 (end task).** With an end task, that task is never rehearsed. -/
theorem c29_end_task_not_rehearsed (net : Net) (n : NSt) (i : Nat) (list : List Nat) (extra : List (Nat × New)) (e : Nat)
    (scripts : List Script) : e ∉ (rehearseNet net n i list extra (some e) scripts).tasks := by
  have hp : ∀ s k todo curr s' t, pick net s k todo (some e) curr = .task s' t → t ≠ e := by
    intro s k todo curr s' t h
    unfold pick at h
    split at h
    · split at h
      · simp at h
      · rename_i hne
        cases h
        intro he; subst he; exact hne rfl
    · dsimp only at h
      split at h
      · simp at h
      · split at h
        · simp at h
        · split at h
          · simp at h
          · rename_i hne
            cases h; exact hne
  have key : ∀ (scripts : List Script) (n : NSt) (k : Nat) (todo : List Nat) (curr : Option Nat),
      e ∉ (netLoop net n k todo (some e) curr scripts).2.2 := by
    intro scripts
    induction scripts with
    | nil =>
      intro n k todo curr
      unfold netLoop
      split <;> simp
    | cons sc more ih =>
      intro n k todo curr
      unfold netLoop
      split
      · simp
      · simp
      · rename_i s t hpk
        have hne := hp _ _ _ _ _ _ hpk
        split
        · simp
        · split
          · split
            · split
              · simp only [List.mem_cons, not_or]
                exact ⟨Ne.symm hne, ih _ _ _ _⟩
              · simpa using Ne.symm hne
            · simp only [List.mem_cons, not_or]
              exact ⟨Ne.symm hne, ih _ _ _ _⟩
          · simpa using Ne.symm hne
  unfold rehearseNet
  split
  · dsimp only
    split <;> exact key _ _ _ _ _
  · simp

/-! ## Cases -/

/-- Tasks 1, 2, 3; 1 may be followed by 2, 2 by 1 or 3, 3 by nothing; the network's name is 0. -/
def net0 : Net := ⟨0, [1, 2, 3], [(1, some 2, [2]), (2, some 1, [1, 3]), (3, none, [])]⟩

def wait (t : Rat) : Script := [([], .yield (.ev (.leaf t none))), ([], .ret)]

/-- The network was at task 3 (its seventh instance). -/
def nsample : NSt := ⟨sample, some (3, 6), 7⟩

example : (rehearseNet net0 nsample 0 [1, 2, 3] [] none [wait 1, wait 2, wait 3]).res = .finished ∧
    (rehearseNet net0 nsample 0 [1, 2, 3] [] none [wait 1, wait 2, wait 3]).tasks = [1, 2, 3] ∧
    (rehearseNet net0 nsample 0 [1, 2, 3] [] none [wait 1, wait 2, wait 3]).n.s.envNow 0 = 16 ∧
    (rehearseNet net0 nsample 0 [1, 2, 3] [] none [wait 1, wait 2, wait 3]).n.cur = some (3, 6) ∧
    Start nsample.s.w ∧ (∀ sc ∈ [wait 1, wait 2, wait 3], Quiet sc) :=
  ⟨by decide +kernel, by decide +kernel, by decide +kernel, by decide +kernel, Clone.sample_start, by
    intro sc h p hp op hop
    simp at h
    rcases h with rfl | rfl | rfl <;> simp [wait] at hp <;> rcases hp with rfl | rfl <;> simp at hop⟩

example : ¬ Allowed net0 1 3 ∧ (rehearseNet net0 nsample 0 [2, 1, 3] [] none [wait 1, wait 2, wait 3]).tasks = [2, 1] := by
  refine ⟨?_, by decide +kernel⟩
  rintro ⟨l, h1, h2⟩
  simp [net0, Dict.get?] at h1
  subst h1
  simp at h2

example : (rehearseNet net0 nsample 0 [1] [] (some 3) [wait 1, wait 2, wait 3, wait 4]).res = .going ∧
    (rehearseNet net0 nsample 0 [1, 2, 3] [] (some 3) [wait 1, wait 2, wait 3, wait 4]).res = .finished ∧
    (rehearseNet net0 nsample 0 [1, 2, 3] [] (some 3) [wait 1, wait 2, wait 3, wait 4]).tasks = [1, 2] := by
  decide +kernel

/-! ## Where the code does not keep the property -/

/-- With an end task that is not in the list, the tasks after the list come from the queue, and they are taken from the
queue of the original too. -/
theorem c29_end_task_empties_queue : ∃ (net : Net) (n : NSt), Start n.s.w ∧
    queueView n.s.w 0 0 = some [1, 2] ∧
    (rehearseNet net n 0 [1] [] (some 2) [wait 1, wait 2]).res = .finished ∧
    queueView (rehearseNet net n 0 [1] [] (some 2) [wait 1, wait 2]).n.s.w 0 0 = some [] :=
  ⟨net0, nsample, Clone.sample_start, by decide +kernel, by decide +kernel, by decide +kernel⟩

/-- A rehearsal that fails leaves the network at the task that was being rehearsed. -/
theorem c29_failure_moves_network : ∃ (net : Net) (n : NSt), Start n.s.w ∧ n.cur = some (3, 6) ∧
    (rehearseNet net n 0 [1, 3] [] none [wait 1, wait 2]).res = .raised ∧
    (rehearseNet net n 0 [1, 3] [] none [wait 1, wait 2]).n.cur = some (1, 7) :=
  ⟨net0, nsample, Clone.sample_start, rfl, by decide +kernel, by decide +kernel⟩

/-- Where the network stands after the tasks `ts` were begun: at the last of them, each a new instance. -/
theorem netLoop_cur (net : Net) (k : Nat) (scripts : List Script) : ∀ (n : NSt) (todo : List Nat) (curr : Option Nat),
    (∀ t ∈ todo, t ∈ net.classes) → ∀ ts x, (netLoop net n k todo none curr scripts).2.2 = ts ++ [x] →
    (netLoop net n k todo none curr scripts).1.cur = some (x, n.insts + ts.length) := by
  have hcur : ∀ (n : NSt) (t : Nat) (sc : Script),
      (doTask n k t sc).1.cur = some (t, n.insts) ∧ (doTask n k t sc).1.insts = n.insts + 1 := fun _ _ _ => ⟨rfl, rfl⟩
  induction scripts with
  | nil =>
    intro n todo curr _ ts x
    cases todo <;> simp [netLoop, pick]
  | cons sc more ih =>
    intro n todo curr hc ts x
    cases todo with
    | nil => simp [netLoop, pick]
    | cons t r =>
      simp only [netLoop, pick, reduceCtorEq, if_false]
      rw [if_neg (not_not.mpr (hc t (by simp)))]
      obtain ⟨hc1, hc2⟩ := hcur { n with s := n.s } t sc
      have one : ∀ (y : Nat) (ts : List Nat), [t] = ts ++ [y] → ts = [] ∧ y = t := by
        intro y ts h
        cases ts with
        | nil => simpa using h.symm
        | cons a b => simp at h
      have two : ∀ (n1 : NSt) (todo : List Nat), (∀ t ∈ todo, t ∈ net.classes) → n1.cur = some (t, n.insts) →
          n1.insts = n.insts + 1 → todo ≠ [] ∨ todo = [] →
          t :: (netLoop net n1 k todo none (some t) more).2.2 = ts ++ [x] →
          ((netLoop net n1 k todo none (some t) more).2.2 = [] → (netLoop net n1 k todo none (some t) more).1.cur = n1.cur) →
          (netLoop net n1 k todo none (some t) more).1.cur = some (x, n.insts + ts.length) := by
        intro n1 todo hct h1 h2 _ h h3
        cases ts with
        | nil =>
          simp only [List.nil_append, List.cons.injEq] at h
          rw [h3 h.2, h1, h.1]
          simp
        | cons a b =>
          simp only [List.cons_append, List.cons.injEq] at h
          rw [ih n1 todo (some t) hct b x h.2, h2]
          simp; omega
      have still : ∀ (n1 : NSt) (todo : List Nat), (∀ t ∈ todo, t ∈ net.classes) →
          (netLoop net n1 k todo none (some t) more).2.2 = [] → (netLoop net n1 k todo none (some t) more).1.cur = n1.cur := by
        intro n1 todo hct
        cases more with
        | nil => cases todo <;> simp [netLoop, pick]
        | cons sc2 m2 =>
          cases todo with
          | nil => simp [netLoop, pick]
          | cons u rest =>
            simp only [netLoop, pick, reduceCtorEq, if_false]
            rw [if_neg (not_not.mpr (hct u (by simp)))]
            intro h
            exfalso
            revert h
            split
            · split
              · split <;> simp
              · simp
            · simp
      split
      · rename_i n1 hd
        rw [hd] at hc1 hc2
        split
        · rename_i t' u rest heq
          simp only [List.cons.injEq] at heq
          obtain ⟨rfl, rfl⟩ := heq
          have hct : ∀ v ∈ u :: rest, v ∈ net.classes := fun v hv => hc v (by simp at hv ⊢; tauto)
          split
          · exact fun h => two n1 (u :: rest) hct hc1 hc2 (Or.inl (by simp)) h (still n1 _ hct)
          · intro h
            obtain ⟨rfl, rfl⟩ := one x ts h
            simpa using hc1
        · exact fun h => two n1 [] (by simp) hc1 hc2 (Or.inr rfl) h (still n1 _ (by simp))
      · rename_i n1 y hy hd
        rw [hd] at hc1
        intro h
        obtain ⟨rfl, rfl⟩ := one x ts h
        simpa using hc1

/-- **C29 (failures).** In general: a rehearsal of a list of tasks of the network that does not succeed leaves the network at
the last of the tasks it began, a new instance for each: it is put back only by a success (`c29_finished`). -/
theorem c29_failure_position (net : Net) (n : NSt) (i : Nat) (list : List Nat) (extra : List (Nat × New))
    (scripts : List Script) (hc : ∀ t ∈ list, t ∈ net.classes)
    (h : (rehearseNet net n i list extra none scripts).res ≠ .finished) (ts : List Nat) (x : Nat)
    (hx : (rehearseNet net n i list extra none scripts).tasks = ts ++ [x]) :
    (rehearseNet net n i list extra none scripts).n.cur = some (x, n.insts + ts.length) := by
  revert h hx
  unfold rehearseNet
  split
  · rename_i w k heq
    dsimp only
    generalize hn : ({ n with s := _ } : NSt) = n0
    have hi : n0.insts = n.insts := by subst hn; rfl
    have hl := netLoop_cur net k scripts n0 list none hc ts x
    generalize netLoop net n0 k list none none scripts = r at hl ⊢
    obtain ⟨r1, r2, r3⟩ := r
    cases r2 with
    | finished => exact fun h => absurd rfl h
    | raised => intro _ hx; rw [← hi]; exact hl hx
    | going => intro _ hx; rw [← hi]; exact hl hx
  · simp

example : (∀ t ∈ [2, 1, 3], t ∈ net0.classes) ∧
    (rehearseNet net0 nsample 0 [2, 1, 3] [] none [wait 1, wait 2, wait 3]).res = .raised ∧
    (rehearseNet net0 nsample 0 [2, 1, 3] [] none [wait 1, wait 2, wait 3]).tasks = [2] ++ [1] := by
  decide +kernel

/-- With an end task and an empty list the rehearsal fails, whatever the queue and the network. -/
theorem c29_empty_list_fails (net : Net) (n : NSt) (i : Nat) (extra : List (Nat × New)) (e : Nat) (scripts : List Script) :
    (rehearseNet net n i [] extra (some e) scripts).res = .raised := by
  unfold rehearseNet
  split
  · have : ∀ n0 k, (netLoop net n0 k [] (some e) none scripts).2.1 = .raised := by
      intro n0 k
      cases scripts <;> simp [netLoop, pick]
    dsimp only
    rw [this]
  · rfl

end Verif.Rehearse
