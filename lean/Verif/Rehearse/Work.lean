import Verif.Rehearse.NetProps
import Verif.Clone.Equal

/-!
# C28, C29: the understudy has done the work

`c28_work`: after a rehearsal that finished the actors are those after cloning and then running the code of the task.
`c29_work`: the same for a network, task after task. `c29_end_task_path`: which tasks a rehearsal up to an end task goes
through: the list, then the queue, then the defaults.
-/

namespace Verif.Rehearse

open Verif.Clone (World AOp Out New step Start stateView knowView queueView inPlace)

/-- What the code of the task does, up to where it returns or raises. -/
def done : Script → List AOp
  | [] => []
  | (ops, .yield _) :: r => ops ++ done r
  | (ops, .ret) :: _ => ops
  | (ops, .raise) :: _ => ops

/-- The operations of actor `k`. -/
def by_ (k : Nat) (ops : List AOp) : List (Nat × AOp) := ops.map fun op => (k, op)

theorem cloneRun_append (w : World) (a b : List (Nat × AOp)) : Clone.run w (a ++ b) = Clone.run (Clone.run w a) b := by
  induction a generalizing w with
  | nil => rfl
  | cons p r ih => exact ih _

theorem runC_w (k : Nat) (ops : List AOp) : ∀ s : St, (runC s k ops).w = Clone.run s.w (by_ k ops) := by
  induction ops with
  | nil => intro s; rfl
  | cons op r ih =>
    intro s
    show (runC (stepC s k op) k r).w = Clone.run (step s.w k op).1 (by_ k r)
    rw [ih, stepC_w]

theorem loop_world (script : Script) : ∀ (s : St) (k e : Nat) (item : Option Nat),
    (loop s k e item script).2.1 = .finished → (loop s k e item script).1.w = Clone.run s.w (by_ k (done script)) := by
  induction script with
  | nil => intro s k e item h; simp [loop] at h
  | cons p r ih =>
    obtain ⟨ops, act⟩ := p
    intro s k e item h
    cases act with
    | ret => simp only [loop, done, runC_w]
    | raise => simp [loop] at h
    | yield y =>
      simp only [loop, done] at h ⊢
      cases hy : rehearseY y with
      | none => simp [hy] at h
      | some tv =>
        simp only [hy] at h ⊢
        rw [ih _ _ _ _ h]
        simp only [runC_w]
        rw [show by_ k (ops ++ done r) = by_ k ops ++ by_ k (done r) from List.map_append, cloneRun_append]

/-- **C28 (the work is done).** A rehearsal that finishes leaves the actors as cloning the actor and then running the code
of the task on the understudy does. -/
theorem c28_work (s : St) (i : Nat) (extra : List (Nat × New)) (script : Script)
    (h : (rehearse s i false extra script).res = .finished) :
    ∃ k, (rehearse s i false extra script).understudy = some k ∧ k = s.w.actors.length ∧
      (rehearse s i false extra script).st.w =
        Clone.run (step s.w i (.clone extra)).1 (by_ k (done script)) := by
  rcases hst : step s.w i (.clone extra) with ⟨w, o⟩
  by_cases ho : ∃ k, o = .made k
  · obtain ⟨k, rfl⟩ := ho
    rw [rehearse_made hst] at h ⊢
    have fin : (loop (begun s w k) k s.nextEnv none script).2.1 = .finished := by
      revert h; cases (loop (begun s w k) k s.nextEnv none script).2.1 <;> simp
    have hw := loop_world script (begun s w k) k s.nextEnv none fin
    simp only [fin]
    exact ⟨k, rfl, (made_len hst).1, hw⟩
  · rw [rehearse_not_made hst (fun k hk => ho ⟨k, hk⟩)] at h
    simp at h

theorem doTask_world (n : NSt) (k t : Nat) (script : Script) (e : Nat) (he : n.s.actorEnv k = some e)
    (h : (doTask n k t script).2 = .finished) :
    (doTask n k t script).1.s.w = Clone.run n.s.w (by_ k (done script)) := by
  simp only [doTask, rehearse, if_true, he, perform] at h ⊢
  have fin : (loop ({ n.s with taskEnv := some e, rehearsing := true } : St) k e none script).2.1 = .finished := by
    revert h
    cases (loop ({ n.s with taskEnv := some e, rehearsing := true } : St) k e none script).2.1 <;> simp
  have := loop_world script ({ n.s with taskEnv := some e, rehearsing := true }) k e none fin
  simp only [fin]
  exact this

theorem netLoop_world (net : Net) (k : Nat) (scripts : List Script) :
    ∀ (n : NSt) (todo : List Nat) (curr : Option Nat) (e : Nat), n.s.actorEnv k = some e → k < n.s.w.actors.length →
    (netLoop net n k todo none curr scripts).2.1 = .finished →
    (netLoop net n k todo none curr scripts).1.s.w =
      Clone.run n.s.w (by_ k ((scripts.take todo.length).flatMap done)) := by
  induction scripts with
  | nil =>
    intro n todo curr e _ _ h
    cases todo with
    | nil => rfl
    | cons t r => simp [netLoop, pick] at h
  | cons sc more ih =>
    intro n todo curr e he hk h
    cases todo with
    | nil => rfl
    | cons t r =>
      have df := doTask_frame n k t sc e he
      have dw := doTask_world n k t sc e he
      simp only [netLoop, pick, reduceCtorEq, if_false] at h ⊢
      split at h
      · simp at h
      · rename_i hc
        rw [if_neg hc]
        rcases hd : doTask n k t sc with ⟨n1, x⟩
        have hd' : doTask { n with s := n.s } k t sc = (n1, x) := hd
        rw [hd] at df dw
        simp only [hd'] at h ⊢
        cases x with
        | finished =>
          dsimp only at h df dw ⊢
          have fin : ∀ todo' curr', (netLoop net n1 k todo' none curr' more).2.1 = .finished →
              (netLoop net n1 k todo' none curr' more).1.s.w =
                Clone.run n.s.w (by_ k (done sc ++ (more.take todo'.length).flatMap done)) := by
            intro todo' curr' hf
            rw [ih n1 todo' curr' e ((df.2.2.2.1 k hk).trans he) (Nat.lt_of_lt_of_le hk df.2.2.1) hf, dw rfl, by_, by_, by_,
              List.map_append, cloneRun_append]
          cases r with
          | nil =>
            have := fin [] (some t) h
            simpa using this
          | cons u rest =>
            dsimp only at h ⊢
            split at h
            · rename_i hf
              rw [if_pos hf]
              have := fin (u :: rest) (some t) h
              simpa using this
            · simp at h
        | raised => simp at h
        | going => simp at h

/-- **C29 (the work is done).** A rehearsal of a list that finishes leaves the actors as cloning the actor and then running
the tasks of the list on the understudy does. -/
theorem c29_work (net : Net) (n : NSt) (i : Nat) (list : List Nat) (extra : List (Nat × New)) (scripts : List Script)
    (h : (rehearseNet net n i list extra none scripts).res = .finished) :
    (rehearseNet net n i list extra none scripts).n.s.w =
      Clone.run (step n.s.w i (.clone extra)).1
        (by_ n.s.w.actors.length ((scripts.take list.length).flatMap done)) := by
  unfold rehearseNet at h ⊢
  split at h
  · rename_i w k heq
    obtain ⟨hk, hlt⟩ := made_len heq
    dsimp only at h ⊢
    revert h
    generalize hn : ({ n with s := { mock n.s (n.s.actorEnv i) with w := w, actorEnv := upd n.s.actorEnv k (some n.s.nextEnv) } } : NSt) = n0
    intro h
    have e1 : n0.s.actorEnv k = some n.s.nextEnv := by subst hn; simp [upd]
    have e3 : n0.s.w = w := by subst hn; rfl
    have fin : (netLoop net n0 k list none none scripts).2.1 = .finished := by
      revert h; cases (netLoop net n0 k list none none scripts).2.1 <;> simp
    have := netLoop_world net k scripts n0 list none n.s.nextEnv e1 (by rw [e3]; exact hlt) fin
    simp only [fin]
    rw [this, e3, heq, hk]
  · simp at h

/-! ## Up to an end task -/

/-- The operations that leave the task queues of the actor alone. -/
def noQueue : AOp → Bool
  | .setState _ _ | .setKnow _ _ | .clearKnow _ | .poke _ _ _ => true
  | _ => false

theorem mk_lst (w : World) (x : New) : (Clone.mk w x).1.lst = w.lst ∧ (Clone.mk w x).1.actors = w.actors := by
  cases x <;> exact ⟨rfl, rfl⟩

theorem eval_lst {w w1 : World} {a : Clone.Actor} {x : Clone.Src} {v : Clone.Val} (h : Clone.eval w a x = some (w1, v)) :
    w1.lst = w.lst ∧ w1.actors = w.actors := by
  cases x with
  | new x =>
    simp only [Clone.eval, Option.some.injEq] at h
    have := mk_lst w x
    rw [h] at this
    exact this
  | state m =>
    simp only [Clone.eval, Option.map_eq_some_iff, Prod.mk.injEq] at h
    obtain ⟨_, _, rfl, _⟩ := h
    exact ⟨rfl, rfl⟩
  | know m =>
    simp only [Clone.eval, Option.map_eq_some_iff, Prod.mk.injEq] at h
    obtain ⟨_, _, rfl, _⟩ := h
    exact ⟨rfl, rfl⟩

theorem setActor_queue {w w1 : World} {i : Nat} {a a' : Clone.Actor} (ha : w.actors[i]? = some a) (hq : a'.queues = a.queues)
    (hl : w1.lst = w.lst) (hact : w1.actors = w.actors) (m : Nat) :
    queueView (Clone.setActor w1 i a') i m = queueView w i m := by
  have hlen : i < w.actors.length := by
    rw [List.getElem?_eq_some_iff] at ha; exact ha.1
  unfold queueView Clone.setActor
  simp only [hact, List.getElem?_set_self hlen, ha, Option.bind_some, hq, hl]

theorem step_noQueue (w : World) (k : Nat) (op : AOp) (h : noQueue op = true) (m : Nat) :
    queueView (step w k op).1 k m = queueView w k m := by
  unfold step
  cases ha : w.actors[k]? with
  | none => rfl
  | some a =>
    cases op with
    | setState n x =>
      simp only [Clone.stepA]
      split
      · rfl
      · split
        · rfl
        · split
          · rfl
          · rename_i he
            obtain ⟨h1, h2⟩ := eval_lst he
            (dsimp only; refine setActor_queue ha ?_ h1 h2 m; rfl)
    | setKnow n x =>
      simp only [Clone.stepA]
      split
      · rfl
      · rename_i he
        obtain ⟨h1, h2⟩ := eval_lst he
        (dsimp only; refine setActor_queue ha ?_ h1 h2 m; rfl)
    | clearKnow n =>
      simp only [Clone.stepA]
      split
      · (dsimp only; refine setActor_queue ha ?_ rfl rfl m; rfl)
      · rfl
    | poke l p c =>
      simp only [Clone.stepA]
      split <;> rfl
    | _ => simp [noQueue] at h

theorem cloneRun_noQueue (k m : Nat) (ops : List AOp) : ∀ w : World, (∀ op ∈ ops, noQueue op = true) →
    queueView (Clone.run w (by_ k ops)) k m = queueView w k m := by
  induction ops with
  | nil => intro w _; rfl
  | cons op r ih =>
    intro w h
    show queueView (Clone.run (step w k op).1 (by_ k r)) k m = _
    rw [ih _ (fun o ho => h o (by simp [ho])), step_noQueue w k op (h op (by simp))]

/-- The tasks after `prev` when the queue holds `q`, up to `stop`: from the queue while it holds something, then the
defaults. -/
inductive Path (net : Net) (stop : Nat) : List Nat → Nat → List Nat → Prop where
  | queueEnd (q : List Nat) (prev : Nat) : Path net stop (stop :: q) prev []
  | defaultEnd (prev : Nat) (l : List Nat) : net.links.get? prev = some (some stop, l) → Path net stop [] prev []
  | queue (u : Nat) (q ts : List Nat) (prev : Nat) : u ≠ stop → Path net stop q u ts → Path net stop (u :: q) prev (u :: ts)
  | default (d : Nat) (l ts : List Nat) (prev : Nat) : net.links.get? prev = some (some d, l) → d ≠ stop →
      Path net stop [] d ts → Path net stop [] prev (d :: ts)

theorem clearTask_queue {w : World} {k m u : Nat} {q : List Nat} (h : queueView w k m = some (u :: q)) :
    queueView (step w k (.clearTask m)).1 k m = some q := by
  unfold queueView at h
  cases ha : w.actors[k]? with
  | none => simp [ha] at h
  | some a =>
    simp only [ha, Option.bind_some] at h
    cases hq : a.queues.get? m with
    | none => simp [hq] at h
    | some l =>
      simp only [hq, Option.map_some, Option.some.injEq] at h
      simp [step, ha, Clone.stepA, Clone.clearTask, hq, h, queueView, Clone.upd]

theorem pick_queue {net : Net} {s : St} {k stop c : Nat} {q : List Nat} (hq : queueView s.w k net.name = some q) :
    (∀ s', pick net s k [] (some stop) (some c) = .stop s' →
      (∃ q', q = stop :: q') ∨ (q = [] ∧ ∃ l, net.links.get? c = some (some stop, l))) ∧
    (∀ s' t, pick net s k [] (some stop) (some c) = .task s' t → t ≠ stop ∧
      ((∃ q', q = t :: q' ∧ queueView s'.w k net.name = some q') ∨
       (q = [] ∧ s' = s ∧ ∃ l, net.links.get? c = some (some t, l)))) := by
  have key : ∀ s' t, nextName net s k c = some (s', t) →
      (∃ q', q = t :: q' ∧ queueView s'.w k net.name = some q') ∨
       (q = [] ∧ s' = s ∧ ∃ l, net.links.get? c = some (some t, l)) := by
    intro s' t h
    unfold nextName at h
    have hq0 := hq
    unfold queueView at hq
    cases ha : s.w.actors[k]? with
    | none => simp [ha] at hq
    | some a =>
      simp only [ha, Option.bind_some] at hq h
      cases hl : a.queues.get? net.name with
      | none => simp [hl] at hq
      | some l =>
        simp only [hl, Option.map_some, Option.some.injEq] at hq
        simp only [hl] at h
        cases hlk : net.links.get? c with
        | none => simp [hlk] at h
        | some lk =>
          simp only [hlk, hq] at h
          cases q with
          | nil =>
            simp only [Option.map_eq_some_iff, Prod.mk.injEq] at h
            obtain ⟨d, hd, rfl, rfl⟩ := h
            exact Or.inr ⟨rfl, rfl, lk.2, by rw [← hd]⟩
          | cons u r =>
            simp only [Option.some.injEq, Prod.mk.injEq] at h
            obtain ⟨rfl, rfl⟩ := h
            refine Or.inl ⟨r, rfl, ?_⟩
            rw [stepC_w]
            exact clearTask_queue hq0
  constructor
  · intro s' h
    unfold pick at h
    dsimp only at h
    split at h
    · simp at h
    · rename_i s1 t hn
      split at h
      · rename_i ht
        subst ht
        rcases key _ _ hn with ⟨q', h1, _⟩ | ⟨h1, _, l, h2⟩
        · exact Or.inl ⟨q', h1⟩
        · exact Or.inr ⟨h1, l, h2⟩
      · simp at h
  · intro s' t h
    unfold pick at h
    dsimp only at h
    split at h
    · simp at h
    · rename_i s1 t1 hn
      split at h
      · simp at h
      · rename_i ht
        cases h
        exact ⟨ht, key _ _ hn⟩

/-- After the list: the tasks follow `Path`. -/
theorem netLoop_path (net : Net) (k stop : Nat) (scripts : List Script) :
    ∀ (n : NSt) (c e : Nat) (q : List Nat), n.s.actorEnv k = some e → k < n.s.w.actors.length →
    (∀ sc ∈ scripts, ∀ op ∈ done sc, noQueue op = true) → queueView n.s.w k net.name = some q →
    (netLoop net n k [] (some stop) (some c) scripts).2.1 = .finished →
    Path net stop q c (netLoop net n k [] (some stop) (some c) scripts).2.2 := by
  induction scripts with
  | nil =>
    intro n c e q _ _ _ hq h
    obtain ⟨p1, _⟩ := pick_queue (stop := stop) (c := c) hq
    unfold netLoop at h ⊢
    cases hp : pick net n.s k [] (some stop) (some c) with
    | stop s =>
      rcases p1 s hp with ⟨q', rfl⟩ | ⟨rfl, l, hl⟩
      · exact .queueEnd _ _
      · exact .defaultEnd _ l hl
    | fail => simp [hp] at h
    | task s t => simp [hp] at h
  | cons sc more ih =>
    intro n c e q he hk hnq hq h
    obtain ⟨p1, p2⟩ := pick_queue (stop := stop) (c := c) hq
    unfold netLoop at h ⊢
    cases hp : pick net n.s k [] (some stop) (some c) with
    | stop s =>
      rcases p1 s hp with ⟨q', rfl⟩ | ⟨rfl, l, hl⟩
      · exact .queueEnd _ _
      · exact .defaultEnd _ l hl
    | fail => simp [hp] at h
    | task s t =>
      have pf := pick_frame hp
      obtain ⟨hne, hcase⟩ := p2 s t hp
      have he' : s.actorEnv k = some e := (pf.actors k hk).trans he
      have hk' : k < s.w.actors.length := Nat.lt_of_lt_of_le hk pf.len
      have df := doTask_frame { n with s := s } k t sc e he'
      have dw := doTask_world { n with s := s } k t sc e he'
      simp only [hp] at h ⊢
      split at h
      · simp at h
      · rename_i hcls
        rw [if_neg hcls]
        rcases hd : doTask { n with s := s } k t sc with ⟨n1, x⟩
        rw [hd] at df dw
        simp only [hd] at h ⊢
        cases x with
        | finished =>
          dsimp only at dw df h ⊢
          have step_ : ∀ q', queueView s.w k net.name = some q' →
              Path net stop q' t (netLoop net n1 k [] (some stop) (some t) more).2.2 := by
            intro q' hq'
            refine ih n1 t e q' ((df.2.2.2.1 k hk').trans he') (Nat.lt_of_lt_of_le hk' df.2.2.1)
              (fun s hs => hnq s (by simp [hs])) ?_ h
            rw [dw rfl, cloneRun_noQueue k net.name _ _ (hnq sc (by simp))]
            exact hq'
          rcases hcase with ⟨q', rfl, hq'⟩ | ⟨rfl, rfl, l, hl⟩
          · exact .queue t q' _ c hne (step_ q' hq')
          · exact .default t l _ c hl hne (step_ [] hq)
        | raised => simp at h
        | going => simp at h

/-- The whole loop with an end task. -/
theorem netLoop_end (net : Net) (k stop : Nat) (scripts : List Script) :
    ∀ (n : NSt) (todo : List Nat) (c : Option Nat) (e : Nat) (q : List Nat), n.s.actorEnv k = some e →
    k < n.s.w.actors.length → todo ≠ [] →
    (∀ sc ∈ scripts, ∀ op ∈ done sc, noQueue op = true) → queueView n.s.w k net.name = some q →
    (netLoop net n k todo (some stop) c scripts).2.1 = .finished →
    (stop ∈ todo ∧ (netLoop net n k todo (some stop) c scripts).2.2 = todo.takeWhile (· ≠ stop)) ∨
    (stop ∉ todo ∧ ∃ last ts, todo.getLast? = some last ∧ Path net stop q last ts ∧
      (netLoop net n k todo (some stop) c scripts).2.2 = todo ++ ts) := by
  induction scripts with
  | nil =>
    intro n todo c e q _ _ hne _ _ h
    cases todo with
    | nil => exact absurd rfl hne
    | cons t r =>
      by_cases ht : stop = t
      · subst ht
        left
        simp [netLoop, pick]
      · simp [netLoop, pick, ht] at h
  | cons sc more ih =>
    intro n todo c e q he hk hne hnq hq h
    cases todo with
    | nil => exact absurd rfl hne
    | cons t r =>
      by_cases ht : stop = t
      · subst ht
        left
        simp [netLoop, pick]
      · have df := doTask_frame n k t sc e he
        have dw := doTask_world n k t sc e he
        simp only [netLoop, pick, Option.some.injEq, ht, if_false] at h ⊢
        split at h
        · simp at h
        · rename_i hc
          rw [if_neg hc]
          rcases hd : doTask n k t sc with ⟨n1, x⟩
          have hd' : doTask { n with s := n.s } k t sc = (n1, x) := hd
          rw [hd] at df dw
          simp only [hd'] at h ⊢
          have hn1 : x = .finished → queueView n1.s.w k net.name = some q := by
            intro hx
            have := dw hx
            dsimp only at this
            rw [this, cloneRun_noQueue k net.name _ _ (hnq sc (by simp))]
            exact hq
          cases x with
          | finished =>
            dsimp only at h df dw ⊢
            cases r with
            | nil =>
              dsimp only at h ⊢
              right
              refine ⟨by simpa using ht, t, _, by simp, netLoop_path net k stop more n1 t e q
                ((df.2.2.2.1 k hk).trans he) (Nat.lt_of_lt_of_le hk df.2.2.1) (fun s hs => hnq s (by simp [hs])) (hn1 rfl) h,
                rfl⟩
            | cons u rest =>
              dsimp only at h ⊢
              split at h
              · rename_i hf
                rw [if_pos hf]
                have := ih n1 (u :: rest) (some t) e q ((df.2.2.2.1 k hk).trans he) (Nat.lt_of_lt_of_le hk df.2.2.1)
                  (by simp) (fun s hs => hnq s (by simp [hs])) (hn1 rfl) h
                rcases this with ⟨h1, h2⟩ | ⟨h1, last, ts, h2, h3, h4⟩
                · left
                  refine ⟨by simp only [List.mem_cons] at h1 ⊢; exact Or.inr h1, ?_⟩
                  dsimp only
                  rw [h2, List.takeWhile_cons_of_pos (a := t) (by simpa using Ne.symm ht)]
                · right
                  refine ⟨by simp only [List.mem_cons, not_or] at h1 ⊢; exact ⟨ht, h1⟩, last, ts, ?_, h3, ?_⟩
                  · rw [List.getLast?_cons_cons]; exact h2
                  · dsimp only; rw [h4]; rfl
              · simp at h
          | raised => simp at h
          | going => simp at h

/-- **C29 (which tasks, with an end task).** When the tasks do not touch the queue: if the end task is in the list, the
tasks rehearsed are those before it; otherwise they are the list, then what is in the queue of the actor, then the
defaults, up to the end task. -/
theorem c29_end_task_path (net : Net) (n : NSt) (i : Nat) (list : List Nat) (extra : List (Nat × New)) (stop : Nat)
    (scripts : List Script) (q : List Nat) (hne : list ≠ []) (hs : Clone.Closed n.s.w)
    (hnq : ∀ sc ∈ scripts, ∀ op ∈ done sc, noQueue op = true) (hq : queueView n.s.w i net.name = some q)
    (h : (rehearseNet net n i list extra (some stop) scripts).res = .finished) :
    (stop ∈ list ∧ (rehearseNet net n i list extra (some stop) scripts).tasks = list.takeWhile (· ≠ stop)) ∨
    (stop ∉ list ∧ ∃ last ts, list.getLast? = some last ∧ Path net stop q last ts ∧
      (rehearseNet net n i list extra (some stop) scripts).tasks = list ++ ts) := by
  unfold rehearseNet at h ⊢
  split at h
  · rename_i w k heq
    obtain ⟨hk, hlt⟩ := made_len heq
    have hqk : queueView w k net.name = some q := by
      rw [(Clone.c30_equal n.s.w w hs i k extra heq net.name 0).2.2.2.1]; exact hq
    dsimp only at h ⊢
    revert h
    generalize hn : ({ n with s := { mock n.s (n.s.actorEnv i) with w := w, actorEnv := upd n.s.actorEnv k (some n.s.nextEnv) } } : NSt) = n0
    intro h
    have e1 : n0.s.actorEnv k = some n.s.nextEnv := by subst hn; simp [upd]
    have e3 : n0.s.w = w := by subst hn; rfl
    have fin : (netLoop net n0 k list (some stop) none scripts).2.1 = .finished := by
      revert h; cases (netLoop net n0 k list (some stop) none scripts).2.1 <;> simp
    have := netLoop_end net k stop scripts n0 list none n.s.nextEnv q e1 (by rw [e3]; exact hlt) hne hnq
      (by rw [e3]; exact hqk) fin
    simp only [fin]
    exact this
  · simp at h

/-- From task 1: the queue `[1, 2]` leads over 1 to the end task 2; then from an empty queue the defaults lead on. -/
example : (rehearseNet net0 nsample 0 [1] [] (some 2) [wait 1, wait 2]).res = .finished ∧
    (rehearseNet net0 nsample 0 [1] [] (some 2) [wait 1, wait 2]).tasks = [1, 1] ∧
    queueView nsample.s.w 0 net0.name = some [1, 2] ∧ (∀ sc ∈ [wait 1, wait 2], ∀ op ∈ done sc, noQueue op = true) := by
  refine ⟨by decide +kernel, by decide +kernel, by decide +kernel, ?_⟩
  intro sc h op hop
  simp at h
  rcases h with rfl | rfl <;> simp [wait, done] at hop

example : Path net0 2 [1, 2] 1 [1] := .queue 1 [2] [] 1 (by decide) (.queueEnd [] 1)

example : Path net0 3 [] 1 [2, 1, 2] → False := by
  intro h
  cases h with
  | default d l ts prev h1 h2 h3 =>
    cases h3 with
    | default d l ts prev h1 h2 h3 =>
      cases h3 with
      | default d l ts prev h1 h2 h3 =>
        cases h3 with
        | defaultEnd prev l h => simp [net0, Dict.get?] at h

example : (rehearse sample 0 false [] script1).res = .finished ∧
    done script1 = [.setState 3 (.new (.atom 1)), .poke (.state 0) [] [2], .clearQ 0, .setQ 0 [5]] := by
  refine ⟨by decide +kernel, rfl⟩

end Verif.Rehearse
