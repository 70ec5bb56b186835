import Verif.Ctx.Groups

/-!
# C46 (contexts), C47 (stage variables), C49 (registration of entities)
-/

namespace Verif.Ctx

/-- The state of a program before it has entered any context is fine. -/
theorem ok_init : Ok init := ⟨by simp [init], by simp [init], by simp [init], by simp [init]⟩

/-- What any program reaches is fine. -/
theorem ok_execs {cfg : Cfg} {l : List Cmd} (h : Nesteds l) : Ok (execs cfg init l).1 := (execs_runs cfg l ok_init h).ok

/-! ## C46 -/

/-- What a program sees, what it reads and whether it raises is what the specification says, where a block is a program of its
own that starts from a fresh context and leaves nothing behind. Missing for the full claim: a context object that is entered
again inside its own block, see `c46_reentered`. -/
theorem c46_contexts_partial (cfg : Cfg) (l : List Cmd) (s : St) (hs : Ok s) (hn : Nesteds l) :
    view (execs cfg s l).1 = (evals cfg (view s) l).1 ∧ (execs cfg s l).2 = (evals cfg (view s) l).2 :=
  ⟨(execs_runs cfg l hs hn).view, (execs_runs cfg l hs hn).out⟩

/-- Leaving a block, normally or by an exception, restores exactly what was visible: the same four objects, with the contents
they had; the exception passes on. No object that existed before has changed. -/
theorem c46_restored_partial (cfg : Cfg) (s : St) (hs : Ok s) (c : Nat) (t : Rat) (rng : Nat) (body : List Cmd)
    (hn : Nested (.block c t rng body)) :
    let r := exec cfg s (.block c t rng body)
    SameVars s r.1 ∧ view r.1 = view s ∧ r.2.1 = (execs cfg (enter s c t rng) body).2.1 ∧
    (∀ i < s.next, r.1.env i = s.env i ∧ r.1.lists i = s.lists i ∧ r.1.ents i = s.ents i ∧ r.1.stage i = s.stage i) := by
  intro r
  have h := exec_runs cfg (.block c t rng body) hs hn
  have hb := execs_runs cfg body (enter_ok hs c t rng) (by simpa [Nested] using hn.2)
  rw [view_enter] at hb
  have hctx : (execs cfg (enter s c t rng) body).1.ctxs c = some ⟨s.vEnv, s.vLists, s.vEnts, s.vStage, false⟩ := by
    rw [hb.ctxs c (by simp only [Nested] at hn; exact hn.1)]; simp [enter]
  have hsame : SameVars s r.1 := by
    refine ⟨h.env, h.lists, ?_, h.stage⟩
    show (exit (execs cfg (enter s c t rng) body).1 c).1.vEnts = s.vEnts
    simp [exit, hctx]
  refine ⟨hsame, ?_, ?_, ?_⟩
  · have := h.view
    simp only [eval] at this
    exact this
  · have := h.out
    simp only [eval] at this
    rw [show r.2 = _ from this, hb.out]
  · intro i hi
    have hfr := hb.frame
    have e1 : ∀ (q : St), (exit q c).1.env = q.env ∧ (exit q c).1.lists = q.lists ∧ (exit q c).1.ents = q.ents ∧
        (exit q c).1.stage = q.stage := by
      intro q
      unfold exit
      cases q.ctxs c with
      | none => exact ⟨rfl, rfl, rfl, rfl⟩
      | some k => dsimp only; split <;> exact ⟨rfl, rfl, rfl, rfl⟩
    obtain ⟨a, b, d, e⟩ := e1 (execs cfg (enter s c t rng) body).1
    refine ⟨?_, ?_, ?_, ?_⟩
    · show (exit (execs cfg (enter s c t rng) body).1 c).1.env i = _
      rw [a, hfr.env i (by simp only [enter]; omega) (by simp only [enter, ne_eq, Option.some.injEq]; omega)]
      simp only [enter]; exact upd_ne _ _ (by omega)
    · show (exit (execs cfg (enter s c t rng) body).1 c).1.lists i = _
      rw [b, hfr.lists i (by simp only [enter]; omega) (by simp only [enter, ne_eq, Option.some.injEq]; omega)]
      simp only [enter]; exact upd_ne _ _ (by omega)
    · show (exit (execs cfg (enter s c t rng) body).1 c).1.ents i = _
      rw [d, hfr.ents i (by simp only [enter]; omega) (by simp only [enter, ne_eq, Option.some.injEq]; omega)]
      simp only [enter]; exact upd_ne _ _ (by omega)
    · show (exit (execs cfg (enter s c t rng) body).1 c).1.stage i = _
      rw [e, hfr.stage i (by simp only [enter]; omega) (by simp only [enter, ne_eq, Option.some.injEq]; omega)]
      simp only [enter]; exact upd_ne _ _ (by omega)

/-- A block begins with the clock at its initial time, no actors, monitored resources or recorded data, no entities, and only
`random` on the stage, whatever is visible outside. -/
theorem c46_fresh (s : St) (c : Nat) (t : Rat) (rng : Nat) :
    view (enter s c t rng) = ⟨some t, some ⟨[], [], []⟩, some [], some [(random, rng)]⟩ := by
  rw [view_enter]; rfl

def cfg0 : Cfg := ⟨[⟨10, [], [20], false, false, .actor⟩, ⟨11, [0], [], false, false, .actor⟩, ⟨12, [1, 0], [21], true, false, .none⟩,
  ⟨13, [2, 1, 0], [], false, true, .none⟩], [99], [7], fun a b => decide (a = b), id⟩

def prog0 : List Cmd :=
  [.op (.addVar 5 50), .op (.make 1 0),
   .attempt [.block 1 3 0 [.op (.addVar 5 51), .op (.make 2 1), .block 2 0 0 [.op (.getVar 5)], .op (.getVar 5)]],
   .op (.getVar 5)]

example : Nested (.block 0 0 0 prog0) ∧ (evals cfg0 (fresh 0 0) prog0).2.1 = false ∧
    (evals cfg0 (fresh 0 0) prog0).1.stage = some [(0, 0), (5, 50)] := by
  refine ⟨by simp [Nested, Nesteds, prog0, usess, uses], ?_, ?_⟩ <;> decide +kernel

/-- The claim fails for a context object entered inside its own block: the inner `__exit__` uses the token of the inner entry,
the outer `__exit__` finds it used and raises, and what was visible before the outer block is not restored. -/
theorem c46_reentered : ∃ (body : List Cmd) (s : St), Ok s ∧
    (execs cfg0 (enter s 0 0 0) body).2.1 = false ∧
    (exec cfg0 s (.block 0 0 0 body)).2.1 = true ∧ (exec cfg0 s (.block 0 0 0 body)).1.vEnv ≠ s.vEnv :=
  ⟨[.block 0 0 0 []], init, ok_init, by decide +kernel, by decide +kernel, by decide +kernel⟩

/-! ## C47 -/

mutual
/-- Commands that do not, at this level, overwrite `x` through the dictionary or delete it. -/
def Keeps (x : Nat) : Cmd → Prop
  | .op (.setItem y _) => y ≠ x
  | .op (.delAttr y) => y ≠ x
  | .op _ => True
  | .block _ _ _ _ => True
  | .attempt body => Keepss x body
def Keepss (x : Nat) : List Cmd → Prop
  | [] => True
  | c :: r => Keeps x c ∧ Keepss x r
end

theorem vstep_keeps {cfg : Cfg} {x v : Nat} {w : View} {d : Dict Nat Nat} (hd : w.stage = some d) (hv : d.get? x = some v) (o : Op)
    (hk : Keeps x (.op o)) : ∃ d', (vstep cfg w o).1.stage = some d' ∧ d'.get? x = some v := by
  have old : ∀ w' : View, w'.stage = w.stage → ∃ d', w'.stage = some d' ∧ d'.get? x = some v := fun w' h => ⟨d, h.trans hd, hv⟩
  have hasx : ∀ y, d.has y = false → y ≠ x := by
    intro y hy e
    subst e
    unfold Dict.has at hy
    rw [hv] at hy
    simp at hy
  cases o with
  | make obj c =>
    have gA : ∀ (w : View) g, (vAddToGroup cfg w obj g).1.stage = w.stage := by
      intro w g; unfold vAddToGroup; split
      · split <;> rfl
      · rfl
    have gs : ∀ (l : List Nat) (w : View), (vAddGroups cfg obj l w).1.stage = w.stage := by
      intro l
      induction l with
      | nil => intro w; rfl
      | cons g r ih =>
        intro w
        unfold vAddGroups
        split
        · exact ih w
        · split
          · rw [ih, gA]
          · exact gA w g
    have sp : ∀ (w : View) k, (vAddSpecial cfg w obj k).1.stage = w.stage := by
      intro w k
      unfold vAddSpecial
      split
      · rfl
      · split
        · rfl
        · split <;> rfl
      · split
        · rfl
        · split <;> rfl
    cases hc : cfg.classes[c]? with
    | none => simp only [vstep, hc]; exact old _ rfl
    | some k =>
      simp only [vstep, hc]
      split
      · exact old _ ((sp _ _).trans (gs _ _))
      · exact old _ (gs _ _)
  | record u =>
    simp only [vstep]
    split
    · exact old _ rfl
    · exact old _ rfl
  | runTo t =>
    simp only [vstep]
    split
    · exact old _ rfl
    · split <;> exact old _ rfl
  | addVar y u =>
    simp only [vstep, hd]
    by_cases hy : d.has y = true
    · rw [if_pos hy]; exact ⟨d, hd, hv⟩
    · rw [if_neg hy]; exact ⟨_, rfl, by rw [Dict.get?_set_ne _ _ (hasx y (by simpa using hy))]; exact hv⟩
  | setAttr y u =>
    simp only [vstep, hd]
    by_cases hy : d.has y = true
    · rw [if_pos hy]; exact ⟨d, hd, hv⟩
    · rw [if_neg hy]; exact ⟨_, rfl, by rw [Dict.get?_set_ne _ _ (hasx y (by simpa using hy))]; exact hv⟩
  | setItem y u =>
    simp only [vstep, hd]
    simp only [Keeps] at hk
    exact ⟨_, rfl, by rw [Dict.get?_set_ne _ _ hk]; exact hv⟩
  | delAttr y =>
    simp only [vstep, hd]
    simp only [Keeps] at hk
    split
    · exact ⟨_, rfl, by rw [Dict.get?_del_ne _ hk]; exact hv⟩
    · exact ⟨d, hd, hv⟩
  | getVar y =>
    simp only [vstep, hd]
    split <;> exact ⟨d, hd, hv⟩

mutual
theorem eval_keeps {cfg : Cfg} {x v : Nat} : ∀ (cmd : Cmd) {w : View} {d : Dict Nat Nat}, w.stage = some d → d.get? x = some v →
    Keeps x cmd → ∃ d', (eval cfg w cmd).1.stage = some d' ∧ d'.get? x = some v
  | .op o, w, d, hd, hv, hk => by unfold eval; exact vstep_keeps hd hv o hk
  | .block c t rng body, w, d, hd, hv, _ => by unfold eval; exact ⟨d, hd, hv⟩
  | .attempt body, w, d, hd, hv, hk => by
    unfold eval; exact evals_keeps body hd hv (by simpa [Keeps] using hk)
theorem evals_keeps {cfg : Cfg} {x v : Nat} : ∀ (l : List Cmd) {w : View} {d : Dict Nat Nat}, w.stage = some d → d.get? x = some v →
    Keepss x l → ∃ d', (evals cfg w l).1.stage = some d' ∧ d'.get? x = some v
  | [], w, d, hd, hv, _ => by unfold evals; exact ⟨d, hd, hv⟩
  | cmd :: rest, w, d, hd, hv, hk => by
    simp only [Keepss] at hk
    obtain ⟨d', h1, h2⟩ := eval_keeps (cfg := cfg) cmd hd hv hk.1
    unfold evals
    split
    · exact ⟨d', h1, h2⟩
    · exact evals_keeps rest h1 h2 hk.2
end

/-- A stage variable that has been added reads back the same value for the rest of the context, whatever else happens, in this
context or in blocks inside it; adding it again, or assigning it as an attribute, raises and changes nothing. Missing for the
full claim: names that are attributes of `dict` (`c47_dict_name`), and programs that write to the stage as a dictionary or
delete from it (`c47_overwritten`). -/
theorem c47_write_once_partial (cfg : Cfg) (s : St) (hs : Ok s) (x v : Nat) (hx : x ∉ cfg.dictAttrs)
    (hok : (step cfg s (.addVar x v)).2 = .ok) (l : List Cmd) (hn : Nesteds l) (hk : Keepss x l) :
    let s' := (execs cfg (step cfg s (.addVar x v)).1 l).1
    (step cfg s' (.getVar x)).2 = .value v ∧ (step cfg s' (.getVar x)).1 = s' ∧
    (∀ u, step cfg s' (.addVar x u) = (s', .raised)) ∧ ∀ u, step cfg s' (.setAttr x u) = (s', .raised) := by
  intro s'
  have g := step_good (cfg := cfg) hs (.addVar x v)
  have h1 : ∃ d, (view (step cfg s (.addVar x v)).1).stage = some d ∧ d.get? x = some v := by
    rw [g.1.view]
    rw [g.2] at hok
    simp only [vstep] at hok ⊢
    cases hd : (view s).stage with
    | none => simp [hd] at hok
    | some d =>
      simp only [hd] at hok ⊢
      split at hok
      · exact absurd hok (by simp)
      · rename_i hh; rw [if_neg hh]; exact ⟨_, rfl, Dict.get?_set_self _ _ _⟩
  obtain ⟨d, hd, hv⟩ := h1
  have r := execs_runs cfg l g.1.ok hn
  obtain ⟨d', hd', hv'⟩ := evals_keeps (cfg := cfg) l hd hv hk
  rw [← r.view] at hd'
  obtain ⟨i, hi, e⟩ : ∃ i, s'.vStage = some i ∧ s'.stage i = d' := by
    simpa [view] using hd'
  have hhas : Dict.has d' x = true := by unfold Dict.has; rw [hv']; rfl
  refine ⟨?_, ?_, ?_, ?_⟩
  · simp [step, hi, e, hv', hx]
  · simp [step, hi, e, hv']
  · intro u; simp [step, hi, e, hhas]
  · intro u; simp [step, hi, e, hhas]

/-- Reading a variable that has not been added raises, and so does anything to do with the stage outside a context. -/
theorem c47_missing (cfg : Cfg) (s : St) (x : Nat) :
    (∀ i, s.vStage = some i → (s.stage i).get? x = none → step cfg s (.getVar x) = (s, .raised)) ∧
    (s.vStage = none → step cfg s (.getVar x) = (s, .raised) ∧ ∀ v, step cfg s (.addVar x v) = (s, .raised)) := by
  refine ⟨?_, ?_⟩
  · intro i hi h; simp [step, hi, h]
  · intro h; simp [step, h]

/-- A program cannot read a variable that no program of the same context has added: a fresh context has only `random`. -/
theorem c47_fresh (cfg : Cfg) (s : St) (c : Nat) (t : Rat) (rng x : Nat) (h : x ≠ random) :
    (step cfg (enter s c t rng) (.getVar x)).2 = .raised := by
  have : ¬ random = x := fun e => h e.symm
  simp [step, enter, Dict.get?, this]

example : (step cfg0 (enter init 0 0 0) (.addVar 5 50)).2 = .ok ∧ Keepss 5 prog0.tail ∧ Nesteds prog0.tail := by
  refine ⟨rfl, ?_, ?_⟩
  · simp [Keepss, Keeps, prog0]
  · simp [Nesteds, Nested, prog0, usess, uses]

/-- The claim fails for names such as `items`: the variable is added without an exception and reads back a method. -/
theorem c47_dict_name : ∃ (cfg : Cfg) (s : St) (x v : Nat), Ok s ∧ (step cfg s (.addVar x v)).2 = .ok ∧
    (step cfg (step cfg s (.addVar x v)).1 (.getVar x)).2 = .method :=
  ⟨cfg0, enter init 0 0 0, 7, 70, enter_ok ok_init _ _ _, rfl, rfl⟩

/-- The claim fails for programs that use the stage as the dictionary it is. -/
theorem c47_overwritten : ∃ (cfg : Cfg) (s : St) (x v u : Nat), Ok s ∧ u ≠ v ∧ (step cfg s (.addVar x v)).2 = .ok ∧
    (step cfg (step cfg (step cfg s (.addVar x v)).1 (.setItem x u)).1 (.getVar x)).2 = .value u :=
  ⟨cfg0, enter init 0 0 0, 5, 50, 51, enter_ok ok_init _ _ _, by decide, rfl, rfl⟩

/-! ## C49 -/

/-- The members of a group in the active context (`get_entity_group`, base.py 282-297). -/
def groupAt (s : St) (g : Nat) : List Nat :=
  match s.vEnts with
  | none => []
  | some i => ((s.ents i).get? g).getD []

/-- The actors of the active context (`get_actors`, base.py 269-280). -/
def actorsAt (s : St) : List Nat :=
  match s.vLists with
  | none => []
  | some i => (s.lists i).actors

/-- The monitored resources of the active context (`get_monitored`, base.py 299-310). -/
def monitoredAt (s : St) : List Nat :=
  match s.vLists with
  | none => []
  | some i => (s.lists i).monitored

theorem groupAt_eq (s : St) (g : Nat) : groupAt s g = members (view s) g := by
  unfold groupAt members view
  cases s.vEnts <;> rfl

theorem actorsAt_eq (s : St) : actorsAt s = tracked (view s) .actor := by
  unfold actorsAt tracked view
  cases s.vLists <;> rfl

theorem monitoredAt_eq (s : St) : monitoredAt s = tracked (view s) .monitored := by
  unfold monitoredAt tracked view
  cases s.vLists <;> rfl

/-- The groups a class registers its instances in: none if it opted out, else those brought in by itself and by its ancestors
that did not opt out; each once. -/
theorem c49_groups (cs : List Cls) (h : Mro cs) (c : Nat) :
    ((groupsOf cs).getD c []).Nodup ∧ ∀ g, g ∈ (groupsOf cs).getD c [] ↔ InGroup cs c g :=
  ⟨nodup_groups cs c, mem_groupsOf cs h c⟩

open Classical in
/-- In a context, every group grows by exactly the instances made whose class is in that group, in the order they were made,
each once; likewise the actors and the monitored resources; creations inside inner blocks add nothing. Missing for the full
claim: classes that define `==` (`c49_equal_instances`), and the group names reserved in `SKIP_GROUPS` (`c49_reserved`). -/
theorem c49_registered_partial (cfg : Cfg) (hid : ∀ a b, cfg.eqv a b = decide (a = b)) (hord : ∀ l, (cfg.ord l).Perm l)
    (hm : Mro cfg.classes) (s : St) (hs : Ok s) (hctx : s.vLists ≠ none) (l : List Cmd) (hn : Nesteds l)
    (hd : (makess l).Nodup)
    (hnew : ∀ x ∈ makess l, (∀ g, x ∉ groupAt s g) ∧ x ∉ actorsAt s ∧ x ∉ monitoredAt s) :
    let r := execs cfg s l
    (∀ g, g ∉ cfg.skip → groupAt r.1 g = groupAt s g ++ ((madeIn r.2.2).filter fun x => decide (InGroup cfg.classes x.2 g)).map (·.1)) ∧
    actorsAt r.1 = actorsAt s ++ ((madeIn r.2.2).filter fun x => decide (specialOf cfg.classes x.2 = .actor)).map (·.1) ∧
    monitoredAt r.1 = monitoredAt s ++ ((madeIn r.2.2).filter fun x => decide (specialOf cfg.classes x.2 = .monitored)).map (·.1) := by
  intro r
  have h := execs_runs cfg l hs hn
  have a := evals_adds hid hord hm l (w := view s) (by simpa [view] using hctx) hd (by
    rintro x hx (⟨g, hg⟩ | ⟨k, hk⟩)
    · exact (hnew x hx).1 g (by rw [groupAt_eq]; exact hg)
    · cases k with
      | none => simp [tracked] at hk
      | actor => exact (hnew x hx).2.1 (by rw [actorsAt_eq]; exact hk)
      | monitored => exact (hnew x hx).2.2 (by rw [monitoredAt_eq]; exact hk))
  have ho : r.2.2 = (evals cfg (view s) l).2.2 := by rw [show r.2 = _ from h.out]
  refine ⟨?_, ?_, ?_⟩
  · intro g hg
    obtain ⟨p, hp, e⟩ := a.groups g
    rw [groupAt_eq, groupAt_eq, h.view, e, ho]
    congr 2
    apply List.filter_congr
    intro x _
    have := hp x.2
    simp only [hg, not_false_eq_true, and_true] at this
    by_cases hi : InGroup cfg.classes x.2 g
    · simp [this.2 hi, hi]
    · have : p x.2 = false := by
        cases hpx : p x.2 with
        | false => rfl
        | true => exact absurd (this.1 hpx) hi
      simp [this, hi]
  · rw [actorsAt_eq, actorsAt_eq, h.view, ho]
    exact a.special .actor (by decide)
  · rw [monitoredAt_eq, monitoredAt_eq, h.view, ho]
    exact a.special .monitored (by decide)

/-- An instance made in one context is not listed in another: what an inner block makes is not in any list outside, and what
was made outside is not in any list inside (`c46_fresh`). -/
theorem c49_separate_partial (cfg : Cfg) (s : St) (hs : Ok s) (c : Nat) (t : Rat) (rng : Nat) (body : List Cmd)
    (hn : Nested (.block c t rng body)) :
    let r := exec cfg s (.block c t rng body)
    (∀ g, groupAt r.1 g = groupAt s g) ∧ actorsAt r.1 = actorsAt s ∧ monitoredAt r.1 = monitoredAt s ∧
    (∀ g, groupAt (enter s c t rng) g = []) ∧ actorsAt (enter s c t rng) = [] ∧ monitoredAt (enter s c t rng) = [] := by
  intro r
  have h := (c46_restored_partial cfg s hs c t rng body hn).2.1
  refine ⟨fun g => ?_, ?_, ?_, fun g => ?_, ?_, ?_⟩
  · rw [groupAt_eq, groupAt_eq, h]
  · rw [actorsAt_eq, actorsAt_eq, h]
  · rw [monitoredAt_eq, monitoredAt_eq, h]
  · simp [groupAt, enter, Dict.get?]
  · simp [actorsAt, enter]
  · simp [monitoredAt, enter]

def progE : List Cmd := [.op (.make 1 0), .op (.make 2 1), .op (.make 3 2), .block 1 0 0 [.op (.make 4 1)], .op (.make 5 3)]

example : Nested (.block 0 0 0 progE) ∧ (makess progE).Nodup ∧ madeIn (evals cfg0 (fresh 0 0) progE).2.2 = [(1, 0), (2, 1), (3, 2), (5, 3)] ∧
    (evals cfg0 (fresh 0 0) progE).1.ents = some [(20, [1, 2, 5]), (10, [1, 2, 5]), (11, [2, 5])] := by
  refine ⟨by simp [Nested, Nesteds, progE, usess, uses], by decide, ?_, ?_⟩ <;> decide +kernel

example : Mro cfg0.classes := by
  intro c k hk
  have hc : c < 4 := (List.getElem?_eq_some_iff.1 hk).1
  have : c = 0 ∨ c = 1 ∨ c = 2 ∨ c = 3 := by omega
  rcases this with rfl | rfl | rfl | rfl <;> simp [cfg0] at hk <;> subst hk <;> simp [cfg0]

/-- The claim fails for classes with their own `==`: making a second, equal instance raises, and it is listed in some groups and
not in others. -/
theorem c49_equal_instances : ∃ (cfg : Cfg) (s : St), Ok s ∧ s.vLists ≠ none ∧
    (∀ l, (cfg.ord l).Perm l) ∧ Mro cfg.classes ∧
    let r := execs cfg s [.op (.make 1 0), .op (.make 2 1)]
    r.2.1 = true ∧ 2 ∈ groupAt r.1 11 ∧ InGroup cfg.classes 1 10 ∧ 2 ∉ groupAt r.1 10 := by
  refine ⟨⟨[⟨10, [], [], false, false, .none⟩, ⟨11, [0], [], false, false, .none⟩], [], [], fun _ _ => true, id⟩,
    enter init 0 0 0, enter_ok ok_init _ _ _, by simp [enter], fun l => List.Perm.refl l, ?_, by decide +kernel, by decide +kernel, ?_, by decide +kernel⟩
  · intro c k hk
    have hc : c < 2 := (List.getElem?_eq_some_iff.1 hk).1
    have : c = 0 ∨ c = 1 := by omega
    rcases this with rfl | rfl <;> simp at hk <;> subst hk <;> simp
  · exact ⟨_, rfl, rfl, Or.inr ⟨0, by simp, _, rfl, rfl, Or.inr ⟨rfl, rfl⟩⟩⟩

/-- The claim fails for the reserved group names: a class that declares one is not listed there. -/
theorem c49_reserved : ∃ (cfg : Cfg) (s : St), Ok s ∧ s.vLists ≠ none ∧
    let r := execs cfg s [.op (.make 1 0)]
    r.2.1 = false ∧ InGroup cfg.classes 0 99 ∧ groupAt r.1 99 = [] :=
  ⟨⟨[⟨10, [], [99], false, false, .none⟩], [99], [], fun a b => decide (a = b), id⟩, enter init 0 0 0,
    enter_ok ok_init _ _ _, by simp [enter], by decide +kernel, ⟨_, rfl, rfl, Or.inl ⟨rfl, Or.inl (by simp)⟩⟩, by decide +kernel⟩

end Verif.Ctx
