import Verif.Ctx.Spec

/-!
# The state shows what the specification says
-/

namespace Verif.Ctx

/-- Visible objects exist. -/
structure Ok (s : St) : Prop where
  env : ∀ i, s.vEnv = some i → i < s.next
  lists : ∀ i, s.vLists = some i → i < s.next
  ents : ∀ i, s.vEnts = some i → i < s.next
  stage : ∀ i, s.vStage = some i → i < s.next

/-- The same context. -/
structure SameVars (s s' : St) : Prop where
  env : s'.vEnv = s.vEnv
  lists : s'.vLists = s.vLists
  ents : s'.vEnts = s.vEnts
  stage : s'.vStage = s.vStage

/-- Objects that exist and are not visible stay as they are. -/
structure Frame (s s' : St) : Prop where
  next : s.next ≤ s'.next
  env : ∀ i, i < s.next → s.vEnv ≠ some i → s'.env i = s.env i
  lists : ∀ i, i < s.next → s.vLists ≠ some i → s'.lists i = s.lists i
  ents : ∀ i, i < s.next → s.vEnts ≠ some i → s'.ents i = s.ents i
  stage : ∀ i, i < s.next → s.vStage ≠ some i → s'.stage i = s.stage i

theorem SameVars.refl (s : St) : SameVars s s := ⟨rfl, rfl, rfl, rfl⟩

theorem SameVars.trans {a b c : St} (h : SameVars a b) (h' : SameVars b c) : SameVars a c :=
  ⟨h'.env.trans h.env, h'.lists.trans h.lists, h'.ents.trans h.ents, h'.stage.trans h.stage⟩

theorem Frame.refl (s : St) : Frame s s := ⟨Nat.le_refl _, fun _ _ _ => rfl, fun _ _ _ => rfl, fun _ _ _ => rfl, fun _ _ _ => rfl⟩

@[simp] theorem upd_self {α : Type} (f : Nat → α) (k : Nat) (v : α) : upd f k v k = v := by simp [upd]

theorem upd_ne {α : Type} (f : Nat → α) {k k' : Nat} (v : α) (h : k' ≠ k) : upd f k v k' = f k' := by simp [upd, h]

/-- What is needed of one operation: the variables only change if there was no dictionary of entities. -/
structure Good (cfg : Cfg) (s s' : St) (w' : View) : Prop where
  view : view s' = w'
  ok : Ok s'
  env : s'.vEnv = s.vEnv
  lists : s'.vLists = s.vLists
  stage : s'.vStage = s.vStage
  ents : s.vEnts ≠ none → s'.vEnts = s.vEnts
  newEnts : ∀ i, s'.vEnts = some i → s.vEnts = some i ∨ s.next ≤ i
  frame : Frame s s'
  ctxs : s'.ctxs = s.ctxs

theorem Good.refl {cfg : Cfg} {s : St} (h : Ok s) : Good cfg s s (Ctx.view s) :=
  ⟨rfl, h, rfl, rfl, rfl, fun _ => rfl, fun _ hi => Or.inl hi, .refl s, rfl⟩

/-- Doing two things that keep to the rules. -/
theorem frame_trans {a b c : St} (h : Frame a b) (h' : Frame b c) (h1 : b.vEnv = a.vEnv) (h2 : b.vLists = a.vLists)
    (h3 : ∀ i, b.vEnts = some i → a.vEnts = some i ∨ a.next ≤ i) (h4 : b.vStage = a.vStage) : Frame a c := by
  refine ⟨Nat.le_trans h.next h'.next, ?_, ?_, ?_, ?_⟩
  · intro i hi hv; rw [h'.env i (Nat.lt_of_lt_of_le hi h.next) (by rw [h1]; exact hv), h.env i hi hv]
  · intro i hi hv; rw [h'.lists i (Nat.lt_of_lt_of_le hi h.next) (by rw [h2]; exact hv), h.lists i hi hv]
  · intro i hi hv
    rw [h'.ents i (Nat.lt_of_lt_of_le hi h.next) ?_, h.ents i hi hv]
    intro hc
    rcases h3 i hc with h | h
    · exact hv h
    · omega
  · intro i hi hv; rw [h'.stage i (Nat.lt_of_lt_of_le hi h.next) (by rw [h4]; exact hv), h.stage i hi hv]

theorem Good.trans {cfg : Cfg} {a b c : St} {w w' : View} (h : Good cfg a b w) (h' : Good cfg b c w') : Good cfg a c w' := by
  refine ⟨h'.view, h'.ok, h'.env.trans h.env, h'.lists.trans h.lists, h'.stage.trans h.stage, ?_, ?_,
    frame_trans h.frame h'.frame h.env h.lists h.newEnts h.stage, h'.ctxs.trans h.ctxs⟩
  · intro hn
    have := h.ents hn
    rw [h'.ents (by rw [this]; exact hn), this]
  · intro i hi
    rcases h'.newEnts i hi with h1 | h1
    · exact h.newEnts i h1
    · exact Or.inr (Nat.le_trans h.frame.next h1)

theorem addToGroup_good {cfg : Cfg} {s : St} (h : Ok s) (obj g : Nat) :
    Good cfg s (addToGroup cfg s obj g).1 (vAddToGroup cfg (view s) obj g).1 ∧
    (addToGroup cfg s obj g).2 = (vAddToGroup cfg (view s) obj g).2 := by
  unfold addToGroup vAddToGroup
  cases hv : s.vEnts with
  | none =>
    simp only [view, hv, Option.map_none]
    refine ⟨⟨?_, ?_, rfl, rfl, rfl, ?_, ?_, ?_, rfl⟩, by simp⟩
    · simp [view]
    · exact ⟨fun i hi => Nat.lt_succ_of_lt (h.env i hi), fun i hi => Nat.lt_succ_of_lt (h.lists i hi),
        fun i hi => by simp only [Option.some.injEq] at hi; dsimp only; omega, fun i hi => Nat.lt_succ_of_lt (h.stage i hi)⟩
    · intro hc; exact absurd hv hc
    · intro i hi; simp only [Option.some.injEq] at hi; exact Or.inr (by omega)
    · refine ⟨Nat.le_succ _, fun _ _ _ => rfl, fun _ _ _ => rfl, ?_, fun _ _ _ => rfl⟩
      intro i hi _
      exact upd_ne _ _ (Nat.ne_of_lt hi)
  | some j =>
    simp only [view, hv, Option.map_some]
    have key : ∀ d : Dict Nat (List Nat), Good cfg s { s with ents := upd s.ents j d }
        ⟨s.vEnv.map s.env, s.vLists.map s.lists, some d, s.vStage.map s.stage⟩ := by
      intro d
      refine ⟨by simp [view, hv], ⟨h.env, h.lists, h.ents, h.stage⟩, rfl, rfl, rfl, fun _ => rfl, fun i hi => Or.inl hi, ?_, rfl⟩
      refine ⟨Nat.le_refl _, fun _ _ _ => rfl, fun _ _ _ => rfl, ?_, fun _ _ _ => rfl⟩
      intro i _ hne
      exact upd_ne _ _ (fun hc => hne (by rw [hv, hc]))
    by_cases ha : ((s.ents j).get? g |>.getD []).any (fun o => cfg.eqv obj o) = true
    · simp only [ha, if_true]
      refine ⟨?_, trivial⟩
      have := key ((s.ents j).set g (((s.ents j).get? g).getD []))
      simpa [hv] using this
    · simp only [ha, Bool.false_eq_true, if_false]
      refine ⟨?_, trivial⟩
      have := key ((s.ents j).set g (((s.ents j).get? g).getD [] ++ [obj]))
      simpa [hv] using this

theorem addGroups_good {cfg : Cfg} (obj : Nat) (l : List Nat) : ∀ {s : St}, Ok s →
    Good cfg s (addGroups cfg obj l s).1 (vAddGroups cfg obj l (view s)).1 ∧
    (addGroups cfg obj l s).2 = (vAddGroups cfg obj l (view s)).2 := by
  induction l with
  | nil => intro s h; exact ⟨.refl h, rfl⟩
  | cons g r ih =>
    intro s h
    unfold addGroups vAddGroups
    by_cases hg : g ∈ cfg.skip
    · rw [if_pos hg, if_pos hg]; exact ih h
    · rw [if_neg hg, if_neg hg]
      obtain ⟨h1, h2⟩ := addToGroup_good (cfg := cfg) h obj g
      dsimp only
      rw [← h2]
      cases hb : (addToGroup cfg s obj g).2 with
      | false => simp only [Bool.false_eq_true, if_false]; exact ⟨h1, trivial⟩
      | true =>
        simp only [if_true]
        obtain ⟨h3, h4⟩ := ih h1.ok
        rw [h1.view] at h3 h4
        exact ⟨h1.trans h3, h4⟩

theorem lists_good {cfg : Cfg} {s : St} (h : Ok s) {j : Nat} (hv : s.vLists = some j) (l : Lists) :
    Good cfg s { s with vLists := some j, lists := upd s.lists j l } { view s with lists := some l } := by
  rw [show ({ s with vLists := some j, lists := upd s.lists j l } : St) = { s with lists := upd s.lists j l } by rw [← hv]]
  refine ⟨by simp [view, hv], ⟨h.env, h.lists, h.ents, h.stage⟩, rfl, rfl, rfl, fun _ => rfl, fun i hi => Or.inl hi, ?_, rfl⟩
  refine ⟨Nat.le_refl _, fun _ _ _ => rfl, ?_, fun _ _ _ => rfl, fun _ _ _ => rfl⟩
  intro i _ hne
  exact upd_ne _ _ (fun hc => hne (by rw [hv, hc]))

theorem stage_good {cfg : Cfg} {s : St} (h : Ok s) {j : Nat} (hv : s.vStage = some j) (d : Dict Nat Nat) :
    Good cfg s { s with vStage := some j, stage := upd s.stage j d } { view s with stage := some d } := by
  rw [show ({ s with vStage := some j, stage := upd s.stage j d } : St) = { s with stage := upd s.stage j d } by rw [← hv]]
  refine ⟨by simp [view, hv], ⟨h.env, h.lists, h.ents, h.stage⟩, rfl, rfl, rfl, fun _ => rfl, fun i hi => Or.inl hi, ?_, rfl⟩
  refine ⟨Nat.le_refl _, fun _ _ _ => rfl, fun _ _ _ => rfl, fun _ _ _ => rfl, ?_⟩
  intro i _ hne
  exact upd_ne _ _ (fun hc => hne (by rw [hv, hc]))

theorem env_good {cfg : Cfg} {s : St} (h : Ok s) {j : Nat} (hv : s.vEnv = some j) (t : Rat) :
    Good cfg s { s with vEnv := some j, env := upd s.env j t } { view s with env := some t } := by
  rw [show ({ s with vEnv := some j, env := upd s.env j t } : St) = { s with env := upd s.env j t } by rw [← hv]]
  refine ⟨by simp [view, hv], ⟨h.env, h.lists, h.ents, h.stage⟩, rfl, rfl, rfl, fun _ => rfl, fun i hi => Or.inl hi, ?_, rfl⟩
  refine ⟨Nat.le_refl _, ?_, fun _ _ _ => rfl, fun _ _ _ => rfl, fun _ _ _ => rfl⟩
  intro i _ hne
  exact upd_ne _ _ (fun hc => hne (by rw [hv, hc]))

theorem addSpecial_good {cfg : Cfg} {s : St} (h : Ok s) (obj : Nat) (k : Special) :
    Good cfg s (addSpecial cfg s obj k).1 (vAddSpecial cfg (view s) obj k).1 ∧
    (addSpecial cfg s obj k).2 = (vAddSpecial cfg (view s) obj k).2 := by
  cases k with
  | none => exact ⟨.refl h, rfl⟩
  | actor =>
    unfold addSpecial vAddSpecial
    cases hv : s.vLists with
    | none => simp only [view, hv, Option.map_none]; refine ⟨?_, trivial⟩; simpa [view, hv] using Good.refl (cfg := cfg) h
    | some j =>
      have e : (view s).lists = some (s.lists j) := by simp [view, hv]
      rw [e]
      dsimp only
      split
      · exact ⟨.refl h, rfl⟩
      · exact ⟨lists_good h hv _, rfl⟩
  | monitored =>
    unfold addSpecial vAddSpecial
    cases hv : s.vLists with
    | none => simp only [view, hv, Option.map_none]; refine ⟨?_, trivial⟩; simpa [view, hv] using Good.refl (cfg := cfg) h
    | some j =>
      have e : (view s).lists = some (s.lists j) := by simp [view, hv]
      rw [e]
      dsimp only
      split
      · exact ⟨.refl h, rfl⟩
      · exact ⟨lists_good h hv _, rfl⟩

theorem step_good {cfg : Cfg} {s : St} (h : Ok s) (o : Op) :
    Good cfg s (step cfg s o).1 (vstep cfg (view s) o).1 ∧ (step cfg s o).2 = (vstep cfg (view s) o).2 := by
  cases o with
  | make obj c =>
    cases hc : cfg.classes[c]? with
    | none => simp only [step, vstep, hc]; exact ⟨.refl h, trivial⟩
    | some k =>
      simp only [step, vstep, hc]
      obtain ⟨h1, h2⟩ := addGroups_good (cfg := cfg) obj (cfg.ord ((groupsOf cfg.classes).getD c [])) h
      rw [← h2]
      split
      · obtain ⟨h3, h4⟩ := addSpecial_good (cfg := cfg) h1.ok obj k.special
        rw [h1.view] at h3 h4
        refine ⟨h1.trans h3, by rw [h4]⟩
      · exact ⟨h1, rfl⟩
  | record v =>
    unfold step vstep
    cases hl : s.vLists with
    | none =>
      have e : (view s).lists = none := by simp [view, hl]
      rw [e]; exact ⟨.refl h, rfl⟩
    | some j =>
      have e : (view s).lists = some (s.lists j) := by simp [view, hl]
      rw [e]
      cases hv : s.vEnv with
      | none =>
        have e : (view s).env = none := by simp [view, hv]
        rw [e]; exact ⟨.refl h, rfl⟩
      | some i =>
        have e : (view s).env = some (s.env i) := by simp [view, hv]
        rw [e]
        refine ⟨?_, rfl⟩
        have g := lists_good (cfg := cfg) h hl { s.lists j with recorded := (s.lists j).recorded ++ [(s.env i, v)] }
        dsimp only at g
        rw [hv, e] at g
        exact g
  | runTo t =>
    unfold step vstep
    cases hv : s.vEnv with
    | none =>
      have e : (view s).env = none := by simp [view, hv]
      rw [e]; exact ⟨.refl h, rfl⟩
    | some i =>
      have e : (view s).env = some (s.env i) := by simp [view, hv]
      rw [e]
      dsimp only
      split
      · exact ⟨env_good h hv _, rfl⟩
      · exact ⟨.refl h, rfl⟩
  | addVar x v =>
    unfold step vstep
    cases hv : s.vStage with
    | none =>
      have e : (view s).stage = none := by simp [view, hv]
      rw [e]; exact ⟨.refl h, rfl⟩
    | some i =>
      have e : (view s).stage = some (s.stage i) := by simp [view, hv]
      rw [e]
      dsimp only
      split
      · exact ⟨.refl h, rfl⟩
      · exact ⟨stage_good h hv _, rfl⟩
  | setAttr x v =>
    unfold step vstep
    cases hv : s.vStage with
    | none =>
      have e : (view s).stage = none := by simp [view, hv]
      rw [e]; exact ⟨.refl h, rfl⟩
    | some i =>
      have e : (view s).stage = some (s.stage i) := by simp [view, hv]
      rw [e]
      dsimp only
      split
      · exact ⟨.refl h, rfl⟩
      · exact ⟨stage_good h hv _, rfl⟩
  | setItem x v =>
    unfold step vstep
    cases hv : s.vStage with
    | none =>
      have e : (view s).stage = none := by simp [view, hv]
      rw [e]; exact ⟨.refl h, rfl⟩
    | some i =>
      have e : (view s).stage = some (s.stage i) := by simp [view, hv]
      rw [e]
      exact ⟨stage_good h hv _, rfl⟩
  | delAttr x =>
    unfold step vstep
    cases hv : s.vStage with
    | none =>
      have e : (view s).stage = none := by simp [view, hv]
      rw [e]; exact ⟨.refl h, rfl⟩
    | some i =>
      have e : (view s).stage = some (s.stage i) := by simp [view, hv]
      rw [e]
      dsimp only
      split
      · exact ⟨stage_good h hv _, rfl⟩
      · exact ⟨.refl h, rfl⟩
  | getVar x =>
    unfold step vstep
    cases hv : s.vStage with
    | none =>
      have e : (view s).stage = none := by simp [view, hv]
      rw [e]; exact ⟨.refl h, rfl⟩
    | some i =>
      have e : (view s).stage = some (s.stage i) := by simp [view, hv]
      rw [e]
      dsimp only
      cases (s.stage i).get? x with
      | none => exact ⟨.refl h, rfl⟩
      | some v => exact ⟨.refl h, rfl⟩

/-- What holds of a run: as `Good`, but the tokens of contexts entered meanwhile may change. -/
structure Runs (s : St) (r : St × Bool × List Out) (e : View × Bool × List Out) (used : List Nat) : Prop where
  view : Ctx.view r.1 = e.1
  out : r.2 = e.2
  ok : Ok r.1
  env : r.1.vEnv = s.vEnv
  lists : r.1.vLists = s.vLists
  stage : r.1.vStage = s.vStage
  ents : s.vEnts ≠ none → r.1.vEnts = s.vEnts
  newEnts : ∀ i, r.1.vEnts = some i → s.vEnts = some i ∨ s.next ≤ i
  frame : Frame s r.1
  ctxs : ∀ c, c ∉ used → r.1.ctxs c = s.ctxs c

theorem enter_ok {s : St} (h : Ok s) (c : Nat) (t : Rat) (rng : Nat) : Ok (enter s c t rng) := by
  refine ⟨?_, ?_, ?_, ?_⟩ <;> intro i hi <;> simp only [enter, Option.some.injEq] at hi ⊢ <;> omega

theorem view_enter (s : St) (c : Nat) (t : Rat) (rng : Nat) : view (enter s c t rng) = fresh t rng := by
  simp [view, enter, fresh]

mutual
theorem exec_runs (cfg : Cfg) : ∀ (cmd : Cmd) {s : St}, Ok s → Nested cmd → Runs s (exec cfg s cmd) (eval cfg (view s) cmd) (uses cmd)
  | .op o, s, h, _ => by
    obtain ⟨h1, h2⟩ := step_good (cfg := cfg) h o
    unfold exec eval
    exact ⟨h1.view, by rw [h2], h1.ok, h1.env, h1.lists, h1.stage, h1.ents, h1.newEnts, h1.frame, fun c _ => by rw [h1.ctxs]⟩
  | .attempt body, s, h, hn => by
    have r := execs_runs cfg body h (by simpa [Nested] using hn)
    unfold exec eval
    refine ⟨r.view, ?_, r.ok, r.env, r.lists, r.stage, r.ents, r.newEnts, r.frame, ?_⟩
    · dsimp only; rw [r.out]
    · intro c hc; exact r.ctxs c (by simpa [uses] using hc)
  | .block c t rng body, s, h, hn => by
    simp only [Nested] at hn
    have r := execs_runs cfg body (enter_ok h c t rng) hn.2
    rw [view_enter] at r
    have hc : (execs cfg (enter s c t rng) body).1.ctxs c = some ⟨s.vEnv, s.vLists, s.vEnts, s.vStage, false⟩ := by
      rw [r.ctxs c hn.1]; simp [enter]
    have hv : (execs cfg (enter s c t rng) body).1.vEnts = some s.next := by
      rw [r.ents (by simp [enter])]; rfl
    have hfr := r.frame
    have hout := r.out
    have hctx := r.ctxs
    unfold exec eval
    generalize execs cfg (enter s c t rng) body = q at hc hfr hout hctx
    simp only [exit, hc, Bool.false_eq_true, if_false]
    have hnx : s.next < q.1.next := Nat.lt_of_lt_of_le (Nat.lt_succ_self _) hfr.next
    have f1 : ∀ i, i < s.next → q.1.env i = s.env i := by
      intro i hi
      rw [hfr.env i (by simp only [enter]; omega) (by simp only [enter, ne_eq, Option.some.injEq]; omega)]
      simp only [enter]; exact upd_ne _ _ (by omega)
    have f2 : ∀ i, i < s.next → q.1.lists i = s.lists i := by
      intro i hi
      rw [hfr.lists i (by simp only [enter]; omega) (by simp only [enter, ne_eq, Option.some.injEq]; omega)]
      simp only [enter]; exact upd_ne _ _ (by omega)
    have f3 : ∀ i, i < s.next → q.1.ents i = s.ents i := by
      intro i hi
      rw [hfr.ents i (by simp only [enter]; omega) (by simp only [enter, ne_eq, Option.some.injEq]; omega)]
      simp only [enter]; exact upd_ne _ _ (by omega)
    have f4 : ∀ i, i < s.next → q.1.stage i = s.stage i := by
      intro i hi
      rw [hfr.stage i (by simp only [enter]; omega) (by simp only [enter, ne_eq, Option.some.injEq]; omega)]
      simp only [enter]; exact upd_ne _ _ (by omega)
    have om : ∀ {α : Type} (o : Option Nat) (f g : Nat → α), (∀ i, o = some i → f i = g i) → o.map f = o.map g := by
      intro α o f g hh
      cases o with
      | none => rfl
      | some i => simp [hh i rfl]
    refine ⟨?_, ?_, ?_, rfl, rfl, rfl, fun _ => rfl, fun i hi => Or.inl hi, ?_, ?_⟩
    · simp only [view]
      rw [om s.vEnv _ s.env fun i hi => f1 i (h.env i hi), om s.vLists _ s.lists fun i hi => f2 i (h.lists i hi),
        om s.vEnts _ s.ents fun i hi => f3 i (h.ents i hi), om s.vStage _ s.stage fun i hi => f4 i (h.stage i hi)]
    · dsimp only; rw [hout]; simp
    · exact ⟨fun i hi => Nat.lt_trans (h.env i hi) hnx, fun i hi => Nat.lt_trans (h.lists i hi) hnx,
        fun i hi => Nat.lt_trans (h.ents i hi) hnx, fun i hi => Nat.lt_trans (h.stage i hi) hnx⟩
    · exact ⟨Nat.le_of_lt hnx, fun i hi _ => f1 i hi, fun i hi _ => f2 i hi, fun i hi _ => f3 i hi, fun i hi _ => f4 i hi⟩
    · intro c' hc'
      simp only [uses, List.mem_cons, not_or] at hc'
      dsimp only
      rw [upd_ne _ _ hc'.1, hctx c' hc'.2]
      simp only [enter]
      exact upd_ne _ _ hc'.1
theorem execs_runs (cfg : Cfg) : ∀ (l : List Cmd) {s : St}, Ok s → Nesteds l →
    Runs s (execs cfg s l) (evals cfg (view s) l) (usess l)
  | [], s, h, _ => by
    unfold execs evals
    exact ⟨rfl, rfl, h, rfl, rfl, rfl, fun _ => rfl, fun i hi => Or.inl hi, .refl s, fun _ _ => rfl⟩
  | cmd :: rest, s, h, hn => by
    simp only [Nesteds] at hn
    have a := exec_runs cfg cmd h hn.1
    have b := execs_runs cfg rest a.ok hn.2
    rw [a.view] at b
    have hctx : ∀ c, c ∉ usess (cmd :: rest) → c ∉ uses cmd ∧ c ∉ usess rest := by
      intro c hc
      simpa [usess] using hc
    unfold execs evals
    dsimp only
    rw [show (eval cfg (view s) cmd).2 = (exec cfg s cmd).2 from a.out.symm]
    by_cases hf : (exec cfg s cmd).2.1 = true
    · rw [if_pos hf, if_pos hf]
      exact ⟨a.view, a.out, a.ok, a.env, a.lists, a.stage, a.ents, a.newEnts, a.frame, fun c hc => a.ctxs c (hctx c hc).1⟩
    · rw [if_neg hf, if_neg hf]
      refine ⟨b.view, ?_, b.ok, b.env.trans a.env, b.lists.trans a.lists, b.stage.trans a.stage, ?_, ?_,
        frame_trans a.frame b.frame a.env a.lists a.newEnts a.stage, ?_⟩
      · dsimp only; rw [b.out]
      · intro hne
        have := a.ents hne
        dsimp only
        rw [b.ents (by rw [this]; exact hne), this]
      · intro i hi
        rcases b.newEnts i hi with h1 | h1
        · exact a.newEnts i h1
        · exact Or.inr (Nat.le_trans a.frame.next h1)
      · intro c hc
        dsimp only
        rw [b.ctxs c (hctx c hc).2, a.ctxs c (hctx c hc).1]
end

end Verif.Ctx
