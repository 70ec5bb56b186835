import Verif.Ctx.Props

/-! # C80: the order of the groups of a class

The groups of an entity class are a set (base.py 411-421). Whatever the order in which a new instance is added to them, everything in the
context is the same afterwards. -/

namespace Verif.Orders.Ctx

open Verif.Ctx

/-- Two views that show the same; only the order of the group names may differ. -/
structure Alike (w w' : View) : Prop where
  env : w'.env = w.env
  lists : w'.lists = w.lists
  stage : w'.stage = w.stage
  members : ∀ g, members w' g = members w g

theorem Alike.refl (w : View) : Alike w w := ⟨rfl, rfl, rfl, fun _ => rfl⟩

mutual
/-- Whatever is made in a block is made once. -/
def Once : Cmd → Prop
  | .op _ => True
  | .block _ _ _ body => (makess body).Nodup ∧ Onces body
  | .attempt body => Onces body
def Onces : List Cmd → Prop
  | [] => True
  | c :: r => Once c ∧ Onces r
end

theorem keep_toGroup (cfg : Cfg) (w : View) (obj g : Nat) :
    (vAddToGroup cfg w obj g).1.env = w.env ∧ (vAddToGroup cfg w obj g).1.stage = w.stage := by
  unfold vAddToGroup
  split
  · split <;> exact ⟨rfl, rfl⟩
  · exact ⟨rfl, rfl⟩

theorem keep_groups (cfg : Cfg) (obj : Nat) : ∀ (l : List Nat) (w : View),
    (vAddGroups cfg obj l w).1.env = w.env ∧ (vAddGroups cfg obj l w).1.stage = w.stage
  | [], _ => ⟨rfl, rfl⟩
  | g :: r, w => by
    unfold vAddGroups
    have k := keep_toGroup cfg w obj g
    split
    · exact keep_groups cfg obj r w
    · split
      · have := keep_groups cfg obj r (vAddToGroup cfg w obj g).1
        exact ⟨this.1.trans k.1, this.2.trans k.2⟩
      · exact k

theorem special_alike (cfg : Cfg) (o : List Nat → List Nat) {w w' : View} (h : Alike w w') (obj : Nat) (k : Special) :
    Alike (vAddSpecial cfg w obj k).1 (vAddSpecial { cfg with ord := o } w' obj k).1 ∧
      (vAddSpecial { cfg with ord := o } w' obj k).2 = (vAddSpecial cfg w obj k).2 := by
  unfold vAddSpecial
  cases k with
  | none => exact ⟨h, rfl⟩
  | actor =>
    simp only [h.lists]
    split
    · exact ⟨h, rfl⟩
    · split
      · exact ⟨h, rfl⟩
      · exact ⟨⟨h.env, rfl, h.stage, h.members⟩, rfl⟩
  | monitored =>
    simp only [h.lists]
    split
    · exact ⟨h, rfl⟩
    · split
      · exact ⟨h, rfl⟩
      · exact ⟨⟨h.env, rfl, h.stage, h.members⟩, rfl⟩

theorem step_alike {cfg : Cfg} (hid : ∀ a b, cfg.eqv a b = decide (a = b)) (hord : ∀ l, (cfg.ord l).Perm l)
    {o : List Nat → List Nat} (ho : ∀ l, (o l).Perm l) {w w' : View} (h : Alike w w') (op : Op)
    (hf : ∀ x ∈ makes (.op op), ¬ Listed w x) :
    Alike (vstep cfg w op).1 (vstep { cfg with ord := o } w' op).1 ∧ (vstep { cfg with ord := o } w' op).2 = (vstep cfg w op).2 := by
  cases op with
  | make obj c =>
    simp only [vstep]
    cases hc : cfg.classes[c]? with
    | none => exact ⟨h, rfl⟩
    | some k =>
      have hp := hord ((groupsOf cfg.classes).getD c [])
      have hp' := ho ((groupsOf cfg.classes).getD c [])
      have nl : ∀ g, obj ∉ members w g := fun g hg => hf obj (by simp [makes]) (Or.inl ⟨g, hg⟩)
      obtain ⟨h1, h2, h3⟩ := vAddGroups_new (cfg := cfg) (obj := obj) hid (cfg.ord ((groupsOf cfg.classes).getD c [])) (w := w)
        (hp.nodup_iff.2 (nodup_groups _ _)) nl
      obtain ⟨g1, g2, g3⟩ := vAddGroups_new (cfg := { cfg with ord := o }) (obj := obj) hid (o ((groupsOf cfg.classes).getD c [])) (w := w')
        (hp'.nodup_iff.2 (nodup_groups _ _)) (fun g => by rw [h.members]; exact nl g)
      have k1 := keep_groups cfg obj (cfg.ord ((groupsOf cfg.classes).getD c [])) w
      have k2 := keep_groups { cfg with ord := o } obj (o ((groupsOf cfg.classes).getD c [])) w'
      have A : Alike (vAddGroups cfg obj (cfg.ord ((groupsOf cfg.classes).getD c [])) w).1
          (vAddGroups { cfg with ord := o } obj (o ((groupsOf cfg.classes).getD c [])) w').1 := by
        refine ⟨k2.1.trans (h.env.trans k1.1.symm), g3.trans (h.lists.trans h3.symm), k2.2.trans (h.stage.trans k1.2.symm), fun g => ?_⟩
        rw [g2, h2, h.members]
        simp only [hp.mem_iff, hp'.mem_iff]
      have B := special_alike cfg o A obj k.special
      simp only [h1, g1, if_true]
      exact ⟨B.1, by rw [B.2]⟩
  | record v =>
    simp only [vstep, h.lists, h.env]
    split
    · exact ⟨⟨rfl, rfl, h.stage, h.members⟩, rfl⟩
    · exact ⟨h, rfl⟩
  | runTo t =>
    simp only [vstep, h.env]
    split
    · exact ⟨h, rfl⟩
    · split
      · exact ⟨⟨rfl, h.lists, h.stage, h.members⟩, rfl⟩
      · exact ⟨h, rfl⟩
  | addVar x v =>
    simp only [vstep, h.stage]
    split
    · exact ⟨h, rfl⟩
    · split
      · exact ⟨h, rfl⟩
      · exact ⟨⟨h.env, h.lists, rfl, h.members⟩, rfl⟩
  | setAttr x v =>
    simp only [vstep, h.stage]
    split
    · exact ⟨h, rfl⟩
    · split
      · exact ⟨h, rfl⟩
      · exact ⟨⟨h.env, h.lists, rfl, h.members⟩, rfl⟩
  | setItem x v =>
    simp only [vstep, h.stage]
    split
    · exact ⟨h, rfl⟩
    · exact ⟨⟨h.env, h.lists, rfl, h.members⟩, rfl⟩
  | delAttr x =>
    simp only [vstep, h.stage]
    split
    · exact ⟨h, rfl⟩
    · split
      · exact ⟨⟨h.env, h.lists, rfl, h.members⟩, rfl⟩
      · exact ⟨h, rfl⟩
  | getVar x =>
    simp only [vstep, h.stage]
    split
    · exact ⟨h, rfl⟩
    · split
      · exact ⟨h, rfl⟩
      · exact ⟨h, rfl⟩

theorem not_listed_fresh (t : Rat) (rng x : Nat) : ¬ Listed (fresh t rng) x := by
  rintro (⟨g, h⟩ | ⟨k, h⟩)
  · simp [fresh, Verif.Ctx.members] at h
  · cases k <;> simp [fresh, tracked] at h

mutual
theorem eval_alike {cfg : Cfg} (hid : ∀ a b, cfg.eqv a b = decide (a = b)) (hord : ∀ l, (cfg.ord l).Perm l) (hm : Mro cfg.classes)
    {o : List Nat → List Nat} (ho : ∀ l, (o l).Perm l) : ∀ (cmd : Cmd) {w w' : View}, Alike w w' → w.lists ≠ none → Once cmd →
    (makes cmd).Nodup → (∀ x ∈ makes cmd, ¬ Listed w x) →
    Alike (eval cfg w cmd).1 (eval { cfg with ord := o } w' cmd).1 ∧ (eval { cfg with ord := o } w' cmd).2 = (eval cfg w cmd).2
  | .op op, w, w', h, _, _, _, hf => by
    unfold eval
    obtain ⟨h1, h2⟩ := step_alike hid hord ho h op hf
    exact ⟨h1, by rw [h2]⟩
  | .block c t rng body, w, w', h, _, hO, _, _ => by
    unfold eval
    simp only [Once] at hO
    have := evals_alike hid hord hm ho body (Alike.refl (fresh t rng)) (by simp [fresh]) hO.2 hO.1 (fun x _ => not_listed_fresh t rng x)
    exact ⟨h, by rw [this.2]⟩
  | .attempt body, w, w', h, hl, hO, hd, hf => by
    unfold eval
    simp only [Once] at hO
    simp only [makes] at hd hf
    have := evals_alike hid hord hm ho body h hl hO hd hf
    exact ⟨this.1, by rw [this.2]⟩
theorem evals_alike {cfg : Cfg} (hid : ∀ a b, cfg.eqv a b = decide (a = b)) (hord : ∀ l, (cfg.ord l).Perm l) (hm : Mro cfg.classes)
    {o : List Nat → List Nat} (ho : ∀ l, (o l).Perm l) : ∀ (l : List Cmd) {w w' : View}, Alike w w' → w.lists ≠ none → Onces l →
    (makess l).Nodup → (∀ x ∈ makess l, ¬ Listed w x) →
    Alike (evals cfg w l).1 (evals { cfg with ord := o } w' l).1 ∧ (evals { cfg with ord := o } w' l).2 = (evals cfg w l).2
  | [], w, w', h, _, _, _, _ => by
    unfold evals
    exact ⟨h, rfl⟩
  | cmd :: rest, w, w', h, hl, hO, hd, hf => by
    simp only [makess] at hd hf
    simp only [Onces] at hO
    rw [List.nodup_append] at hd
    have hf1 : ∀ x ∈ makes cmd, ¬ Listed w x := fun x hx => hf x (List.mem_append_left _ hx)
    have a := eval_adds hid hord hm cmd hl hd.1 hf1
    obtain ⟨h1, h2⟩ := eval_alike hid hord hm ho cmd h hl hO.1 hd.1 hf1
    unfold evals
    rw [h2]
    by_cases hr : (eval cfg w cmd).2.1 = true
    · rw [if_pos hr, if_pos hr]
      exact ⟨h1, h2⟩
    · rw [if_neg hr, if_neg hr]
      have b := evals_alike hid hord hm ho rest h1 a.lists hO.2 hd.2.1 fun x hx hc => by
        rcases a.mem hc with h | h
        · exact hf x (List.mem_append_right _ hx) h
        · exact hd.2.2 x h x hx rfl
      exact ⟨b.1, by rw [b.2]⟩
end

/-- **C80.** A program that makes every entity once sees the same, whatever the order in which the groups of a class are gone through:
every operation has the same outcome, in every context it enters; and in the end everybody is in the same place of the same groups, and
the actors, the monitored resources, the recorded data, the clock and the stage are the same. -/
theorem c80_groups (cfg : Cfg) (hid : ∀ a b, cfg.eqv a b = decide (a = b)) (hord : ∀ l, (cfg.ord l).Perm l) (hm : Mro cfg.classes)
    (o : List Nat → List Nat) (ho : ∀ l, (o l).Perm l) (s : St) (hs : Ok s) (hctx : s.vLists ≠ none) (l : List Cmd) (hn : Nesteds l)
    (hO : Onces l) (hd : (makess l).Nodup)
    (hnew : ∀ x ∈ makess l, (∀ g, x ∉ groupAt s g) ∧ x ∉ actorsAt s ∧ x ∉ monitoredAt s) :
    let r := execs cfg s l
    let r' := execs { cfg with ord := o } s l
    r'.2 = r.2 ∧ (∀ g, groupAt r'.1 g = groupAt r.1 g) ∧ actorsAt r'.1 = actorsAt r.1 ∧ monitoredAt r'.1 = monitoredAt r.1 ∧
      (view r'.1).env = (view r.1).env ∧ (view r'.1).stage = (view r.1).stage ∧ (view r'.1).lists = (view r.1).lists := by
  intro r r'
  have h := execs_runs cfg l hs hn
  have h' := execs_runs { cfg with ord := o } l hs hn
  obtain ⟨A, e⟩ := evals_alike hid hord hm ho l (Alike.refl (view s)) (by simpa [view] using hctx) hO hd (by
    intro x hx
    obtain ⟨a, b, c⟩ := hnew x hx
    rintro (⟨g, hg⟩ | ⟨k, hk⟩)
    · exact a g (by rw [groupAt_eq]; exact hg)
    · cases k with
      | none => simp [tracked] at hk
      | actor => exact b (by rw [actorsAt_eq]; exact hk)
      | monitored => exact c (by rw [monitoredAt_eq]; exact hk))
  have hv : view r.1 = (evals cfg (view s) l).1 := h.view
  have hv' : view r'.1 = (evals { cfg with ord := o } (view s) l).1 := h'.view
  have ht : ∀ k, tracked (view r'.1) k = tracked (view r.1) k := by
    intro k
    rw [hv, hv']
    cases k <;> unfold tracked <;> rw [A.lists]
  refine ⟨(show r'.2 = _ from h'.out).trans (e.trans (show r.2 = _ from h.out).symm), fun g => ?_, ?_, ?_, ?_, ?_, ?_⟩
  · rw [groupAt_eq, groupAt_eq, hv, hv', A.members]
  · rw [actorsAt_eq, actorsAt_eq, ht]
  · rw [monitoredAt_eq, monitoredAt_eq, ht]
  · rw [hv, hv', A.env]
  · rw [hv, hv', A.stage]
  · rw [hv, hv', A.lists]

/-- The program of C49, its classes gone through from the front and from the back. -/
example : Onces progE ∧ (makess progE).Nodup ∧ Nesteds progE ∧ (∀ l : List Nat, (l.reverse).Perm l) ∧
    groupAt (execs cfg0 (enter init 0 0 0) progE).1 10 ≠ [] :=
  ⟨by simp [Onces, Once, progE, makess, makes], by decide +kernel, by simp [progE, Nesteds, Nested, usess, uses], fun l => l.reverse_perm, by decide +kernel⟩

/-- **C80: the negative part.** If a class defines `==`, a second instance equal to one of a group can not be made; whether it is left
behind in another group depends on the order. -/
theorem c80_groups_equal : ∃ (cfg : Cfg) (o : List Nat → List Nat) (s : St), (∀ l, (cfg.ord l).Perm l) ∧ (∀ l, (o l).Perm l) ∧ Ok s ∧
    groupAt (execs cfg s [.op (.make 1 0), .op (.make 2 1)]).1 11 = [2] ∧
    groupAt (execs { cfg with ord := o } s [.op (.make 1 0), .op (.make 2 1)]).1 11 = [] :=
  ⟨⟨[⟨10, [], [], false, false, .none⟩, ⟨11, [0], [], false, false, .none⟩], [], [], fun _ _ => true, id⟩, List.reverse,
    enter init 0 0 0, fun l => List.Perm.refl l, fun l => l.reverse_perm, enter_ok ok_init _ _ _, by decide +kernel, by decide +kernel⟩

end Verif.Orders.Ctx
