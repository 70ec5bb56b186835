import Verif.Build.Props

/-! # C80: the order in which the states that were not given are filled

The constructor of an actor goes through the set of the names of its states, minus those that were given (actor.py 78-90). Whether the
actor can be made, and what it holds, does not depend on the order, unless two of these states draw random numbers. -/

namespace Verif.Orders.Build

open Verif.Build

/-- **C80 (partial).** Whether an actor can be made does not depend on the order of the names. Missing: dictionaries of modes used twice
(`Apart`, see `c66_modes_lost`). -/
theorem c80_made_partial {W : World} {ops : List Op} {defs : Dict String Def} {args : List (String × Val)} {order order' : List String}
    (hA : Apart (run W init ops) defs args) (hp : (step W (run W init ops) (.construct defs args order)).2 ≠ .impossible)
    (hp' : (step W (run W init ops) (.construct defs args order')).2 ≠ .impossible) :
    (∃ s a, step W (run W init ops) (.construct defs args order) = (s, .made a)) ↔
      ∃ s a, step W (run W init ops) (.construct defs args order') = (s, .made a) :=
  (c66_succeeds_partial hp hA).trans (c66_succeeds_partial hp' hA).symm

theorem given_same {W : World} {ops : List Op} {defs : Dict String Def} {args : List (String × Val)} {order : List String} {s : St} {a : Nat}
    (h : step W (run W init ops) (.construct defs args order) = (s, .made a)) {n : String} (hn : n ∈ args.map (·.1)) :
    let g := (initGiven W a defs (register (run W init ops) defs) args).1
    s.attrs a n = g.attrs a n ∧ s.modes a n = g.modes a n ∧ (∀ i < g.next, s.cls i = g.cls i ∧ s.given i = g.given i ∧ s.tables i = g.tables i) := by
  intro g
  have F := facts h
  have hE := ext_initRest W a defs order g
  have hno : n ∉ order := fun hc => (mem_unseen.1 (F.perm.mem_iff.1 hc)).2 hn
  rw [F.result]
  exact ⟨hE.attrs a n (Or.inr hno), hE.modes a n (Or.inr hno), fun i hi => ⟨hE.cls i hi, hE.given i hi, hE.tables i hi⟩⟩

/-- **C80 (partial).** The actor holds the same whatever the order: the very same values and objects in the states that were given, the same
modes, and the defaults in the others; objects made for these are of the same class, resources with the same arguments. Missing: states
filled with random numbers, see `c66_random_order`; one such state is no problem (`c80_one_draw`). -/
theorem c80_built_partial {W : World} {ops : List Op} {defs : Dict String Def} {args : List (String × Val)} {order order' : List String}
    {s s' : St} {a a' : Nat} (h : step W (run W init ops) (.construct defs args order) = (s, .made a))
    (h' : step W (run W init ops) (.construct defs args order') = (s', .made a')) :
    a' = a ∧
    (∀ n ∈ args.map (·.1), s'.attrs a n = s.attrs a n ∧ s'.modes a n = s.modes a n) ∧
    ∀ n d, defs.get? n = some d → n ∉ args.map (·.1) →
      match d with
      | .plain p =>
        match p.factory with
        | none => s'.attrs a n = s.attrs a n
        | some (.make _) => ∃ i j, s.attrs a n = some (.obj i) ∧ s'.attrs a n = some (.obj j) ∧ s'.cls j = s.cls i
        | some .draw => True
      | _ => ∃ i j, s.attrs a n = some (.obj i) ∧ s'.attrs a n = some (.obj j) ∧ s'.cls j = s.cls i ∧ s'.given j = s.given i := by
  have F := facts h
  have F' := facts h'
  have ha : a' = a := F'.new.trans F.new.symm
  subst ha
  refine ⟨rfl, fun n hn => ?_, fun n d hd hn => ?_⟩
  · obtain ⟨g1, g2, _⟩ := given_same h hn
    obtain ⟨g1', g2', _⟩ := given_same h' hn
    exact ⟨g1'.trans g1.symm, g2'.trans g2.symm⟩
  · have hget : Dict.get? args n = none := Dict.get?_eq_none_iff.2 hn
    have v := (c66_values h).1 n d hd
    have v' := (c66_values h').1 n d hd
    rw [hget] at v v'
    have res : ∀ r : Res, Resource (run W init ops) s a' n r none → Resource (run W init ops) s' a' n r none →
        ∃ i j, s.attrs a' n = some (.obj i) ∧ s'.attrs a' n = some (.obj j) ∧ s'.cls j = s.cls i ∧ s'.given j = s.given i := by
      rintro r ⟨i, _, m, e⟩ ⟨j, _, m', e'⟩
      exact ⟨i, j, e, e', Option.some.inj (m'.1.symm.trans m.1), m'.2.trans m.2.symm⟩
    cases d with
    | plain p =>
      simp only [Built] at v v' ⊢
      cases hf : p.factory with
      | none => rw [hf] at v v'; exact v'.trans v.symm
      | some f =>
        rw [hf] at v v'
        cases f with
        | draw => trivial
        | make c =>
          obtain ⟨i, _, c1, e⟩ := v
          obtain ⟨j, _, c2, e'⟩ := v'
          exact ⟨i, j, e, e', c2.trans c1.symm⟩
    | resource r => exact res r v v'
    | comm r _ => exact res r v v'
    | multi r => exact absurd v (by simp [Built])

/-- **C80.** If at most one of the states that were not given draws a random number, it is the same number, whatever the order; and
the next actor made finds the same random numbers, in any case. -/
theorem c80_one_draw {W : World} {ops : List Op} {defs : Dict String Def} {args : List (String × Val)} {order order' : List String}
    {s s' : St} {a a' : Nat} (h : step W (run W init ops) (.construct defs args order) = (s, .made a))
    (h' : step W (run W init ops) (.construct defs args order') = (s', .made a')) (names : List String) (hn : names.Nodup)
    (hd : ∀ n, n ∈ names ↔ Draws defs n ∧ n ∉ args.map (·.1)) :
    s'.count = s.count ∧ ∀ n, names = [n] → s'.attrs a n = s.attrs a n := by
  have ha : a' = a := (facts h').new.trans (facts h).new.symm
  subst ha
  obtain ⟨c1, _, d1⟩ := c66_random_partial h names hn hd
  obtain ⟨c2, _, d2⟩ := c66_random_partial h' names hn hd
  exact ⟨c2.trans c1.symm, fun n e => (d2 n e).trans (d1 n e).symm⟩

/-- The ship of C66, with its fuel and its luck in both orders. -/
example : (step W0 (run W0 init prep) (.construct ship shipArgs ["luck", "fuel"])).2 = .made 0 ∧
    (step W0 (run W0 init prep) (.construct ship shipArgs ["fuel", "luck"])).2 = .made 0 := by decide +kernel

/-- **C80: the negative part.** With two states that draw, the same seed gives different actors. -/
theorem c80_two_draws : ∃ (defs : Dict String Def) (order order' : List String), order.Perm order' ∧
    (step W0 init (.construct defs [] order)).2 = .made 0 ∧ (step W0 init (.construct defs [] order')).2 = .made 0 ∧
    (step W0 init (.construct defs [] order)).1.attrs 0 "x" ≠ (step W0 init (.construct defs [] order')).1.attrs 0 "x" := by
  refine ⟨_, ["x", "y"], ["y", "x"], .swap _ _ _, c66_random_order.1, c66_random_order.2.1, ?_⟩
  rw [c66_random_order.2.2.1, c66_random_order.2.2.2]
  decide

end Verif.Orders.Build
