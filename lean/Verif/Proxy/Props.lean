import Verif.Proxy.Apart

/-!
# C79: dictionary and dataclass states are values of their actors
-/

namespace Verif.Proxy

open Spec (Declared AllFine)

variable {V : Type} [DecidableEq V]

/-- **C79.** The full claim: whatever a program does with its own objects, with actors, clones and proxies, every state
behaves like a value that belongs to it: what is read through any proxy, at any time, is what was last written to that
state; clones begin with the values of their original and have nothing in common with it; and the history of every key is
what was written through proxies. The reference `Spec.run` has values in place of a heap.

What is missing is exactly `Fine` along the run: data objects given to more than one state, two proxies of dictionaries
compared, values of wrong types written to a dictionary, inherited fields and names that are no fields, and clones of
objects with fields the constructor does not take (`Verif.Proxy.Limits`). -/
theorem c79_values_partial (C : Cfg V) (t0 : Rat) (ops : List (Op V)) (hC : Declared C) (hF : AllFine C ops (Spec.init t0)) :
    (run C ops (init t0)).2 = (Spec.run C ops (Spec.init t0)).2 ∧
    (run C ops (init t0)).1.actors.length = (Spec.run C ops (Spec.init t0)).1.actors.length ∧
    ∀ (i : Nat) (a : Actor V) (b : Spec.Actor V), (run C ops (init t0)).1.actors[i]? = some a →
      (Spec.run C ops (Spec.init t0)).1.actors[i]? = some b → ∀ n k, a.hist n k = b.hist n k := by
  obtain ⟨h, own, R⟩ := Rel.run hC ops _ _ _ (Rel.init C t0) hF
  exact ⟨h, R.len, fun i a b ha hb => (R.actor i a b ha hb).hist⟩

/-- **C79.** After such a run nothing done with a proxy, right or wrong, changes what is read through a proxy of another
state. -/
theorem c79_apart_partial (C : Cfg V) (t0 : Rat) (ops : List (Op V)) (hC : Declared C) (hF : AllFine C ops (Spec.init t0))
    {p q : Nat} {x y : Px V} (hx : (run C ops (init t0)).1.px[p]? = some x) (hy : (run C ops (init t0)).1.px[q]? = some y)
    (hne : (x.actor, x.state) ≠ (y.actor, y.state)) (op rd : POp V) (hrd : reads rd = true) :
    (pop C (pop C (run C ops (init t0)).1 p op).1 q rd).2 = (pop C (run C ops (init t0)).1 q rd).2 := by
  obtain ⟨-, own, R⟩ := Rel.run hC ops _ _ _ (Rel.init C t0) hF
  refine pop_apart C hx hy ?_ op rd hrd
  intro he
  obtain ⟨-, -, a, ha, h1⟩ := R.px p x hx
  obtain ⟨-, -, b, hb, h2⟩ := R.px q y hy
  obtain ⟨a', ha'⟩ := some_of_len R.len ha
  obtain ⟨b', hb'⟩ := some_of_len R.len hb
  have h3 := ((R.actor _ _ _ ha ha').ref _ _ h1).1
  have h4 := ((R.actor _ _ _ hb hb').ref _ _ h2).1
  rw [he, h3] at h4
  injection h4 with h4
  injection h4 with h5 h6
  exact hne (by rw [h5, h6])

/-- **C79.** In every program, two proxies of one state always read the same: a proxy that was kept shows what was written
since, through whichever proxy or object. -/
theorem c79_live (C : Cfg V) (t0 : Rat) (ops : List (Op V)) (hC : Declared C) {p q : Nat} {x y : Px V}
    (hx : (run C ops (init t0)).1.px[p]? = some x) (hy : (run C ops (init t0)).1.px[q]? = some y)
    (he : (x.actor, x.state) = (y.actor, y.state)) (rd : POp V) (hrd : reads rd = true) :
    (pop C (run C ops (init t0)).1 p rd).2 = (pop C (run C ops (init t0)).1 q rd).2 := by
  have I := Inv.run hC ops _ (Inv.init C t0)
  obtain ⟨-, a, ha, h1⟩ := I.px p x hx
  obtain ⟨-, b, hb, h2⟩ := I.px q y hy
  injection he with he1 he2
  rw [he1, hb] at ha
  obtain rfl := Option.some.inj ha
  rw [he2, h2] at h1
  have hr := Option.some.inj h1
  rw [pop_told hx (init t0) x hrd, pop_told hy (init t0) x hrd, hr]

/-- **C79.** In every program, nothing done with a proxy of one dictionary state changes what is read through a proxy of
another dictionary state: no two such states, of whatever actors or clones, have one dictionary. -/
theorem c79_dictionaries (C : Cfg V) (t0 : Rat) (ops : List (Op V)) (hC : Declared C) {p q : Nat} {x y : Px V}
    (hx : (run C ops (init t0)).1.px[p]? = some x) (hy : (run C ops (init t0)).1.px[q]? = some y)
    (hkx : x.df.kind = .dict) (hky : y.df.kind = .dict)
    (hne : (x.actor, x.state) ≠ (y.actor, y.state)) (op rd : POp V) (hrd : reads rd = true) :
    (pop C (pop C (run C ops (init t0)).1 p op).1 q rd).2 = (pop C (run C ops (init t0)).1 q rd).2 := by
  have I := Inv.run hC ops _ (Inv.init C t0)
  refine pop_apart C hx hy ?_ op rd hrd
  intro he
  obtain ⟨h0, a, ha, h1⟩ := I.px p x hx
  obtain ⟨h0', b, hb, h2⟩ := I.px q y hy
  rw [he] at h2
  obtain ⟨h5, h6⟩ := I.uniq _ _ _ _ _ _ _ _ _ ha hb h1 h2 h0 h0' hkx hky
  exact hne (by rw [h5, h6])

end Verif.Proxy
