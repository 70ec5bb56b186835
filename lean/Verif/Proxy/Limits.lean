import Verif.Proxy.Examples

/-!
# Where states are not values

Each condition in `Fine` is needed: without it the code does something else.
-/

namespace Verif.Proxy

open Spec (Declared)

variable {V : Type} [DecidableEq V]

/-- The states 1 of two actors, built with one data object. -/
def sharing : List (Op Int) :=
  [.newData 0 (fun _ => 4), .build [(1, .mine 0)], .build [(1, .mine 0)], .get 0 1, .get 1 1,
   .use 0 (.setAttr "x" 9), .use 1 (.getAttr "x")]

def exC1 : Cfg Int := { exC with states := exC.states.filter fun p => decide (p.1 = 1) }

/-- A data object given to two actors is one object: what is written to the state of the first is read from that of the
second, and is not in the second's history. -/
theorem c79_shared : Declared exC1 ∧
    (run exC1 sharing (init 0)).2.getLast? = some (.val 9) ∧
    ((run exC1 sharing (init 0)).1.actors.map fun a => a.hist 1 "x") = [[(0, 4), (0, 9)], [(0, 4)]] ∧
    (Spec.run exC1 sharing (Spec.init 0)).2.getLast? = some (.val 4) :=
  ⟨⟨by decide, exC_declared.2⟩, by decide +kernel, by decide +kernel, by decide +kernel⟩

/-- In any state, a proxy of a dictionary is equal to no proxy at all, be it of the same state or itself. -/
theorem c79_proxies_differ (C : Cfg V) (σ : St V) {p q : Nat} {x : Px V} {d : Dict String V} (hx : σ.px[p]? = some x)
    (hd : σ.heap[x.ref]? = some (.dict d)) (hq : q < σ.px.length) :
    (pop C σ p (.eqProxy q)).2 = .bool false := by
  unfold pop
  simp only [hx, hd, dictOp, if_pos hq]

example : (run exC2 (exOps.take 4 ++ [.get 0 0, .use 0 (.eqProxy 1), .use 0 (.eqProxy 0)]) (init 0)).2.drop 5 =
    [.bool false, .bool false] := by decide +kernel

/-- In any state, a name that is no field of the data object is written to without an error and without effect. -/
theorem c79_ignored (C : Cfg V) (σ : St V) {p : Nat} {x : Px V} {c : Nat} {d : Dict String V} (hx : σ.px[p]? = some x)
    (hd : σ.heap[x.ref]? = some (.data c d)) {k : String} (hk : k ∉ d.map (·.1)) (v : V) :
    pop C σ p (.setAttr k v) = (σ, .done) := by
  unfold pop
  simp only [hx, hd, dataOp, setAttr, has_mem, hk, decide_false, Bool.false_eq_true, if_false]

def exC0 : Cfg Int := { exC with states := exC.states.filter fun p => decide (p.1 = 2) }

/-- A field with `init=False` starts anew in a clone, and a field that the class inherits cannot be written. -/
theorem c79_clone_resets : Declared exC0 ∧
    (run exC0 [.newData 1 (fun _ => 4), .build [(2, .mine 0)], .get 0 2, .use 0 (.setAttr "z" 9), .clone 0, .get 1 2,
      .use 0 (.getAttr "z"), .use 1 (.getAttr "z"), .use 0 (.setAttr "x" 5), .use 0 (.getAttr "x")] (init 0)).2 =
    [.handle 0, .actor 0, .proxy 0, .done, .actor 1, .proxy 1, .val 9, .val 7, .raised, .val 4] :=
  ⟨⟨by decide, exC_declared.2⟩, by decide +kernel⟩

def exCd : Cfg Int := { exC with states := exC.states.filter fun p => decide (p.1 = 0) }

/-- A value refused by a dictionary state is there all the same, is not in the history, and the actor can no longer be
cloned. -/
theorem c79_refused_stays : Declared exCd ∧
    (run exCd [.newDict [("a", 1)], .build [(0, .mine 0)], .get 0 0, .use 0 (.setItem "a" (-3)), .use 0 (.getItem "a"), .clone 0]
      (init 0)).2 = [.handle 0, .actor 0, .proxy 0, .raised, .val (-3), .raised] ∧
    ((run exCd [.newDict [("a", 1)], .build [(0, .mine 0)], .get 0 0, .use 0 (.setItem "a" (-3))] (init 0)).1.actors.map
      fun a => a.hist 0 "a") = [[(0, 1)]] :=
  ⟨⟨by decide, exC_declared.2⟩, by decide +kernel, by decide +kernel⟩

end Verif.Proxy
