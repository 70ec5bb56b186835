import Verif.Plan.Limits
import Verif.Predict.Examples

/-! # A network that is rehearsed and executed -/

namespace Verif.Plan

open Verif.Predict

variable {K : Type} [Field K] [LinearOrder K] [IsStrictOrderedRing K] {A Op Val : Type}

/-- It is enough to look at a rehearsal until it is over. -/
theorem plain_of (M : Methods K (Agent A) Op Val) (N : Net K Op Val) (t0 : K) (b : Agent A) (names : List String) (stop : Option String) (n0 : Nat) (h0 : (rehearse M N t0 b names stop n0).phase = .over)
    (h : ∀ n, n < n0 → (rehearse M N t0 b names stop n).phase = .running →
      Predictable (rehearse M N t0 b names stop n).base (rcodeOf N (rehearse M N t0 b names stop n).cur (rehearse M N t0 b names stop n).base.hist)) : Plain M N t0 b names stop := by
  intro n
  dsimp only
  intro hr
  rcases Nat.lt_or_ge n n0 with hlt | hge
  · exact h n hlt hr
  · rw [rehearse_stays n0 n hge (.inl h0), h0] at hr
    cases hr

/-! ## To an end task -/

/-- Uses fuel at rate 2 for two hours. -/
def fly : Code Rat (DOp AOp) (DVal Active.Out) := script [.act (.act (.activate 0 7 (some (-2)))), .yield (.multi false [.new 2, .new 5]), .act (.act (.deactivateAll 7 [0]))]

/-- Looks at the fuel, and goes to refuel if there is not enough. -/
def decide_ : Code Rat (DOp AOp) (DVal Active.Out)
  | [] => .act (.act (.read 0))
  | [.val (.val (.val v))] => if v < 7 then .act (.setQueue ["refuel"]) else .ret
  | _ => .ret

def refuel : Code Rat (DOp AOp) (DVal Active.Out) := script [.yield (.new 1), .act (.act (.change 0 (· + 5)))]

def land : Code Rat (DOp AOp) (DVal Active.Out) := script [.yield (.new 10)]

def airport : Net Rat (DOp AOp) (DVal Active.Out) where
  jobs u := if u = "fly" then some (.task fly) else if u = "choose" then some (.decision decide_ decide_) else if u = "refuel" then some (.task refuel)
    else if u = "land" then some (.task land) else none
  links u := if u = "fly" then some ⟨some "choose", ["choose"]⟩ else if u = "choose" then some ⟨some "land", ["land", "refuel"]⟩ else if u = "refuel" then some ⟨some "land", ["land"]⟩ else none

theorem airport_honest : Honest airport := by
  intro u m r h
  unfold airport at h
  dsimp only at h
  split at h
  · cases h
  · split at h
    · cases h; rfl
    · split at h
      · cases h
      · split at h <;> cases h

/-- The rehearsal goes by `refuel`, and is over at time 3 with 11 units of fuel. -/
example : (rehearse (desk (actor demoC)) airport 0 (demoU, []) ["fly"] (some "land") 13).phase = .over ∧
    (rehearse (desk (actor demoC)) airport 0 (demoU, []) ["fly"] (some "land") 13).log = [("fly", 0), ("choose", 2), ("refuel", 2)] ∧
    (rehearse (desk (actor demoC)) airport 0 (demoU, []) ["fly"] (some "land") 13).base.now = 3 ∧
    (rehearse (desk (actor demoC)) airport 0 (demoU, []) ["fly"] (some "land") 13).base.actor.1.value 0 = some 11 := by decide +kernel

theorem airport_plain : Plain (desk (actor demoC)) airport 0 (demoU, []) ["fly"] (some "land") :=
  plain_of _ _ _ _ _ _ 13 (by decide +kernel) (by decide +kernel)

/-- Another process reads the fuel at time 1 and every half hour; it comes before the loop where both are due. -/
def turns : List (Turn Rat (DOp AOp)) := List.replicate 40 ⟨⟨[.act (.read 0)], [(1 / 2, false)]⟩, false⟩

theorem turns_harmless : ∀ g ∈ turns, Harmless (desk (actor demoC)) g := by
  intro g hg
  rw [List.eq_of_mem_replicate hg]
  refine ⟨fun o ho => ?_, fun p hp => ?_⟩
  · simp only [List.mem_singleton] at ho
    subst ho
    exact ⟨0, rfl⟩
  · simp only [List.mem_singleton] at hp
    subst hp
    norm_num

example : ∃ gs1 gs2, turns = gs1 ++ gs2 ∧ AtEnd airport (Same (Alike demoC)) (rehearse (desk (actor demoC)) airport 0 (demoU, []) ["fly"] (some "land") 13)
    (loop (desk (actor demoC)) airport (start airport 0 (demoA, []) queue0 (some "fly")) gs1) :=
  c78_path_partial demo_congruent airport_honest 0 demoA demoU demoA_alike "fly" "land" airport_plain queue0 queue0_before turns turns_harmless 13 (by decide +kernel) (by decide +kernel)

example : (∃ n, Along (Same (Alike demoC)) (rehearse (desk (actor demoC)) airport 0 (demoU, []) ["fly"] (some "land") n)
      (loop (desk (actor demoC)) airport (start airport 0 (demoA, []) queue0 (some "fly")) turns)) ∨
    ∃ gs1 gs2 n, turns = gs1 ++ gs2 ∧ AtEnd airport (Same (Alike demoC)) (rehearse (desk (actor demoC)) airport 0 (demoU, []) ["fly"] (some "land") n)
      (loop (desk (actor demoC)) airport (start airport 0 (demoA, []) queue0 (some "fly")) gs1) :=
  c78_predicts_partial (c78_desk demo_congruent _) airport_honest 0 (demoA, []) (demoU, []) "fly" [] (some "fly") (.inr ⟨rfl, rfl⟩) ⟨rfl, rfl, demoA_alike⟩ trivial airport_plain queue0 queue0_before
    turns turns_harmless

/-! ## Listed tasks -/

def fly' : Code Rat AOp Active.Out := script [.act (.activate 0 7 (some (-2))), .yield (.multi false [.new 2, .new 5]), .act (.deactivateAll 7 [0])]
def refuel' : Code Rat AOp Active.Out := script [.yield (.new 1), .act (.change 0 (· + 5))]

def airport' : Net Rat AOp Active.Out where
  jobs u := if u = "fly" then some (.task fly') else if u = "refuel" then some (.task refuel') else none
  links u := if u = "fly" then some ⟨none, ["refuel", "fly"]⟩ else if u = "refuel" then some ⟨some "fly", ["fly"]⟩ else none

def turns' : List (Turn Rat AOp) := List.replicate 60 ⟨⟨[.read 0], [(1 / 2, false)]⟩, false⟩

theorem turns'_harmless : ∀ g ∈ turns', Harmless (desk' (actor demoC)) g := by
  intro g hg
  rw [List.eq_of_mem_replicate hg]
  refine ⟨fun o ho => ?_, fun p hp => ?_⟩
  · simp only [List.mem_singleton] at ho
    subst ho
    exact ⟨0, rfl⟩
  · simp only [List.mem_singleton] at hp
    subst hp
    norm_num

theorem airport'_honest : Honest airport' := by
  intro u m r h
  unfold airport' at h
  dsimp only at h
  split at h
  · cases h
  · split at h <;> cases h

example : ∃ gs1 gs2, turns' = gs1 ++ gs2 ∧ AtEnd airport' (Ahead (Alike demoC)) (rehearse (desk' (actor demoC)) airport' 0 (demoU, []) ["fly", "fly", "refuel"] none 14)
    (loop (desk' (actor demoC)) airport' (start airport' 0 (demoA, ["fly", "fly", "refuel"]) queue0 none) gs1) :=
  c78_listed_partial demo_congruent airport'_honest 0 demoA demoU demoA_alike "fly" ["fly", "refuel"] ⟨⟨_, rfl, by decide⟩, ⟨_, rfl, by decide⟩, trivial⟩
    (plain_of _ _ _ _ _ _ 14 (by decide +kernel) (by decide +kernel)) queue0 queue0_before turns' turns'_harmless 14 (by decide +kernel) (by decide +kernel)

end Verif.Plan
