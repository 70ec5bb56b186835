import Verif.Routing.Model

/-!
# What routes are
-/

namespace Verif.Routing

/-- `Route E n a b`: `b` can be reached from `a` in `n` steps along `E`. -/
inductive Route (E : Nat → Nat → Prop) : Nat → Nat → Nat → Prop
  | nil (a : Nat) : Route E 0 a a
  | cons {n a b c : Nat} : E a b → Route E n b c → Route E (n + 1) a c

/-- The links of the network: node `a` lists `b`. -/
def Link (net : Net) (a b : Nat) : Prop := ∃ ns, net.get? a = some ns ∧ b ∈ ns

/-- The links between nodes that are not ignored. -/
def Open (net : Net) (ign : List Nat) (a b : Nat) : Prop := Link net a b ∧ a ∉ ign ∧ b ∉ ign

/-- `n` is the least number of steps from `a` to `b`. -/
def Dist (E : Nat → Nat → Prop) (n a b : Nat) : Prop := Route E n a b ∧ ∀ m, Route E m a b → n ≤ m

/-- `w` is the first step of a shortest route from `a` to `b`. -/
def FirstStep (E : Nat → Nat → Prop) (w a b : Nat) : Prop := E a w ∧ ∃ n, Route E n w b ∧ Dist E (n + 1) a b

/-- Reachable at all. -/
def Reachable (E : Nat → Nat → Prop) (a b : Nat) : Prop := ∃ n, Route E n a b

variable {E : Nat → Nat → Prop}

theorem Route.snoc {n a b c : Nat} (h : Route E n a b) (e : E b c) : Route E (n + 1) a c := by
  induction h with
  | nil a => exact .cons e (.nil c)
  | cons e' _ ih => exact .cons e' (ih e)

theorem Route.unsnoc {n a c : Nat} (h : Route E (n + 1) a c) : ∃ b, Route E n a b ∧ E b c := by
  induction n generalizing a with
  | zero =>
    cases h with
    | cons e h' => cases h'; exact ⟨a, .nil a, e⟩
  | succ n ih =>
    cases h with
    | cons e h' =>
      obtain ⟨b, h1, h2⟩ := ih h'
      exact ⟨b, .cons e h1, h2⟩

theorem Route.trans {n m a b c : Nat} (h : Route E n a b) (h' : Route E m b c) : Reachable E a c := by
  induction h with
  | nil a => exact ⟨m, h'⟩
  | cons e _ ih => obtain ⟨k, hk⟩ := ih h'; exact ⟨k + 1, .cons e hk⟩

theorem Route.mono {E' : Nat → Nat → Prop} (hE : ∀ a b, E a b → E' a b) {n a b : Nat} (h : Route E n a b) : Route E' n a b := by
  induction h with
  | nil a => exact .nil a
  | cons e _ ih => exact .cons (hE _ _ e) ih

/-- A reachable node has a distance. -/
theorem Reachable.dist {a b : Nat} (h : Reachable E a b) : ∃ n, Dist E n a b := by
  obtain ⟨n, hn⟩ := h
  induction n using Nat.strongRecOn with
  | ind n ih =>
    by_cases hc : ∃ m, m < n ∧ Route E m a b
    · obtain ⟨m, hm, hr⟩ := hc; exact ih m hm hr
    · exact ⟨n, hn, fun m hm => Nat.le_of_not_lt fun hlt => hc ⟨m, hlt, hm⟩⟩

/-- Listed by the code's `network.get(node, set())`. -/
theorem mem_adj {net : Net} {a b : Nat} : b ∈ adj net a ↔ Link net a b := by
  unfold adj Link
  cases h : net.get? a with
  | none => simp
  | some ns => simp

end Verif.Routing
