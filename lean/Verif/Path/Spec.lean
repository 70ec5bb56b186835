import Mathlib.Analysis.Real.Sqrt

/-! # Positions on a polyline, independently of the model -/

namespace Verif.Path

/-- The length of the path from `p` through the points of the list. -/
noncomputable def pathLen {Q : Type} (d : Q → Q → ℝ) : Q → List Q → ℝ
  | _, [] => 0
  | p, w :: ws => d p w + pathLen d w ws

/-- `X` is the point at path length `s` from `p` along `ws`: it is on some leg from `a` to `w`, `s` minus the length of the path to `a`
away from `a`, and the rest of the leg away from `w`. -/
def At {Q : Type} (d : Q → Q → ℝ) (p : Q) (ws : List Q) (s : ℝ) (X : Q) : Prop :=
  ∃ pre w post a, ws = pre ++ w :: post ∧ a = pre.getLastD p ∧ pathLen d p pre ≤ s ∧ s ≤ pathLen d p pre + d a w ∧
    d a X = s - pathLen d p pre ∧ d X w = d a w - d a X

/-- The Euclidean distance. -/
noncomputable def euclid (a b : ℝ × ℝ × ℝ) : ℝ := √((a.1 - b.1) ^ 2 + (a.2.1 - b.2.1) ^ 2 + (a.2.2 - b.2.2) ^ 2)

end Verif.Path
