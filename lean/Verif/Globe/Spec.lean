import Verif.Globe.Model
import Mathlib.Geometry.Euclidean.Angle.Unoriented.TriangleInequality
import Mathlib.Analysis.InnerProductSpace.PiL2

/-!
# Places on a sphere

A place is a unit vector of the three-dimensional Euclidean space; the length between two places is the angle of their vectors. Nothing
here refers to the formulas of the code.
-/

namespace Verif.Globe

open Real

abbrev E3 := EuclideanSpace ℝ (Fin 3)

/-- The unit vector of a latitude and a longitude in degrees. -/
noncomputable def place (p : LL) : E3 :=
  !₂[cos (p.1 * π / 180) * cos (p.2 * π / 180), cos (p.1 * π / 180) * sin (p.2 * π / 180), sin (p.1 * π / 180)]

/-- The central angle of two points. -/
noncomputable def central (p q : LL) : ℝ := InnerProductGeometry.angle (place p) (place q)

/-- The direction of increasing latitude. -/
noncomputable def north (p : LL) : E3 :=
  !₂[-sin (p.1 * π / 180) * cos (p.2 * π / 180), -sin (p.1 * π / 180) * sin (p.2 * π / 180), cos (p.1 * π / 180)]

/-- The direction of increasing longitude. -/
noncomputable def east (p : LL) : E3 := !₂[-sin (p.2 * π / 180), cos (p.2 * π / 180), 0]

/-- The direction `β` degrees clockwise from north. -/
noncomputable def heading (p : LL) (β : ℝ) : E3 := cos (β * π / 180) • north p + sin (β * π / 180) • east p

/-- The point of the great circle leaving `x` in direction `u`, at angle `t`. -/
noncomputable def arc (x u : E3) (t : ℝ) : E3 := cos t • x + sin t • u

/-- Off the poles. -/
def OffPole (p : LL) : Prop := -90 < p.1 ∧ p.1 < 90

/-- The great circle through two places. -/
def OnCircle (p q : LL) (y : LL) : Prop := place y ∈ Submodule.span ℝ {place p, place q}

end Verif.Globe
