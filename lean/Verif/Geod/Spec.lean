import Verif.Wgs.Spec
import Verif.Globe.Spec
import Mathlib.Analysis.Calculus.Deriv.Basic
import Mathlib.MeasureTheory.Integral.IntervalIntegral.FundThmCalculus

/-!
# Straight lines on the ellipsoid

A geodesic is a curve on the ellipsoid that turns only up or down: its unit tangent changes only along the perpendicular of the surface.
Nothing here refers to the formulas of the code.
-/

namespace Verif.Geod

open Verif.Globe (E3)
open Verif.Wgs (equatorial polar Ellipsoid)

/-- The direction perpendicular to the ellipsoid at `v` (the gradient of its equation). -/
noncomputable def normal (v : E3) : E3 := !₂[v 0 / equatorial ^ 2, v 1 / equatorial ^ 2, v 2 / polar ^ 2]

/-- `γ` is a geodesic of the ellipsoid, passed with speed `v` in the direction `T`. -/
structure Geodesic (γ T : ℝ → E3) (v : ℝ → ℝ) : Prop where
  on : ∀ t, γ t ∈ Ellipsoid
  pos : ∀ t, 0 < v t
  vel : ∀ t, HasDerivAt γ (v t • T t) t
  unit : ∀ t, ‖T t‖ = 1
  straight : ∀ t, ∃ κ : ℝ, HasDerivAt T (κ • normal (γ t)) t
  cont : Continuous v

/-- The length of the curve from parameter `0` to `x`. -/
noncomputable def length (v : ℝ → ℝ) (x : ℝ) : ℝ := ∫ t in (0 : ℝ)..x, v t

/-- A geodesic that leaves `x` in direction `u` and reaches `y` after the length `s`. -/
def Leads (x u : E3) (s : ℝ) (y : E3) : Prop :=
  ∃ γ T v, Geodesic γ T v ∧ γ 0 = x ∧ T 0 = u ∧ ∃ t, length v t = s ∧ γ t = y

end Verif.Geod
