import Verif.Globe.Sample

/-!
# The ellipsoid

Nothing here refers to the formulas of the code: the two numbers that define WGS84, and the set of points they describe.
-/

namespace Verif.Wgs

open Verif.Globe

/-- The equatorial radius in metres. -/
noncomputable def equatorial : ℝ := 6378137

/-- The polar radius in metres. -/
noncomputable def polar : ℝ := 6378137 * (1 - 1 / 298.257223563)

/-- The surface of the earth. -/
def Ellipsoid : Set E3 := {v | (v 0) ^ 2 / equatorial ^ 2 + (v 1) ^ 2 / equatorial ^ 2 + (v 2) ^ 2 / polar ^ 2 = 1}

end Verif.Wgs
