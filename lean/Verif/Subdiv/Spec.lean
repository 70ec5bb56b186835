import Verif.Subdiv.Model

/-! # Where a mover is and when it is in range, independently of the search -/

namespace Verif.Subdiv

open Verif.Globe Verif.Path Real

/-- The unit vector of a geodetic location. -/
noncomputable def spot (g : Geo) : E3 := place (g.toDegrees.lat, g.toDegrees.lon)

/-- A geodetic location in space, in metres from the centre of the earth. -/
noncomputable def inSpace (ka : ℝ) (g : Geo) : E3 := (R + g.alt * ka) • spot g

/-- The angle between two locations, seen from the centre of the earth. -/
noncomputable def angleOf (g h : Geo) : ℝ := InnerProductGeometry.angle (spot g) (spot h)

/-- Great-circle travel from `s` to `f`: the place at angle `θ`. Determined by the ends if these are neither the same nor opposite:
unit vectors in the plane of the ends, beginning at `s` and reaching `f`. -/
noncomputable def travel (s f : Geo) (θ : ℝ) : E3 :=
  cos θ • spot s + (sin θ / sin (angleOf s f)) • (spot f - cos (angleOf s f) • spot s)

/-- A place at altitude `h` metres is within `r` metres of the sensor at `c`. -/
def InRange (r : ℝ) (c : E3) (u : E3) (h : ℝ) : Prop := dist ((R + h) • u) c ≤ r

/-- The kinds to report for `n + 1` samples of which the numbers `i` with `st i` are in range. -/
def kindsOf (st : ℕ → Bool) (n : ℕ) : List Crossing.Kind :=
  (if st 0 then [.startInside] else []) ++ (List.range n).filterMap (fun i => if st i = st (i + 1) then none else some (if st i then .exit else .enter)) ++
    (if st n then [.endInside] else [])

/-- The kinds that are reported. -/
def Answer.kinds : Answer → List Crossing.Kind
  | .bad => []
  | .hits l _ => l.map (·.kind)

end Verif.Subdiv
