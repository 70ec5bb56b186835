import Verif.Path.Model
import Mathlib.Data.List.Sort

/-! # Crossings of a straight leg with a sphere

/repo/src/upstage_des/motion/cartesian_model.py and the vector functions of /repo/src/upstage_des/math_utils.py, over real numbers
instead of floats. An exception (division by zero, `MotionAndDetectionError`) is `none`. Not modelled: two-dimensional tuples, a radius
given as a tuple of the wrong length. -/

namespace Verif.Sphere

open Verif.Path

/-- `XYZ` (cartesian_model.py 21). -/
abbrev V := ℝ × ℝ × ℝ

/-- `_vector_subtract` (math_utils.py 13-27). -/
def sub (a b : V) : V := (a.1 - b.1, a.2.1 - b.2.1, a.2.2 - b.2.2)

/-- `_vector_add` (math_utils.py 30-44) of `start` and `[t * x for x in v]` (cartesian_model.py 79). -/
def along (start v : V) (t : ℝ) : V := (start.1 + t * v.1, start.2.1 + t * v.2.1, start.2.2 + t * v.2.2)

/-- `_vector_dot` (math_utils.py 47-57). -/
def dot (a b : V) : ℝ := a.1 * b.1 + a.2.1 * b.2.1 + a.2.2 * b.2.2

/-- `_vector_norm` (math_utils.py 60-70). -/
noncomputable def norm (a : V) : ℝ := √(a.1 ^ 2 + a.2.1 ^ 2 + a.2.2 ^ 2)

/-- `_col_mat_mul` (math_utils.py 94-112) with the diagonal matrix of the numbers `1 / radius` (cartesian_model.py 49-63). -/
noncomputable def scaled (a radii : V) : V := (a.1 * (1 / radii.1), a.2.1 * (1 / radii.2.1), a.2.2 * (1 / radii.2.2))

open Classical in
/-- `_roots` (math_utils.py 73-91). -/
noncomputable def roots (a b c : ℝ) : Option (List ℝ) :=
  let disc := b ^ 2 - 4 * a * c
  if disc < 0 then some []
  else if 2 * a = 0 then none
  else some [(-b + √disc) / (2 * a), (-b - √disc) / (2 * a)]

open Classical in
/-- `ray_intersection` (cartesian_model.py 26-83): positions and times. -/
noncomputable def ray (start toward center radii : V) (speed : ℝ) : Option (List V × List ℝ) :=
  if radii.1 = 0 ∨ radii.2.1 = 0 ∨ radii.2.2 = 0 then none
  else
    let v := sub toward start
    let v1 := scaled v radii
    let p1 := sub (scaled start radii) (scaled center radii)
    let c := norm p1 ^ 2 - 1
    let b := 2 * dot p1 v1
    let a := norm v1 ^ 2
    match roots a b c with
    | none => none
    | some rs =>
      let ts := (rs.filter (0 ≤ ·)).insertionSort (· ≤ ·)
      if ts ≠ [] ∧ speed = 0 then none
      else some (ts.map (along start v), ts.map fun t => norm (sub (along start v t) start) / speed)

/-- The kinds of crossing. -/
inductive Tag where
  | startInside | endInside | enter | exit | bad
  deriving DecidableEq

/-- What `cartesian_linear_intersection` returns. -/
structure Res where
  inters : List Loc
  times : List ℝ
  types : List Tag
  pathTime : ℝ

/-- `(start.x, start.y, start.z)` (cartesian_model.py 109-110, 120). -/
def raw (l : Loc) : V := (l.x, l.y, l.z)

open Classical in
/-- `sorted(range(len(times)), key=…)` and the filters (cartesian_model.py 132-134): a stable sort by time of the pairs. -/
noncomputable def upTo (locs : List V) (times : List ℝ) (pathTime : ℝ) : List (V × ℝ) :=
  ((locs.zip times).insertionSort fun p q => p.2 ≤ q.2).filter fun p => p.2 ≤ pathTime

open Classical in
/-- `cartesian_linear_intersection` (cartesian_model.py 86-150); `k` is the number of distance units in an altitude unit. -/
noncomputable def crossing (k : ℝ) (start finish : Loc) (speed : ℝ) (sensor : Loc) (radius : ℝ) : Option Res :=
  if speed = 0 then none
  else
    let pathTime := finish.sub k start / speed
    let startInside := sensor.sub k start ≤ radius
    let finishInside := sensor.sub k finish ≤ radius
    if startInside ∧ finishInside then some ⟨[start, finish], [0, pathTime], [.startInside, .endInside], pathTime⟩
    else
      match ray (raw start) (raw finish) (raw sensor) (radius, radius, radius) speed with
      | none => none
      | some (locs, times) =>
        if locs = [] ∨ ∀ t ∈ times, pathTime < t then some ⟨[], [], [.bad, .bad], -1⟩
        else
          let kept := upTo locs times pathTime
          let inters : List Loc := (if startInside then [start] else []) ++ (kept.map fun p => (⟨p.1.1, p.1.2.1, p.1.2.2, false⟩ : Loc)) ++
            (if finishInside then [finish] else [])
          let ts : List ℝ := (if startInside then [0] else []) ++ kept.map (·.2) ++ (if finishInside then [pathTime] else [])
          if inters.length ≠ 2 then none
          else if ts.length ≠ 2 then none
          else some ⟨inters, ts, [if startInside then .startInside else .enter, if finishInside then .endInside else .exit], pathTime⟩

end Verif.Sphere
