import Mathlib.Algebra.Order.Field.Basic
import Mathlib.Algebra.Order.Group.Abs
import Mathlib.Data.List.Basic
import Verif.Vec.Model

/-! # Small routines

`line_line_intersection` (api/curves.py), `points_order` (geom/features.py), `classify_critical_point_2d` (numeric/fdm.py)
and `generate_array` (geom/implicit/tree/utils.py).  Numbers are elements of an ordered field. -/

set_option linter.unusedSectionVars false

namespace Verif.Sml

open Verif.Vec (V3)
open Verif.Vec.V3

variable {K : Type} [Field K] [LinearOrder K] [IsStrictOrderedRing K]

/-! ## Two lines -/

/-- A line of the API: `start_point` and `end_point`. -/
structure Ln (K : Type) where
  a : V3 K
  b : V3 K
  deriving DecidableEq

/-- `np.allclose(v, 0)`: only the absolute tolerance counts (1e-8), because the second argument is zero. -/
def closeZero (atol : K) (v : V3 K) : Bool := decide (|v.x| ≤ atol) && decide (|v.y| ≤ atol) && decide (|v.z| ≤ atol)

/-- `line_line_intersection` (api/curves.py:337-364).  `none` stands for `(False, nan, nan)`, a pair for `(True, s1, s2)`; the square of
the norm is the scalar product. -/
def lineLine (atol : K) (l1 l2 : Ln K) : Option (K × K) :=
  let v1 := sub l1.b l1.a
  let v2 := sub l2.b l2.a
  let c := cross v1 v2
  if closeZero atol c then none
  else
    let w := sub l1.a l2.a
    some (dot (cross w v2) c / dot c c, dot (cross w v1) c / dot c c)

/-! ## The order of points -/

/-- `PointsOrder` (geom/features.py:66-69). -/
inductive Order | collinear | cw | ccw
  deriving DecidableEq, Repr

/-- The sum of lines 78-80 of geom/features.py. -/
def determinant : List (K × K) → K
  | p :: q :: l => (q.1 - p.1) * (q.2 + p.2) + determinant (q :: l)
  | _ => 0

/-- `points_order` (geom/features.py:72-87).  `none`: the `ValueError` of line 74. -/
def pointsOrder (points : List (K × K)) (close : Bool) : Option Order :=
  if points.length < 3 then none
  else
    let pts := if close then points ++ points.take 1 else points
    let d := determinant pts
    some (if d > 0 then .cw else if d < 0 then .ccw else .collinear)

/-! ## Critical points -/

/-- `CriticalPointType` (numeric/fdm.py:645-650). -/
inductive Crit | undefined | minimum | maximum | saddle
  deriving DecidableEq, Repr

/-- `classify_critical_point_2d` (numeric/fdm.py:654-676); the matrix has the rows `(a, b)` and `(c, d)`, of which `c` is not read.
`none` stands for a return without value (positive determinant and `f_xx = 0`). -/
def classify (a b _c d : K) : Option Crit :=
  let det := a * d - b * b
  if det > 0 then (if a > 0 then some .minimum else if a < 0 then some .maximum else none)
  else if det < 0 then some .saddle
  else some .undefined

/-! ## Lengths of pieces -/

/-- `generate_array` (geom/implicit/tree/utils.py:14-23).  `half` is the result of `np.geomspace`, `round` the rounding of `round`.
`none`: `np.ones` of a negative number of elements raises.  If the number of elements is zero the division is one of `numpy` numbers and gives
an infinity or "no number", which is not used because there are no elements. -/
def generateArray (round : K → ℤ) (half : List K) (constant total : K) : Option (List K) :=
  let len := total - half.sum * 2
  let count := round (len / constant)
  if count < 0 then none
  else some (half ++ List.replicate count.toNat (len / (count : K)) ++ half.reverse)

end Verif.Sml
