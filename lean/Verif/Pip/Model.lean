import Mathlib.Algebra.Order.Field.Basic
import Mathlib.Algebra.Order.Group.Abs

/-! # A model of the crossing test and of `point_in_polygon`, `mmcore/geom/polygon.py`:626-663, `mmcore/geom/features.py`:15-23

Points are pairs over an ordered field; arrays of points are lists. `aabb`, `aabb_overlap`, `point_in_aabb` come from
`mmcore/numeric/aabb.py` (two-dimensional branches). The optional arguments that hold precomputed boxes and index pairs
have their default `None`. -/

namespace Verif.Pip
variable {K : Type} [Field K] [LinearOrder K]

/-- `ccw`, geom/polygon.py:626-627 and geom/features.py:15-16. -/
def ccw (a b c : K × K) : Bool := decide ((c.2 - a.2) * (b.1 - a.1) > (b.2 - a.2) * (c.1 - a.1))

/-- A box: lower and upper corner. -/
structure Box (K : Type) where
  lo : K × K
  hi : K × K
deriving DecidableEq

/-- `aabb` of a non-empty array, numeric/_aabb.pyx (modelled in detail in area `Aabb`): least and largest coordinates. -/
def aabb (p : K × K) (ps : List (K × K)) : Box K :=
  ps.foldl (fun b q => ⟨(min b.lo.1 q.1, min b.lo.2 q.2), (max b.hi.1 q.1, max b.hi.2 q.2)⟩) ⟨p, p⟩

/-- `aabb_overlap`, numeric/aabb.py:41-48. -/
def aabbOverlap (b1 b2 : Box K) : Bool :=
  decide (b1.lo.1 ≤ b2.hi.1) && decide (b1.hi.1 ≥ b2.lo.1) && decide (b1.lo.2 ≤ b2.hi.2) && decide (b1.hi.2 ≥ b2.lo.2)

/-- `point_in_aabb`, numeric/aabb.py:15-18. -/
def pointInAabb (b : Box K) (p : K × K) : Bool :=
  decide (b.lo.1 ≤ p.1) && decide (p.1 ≤ b.hi.1) && (decide (b.lo.2 ≤ p.2) && decide (p.2 ≤ b.hi.2))

/-- `intersects_segments` of geom/features.py:20-23. -/
def intersectsPlain (a b c d : K × K) : Bool := (ccw a c d != ccw b c d) && (ccw a b c != ccw a b d)

/-- `intersects_segments` of geom/polygon.py:630-639: the boxes are compared first. -/
def intersectsSegments (a b c d : K × K) : Bool :=
  if !aabbOverlap (aabb a [b]) (aabb c [d]) then false
  else (ccw a c d != ccw b c d) && (ccw a b c != ccw a b d)

/-- `np.allclose` of two points, with the tolerances as parameters (NumPy: `rtol = 1e-5`, `atol = 1e-8`). -/
def allclose (rtol atol : K) (a b : K × K) : Bool :=
  decide (|a.1 - b.1| ≤ atol + rtol * |b.1|) && decide (|a.2 - b.2| ≤ atol + rtol * |b.2|)

/-- `points[segments_by_loop(points)]`, geom/polygon.py:642-643: every vertex with the next one, cyclically. -/
def loopEdges (points : List (K × K)) : List ((K × K) × (K × K)) :=
  (List.range points.length).map fun i => (points.getD i (0, 0), points.getD ((i + 1) % points.length) (0, 0))

/-- The loop of `point_in_polygon`, geom/polygon.py:658-662. -/
def crossings (edges : List ((K × K) × (K × K))) (p q : K × K) : Nat :=
  edges.foldl (fun cnt e => if intersectsSegments e.1 e.2 p q then cnt + 1 else cnt) 0

/-- `point_in_polygon`, geom/polygon.py:646-663; `none` is the exception on an empty array. -/
def pointInPolygon (rtol atol : K) (points : List (K × K)) (point : K × K) : Option Bool :=
  match points with
  | [] => none
  | p0 :: rest =>
    let box := aabb p0 rest
    if !pointInAabb box point then some false
    else
      let pts := if allclose rtol atol p0 ((p0 :: rest).getLastD p0) then rest else p0 :: rest
      let stop := (point.1 + box.hi.1 - box.lo.1, point.2 + box.hi.2 - box.lo.2)
      some (crossings (loopEdges pts) point stop % 2 == 1)

end Verif.Pip
