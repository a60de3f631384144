import Mathlib.Algebra.Order.Field.Basic
import Verif.Aabb.Model
import Verif.Gjk.Model

/-!
# Model of `spatial_separability`, of the bounding plane test and of the distance to a triangle

`mmcore/numeric/intersection/separability/spatial.py` and `mmcore/numeric/algorithms/gjk.py`.
-/

namespace Verif.Gjk

/-- A vertex as a row of an array with three columns. -/
def row {K : Type} [Zero K] (v : V K) : Aabb.Pt K := fun i =>
  if i = 0 then v.x else if i = 1 then v.y else if i = 2 then v.z else 0

section sep
variable {K : Type} [CommRing K] [LinearOrder K]

/-- `spatial_separability` (spatial.py:146-208); `aabb` and `aabb_intersect` are the models of `_aabb.pyx`, and
`gjk` is called with the default `max_iter=25`.  `none`: an exception, or an empty array whose first row is read. -/
def spatialSeparability (ps qs : List (V K)) (tol : K) : Option Bool := do
  let b1 ← Aabb.aabb 3 (ps.map row)
  let b2 ← Aabb.aabb 3 (qs.map row)
  let touch ← Aabb.aabbIntersect 3 b1 b2
  if touch = false then some true
  else (gjk ps qs tol 25).map not

end sep

section field
variable {K : Type} [Field K] [LinearOrder K]

/-- `np.mean(points, axis=0)` (spatial.py:57). -/
def mean (ps : List (V K)) : V K :=
  ⟨(ps.map V.x).sum / ps.length, (ps.map V.y).sum / ps.length, (ps.map V.z).sum / ps.length⟩

/-- `SpatialSeparabilityTest._plane_separates` (spatial.py:56-60). -/
def planeSeparates (normal : V K) (ps qs : List (V K)) : Bool :=
  let d := -dot normal (mean ps)
  ps.all (fun p => decide (0 ≤ dot p normal + d)) && qs.all (fun q => decide (dot q normal + d ≤ 0))

/-- `_compute_bounding_plane_normal` (spatial.py:52-54) for the corners `A`, `B`, `C`, `D` of a control net. -/
def boundingPlaneNormal (A B C D : V K) : V K := cross (sub C A) (sub D B)

/-- `bounding_plane_test` (spatial.py:40-50) for two surfaces, each given by its corners and its bounding points. -/
def boundingPlaneTest (A B C D : V K) (ps : List (V K)) (A' B' C' D' : V K) (qs : List (V K)) : Bool :=
  planeSeparates (boundingPlaneNormal A B C D) ps qs ||
    planeSeparates (boundingPlaneNormal A' B' C' D') qs ps

/-- `np.clip(t, 0.0, 1.0)` (gjk.py:29-31). -/
def clip01 (t : K) : K := min (max t 0) 1

/-- `np.sign` (gjk.py:20-22). -/
def sign (t : K) : K := if 0 < t then 1 else if t < 0 then -1 else 0

/-- The square of `ba * t1 - pa` for one edge (gjk.py:29-37): from `a` to `b`; `none` for a division by 0. -/
def edgeSq (p a b : V K) : Option K :=
  let ba := sub b a
  let pa := sub p a
  if dot ba ba = 0 then none
  else
    let t := clip01 (dot ba pa / dot ba ba)
    let v := sub ⟨ba.x * t, ba.y * t, ba.z * t⟩ pa
    some (dot v v)

/-- `udTriangle` (gjk.py:10-40), the number under the final square root.  `none`: a division by zero, which gives NaN. -/
def udTriangleSq (p a b c : V K) : Option K :=
  let ba := sub b a
  let pa := sub p a
  let cb := sub c b
  let pb := sub p b
  let ac := sub a c
  let pc := sub p c
  let nor := cross ba ac
  let signSum := sign (dot (cross ba nor) pa) + sign (dot (cross cb nor) pb) + sign (dot (cross ac nor) pc)
  if signSum < 2 then do
    let d1 ← edgeSq p a b
    let d2 ← edgeSq p b c
    let d3 ← edgeSq p c a
    return min (min d1 d2) d3
  else if dot nor nor = 0 then none
  else some (dot nor pa * dot nor pa / dot nor nor)

end field

end Verif.Gjk
