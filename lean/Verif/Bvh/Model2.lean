import Verif.Bvh.Model
import Mathlib.Algebra.Order.Ring.Abs

/-! # Corners, edges, faces and size of the boxes of `mmcore/geom/bvh/__init__.py` -/

namespace Verif.Bvh

open Verif.Aabb (Pt Box)

variable {K : Type} [Field K] [LinearOrder K]

/-- One row of `get_aabb_corners_numpy` (bvh/__init__.py:328-348) in three dimensions: the first coordinate has the highest bit
(`_BBOX_CORNERS_BINARY_COMBS`, 14-20). -/
def corner (a b : Pt K) (n : Nat) : K × K × K :=
  let pick := fun (i bit : Nat) => if bit % 2 = 0 then min (a i) (b i) else max (a i) (b i)
  (pick 0 (n / 4), pick 1 (n / 2), pick 2 n)

/-- `get_corners` (38-39). -/
def BB.corners (b : BB K) : List (K × K × K) := (List.range 8).map (corner b.min b.max)

/-- `edges_indices` (133-137). -/
def edgeIdx : List (Nat × Nat) := [(0, 1), (2, 3), (4, 5), (6, 7), (0, 2), (1, 3), (4, 6), (5, 7), (0, 4), (1, 5), (2, 6), (3, 7)]

/-- `get_edges` (127-141). -/
def BB.edges (b : BB K) : List ((K × K × K) × (K × K × K)) := edgeIdx.map fun e => (corner b.min b.max e.1, corner b.min b.max e.2)

/-- `faces_indices` (149-156). -/
def faceIdx : List (List Nat) := [[0, 1, 3, 2], [4, 5, 7, 6], [0, 1, 5, 4], [2, 3, 7, 6], [0, 2, 6, 4], [1, 3, 7, 5]]

/-- `get_faces` (143-160). -/
def BB.faces (b : BB K) : List (List (K × K × K)) := faceIdx.map fun f => f.map (corner b.min b.max)

/-- `size_metric` (177-189); `eps` is the absolute tolerance of `np.isclose`. -/
def BB.sizeMetric (eps : K) (b : BB K) : K :=
  [b.dims 0, b.dims 1, b.dims 2].foldl (fun m d => if |d| ≤ eps then m else m * d) 1

/-- `evaluate` (60-61). -/
def BB.evaluate (b : BB K) (uvh : Pt K) : Pt K := fun i => (b.min i + b.max i) * uvh i

/-- `intersect_disjoint` (72-80). -/
def BB.intersectDisjoint (a b : BB K) : Bool :=
  decide (a.min 0 < b.max 0) && decide (a.max 0 > b.min 0) && decide (a.min 1 < b.max 1) && decide (a.max 1 > b.min 1) &&
    decide (a.min 2 < b.max 2) && decide (a.max 2 > b.min 2)

/-- `split4` (53-55). -/
def BB.split4 (b : BB K) (axis1 axis2 : Nat) (p1 p2 : K) : List (BB K) :=
  let s := b.split axis2 p1
  let l := s.1.split axis1 p2
  let r := s.2.split axis1 p2
  [l.1, l.2, r.1, r.2]

/-- `split8` (57-58). -/
def BB.split8 (b : BB K) (axis1 axis2 axis3 : Nat) (p1 p2 p3 : K) : List (BB K) :=
  (b.split4 axis2 axis3 p2 p3).flatMap fun c => [(c.split axis1 p1).1, (c.split axis1 p1).2]

end Verif.Bvh
