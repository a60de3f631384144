import Verif.Bvh.Model2

/-! # Segments, rays and the tests of boxes of `mmcore/geom/bvh/__init__.py`

`tol` is the `1e-15` of `_aabb.pyx`, `tiny` the `1e-15` of `is_zero` and `big` is `MAX_FLOAT64`; there is no overflow.  `unit` is
`scalar_unit`. -/

namespace Verif.Bvh

open Verif.Aabb (Pt Box)

variable {K V : Type} [Field K] [LinearOrder K]

/-- `Segment.__slots__` (bvh/__init__.py:251); `start` and `stop` are views of the rows of `_arr`. -/
structure Seg (K V : Type) where
  start : Pt K
  stop : Pt K
  dir : Pt K
  box : BB K
  value : Option V

/-- `Segment.__init__` (252-259): the box is `BoundingBox(*aabb([start, end]))`. -/
def Seg.new (s e : Pt K) (value : Option V) : Seg K V :=
  let bx := (Aabb.aabb 3 [s, e]).getD ⟨s, e⟩
  { start := s, stop := e, dir := fun i => e i - s i, box := BB.mk' bx.lo bx.hi, value := value }

/-- `Segment.evaluate` (261-262). -/
def Seg.evaluate (g : Seg K V) (t : K) : Pt K := fun i => g.start i + g.dir i * t

/-- `Segment.subdivide` (263-265). -/
def Seg.subdivide (g : Seg K V) (t : K) : Seg K V × Seg K V :=
  let pt : Pt K := fun i => g.start i + g.dir i * t
  (Seg.new g.start pt none, Seg.new pt g.stop none)

/-- `Segment.clip` (267-271): through `bbox._arr`. -/
def Seg.clip (tol : K) (g : Seg K V) (b : BB K) : Option (Seg K V) :=
  match Aabb.segmentAabb tol b.arr g.start g.stop with
  | some (t0, t1) => some (Seg.new (g.evaluate t0) (g.evaluate t1) none)
  | none => none

/-- `Segment.length_sq` (279-280). -/
def Seg.lengthSq (g : Seg K V) : K := g.dir 0 * g.dir 0 + g.dir 1 * g.dir 1 + g.dir 2 * g.dir 2

/-- `Segment.is_zero` (283-284). -/
def Seg.isZero (tiny : K) (g : Seg K V) : Bool := decide (g.dir 0 * g.dir 0 + g.dir 1 * g.dir 1 + g.dir 2 * g.dir 2 < tiny)

/-- `Ray.__init__` (286-290). -/
def ray (big : K) (unit : Pt K → Pt K) (s d : Pt K) (value : Option V) : Seg K V :=
  let u := unit d
  Seg.new s (fun i => s i + u i * big) value

/-- `is_finite` (41-42); `fin` is `np.isfinite`. -/
def BB.isFinite (fin : K → Bool) (b : BB K) : Bool :=
  ([0, 1, 2].all fun i => fin (b.min i)) && ([0, 1, 2].all fun i => fin (b.max i))

/-- `is_non_zero_volume` (44-45). -/
def BB.isNonZeroVolume (b : BB K) : Bool := [0, 1, 2].all fun i => decide (b.max i > b.min i)

/-- `is_consistency` (47-48). -/
def BB.isConsistency (b : BB K) : Bool := [0, 1, 2].all fun i => decide (b.max i ≥ b.min i)

/-- `is_valid` (50-51). -/
def BB.isValid (fin : K → Bool) (b : BB K) : Bool := b.isFinite fin && b.isNonZeroVolume && b.isConsistency

/-- `contains_points` (123-126): one truth value for each row. -/
def BB.containsPoints (b : BB K) (pts : List (Pt K)) : List Bool :=
  pts.map fun p => (decide (b.min 0 ≤ p 0) && decide (p 0 ≤ b.max 0)) && (decide (b.min 1 ≤ p 1) && decide (p 1 ≤ b.max 1)) &&
    (decide (b.min 2 ≤ p 2) && decide (p 2 ≤ b.max 2))

end Verif.Bvh
