import Verif.Aabb.Model
import Mathlib.Data.List.Sort
import Mathlib.Algebra.Order.Ring.Rat

/-!
# Model of `mmcore/geom/bvh/__init__.py`

Boxes are three-dimensional; points are coordinate functions as in `Verif.Aabb`.  A `BoundingBox` keeps four arrays computed
by the constructor, and its mutators update only some of them, so all are fields here.  Python's `list.sort` is a stable
sort, modelled by insertion sort.  Recursion and `while` loops take fuel; the theorems give the fuel that suffices.
Objects are an arbitrary type `α` with a box.
-/

namespace Verif.Bvh
open Verif.Aabb (Pt Box)
variable {K : Type} [Field K] [LinearOrder K]

/-- `BoundingBox.__slots__` (bvh/__init__.py:24). -/
structure BB (K : Type) where
  min : Pt K
  max : Pt K
  center : Pt K
  dims : Pt K
  arr : Box K

/-- `BoundingBox.__init__` (25-30): all arrays are copies. -/
def BB.mk' (lo hi : Pt K) : BB K :=
  { min := lo, max := hi, center := fun i => (lo i + hi i) * (1 / 2), dims := fun i => hi i - lo i, arr := ⟨lo, hi⟩ }

/-- `split` (32-36): both halves are built from the whole box, then one entry of `min_point`/`max_point` is overwritten. -/
def BB.split (b : BB K) (axis : Nat) (parameter : K) : BB K × BB K :=
  let left := BB.mk' b.min b.max
  let right := BB.mk' b.min b.max
  let v := (b.min axis + b.max axis) * parameter
  ({ left with max := Aabb.upd left.max axis v }, { right with min := Aabb.upd right.min axis v })

/-- `volume` (66-67). -/
def BB.volume (b : BB K) : K := b.dims 0 * b.dims 1 * b.dims 2

/-- `intersect` (69-70), through `_arr`. -/
def BB.intersect (a b : BB K) : Bool := Aabb.intersect3d a.arr b.arr

/-- `intersection` (82-93). -/
def BB.intersection (a b : BB K) : Option (BB K) :=
  let lo : Pt K := fun i => Max.max (a.min i) (b.min i)
  let hi : Pt K := fun i => Min.min (a.max i) (b.max i)
  if lo 0 > hi 0 ∨ lo 1 > hi 1 ∨ lo 2 > hi 2 then none else some (BB.mk' lo hi)

/-- `merge` (95-106). -/
def BB.merge (a b : BB K) : BB K :=
  BB.mk' (fun i => Min.min (a.min i) (b.min i)) (fun i => Max.max (a.max i) (b.max i))

/-- `expand` (107-119): writes into `min_point` and `max_point` only. -/
def BB.expand (a b : BB K) : BB K :=
  { a with min := fun i => Min.min (a.min i) (b.min i), max := fun i => Max.max (a.max i) (b.max i) }

/-- `contains_point` (121-122). -/
def BB.containsPoint (b : BB K) (p : Pt K) : Bool :=
  decide (b.min 0 ≤ p 0 ∧ b.min 1 ≤ p 1 ∧ b.min 2 ≤ p 2) && decide (p 0 ≤ b.max 0 ∧ p 1 ≤ b.max 1 ∧ p 2 ≤ b.max 2)

/-! ## Building -/

variable {α : Type}

/-- `BVHNode` (297-304).  A leaf stores an object; with `objects_in_leaf > 1` that object is a `CompoundObject3D` holding a
list, so a leaf keeps its list of objects (one element for a plain object). -/
inductive Node (K α : Type) where
  | leaf (box : BB K) (objs : List α) : Node K α
  | node (box : BB K) (left right : Node K α) : Node K α

/-- `node.bounding_box`. -/
def Node.box : Node K α → BB K
  | .leaf b _ => b
  | .node b _ _ => b

/-- Centroid of an object on one axis (357-360, 371-373). -/
def centroid (bb : α → BB K) (i : Nat) (o : α) : K := ((bb o).min i + (bb o).max i) / 2

/-- `np.max(centroids, axis=0) - np.min(centroids, axis=0)` on one axis (363-366). -/
def spread (bb : α → BB K) (i : Nat) (objs : List α) : K :=
  match objs with
  | [] => 0
  | o :: os => os.foldl (fun m x => Max.max m (centroid bb i x)) (centroid bb i o) -
      os.foldl (fun m x => Min.min m (centroid bb i x)) (centroid bb i o)

/-- `np.argmax` over the three axes (366): the first maximum. -/
def axisOf (bb : α → BB K) (objs : List α) : Nat :=
  let s0 := spread bb 0 objs
  let s1 := spread bb 1 objs
  let s2 := spread bb 2 objs
  if s1 > s0 then (if s2 > s1 then 2 else 1) else (if s2 > s0 then 2 else 0)

/-- The in-place `objects.sort` of `split_objects` (369-374). -/
def sortObjects (bb : α → BB K) (objs : List α) : List α :=
  objs.insertionSort (fun a b => centroid bb (axisOf bb objs) a ≤ centroid bb (axisOf bb objs) b)

/-- `split_objects` (351-378). -/
def splitObjects (bb : α → BB K) (objs : List α) : List α × List α :=
  let s := sortObjects bb objs
  (s.take (s.length / 2), s.drop (s.length / 2))

/-- `CompoundObject3D.__init__` (383-395): `aabb` of the stacked `_arr` rows; `none` is the `ValueError` on an empty list. -/
def compoundBox (bb : α → BB K) (objs : List α) : Option (BB K) :=
  (Aabb.aabb 3 (objs.flatMap fun o => [(bb o).arr.lo, (bb o).arr.hi])).map fun b => BB.mk' b.lo b.hi

/-- `build_bvh` (401-423); `none` is `ValueError`, or out of fuel. -/
def build (bb : α → BB K) (k : Nat) : Nat → List α → Option (Node K α)
  | 0, _ => none
  | fuel + 1, objs =>
    if objs.length = 1 ∧ k = 1 then
      match objs with
      | o :: _ => some (.leaf (bb o) [o])
      | [] => none
    else if objs.length ≤ k then
      (compoundBox bb objs).map fun b => .leaf b objs
    else
      let (l, r) := splitObjects bb objs
      match build bb k fuel l, build bb k fuel r with
      | some ln, some rn => some (.node (ln.box.merge rn.box) ln rn)
      | _, _ => none

/-- The caller's list after `build_bvh(objects)`: `split_objects` sorts it in place, the recursive calls work on slices. -/
def listAfterBuild (bb : α → BB K) (k : Nat) (objs : List α) : List α :=
  if (objs.length = 1 ∧ k = 1) ∨ objs.length ≤ k then objs else sortObjects bb objs

/-! ## Queries -/

/-- `traverse_bvh` (593-604): the objects appended to `results`. -/
def traverse (target : BB K) : Node K α → List (List α)
  | .leaf b os => if !b.intersect target then [] else [os]
  | .node b l r => if !b.intersect target then [] else traverse target l ++ traverse target r

/-- `contains_point` (623-627). -/
def containsPt (root : Node K α) (p : Pt K) : List (List α) := traverse (BB.mk' p p) root

/-- `traverse_leafs` (663-673), `traverse_all_objects_in_node` (675-681). -/
def leafs : Node K α → List (List α)
  | .leaf _ os => [os]
  | .node _ l r => leafs l ++ leafs r

/-- `traverse_all_bbox` (692-700). -/
def allBoxes : Node K α → List (BB K)
  | .leaf b _ => [b]
  | .node b l r => b :: (allBoxes l ++ allBoxes r)

/-- The `while` loop of `intersect_bvh_objects` (445-467); the stack has its top first, `none` is out of fuel. -/
def pairLoop {β : Type} : Nat → List (Node K α × Node K β) → List (List α × List β) → Option (List (List α × List β))
  | _, [], acc => some acc
  | 0, _ :: _, _ => none
  | fuel + 1, (n1, n2) :: st, acc =>
    if !n1.box.intersect n2.box then pairLoop fuel st acc
    else
      match n1, n2 with
      | .leaf _ o1, .leaf _ o2 => pairLoop fuel st (acc ++ [(o1, o2)])
      | .node _ l1 r1, .node _ l2 r2 => pairLoop fuel ((r1, r2) :: (r1, l2) :: (l1, r2) :: (l1, l2) :: st) acc
      | .node _ l1 r1, .leaf b2 o2 => pairLoop fuel ((r1, .leaf b2 o2) :: (l1, .leaf b2 o2) :: st) acc
      | .leaf b1 o1, .node _ l2 r2 => pairLoop fuel ((.leaf b1 o1, r2) :: (.leaf b1 o1, l2) :: st) acc

/-- `intersect_bvh_objects` (425-467): the leaves' objects. -/
def intersectBvhObjects {β : Type} (fuel : Nat) (n1 : Node K α) (n2 : Node K β) : Option (List (List α × List β)) :=
  pairLoop fuel [(n1, n2)] []

/-- The `while` loop of `bvh_segment_intersection` (735-753); `tol` is the tolerance of the slab test. -/
def segLoop (tol : K) (s e : Pt K) : Nat → List (Node K α) → List (List α) → Option (List (List α))
  | _, [], acc => some acc
  | 0, _ :: _, _ => none
  | fuel + 1, n :: st, acc =>
    if !Aabb.intersect3d n.box.arr (Aabb.caabbSegm3d s e) then segLoop tol s e fuel st acc
    else
      match Aabb.segmentClip tol n.box.arr s e with
      | none => segLoop tol s e fuel st acc
      | some _ =>
        match n with
        | .leaf _ os => segLoop tol s e fuel st (acc ++ [os])
        | .node _ l r => segLoop tol s e fuel (r :: l :: st) acc

/-- `bvh_segment_intersection` (726-756): the objects of the returned pairs. -/
def segmentQuery (tol : K) (fuel : Nat) (root : Node K α) (s e : Pt K) : Option (List (List α)) := segLoop tol s e fuel [root] []

/-! ## Closest object -/

/-- `sdBox` (683-686); `nrm` is `np.linalg.norm` of a triple. -/
def sdBox (nrm : K → K → K → K) (p b : Pt K) : K :=
  let d : Pt K := fun i => |p i| - b i
  Min.min (Max.max (Max.max (d 0) (d 1)) (d 2)) 0 + nrm (Max.max (d 0) 0) (Max.max (d 1) 0) (Max.max (d 2) 0)

/-- `sd_aabb` (688-690). -/
def sdAabb (nrm : K → K → K → K) (b : Box K) (p : Pt K) : K :=
  let cnt : Pt K := fun i => (b.lo i + b.hi i) / 2
  sdBox nrm (fun i => p i - cnt i) (fun i => b.hi i - cnt i)

/-- The last comparison of both searches (520-530, 577-582). -/
def pick (l r : List (List α) × K) : List (List α) × K :=
  if l.2 < r.2 then l else if l.2 > r.2 then r else (l.1 ++ r.1, l.2)

/-- `_find_closest_breadth` (549-585). -/
def breadth (nrm : K → K → K → K) (p : Pt K) : Node K α → List (List α) × K
  | .leaf b os => ([os], sdAabb nrm b.arr p)
  | .node _ l r =>
    if sdAabb nrm l.box.arr p < sdAabb nrm r.box.arr p then breadth nrm p l
    else if sdAabb nrm l.box.arr p > sdAabb nrm r.box.arr p then breadth nrm p r
    else pick (breadth nrm p l) (breadth nrm p r)

/-- `_find_closest_vicinity` (491-547). -/
def vicinity (nrm : K → K → K → K) (p : Pt K) : Node K α → Option (List (List α) × K)
  | .leaf b os => some ([os], sdAabb nrm b.arr p)
  | .node b l r =>
    if !b.containsPoint p then none
    else
      match l.box.containsPoint p, r.box.containsPoint p with
      | true, false => vicinity nrm p l
      | false, true => vicinity nrm p r
      | true, true =>
        match vicinity nrm p l, vicinity nrm p r with
        | some a, some b => some (pick a b)
        | none, some b => some b
        | some a, none => some a
        | none, none => none
      | false, false => none

/-- `traverse_bvh_point` (635-661): the node returned, `none` for `None`. -/
def traversePoint (p : Pt K) : Node K α → Option (Node K α)
  | .leaf b os => if !b.containsPoint p then none else some (.leaf b os)
  | .node b l r =>
    if !b.containsPoint p then none
    else
      match traversePoint p l, traversePoint p r with
      | none, none => some (.node b l r)
      | none, some x => some x
      | some x, none => some x
      | some _, some _ => some (.node b l r)

end Verif.Bvh
