import Mathlib.Algebra.Order.Field.Basic
import Mathlib.Data.List.Sort
import Mathlib.Algebra.Order.Ring.Rat

/-!
# Model of `mmcore/geom/polygon.py`

Points are pairs over an ordered field; NumPy arrays of points are lists.  Sorting is Python's stable sort, modelled by
insertion sort (the result of a stable sort is determined by the keys).
-/

namespace Verif.Poly
variable {K : Type} [Field K] [LinearOrder K]

/-! ## Point in polygon -/

/-- State of the loop of `is_point_in_polygon`: `inside`, `(p1x, p1y)`, and `xinters`, which is unassigned at first. -/
structure PipState (K : Type) where
  inside : Bool
  p1 : K × K
  xinters : Option K

/-- One turn of the loop (polygon.py:686-694); `none` is `UnboundLocalError` on `xinters`. -/
def pipStep (x y : K) (s : PipState K) (p2 : K × K) : Option (PipState K) :=
  let p1 := s.p1
  if y > min p1.2 p2.2 then
    if y ≤ max p1.2 p2.2 then
      if x ≤ max p1.1 p2.1 then
        let xi := if p1.2 ≠ p2.2 then some ((y - p1.2) * (p2.1 - p1.1) / (p2.2 - p1.2) + p1.1) else s.xinters
        if p1.1 = p2.1 then some { inside := !s.inside, p1 := p2, xinters := xi }
        else
          match xi with
          | none => none
          | some v => some { inside := (if x ≤ v then !s.inside else s.inside), p1 := p2, xinters := xi }
      else some { s with p1 := p2 }
    else some { s with p1 := p2 }
  else some { s with p1 := p2 }

/-- `is_point_in_polygon` (polygon.py:669-696): the loop runs over `polygon[i % n]` for `i = 0, ..., n`; `none` is an exception
(`IndexError` on an empty polygon). -/
def isPointInPolygon (q : K × K) (poly : List (K × K)) : Option Bool :=
  match poly with
  | [] => none
  | p0 :: _ =>
    ((List.range (poly.length + 1)).foldl (fun (s : Option (PipState K)) i =>
      s.bind fun s => pipStep q.1 q.2 s (poly.getD (i % poly.length) p0))
      (some { inside := false, p1 := p0, xinters := none })).map (·.inside)

/-- `BoundingBox` (polygon.py:699-704). -/
structure Box (K : Type) where
  xmin : K
  xmax : K
  ymin : K
  ymax : K

/-- `BoundingBox.intersects_ray` (polygon.py:706-708). -/
def Box.intersectsRay (b : Box K) (x y : K) : Bool := decide (y ≥ b.ymin) && decide (y ≤ b.ymax) && decide (x ≤ b.xmax)

/-- `BoundingBox.union` (polygon.py:710-717). -/
def Box.union (a b : Box K) : Box K :=
  { xmin := min a.xmin b.xmin, xmax := max a.xmax b.xmax, ymin := min a.ymin b.ymin, ymax := max a.ymax b.ymax }

/-- `BVHNode` (polygon.py:720-725). -/
inductive Node (K : Type) where
  | leaf (box : Box K) (edge : (K × K) × (K × K)) : Node K
  | node (box : Box K) (left right : Node K) : Node K

/-- `node.bounding_box`. -/
def Node.box : Node K → Box K
  | .leaf b _ => b
  | .node b _ _ => b

/-- `polygon_build_bvh`, the edges (polygon.py:729). -/
def edges (poly : List (K × K)) : List ((K × K) × (K × K)) :=
  match poly with
  | [] => []
  | p0 :: _ => (List.range poly.length).map fun i => (poly.getD i p0, poly.getD ((i + 1) % poly.length) p0)

/-- The bounding box of an edge (polygon.py:745). -/
def edgeBox (e : (K × K) × (K × K)) : Box K :=
  { xmin := min e.1.1 e.2.1, xmax := max e.1.1 e.2.1, ymin := min e.1.2 e.2.2, ymax := max e.1.2 e.2.2 }

/-- The sort key of `build_recursive` (polygon.py:736). -/
def centre (o : Box K × ((K × K) × (K × K))) : K := (o.1.xmin + o.1.xmax) / 2

/-- `build_recursive` (polygon.py:731-743); `none`: out of fuel (the recursion does not end). -/
def buildRec : Nat → List (Box K × ((K × K) × (K × K))) → Option (Node K)
  | 0, _ => none
  | _ + 1, [o] => some (.leaf o.1 o.2)
  | fuel + 1, objs =>
    let objs := objs.insertionSort (fun a b => centre a ≤ centre b)
    let mid := objs.length / 2
    match buildRec fuel (objs.take mid), buildRec fuel (objs.drop mid) with
    | some l, some r => some (.node (l.box.union r.box) l r)
    | _, _ => none

/-- `polygon_build_bvh` (polygon.py:728-747). -/
def buildBvh (fuel : Nat) (poly : List (K × K)) : Option (Node K) :=
  buildRec fuel ((edges poly).map fun e => (edgeBox e, e))

/-- `intersect_ray` (polygon.py:771-786): the number added to `intersections`. -/
def countRay (x y : K) : Node K → Nat
  | .leaf b e =>
    if !b.intersectsRay x y then 0
    else if y > min e.1.2 e.2.2 ∧ y ≤ max e.1.2 e.2.2 ∧ x ≤ max e.1.1 e.2.1 then
      if e.1.2 ≠ e.2.2 then
        if x ≤ (y - e.1.2) * (e.2.1 - e.1.1) / (e.2.2 - e.1.2) + e.1.1 then 1 else 0
      else 0
    else 0
  | .node b l r => if !b.intersectsRay x y then 0 else countRay x y l + countRay x y r

/-- `is_point_in_polygon_bvh` (polygon.py:750-789). -/
def isPointInPolygonBvh (fuel : Nat) (poly : List (K × K)) (q : K × K) : Option Bool :=
  (buildBvh fuel poly).map fun root => countRay q.1 q.2 root % 2 == 1

/-! ## Area -/

/-- `scalar_dot` on two columns. -/
def dot (a b : List K) : K := (List.zipWith (· * ·) a b).foldl (· + ·) 0

/-- `polygon_area` (polygon.py:89-92): `poly[:length, 1]`, `poly[1:, 0]` and so on. -/
def polygonArea (poly : List (K × K)) : K :=
  let length := poly.length - 1
  |dot ((poly.take length).map (·.2)) ((poly.drop 1).map (·.1)) - dot ((poly.take length).map (·.1)) ((poly.drop 1).map (·.2))| / 2

/-- `to_polygon_area` (polygon.py:102-110); `none`: `IndexError` on an empty boundary. -/
def toPolygonArea (b : List (K × K)) : Option (List (K × K)) :=
  match b with
  | [] => none
  | p :: _ => some (b ++ [p])

/-- `Polygon.area` (polygon.py:518-520). -/
def areaOf (b : List (K × K)) : Option K := (toPolygonArea b).map polygonArea

/-! ## Intersection of two segments -/

/-- `intersect` (polygon.py:523-548): the point and the two parameters, `none` for `None`. -/
def intersect (s1 s2 c1 c2 : K × K) : Option ((K × K) × K × K) :=
  let den := (c2.2 - c1.2) * (s2.1 - s1.1) - (c2.1 - c1.1) * (s2.2 - s1.2)
  if den = 0 then none
  else
    let us := ((c2.1 - c1.1) * (s1.2 - c1.2) - (c2.2 - c1.2) * (s1.1 - c1.1)) / den
    let uc := ((s2.1 - s1.1) * (s1.2 - c1.2) - (s2.2 - s1.2) * (s1.1 - c1.1)) / den
    if ((us = 0 ∨ us = 1) ∧ (0 ≤ uc ∧ uc ≤ 1)) ∨ ((uc = 0 ∨ uc = 1) ∧ (0 ≤ us ∧ us ≤ 1)) then none
    else if (0 < us ∧ us < 1) ∧ (0 < uc ∧ uc < 1) then
      some ((s1.1 + us * (s2.1 - s1.1), s1.2 + us * (s2.2 - s1.2)), us, uc)
    else none

/-- `ccw` (polygon.py:626-627). -/
def ccw (a b c : K × K) : Bool := decide ((c.2 - a.2) * (b.1 - a.1) > (b.2 - a.2) * (c.1 - a.1))

/-! ## Sutherland-Hodgman clipping -/

/-- `inside` (polygon.py:114-115). -/
def clipInside (cp1 cp2 p : K × K) : Bool := decide ((cp2.1 - cp1.1) * (p.2 - cp1.2) > (cp2.2 - cp1.2) * (p.1 - cp1.1))

/-- `computeIntersection` (polygon.py:117-123). -/
def clipPoint (cp1 cp2 s e : K × K) : K × K :=
  let dc := (cp1.1 - cp2.1, cp1.2 - cp2.2)
  let dp := (s.1 - e.1, s.2 - e.2)
  let n1 := cp1.1 * cp2.2 - cp1.2 * cp2.1
  let n2 := s.1 * e.2 - s.2 * e.1
  let n3 := 1 / (dc.1 * dp.2 - dc.2 * dp.1)
  ((n1 * dp.1 - n2 * dc.1) * n3, (n1 * dp.2 - n2 * dc.2) * n3)

/-- The inner loop of `clip` (polygon.py:132-140) with start vertex `s`. -/
def clipEdge (cp1 cp2 : K × K) (s : K × K) : List (K × K) → List (K × K)
  | [] => []
  | e :: l =>
    (if clipInside cp1 cp2 e then
      (if !clipInside cp1 cp2 s then [clipPoint cp1 cp2 s e] else []) ++ [e]
    else if clipInside cp1 cp2 s then [clipPoint cp1 cp2 s e] else []) ++ clipEdge cp1 cp2 e l

/-- The outer loop of `clip` (polygon.py:127-141); `none`: `IndexError` at `inputList[-1]`. -/
def clipLoop (cp1 : K × K) (out : List (K × K)) : List (K × K) → Option (List (K × K))
  | [] => some out
  | cp2 :: cs =>
    match out.getLast? with
    | none => none
    | some s => clipLoop cp2 (clipEdge cp1 cp2 s out) cs

/-- `clip` (polygon.py:113-142). -/
def clip (subject clipPoly : List (K × K)) : Option (List (K × K)) :=
  match clipPoly.getLast? with
  | none => none
  | some cp1 => clipLoop cp1 subject clipPoly

/-! ## Convex hull -/

/-- `orientation` (polygon.py:814-826) with `epsilon` a parameter: 0 collinear, 1 clockwise, 2 counter-clockwise. -/
def orientation (eps : K) (p q r : K × K) : Nat :=
  let val := (q.2 - p.2) * (r.1 - q.1) - (q.1 - p.1) * (r.2 - q.2)
  if |val| < eps then 0 else if val > 0 then 1 else 2

/-- `dist_sq` (polygon.py:808-811). -/
def distSq (p q : K × K) : K := (p.1 - q.1) * (p.1 - q.1) + (p.2 - q.2) * (p.2 - q.2)

/-- The test for the bottom-most point (polygon.py:854-855). -/
def lower (eps : K) (a b : K × K) : Bool := decide (a.2 < b.2 ∨ (|a.2 - b.2| < eps ∧ a.1 < b.1))

/-- The loop for `ymin` (polygon.py:852-856). -/
def lowest (eps : K) (p : K × K) (pts : List (K × K)) : Nat :=
  (List.range pts.length).foldl (fun ymin i => if lower eps ((p :: pts).getD (i + 1) p) ((p :: pts).getD ymin p) then i + 1
    else ymin) 0

/-- Order of `np.lexsort((distances, angles))` (polygon.py:866-868): angle first, then distance, stable.  The polar angle
(`np.arctan2(dy, dx)`, polygon.py:829-831) is a parameter. -/
def polarLe (angle : K × K → K) (p0 a b : K × K) : Prop :=
  angle (a.1 - p0.1, a.2 - p0.2) < angle (b.1 - p0.1, b.2 - p0.2) ∨
    (angle (a.1 - p0.1, a.2 - p0.2) = angle (b.1 - p0.1, b.2 - p0.2) ∧ distSq p0 a ≤ distSq p0 b)

instance (angle : K × K → K) (p0 a b : K × K) : Decidable (polarLe angle p0 a b) := by unfold polarLe; infer_instance

/-- The `while` loop (polygon.py:876-877); the stack has its top first. -/
def popLoop (eps : K) (r : K × K) : List (K × K) → List (K × K)
  | q :: p :: st => if orientation eps p q r ≠ 2 then popLoop eps r (p :: st) else q :: p :: st
  | st => st

/-- The `for` loop (polygon.py:875-878). -/
def scan (eps : K) (st : List (K × K)) : List (K × K) → List (K × K)
  | [] => st
  | r :: l => scan eps (r :: popLoop eps r st) l

/-- `convex_hull2d` (polygon.py:834-880). -/
def convexHull2d (eps : K) (angle : K × K → K) (points : List (K × K)) : List (K × K) :=
  if points.length < 3 then points
  else
    match points with
    | [] => []
    | p :: rest =>
      let ymin := lowest eps p rest
      let p0 := (p :: rest).getD ymin p
      let others := ((p :: rest).set ymin p).drop 1
      (scan eps [p0] (others.insertionSort (polarLe angle p0))).reverse

end Verif.Poly
