import Mathlib.Algebra.Order.Field.Basic
import Mathlib.Data.List.Sort

/-!
# Model of the geometry of the sweep line: `mmcore/numeric/algorithms/sweep_line/point.py`, `segment.py` and the helpers of
`sweep_intersector.py`

Coordinates are elements of a linearly ordered field.  Objects carry the number they get from the class counters `Point.ID` and
`Segment.ID` (point.py:19-20, segment.py:24-25): every object has its own number, so the test `a is b` is the equality of the
numbers.  The class variable `Segment.pSweep` is an argument.  `none` is a raised exception.  The tolerance `Point.EPS2` (point.py:15)
is the parameter `e`.
-/

namespace Verif.Swl

variable {K : Type} [Field K] [LinearOrder K]

/-- `Point` (point.py:12-20). -/
structure Pt (K : Type) where
  x : K
  y : K
  id : ℕ
  deriving DecidableEq

/-- `Point.compare` (point.py:22-30). -/
def Pt.compare (e : K) (a b : Pt K) : Int :=
  if a.id = b.id then 0
  else if a.x - b.x > e then 1
  else if a.x - b.x < -e then -1
  else if a.y - b.y > e then 1
  else if a.y - b.y < -e then -1
  else 0

/-- `Segment.__init__` (segment.py:18-25); `dx`, `dy` below. -/
structure Seg (K : Type) where
  p1 : Pt K
  p2 : Pt K
  id : ℕ
  deriving DecidableEq

/-- segment.py:21 -/
def Seg.dx (s : Seg K) : K := s.p2.x - s.p1.x
/-- segment.py:22 -/
def Seg.dy (s : Seg K) : K := s.p2.y - s.p1.y

/-- `slope` (segment.py:27-32): `none` is `inf`. -/
def Seg.slope (s : Seg K) : Option K :=
  if s.p2.x ≠ s.p1.x then some (s.dy / s.dx) else none

/-- `yShift` (segment.py:27-32): `none` is `-inf`. -/
def Seg.yShift (s : Seg K) : Option K :=
  if s.p2.x ≠ s.p1.x then some (s.p1.y - s.dy / s.dx * s.p1.x) else none

/-- `isTrivial` (segment.py:40-41). -/
def Seg.isTrivial (s : Seg K) : Bool := decide (s.dx = 0) && decide (s.dy = 0)

/-- `cmpVal` (segment.py:47-51). -/
def cmpVal (a b : K) : Int := (if a > b then 1 else 0) - (if a < b then 1 else 0)

/-- `orientation` (segment.py:70-73); the variable `orient` of line 72 is not used there. -/
def orientation (s : Seg K) (p : Pt K) : Int :=
  cmpVal (s.dy * (s.p1.x - p.x)) (s.dx * (s.p1.y - p.y))

/-- The first decision of `Segment.compare` (segment.py:56-62). -/
def compareStart (pS : Pt K) (a b : Seg K) : Option Int :=
  if pS.id = a.p1.id then some (orientation b pS)
  else if pS.id = b.p1.id then some (-orientation a pS)
  else none

/-- `Segment.compare` (segment.py:53-68). -/
def Seg.compare (pS : Pt K) (a b : Seg K) : Option Int :=
  if a.id = b.id then some 0
  else match compareStart pS a b with
  | none => none
  | some s =>
    if s ≠ 0 || a.isTrivial || b.isTrivial then some s
    else
      let s' := orientation b a.p2
      if s' ≠ 0 then some s' else some ((a.id : Int) - (b.id : Int))

/-- `a == b` of two points (point.py:44-46). -/
def Pt.eqv (e : K) (a b : Pt K) : Bool := decide (Pt.compare e a b = 0)

/-- `intersectionOfLines` (segment.py:75-92).  `fresh` is the number of the new point of line 92.  Where the code multiplies
with the slope of a vertical segment it would compute `inf * x - inf`; the guards exclude this: both vertical means equal slopes. -/
def intersectionOfLines (e : K) (fresh : ℕ) (a s : Seg K) : Option (Pt K) :=
  if a.slope = s.slope then none
  else if a.p1.eqv e s.p1 || a.p1.eqv e s.p2 then some a.p1
  else if a.p2.eqv e s.p1 || a.p2.eqv e s.p2 then some a.p2
  else
    match a.slope, a.yShift, s.slope, s.yShift with
    | none, _, some m, some h => some ⟨a.p1.x, m * a.p1.x + h, fresh⟩
    | some m, some h, none, _ => some ⟨s.p1.x, m * s.p1.x + h, fresh⟩
    | some m, some h, some m', some h' =>
      let cx := (h' - h) / (m - m')
      some ⟨cx, m * cx + h, fresh⟩
    | _, _, _, _ => none

/-- The test of `computeIntersection` (sweep_intersector.py:280). -/
def mayMeet (s0 s1 : Seg K) : Bool :=
  decide (orientation s0 s1.p2 ≤ 0) && decide (0 ≤ orientation s1 s0.p2)

/-- Choice of the end points of the segment (sweep_intersector.py:239). -/
def mkSeg (e : K) (p1 p2 : Pt K) (id : ℕ) : Seg K :=
  if Pt.compare e p1 p2 < 0 then ⟨p1, p2, id⟩ else ⟨p2, p1, id⟩

/-! ## The result -/

/-- The key and the flag `reverse` of `inorderExtend` (sweep_intersector.py:300-304): is the order by `x`, is it reversed. -/
def keyRev (v1 v2 : K × K) : Bool × Bool :=
  if v1.1 < v2.1 then (true, true)
  else if v1.1 > v2.1 then (true, false)
  else if v1.2 < v2.2 then (false, true)
  else (false, false)

/-- `k` of lines 301-304. -/
def keyOf (byX : Bool) (p : K × K) : K := if byX then p.1 else p.2

/-- `sorted(points, key=k, reverse=r)` (sweep_intersector.py:305): stable, also when reversed. -/
def sortedBy (byX rev : Bool) (points : List (K × K)) : List (K × K) :=
  if rev then points.insertionSort (fun p q => keyOf byX q ≤ keyOf byX p)
  else points.insertionSort (fun p q => keyOf byX p ≤ keyOf byX q)

/-- One round of lines 308-311: `segment.insert(i, e)` unless `e in segment`. -/
def addPt (i : ℕ) (segment : List (K × K)) (p : K × K) : List (K × K) :=
  if p ∈ segment then segment else segment.take i ++ p :: segment.drop i

/-- `inorderExtend` (sweep_intersector.py:296-312); `none` is the failed assertion. -/
def inorderExtend (segment : List (K × K)) (v1 v2 : K × K) (points : List (K × K)) : Option (List (K × K)) :=
  let kr := keyRev v1 v2
  let l := sortedBy kr.1 kr.2 points
  match segment.findIdx? (fun p => decide (p = v2)) with
  | none => none
  | some i => some (l.foldl (addPt i) segment)

/-- An entry of the result of `find_intersection` (sweep_intersector.py:315-318, 330): `v[1:][:-1]`. -/
def report (v1 v2 : K × K) (isects : List (K × K)) : Option (List (K × K)) :=
  (inorderExtend [v1, v2] v1 v2 isects).map (fun v => (v.drop 1).dropLast)

/-- `collectAndSortResult` (sweep_intersector.py:314-318): the entries of `isectDict` in their order, keyed by the segment and
its index; a later entry of the same segment replaces the value of an earlier one. -/
def collect (isects : List (((K × K) × (K × K)) × ℕ × List (K × K))) (key : (K × K) × (K × K)) : Option (Option (List (K × K))) :=
  isects.foldl (fun acc it => if it.1 = key then some (inorderExtend [it.1.1, it.1.2] it.1.1 it.1.2 it.2.2) else acc) none

/-- `polygon_segments` (sweep_intersector.py:331-337). -/
def polygonSegments {P : Type} (polygon : List P) : List (Option P × Option P) :=
  (List.range polygon.length).map (fun i => (polygon[i]?, polygon[(i + 1) % polygon.length]?))

/-! ## The bound of the coordinates -/

/-- The condition of the loop of `initializeStructures` (sweep_intersector.py:226-227). -/
def outside (inf : K) (v1 v2 : K × K) : Prop :=
  inf ≤ |v1.1| ∨ inf ≤ |v1.2| ∨ inf ≤ |v2.1| ∨ inf ≤ |v2.2|

instance (inf : K) (v1 v2 : K × K) : Decidable (outside inf v1 v2) := by unfold outside; infer_instance

/-- The loop of lines 226-228 with at most `n` rounds; `none` if it has not ended by then. -/
def grow (v1 v2 : K × K) : ℕ → K → Option K
  | 0, _ => none
  | n + 1, inf => if outside inf v1 v2 then grow v1 v2 n (inf * 2) else some inf

/-- `infinity` after all segments (sweep_intersector.py:221-228). -/
def growAll (n : ℕ) : List ((K × K) × (K × K)) → K → Option K
  | [], inf => some inf
  | s :: l, inf => (grow s.1 s.2 n inf).bind (growAll n l)

end Verif.Swl
