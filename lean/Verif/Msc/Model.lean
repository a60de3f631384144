import Verif.Ssx.Model

/-! # Small parts

`Terminator.remove` (`numeric/intersection/ssx/_terminator.py`), `support_vector` (`geom/vec/svm.py`), `Circle` of `geom/curves/__init__.py`,
`match_edge_cases` (`topo/mesh/tess.py`), `polyline_to_lines` and `point_in_polygon` (`geom/features.py`).  Numbers are elements of an ordered field;
`none` is an exception unless said otherwise. -/

namespace Verif.Msc

open Verif.Vec V3
open Verif.Ssx (Trm Pt nearest)

variable {K : Type} [Field K] [LinearOrder K]

/-- The square of the distance. -/
def dist2 (p q : V3 K) : K := dot (p.sub q) (p.sub q)

/-- `Terminator.remove` (_terminator.py:76-103); `tol2` is the square of `1e-6`.  The first case is `_kd is None and _size == 1`, the second
`_kd is None and _size == 0`; otherwise the tree is asked for the nearest point, which must be at distance 0.  `none` is the `ValueError`. -/
def remove (tol2 : K) (t : Trm K) (q : V3 K) : Option (Trm K) :=
  match t.kd with
  | none =>
    if t.size = 1 then
      match t.pts with
      | [] => none
      | p :: _ => if dist2 p.xyz q < tol2 then some (t.del 0) else none
    else if t.size = 0 then some t else none
  | some l =>
    match l[nearest q l]? with
    | none => none
    | some p => if dist2 p q = 0 then some (t.del (nearest q l)) else none

/-- `support_vector` (svm.py:12-50); `lowest` is `-sys.float_info.max`. -/
def supportVector (lowest : K) (vs : List (V3 K)) (d : V3 K) : V3 K :=
  (vs.foldl (fun s v => if dot v d > s.1 then (dot v d, v) else s) (lowest, zero)).2

/-- `Circle` (curves/__init__.py:28-67): radius, and the two coordinates of the origin that are used. -/
structure Circle (K : Type) where
  r : K
  ox : K
  oy : K

/-- `fx` (46-48): the two values of `y`; `sqrt` is a parameter. -/
def Circle.fx (sqrt : K → K) (c : Circle K) (x : K) : K × K :=
  let s := sqrt (c.r ^ 2 - (x - c.ox) ^ 2)
  (c.oy + s, c.oy - s)

/-- `fy` (50-52). -/
def Circle.fy (sqrt : K → K) (c : Circle K) (y : K) : K × K :=
  let s := sqrt (c.r ^ 2 - (y - c.oy) ^ 2)
  (c.ox + s, c.ox - s)

/-- `implict` (54-57). -/
def Circle.implict (c : Circle K) (p : K × K) : K := (p.1 - c.ox) ^ 2 + (p.2 - c.oy) ^ 2 - c.r ^ 2

/-- `evaluate` (62-65). -/
def Circle.evaluate (cos sin : K → K) (c : Circle K) (t : K) : K × K := (c.r * cos t + c.ox, c.r * sin t + c.oy)

/-- `interval` of a new curve (curve.py:35, 147). -/
def newInterval : K × K := (0, 1)

/-- `_is_close_0` (tess.py:56-57). -/
def isClose0 (a tol : K) : Bool := decide (|a| ≤ tol)

/-- `match_edge_cases` (tess.py:60-73) for a polygon with first point `p` and last point `q`; `close` is `np.allclose`.  The outer `none` is an
exception (no point), the inner one the returned `None` at the end. -/
def matchEdge (close : K × K → K × K → Bool) (poly : List (K × K)) (umin vmin umax vmax tol : K) : Option (Option (List (K × K))) :=
  match poly.head?, poly.getLast? with
  | some p, some q =>
    if close q p then some (some poly)
    else if (isClose0 (p.1 - umin) tol && isClose0 (q.1 - umin) tol) || (isClose0 (p.1 - umax) tol && isClose0 (q.1 - umax) tol)
        || (isClose0 (p.2 - vmin) tol && isClose0 (q.2 - vmin) tol) || (isClose0 (p.2 - vmax) tol && isClose0 (q.2 - vmax) tol) then some (some poly)
    else some none
  | _, _ => none

/-- `polyline_to_lines` (features.py:27-28): each point with the next, the last with the first. -/
def polylineToLines {A : Type} (l : List A) : List (A × A) := l.zip (l.rotate 1)

/-- `a, b = array` for an array whose first axis has the entries `l`. -/
def unpack2 {A : Type} (l : List A) : Option (A × A) :=
  match l with
  | [a, b] => some (a, b)
  | _ => none

/-- `point_in_polygon` (features.py:48-53): `inside` is computed from the first three points (49); `intersects_segments` (20-23) starts with
`a, b = ab`; `rest` is what follows. -/
def pointInPolygon {A : Type} (inside : A → A → A → A) (rest : (A × A) × (A × A) → A → A → Bool) (l : List A) (p : A) : Option Bool := do
  let p0 ← l[0]?
  let p1 ← l[1]?
  let p2 ← l[2]?
  let ab ← unpack2 (polylineToLines l)
  return rest ab p (inside p0 p1 p2)

end Verif.Msc
