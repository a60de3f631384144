import Verif.Poly.Model
import Verif.Vec.Model

/-!
# Model of the test on the sphere: `ch2d_sep` and `sph_sep` of `mmcore/numeric/intersection/separability/spherical.py`

Coordinates are in an ordered field.  The norm is a parameter.  The direction of a zero vector is NaN in the code (0 / 0); it is `none`
here.  `convex_hull2d` is the model of `Poly/Model.lean`.  The cutting of the surface and of the curve (lines 245-246) and the lists
of pieces are not modelled: `pieceSep` is the decision for one piece of the surface and one of the curve.
-/

namespace Verif.Sph

open Verif.Vec

variable {K : Type} [Field K] [LinearOrder K]

/-- `center_projection_to_xy` (spherical.py:164-186). -/
def centerProj (o p : V3 K) : K × K :=
  if o.z = p.z then (p.x, p.y)
  else
    let t := -o.z / (p.z - o.z)
    (o.x + t * (p.x - o.x), o.y + t * (p.y - o.y))

/-- Product of vectors in the plane. -/
def dot2 (a b : K × K) : K := a.1 * b.1 + a.2 * b.2

/-- The differences of a vertex and the next one, around (spherical.py:194). -/
def edges (h : List (K × K)) : List (K × K) :=
  h.zipIdx.map fun p => let q := h.getD ((p.2 + 1) % h.length) p.1; (p.1.1 - q.1, p.1.2 - q.2)

/-- `hull_sides` (spherical.py:193-195). -/
def hullSides (h : List (K × K)) : List (K × K) := edges h ++ (edges h).map fun v => (v.2, -v.1)

/-- `unit` (vectors.pyx:183-197) of one row; `none` is NaN. -/
def unit2 (nrm : K × K → K) (v : K × K) : Option (K × K) := if v = (0, 0) then none else some (v.1 / nrm v, v.2 / nrm v)

/-- `projection_param_t` (spherical.py:211-217). -/
def paramT (a b : K × K) : K := dot2 a b / dot2 b b

/-- `np.min` of the numbers `x :: l`. -/
def lo (x : K) (l : List K) : K := l.foldl min x
/-- `np.max`. -/
def hi (x : K) (l : List K) : K := l.foldl max x

/-- The test of one direction (spherical.py:232-240): with NaN all comparisons are false, and the `not` of line 238 is true. -/
def axisSep (p : K × K) (l : List (K × K)) (q : K × K) (m : List (K × K)) : Option (K × K) → Bool
  | none => true
  | some s =>
    !(decide (lo (paramT p s) (l.map (paramT · s)) < hi (paramT q s) (m.map (paramT · s))) &&
      decide (lo (paramT q s) (m.map (paramT · s)) < hi (paramT p s) (l.map (paramT · s))))

/-- `ch2d_sep` (spherical.py:218-241); `none` is the exception for an empty array. -/
def ch2dSep (nrm : K × K → K) (h1 h2 : List (K × K)) : Option Bool :=
  match h1, h2 with
  | p :: l, q :: m => some (((hullSides (p :: l) ++ hullSides (q :: m)).map (unit2 nrm)).any (axisSep p l q m))
  | _, _ => none

/-- `np.allclose` of two points. -/
def allclose (rtol atol : K) (a b : V3 K) : Bool :=
  decide (|a.x - b.x| ≤ atol + rtol * |b.x|) && decide (|a.y - b.y| ≤ atol + rtol * |b.y|) &&
    decide (|a.z - b.z| ≤ atol + rtol * |b.z|)

/-- Directions of control points on the sphere, projected (spherical.py:250-261 and 267-274). -/
def projected (nrm : V3 K → K) (rtol atol : K) (p : V3 K) (pts : List (V3 K)) : List (K × K) :=
  (pts.filter fun q => !allclose rtol atol q p).map fun q =>
    let v : V3 K := ⟨q.x - p.x, q.y - p.y, q.z - p.z⟩
    centerProj ⟨0, 0, 1⟩ ⟨v.x / nrm v, v.y / nrm v, v.z / nrm v⟩

/-- Is the pair of a piece of the surface and a piece of the curve dropped (spherical.py:290)? -/
def pieceSep (nrm2 : K × K → K) (nrm : V3 K → K) (rtol atol eps : K) (angle : K × K → K) (p : V3 K) (surf curve : List (V3 K)) : Option Bool :=
  ch2dSep nrm2 (Poly.convexHull2d eps angle (projected nrm rtol atol p surf)) (Poly.convexHull2d eps angle (projected nrm rtol atol p curve))

end Verif.Sph
