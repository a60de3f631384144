import Verif.Csx.Model
import Verif.Vec.Model

/-!
# Newton's method for a curve and a surface, and the wrappers for a ray and a plane

Model of `difference`, `jacobian`, `_jac_cls` and their use by `newton_raphson` and `find_intersections_bvh` in
`mmcore/numeric/intersection/csx/__init__.py`, and of the two functions of `mmcore/numeric/plane/cplane.pyx` that take the rows of a
plane and of a ray out of arrays.  Numbers are elements of an ordered field.  `numpy.linalg.solve` of a 3×3 matrix is Cramer's rule
and raises for a singular matrix.
-/

namespace Verif.Cnr

open Verif.Vec Verif.Vec.V3

variable {K : Type} [Field K] [LinearOrder K] [IsStrictOrderedRing K]

/-! ## Newton's method -/

/-- `difference` (csx/__init__.py:20-23). -/
def difference (c : K → V3 K) (s : K → K → V3 K) (x : K × K × K) : V3 K := (c x.1).sub (s x.2.1 x.2.2)

/-- One column of `jacobian` (csx/__init__.py:35-39): the values at `params + dp` and `params - dp`. -/
def column (h : K) (p m : V3 K) : V3 K :=
  ⟨(p.x - m.x) / (2 * h), (p.y - m.y) / (2 * h), (p.z - m.z) / (2 * h)⟩

/-- `jacobian` (csx/__init__.py:31-41), by columns; `h = 1e-6`. -/
def jacFd (h : K) (c : K → V3 K) (s : K → K → V3 K) (x : K × K × K) : V3 K × V3 K × V3 K :=
  (column h (difference c s (x.1 + h, x.2.1, x.2.2)) (difference c s (x.1 - h, x.2.1, x.2.2)),
   column h (difference c s (x.1, x.2.1 + h, x.2.2)) (difference c s (x.1, x.2.1 - h, x.2.2)),
   column h (difference c s (x.1, x.2.1, x.2.2 + h)) (difference c s (x.1, x.2.1, x.2.2 - h)))

/-- `_jac_cls` (csx/__init__.py:44-57), by columns: the derivatives of the curve and of the surface, the latter with the minus. -/
def jacCls (dc : K → V3 K) (du dv : K → K → V3 K) (x : K × K × K) : V3 K × V3 K × V3 K :=
  (dc x.1, smul (-1) (du x.2.1 x.2.2), smul (-1) (dv x.2.1 x.2.2))

/-- The determinant of three columns. -/
def det3 (a b c : V3 K) : K := dot a (cross b c)

/-- `np.linalg.solve(J, b)` (csx/__init__.py:73): `none` for the `LinAlgError` of a singular matrix. -/
def solve3 (J : V3 K × V3 K × V3 K) (b : V3 K) : Option (K × K × K) :=
  let d := det3 J.1 J.2.1 J.2.2
  if d = 0 then none
  else some (det3 b J.2.1 J.2.2 / d, det3 J.1 b J.2.2 / d, det3 J.1 J.2.1 b / d)

/-- The step of `newton_raphson` (csx/__init__.py:71-73). -/
def delta (jac : K × K × K → V3 K × V3 K × V3 K) (c : K → V3 K) (s : K → K → V3 K) (x : K × K × K) : Option (K × K × K) :=
  solve3 (jac x) (smul (-1) (difference c s x))

/-- `newton_raphson` (csx/__init__.py:61-78) and `closest_curve_surface_ppi` (226-227); `small d` is `scalar_norm(d) < tol`. -/
def newton (jac : K × K × K → V3 K × V3 K × V3 K) (c : K → V3 K) (s : K → K → V3 K) (small : K × K × K → Bool) (maxIter : Nat)
    (x : K × K × K) : Option (K × K × K) :=
  Csx.newtonRaphson (delta jac c s) small maxIter x

/-- `find_intersections_bvh` (csx/__init__.py:197-209) for the guesses `gs`; `close` is `np.allclose`. -/
def findAll (jac : K × K × K → V3 K × V3 K × V3 K) (c : K → V3 K) (s : K → K → V3 K) (small : K × K × K → Bool)
    (close : K × K × K → K × K × K → Bool) (gs : List (K × K × K)) : Option (List (K × K × K)) :=
  Csx.refineAll (newton jac c s small 100) close gs []

/-! ## A ray and a plane -/

/-- `ray_plane_intersection` (cplane.pyx:544-584): the normal is row 1 of `plane`.  The outer `none` is an `IndexError` for missing
rows, the inner one the result `None`. -/
def rayPlaneIntersection (eps : K) (plane ray : List (V3 K)) : Option (Option (V3 K)) :=
  match plane[0]?, plane[1]?, ray[0]?, ray[1]? with
  | some po, some pn, some ro, some rd => some (rayPlane eps po pn ro rd)
  | _, _, _, _ => none

/-- `ray_plane_parametric_intersection` (cplane.pyx:690-741): the rows are the origin, the two axes and the normal. -/
def rayPlaneParametric (eps : K) (plane ray : List (V3 K)) : Option (Option (V3 K × (K × K))) :=
  match plane[0]?, plane[1]?, plane[2]?, plane[3]?, ray[0]?, ray[1]? with
  | some po, some px, some py, some pn, some ro, some rd => some (rayParamPlane eps po px py pn ro rd)
  | _, _, _, _, _, _ => none

end Verif.Cnr
