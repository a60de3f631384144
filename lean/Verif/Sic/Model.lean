import Verif.Vec.Props
import Mathlib.Algebra.Order.Floor.Ring

/-! # Curvature of an intersection curve, polygons of trimming curves

`mmcore/geom/surfaces/__init__.py`: `compute_intersection_curvature` (54-97) and the polygon of
`CurveOnSurface.build_uv_bvh` (112-126).

`np.linalg.norm` is a parameter `nrm` (the theorems assume it is the Euclidean norm); `np.isclose(x, 1)` is
`|x - 1| ≤ eps` with the tolerance a parameter; floats are exact. -/

set_option linter.unusedSectionVars false

namespace Verif.Sic

open Verif.Vec Verif.Vec.V3

variable {K : Type} [Field K] [LinearOrder K]

/-- The partial derivatives of a surface at a point, five of the ten arguments of
`compute_intersection_curvature` (surfaces/__init__.py:54). -/
structure Jet (K : Type) where
  su : V3 K
  sv : V3 K
  suu : V3 K
  suv : V3 K
  svv : V3 K
deriving DecidableEq

/-- `N = np.cross(Su, Sv); N /= np.linalg.norm(N)` (surfaces/__init__.py:68-71, 79-80). -/
def unit (nrm : V3 K → K) (v : V3 K) : V3 K := smul (1 / nrm v) v

/-- `N1`, `N2` (surfaces/__init__.py:68-71). -/
def Jet.normal (nrm : V3 K → K) (j : Jet K) : V3 K := unit nrm (cross j.su j.sv)

/-- `k1`, `k2` (surfaces/__init__.py:83-90): the second fundamental form along `T`, with `Su · T` and `Sv · T` in place
of the coordinates of `T`. -/
def Jet.form (j : Jet K) (n t : V3 K) : K :=
  dot j.suu n * (dot j.su t) ^ 2 + 2 * dot j.suv n * dot j.su t * dot j.sv t + dot j.svv n * (dot j.sv t) ^ 2

/-- `compute_intersection_curvature` (surfaces/__init__.py:54-97); `none` is the `ValueError`. -/
def curvature (nrm : V3 K → K) (eps : K) (j1 j2 : Jet K) : Option (V3 K × V3 K) :=
  let n1 := j1.normal nrm
  let n2 := j2.normal nrm
  let c := dot n1 n2
  if |(|c|) - 1| ≤ eps then none
  else
    let t := unit nrm (cross n1 n2)
    let k1 := j1.form n1 t
    let k2 := j2.form n2 t
    some (smul (1 / (1 - c ^ 2)) ((smul k1 n1).add (smul k2 n2)), t)

/-- `np.arange(a, b)` (surfaces/__init__.py:115): `a, a + 1, …` below `b`. -/
def arange [FloorRing K] (a b : K) : List K := (List.range ⌈b - a⌉.toNat).map fun i : ℕ => a + (i : K)

/-- `build_uv_bvh` for a curve of degree 1 (surfaces/__init__.py:113-115). -/
def polygon1 [FloorRing K] {P : Type} (crv : K → P) (a b : K) : List P := (arange a b).map crv

/-- `self._edges` (surfaces/__init__.py:124-125). -/
def edges {P : Type} (poly : List P) : List (Option P × Option P) :=
  (List.range poly.length).map fun i => (poly[i]?, poly[(i + 1) % poly.length]?)

end Verif.Sic
