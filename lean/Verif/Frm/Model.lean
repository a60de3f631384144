import Verif.Pinv.Model

/-! # Frames and steps of the Python curves, and the distance function of a curve

`plane_on_curve`, `normal_at`, `swap_z_to_first_der` (`mmcore/numeric/numeric.py`), `Curve.normal`, `Curve.plane_at`, `Curve.planes_at`,
`Curve.step` (`mmcore/geom/curves/curve.py`) and `ImplicitlyCurve` (`mmcore/geom/curves/implicitly.py`).  Numbers are elements of an ordered
field; the norm and the square root are parameters.  Of arrays only the number of dimensions and the rows are modelled. -/

namespace Verif.Frm

open Verif.Vec V3

variable {K : Type} [Field K] [LinearOrder K]

/-- An array of three numbers, or of rows of three numbers. -/
inductive Arr (K : Type) where
  | vec (v : V3 K)
  | rows (l : List (V3 K))

/-- The argument as `double[:,:]`: for an array of one dimension the call raises (`ValueError`: wrong number of dimensions). -/
def Arr.rows? : Arr K → Option (List (V3 K))
  | .vec _ => none
  | .rows l => some l

/-- One row of `unit` (vectors.pyx:183-197); `none`: NaN. -/
def unitRow (nrm : V3 K → K) (v : V3 K) : Option (V3 K) :=
  if nrm v = 0 then none else some ⟨v.x / nrm v, v.y / nrm v, v.z / nrm v⟩

/-- `normal_at` (numeric.py:42-44).  The outer `none` is the exception, an inner one a row of NaN.  The arrays have the same number of rows. -/
def normalAt (nrm : V3 K → K) (d1 d2 : Arr K) : Option (List (Option (V3 K))) :=
  match d1.rows?, d2.rows? with
  | some l, some m => some ((l.zip m).map fun ab => (unitRow nrm ab.1).bind fun t => unitRow nrm (gramSchmidtRow t ab.2))
  | _, _ => none

/-- `plane_on_curve` (numeric.py:24-39): for every row the origin, the tangent, the normal and the binormal. -/
def planeOnCurve (nrm : V3 K → K) (o t d2 : Arr K) : Option (List (Option (V3 K × V3 K × V3 K × V3 K))) :=
  match o.rows?, t.rows?, d2.rows? with
  | some os, some ts, some ds =>
    some ((os.zip (ts.zip ds)).map fun r =>
      (unitRow nrm (gramSchmidtRow r.2.1 r.2.2)).map fun n => (r.1, r.2.1, n, cross r.2.1 n))
  | _, _, _ => none

/-- `Curve.normal` (curve.py:158-163): the derivatives at a number are arrays of one dimension. -/
def curveNormal (nrm : V3 K → K) (c : Pinv.Crv K) (t : K) : Option (List (Option (V3 K))) := normalAt nrm (.vec (c.d1 t)) (.vec (c.d2 t))

/-- `Curve.plane_at` (curve.py:192-200); `tangent` is `evaluate_tangent(...)[0]`, a vector. -/
def planeAt (nrm : V3 K → K) (tangent : V3 K → V3 K → V3 K) (c : Pinv.Crv K) (t : K) : Option (List (Option (V3 K × V3 K × V3 K × V3 K))) :=
  planeOnCurve nrm (.vec (c.ev t)) (.vec (tangent (c.d1 t) (c.d2 t))) (.vec (c.d2 t))

/-- `Curve.planes_at` (curve.py:201-202). -/
def planesAt (nrm : V3 K → K) (tangent : V3 K → V3 K → V3 K) (c : Pinv.Crv K) (ts : List K) :
    Option (List (List (Option (V3 K × V3 K × V3 K × V3 K)))) := ts.mapM (planeAt nrm tangent c)

/-- `swap_z_to_first_der` (numeric.py:47-55) of one plane. -/
def swapZ (p : V3 K × V3 K × V3 K × V3 K) : V3 K × V3 K × V3 K × V3 K := (p.1, p.2.2.1, p.2.2.2, p.2.1)

/-- The first entry of `Curve.step` (curve.py:358-370) for the curvature vector `k`: for the zero vector the radius is infinite and the result
NaN, as is the root of a negative number; both are `none`. -/
def step (nrm : V3 K → K) (sqrt : K → K) (k : V3 K) (tol : K) : Option K :=
  if nrm k = 0 then none
  else
    let r := 1 / nrm k
    if r ^ 2 - (r - tol) ^ 2 < 0 then none else some (sqrt (r ^ 2 - (r - tol) ^ 2) * 2)

/-- The first of the parameters whose points are nearest (`np.argmin`). -/
def nearest (c : Pinv.Crv K) (p : V3 K) (t : K) (ts : List K) : K :=
  ts.foldl (fun b u => if dot (p.sub (c.ev u)) (p.sub (c.ev u)) < dot (p.sub (c.ev b)) (p.sub (c.ev b)) then u else b) t

/-- `ImplicitlyCurve.__call__` (implicitly.py:21-29) with the samples `t :: ts` of lines 19 (100 numbers from `linspace`): distance, gradient and
parameter.  `inv` is `point_inversion_curve` with its tolerances. -/
def implicitly (nrm : V3 K → K) (c : Pinv.Crv K) (inv : V3 K → K → Option K) (t : K) (ts : List K) (p : V3 K) : Option (K × V3 K × K) :=
  (inv p (nearest c p t ts)).map fun u => (nrm ((c.ev u).sub p), (c.ev u).sub p, u)

end Verif.Frm
