import Verif.Vec.Model
import Mathlib.Algebra.Module.Basic
import Mathlib.Tactic.TypeStar

/-!
# Model of the Python surfaces: `mmcore/geom/surfaces/__init__.py`

Numbers come from a field `K`, points from a module `V` over it (or from `V3 K` where inner products are needed).  A division by
zero is `none`.  The norm is an argument.  Not modelled: `Surface.inversion`, `implicit`, `geodesic_length`, the trees, and the caches.
-/

namespace Verif.Srf

open Verif.Vec Verif.Vec.V3

/-! ## Bilinear patches and blossoms -/

section Lin

variable {K : Type} [Field K] {V : Type} [AddCommGroup V] [Module K V]

/-- `np.array([p, q]).dot(m)` for an array `m` of shape (2, 2, n): the sum runs over the second axis. -/
def dotM (p q : K) (m : (V × V) × (V × V)) : V × V := (p • m.1.1 + q • m.1.2, p • m.2.1 + q • m.2.2)

/-- `np.array([p, q]).dot(m)` for an array `m` of shape (2, n). -/
def dotR (p q : K) (m : V × V) : V := p • m.1 + q • m.2

/-- `evaluate_bilinear` (surfaces/__init__.py:407-410). -/
def evaluateBilinear (u v : K) (b00 b01 b10 b11 : V) : V := dotR (1 - v) v (dotM (1 - u) u ((b00, b01), (b10, b11)))

/-- `BiLinear(a, b, c, d).evaluate` (surfaces/__init__.py:415-426): the corners are taken in the order `b00, b01, b11, b10`. -/
def pyBilinear (a b c d : V) (u v : K) : V :=
  let m := ((a, b), (d, c))
  dotR (1 - v) v (dotM (1 - u) u m)

/-- `CBiLinear(a, b, c, d).evaluate_v2`: the compiled class (parametric.pyx:788-807), with the corners in the order `b00, b10, b11,
b01`. -/
def cBilinear (b00 b10 b11 b01 : V) (u v : K) : V := v • (u • b11 + (1 - u) • b01) + (1 - v) • (u • b10 + (1 - u) • b00)

/-- `blossom` (surfaces/__init__.py:398-404). -/
def blossom (b0 b1 b2 : V) (s t : K) : V :=
  let bs0 := (1 - s) • b0 + s • b1
  let bs1 := (1 - s) • b1 + s • b2
  (1 - t) • bs0 + t • bs1

/-! ## `Ruled` and `Coons` -/

/-- A curve: its points, what `derivative` and `second_derivative` give, and its interval. -/
structure Crv (K V : Type) where
  eval : K → V
  der : K → V
  der2 : K → V
  a : K
  b : K

/-- `_remap_u`, `_remap_v` (surfaces/__init__.py:453-455): the inner product of `(0, 1)` and the interval. -/
def remap (c : Crv K V) : K := 0 * c.a + 1 * c.b

/-- `PyRuled.evaluate`, `evaluate_v2` (surfaces/__init__.py:477-484). -/
def pyRuled (c1 c2 : Crv K V) (u v : K) : V := (1 - v) • c1.eval (remap c1 * u) + v • c2.eval (remap c2 * u)

/-- `PyRuled.derivative_v` (458-460). -/
def pyRuledV (c1 c2 : Crv K V) (u _v : K) : V := c2.eval (remap c2 * u) - c1.eval (remap c1 * u)

/-- `PyRuled.derivative_u` (462-464). -/
def pyRuledU (c1 c2 : Crv K V) (u v : K) : V := v • c2.der (remap c2 * u) + (1 - v) • c1.der (remap c1 * u)

/-- `PyRuled.second_derivative_uu` (466-469). -/
def pyRuledUU (c1 c2 : Crv K V) (u v : K) : V := v • c2.der2 (remap c2 * u) + (1 - v) • c1.der2 (remap c1 * u)

/-- `CRuled.evaluate_v2`: the compiled class (parametric.pyx:670-682). -/
def cRuled (c1 c2 : Crv K V) (u v : K) : V :=
  (1 - v) • c1.eval (u * (c1.b - c1.a) + c1.a) + v • c2.eval (u * (c2.b - c2.a) + c2.a)

/-- The class that `Coons` takes for a pair of curves (surfaces/__init__.py:570-582): the compiled one when both curves are. -/
def ruled (compiled : Bool) : Crv K V → Crv K V → K → K → V := if compiled then cRuled else pyRuled

/-- `Coons(c1, d1, c2, d2).evaluate` (surfaces/__init__.py:560-599); `kc`, `kd` say whether the two pairs of curves are compiled. -/
def coons (kc kd : Bool) (c1 d1 c2 d2 : Crv K V) (u v : K) : V :=
  let pt0 := c1.eval c1.a
  let pt1 := c1.eval c1.b
  let pt2 := c2.eval c2.b
  let pt3 := d2.eval d2.b
  ruled kc c1 c2 u v + ruled kd d2 d1 v u - cBilinear pt0 pt1 pt2 pt3 u v

end Lin

/-! ## Curves of constant parameter -/

section Iso

variable {K : Type} [Field K] [LinearOrder K]

/-- One entry of the loop of `isocurve` (305-309): the default stays when the argument lies below the interval of `u`. -/
def pickArg (us ue dflt val : K) : K := if val < min us ue then dflt else val

/-- `Surface.isocurve` (302-315): the curve in the domain, `interval() = ((us, ue), (vs, ve))`. -/
def isocurve (us ue vs ve : K) (u0 v0 u1 v1 : K) (t : K) : K × K :=
  let k0 := pickArg us ue us u0
  let k1 := pickArg us ue ue v0
  let k2 := pickArg us ue vs u1
  let k3 := pickArg us ue ve v1
  (k0 + (k2 - k0) * t, k1 + (k3 - k1) * t)

/-- `isocurve_u` (281-282). -/
def isocurveU (us ue vs ve u0 u1 : K) : K → K × K := isocurve us ue vs ve u0 0 u1 1

/-- `isocurve_v` (284-285). -/
def isocurveV (us ue vs ve v0 v1 : K) : K → K × K := isocurve us ue vs ve 0 v0 1 v1

/-- `isoline_u` (287-291). -/
def isolineU (u t : K) : K × K := (u + 0 * t, 0 + 1 * t)

/-- `isoline_v` (293-297). -/
def isolineV (v t : K) : K × K := (0 + 1 * t, v + 0 * t)

/-! ## `surface_bvh` -/

/-- `np.linspace(a, b, n)` at `i`. -/
def lin (a b : K) (n i : Nat) : K := if n ≤ 1 then a else a + (b - a) * i / ((n - 1 : Nat) : K)

/-- The parameter quads of `surface_bvh` (379-393). -/
def quads (us ue vs ve : K) (nu nv : Nat) : List ((K × K) × (K × K) × (K × K) × (K × K)) :=
  (List.range nu).flatMap fun i => (List.range nv).flatMap fun j =>
    if i = nu - 1 ∨ j = nv - 1 then []
    else
      let u := lin us ue nu
      let v := lin vs ve nv
      [((u i, v j), (u (i + 1), v j), (u (i + 1), v (j + 1)), (u i, v (j + 1)))]

/-! ## Planes and curvatures -/

/-- `surface_evaluator.origin_derivatives_normal` after the differences (surface_evaluator.pyx:303-310): the unit normal. -/
def normalOf (nrm : V3 K → K) (du dv : V3 K) : Option (V3 K) :=
  let n := cross du dv
  if nrm n = 0 then none else some (smul (1 / nrm n) n)

/-- `Surface.plane_at` (260-280): the three axes, from the derivatives `du`, `dv`. -/
def planeAt (nrm : V3 K → K) (du dv : V3 K) : Option (V3 K × V3 K × V3 K) := do
  let n ← normalOf nrm du dv
  if nrm du = 0 ∨ nrm dv = 0 then none
  else
    let x := smul (1 / nrm du) du
    let y := smul (1 / nrm dv) dv
    return (x, sub y (smul (dot y x) x), n)

/-- First and second derivatives of a surface at a point. -/
structure Jet (K : Type) where
  su : V3 K
  sv : V3 K
  suu : V3 K
  suv : V3 K
  svv : V3 K

/-- `k1`, `k2` (82-89). -/
def normCurv (s : Jet K) (n t : V3 K) : K :=
  dot s.suu n * dot s.su t ^ 2 + 2 * dot s.suv n * dot s.su t * dot s.sv t + dot s.svv n * dot s.sv t ^ 2

/-- `compute_intersection_curvature` (54-95): `(curvature_vector, T)`; `none` for the `ValueError` or a division by zero; `isOne` is
`np.isclose(_, 1)`. -/
def interCurvature (nrm : V3 K → K) (isOne : K → Bool) (s1 s2 : Jet K) : Option (V3 K × V3 K) := do
  let n1 ← normalOf nrm s1.su s1.sv
  let n2 ← normalOf nrm s2.su s2.sv
  let c := dot n1 n2
  if isOne |c| then none
  else
    let t ← normalOf nrm n1 n2
    let k1 := normCurv s1 n1 t
    let k2 := normCurv s2 n2 t
    if 1 - c ^ 2 = 0 then none
    else return (smul (1 / (1 - c ^ 2)) (add (smul k1 n1) (smul k2 n2)), t)

/-! ## `TwoPointForm` and `LinearMap` -/

/-- `TwoPointForm` (28-32). -/
structure TwoPoint (K : Type) where
  x1 : K
  y1 : K
  x2 : K
  y2 : K

/-- `TwoPointForm.y` (34-37). -/
def TwoPoint.y (l : TwoPoint K) (x : K) : Option K :=
  if l.x1 - l.x2 = 0 then none else some ((x * l.y1 - x * l.y2 + l.x1 * l.y2 - l.x2 * l.y1) / (l.x1 - l.x2))

/-- `TwoPointForm.x` (39-42). -/
def TwoPoint.x (l : TwoPoint K) (y : K) : Option K :=
  if l.y1 - l.y2 = 0 then none else some ((l.x1 * y - l.x1 * l.y2 - l.x2 * y + l.x2 * l.y1) / (l.y1 - l.y2))

/-- `TwoPointForm.__call__` (44-51): the determinant. -/
def TwoPoint.call (l : TwoPoint K) (x y : K) : K := (x - l.x1) * (l.y2 - l.y1) - (y - l.y1) * (l.x2 - l.x1)

/-- `LinearMap(source, target)` (429-442). -/
structure LMap (K : Type) where
  s0 : K
  s1 : K
  t0 : K
  t1 : K

/-- `LinearMap.__call__` with the slope of line 433. -/
def LMap.call (m : LMap K) (t : K) : K := (m.s0 * m.t0 + m.s1 * m.t1) * t

/-- `LinearMap.inv`, `__invert__`. -/
def LMap.inv (m : LMap K) : LMap K := ⟨m.t0, m.t1, m.s0, m.s1⟩

end Iso

end Verif.Srf
