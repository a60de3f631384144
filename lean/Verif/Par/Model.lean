import Verif.Dg.Model
import Mathlib.Analysis.Calculus.Deriv.Basic

/-!
# Model of the base classes of curves and surfaces

mmcore/geom/parametric.pyx (all classes but `RationalRuled`), mmcore/geom/evaluator/surface_evaluator.pyx,
mmcore/geom/curves/_cubic.pyx, mmcore/geom/curves/cubic.py.

Numbers are reals, `none` is NaN.  Vectors are those of `Verif.Prim`.  A curve is a function of the parameter, a surface a
function of two; they stand for `cevaluate` of a subclass, which is taken to write all three numbers.  The step
`DEFAULT_H = 1e-3` (parametric.pyx:11, surface_evaluator.pyx:39) is the argument `h`.
-/

namespace Verif.Par

open Verif.Prim Verif.Dg

/-- Division of the three numbers by one that is not zero. -/
noncomputable def quot (a : P) (d : ℝ) : P := ⟨a.x / d, a.y / d, a.z / d⟩

/-! ## `ParametricCurve` -/

/-- `ParametricCurve.cderivative` (parametric.pyx:55-73): the difference is multiplied by `0.5 * h`. -/
noncomputable def curveDerivative (h : ℝ) (f : ℝ → P) (t : ℝ) : P :=
  let v1 := f (t + h)
  let v2 := f (t - h)
  ⟨(v1.x - v2.x) * (0.5 * h), (v1.y - v2.y) * (0.5 * h), (v1.z - v2.z) * (0.5 * h)⟩

/-- `ParametricCurve.csecond_derivative` (parametric.pyx:100-115). -/
noncomputable def curveSecond (h : ℝ) (f : ℝ → P) (t : ℝ) : P :=
  let v1 := curveDerivative h f (t + h)
  let v2 := curveDerivative h f (t - h)
  ⟨(v1.x - v2.x) * (0.5 * h), (v1.y - v2.y) * (0.5 * h), (v1.z - v2.z) * (0.5 * h)⟩

/-- `calgorithms.evaluate_tangent` (calgorithms.pyx:19-49); `small` is `1e-15`. -/
noncomputable def cTangent (small : ℝ) (d1 d2 : P) : P :=
  if |norm d1| ≤ small then
    if norm d2 > 0 then quot d2 (norm d2) else ⟨0, 0, 0⟩
  else quot d1 (norm d1)

/-- `ParametricCurve.ctangent` (parametric.pyx:147-151). -/
noncomputable def curveTangent (small h : ℝ) (f : ℝ → P) (t : ℝ) : P :=
  cTangent small (curveDerivative h f t) (curveSecond h f t)

/-- `ParametricCurve.ccurvature` (parametric.pyx:137-141, 239-242): the result starts as zeros. -/
noncomputable def curveCurvature (h : ℝ) (f : ℝ → P) (t : ℝ) : P :=
  (cEvaluateCurvature ⟨0, 0, 0⟩ (curveDerivative h f t) (curveSecond h f t)).curvature

/-- The unit tangent and the unit normal as `cnormal` (parametric.pyx:156-174) and `cplane` (198-211) compute them:
`scalar_gram_schmidt_emplace` (vectors.pyx:505-510). -/
noncomputable def tangentNormal (d1 d2 : P) : Option (P × P) := do
  let a ← div d1 (norm d1)
  let b := sub d2 (smul (dot d2 a) a)
  let n ← div b (norm b)
  return (a, n)

/-- `ParametricCurve.normal` (parametric.pyx:221-224). -/
noncomputable def curveNormal (h : ℝ) (f : ℝ → P) (t : ℝ) : Option P :=
  (tangentNormal (curveDerivative h f t) (curveSecond h f t)).map Prod.snd

/-- `ParametricCurve.plane_at` (parametric.pyx:195-215, 248-251). -/
noncomputable def curvePlane (h : ℝ) (f : ℝ → P) (t : ℝ) : Option (P × P × P × P) :=
  (tangentNormal (curveDerivative h f t) (curveSecond h f t)).map fun tn => (f t, tn.1, tn.2, cross tn.1 tn.2)

/-- `ParametricCurve.evaluate` (parametric.pyx:47-50) when `cevaluate` is the one of the base class (36-37), which leaves
the buffer as it is.  `ReparametrizedCurve` (302-308) does not define another one: `curve` and the interval are
stored and not used. -/
def reparametrizedEvaluate (_curve : ℝ → P) (_interval : ℝ × ℝ) (_t : ℝ) : P := ⟨0, 0, 0⟩

/-- `ParametricCurve.is_closed` (parametric.pyx:87-91); `tol` is `1e-7`. -/
noncomputable def isClosed (tol : ℝ) (f : ℝ → P) (a b : ℝ) : Bool :=
  open Classical in
  decide (|(f b).x - (f a).x| ≤ tol ∧ |(f b).y - (f a).y| ≤ tol ∧ |(f b).z - (f a).z| ≤ tol)

/-! ## `ParametricSurface` -/

/-- The difference quotient of `cderivative_u`, `cderivative_v` and the second derivatives (parametric.pyx:323-344):
central inside, one-sided near 0 and near 1, whatever the interval of the surface. -/
noncomputable def edge (h : ℝ) (g : ℝ → P) (u : ℝ) : P :=
  open Classical in
  if 1 - h ≥ u ∧ u ≥ h then quot (sub (g (u + h)) (g (u - h))) (2 * h)
  else if u < h then quot (sub (g (u + h)) (g u)) h
  else quot (sub (g u) (g (u - h))) h

/-- `derivative_u` (parametric.pyx:323-344). -/
noncomputable def surfaceU (h : ℝ) (f : ℝ → ℝ → P) (u v : ℝ) : P := edge h (fun s => f s v) u

/-- `derivative_v` (parametric.pyx:349-370). -/
noncomputable def surfaceV (h : ℝ) (f : ℝ → ℝ → P) (u v : ℝ) : P := edge h (fun s => f u s) v

/-- `second_derivative_uu` (parametric.pyx:376-397). -/
noncomputable def surfaceUU (h : ℝ) (f : ℝ → ℝ → P) (u v : ℝ) : P := edge h (fun s => surfaceU h f s v) u

/-- `second_derivative_vv` (parametric.pyx:402-423). -/
noncomputable def surfaceVV (h : ℝ) (f : ℝ → ℝ → P) (u v : ℝ) : P := edge h (fun s => surfaceV h f u s) v

/-- `second_derivative_uv` (parametric.pyx:429-450). -/
noncomputable def surfaceUV (h : ℝ) (f : ℝ → ℝ → P) (u v : ℝ) : P := edge h (fun s => surfaceU h f u s) v

/-- `plane_at` (parametric.pyx:460-467): origin and three axes. -/
noncomputable def surfacePlane (o du dv : P) : Option (P × P × P × P) := do
  let x ← div du (norm du)
  let n ← div (cross x dv) (norm (cross x dv))
  return (o, x, cross n x, n)

/-- `derivatives` (parametric.pyx:552-579) and `cderivatives` (593-615), `c_derivatives` (surface_evaluator.pyx:163-189),
`c_derivative_u`, `c_derivative_v` (44-75): central differences. -/
noncomputable def central (h : ℝ) (g : ℝ → P) (u : ℝ) : P := quot (sub (g (u + h)) (g (u - h))) (2 * h)

/-- `normal` (parametric.pyx:621-637): not a unit vector. -/
noncomputable def surfaceNormal (h : ℝ) (f : ℝ → ℝ → P) (u v : ℝ) : P :=
  cross (central h (fun s => f s v) u) (central h (fun s => f u s) v)

/-! ## `surface_evaluator` -/

/-- The second difference of `c_derivative_uu`, `c_derivative_vv` (surface_evaluator.pyx:80-125). -/
noncomputable def second (h : ℝ) (g : ℝ → P) (u : ℝ) : P :=
  let a := g (u - h)
  let m := g u
  let b := g (u + h)
  quot ⟨b.x - 2 * m.x + a.x, b.y - 2 * m.y + a.y, b.z - 2 * m.z + a.z⟩ (h ^ 2)

/-- `c_derivative_uv` (surface_evaluator.pyx:131-158). -/
noncomputable def mixed (h : ℝ) (f : ℝ → ℝ → P) (u v : ℝ) : P :=
  let p11 := f (u + h) (v + h)
  let p10 := f (u + h) (v - h)
  let p01 := f (u - h) (v + h)
  let p00 := f (u - h) (v - h)
  quot ⟨p11.x - p10.x - p01.x + p00.x, p11.y - p10.y - p01.y + p00.y, p11.z - p10.z - p01.z + p00.z⟩ (4 * h ^ 2)

/-- `second_derivatives` (surface_evaluator.pyx:211-264, 315-324): the six rows. -/
noncomputable def secondDerivatives (h : ℝ) (f : ℝ → ℝ → P) (u v : ℝ) : List P :=
  [f u v, central h (fun s => f s v) u, central h (fun s => f u s) v, second h (fun s => f s v) u,
    second h (fun s => f u s) v, mixed h f u v]

/-- `derivatives_normal` (surface_evaluator.pyx:195-205, 329-340). -/
noncomputable def derivativesNormal (h : ℝ) (f : ℝ → ℝ → P) (u v : ℝ) : Option (P × P × P) := do
  let du := central h (fun s => f s v) u
  let dv := central h (fun s => f u s) v
  let n ← div (cross du dv) (norm (cross du dv))
  return (du, dv, n)

/-! ## `Ruled` -/

/-- A curve with its interval and the vectors that its `cderivative` gives. -/
structure RCurve where
  eval : ℝ → P
  deriv : ℝ → P
  second : ℝ → P
  a : ℝ
  b : ℝ

/-- The parameter on the curve (parametric.pyx:671-672). -/
def RCurve.at (c : RCurve) (u : ℝ) : ℝ := u * (c.b - c.a) + c.a

/-- `(1 - v) * a + v * b`. -/
def blend (v : ℝ) (a b : P) : P := ⟨(1 - v) * a.x + v * b.x, (1 - v) * a.y + v * b.y, (1 - v) * a.z + v * b.z⟩

/-- `Ruled.cevaluate` (parametric.pyx:670-682). -/
def ruledEval (c0 c1 : RCurve) (u v : ℝ) : P := blend v (c0.eval (c0.at u)) (c1.eval (c1.at u))

/-- `Ruled.cderivative_v` (parametric.pyx:687-695). -/
def ruledV (c0 c1 : RCurve) (u : ℝ) : P := sub (c1.eval (c1.at u)) (c0.eval (c0.at u))

/-- `Ruled.cderivative_u` (parametric.pyx:701-717). -/
def ruledU (c0 c1 : RCurve) (u v : ℝ) : P := blend v (c0.deriv (c0.at u)) (c1.deriv (c1.at u))

/-- `Ruled.csecond_derivative_uu` (parametric.pyx:722-738). -/
def ruledUU (c0 c1 : RCurve) (u v : ℝ) : P := blend v (c0.second (c0.at u)) (c1.second (c1.at u))

/-! ## `BiLinear` -/

/-- The four points (parametric.pyx:789-795). -/
structure BiL where
  b00 : P
  b10 : P
  b11 : P
  b01 : P

/-- One coordinate of `BiLinear.cevaluate` (parametric.pyx:801-807). -/
def bil (b00 b10 b11 b01 u v : ℝ) : ℝ := v * (u * b11 + b01 * (1 - u)) + (1 - v) * (u * b10 + b00 * (1 - u))

/-- `BiLinear.cevaluate`. -/
def BiL.eval (s : BiL) (u v : ℝ) : P :=
  ⟨bil s.b00.x s.b10.x s.b11.x s.b01.x u v, bil s.b00.y s.b10.y s.b11.y s.b01.y u v,
    bil s.b00.z s.b10.z s.b11.z s.b01.z u v⟩

/-- `BiLinear.cderivative_u` (parametric.pyx:812-817). -/
def BiL.du (s : BiL) (v : ℝ) : P :=
  ⟨v * (-s.b01.x + s.b11.x) + (1 - v) * (-s.b00.x + s.b10.x), v * (-s.b01.y + s.b11.y) + (1 - v) * (-s.b00.y + s.b10.y),
    v * (-s.b01.z + s.b11.z) + (1 - v) * (-s.b00.z + s.b10.z)⟩

/-- `BiLinear.cderivative_v` (parametric.pyx:822-825). -/
def BiL.dv (s : BiL) (u : ℝ) : P :=
  ⟨-u * s.b10.x + u * s.b11.x - s.b00.x * (1 - u) + s.b01.x * (1 - u),
    -u * s.b10.y + u * s.b11.y - s.b00.y * (1 - u) + s.b01.y * (1 - u),
    -u * s.b10.z + u * s.b11.z - s.b00.z * (1 - u) + s.b01.z * (1 - u)⟩

/-- `BiLinear.csecond_derivative_uv` (parametric.pyx:830-834). -/
def BiL.duv (s : BiL) : P :=
  ⟨s.b00.x - s.b01.x - s.b10.x + s.b11.x, s.b00.y - s.b01.y - s.b10.y + s.b11.y, s.b00.z - s.b01.z - s.b10.z + s.b11.z⟩

/-- `BiLinear.csecond_derivative_uu`, `csecond_derivative_vv` (parametric.pyx:841-854). -/
def BiL.dpure (_s : BiL) : P := ⟨0, 0, 0⟩

/-! ## `CubicSpline` -/

/-- The four points (_cubic.pyx:9-20). -/
structure Cubic where
  p0 : P
  c0 : P
  c1 : P
  p1 : P

/-- One coordinate of `CubicSpline.cevaluate` (_cubic.pyx:25-33). -/
def cub (p0 c0 c1 p1 t : ℝ) : ℝ := 3 * c0 * t * (1 - t) ^ 2 + 3 * c1 * t ^ 2 * (1 - t) + p0 * (1 - t) ^ 3 + p1 * t ^ 3

/-- One coordinate of `CubicSpline.cderivative` (_cubic.pyx:37-45). -/
def cubD (p0 c0 c1 p1 t : ℝ) : ℝ :=
  let t0 := 2 * t - 2
  let x0 := 3 * t ^ 2
  let x1 := 1 - t
  let x2 := 3 * x1 ^ 2
  3 * c0 * t * t0 + c0 * x2 + 6 * c1 * t * x1 - c1 * x0 - p0 * x2 + p1 * x0

/-- One coordinate of `CubicSpline.csecond_derivative` (_cubic.pyx:49-53). -/
def cubDD (p0 c0 c1 p1 t : ℝ) : ℝ :=
  let x0 := t - 1
  6 * c0 * t + 12 * c0 * x0 - 12 * c1 * t - 6 * c1 * x0 - 6 * p0 * x0 + 6 * p1 * t

/-- `CubicSpline.cevaluate`. -/
def Cubic.eval (c : Cubic) (t : ℝ) : P :=
  ⟨cub c.p0.x c.c0.x c.c1.x c.p1.x t, cub c.p0.y c.c0.y c.c1.y c.p1.y t, cub c.p0.z c.c0.z c.c1.z c.p1.z t⟩

/-- `CubicSpline.cderivative`. -/
def Cubic.deriv (c : Cubic) (t : ℝ) : P :=
  ⟨cubD c.p0.x c.c0.x c.c1.x c.p1.x t, cubD c.p0.y c.c0.y c.c1.y c.p1.y t, cubD c.p0.z c.c0.z c.c1.z c.p1.z t⟩

/-- `CubicSpline.csecond_derivative`. -/
def Cubic.second (c : Cubic) (t : ℝ) : P :=
  ⟨cubDD c.p0.x c.c0.x c.c1.x c.p1.x t, cubDD c.p0.y c.c0.y c.c1.y c.p1.y t, cubDD c.p0.z c.c0.z c.c1.z c.p1.z t⟩

end Verif.Par
