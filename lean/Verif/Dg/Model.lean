import Verif.Prim.Lemmas
import Mathlib.Data.Sign.Basic

/-!
# Model of the differential geometry at a point

mmcore/numeric/numeric.py (curvature of curves), mmcore/numeric/calgorithms.pyx, mmcore/numeric/algorithms/tnb.py,
mmcore/geom/surfaces/fundamental_forms.py.

Numbers are reals, `none` is NaN.  Vectors, `dot`, `cross`, `norm` and `smul` are those of `Verif.Prim`; they are
`scalar_dot`, `scalar_cross` and `scalar_norm` of numeric/vectors.pyx.
-/

namespace Verif.Dg

open Verif.Prim

/-- Addition of numpy vectors. -/
def add (a b : P) : P := ⟨a.x + b.x, a.y + b.y, a.z + b.z⟩

/-! ## Curves -/

/-- What `evaluate_curvature` returns. -/
structure Curv where
  tangent : P
  curvature : P
  ok : Bool

/-- `numeric.evaluate_curvature` (numeric.py:160-212). -/
noncomputable def evaluateCurvature (d1 d2 : P) : Curv :=
  let n := norm d1
  if n = 0 then
    let m := norm d2
    ⟨if 0 < m then smul (1 / m) d2 else ⟨0, 0, 0⟩, ⟨0, 0, 0⟩, false⟩
  else
    let t := smul (1 / n) d1
    let s := -dot d2 t
    ⟨t, smul (1 / (n * n)) (add d2 (smul s t)), true⟩

/-- `calgorithms.evaluate_curvature` (calgorithms.pyx:81-137): it writes into the caller's vectors; `k0` is what the
curvature vector held before. -/
noncomputable def cEvaluateCurvature (k0 d1 d2 : P) : Curv :=
  let n := norm d1
  if n = 0 then
    let m := norm d2
    ⟨if 0 < m then smul (1 / m) d2 else ⟨0, 0, 0⟩, k0, false⟩
  else
    let t := smul (1 / n) d1
    let s := -dot d2 t
    ⟨t, smul (1 / (n * n)) (add d2 (smul s t)), true⟩

/-- `numeric.evaluate_tangent` (numeric.py:60-78) with `tol` for the absolute tolerance of `np.isclose`; the second
entry is `bool(d1)`. -/
noncomputable def evaluateTangent (tol : ℝ) (d1 d2 : P) : P × Bool :=
  if norm d1 ≤ tol then
    if 0 < norm d2 then (smul (1 / norm d2) d2, true) else (⟨0, 0, 0⟩, false)
  else (smul (1 / norm d1) d1, decide (norm d1 ≠ 0))

/-- `frenet_serret_frame` (tnb.py:5-36): tangent, normal, binormal. -/
noncomputable def frenet (d1 d2 : P) : Option (P × P × P) :=
  let n := norm d1
  if n = 0 then none
  else
    let t := smul (1 / n) d1
    let t' := smul (1 / n) (sub d2 (smul (dot d2 t) t))
    if norm t' = 0 then none
    else
      let nn := smul (1 / norm t') t'
      some (t, nn, cross t nn)

/-- What `circle_of_curvature` returns: the radius and the plane (centre and three axes). -/
structure Circle where
  radius : ℝ
  centre : P
  tangent : P
  normal : P
  binormal : P

/-- `circle_of_curvature` (numeric.py:650-663). -/
noncomputable def circleOfCurvature (origin d1 d2 : P) : Option Circle :=
  let c := evaluateCurvature d1 d2
  let k := norm c.curvature
  if k = 0 then none
  else
    let n := smul (1 / k) c.curvature
    some ⟨1 / k, add origin (smul (1 / k) n), c.tangent, n, cross c.tangent n⟩

/-- The third result of `calculate_curvature2d` (numeric.py:153-157); `pow(s, 1.5)` is `s * √s`. -/
noncomputable def curvature2d (dx dy ddx ddy : ℝ) : Option ℝ :=
  let s := dx ^ 2 + dy ^ 2
  let denominator := s * √s
  if denominator = 0 then none else some (|dx * ddy - dy * ddx| / denominator)

/-! ## Surfaces -/

/-- The six coefficients. -/
@[ext]
structure Forms where
  E : ℝ
  F : ℝ
  G : ℝ
  L : ℝ
  M : ℝ
  N : ℝ

/-- `first_fundamental_form` (fundamental_forms.py:8-22). -/
def firstForm (ru rv : P) : ℝ × ℝ × ℝ := (dot ru ru, dot ru rv, dot rv rv)

/-- `second_fundamental_form` (fundamental_forms.py:24-28). -/
def secondForm (ruu ruv rvv normal : P) : ℝ × ℝ × ℝ := (dot normal ruu, dot normal ruv, dot normal rvv)

/-- `gaussian_curvature` (fundamental_forms.py:30-32). -/
noncomputable def gaussian (f : Forms) : Option ℝ :=
  let a := f.E * f.G - f.F ^ 2
  if a = 0 then none else some ((f.L * f.N - f.M ^ 2) / a)

/-- `mean_curvature` (fundamental_forms.py:34-36). -/
noncomputable def mean (f : Forms) : Option ℝ :=
  let a := 2 * (f.E * f.G - f.F ^ 2)
  if a = 0 then none else some ((f.E * f.N + f.G * f.L - 2 * f.F * f.M) / a)

/-- `principal_curvatures` (fundamental_forms.py:39-65). -/
noncomputable def principal (f : Forms) : Option (ℝ × ℝ) :=
  let a := f.E * f.G - f.F ^ 2
  let b := 2 * f.M * f.F - f.E * f.N - f.G * f.L
  let c := f.L * f.N - f.M ^ 2
  let disc := b ^ 2 - 4 * a * c
  if a = 0 ∨ disc < 0 then none
  else some ((-b + √disc) / (2 * a), (-b - √disc) / (2 * a))

/-- `normal_curvature` (fundamental_forms.py:68-87). -/
noncomputable def normalCurvature (f : Forms) (du dv : ℝ) : Option ℝ :=
  let numerator := f.L * du ^ 2 + 2 * f.M * du * dv + f.N * dv ^ 2
  let denominator := f.E * du ^ 2 + 2 * f.F * du * dv + f.G * dv ^ 2
  if denominator = 0 then none else some (numerator / denominator)

/-- A vector of two numbers divided by its length. -/
noncomputable def unit2 (a b : ℝ) : Option (ℝ × ℝ) :=
  let n := √(a ^ 2 + b ^ 2)
  if n = 0 then none else some (a / n, b / n)

/-- `principal_directions` (fundamental_forms.py:90-118); each direction may be NaN. -/
noncomputable def principalDirections (f : Forms) (k1 k2 : ℝ) : Option (ℝ × ℝ) × Option (ℝ × ℝ) :=
  let a1 := f.L - k1 * f.E
  let b1 := f.M - k1 * f.F
  let a2 := f.L - k2 * f.E
  let b2 := f.M - k2 * f.F
  (unit2 (-b1) a1, unit2 (-b2) a2)

/-- `euler_curvature` (fundamental_forms.py:120-137) with the cosine and sine of the angle. -/
def euler (k1 k2 co si : ℝ) : ℝ := k1 * co ^ 2 + k2 * si ^ 2

/-- `infinitesimal_arc_length` (fundamental_forms.py:139-140). -/
noncomputable def arcLength (E F G du dv : ℝ) : ℝ := √(E * du ^ 2 + 2 * F * du * dv + G * dv ^ 2)

/-- `PointOnSurfaceType` (fundamental_forms.py:239-243). -/
inductive Kind
  | flat
  | parabolic
  | elliptic
  | hyperbolic
deriving DecidableEq

open Classical in
/-- `classify_point` (fundamental_forms.py:143-169) with `tol` for the absolute tolerance of `np.isclose`; `none` is
the exception. -/
noncomputable def classify (tol K H : ℝ) : Option Kind :=
  if |K| ≤ tol ∧ |H| ≤ tol then some .flat
  else if |K| ≤ tol ∧ ¬ |H| ≤ tol then some .parabolic
  else if 0 < K then some .elliptic
  else if K < 0 then some .hyperbolic
  else none

open Classical in
/-- `classify_point_dupin` (fundamental_forms.py:245-257). -/
noncomputable def classifyDupin (k1 k2 : ℝ) : Kind :=
  if 0 < k1 * k2 then .elliptic
  else if k1 * k2 < 0 then .hyperbolic
  else if k1 ≠ 0 then .parabolic
  else if k2 ≠ 0 then .flat
  else .flat

/-- The derivatives at a point of a surface, as `second_derivatives` returns them. -/
structure Jet where
  du : P
  dv : P
  duu : P
  dvv : P
  duv : P

/-- `fundamental_forms_from_surface` (fundamental_forms.py:319-323): the six numbers. -/
noncomputable def formsOf (j : Jet) : Option Forms := do
  let normal ← div (cross j.du j.dv) (norm (cross j.du j.dv))
  let s := secondForm j.duu j.duv j.dvv normal
  let g := firstForm j.du j.dv
  return ⟨g.1, g.2.1, g.2.2, s.1, s.2.1, s.2.2⟩

/-- The six numbers as `dupin_indicatrix_on_surface` (fundamental_forms.py:328-334) and `classify_point_on_surface`
(353-359) compute them: the unit normal is passed first to `second_fundamental_form`. -/
noncomputable def formsCalled (j : Jet) : Option Forms := do
  let normal ← div (cross j.du j.dv) (norm (cross j.du j.dv))
  let s := secondForm normal j.duu j.duv j.dvv
  let g := firstForm j.du j.dv
  return ⟨g.1, g.2.1, g.2.2, s.1, s.2.1, s.2.2⟩

/-- `classify_point_on_surface` (fundamental_forms.py:339-371) with the default options. -/
noncomputable def classifyOnSurface (tol : ℝ) (j : Jet) : Option Kind := do
  let f ← formsCalled j
  let H ← mean f
  let K ← gaussian f
  classify tol K H

/-- `classify_point_on_surface(…, use_dupin=True)` (fundamental_forms.py:361-366). -/
noncomputable def classifyOnSurfaceDupin (j : Jet) : Option Kind := do
  let f ← formsCalled j
  let k ← principal f
  return classifyDupin k.1 k.2

/-- The curves of `dupin_indicatrix` (fundamental_forms.py:280-312): `a`, `b` are cosine and sine of the parameter for
an elliptic point, hyperbolic cosine and sine for a hyperbolic one. -/
noncomputable def indicatrixElliptic (k1 k2 a b : ℝ) : ℝ × ℝ := (√|1 / k1| * a, √|1 / k2| * b)

/-- The branch of a hyperbolic point (fundamental_forms.py:290-294). -/
noncomputable def indicatrixHyperbolic (k1 k2 a b : ℝ) : ℝ × ℝ := (√|1 / k1| * a, √|1 / k2| * b)

/-- The branch of a parabolic point with `k1` not near 0 (fundamental_forms.py:298-303). -/
noncomputable def indicatrixParabolic (k1 t : ℝ) : ℝ × ℝ := (t, SignType.sign k1 * t ^ 2 / (2 * √|k1|))

/-- `surface_distance` (fundamental_forms.py:190-207) on a surface with the first form `E`, `F`, `G` at every point of
the path: `du` and `dv` are the arrays of all differences, so each round adds an array, and the sum runs over all of
them. -/
noncomputable def surfaceDistance (E F G : ℝ) (u1 v1 u2 v2 : ℝ) (steps : ℕ) : ℝ :=
  let du := (List.range (steps - 1)).map (fun _ => (u2 - u1) / ((steps - 1 : ℕ) : ℝ))
  let dv := (List.range (steps - 1)).map (fun _ => (v2 - v1) / ((steps - 1 : ℕ) : ℝ))
  let lengths := (List.range (steps - 1)).map (fun _ => List.zipWith (arcLength E F G) du dv)
  (lengths.map List.sum).sum

/-- The loop of `predict_point` (fundamental_forms.py:218-235) on a surface with the same first form everywhere; `none`
when the rounds do not end within `fuel`. -/
noncomputable def predictLoop (E F G du dv distance step : ℝ) : ℕ → ℝ → ℝ → ℝ → Option (ℝ × ℝ)
  | 0, _, _, _ => none
  | fuel + 1, traveled, u, v =>
    if traveled < distance then
      let len := √(E * du ^ 2 + 2 * F * du * dv + G * dv ^ 2)
      if distance < traveled + len then
        let factor := (distance - traveled) / len
        some (u + du * step * factor, v + dv * step * factor)
      else predictLoop E F G du dv distance step fuel (traveled + len) (u + du * step) (v + dv * step)
    else some (u, v)

end Verif.Dg
