import Mathlib.Data.Matrix.Block
import Mathlib.Algebra.Order.Field.Basic
import Verif.Vec.Model

/-!
# Constrained minimisation and small geometric routines

`numeric/newton/constrained.py`, `numeric/algorithms/point_in_curve.py`, `geom/curves/offset.py`, `numeric/intersection/ssx/sectioal_tangent.py`,
`geom/utils.py`, `numeric/prime.py`, `numeric/algorithms/surface_area.py`.  Exact ordered field; norms and
tolerances appear as tests, `np.linalg.solve`, quadratures and the intersection routine as parameters.
-/

set_option linter.unusedSectionVars false

namespace Verif.Opt

open Verif.Vec (V3)
open Verif.Vec.V3

variable {K : Type}

/-! ## Points in curves -/

section
variable [Field K] [LinearOrder K]

/-- `point_in_implicit_curve` (point_in_curve.py:32-39); `np.isclose(res, 0)` is `|res| ≤ atol`. -/
def pointInImplicit (atol res : K) : Bool := if res ≤ 0 then true else if |res| ≤ atol then true else false

/-- `curve_x_ray` (ccx.py:36-38) with `axis=0`; `pix` is `curve_pix`. -/
def curveXRay (pix : (K → K) → List K) (curve : K → K × K) (orig : K × K) : List K := pix fun t => orig.1 - (curve t).1

/-- `point_in_parametric_curve` (point_in_curve.py:15-29): `close` is `np.allclose`, `inPoly` the test for polygons, `ts` the values
of `np.arange(*crv.interval())`, `deg` the degree if there is one. -/
def pointInParametric (pix : (K → K) → List K) (close : K × K → K × K → Bool) (inPoly : List (K × K) → K × K → Bool) (ts : List K)
    (deg : Option ℕ) (curve : K → K × K) (a b : K) (p : K × K) : Bool :=
  if close (curve a) (curve b) = false then false
  else
    let _ := if deg = some 1 then some (inPoly (ts.map curve) p) else none
    decide ((curveXRay pix curve p).length % 2 > 0)

end

/-! ## `sqp_method` and `newtons_method22` -/

section
variable {n m : Type} [Fintype n] [Fintype m] [Field K]

/-- The functions given to `sqp_method` (constrained.py:137-153). -/
structure Prob (n m K : Type) where
  grad : (n → K) → n → K
  hess : (n → K) → (m → K) → Matrix n n K
  con : (n → K) → m → K
  jac : (n → K) → Matrix m n K

/-- The matrix of lines 166-169. -/
def kkt (H : Matrix n n K) (A : Matrix m n K) : Matrix (n ⊕ m) (n ⊕ m) K := Matrix.fromBlocks H A.transpose A 0

/-- The loop of `sqp_method` (constrained.py:159-195): the point returned and the number of warnings.  `solve` is `np.linalg.solve`, `smallP`
and `smallC` compare the norms with the tolerance. -/
def sqp (solve : Matrix (n ⊕ m) (n ⊕ m) K → (n ⊕ m → K) → Option (n ⊕ m → K)) (smallP : (n → K) → Bool) (smallC : (m → K) → Bool)
    (P : Prob n m K) : ℕ → (n → K) → (m → K) → (n → K) × ℕ
  | 0, x, _ => (x, 1)
  | k + 1, x, lam =>
    match solve (kkt (P.hess x lam) (P.jac x)) (Sum.elim (-P.grad x) (-P.con x)) with
    | none => (x, 2)
    | some s =>
      let p := fun i => s (Sum.inl i)
      let nu := fun i => s (Sum.inr i)
      if smallP p && smallC (P.con x) then (x + p, 0) else sqp solve smallP smallC P k (x + p) nu

/-- `newtons_method22` (constrained.py:9-34). -/
def newton22 (solve : Matrix n n K → (n → K) → Option (n → K)) (small : (n → K) → Bool) (F : (n → K) → n → K) (J : (n → K) → Matrix n n K) :
    ℕ → (n → K) → (n → K) × ℕ
  | 0, x => (x, 1)
  | k + 1, x =>
    match solve (J x) (-F x) with
    | none => (x, 2)
    | some d => if small (x + d - x) then (x + d, 0) else newton22 solve small F J k (x + d)

end

/-! ## `opt1` -/

section
variable [Field K] [LinearOrder K]

/-- The constraint `h` of `opt1` (constrained.py:45-55) for the points `p` and `q`. -/
def optH (orig normal p q : V3 K) : K :=
  let d1 := dot (sub p orig) normal
  let d2 := dot (sub q orig) normal
  if |d1| > d2 then d1 else d2

/-- `grad_f` (constrained.py:59-75). -/
def optGradF (p q pu pv qs qt : V3 K) : K × K × K × K :=
  let d := sub p q
  (2 * dot d pu, 2 * dot d pv, -2 * dot d qs, -2 * dot d qt)

/-- `grad_h` (constrained.py:76-92). -/
def optGradH (normal pu pv qs qt : V3 K) : K × K × K × K :=
  (dot normal (smul (1 / 2) pu), dot normal (smul (1 / 2) pv), dot normal (smul (1 / 2) qs), dot normal (smul (1 / 2) qt))

/-- `F` (constrained.py:93-100): the four equations of the Lagrange function and the constraint. -/
def optF (orig normal p q pu pv qs qt : V3 K) (lam : K) : (K × K × K × K) × K :=
  let f := optGradF p q pu pv qs qt
  let h := optGradH normal pu pv qs qt
  ((f.1 - lam * h.1, f.2.1 - lam * h.2.1, f.2.2.1 - lam * h.2.2.1, f.2.2.2 - lam * h.2.2.2), -optH orig normal p q)

end

/-! ## Offsets and tangents -/

/-- The property `offset` (offset.py:41-43) calls itself; the first argument is the depth of recursion available. -/
def offsetGet (offset : K) : ℕ → Option K
  | 0 => none
  | k + 1 => offsetGet offset k

section
variable [Field K] [LinearOrder K]

/-- `OffsetCurve.evaluate` (offset.py:37-39); `o` and `n` are the rows 0 and 2 of the plane. -/
def offsetEval (o n : V3 K) (offset : K) (depth : ℕ) : Option (V3 K) := (offsetGet offset depth).map fun d => add o (smul d n)

/-- `det` (vectors.pyx:317-328) of the matrix `[[a, b], [c, d]]`. -/
def det2 (a b c d : K) : K := (c - a) * (d + b)

/-- A system of two equations with its right-hand side. -/
structure Sys (K : Type) where
  a : K
  b : K
  c : K
  d : K
  y1 : K
  y2 : K

/-- Python's `max` with a key: the first of the largest. -/
def maxKey {α : Type} (key : α → K) (x : α) : List α → α
  | [] => x
  | y :: ys => if key x < key y then maxKey key y ys else maxKey key x ys

/-- `solve2x2` (vectors.pyx:470-484) into an array of zeros. -/
def solveInto (s : Sys K) : K × K :=
  let det := s.a * s.d - s.b * s.c
  if det = 0 then (0, 0) else ((s.y1 * s.d - s.b * s.y2) / det, (s.a * s.y2 - s.y1 * s.c) / det)

/-- `_improve_uv` (offset.py:12-25), `improve_uv` (sectioal_tangent.py:51-62). -/
def improveUV (du dv delta : V3 K) : K × K :=
  let xy : Sys K := ⟨du.x, dv.x, du.y, dv.y, delta.x, delta.y⟩
  let xz : Sys K := ⟨du.x, dv.x, du.z, dv.z, delta.x, delta.z⟩
  let yz : Sys K := ⟨du.y, dv.y, du.z, dv.z, delta.y, delta.z⟩
  solveInto (maxKey (fun s => det2 s.a s.b s.c s.d) xy [xz, yz])

/-- `sectional_tangent` (sectioal_tangent.py:11-32) from the normals at the closest points; a zero norm gives no number. -/
def sectionalTangent (nrm : V3 K → K) (n1 n2 : V3 K) : Option (V3 K) :=
  let T := cross n1 n2
  if nrm T = 0 then none else some (smul (1 / nrm T) T)

/-- `sectional_tangent_uv` (sectioal_tangent.py:34-49): surfaces are their normals. -/
def sectionalTangentUV {P : Type} (nrm : V3 K → K) (s1 _s2 : P → V3 K) (uv1 uv2 : P) : Option (V3 K) :=
  sectionalTangent nrm (s1 uv1) (s1 uv2)

end

/-! ## Counts, primitives, areas -/

/-- `control_points_grid_shape` (geom/utils.py:4-49). -/
def gridShape (ku kv du dv n : ℤ) : Option (ℤ × ℤ) :=
  if (ku - du - 1) * (kv - dv - 1) ≠ n then none else some (ku - du - 1, kv - dv - 1)

/-- A function given to `Prime`: called with the parameter alone or with the keywords `t0` and `tol` as well; a keyword it does not have raises. -/
structure Fun (K V : Type) where
  call : K → V
  callKw : Option (K → K → K → V)

/-- `Prime.__call__` (prime.py:67-73 of the class, with `evaluate` 60-65): `quad` is `quad_vec`, with its estimate of the error. -/
def primeCall {V : Type} [Add V] [LinearOrder K] [Zero K] (quad : (K → V) → K → K → V × K) (f : Fun K V) (translate : V) (t0 : Option K) (tol : K) :
    K ⊕ List K → Option (V ⊕ List V)
  | .inl t =>
    let r := quad f.call (t0.getD 0) t
    if r.2 > tol then none else some (.inl (r.1 + translate))
  | .inr ts => f.callKw.map fun g => .inr (ts.map fun t => g t (t0.getD 0) tol)

/-- `surface_rect_area` (surface_area.py:27-65): `quad` is `dblquad`, inner variable first. -/
def rectArea [Field K] (quad : (K → K → K) → K → K → K → K → K) (nrm : V3 K → K) (du dv : K → K → V3 K) (ua ub va vb : K) : K :=
  quad (fun u v => nrm (cross (du u v) (dv u v))) va vb ua ub

/-- `_partial_derivatives_fun` (surface_area.py:6-13): differences to the right. -/
def partials [Field K] (h : K) (s : K → K → V3 K) (u v : K) : V3 K × V3 K :=
  (smul (1 / h) (sub (s (u + h) v) (s u v)), smul (1 / h) (sub (s u (v + h)) (s u v)))

end Verif.Opt
