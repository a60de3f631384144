import Mathlib.Algebra.Order.Field.Rat
import Mathlib.Algebra.Order.Ring.Abs
import Verif.Cbb.Model

/-! # `raster_algorithm_2d` (`mmcore/numeric/marching.py`)

Numbers are elements of an ordered field.  A function is called with a list of arguments and may raise.  The length of a vector and `curve_point`
(C219) are parameters. -/

namespace Verif.Ras

open Verif.Cbb

variable {K : Type} [Field K] [LinearOrder K]

/-- Division by the number zero, a wrong number of arguments, a product of a function and a number. -/
inductive Err
  | zeroDiv
  | arity
  | type
deriving DecidableEq

/-- The gradient used if none is given (marching.py:157-160).  In the first component a tuple of three is handed to `f`. -/
def defaultGrad (f : List K → Except Err K) (h : K) (p : K × K) : Except Err (K × K) := do
  let a ← f [p.1 + h, p.2]
  let b ← f [p.1, -h, p.2]
  let c ← f [p.1, p.2 + h]
  let d ← f [p.1, p.2 - h]
  return ((a - b) / (2 * h), (c - d) / (2 * h))

/-- The test for one point of the grid (marching.py:176-182): is it near the curve? -/
def near (nrm : K × K → K) (gamma dmax fv : K) (g : K × K) : Bool := decide (nrm g ≠ 0) && decide (|fv| / nrm g < gamma * dmax)

/-- The loops (marching.py:174-183) over the points of the grid, row by row. -/
def scan (f : List K → Except Err K) (grad : K × K → Except Err (K × K)) (nrm : K × K → K) (curvePt : K × K → Except Err (K × K))
    (gamma dmax : K) : List (K × K) → Except Err (List (K × K))
  | [] => .ok []
  | p :: l => do
    let fv ← f [p.1, p.2]
    let g ← grad p
    if near nrm gamma dmax fv g then
      let q ← curvePt p
      let r ← scan f grad nrm curvePt gamma dmax l
      return q :: r
    else scan f grad nrm curvePt gamma dmax l

/-- The points of the grid in their order. -/
def gridPts (x0 x1 y0 y1 : K) (nx ny : Nat) : List (K × K) := (linspace x0 x1 nx).flatMap fun x => (linspace y0 y1 ny).map fun y => (x, y)

/-- `raster_algorithm_2d` (marching.py:155-185).  `general` is `general_implicit`; without it a function is multiplied with a number. -/
def raster (f : List K → Except Err K) (grad : Option (K × K → Except Err (K × K))) (nrm : K × K → K) (h : K)
    (curvePoint : K × K → Except Err (K × K)) (general : Bool) (x0 x1 y0 y1 : K) (nx ny : Nat) (gamma : K) : Except Err (List (K × K)) :=
  if nx = 0 ∨ ny = 0 then .error .zeroDiv
  else
    scan f (grad.getD (defaultGrad f h)) nrm (if general then curvePoint else fun _ => .error .type) gamma
      (max ((x1 - x0) / (nx : K)) ((y1 - y0) / (ny : K))) (gridPts x0 x1 y0 y1 nx ny)

/-! ## `pull_curve` (`mmcore/numeric/algorithms/pull_curve.py`) -/

/-- `improve_uv` of `_ssi.pyx:10` has five parameters without defaults. -/
def improveUv {A B : Type} (body : A → A → A → A → A → B) : List A → Except Err B
  | [du, dv, old, better, result] => .ok (body du dv old better result)
  | _ => .error .arity

/-- `differential_equation` (pull_curve.py:38-44): four arguments are given to `improve_uv`. -/
def pullEq {A B U : Type} (body : A → A → A → A → A → B) (add : A → A → A) (surf : U → A) (ders : U → A × A) (dcrv : K → A) (t : K) (uv : U) :
    Except Err B := improveUv body [(ders uv).1, (ders uv).2, surf uv, add (surf uv) (dcrv t)]

/-- The call of the solver in `pull_curve` (pull_curve.py:23-25, 46): `solveIvp rhs span start` is `solve_ivp`. -/
def pullWith {A B U S : Type} (solveIvp : (K → U → Except Err B) → K × K → U → Except Err S) (rhs : K → U → Except Err B) (inversion : A → U)
    (crv : K → A) (interval : K × K) : Except Err S := solveIvp rhs (interval.1, 5) (inversion (crv interval.1))

/-- `pull_curve` (pull_curve.py:5-47). -/
def pullCurve {A B U S : Type} (solveIvp : (K → U → Except Err B) → K × K → U → Except Err S) (body : A → A → A → A → A → B) (add : A → A → A)
    (surf : U → A) (ders : U → A × A) (inversion : A → U) (crv dcrv : K → A) (interval : K × K) : Except Err S :=
  pullWith solveIvp (pullEq body add surf ders dcrv) inversion crv interval

end Verif.Ras
