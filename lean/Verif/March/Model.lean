import Mathlib.Analysis.InnerProductSpace.Basic

/-! # Points on implicit curves: `mmcore/numeric/algorithms/implicit_point.py`

Points are elements of a real inner product space `E` (the code is used in the plane and in space), numbers are reals.
The functions and their gradients are parameters; `Grad(func)`, used when no gradient is given, is C175.  The loops
without a limit take a bound `fuel`; running out of it is `none`. -/

set_option linter.unusedSectionVars false

noncomputable section

open scoped InnerProductSpace Classical

namespace Verif.March

variable {E : Type*} [NormedAddCommGroup E] [InnerProductSpace ℝ E]

/-- One step along the gradient (implicit_point.py:28-36, 40-47 and 196-204). -/
def descend (f : E → ℝ) (g : E → E) (p : E) : E :=
  let cc := ⟪g p, g p⟫_ℝ
  let t := if cc > 0 then -f p / cc else 0
  p + t • g p

/-- The loop of `curve_point` (implicit_point.py:38-48): `p` is `initial_point`, `q` is `new_point`. -/
def curveLoop (f : E → ℝ) (g : E → E) (delta : ℝ) : ℕ → E → E → Option E
  | fuel, p, q =>
    if delta < ‖p - q‖ then
      match fuel with
      | 0 => none
      | n + 1 => curveLoop f g delta n q (descend f g q)
    else some q

/-- `curve_point` (implicit_point.py:14-49). -/
def curvePoint (f : E → ℝ) (g : E → E) (delta : ℝ) (fuel : ℕ) (p : E) : Option E :=
  curveLoop f g delta fuel p (descend f g p)

/-- `surface_point` (implicit_point.py:192-214). -/
def surfacePoint (f : E → ℝ) (g : E → E) (tol : ℝ) : ℕ → E → Option E
  | fuel, p =>
    let q := descend f g p
    if ‖q - p‖ < tol then some q
    else
      match fuel with
      | 0 => none
      | n + 1 => surfacePoint f g tol n q

/-- `solve2x2` (vectors.pyx:470-484): the new content of `result`, which keeps its old content `old` for a singular
matrix. -/
def solve2 (a b c d y0 y1 : ℝ) (old : ℝ × ℝ) : ℝ × ℝ :=
  let det := a * d - b * c
  if det = 0 then old else ((y0 * d - b * y1) / det, (a * y1 - y0 * c) / det)

/-- What the caller of `intersection_curve_point` may see: the flag `success`, the point, and the values and gradients
returned with `return_grads`. -/
structure Hit (E : Type*) where
  success : Bool
  q : E
  f1 : ℝ
  f2 : ℝ
  g1 : E
  g2 : E

/-- The coefficients of one step: `alpha_beta` after lines 97-105 or 123-132. -/
def coeffs (f1 f2 : E → ℝ) (g1 g2 : E → E) (q : E) (old : ℝ × ℝ) : ℝ × ℝ :=
  solve2 ⟪g1 q, g1 q⟫_ℝ ⟪g2 q, g1 q⟫_ℝ ⟪g1 q, g2 q⟫_ℝ ⟪g2 q, g2 q⟫_ℝ (-f1 q) (-f2 q) old

/-- `delta` (lines 106 and 136). -/
def delta2 (g1 g2 : E → E) (q : E) (ab : ℝ × ℝ) : E := ab.1 • g1 q + ab.2 • g2 q

/-- The loop of `intersection_curve_point` (lines 112-141).  `left` is `max_iter + 1 - i`; `qk` is the point of the last
evaluation, `qn` is `qk_next`, `d` the length of the last step.  `none` is the `ValueError` of line 116. -/
def interLoop (f1 f2 : E → ℝ) (g1 g2 : E → E) (tol : ℝ) (noErr : Bool) : ℕ → ℝ × ℝ → E → E → ℝ → Option (Hit E)
  | left, ab, qk, qn, d =>
    if d > tol then
      match left with
      | 0 => if noErr then some ⟨false, qn, f1 qk, f2 qk, g1 qk, g2 qk⟩ else none
      | n + 1 =>
        let ab' := coeffs f1 f2 g1 g2 qn ab
        let dl := delta2 g1 g2 qn ab'
        interLoop f1 f2 g1 g2 tol noErr n ab' qn (dl + qn) ‖dl‖
    else some ⟨true, qn, f1 qk, f2 qk, g1 qk, g2 qk⟩

/-- `intersection_curve_point` (implicit_point.py:52-146). -/
def interPoint (f1 f2 : E → ℝ) (g1 g2 : E → E) (tol : ℝ) (maxIter : ℕ) (noErr : Bool) (q0 : E) : Option (Hit E) :=
  let ab := coeffs f1 f2 g1 g2 q0 (0, 0)
  let qn := delta2 g1 g2 q0 ab + q0
  interLoop f1 f2 g1 g2 tol noErr (maxIter + 1) ab q0 qn ‖qn - q0‖

end Verif.March
