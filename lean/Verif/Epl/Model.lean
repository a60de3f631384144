import Verif.DnC.Model

/-!
# Model of `evaluate_parameter_from_length` (mmcore/numeric/numeric.py:101-139)

`len t` is the length from `t0` to `t` as computed by `evaluate_length`; it is a parameter.  Numbers are
elements of an ordered field, so that Halley's method of scipy runs without rounding.  `none` stands for an
exception (or for running out of fuel in the first search).
-/

namespace Verif.Epl

variable {K : Type} [Field K] [LinearOrder K]

/-- `fdm(f)` (fdm.py:25-54): the central difference. -/
def fdm (h : K) (f : K → K) (t : K) : K := (f (t + h) - f (t - h)) / (2 * h)

/-- The step of `scipy.optimize.newton` with two derivatives (Halley's correction if it is below 1). -/
def halleyStep (fval fder fder2 : K) : K :=
  let step := fval / fder
  let adj := step * fder2 / fder / 2
  if |adj| < 1 then step / (1 - adj) else step

/-- `scipy.optimize.newton` with both derivatives and `rtol = 0`: returns at a zero of `f`, or if the step is at most
`tol`; raises if the derivative is 0 or the steps are used up. -/
def newton (f f1 f2 : K → K) (tol : K) : Nat → K → Option K
  | 0, _ => none
  | k + 1, p =>
    if f p = 0 then some p
    else if f1 p = 0 then none
    else
      let q := p - halleyStep (f p) (f1 p) (f2 p)
      if |q - p| ≤ tol then some q else newton f f1 f2 tol k q

/-- `evaluate_parameter_from_length` (numeric.py:101-139) without given derivatives; `sq` is the square root of
`tol`, `h` the step of `fdm` (fdm.py:13). Without a limit the first search fails (`None - t0`). -/
def paramFromLength (len : K → K) (l t0 : K) (limit : Option K) (tol sq h : K) (maxiter fuel : Nat) : Option K := do
  let t1 ← limit
  let f := fun t => |len t - l|
  let r ← DnC.minIter f sq fuel t0 t1
  newton f (fdm h f) (fdm h (fdm h f)) tol maxiter r.1

end Verif.Epl
