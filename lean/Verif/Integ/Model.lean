import Mathlib.Algebra.Field.Basic
import Mathlib.Algebra.Module.Basic
import Mathlib.Algebra.Order.Group.Abs
import Mathlib.Algebra.Order.Floor.Defs
import Mathlib.Order.Defs.LinearOrder

/-!
# Model of numerical integration: `numeric/integrate/romberg.pyx`, `numeric/integrate/rk45.pyx`, `numeric/arc_length.py`

Numbers come from an ordered field; roots and norms are arguments.
-/

namespace Verif.Integ

variable {F : Type} [Field F] [LinearOrder F]

/-! ## `romberg1d` -/

/-- `R[j] = v`. -/
def put (R : Nat → F) (j : Nat) (v : F) : Nat → F := fun k => if k = j then v else R k

/-- The sum over the new points (romberg.pyx:47-51): `ep` points. -/
def newPoints (f : F → F) (a h : F) (ep : Nat) : F :=
  (List.range' 1 ep).foldl (fun c (j : Nat) => c + f (a + (2 * (j : F) - 1) * h)) 0

/-- The loop over the columns (romberg.pyx:54-56). -/
def extrapolate (Rp Rc : Nat → F) (i : Nat) : Nat → F :=
  (List.range' 1 i).foldl (fun R j => put R j (((4 : F) ^ j * R (j - 1) - Rp (j - 1)) / ((4 : F) ^ j - 1))) Rc

/-- The main loop from row `i` on with `c` rows to go (romberg.pyx:45-70); the return inside the loop gives `Rc[i]`, the one after it
`Rp[max_steps - 1]`. -/
def rombergLoop (f : F → F) (a : F) (acc : F) : Nat → Nat → F → (Nat → F) → (Nat → F) → F
  | 0, i, _, Rp, _ => Rp (i - 1)
  | c + 1, i, h0, Rp, Rc0 =>
    let h := h0 / 2
    let Rc := extrapolate Rp (put Rc0 0 (h * newPoints f a h (2 ^ (i - 1)) + 1 / 2 * Rp 0)) i
    if 1 < i ∧ |Rp (i - 1) - Rc i| < acc then Rc i
    else rombergLoop f a acc c (i + 1) h Rc Rp

/-- `romberg1d(fun, a, b, max_steps, acc)` (romberg.pyx:13-70); `none` for `max_steps < 1`, where the code writes outside of an
empty array. -/
def romberg1d (f : F → F) (a b : F) (maxSteps : Nat) (acc : F) : Option F :=
  if maxSteps = 0 then none
  else some (rombergLoop f a acc (maxSteps - 1) 1 (b - a) (put (fun _ => 0) 0 (1 / 2 * (b - a) * (f a + f b))) (fun _ => 0))

/-! ## `rk45_vector` -/

variable {V : Type} [AddCommGroup V] [Module F V]

/-- `rk_step` (rk45.pyx:6-36): the values of order four and five. -/
def rkStep (f : F → V → V) (t : F) (y : V) (h : F) : V × V :=
  let k1 := h • f t y
  let k2 := h • f (t + 1 / 4 * h) (y + (1 / 4 : F) • k1)
  let k3 := h • f (t + 3 / 8 * h) (y + (3 / 32 : F) • k1 + (9 / 32 : F) • k2)
  let k4 := h • f (t + 12 / 13 * h) (y + (1932 / 2197 : F) • k1 - (7200 / 2197 : F) • k2 + (7296 / 2197 : F) • k3)
  let k5 := h • f (t + h) (y + (439 / 216 : F) • k1 - (8 : F) • k2 + (3680 / 513 : F) • k3 - (845 / 4104 : F) • k4)
  let k6 := h • f (t + 1 / 2 * h) (y - (8 / 27 : F) • k1 + (2 : F) • k2 - (3544 / 2565 : F) • k3 + (1859 / 4104 : F) • k4
    - (11 / 40 : F) • k5)
  (y + (25 / 216 : F) • k1 + (1408 / 2565 : F) • k3 + (2197 / 4104 : F) • k4 - (1 / 5 : F) • k5,
   y + (16 / 135 : F) • k1 + (6656 / 12825 : F) • k3 + (28561 / 56430 : F) • k4 - (9 / 50 : F) • k5 + (2 / 55 : F) • k6)

/-- The next step size (rk45.pyx:58): `pw` is the power 0.25; `tol / 0` is infinite and `0 / 0` is NaN, which
`max(hmin, ·)` drops (`0 <= tol` is understood). -/
def nextH (pw : F → F) (tol hmax hmin h err : F) : F :=
  if err = 0 then (if tol = 0 then min hmax hmin else hmax) else min hmax (max hmin (9 / 10 * h * pw (tol / err)))

/-- The loop of `rk45_vector` (rk45.pyx:45-58) with bounded number of rounds: the pairs `(t, y)` that are appended. -/
def rkLoop (norm : V → F) (pw : F → F) (f : F → V → V) (t1 tol hmax hmin : F) : Nat → F → V → F → Option (List (F × V))
  | 0, _, _, _ => none
  | fuel + 1, t, y, h0 =>
    if t < t1 then
      let h := if t1 < t + h0 then t1 - t else h0
      let r := rkStep f t y h
      let err := norm (r.2 - r.1)
      if err ≤ tol then
        match rkLoop norm pw f t1 tol hmax hmin fuel (t + h) r.2 (nextH pw tol hmax hmin h err) with
        | none => none
        | some l => some ((t + h, r.2) :: l)
      else rkLoop norm pw f t1 tol hmax hmin fuel t y (nextH pw tol hmax hmin h err)
    else some []

/-- `rk45_vector(f, t0, y0, t1, tol, hmax, hmin)` (rk45.pyx:5-60) within `fuel` rounds. -/
def rk45 (norm : V → F) (pw : F → F) (f : F → V → V) (t0 : F) (y0 : V) (t1 tol hmax hmin : F) (fuel : Nat) :
    Option (List (F × V)) :=
  rkLoop norm pw f t1 tol hmax hmin fuel t0 y0 hmax

/-! ## `arc_length.py` -/

/-- The number of values of `np.arange(start, stop, step)`. -/
def arangeLen [FloorRing F] (start stop step : F) : Nat := (⌈(stop - start) / step⌉).toNat

/-- `parametric_arc_length` (arc_length.py:27-50). -/
def parametricArcLength [FloorRing F] (norm : V → F) (p : F → V) (t0 t1 dt : F) : F :=
  let num := arangeLen t0 (t1 + dt) dt - 1
  let s := (List.range num).foldl (fun (s : F) i =>
    let integrand := norm ((1 / dt : F) • (p (t0 + ((i + 1 : Nat) : F) * dt) - p (t0 + (i : F) * dt)))
    let integrand := if i = 0 ∨ i = num - 1 then integrand * (1 / 2) else integrand
    s + integrand) 0
  s * dt

/-- `curvature_based_step` (arc_length.py:7-8); `sqrt` is an argument. -/
def curvatureBasedStep (sqrt : F → F) (tolerance r : F) : F := 2 * sqrt (2 * r * tolerance - tolerance ^ 2)

/-- `arc_height` (arc_length.py:11-18). -/
def arcHeight (sqrt : F → F) (chord r : F) : F := r - sqrt ((r - chord / 2) * (r + chord / 2))

/-- `step` (arc_length.py:21-24) for a curvature vector of length `k`. -/
def curveStep (sqrt : F → F) (k tol : F) : F :=
  let r := 1 / k
  sqrt (r ^ 2 - (r - tol) ^ 2) * 2

end Verif.Integ
