import Verif.Newt.Model

/-!
# Model of `mmcore/numeric/newton/__init__.py` and `bounded.py`

`inv` is `np.linalg.inv` (`none` for `LinAlgError`).  `scalar_norm(v) < t` is written `sumSq n v < t * t` (the same for `t > 0`).
Not modelled: `full_return`, warnings and prints, `_Matrix` and `line_search_backtrack` (used nowhere).
-/

namespace Verif.Newt

open Verif.Lu

variable {F : Type} [Field F] [LinearOrder F]

/-! ## `newtons_method_with_constraints` -/

/-- How `newtons_method_with_constraints` ends. -/
inductive Outcome (F : Type)
  | point (p : Nat → F)
  | unboundLocal

/-- `scalar_dot(step, step)` and the sums `sum(di * gi ...)`, `np.dot`. -/
def dot (n : Nat) (u v : Nat → F) : F := (List.range n).foldl (fun s i => s + u i * v i) 0

/-- After the loop (`__init__.py`:79-86): the warning reads `new_point`, which is unbound if no round was completed. -/
def constrEnd (noWarn : Bool) (newPoint : Option (Nat → F)) (point : Nat → F) : Outcome F :=
  if noWarn then .point point
  else match newPoint with
    | none => .unboundLocal
    | some _ => .point point

/-- The loop (`__init__.py`:40-77); `newPoint` is the variable `new_point`, `none` while unbound. -/
def constrLoop (n : Nat) (inv : Mat F → Option (Mat F)) (gradF : (Nat → F) → Nat → F) (hessF : (Nat → F) → Mat F)
    (g : (Nat → F) → F) (tol h lam : F) (noWarn : Bool) : Nat → Option (Nat → F) → (Nat → F) → Outcome F
  | 0, newPoint, point => constrEnd noWarn newPoint point
  | fuel + 1, newPoint, point =>
    let gf := gradF point
    let gg := (Fdm.gradient id n g point h).2
    match inv (hessF point) with
    | none => constrEnd noWarn newPoint point
    | some Hi =>
      match inv (Fdm.hessian id n g point h) with
      | none => constrEnd noWarn newPoint point
      | some _ =>
        let step := matVec n Hi (fun i => gf i - lam * gg i)
        let p : Nat → F := fun i => point i - step i
        if dot n step step < tol then .point p
        else if sumSq n (fun i => point i - p i) < tol * tol then .point p
        else constrLoop n inv gradF hessF g tol h lam noWarn fuel (some p) p

/-- `newtons_method_with_constraints(f, constraint, initial_point, tol, max_iter, no_warn, lagrange_multiplier=lam)` with `grad` and `hess`
given, or computed by `fdm` (`__init__.py`:10-86). -/
def constrained (n : Nat) (inv : Mat F → Option (Mat F)) (gradF : (Nat → F) → Nat → F) (hessF : (Nat → F) → Mat F)
    (g : (Nat → F) → F) (initial : Nat → F) (tol : F) (maxIter : Nat) (h lam : F) (noWarn : Bool) : Outcome F :=
  constrLoop n inv gradF hessF g tol h lam noWarn maxIter none initial

/-! ## Line searches (bounded.py:107-279) -/

/-- `project_to_bounds` (bounded.py:193-199). -/
def project (lo hi x : Nat → F) : Nat → F := fun i => min (max (x i) (lo i)) (hi i)

/-- `_line_search_zoom` (bounded.py:258-279) and `_line_search_zoom_wolfe` (165-187); `pt alpha` is the trial point for `alpha`. -/
def zoom (n : Nat) (f : (Nat → F) → F) (grad : (Nat → F) → Nat → F) (pt : F → Nat → F) (d : Nat → F) (f0 dg0 c1 c2 : F) :
    Nat → F → F → F × (Nat → F) × Bool
  | 0, lo, _ => (lo, pt lo, false)
  | fuel + 1, lo, hi =>
    let a := 1 / 2 * (lo + hi)
    if f0 + c1 * a * dg0 < f (pt a) ∨ f (pt lo) ≤ f (pt a) then zoom n f grad pt d f0 dg0 c1 c2 fuel lo a
    else
      let dgj := dot n d (grad (pt a))
      if |dgj| ≤ -c2 * dg0 then (a, pt a, true)
      else zoom n f grad pt d f0 dg0 c1 c2 fuel a (if 0 ≤ dgj * (hi - lo) then lo else hi)

/-- The loop of `line_search` (bounded.py:230-255) and `line_search_strong_wolfe` (139-162); `i` is the loop variable. -/
def searchLoop (n : Nat) (f : (Nat → F) → F) (grad : (Nat → F) → Nat → F) (pt : F → Nat → F) (d : Nat → F) (f0 dg0 c1 c2 alphaMax : F) :
    Nat → Nat → F → F → F → F × (Nat → F) × Bool
  | 0, _, _, alpha, _ => (alpha, pt alpha, false)
  | fuel + 1, i, prev, alpha, fPrev =>
    let fNew := f (pt alpha)
    if f0 + c1 * alpha * dg0 < fNew ∨ (0 < i ∧ fPrev ≤ fNew) then zoom n f grad pt d f0 dg0 c1 c2 20 prev alpha
    else
      let dg := dot n d (grad (pt alpha))
      if |dg| ≤ -c2 * dg0 then (alpha, pt alpha, true)
      else if 0 ≤ dg then zoom n f grad pt d f0 dg0 c1 c2 20 alpha prev
      else searchLoop n f grad pt d f0 dg0 c1 c2 alphaMax fuel (i + 1) alpha (min (alpha * 2) alphaMax) fNew

/-- `line_search(f, grad, x, direction, lower_bounds, upper_bounds, c1, c2, max_iter)` (bounded.py:202-255): `(alpha, x_new, success)`. -/
def lineSearch (n : Nat) (f : (Nat → F) → F) (grad : (Nat → F) → Nat → F) (x d lo hi : Nat → F) (c1 c2 : F) (maxIter : Nat) :
    F × (Nat → F) × Bool :=
  let dg0 := dot n d (grad x)
  if 0 ≤ dg0 then (0, x, false)
  else searchLoop n f grad (fun a => project lo hi fun i => x i + a * d i) d (f x) dg0 c1 c2 (10 ^ 20) maxIter 0 0 1 (f x)

/-- `line_search_strong_wolfe(f, grad, x, d, f0, g0, c1, c2, max_iter)` (bounded.py:107-162). -/
def lineSearchStrongWolfe (n : Nat) (f : (Nat → F) → F) (grad : (Nat → F) → Nat → F) (x d : Nat → F) (f0 : Option F) (g0 : Option (Nat → F))
    (c1 c2 : F) (maxIter : Nat) : F × (Nat → F) × Bool :=
  let f0 := f0.getD (f x)
  let dg0 := dot n d (g0.getD (grad x))
  if 0 ≤ dg0 then (0, x, false)
  else searchLoop n f grad (fun a i => x i + a * d i) d f0 dg0 c1 c2 (10 ^ 20) maxIter 0 0 1 f0

/-! ## `bounded_newtons_method` (bounded.py:282-381) -/

/-- The inverse with its fall-backs (bounded.py:332-343); `reg` is `_TOO_SMALL_REGULARIZATION`. -/
def inverse (inv : Mat F → Option (Mat F)) (reg : F) (H : Mat F) : Mat F :=
  match inv H with
  | some X => X
  | none =>
    match inv (fun i j => H i j + (if i = j then 1 else 0) * reg) with
    | some X => X
    | none => fun i j => if i = j then 1 else 0

/-- `min_value is not None and f(point) - min_value < tol` (bounded.py:365-366). -/
def closeToMin (minValue : Option F) (v tol : F) : Bool :=
  match minValue with
  | some m => decide (v - m < tol)
  | none => false

/-- The loop of `bounded_newtons_method` (bounded.py:321-381); `none` is `None`. -/
def boundedLoop (n : Nat) (inv : Mat F → Option (Mat F)) (reg : F) (f : (Nat → F) → F) (grad : (Nat → F) → Nat → F) (hess : (Nat → F) → Mat F)
    (lo hi : Nat → F) (tol stepTol gtol : F) (minValue : Option F) : Nat → (Nat → F) → Option (Nat → F)
  | 0, _ => none
  | fuel + 1, point =>
    let g := grad point
    if sumSq n g < gtol * gtol then some point
    else
      let step := matVec n (inverse inv reg (hess point)) g
      let s1 := lineSearch n f grad point (fun i => -step i) lo hi (1 / 10000) (9 / 10) 20
      let s := if s1.2.2 then s1 else lineSearch n f grad point (fun i => -g i) lo hi (1 / 10000) (9 / 10) 20
      if s.2.2 = false then some point
      else
        let newPoint := s.2.1
        if closeToMin minValue (f point) tol then some newPoint
        else if sumSq n (fun i => newPoint i - point i) < stepTol * stepTol then some newPoint
        else boundedLoop n inv reg f grad hess lo hi tol stepTol gtol minValue fuel newPoint

/-- `bounded_newtons_method(f, initial_point, bounds, tol, step_tol, gtol, max_iter, grad=grad, hess=hess, min_value=minValue)`
(bounded.py:282-381). -/
def boundedNewton (n : Nat) (inv : Mat F → Option (Mat F)) (reg : F) (f : (Nat → F) → F) (grad : (Nat → F) → Nat → F)
    (hess : (Nat → F) → Mat F) (initial lo hi : Nat → F) (tol stepTol gtol : F) (minValue : Option F) (maxIter : Nat) : Option (Nat → F) :=
  boundedLoop n inv reg f grad hess lo hi tol stepTol gtol minValue maxIter (project lo hi initial)

/-- The default `grad` and `hess` (bounded.py:312-319). -/
def numGrad (n : Nat) (f : (Nat → F) → F) (h : F) (x : Nat → F) : Nat → F := (Fdm.gradient id n f x h).2

def numHess (n : Nat) (f : (Nat → F) → F) (h : F) (x : Nat → F) : Mat F := Fdm.hessian id n f x h

end Verif.Newt
