import Mathlib.Algebra.Field.Basic
import Mathlib.Algebra.Order.Group.Abs
import Mathlib.Algebra.Order.Floor.Defs
import Mathlib.Order.Defs.LinearOrder

/-!
# Model of `mmcore/numeric/fdm.py`: finite differences, Newton's method, classification of critical points

Numbers come from an ordered field.  A point of `n` coordinates is a function on the indices; only those below `n` matter.  What an
array does to the numbers stored into it (`dtype`) is an argument `cast`: the identity for arrays of floats, truncation towards
zero for arrays of integers.
-/

namespace Verif.Fdm

variable {F : Type} [Field F] [LinearOrder F]

/-- `x[i] = v` for an array whose type converts by `cast`. -/
def put (cast : F → F) (x : Nat → F) (i : Nat) (v : F) : Nat → F := fun k => if k = i then cast v else x k

/-- Assignment to an array of integers: truncation towards zero. -/
def trunc [FloorRing F] (v : F) : F := if 0 ≤ v then (⌊v⌋ : F) else (⌈v⌉ : F)

/-! ## `fdm`, `bounded_fdm`, `FDM` -/

/-- `FDM.central`, `fdm(f, "central")` (fdm.py:49, 239-240). -/
def central (f : F → F) (h t : F) : F := (f (t + h) - f (t - h)) / (2 * h)

/-- `FDM.forward`, `fdm(f, "forward")` (fdm.py:51, 242-243). -/
def forward (f : F → F) (h t : F) : F := (f (t + h) - f t) / h

/-- `FDM.backward`, `fdm(f, "backward")` (fdm.py:53, 245-246). -/
def backward (f : F → F) (h t : F) : F := (f t - f (t - h)) / h

/-- `bounded_fdm(f, h, bounds)` (fdm.py:61-72). -/
def boundedFdm (f : F → F) (h b0 b1 t : F) : F :=
  if |b0 - t| ≤ h then forward f h t
  else if |b1 - t| ≤ h then backward f h t
  else central f h t

/-- The arguments at which `bounded_fdm` calls `f` (fdm.py:65-70). -/
def boundedArgs (h b0 b1 t : F) : List F :=
  if |b0 - t| ≤ h then [t + h, t]
  else if |b1 - t| ≤ h then [t, t - h]
  else [t + h, t - h]

/-- `FDM.dydx` for one parameter (fdm.py:172-185): `c` is the derivative of the coordinate functions. -/
def dydx (f : Nat → F → F) (h t : F) : F := central (f 1) h t / central (f 0) h t

/-- `FDM.dzdx` (fdm.py:187-200): the quotient of the entries 2 and 1. -/
def dzdx (f : Nat → F → F) (h t : F) : F := central (f 2) h t / central (f 1) h t

/-- `FDM.dzdy` (fdm.py:202-215). -/
def dzdy (f : Nat → F → F) (h t : F) : F := central (f 2) h t / central (f 1) h t

/-! ## Gradients, Hessians, Jacobians -/

/-- One round of `gradient` (fdm.py:479-484): the point and the gradient, both of the type of the caller's array. -/
def gradStep (cast : F → F) (f : (Nat → F) → F) (h : F) (s : (Nat → F) × (Nat → F)) (i : Nat) : (Nat → F) × (Nat → F) :=
  let p1 := put cast s.1 i (s.1 i + h)
  let fPlus := f p1
  let p2 := put cast p1 i (p1 i - 2 * h)
  let fMinus := f p2
  let p3 := put cast p2 i (p2 i + h)
  (p3, put cast s.2 i ((fPlus - fMinus) / (2 * h)))

/-- `gradient(f, point, h)` (fdm.py:467-485): the caller's array afterwards and the result. -/
def gradient (cast : F → F) (n : Nat) (f : (Nat → F) → F) (point : Nat → F) (h : F) : (Nat → F) × (Nat → F) :=
  (List.range n).foldl (gradStep cast f h) (point, fun _ => 0)

/-- `pde(fun, x, h)`, used by `Grad.central` (fdm.py:329-338): `x + forw[i]` is a new array of floats. -/
def pde (f : (Nat → F) → F) (x : Nat → F) (h : F) : Nat → F :=
  fun i => (f (fun k => x k + if k = i then h else 0) - f (fun k => x k - if k = i then h else 0)) / 2 / h

/-- The entry of `hessian` for `i <= j` (fdm.py:440-464). -/
def hessEntry (cast : F → F) (f : (Nat → F) → F) (point : Nat → F) (h : F) (i j : Nat) : F :=
  if i = j then
    let fwd := put cast point i (point i + h)
    let bwd := put cast point i (point i - h)
    (f fwd - 2 * f point + f bwd) / h ^ 2
  else
    let pp := put cast (put cast point i (point i + h)) j (put cast point i (point i + h) j + h)
    let pm := put cast (put cast point i (point i + h)) j (put cast point i (point i + h) j - h)
    let mp := put cast (put cast point i (point i - h)) j (put cast point i (point i - h) j + h)
    let mm := put cast (put cast point i (point i - h)) j (put cast point i (point i - h) j - h)
    (f pp - f pm - f mp + f mm) / (4 * h ^ 2)

/-- `hessian(f, point, h)` (fdm.py:411-465): the loops over `i` and `j >= i` with the assignment `H[i, j] = H[j, i] = ...`. -/
def hessian (cast : F → F) (n : Nat) (f : (Nat → F) → F) (point : Nat → F) (h : F) : Nat → Nat → F :=
  (List.range n).foldl (fun H i =>
    (List.range' i (n - i)).foldl (fun (H : Nat → Nat → F) j =>
      let v := hessEntry cast f point h i j
      fun r c => if r = i ∧ c = j ∨ r = j ∧ c = i then v else H r c) H) (fun _ _ => 0)

/-- `jac(fun, h)(t)` (fdm.py:597-606) for a function with as many values as arguments. -/
def jac (f : (Nat → F) → Nat → F) (t : Nat → F) (h : F) : Nat → Nat → F :=
  fun i c => (f (fun k => t k + if k = i then h else 0) c - f (fun k => t k - if k = i then h else 0) c) / (2 * h)

/-! ## `newtons_method` -/

/-- `H_inv @ grad`. -/
def matVec (n : Nat) (M : Nat → Nat → F) (v : Nat → F) : Nat → F := fun i => ((List.range n).map fun j => M i j * v j).sum

/-- The loop of `newtons_method` (fdm.py:517-539) on arrays of floats; `inv` is `np.linalg.inv` (`none` for `LinAlgError`), `norm` is
`scalar_norm`; the gradient is taken on `point` itself, which it may change. -/
def newtonLoop (n : Nat) (inv : (Nat → Nat → F) → Option (Nat → Nat → F)) (norm : (Nat → F) → F) (f : (Nat → F) → F) (tol h : F) :
    Nat → (Nat → F) → Option (Nat → F)
  | 0, _ => none
  | fuel + 1, point0 =>
    let g := gradient id n f point0 h
    let point := g.1
    match inv (hessian id n f point h) with
    | none => none
    | some Hinv =>
      let step := matVec n Hinv g.2
      let newPoint : Nat → F := fun k => point k - step k
      if norm (fun k => newPoint k - point k) < tol then some newPoint
      else newtonLoop n inv norm f tol h fuel newPoint

/-- `newtons_method(f, initial_point, tol, max_iter, h=h)` (fdm.py:488-539) without `grad` and `hess`. -/
def newtonsMethod (n : Nat) (inv : (Nat → Nat → F) → Option (Nat → Nat → F)) (norm : (Nat → F) → F) (f : (Nat → F) → F)
    (initial : Nat → F) (tol : F) (maxIter : Nat) (h : F) : Option (Nat → F) :=
  newtonLoop n inv norm f tol h maxIter initial

/-! ## `classify_critical_point_2d` -/

/-- `CriticalPointType` (fdm.py:633-650). -/
inductive Kind
  | undefined | localMinimum | localMaximum | saddlePoint
  deriving DecidableEq, Repr

/-- `classify_critical_point_2d(hess)` (fdm.py:654-675); `none` is the `None` of a function that ends without `return`. -/
def classify (H : Nat → Nat → F) : Option Kind :=
  let fxx := H 0 0
  let fyy := H 1 1
  let fxy := H 0 1
  let det := fxx * fyy - fxy * fxy
  if 0 < det then
    if 0 < fxx then some .localMinimum
    else if fxx < 0 then some .localMaximum
    else none
  else if det < 0 then some .saddlePoint
  else some .undefined

end Verif.Fdm
