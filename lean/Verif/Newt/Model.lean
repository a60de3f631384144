import Verif.Lu.Model
import Verif.Fdm.Model

/-!
# Model of `mmcore/numeric/newton`: `cnewton.pyx`, `__init__.py` and `bounded.py`

Numbers come from an ordered field.  `sqrt(s) < tol` is written `s < tol * tol` (the same for `tol > 0`).  Python functions given by
the caller are functions of the point alone.
-/

namespace Verif.Newt

open Verif.Lu

variable {F : Type} [Field F] [LinearOrder F]

/-! ## `solve` (cnewton.pyx:40-102) -/

/-- The search for the pivot (cnewton.pyx:56-62). -/
def pivotOf (n : Nat) (A : Mat F) (k : Nat) : F × Nat :=
  (List.range' (k + 1) (n - (k + 1))).foldl (fun s i => if s.1 < |A i k| then (|A i k|, i) else s) (|A k k|, k)

/-- One round of the decomposition (cnewton.pyx:54-77); `none` is `return False`. -/
def factStep (n : Nat) (s : Mat F × (Nat → Nat)) (k : Nat) : Option (Mat F × (Nat → Nat)) :=
  let p := pivotOf n s.1 k
  if p.1 = 0 then none
  else
    let A := if p.2 ≠ k then swapRows n s.1 k p.2 else s.1
    let P := if p.2 ≠ k then swapP s.2 k p.2 else s.2
    match (List.range' (k + 1) (n - (k + 1))).foldlM (elimRow n k) A with
    | none => none
    | some B => some (B, P)

/-- Forward substitution (cnewton.pyx:86-90) with the local `sum`. -/
def fwd (n : Nat) (A : Mat F) (P : Nat → Nat) (b y : Nat → F) : Nat → F :=
  (List.range n).foldl (fun y i => putV y i ((List.range i).foldl (fun s j => s - A i j * y j) (b (P i)))) y

/-- Backward substitution (cnewton.pyx:93-100); `none` is `return False`. -/
def bwd (n : Nat) (A : Mat F) (y x : Nat → F) : Option (Nat → F) :=
  (List.range n).reverse.foldlM (fun x i =>
    let s := (List.range' (i + 1) (n - (i + 1))).foldl (fun s j => s - A i j * x j) (y i)
    if A i i = 0 then none else some (putV x i (s / A i i))) x

/-- `solve(A, b, result)` (cnewton.pyx:40-102): `none` for `False`, else the array `result`; `y0` is the fresh array `y`. -/
def solve (n : Nat) (A : Mat F) (b y0 result : Nat → F) : Option (Nat → F) :=
  match (List.range n).foldlM (factStep n) (A, fun k => k) with
  | none => none
  | some (B, P) => bwd n B (fwd n B P b y0) result

/-! ## `gradient`, `hessian`, `newtons_method` (cnewton.pyx:106-243) -/

/-- One round of `gradient` (cnewton.pyx:175-182): `point_copy` and `grad`. -/
def gradStep (f : (Nat → F) → F) (h : F) (s : (Nat → F) × (Nat → F)) (i : Nat) : (Nat → F) × (Nat → F) :=
  let t := s.1 i
  let p1 := putV s.1 i (t + h)
  let p2 := putV p1 i (t - h)
  (putV p2 i t, putV s.2 i ((f p1 - f p2) / (2 * h)))

/-- `gradient(f, point, h)` (cnewton.pyx:158-183). -/
def gradient (n : Nat) (f : (Nat → F) → F) (point : Nat → F) (h : F) : Nat → F :=
  ((List.range n).foldl (gradStep f h) (point, fun _ => 0)).2

/-- One round of the inner loop of `hessian` (cnewton.pyx:134-153): `point_copy` and `H`. -/
def hessInner (f : (Nat → F) → F) (h : F) (i : Nat) (ti : F) (s : (Nat → F) × Mat F) (j : Nat) : (Nat → F) × Mat F :=
  let tj := s.1 j
  let p1 := putV (putV s.1 i (ti + h)) j (tj + h)
  let p2 := putV p1 j (tj - h)
  let p3 := putV (putV p2 i (ti - h)) j (tj + h)
  let p4 := putV p3 j (tj - h)
  let v := (f p1 - f p2 - f p3 + f p4) / (4 * h * h)
  (putV (putV p4 i ti) j tj, put (put s.2 j i v) i j v)

/-- One round of the outer loop of `hessian` (cnewton.pyx:124-153). -/
def hessOuter (n : Nat) (f : (Nat → F) → F) (h fp : F) (s : (Nat → F) × Mat F) (i : Nat) : (Nat → F) × Mat F :=
  let ti := s.1 i
  let p1 := putV s.1 i (ti + h)
  let p2 := putV p1 i (ti - h)
  let H := put s.2 i i ((f p1 - 2 * fp + f p2) / (h * h))
  (List.range' (i + 1) (n - (i + 1))).foldl (hessInner f h i ti) (putV p2 i ti, H)

/-- `hessian(f, point, h)` (cnewton.pyx:106-154). -/
def hessian (n : Nat) (f : (Nat → F) → F) (point : Nat → F) (h : F) : Mat F :=
  ((List.range n).foldl (hessOuter n f h (f point)) (point, fun _ _ => 0)).2

/-- A sum of squares over the first `n` entries (cnewton.pyx:233-235, 428-429). -/
def sumSq (n : Nat) (v : Nat → F) : F := (List.range n).foldl (fun s i => s + v i * v i) 0

/-- The loop of `newtons_method` (cnewton.pyx:215-243); `y0` is the contents of the fresh array inside of `solve`. -/
def newtonLoop (n : Nat) (f : (Nat → F) → F) (tol h : F) (y0 : Nat → F) : Nat → (Nat → F) → Option (Nat → F)
  | 0, _ => none
  | fuel + 1, point =>
    match solve n (hessian n f point h) (gradient n f point h) y0 (fun _ => 0) with
    | none => none
    | some step =>
      let point := fun i => if i < n then point i - step i else point i
      if sumSq n step < tol * tol then some point else newtonLoop n f tol h y0 fuel point

/-- `newtons_method(f, initial_point, tol, max_iter)` (cnewton.pyx:186-243). -/
def newtonsMethod (n : Nat) (f : (Nat → F) → F) (initial : Nat → F) (tol : F) (maxIter : Nat) (h : F) (y0 : Nat → F) :
    Option (Nat → F) := newtonLoop n f tol h y0 maxIter initial

/-! ## `lu_factorize`, `lu_solve`, `solve_linear_system`, `invert_matrix` (cnewton.pyx:261-412) -/

/-- The search for the pivot through `pivot_indices` (cnewton.pyx:284-290). -/
def pivotInd (n : Nat) (A : Mat F) (P : Nat → Nat) (k : Nat) : F × Nat :=
  (List.range' (k + 1) (n - (k + 1))).foldl (fun s i => if s.1 < |A (P i) k| then (|A (P i) k|, i) else s) (|A (P k) k|, k)

/-- The elimination of the row `P i` (cnewton.pyx:303-308). -/
def elimInd (n k : Nat) (P : Nat → Nat) (A : Mat F) (i : Nat) : Mat F :=
  let A1 := put A (P i) k (A (P i) k / A (P k) k)
  let tmp := A1 (P i) k
  (List.range' (k + 1) (n - (k + 1))).foldl (fun B j => put B (P i) j (B (P i) j - tmp * B (P k) j)) A1

/-- One round of `lu_factorize` (cnewton.pyx:282-308); `none` is `return 1`. -/
def factInd (n : Nat) (s : Mat F × (Nat → Nat)) (k : Nat) : Option (Mat F × (Nat → Nat)) :=
  let p := pivotInd n s.1 s.2 k
  if p.1 = 0 then none
  else
    let P := if p.2 ≠ k then swapP s.2 k p.2 else s.2
    some ((List.range' (k + 1) (n - (k + 1))).foldl (elimInd n k P) s.1, P)

/-- `lu_factorize(A, n, pivot_indices)` (cnewton.pyx:261-310). -/
def luFactorize (n : Nat) (A : Mat F) : Option (Mat F × (Nat → Nat)) := (List.range n).foldlM (factInd n) (A, fun k => k)

/-- The forward part of `lu_solve` (cnewton.pyx:329-333): `b[pivot_indices[i]]` is overwritten. -/
def fwdInd (n : Nat) (A : Mat F) (P : Nat → Nat) (b : Nat → F) : Nat → F :=
  (List.range n).foldl (fun b i => putV b (P i) ((List.range i).foldl (fun s j => s - A (P i) j * b (P j)) (b (P i)))) b

/-- The backward part of `lu_solve` (cnewton.pyx:336-342). -/
def bwdInd (n : Nat) (A : Mat F) (P : Nat → Nat) (b : Nat → F) : Option (Nat → F) :=
  (List.range n).reverse.foldlM (fun b i =>
    let s := (List.range' (i + 1) (n - (i + 1))).foldl (fun s j => s - A (P i) j * b (P j)) (b (P i))
    if A (P i) i = 0 then none else some (putV b (P i) (s / A (P i) i))) b

/-- `lu_solve(A, n, pivot_indices, b)` (cnewton.pyx:314-344): the array `b` afterwards. -/
def luSolveInd (n : Nat) (A : Mat F) (P : Nat → Nat) (b : Nat → F) : Option (Nat → F) := bwdInd n A P (fwdInd n A P b)

/-- `solve_linear_system(A, b, n)` (cnewton.pyx:348-363). -/
def solveLinearSystem (n : Nat) (A : Mat F) (b : Nat → F) : Option (Nat → F) :=
  match luFactorize n A with
  | none => none
  | some (B, P) => luSolveInd n B P b

/-- One round over the columns in `invert_matrix` (cnewton.pyx:397-410). -/
def invColumn (n : Nat) (B : Mat F) (P : Nat → Nat) (R : Mat F) (i : Nat) : Option (Mat F) :=
  match luSolveInd n B P (fun j => if j = i then 1 else 0) with
  | none => none
  | some col => some ((List.range n).foldl (fun R j => put R j i (col j)) R)

/-- `invert_matrix(A, A_inv, n)` (cnewton.pyx:367-412). -/
def invertMatrix (n : Nat) (A R : Mat F) : Option (Mat F) :=
  match luFactorize n A with
  | none => none
  | some (B, P) => (List.range n).foldlM (invColumn n B P) R

/-! ## `newton_method2` (cnewton.pyx:435-516) -/

/-- `J_inv @ fx` (cnewton.pyx:500-504). -/
def matVec (n : Nat) (M : Mat F) (v : Nat → F) : Nat → F := fun i => (List.range n).foldl (fun s j => s + M i j * v j) 0

/-- The loop of `newton_method2` (cnewton.pyx:470-516): `none` is a `ValueError`; `R` is the array `J_inv`. -/
def newton2Loop (n : Nat) (f : (Nat → F) → Nat → F) (jac : (Nat → F) → Mat F) (tol : F) : Nat → Mat F → (Nat → F) → Option (Nat → F)
  | 0, _, _ => none
  | fuel + 1, R, x =>
    let fx := f x
    if sumSq n fx < tol * tol then some x
    else match invertMatrix n (jac x) R with
      | none => none
      | some Ji =>
        let delta := matVec n Ji fx
        let x' := fun i => if i < n then x i - delta i else x i
        if sumSq n delta < tol * tol then some x' else newton2Loop n f jac tol fuel Ji x'

/-- `newton_method2(f, jac, x0, tol, max_iter)` (cnewton.pyx:435-516). -/
def newtonMethod2 (n : Nat) (f : (Nat → F) → Nat → F) (jac : (Nat → F) → Mat F) (x0 : Nat → F) (tol : F) (maxIter : Nat) :
    Option (Nat → F) := newton2Loop n f jac tol maxIter (fun _ _ => 0) x0

end Verif.Newt
