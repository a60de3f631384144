import Mathlib.Algebra.Field.Basic
import Mathlib.Algebra.Order.Group.Abs
import Mathlib.Order.Defs.LinearOrder

/-!
# Model of `mmcore/numeric/matrix/cmatrix.h` and `mmcore/numeric/matrix/__init__.pyx`: LU decomposition and `inv`

Numbers come from an ordered field.  A division by zero gives infinities or NaN in the code; here the whole computation is then
`none`.  Memory is a function from addresses (in units of one double) to numbers.
-/

namespace Verif.Lu

variable {F : Type} [Field F] [LinearOrder F]

/-- The entries of a matrix by row and column (`MAT_PTR`, cmatrix.h:15). -/
abbrev Mat (F : Type) := Nat → Nat → F

/-- `MAT_PTR(m, r, c) = v`. -/
def put (A : Mat F) (r c : Nat) (v : F) : Mat F := fun i j => if i = r ∧ j = c then v else A i j

/-- `x / y`, `none` for a division by zero. -/
def divO (x y : F) : Option F := if y = 0 then none else some (x / y)

/-- The search for the pivot (cmatrix.h:88-97): the pair of `maxA` and `imax`. -/
def pivot (n : Nat) (A : Mat F) (i : Nat) : F × Nat :=
  (List.range' i (n - i)).foldl (fun s k => if s.1 < |A k i| then (|A k i|, k) else s) (0, i)

/-- The exchange of two rows (cmatrix.h:106-111). -/
def swapRows (n : Nat) (A : Mat F) (i m : Nat) : Mat F :=
  (List.range n).foldl (fun B k => put (put B i k (B m k)) m k (B i k)) A

/-- The exchange of two entries of the permutation (cmatrix.h:101-104). -/
def swapP (P : Nat → Nat) (i m : Nat) : Nat → Nat := fun k => if k = m then P i else if k = i then P m else P k

/-- The inner loop of the elimination for the row `j` (cmatrix.h:116-120). -/
def elimRow (n : Nat) (i : Nat) (A : Mat F) (j : Nat) : Option (Mat F) :=
  match divO (A j i) (A i i) with
  | none => none
  | some q => some ((List.range' (i + 1) (n - (i + 1))).foldl (fun B k => put B j k (B j k - B j i * B i k)) (put A j i q))

/-- One round of the main loop (cmatrix.h:87-122). -/
def luStep (n : Nat) (s : Mat F × (Nat → Nat)) (i : Nat) : Option (Mat F × (Nat → Nat)) :=
  let m := (pivot n s.1 i).2
  let A := if m ≠ i then swapRows n s.1 i m else s.1
  let P := if m ≠ i then swapP s.2 i m else s.2
  match (List.range' (i + 1) (n - (i + 1))).foldlM (elimRow n i) A with
  | none => none
  | some B => some (B, P)

/-- `LU_decomposition` for a square matrix (cmatrix.h:81-125). -/
def luDecomposition (n : Nat) (A : Mat F) : Option (Mat F × (Nat → Nat)) :=
  (List.range n).foldlM (luStep n) (A, fun k => k)

/-- `v[i] = x`. -/
def putV (v : Nat → F) (i : Nat) (x : F) : Nat → F := fun k => if k = i then x else v k

/-- Forward substitution (cmatrix.h:143-150). -/
def forward (n : Nat) (A : Mat F) (P : Nat → Nat) (b y : Nat → F) : Nat → F :=
  (List.range n).foldl (fun y i =>
    (List.range i).foldl (fun y j => putV y i (y i - A i j * y j)) (putV y i (b (P i)))) y

/-- One row of the backward substitution (cmatrix.h:154-160). -/
def backRow (n : Nat) (A : Mat F) (y : Nat → F) (x : Nat → F) (i : Nat) : Option (Nat → F) :=
  let x1 := (List.range' (i + 1) (n - (i + 1))).foldl (fun x j => putV x i (x i - A i j * x j)) (putV x i (y i))
  match divO (x1 i) (A i i) with
  | none => none
  | some q => some (putV x1 i q)

/-- Backward substitution (cmatrix.h:152-161). -/
def backward (n : Nat) (A : Mat F) (y x : Nat → F) : Option (Nat → F) :=
  (List.range n).reverse.foldlM (backRow n A y) x

/-- `LU_solve` (cmatrix.h:128-166); the contents of the fresh array `y` and the old contents of `x` are arguments. -/
def luSolve (n : Nat) (A : Mat F) (P : Nat → Nat) (b y0 x : Nat → F) : Option (Nat → F) :=
  backward n A (forward n A P b y0) x

/-- The loop over the columns of `invert_matrix` (cmatrix.h:190-203); the array `x` is kept from column to column. -/
def invCols (n : Nat) (A : Mat F) (P : Nat → Nat) (y0 : Nat → F) (s : Mat F × (Nat → F)) (i : Nat) : Option (Mat F × (Nat → F)) :=
  match luSolve n A P (fun j => if i = j then 1 else 0) y0 s.2 with
  | none => none
  | some x => some ((List.range n).foldl (fun R j => put R j i (x j)) s.1, x)

/-- `invert_matrix` (cmatrix.h:169-211): the overwritten argument and the inverse. -/
def invertMatrix (n : Nat) (A R : Mat F) (y0 x0 : Nat → F) : Option (Mat F × Mat F) :=
  match luDecomposition n A with
  | none => none
  | some (B, P) =>
    match (List.range n).foldlM (invCols n B P y0) (R, x0) with
    | none => none
    | some (X, _) => some (B, X)

/-- The pointer `&arr[0,0]` with the shape `(n, n)` is used as a row-major matrix (cmatrix.h:15, `__init__.pyx`:19-21). -/
def rowMajor (n : Nat) (mem : Nat → F) : Mat F := fun i j => mem (i * n + j)

/-- A matrix of `n` columns written back to memory; addresses from `n * n` on stay. -/
def store (n : Nat) (mem : Nat → F) (A : Mat F) : Nat → F := fun a => if a < n * n then A (a / n) (a % n) else mem a

/-- A two-dimensional view of memory (a `double[:, :]`): its entry `(i, j)` lies at `i * s0 + j * s1`. -/
def view (s0 s1 : Nat) (mem : Nat → F) : Mat F := fun i j => mem (i * s0 + j * s1)

/-- `inv(arr)` (`__init__.pyx`:16-34) for a square `arr` whose first entry is at the address 0: the memory afterwards and the
entries of the new array.  The strides of `arr` are not looked at.  The copy `set_matrix_from_array(&m, &arr[0,0])` copies the
memory onto itself. -/
def inv (n : Nat) (mem : Nat → F) (y0 x0 : Nat → F) : Option ((Nat → F) × Mat F) :=
  match invertMatrix n (rowMajor n mem) (fun _ _ => 0) y0 x0 with
  | none => none
  | some (B, X) => some (store n mem B, X)

end Verif.Lu
