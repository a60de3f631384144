import Mathlib.Algebra.Field.Basic
import Mathlib.Algebra.Order.Ring.Abs
import Mathlib.Algebra.BigOperators.Group.List.Basic

/-!
# Model of `mmcore/numeric/routines/__init__.py`, `mmcore/numeric/routines/_routines.pyx` and `box_from_intervals` of
`mmcore/numeric/aabb.py`

An array is the list of its elements in row-major order with its shape, or a list of rows.  `none` is a raised exception.  Arithmetic is
exact.
-/

namespace Verif.Rtn

variable {K : Type}

/-! ## `nd_min`, `nd_max` -/

/-- An argument: a number or an array of numbers (one-dimensional: the shape plays no role, only that two arrays agree in it). -/
inductive Val (K : Type)
  | num (x : K)
  | arr (l : List K)
  deriving DecidableEq

/-- What a call does: the returned value and the contents of the two arguments afterwards. -/
structure Out (K : Type) where
  ret : Val K
  a : Val K
  b : Val K
  deriving DecidableEq

/-- `x[x > c] = c`, elementwise (routines/__init__.py:20, 23, 26). -/
def lower [LinearOrder K] (x c : K) : K := if x > c then c else x
/-- `x[x < c] = c`, elementwise (routines/__init__.py:35, 38, 41). -/
def raise [LinearOrder K] (x c : K) : K := if x < c then c else x

/-- `nd_min` (routines/__init__.py:17-29).  The mask of line 20 indexes both arrays, so they have the same length or it raises. -/
def ndMin [LinearOrder K] : Val K → Val K → Option (Out K)
  | .arr a, .arr b =>
    if a.length = b.length then
      let r := List.zipWith lower a b
      some ⟨.arr r, .arr r, .arr b⟩
    else none
  | .arr a, .num b => let r := a.map (fun x => lower x b); some ⟨.arr r, .arr r, .num b⟩
  | .num a, .arr b => let r := b.map (fun x => lower x a); some ⟨.arr r, .num a, .arr r⟩
  | .num a, .num b => some ⟨.num (min a b), .num a, .num b⟩

/-- `nd_max` (routines/__init__.py:32-44). -/
def ndMax [LinearOrder K] : Val K → Val K → Option (Out K)
  | .arr a, .arr b =>
    if a.length = b.length then
      let r := List.zipWith raise a b
      some ⟨.arr r, .arr r, .arr b⟩
    else none
  | .arr a, .num b => let r := a.map (fun x => raise x b); some ⟨.arr r, .arr r, .num b⟩
  | .num a, .arr b => let r := b.map (fun x => raise x a); some ⟨.arr r, .num a, .arr r⟩
  | .num a, .num b => some ⟨.num (max a b), .num a, .num b⟩

/-- `find_similar` (routines/__init__.py:47-49): the indices where the distance is the least one; `np.min` of an empty array raises. -/
def findSimilar [AddCommGroup K] [LinearOrder K] (value : K) (values : List K) : Option (List ℕ) :=
  match values.map (fun x => |x - value|) with
  | [] => none
  | d :: ds =>
    let m := ds.foldl min d
    some ((List.range values.length).filter (fun i => (values.map (fun x => |x - value|))[i]? = some m))

/-! ## `cartesian_product` -/

/-- The number of elements of a dimension list. -/
def prod (l : List ℕ) : ℕ := l.foldr (· * ·) 1

/-- Row `r` of `arr.reshape(-1, la)` (routines/__init__.py:52-58): the element of the array `a` followed by the arrays `rest` has the
index which `r` has in this dimension in row-major order. -/
def cpRow {α : Type} : List (List α) → ℕ → List (Option α)
  | [], _ => []
  | a :: rest, r => a[(r / prod (rest.map List.length)) % a.length]? :: cpRow rest r

/-- `cartesian_product` (routines/__init__.py:52-58). -/
def cartesianProduct {α : Type} (arrays : List (List α)) : List (List (Option α)) :=
  (List.range (prod (arrays.map List.length))).map (cpRow arrays)

/-- `box_from_intervals` (aabb.py:11-12): the product of the pairs of the two ends. -/
def boxFromIntervals {α : Type} (start stop : List α) : List (List (Option α)) :=
  cartesianProduct (List.zipWith (fun s e => [s, e]) start stop)

/-! ## `uvs`, `point_grid_2d` -/

/-- The inner loop of `uvs` (_routines.pyx:21-24) from `j` on, `n` rounds left: rows `k, k+1, …` are written. -/
def uvInner (u v : ℕ → K) (i : ℕ) : ℕ → ℕ → ℕ → (ℕ → K × K) → ℕ × (ℕ → K × K)
  | 0, _, k, m => (k, m)
  | n + 1, j, k, m => uvInner u v i n (j + 1) (k + 1) (Function.update m k (u i, v j))

/-- The outer loop of `uvs` (_routines.pyx:20-24). -/
def uvOuter (u v : ℕ → K) (vc : ℕ) : ℕ → ℕ → ℕ → (ℕ → K × K) → ℕ × (ℕ → K × K)
  | 0, _, k, m => (k, m)
  | n + 1, i, k, m => let r := uvInner u v i vc 0 k m; uvOuter u v vc n (i + 1) r.1 r.2

/-- `uvs` (_routines.pyx:9-25); `mem` is the content of `np.empty`, `u` and `v` are the values of `np.linspace`. -/
def uvs (u v : ℕ → K) (uc vc : ℕ) (mem : ℕ → K × K) : List (K × K) :=
  (List.range (uc * vc)).map (uvOuter u v vc uc 0 0 mem).2

/-- `np.linspace(lo, hi, n)[i]`. -/
def linspace [Field K] (lo hi : K) (n i : ℕ) : K := if n = 1 then lo else lo + (i : K) * ((hi - lo) / ((n : K) - 1))

/-! ## Shapes -/

/-- An array with its shape. -/
structure Nd (K : Type) where
  shape : List ℕ
  data : List K
  deriving DecidableEq

/-- `arr.reshape(shape)`. -/
def reshape (a : Nd K) (shape : List ℕ) : Option (Nd K) :=
  if prod shape = prod a.shape then some ⟨shape, a.data⟩ else none

/-- The index `i`, negative ones counted from the end (routines/__init__.py:84-85, 91-92). -/
def normIdx (n : ℕ) (i : Int) : Int := if i < 0 then n + i else i

/-- `insert_before_in_shape` (routines/__init__.py:90-93), for an index in range (`none` otherwise) and `val ≠ 0`. -/
def insertBefore (tpl : List ℕ) (i : Int) (val : ℕ) : Option (List ℕ) :=
  let k := normIdx tpl.length i
  if 0 ≤ k ∧ k < tpl.length ∧ val ≠ 0 then
    match tpl[k.toNat]? with
    | some d => some (tpl.take k.toNat ++ [val, d / val] ++ tpl.drop (k.toNat + 1))
    | none => none
  else none

/-- `insert_after_in_shape` (routines/__init__.py:83-87), for an index in range (`none` otherwise) and `val ≠ 0`. -/
def insertAfter (tpl : List ℕ) (i : Int) (val : ℕ) : Option (List ℕ) :=
  let k := normIdx tpl.length i
  if 0 ≤ k ∧ k < tpl.length ∧ val ≠ 0 then
    match tpl[k.toNat]? with
    | some d => some (tpl.take k.toNat ++ [d / val, val] ++ tpl.drop (k.toNat + 1))
    | none => none
  else none

/-- `split_dim` (routines/__init__.py:99-116). -/
def splitDim (a : Nd K) (index : Int) (val : ℕ) (before : Bool) : Option (Nd K) :=
  (if before then insertBefore a.shape index val else insertAfter a.shape index val).bind (reshape a)

/-- `remove_dim` (routines/__init__.py:119-120). -/
def removeDim (a : Nd K) (count : ℕ) : Option (Nd K) :=
  reshape a (prod (a.shape.take (count + 1)) :: a.shape.drop (count + 1))

/-- `add_dim` (routines/__init__.py:71-80) on the reversed tuple of sizes: the last size first. -/
def addDim : Nd K → List ℕ → Option (Nd K)
  | _, [] => none
  | a, v :: vs =>
    match a.shape with
    | [] => none
    | first :: other =>
      if v = 0 then none
      else (reshape a (first / v :: v :: other)).bind fun b => if vs = [] then some b else addDim b vs

/-! ## `split_by_parts`, `column_concat` -/

/-- `np.vsplit(arr, cuts)`: the rows from cut to cut; `pos` is the last cut.  A slice that runs past the end is shorter. -/
def vsplit {α : Type} (arr : List α) : ℕ → List ℕ → List (List α)
  | pos, [] => [arr.drop pos]
  | pos, c :: cs => (arr.drop pos).take (c - pos) :: vsplit arr c cs

/-- `np.cumsum(parts)`. -/
def cumsum : ℕ → List ℕ → List ℕ
  | _, [] => []
  | s, p :: ps => (s + p) :: cumsum (s + p) ps

/-- `split_by_parts` (routines/__init__.py:123-128); `parts[-1]` of an empty list raises. -/
def splitByParts {α : Type} (arr : List α) (parts : List ℕ) : Option (List (List α)) :=
  match parts.getLast? with
  | none => none
  | some last => some (vsplit arr 0 (cumsum 0 (if last > arr.length then parts.dropLast else parts)))

/-- The second argument of `column_concat`: a vector or a matrix. -/
inductive Col (K : Type)
  | vec (l : List K)
  | mat (rows : List (List K))
  deriving DecidableEq

/-- `column_concat` (routines/__init__.py:175-179) for a matrix `a` of at least one row; `np.c_` takes a vector as a column. -/
def columnConcat (a : List (List K)) : Col K → Option (List (List K))
  | .vec b =>
    if a.length = b.length then some (List.zipWith (fun r x => r ++ [x]) a b)
    else some (a.map (fun r => r ++ b))
  | .mat b =>
    if a.length = b.length then some (List.zipWith (fun r x => r ++ x) a b)
    else match b with
      | [row] => some (a.map (fun r => r ++ row))
      | _ => none

end Verif.Rtn
