import Mathlib.Order.Defs.LinearOrder
import Mathlib.Algebra.Group.Basic
import Mathlib.Algebra.Order.Group.Defs
import Mathlib.Algebra.Order.Group.Abs

/-!
# Model of `mmcore/numeric/algorithms/_quicksort.c`, `_unique.c` and `quicksort.pyx`

A C array is a `List`; every read and write is bounds checked and an access outside the array is `none`, so a theorem
that the result is `some _` includes memory safety.  C `int` indices are `Int` (no wrap-around at 2^31).
`partition`/`partitionArgSort` and `quickSort`/`argSort` have the same text up to the element type and the comparison;
they are one definition with the comparison `test x pivot` as parameter (`none` = the comparison itself reads out of
bounds).  In `partitionArgSort` the pivot *value* `arr[indices[high]]` is read once before the loop; the model re-reads
it (the array `arr` is never written, so this is the same value).
-/

namespace Verif.Sort
variable {α : Type}

/-- `a[i]`. -/
def rd (a : List α) (i : Int) : Option α := if 0 ≤ i then a[i.toNat]? else none

/-- `a[i] = v`. -/
def wr (a : List α) (i : Int) (v : α) : Option (List α) :=
  if 0 ≤ i ∧ i.toNat < a.length then some (a.set i.toNat v) else none

/-- `swap` (_quicksort.c:4-8) and `swap_int` (39-43). -/
def swap (a : List α) (i j : Int) : Option (List α) := do
  let t ← rd a i
  let y ← rd a j
  let a1 ← wr a i y
  wr a1 j t

/-- The loop `for j = low; j <= high - 1; j++` (_quicksort.c:15-21, 49-56); first argument: iterations left. -/
def partLoop (test : α → α → Option Bool) (pivot : α) : Nat → Int → Int → List α → Option (Int × List α)
  | 0, _, i, a => some (i, a)
  | n + 1, j, i, a => do
    let x ← rd a j
    let b ← test x pivot
    if b then do
      let a' ← swap a (i + 1) j
      partLoop test pivot n (j + 1) (i + 1) a'
    else partLoop test pivot n (j + 1) i a

/-- `partition` (_quicksort.c:11-24) and `partitionArgSort` (45-59). -/
def partition (test : α → α → Option Bool) (a : List α) (low high : Int) : Option (Int × List α) := do
  let pivot ← rd a high
  let (i, a1) ← partLoop test pivot (high - low).toNat low (low - 1) a
  let a2 ← swap a1 (i + 1) high
  some (i + 1, a2)

/-- `quickSort` (_quicksort.c:27-37) and `argSort` (61-71); the first argument bounds the recursion depth. -/
def sortRec (test : α → α → Option Bool) : Nat → List α → Int → Int → Option (List α)
  | 0, a, low, high => if low < high then none else some a
  | f + 1, a, low, high =>
    if low < high then do
      let (pi, a1) ← partition test a low high
      let a2 ← sortRec test f a1 low (pi - 1)
      sortRec test f a2 (pi + 1) high
    else some a

variable {K : Type}

/-- The comparison of `partition` (_quicksort.c:17). -/
def ltTest [LinearOrder K] (x pivot : K) : Option Bool := some (decide (x < pivot))

/-- The comparison of `partitionArgSort` (_quicksort.c:46, 51): both operands are read through the index array. -/
def argTest [LinearOrder K] (arr : List K) (x pivot : Int) : Option Bool := do
  let p ← rd arr pivot
  let v ← rd arr x
  some (decide (v ≤ p))

/-- `quicksort(arr)` (quicksort.pyx:13-20). -/
def quicksort [LinearOrder K] (arr : List K) : Option (List K) :=
  sortRec ltTest arr.length arr 0 ((arr.length : Int) - 1)

/-- `np.arange(n, dtype=np.intc)`. -/
def arange (n : Nat) : List Int := (List.range n).map Int.ofNat

/-- `argsort(arr)` (quicksort.pyx:26-33). -/
def argsort [LinearOrder K] (arr : List K) : Option (List Int) :=
  sortRec (argTest arr) arr.length (arange arr.length) 0 ((arr.length : Int) - 1)

/-! ## `_unique.c` -/

/-- The loop `for i = 1..n-1` with `arr[i] != arr[i-1]` (_unique.c:82-86, 119-123, 163-167, 200-204): `prev` is
`arr[i-1]`. -/
def scan [DecidableEq K] (prev : K) : List K → List K
  | [] => []
  | x :: xs => if x ≠ prev then x :: scan x xs else scan x xs

/-- `uniqueSorted` (_unique.c:58-93), `uniqueSortedByRef` (95-130, value written to `result`), `uniqueSortedInt`
(139-174).  `qsort` is the libc function.  Returns the output and the caller's array afterwards (it is sorted in place
when `n > 1`). -/
def uniqueSorted [DecidableEq K] (qsort : List K → List K) (arr : List K) : List K × List K :=
  match arr with
  | [] => ([], [])
  | [x] => ([x], [x])
  | _ =>
    match qsort arr with
    | [] => ([], [])
    | y :: ys => (y :: scan y ys, y :: ys)

/-- `uniqueSortedIntEmplace` (_unique.c:176-211): writes into the caller's buffer `out`; returns `new_len` and the
buffer.  For one element nothing is written (the value goes to a fresh allocation that is dropped, 184-186). -/
def uniqueSortedIntEmplace (qsort : List Int → List Int) (arr out : List Int) : Nat × List Int :=
  match arr with
  | [] => (0, out)
  | [_] => (1, out)
  | _ =>
    match qsort arr with
    | [] => (0, out)
    | y :: ys =>
      let u := y :: scan y ys
      (u.length, u ++ out.drop u.length)

/-- The loop of `uniqueSortedEps` (_unique.c:33-37). -/
def scanEps [AddCommGroup K] [LinearOrder K] (eps prev : K) : List K → List K
  | [] => []
  | x :: xs => if |x - prev| > eps then x :: scanEps eps x xs else scanEps eps x xs

/-- `uniqueSortedEps` (_unique.c:12-49). -/
def uniqueSortedEps [AddCommGroup K] [LinearOrder K] (qsort : List K → List K) (eps : K) (arr : List K) : List K :=
  match arr with
  | [] => []
  | _ =>
    match qsort arr with
    | [] => []
    | y :: ys => y :: scanEps eps y ys

end Verif.Sort
