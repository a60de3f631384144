import Mathlib.Algebra.Order.Field.Basic
import Mathlib.Algebra.BigOperators.Group.List.Basic
import Mathlib.Data.List.Sort

/-! # Boolean operations on closed curves: `mmcore/geom/curves/curve_bool.py`

The intersector `ccx` and the splitting are parameters: the function is modelled from the parameters they return. -/

set_option linter.unusedSectionVars false

namespace Verif.Boo

variable {K : Type} [Field K] [LinearOrder K] [IsStrictOrderedRing K]

/-- `np.mean`. -/
def mean (l : List K) : K := l.sum / l.length

/-- The loop of `unique_with_tolerance` (curve_bool.py:31-42): `cur` is the last value of the current group, `grp` the group
in reverse order; the result is the list of the means still to come. -/
def groupLoop (tol : K) (cur : K) (grp : List K) : List K → List K
  | [] => [mean grp.reverse]
  | v :: vs =>
    if |v - cur| ≤ tol then groupLoop tol v (v :: grp) vs
    else mean grp.reverse :: groupLoop tol v [v] vs

/-- `unique_with_tolerance` (curve_bool.py:23-44); `none`: IndexError for an empty array (line 29). `np.sort` is insertion sort (the result of sorting
numbers does not depend on the method). -/
def uniqueTol (tol : K) (arr : List K) : Option (List K) :=
  match arr.insertionSort (· ≤ ·) with
  | [] => none
  | a :: rest => some (groupLoop tol a [a] rest)

/-- The number whose parity decides (curve_bool.py:88-94 and 123-129), from the ray parameters returned by `ccx`. -/
def crossings (tol : K) (rt : List K) : Nat :=
  match rt with
  | [] => 0
  | _ :: _ => match uniqueTol tol rt with
    | none => 0
    | some u => u.length

/-- The branches for a segment of the first curve (curve_bool.py:95-114): keep it or not, `none` for the ValueError. -/
def keepFirst (op : Int) (inside : Bool) : Option Bool :=
  if inside then
    if op = 0 then some false else if op = 1 then some true else if op = 2 then some false else none
  else
    if op = 0 then some true else if op = 1 then some false else if op = 2 then some true else none

/-- The branches for a segment of the second curve (curve_bool.py:130-148). -/
def keepSecond (op : Int) (inside : Bool) : Option Bool :=
  if inside then
    if op = 0 then some false else if op = 1 then some true else if op = 2 then some true else none
  else
    if op = 0 then some true else if op = 1 then some false else if op = 2 then some false else none

/-- One of the two loops: `segments.append` for the kept segments. -/
def loop {S : Type} (keep : Bool → Option Bool) (rays : S → List K) (tol : K) : List S → List S → Option (List S)
  | [], acc => some acc
  | s :: ss, acc =>
    match keep (crossings tol (rays s) % 2 == 1) with
    | none => none
    | some true => loop keep rays tol ss (acc ++ [s])
    | some false => loop keep rays tol ss acc

/-- `curve_boolean_operation` (curve_bool.py:47-150). `pairs` is what `ccx(curve1, curve2)` returns: for an empty list the
unpacking in line 71 raises (`none`). `segs1`, `segs2` are the segments after splitting, `rays1 s`, `rays2 s` the parameters
of `ccx` for the ray from the middle of the segment `s` with the other curve. `tol` is 1e-5. -/
def boolOp {S : Type} (tol : K) (pairs : List (K × K)) (segs1 segs2 : List S) (rays1 rays2 : S → List K) (op : Int) :
    Option (List S) :=
  match pairs with
  | [] => none
  | _ :: _ => (loop (keepFirst op) rays1 tol segs1 []).bind fun acc => loop (keepSecond op) rays2 tol segs2 acc

end Verif.Boo
