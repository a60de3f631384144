import Mathlib.Algebra.Order.Field.Basic
import Mathlib.Data.List.Basic

/-! # Control points of derivatives in Python

`curve_deriv_cpts`, `find_spans` (`mmcore/geom/curves/knot.py`).  One column of the control points; numbers are elements of a field; a division by
zero raises and is `none`.  Row `k` of the result is the list of its entries that are written; the entries after them stay `None`. -/

namespace Verif.Kdc

variable {K : Type} [Field K] [DecidableEq K]

/-- One round of the loop over `k` (knot.py:531-536): from row `k - 1`. -/
def row (p : Nat) (U : Nat → K) (r1 r : Nat) (prev : List K) (k : Nat) : Option (List K) :=
  (List.range (r + 1 - k)).mapM fun i =>
    let den := U (r1 + i + p + 1) - U (r1 + i + k)
    if den = 0 then none else some ((((p : ℤ) - k + 1 : ℤ) : K) * (prev.getD (i + 1) 0 - prev.getD i 0) / den)

/-- The rows `k`, `k + 1`, … after the row `prev` (knot.py:531-536). -/
def rows (p : Nat) (U : Nat → K) (r1 r : Nat) : Nat → Nat → List K → Option (List (List K))
  | 0, _, _ => some []
  | n + 1, k, prev =>
    match row p U r1 r prev k with
    | none => none
    | some l => (rows p U r1 r n (k + 1) l).map fun ls => l :: ls

/-- `curve_deriv_cpts` (knot.py:503-540). -/
def derivCpts (p : Nat) (U P : Nat → K) (r1 r2 d : Nat) : Option (List (List K)) :=
  let first := (List.range (r2 - r1 + 1)).map fun i => P (r1 + i)
  (rows p U r1 (r2 - r1) d 1 first).map fun ls => first :: ls

/-- `find_spans` (knot.py:337-356): `func` is the search of one span. -/
def findSpans (func : K → Nat) (knots : List K) : List Nat := knots.foldl (fun spans u => spans ++ [func u]) []

end Verif.Kdc
