import Verif.NDer.Model
import Mathlib.Algebra.BigOperators.Group.List.Basic

/-! # The pure Python spline routines: `mmcore/geom/curves/bspline_utils.py`, `curve_utils.py`, `bspline_first.py`

`curve_utils.py` is a copy of `bspline_utils.py` (its line numbers are five less up to line 213 and from 221 on).  Numbers are
elements of an ordered field.  `Err.nan` stands for a result that is not finite (division by zero in numpy), `Err.raise` for an
exception.  Loops have fuel; `none` of `Option` is an endless loop.  Not modelled: the overflow of `np.prod` on 64-bit integers in
`calcKoverI` from `21!` on, and `bscache`. -/

namespace Verif.Bsu

open Verif.Nurbs Verif.NDer

variable {K : Type} [Field K] [LinearOrder K]

/-- Not a finite value, or an exception. -/
inductive Err where
  | nan
  | raise
deriving DecidableEq

/-- `find_span` (bspline_utils.py:18-41), `len` is the number of knots. -/
def findSpan (fuel len p : Nat) (u : K) (U : Nat → K) : Option Nat :=
  let n := len - p - 1
  if U n ≤ u then some (n - 1)
  else if u ≤ U p then some p
  else spanLoop U u fuel p n

/-- `left[k]` in round `j` (bspline_utils.py:46, 50): zero as long as it is not filled. -/
def cbLeft (U : Nat → K) (i : Nat) (u : K) (j k : Nat) : K := if 1 ≤ k ∧ k ≤ j then leftOf U i u k else 0

/-- One pass of the inner loop of `calc_basis_functions` (bspline_utils.py:53-58) on `(N, saved)`. -/
def cbStep (U : Nat → K) (i : Nat) (u : K) (p j : Nat) (s : Option ((Nat → K) × K)) (r : Nat) : Option ((Nat → K) × K) :=
  match s with
  | none => none
  | some s =>
    let rv := rightOf U i u (r + 1)
    let lv := cbLeft U i u j (p - r)
    if rv + lv = 0 then none
    else
      let temp := s.1 r / (rv + lv)
      some (Function.update s.1 r (s.2 + rv * temp), lv * temp)

/-- One round of the outer loop (bspline_utils.py:49-59). -/
def cbRound (U : Nat → K) (i : Nat) (u : K) (p : Nat) (N : Option (Nat → K)) (j : Nat) : Option (Nat → K) :=
  match N with
  | none => none
  | some N =>
    match (List.range j).foldl (cbStep U i u p j) (some (N, 0)) with
    | none => none
    | some s => some (Function.update s.1 j s.2)

/-- `calc_basis_functions` (bspline_utils.py:44-60); `none` if a division by zero makes an entry inf or NaN. -/
def calcBasis (i : Nat) (u : K) (p : Nat) (U : Nat → K) : Option (Nat → K) :=
  (List.range p).foldl (fun N j => cbRound U i u p N (j + 1)) (some (Function.update (fun _ => 0) 0 1))

/-- `calc_b_spline_point` (bspline_utils.py:63-84): the four numbers `C`. -/
def calcPoint (fuel len p : Nat) (U : Nat → K) (P : Nat → Nat → K) (u : K) : Option (Option (Nat → K)) :=
  match findSpan fuel len p u U with
  | none => none
  | some span =>
    match calcBasis span u p U with
    | none => some none
    | some N =>
      some (some fun col =>
        (List.range (p + 1)).foldl (fun s j =>
          s + (if col = 3 then P (span - p + j) 3 * N j else P (span - p + j) col * (P (span - p + j) 3 * N j))) 0)

/-! ## Derivatives -/

/-- One round of the loop over `k` of `calc_basis_function_derivatives` (bspline_utils.py:143-159). -/
def kStepPy (ndu : Nat → Nat → K) (p r : Nat) (st : DSt K) (k : Nat) : DSt K :=
  let f := firstPart ndu p r k st.s1 st.s2 st.a
  let j1 := max 1 (k - r)
  let j2 := min (k - 1) (p - r)
  let g := (List.range' j1 (j2 + 1 - j1)).foldl (midStep ndu p r k st.s1 st.s2) f
  let h := lastPart ndu p r k st.s1 st.s2 g
  ⟨h.1, st.s2, st.s1, upd st.ders k r h.2⟩

/-- One round of the loop over `r2` (bspline_utils.py:138-159); `a` is a new zero array. -/
def rStepPy (ndu : Nat → Nat → K) (p n : Nat) (ders : Nat → Nat → K) (r : Nat) : Nat → Nat → K :=
  ((List.range' 1 n).foldl (kStepPy ndu p r) ⟨upd (fun _ _ => 0) 0 0 1, 0, 1, ders⟩).ders

/-- `calc_basis_function_derivatives` (bspline_utils.py:117-165); the first loop (124-135) is that of `all_basis_funs`. -/
def dersPy (i : Nat) (u : K) (p n : Nat) (U : Nat → K) : Nat → Nat → K :=
  let ndu := allBasisFuns i u p U
  let ders1 : Nat → Nat → K := Function.update (fun _ _ => 0) 0 fun j => if j < p + 1 then ndu j p else 0
  let d := (List.range (p + 1)).foldl (rStepPy ndu p n) ders1
  ((List.range' 1 n).foldl (scaleStep p) (d, p)).1

/-- A numpy array of four numbers; `int` if its type is that of integers. -/
structure Arr (K : Type) where
  int : Bool
  val : Nat → K

/-- The homogeneous control points `Pw` (bspline_utils.py:173-179). -/
def homog (P : Nat → Nat → K) (l col : Nat) : K := if col < 3 then P l col * P l 3 else P l col

/-- `calc_bspline_derivatives` (bspline_utils.py:168-190). -/
def bsplineDers (fuel len p : Nat) (U : Nat → K) (P : Nat → Nat → K) (u : K) (nd : Nat) : Option (List (Arr K)) :=
  match findSpan fuel len p u U with
  | none => none
  | some span =>
    let du := min nd p
    let nders := dersPy span u p du U
    some ((List.range (du + 1)).map (fun k => ⟨false, fun col =>
        (List.range (p + 1)).foldl (fun s j => s + homog P (span - p + j) col * nders k j) 0⟩)
      ++ List.replicate (nd + 2 - (du + 1)) ⟨true, fun _ => 0⟩)

/-- `np.prod(range(2, n + 1))`. -/
def prodTo (n : Nat) : Nat := (List.range' 2 (n - 1)).prod

/-- `calcKoverI` (bspline_utils.py:87-90). -/
def kOverI (k i : Nat) : K := (prodTo k : K) / ((prodTo i : K) * (prodTo (k - i) : K))

/-- One round of the loop over `k` of `calc_rational_curve_derivatives` (bspline_utils.py:230-234).  `v` has the type of the row; in
place subtraction of floats from integers raises. -/
def ratStep (rows : List (Arr K)) (CK : Except Err (List (Nat → K))) (row : Arr K) : Except Err (List (Nat → K)) :=
  match CK with
  | .error e => .error e
  | .ok CK =>
    let k := CK.length
    let w (i : Nat) : K := ((rows[i]?).map fun r => r.val 3).getD 0
    if row.int ∧ 1 ≤ k then .error .raise
    else if w 0 = 0 then .error .nan
    else .ok (CK ++ [fun col =>
      ((List.range' 1 k).foldl (fun v i => v - ((CK[k - i]?).getD fun _ => 0) col * kOverI k i * w i) (row.val col)) / w 0])

/-- `calc_rational_curve_derivatives` (bspline_utils.py:221-235). -/
def ratDers (rows : List (Arr K)) : Except Err (List (Nat → K)) := rows.foldl (ratStep rows) (.ok [])

/-- `calcNURBSDerivatives` (bspline_utils.py:93-95). -/
def nurbsDers (fuel len p : Nat) (U : Nat → K) (P : Nat → Nat → K) (u : K) (nd : Nat) : Option (Except Err (List (Nat → K))) :=
  (bsplineDers fuel len p U P u nd).map ratDers

/-! ## Surfaces -/

/-- `a += b` on numpy arrays: floats cannot be stored in an array of integers. -/
def iadd (a b : Arr K) : Except Err (Arr K) :=
  if a.int ∧ b.int = false then .error .raise else .ok ⟨a.int, fun c => a.val c + b.val c⟩

/-- `a += b` for the items of a loop. -/
def iaddAll (a : Except Err (Arr K)) (bs : List (Arr K)) : Except Err (Arr K) :=
  bs.foldl (fun a b => match a with | .error e => .error e | .ok a => iadd a b) a

/-- The result of `mapM` on lists: the first error, or all results. -/
def mapE {α β : Type} (f : α → Except Err β) : List α → Except Err (List β)
  | [] => .ok []
  | x :: l =>
    match f x with
    | .error e => .error e
    | .ok y => match mapE f l with
      | .error e => .error e
      | .ok ys => .ok (y :: ys)

/-- `calcSurfacePoint` (bspline_utils.py:98-114) after the basis functions `Nu`, `Nv` (arrays of floats) are known; `P` may be
integers or floats.  The products with `Nu` are floats, `temp[l]` and `Sw` are arrays of integers. -/
def surfacePoint1 (us vs p q : Nat) (Nu Nv : Nat → K) (P : Nat → Nat → Nat → K) : Except Err (Nat → K) :=
  match mapE (fun l => iaddAll (.ok ⟨true, fun _ => 0⟩) ((List.range (p + 1)).map fun k =>
      ⟨false, fun c => homog (P (us - p + k)) (vs - q + l) c * Nu k⟩)) (List.range (q + 1)) with
  | .error e => .error e
  | .ok temp =>
    match iaddAll (.ok ⟨true, fun _ => 0⟩) (((List.range (q + 1)).zip temp).map fun x => ⟨false, fun c => x.2.val c * Nv x.1⟩) with
    | .error e => .error e
    | .ok sw => if sw.val 3 = 0 then .error .nan else .ok fun c => sw.val c / sw.val 3

/-- `calc_surface_point` (bspline_utils.py:197-218) after the basis functions are known: `point` starts as a list of floats and
becomes an array of floats; `Sw` is an array of integers. -/
def surfacePoint2 (us vs p q : Nat) (Nu Nv : Nat → K) (P : Nat → Nat → Nat → K) : Except Err (Nat → K) :=
  match mapE (fun l => iaddAll (.ok ⟨false, fun _ => 0⟩) ((List.range (p + 1)).map fun k =>
      ⟨false, fun c => homog (P (us - p + k)) (vs - q + l) c * Nu k⟩)) (List.range (q + 1)) with
  | .error e => .error e
  | .ok temp =>
    match iaddAll (.ok ⟨true, fun _ => 0⟩) (((List.range (q + 1)).zip temp).map fun x => ⟨false, fun c => x.2.val c * Nv x.1⟩) with
    | .error e => .error e
    | .ok sw => if sw.val 3 = 0 then .error .nan else .ok fun c => sw.val c / sw.val 3

/-! ## `bspline_first.py` -/

/-- The loop of `find_span` (bspline_first.py:25-35): raises in the round after `l + 1` rounds. -/
def spanLoopFirst (U : Nat → K) (u : K) : Nat → Nat → Nat → Except Err Nat
  | 0, low, high =>
    let mid := (low + high) / 2
    if u < U mid ∨ U (mid + 1) ≤ u then .error .raise else .ok mid
  | fuel + 1, low, high =>
    let mid := (low + high) / 2
    if u < U mid ∨ U (mid + 1) ≤ u then
      if u < U mid then spanLoopFirst U u fuel low mid else spanLoopFirst U u fuel mid high
    else .ok mid

/-- `find_span` (bspline_first.py:7-36); `n` is the number of control points minus one, `len` the number of knots. -/
def findSpanFirst (n p len : Nat) (u : K) (U : Nat → K) : Except Err Nat :=
  if u = U (n + 1) then .ok n
  else if U (len - 1) < u then .ok n
  else if u < U 0 then .ok p
  else spanLoopFirst U u (len + 1) p (n + 1)

/-- `NURBSCurve.evaluate` (bspline_first.py:65-88, 288-291, 330-337): the control points have weight 1 in the last column (296). -/
def evaluateFirst (n p len : Nat) (U : Nat → K) (P : Nat → Nat → K) (t : K) : Except Err (Nat → K) :=
  match findSpanFirst n p len t U with
  | .error e => .error e
  | .ok span =>
    let N := basisFuns span t p U (fun _ => 0)
    let C (f : Nat → K) : K := (List.range (p + 1)).foldl (fun s i => s + N i * f (span - p + i)) 0
    let w := C fun _ => 1
    if w = 0 then .error .nan else .ok fun col => C (fun l => P l col) / w

/-- `generate_knots` (bspline_first.py:320-328): the knots for `n` control points. -/
def knotsFirst (n p i : Nat) : K := ((min (i - p) (n - p) : Nat) : K)

end Verif.Bsu
