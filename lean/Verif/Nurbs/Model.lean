import Mathlib.Algebra.Order.Field.Basic
import Mathlib.Algebra.Order.Group.Abs
import Mathlib.Logic.Function.Basic

/-!
# Model of the spline kernel of `mmcore/geom/nurbs.pxd` and `mmcore/geom/nurbs.pyx`

* `double` is an ordered field `K`; a division by zero is `0` here and a NaN in the code, so the theorems about values
  also show that the divisors met are non-zero.
* A knot vector is a function `Nat → K` together with its length; entries past the length stand for whatever is in memory
  there (the code runs with `boundscheck=False`), so nothing may be assumed about them.
* The rows of a control point array are handled one column at a time: every loop over columns in the modelled functions
  treats the columns independently.
* `while` loops take a `fuel` argument; `none` means that the loop is still running when the fuel is used up.
-/

namespace Verif.Nurbs
variable {K : Type} [Field K] [LinearOrder K]

/-! ## Knot spans -/

/-- The search loop of `find_span_inline` (nurbs.pxd:245-257) and of `find_span` (nurbs.pyx:154-166). -/
def spanLoop (U : Nat → K) (u : K) : Nat → Nat → Nat → Option Nat
  | 0, _, _ => none
  | fuel + 1, low, high =>
    let mid := (low + high) / 2
    if u < U mid ∨ U (mid + 1) ≤ u then
      if u < U mid then spanLoop U u fuel low mid else spanLoop U u fuel mid high
    else some mid

/-- `while u < U_min: u += period` (nurbs.pxd:224-225). -/
def wrapUp (umin period : K) : Nat → K → Option K
  | 0, u => if u < umin then none else some u
  | fuel + 1, u => if u < umin then wrapUp umin period fuel (u + period) else some u

/-- `while u > U_max: u -= period` (nurbs.pxd:226-227). -/
def wrapDown (umax period : K) : Nat → K → Option K
  | 0, u => if umax < u then none else some u
  | fuel + 1, u => if umax < u then wrapDown umax period fuel (u - period) else some u

/-- `find_span_inline` (nurbs.pxd:169-257); `find_span` (nurbs.pyx:78-166) has the same body. `n` is the number of control
points minus one. -/
def findSpan (fuel n p : Nat) (u : K) (U : Nat → K) (periodic : Bool) : Option Nat :=
  let umin := U p
  let umax := U (n + 1)
  if periodic then
    let period := umax - umin
    match wrapUp umin period fuel u with
    | none => none
    | some u1 =>
      match wrapDown umax period fuel u1 with
      | none => none
      | some u2 => if u2 = umax then some n else spanLoop U u2 fuel p (n + 1)
  else if umax ≤ u then some n
  else if u < U 0 then some p
  else if u = umax then some n
  else spanLoop U u fuel p (n + 1)

/-- `find_span_linear` (geom/curves/knot.py:314-334); the loop runs at most `num_ctrlpts` times, so `fuel = num_ctrlpts`
is the whole loop. -/
def findSpanLinearLoop (U : Nat → K) (num : Nat) (u : K) : Nat → Nat → Nat
  | 0, span => span - 1
  | fuel + 1, span => if span < num ∧ U span ≤ u then findSpanLinearLoop U num u fuel (span + 1) else span - 1

def findSpanLinear (p : Nat) (U : Nat → K) (num : Nat) (u : K) : Nat :=
  findSpanLinearLoop U num u num (p + 1)

/-- `find_multiplicity` (nurbs.pxd:262-273): knots within `calc_epsilon(knot)` of the value. -/
def findMultiplicity (eps : K → K) (knot : K) (U : Nat → K) (m : Nat) : Nat :=
  (List.range m).foldl (fun mult i => if |knot - U i| ≤ eps (U i) then mult + 1 else mult) 0

/-! ## Basis functions -/

/-- `left[k]` (nurbs.pxd:50).  The arrays `left` and `right` are filled one entry per round and only entries already
filled are read, so they are functions here. -/
def leftOf (U : Nat → K) (i : Nat) (u : K) (k : Nat) : K := u - U (i + 1 - k)

/-- `right[k]` (nurbs.pxd:51). -/
def rightOf (U : Nat → K) (i : Nat) (u : K) (k : Nat) : K := U (i + k) - u

/-- One pass of the inner loop of `basis_funs` (nurbs.pxd:54-57) on the pair `(N, saved)`. -/
def bfStep (U : Nat → K) (i : Nat) (u : K) (j : Nat) (s : (Nat → K) × K) (r : Nat) : (Nat → K) × K :=
  let temp := s.1 r / (rightOf U i u (r + 1) + leftOf U i u (j - r))
  (Function.update s.1 r (s.2 + rightOf U i u (r + 1) * temp), leftOf U i u (j - r) * temp)

/-- One round of the outer loop (nurbs.pxd:49-59). -/
def bfRound (U : Nat → K) (i : Nat) (u : K) (N : Nat → K) (j : Nat) : Nat → K :=
  let s := (List.range j).foldl (bfStep U i u j) (N, 0)
  Function.update s.1 j s.2

/-- `basis_funs` (nurbs.pxd:35-61) and `basis_function` of geom/curves/knot.py:67-97; `N0` is the content of the output
buffer before the call. -/
def basisFuns (i : Nat) (u : K) (p : Nat) (U : Nat → K) (N0 : Nat → K) : Nat → K :=
  (List.range p).foldl (fun N j => bfRound U i u N (j + 1)) (Function.update N0 0 1)

/-- Inner loop of `all_basis_funs` (nurbs.pyx:209-213): the lower triangle keeps the divisors, column `j` the degree-`j`
values. -/
def abfStep (U : Nat → K) (i : Nat) (u : K) (j : Nat) (s : (Nat → Nat → K) × K) (r : Nat) : (Nat → Nat → K) × K :=
  let N1 := Function.update s.1 j (Function.update (s.1 j) r (rightOf U i u (r + 1) + leftOf U i u (j - r)))
  let temp := N1 r (j - 1) / N1 j r
  (Function.update N1 r (Function.update (N1 r) j (s.2 + rightOf U i u (r + 1) * temp)), leftOf U i u (j - r) * temp)

/-- One round of the outer loop of `all_basis_funs` (nurbs.pyx:205-214). -/
def abfRound (U : Nat → K) (i : Nat) (u : K) (N : Nat → Nat → K) (j : Nat) : Nat → Nat → K :=
  let s := (List.range j).foldl (abfStep U i u j) (N, 0)
  Function.update s.1 j (Function.update (s.1 j) j s.2)

/-- `all_basis_funs` (nurbs.pyx:183-216). -/
def allBasisFuns (i : Nat) (u : K) (p : Nat) (U : Nat → K) : Nat → Nat → K :=
  (List.range p).foldl (fun N j => abfRound U i u N (j + 1))
    (Function.update (fun _ _ => (0 : K)) 0 (Function.update (fun _ => (0 : K)) 0 1))

/-! ## Curves -/

/-- The data of a `NURBSCurve` (nurbs.pxd:435-441): `P row col` with columns 0,1,2 the coordinates and 3 the weight. -/
structure Curve (K : Type) where
  degree : Nat
  n : Nat
  P : Nat → Nat → K
  m : Nat
  U : Nat → K
  periodic : Bool

/-- The accumulation loop of `curve_point` (nurbs.pxd:94-99): `(result[col], sum_of_weights)`. -/
def cpSums (span p : Nat) (N : Nat → K) (P : Nat → Nat → K) (col : Nat) : K × K :=
  (List.range (p + 1)).foldl (fun s i =>
    let b := N i * P (span - p + i) 3
    (s.1 + b * P (span - p + i) col, s.2 + b)) (0, 0)

/-- `curve_point` (nurbs.pxd:68-107) on a zeroed result buffer (as `cevaluate` provides, nurbs.pyx:1461-1464). -/
def curvePoint (fuel n p : Nat) (U : Nat → K) (P : Nat → Nat → K) (u : K) (periodic : Bool) (col : Nat) : Option K :=
  match findSpan fuel n p u U periodic with
  | none => none
  | some span =>
    let N := basisFuns span u p U (fun _ => 0)
    let s := cpSums span p N P col
    some (s.1 / s.2)

/-- `NURBSCurve.evaluate` without its cache (nurbs.pyx:1449-1472, 1533-1537). -/
def Curve.evaluate (c : Curve K) (fuel : Nat) (t : K) (col : Nat) : Option K :=
  curvePoint fuel (c.n - 1) c.degree c.U c.P t c.periodic col

/-- `aabb` on control points (nurbs.pyx:42-71) for one column: running minimum and maximum of `x / w`. -/
def aabbCol (n : Nat) (P : Nat → Nat → K) (col : Nat) : K × K :=
  (List.range (n - 1)).foldl (fun b j =>
    let p := P (j + 1) col / P (j + 1) 3
    ((if p < b.1 then p else b.1), (if p > b.2 then p else b.2)))
    (P 0 col / P 0 3, P 0 col / P 0 3)

/-- `NURBSCurve.bbox` (nurbs.pyx:1958-1962), one column. -/
def Curve.bbox (c : Curve K) (col : Nat) : K × K := aabbCol c.n c.P col

/-! ## Knot insertion -/

/-- `knot_insertion_alpha` (nurbs.pxd:277-278). -/
def kiAlpha (u : K) (U : Nat → K) (span idx leg : Nat) : K :=
  (u - U (leg + idx)) / (U (idx + span + 1) - U (leg + idx))

/-- One pass of the loop over `i` (nurbs.pyx:537-540), one column. -/
def kiStep (U : Nat → K) (u : K) (span L : Nat) (temp : Nat → K) (i : Nat) : Nat → K :=
  let alpha := kiAlpha u U span i L
  Function.update temp i (alpha * temp (i + 1) + (1 - alpha) * temp i)

/-- One round `j` (nurbs.pyx:535-542) on `(temp, result)`. -/
def kiRound (U : Nat → K) (u : K) (p num s span : Nat) (st : (Nat → K) × (Nat → K)) (j : Nat) :
    (Nat → K) × (Nat → K) :=
  let L := span - p + j
  let temp := (List.range (p + 1 - j - s)).foldl (kiStep U u span L) st.1
  let res := Function.update st.2 L (temp 0)
  (temp, Function.update res (span + num - j - s) (temp (p - j - s)))

/-- `knot_insertion` (nurbs.pyx:511-550), one column; `init` is the content of the result buffer and `junk` that of the
temporary buffer before the call. -/
def knotInsertion (p : Nat) (U : Nat → K) (n : Nat) (P : Nat → K) (u : K) (num s span : Nat) (init junk : Nat → K) :
    Nat → K :=
  let r1 := fun i => if i < span - p + 1 then P i else init i
  let r2 := fun i => if span - s + num ≤ i ∧ i < n + num then P (i - num) else r1 i
  let temp := fun i => if i < p - s + 1 then P (span - p + i) else junk i
  let st := (List.range num).foldl (fun st j => kiRound U u p num s span st (j + 1)) (temp, r2)
  let L := span - p + num
  fun i => if L + 1 ≤ i ∧ i < span - s then st.1 (i - L) else st.2 i

/-- `knot_insertion_kv` (nurbs.pyx:554-568), entry `i` of the new vector. -/
def knotInsertionKv (U : Nat → K) (u : K) (span r : Nat) (i : Nat) : K :=
  if i < span + 1 then U i else if i < span + r + 1 then u else U (i - r)

/-- `NURBSCurve.insert_knot` (nurbs.pyx:1716-1748).  `init`, `junk`: uninitialised buffers (`np.empty`, `malloc`). -/
def Curve.insertKnot (c : Curve K) (fuel : Nat) (eps : K → K) (init junk : Nat → Nat → K) (t : K) (count : Nat) :
    Option (Curve K) :=
  match findSpan fuel (c.n - 1) c.degree t c.U false with
  | none => none
  | some span =>
    let kv := knotInsertionKv c.U t span count
    let s := findMultiplicity eps t c.U c.m
    some { c with
      n := c.n + count
      P := fun i col => knotInsertion c.degree c.U c.n (fun a => c.P a col) t count s span
        (fun a => init a col) (fun a => junk a col) i
      m := c.m + count
      U := kv }

/-- `NURBSCurve.multiply_knot` (nurbs.pyx:1968-1981). -/
def Curve.multiplyKnot (c : Curve K) (fuel : Nat) (eps : K → K) (init junk : Nat → Nat → K) (t : K) : Option (Curve K) :=
  let mult := findMultiplicity eps t c.U c.m
  if 0 < c.degree - mult then c.insertKnot fuel eps init junk t (c.degree - mult) else some c

/-- `split_curve2` (nurbs.pyx:2178-2231); `split_curve` (nurbs.pyx:2091-2172, `normalize_knots=False`) builds the same
data through `std::vector`.  Outer `none`: a loop does not end; inner `none`: `ValueError`. -/
def splitCurve (c : Curve K) (fuel : Nat) (eps : K → K) (tol : K) (init junk : Nat → Nat → K) (t : K) :
    Option (Option (Curve K × Curve K)) :=
  let a := c.U 0
  let b := c.U (c.m - 1)
  if t ≤ a ∨ b ≤ t ∨ |t - a| ≤ tol ∨ |t - b| ≤ tol then some none
  else
    match findSpan fuel c.n c.degree t c.U false with
    | none => none
    | some sp =>
      let ks := sp - c.degree + 1
      let s := findMultiplicity eps t c.U c.m
      let r := c.degree - s
      match c.insertKnot fuel eps init junk t r with
      | none => none
      | some tc =>
        match findSpan fuel tc.n c.degree t tc.U false with
        | none => none
        | some sp2 =>
          let knotSpan := sp2 + 1
          some (some (
            { degree := c.degree, n := ks + r, P := tc.P, m := knotSpan + 1,
              U := fun i => if i < knotSpan then tc.U i else t, periodic := false },
            { degree := c.degree, n := tc.n - (ks + r - 1), P := fun i => tc.P (i + (ks + r - 1)),
              m := tc.m - knotSpan + (c.degree + 1),
              U := fun i => if i < c.degree + 1 then t else tc.U (i - (c.degree + 1) + knotSpan), periodic := false }))

/-- `split_curve_multiple` (nurbs.pyx:2236-2246).  Outer `none`: a loop does not end; inner `none`: `ValueError`. -/
def splitMultiple (fuel : Nat) (eps : K → K) (tol : K) (init junk : Nat → Nat → K) :
    Curve K → List K → Option (Option (List (Curve K)))
  | c, [] => some (some [c])
  | c, t :: ts =>
    match splitCurve c fuel eps tol init junk t with
    | none => none
    | some none => some none
    | some (some (c1, c2)) =>
      match splitMultiple fuel eps tol init junk c2 ts with
      | none => none
      | some none => some none
      | some (some cs) => some (some (c1 :: cs))

/-- The value obtained for `curve._knots[-(i+1)]`.  With Cython's `wraparound=True` this is entry `m-1-i`; with
`wraparound=False` (the directive the build sets for every module, build.py:257-266) it is whatever lies `i+1` places before
the buffer. -/
def readNeg (wraparound : Bool) (before : Nat → K) (c : Curve K) (i : Nat) : K :=
  if wraparound then c.U (c.m - 1 - i) else before i

/-- `reverse_curve` (nurbs.pyx:2040-2064). -/
def reverseCurve (wraparound : Bool) (before : Nat → K) (c : Curve K) : Curve K :=
  let a := c.U 0
  let b := c.U (c.m - 1)
  { c with
    P := fun i => c.P (c.n - 1 - i)
    U := fun i => a + b - readNeg wraparound before c i }

/-- `NURBSCurve.flip` (nurbs.pyx:2033-2034): `np.max(knots) - knots + np.min(knots)`, for nondecreasing knots; the order of
the knots is not reversed. -/
def flipCurve (c : Curve K) : Curve K :=
  { c with
    P := fun i => c.P (c.n - 1 - i)
    U := fun i => c.U (c.m - 1) - c.U i + c.U 0
    periodic := false }

/-- `normalize_parameter_range` (nurbs.pyx:1101-1111). -/
def normalizeRange (start stop t1 t2 : K) : K × K :=
  let lo := if t2 < t1 then t2 else t1
  let hi := if t2 < t1 then t1 else t2
  (max start (min stop lo), max start (min stop hi))

/-- `NURBSCurve.trim` (nurbs.pyx:1983-2031).  Outer `none`: a loop does not end; inner `none`: `ValueError`.  The span search
is called with the number of knots where the index of the last control point is expected, so it reads the entry after the
last knot; slices are cut off at the end of the arrays. -/
def Curve.trim (c : Curve K) (fuel : Nat) (eps : K → K) (close : K) (per : Bool) (init junk : Nat → Nat → K) (t1 t2 : K) :
    Option (Option (Curve K)) :=
  let r := normalizeRange (c.U 0) (c.U (c.m - 1)) t1 t2
  if |r.2 - r.1| < close then some none
  else
    match c.multiplyKnot fuel eps init junk r.1 with
    | none => none
    | some ca =>
      match ca.multiplyKnot fuel eps init junk r.2 with
      | none => none
      | some cb =>
        match findSpan fuel (cb.m - 1) cb.degree r.1 cb.U per, findSpan fuel (cb.m - 1) cb.degree r.2 cb.U per with
        | some s1, some s2 =>
          let shift := cb.U s1
          some (some { cb with
            n := min (s2 + 1) cb.n - min (s1 - cb.degree) cb.n
            P := fun i => cb.P (i + (s1 - cb.degree))
            m := min (s2 + cb.degree + 2) cb.m - min s1 cb.m
            U := fun i => cb.U (i + s1) - shift })
        | _, _ => none

/-- `greville_abscissae` (nurbs.pyx:2073-2085). -/
def greville (U : Nat → K) (p : Nat) (i : Nat) : K :=
  (List.range p).foldl (fun temp k => temp + U (i + 1 + k)) 0 / (p : K)

end Verif.Nurbs
