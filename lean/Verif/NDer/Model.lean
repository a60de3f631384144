import Verif.Nurbs.Model

/-!
# Model of the derivatives of curves in `mmcore/geom/nurbs.pyx`

The arrays `left` and `right` of `ders_basis_funs` are functions, as in `Verif.Nurbs.Model`; the array `a` keeps its old
contents between rounds as in the code.  The factor `p * (p - 1) * ...` is an exact integer here and a C `int` in the code.
The number of derivatives is at most the degree (all callers pass `min(d, p)`).
-/

namespace Verif.NDer
open Verif.Nurbs
variable {K : Type} [Field K] [LinearOrder K]

/-- `a[row, col] = v`. -/
def upd (a : Nat → Nat → K) (row col : Nat) (v : K) : Nat → Nat → K :=
  Function.update a row (Function.update (a row) col v)

/-- The variables of the loop over `k` (nurbs.pyx:305-333). -/
structure DSt (K : Type) where
  a : Nat → Nat → K
  s1 : Nat
  s2 : Nat
  ders : Nat → Nat → K

/-- One pass of the loop over `j` (nurbs.pyx:324-326) on `(a, d)`; `rk + j` is `r + j - k`. -/
def midStep (ndu : Nat → Nat → K) (p r k s1 s2 : Nat) (st : (Nat → Nat → K) × K) (j : Nat) : (Nat → Nat → K) × K :=
  let a := upd st.1 s2 j ((st.1 s1 j - st.1 s1 (j - 1)) / ndu (p - k + 1) (r + j - k))
  (a, st.2 + a s2 j * ndu (r + j - k) (p - k))

/-- The branch `r >= k` (nurbs.pyx:310-315). -/
def firstPart (ndu : Nat → Nat → K) (p r k s1 s2 : Nat) (a : Nat → Nat → K) : (Nat → Nat → K) × K :=
  if k ≤ r then
    let a' := upd a s2 0 (a s1 0 / ndu (p - k + 1) (r - k))
    (a', a' s2 0 * ndu (r - k) (p - k))
  else (a, 0)

/-- `j1` (nurbs.pyx:316-319) and `j2` (nurbs.pyx:320-323). -/
def jLow (r k : Nat) : Nat := if k ≤ r + 1 then 1 else k - r

def jHigh (p r k : Nat) : Nat := if r ≤ p - k + 1 then k - 1 else p - r

/-- The branch `r <= pk` (nurbs.pyx:327-329). -/
def lastPart (ndu : Nat → Nat → K) (p r k s1 s2 : Nat) (st : (Nat → Nat → K) × K) : (Nat → Nat → K) × K :=
  if r ≤ p - k then
    let a' := upd st.1 s2 k (-(st.1 s1 (k - 1)) / ndu (p - k + 1) r)
    (a', st.2 + a' s2 k * ndu r (p - k))
  else st

/-- One round of the loop over `k` (nurbs.pyx:309-333). -/
def kStep (ndu : Nat → Nat → K) (p r : Nat) (st : DSt K) (k : Nat) : DSt K :=
  let f := firstPart ndu p r k st.s1 st.s2 st.a
  let g := (List.range' (jLow r k) (jHigh p r k + 1 - jLow r k)).foldl (midStep ndu p r k st.s1 st.s2) f
  let h := lastPart ndu p r k st.s1 st.s2 g
  ⟨h.1, st.s2, st.s1, upd st.ders k r h.2⟩

/-- One round of the loop over `r` (nurbs.pyx:305-333) on `(a, ders)`. -/
def rStep (ndu : Nat → Nat → K) (p n : Nat) (s : (Nat → Nat → K) × (Nat → Nat → K)) (r : Nat) :
    (Nat → Nat → K) × (Nat → Nat → K) :=
  let st := (List.range' 1 n).foldl (kStep ndu p r) ⟨upd s.1 0 0 1, 0, 1, s.2⟩
  (st.a, st.ders)

/-- One round of the last loop (nurbs.pyx:336-339) on `(ders, r)`. -/
def scaleStep (p : Nat) (s : (Nat → Nat → K) × Nat) (k : Nat) : (Nat → Nat → K) × Nat :=
  (Function.update s.1 k fun j => if j < p + 1 then s.1 k j * (s.2 : K) else s.1 k j, s.2 * (p - k))

/-- `ders_basis_funs` (nurbs.pyx:222-341); the first loop (283-298) is that of `all_basis_funs`.  `ders0` is the content of
the output array. -/
def dersBasisFuns (i : Nat) (u : K) (p n : Nat) (U : Nat → K) (ders0 : Nat → Nat → K) : Nat → Nat → K :=
  let ndu := allBasisFuns i u p U
  let ders1 := Function.update ders0 0 fun j => if j < p + 1 then ndu j p else ders0 0 j
  let s := (List.range (p + 1)).foldl (rStep ndu p n) (fun _ _ => 0, ders1)
  ((List.range' 1 n).foldl (scaleStep p) (s.2, p)).1

/-- `curve_derivs_alg1` (nurbs.pyx:347-376), one column, on a zeroed output. -/
def curveDerivsAlg1 (fuel n p : Nat) (U : Nat → K) (P : Nat → K) (u : K) (d : Nat) (periodic : Bool) (k : Nat) :
    Option K :=
  match findSpan fuel n p u U periodic with
  | none => none
  | some span =>
    let du := min d p
    let nders := dersBasisFuns span u p du U fun _ _ => 0
    if k ≤ du then some ((List.range (p + 1)).foldl (fun s j => s + nders k j * P (span - p + j)) 0) else some 0

/-- One round of the loop over `k` of `curve_deriv_cpts` (nurbs.pyx:410-415), one column. -/
def cptsRound (p : Nat) (U : Nat → K) (r1 r : Nat) (PK : Nat → Nat → K) (k : Nat) : Nat → Nat → K :=
  Function.update PK k fun i =>
    if i < r + 1 - k then
      ((p + 1 - k : Nat) : K) * (PK (k - 1) (i + 1) - PK (k - 1) i) / (U (r1 + i + (p + 1)) - U (r1 + i + k))
    else PK k i

/-- `curve_deriv_cpts` (nurbs.pyx:382-415), one column. -/
def curveDerivCpts (p : Nat) (U : Nat → K) (P : Nat → K) (d r1 r2 : Nat) (PK0 : Nat → Nat → K) : Nat → Nat → K :=
  (List.range' 1 d).foldl (cptsRound p U r1 (r2 - r1))
    (Function.update PK0 0 fun i => if i < r2 - r1 + 1 then P (r1 + i) else PK0 0 i)

/-- `curve_derivs_alg2` (nurbs.pyx:423-459), one column, on a zeroed output. -/
def curveDerivsAlg2 (fuel n p : Nat) (U : Nat → K) (P : Nat → K) (u : K) (d : Nat) (periodic : Bool) (k : Nat) :
    Option K :=
  match findSpan fuel n p u U periodic with
  | none => none
  | some span =>
    let du := min p d
    let bfuns := allBasisFuns span u p U
    let PK := curveDerivCpts p U P d (span - p) span fun _ _ => 0
    if k ≤ du then some ((List.range (p - k + 1)).foldl (fun s j => s + bfuns j (p - k) * PK k j) 0) else some 0

/-- `NURBSCurve.derivatives1`, `derivatives2` (nurbs.pyx:1573-1605, 1644-1675): row `k` of the result; the weights are cut
off. -/
def derivatives1 (c : Curve K) (fuel : Nat) (t : K) (d k col : Nat) : Option K :=
  curveDerivsAlg1 fuel (c.n - 1) c.degree c.U (fun l => c.P l col) t d c.periodic k

def derivatives2 (c : Curve K) (fuel : Nat) (t : K) (d k col : Nat) : Option K :=
  curveDerivsAlg2 fuel (c.n - 1) c.degree c.U (fun l => c.P l col) t d c.periodic k

/-- `derivative` (nurbs.pyx:1563-1566, 1698-1703) and `second_derivative` (1709-1714). -/
def derivative (c : Curve K) (fuel : Nat) (t : K) (col : Nat) : Option K := derivatives2 c fuel t 1 1 col

def secondDerivative (c : Curve K) (fuel : Nat) (t : K) (col : Nat) : Option K := derivatives2 c fuel t 2 2 col

/-- Assigning a row of `ns` entries to a row of `nd` entries: Cython copies equal extents, repeats a source of one entry, and
raises `ValueError` otherwise. -/
def assignRow (nd ns : Nat) (src : Nat → K) : Except Unit (Nat → K) :=
  if ns = nd then .ok src else if ns = 1 then .ok fun _ => src 0 else .error ()

/-- The first loop of `curve_deriv_cpts` (nurbs.pyx:406-408) with the extents of the rows: `nd` columns of `PK` and `ns`
columns of `P`. -/
def cptsFirst (nd ns : Nat) (P : Nat → Nat → K) (r1 r : Nat) : Except Unit (Nat → Nat → K) :=
  (List.range (r + 1)).foldlM (fun PK i => (assignRow nd ns (P (r1 + i))).map fun row => Function.update PK i row)
    fun _ _ => 0

/-- `NURBSCurve.derivative_control_points` (nurbs.pyx:1680-1693) for control points of `cols` columns: `PK` gets one column
fewer, but all columns of the control points are passed.  Entry `(k, i, col)`. -/
def derivativeControlPoints (c : Curve K) (cols fuel : Nat) (t : K) (d : Nat) : Except Unit (Nat → Nat → Nat → K) :=
  match findSpan fuel (c.n - 1) c.degree t c.U c.periodic with
  | none => .error ()
  | some span =>
    (cptsFirst (cols - 1) cols c.P (span - c.degree) c.degree).map fun PK0 k i col =>
      (List.range' 1 d).foldl (cptsRound c.degree c.U (span - c.degree) c.degree)
        (fun k i => if k = 0 then PK0 i col else 0) k i

end Verif.NDer
