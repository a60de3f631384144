import Verif.Nurbs.SurfModel
import Verif.Nurbs.PeriodicModel
import Verif.Bez.Model

/-!
# Model of `mmcore/geom/curves/knot.py` and `mmcore/construction/ruled.py`

Conventions of `Verif.Nurbs.Model`: numbers are elements of an ordered field, a knot vector is a function with a length, the
four columns of the control points are handled one by one, a loop that may run forever takes fuel.

Not modelled here: the copies of the algorithms of nurbs.pyx that this file also contains (`knot_insertion`,
`knot_refinement1`, `nurbs_split`, `curve_deriv_cpts`, the helpers of knot removal), which are treated in `Verif.Nurbs`.
-/

namespace Verif.Knot
open Verif.Nurbs Finset

variable {K : Type} [Field K] [LinearOrder K]

/-! ## Knot vectors -/

/-- `np.linspace(0.0, stop, num)`. -/
def linspace (stop : K) (num : Nat) : List K :=
  (List.range num).map fun i : Nat => if num ≤ 1 then 0 else (i : K) * (stop / ((num - 1 : Nat) : K))

/-- `generate_knot` (knot.py:17-65); `none` is a `ValueError`, raised by the function for a zero argument and by `linspace`
for a negative number of samples. -/
def generateKnot (degree numCtrlpts : Nat) (clamped : Bool) : Option (List K) :=
  if degree = 0 ∨ numCtrlpts = 0 then none
  else
    let numRepeat := if clamped then degree else 0
    let numSegments : Int := if clamped then (numCtrlpts : Int) - (degree + 1) else degree + numCtrlpts - 1
    let maxval : K := (numSegments : K) + 1
    if numSegments + 2 < 0 then none
    else some (List.replicate numRepeat 0 ++ linspace maxval (numSegments + 2).toNat ++ List.replicate numRepeat maxval)

/-- `normalize_knot` (knot.py:243-260) on a non-empty vector; `none` is the `ZeroDivisionError`. -/
def normalizeKnot (U : Nat → K) (m : Nat) : Option (Nat → K) :=
  let den := U (m - 1) - U 0
  if den = 0 then none else some fun i => (U i - U 0) / den

/-- `find_knot_span` (knot.py:953-988): `n` is the number of control points minus one. -/
def findKnotSpan (fuel n p : Nat) (u : K) (U : Nat → K) : Option Nat :=
  if u = U (n + 1) then some n else spanLoop U u fuel p (n + 1)

/-- The search loop of `find_span_binsearch` (knot.py:304-309). -/
def binLoop (U : Nat → K) (u : K) : Nat → Nat → Nat → Nat → Option Nat
  | 0, _, _, _ => none
  | fuel + 1, low, high, mid =>
    if u < U mid ∨ U (mid + 1) ≤ u then
      if u < U mid then binLoop U u fuel low mid ((low + mid) / 2)
      else binLoop U u fuel mid high ((mid + high) / 2)
    else some mid

/-- `find_span_binsearch` (knot.py:263-311).  The first middle is `round((low + high) / 2 + tol)`: with `0 < tol < 1/2` a half
is rounded up. -/
def findSpanBinsearch (fuel degree : Nat) (U : Nat → K) (num : Nat) (u tol : K) : Option Nat :=
  if |U (num - 1 + 1) - u| ≤ tol then some (num - 1)
  else binLoop U u fuel degree num ((degree + num + 1) / 2)

/-- `merge_knot_vectors` (knot.py:1175-1189, ruled.py:7-21); `close a b` is `np.isclose(a, b)`. -/
def mergeKnots (close : K → K → Bool) (k1 k2 : List K) : List K :=
  let all := (k1 ++ k2).foldr insertSet []
  all.flatMap fun k => List.replicate (max (k1.countP (close · k)) (k2.countP (close · k))) k

/-! ## Interpolation -/

/-- The mask of `_remove_adjacent_duplicates` (knot.py:188-195) after the first point: a point is kept if it is further than
`tol` from the one before it in the input. -/
def keepAfter {α : Type} (dist : α → α → K) (tol : K) : α → List α → List α
  | _, [] => []
  | prev, x :: xs => if tol < dist prev x then x :: keepAfter dist tol x xs else keepAfter dist tol x xs

/-- `_remove_adjacent_duplicates` (knot.py:171-195). -/
def removeAdjacent {α : Type} (dist : α → α → K) (tol : K) : List α → List α
  | [] => []
  | x :: xs => x :: keepAfter dist tol x xs

/-- `compute_params_curve` (knot.py:139-168) for `n` points with the distances (or their square roots) `chord i` between
point `i` and point `i + 1`; `none` is the division by zero (an exception, or NaN with numpy scalars). -/
def computeParams (n : Nat) (chord : Nat → K) : Option (Nat → K) :=
  let d := ∑ k ∈ range (n - 1), chord k
  if d = 0 then none else some fun i => (∑ k ∈ range i, chord k) / d

/-- `compute_knot_vector` (knot.py:100-125), entries. -/
def computeKnots (degree n : Nat) (params : Nat → K) : Nat → K := fun k =>
  if k < degree + 1 then 0
  else if k < degree + 1 + (n - degree - 1) then
    1 / (degree : K) * ∑ j ∈ range degree, params (k - (degree + 1) + 1 + j)
  else 1

/-- `compute_knot_vector` (knot.py:100-125), length. -/
def computeKnotsLen (degree n : Nat) : Nat := degree + 1 + (n - degree - 1) + (degree + 1)

/-- Row `i` of `build_coefficient_matrix` (knot.py:127-138) for `n` points: entry `l`. -/
def coefRow (degree n : Nat) (U : Nat → K) (u : K) (l : Nat) : K :=
  let span := findSpanLinear degree U n u
  if span - degree ≤ l ∧ l < span + 1 then basisFuns span u degree U (fun _ => 1) (l - (span - degree)) else 0

/-- The length of a row after the assignment to the slice `[span - degree : span + 1]` (knot.py:134): the slice is replaced
by `degree + 1` values, whatever its length. -/
def coefRowLen (degree n : Nat) (U : Nat → K) (u : K) : Nat :=
  let span := findSpanLinear degree U n u
  min (span - degree) n + (degree + 1) + (n - min (span + 1) n)

/-- `interpolate_curve` (knot.py:198-236) after the removal of duplicates, `n` points with columns `pt i col` and distances
`chord`; `solve n A b` is `lu_solve(lu_factor(A), b)` for a square matrix, `none` an exception.  The result is given as curve
data with weights 1, as `interpolate_nurbs_curve` (bspline.py:355-366) does. -/
def interpolateCurve (solve : Nat → (Nat → Nat → K) → (Nat → K) → Option (Nat → K)) (n degree : Nat)
    (pt : Nat → Nat → K) (chord : Nat → K) : Option (Curve K × (Nat → K)) :=
  match computeParams n chord with
  | none => none
  | some uk =>
    let U := computeKnots degree n uk
    if (List.range n).any (fun i => coefRowLen degree n U (uk i) ≠ n) then none
    else
      let A := fun i l => coefRow degree n U (uk i) l
      match solve n A (fun i => pt i 0), solve n A (fun i => pt i 1), solve n A (fun i => pt i 2) with
      | some x, some y, some z =>
        some ({ degree := degree, n := n, P := fun l col => if col = 0 then x l else if col = 1 then y l else
          if col = 2 then z l else 1, m := computeKnotsLen degree n, U := U, periodic := false }, uk)
      | _, _, _ => none

/-! ## Composition and degree elevation -/

/-- Concatenation of two arrays given as functions, the first of length `len`. -/
def appendFn {α : Type} (len : Nat) (f g : Nat → α) : Nat → α := fun k => if k < len then f k else g (k - len)

/-- The lists built by `_compose_curves_no_knots_updates`: number of knots, knots, number of points, points. -/
structure Acc (K : Type) where
  m : Nat
  U : Nat → K
  n : Nat
  P : Nat → Nat → K

/-- One pass of the loop of `_compose_curves_no_knots_updates` (knot.py:802-826). -/
def composeStep (a : Acc K) (arg : Curve K) : Acc K :=
  if a.m = 0 then
    { m := arg.m - (arg.degree + 1), U := arg.U, n := a.n + arg.n, P := appendFn a.n a.P arg.P }
  else
    { m := a.m + (arg.m - (arg.degree + 1) - 1), U := appendFn a.m a.U (fun k => arg.U (k + 1)),
      n := a.n + (arg.n - 1), P := appendFn a.n a.P (fun i => arg.P (i + 1)) }

/-- `_compose_curves_no_knots_updates` (knot.py:786-835) and the curve of the given degree built from its result
(knot.py:890-900); `none` is the `IndexError` for no curves.  `interval()[1]` is the last knot. -/
def composeCurves (degree : Nat) (curves : List (Curve K)) : Option (Curve K) :=
  match curves.getLast? with
  | none => none
  | some last =>
    let a := curves.foldl composeStep ({ m := 0, U := fun _ => 0, n := 0, P := fun _ _ => 0 } : Acc K)
    some { degree := degree, n := a.n, P := a.P, m := a.m + (last.degree + 1),
           U := appendFn a.m a.U (fun _ => last.U (last.m - 1)), periodic := false }

/-- The normalised copies with the offset of `compose_curves` (knot.py:749-776) added to their knots. -/
def shiftCurves (off : K) : List (Curve K) → List (Curve K)
  | [] => []
  | c :: cs =>
    let d := c.normalizeKnots
    { d with U := fun k => off + d.U k } :: shiftCurves (off + (d.U (d.m - 1) - d.U 0)) cs

/-- `compose_curves` (knot.py:736-785); the first knots are taken without the offset, which is 0 there. -/
def composeNormalized (degree : Nat) (curves : List (Curve K)) : Option (Curve K) :=
  composeCurves degree (shiftCurves 0 curves)

/-- The parameters of `decompose_curve` (nurbs.pyx:2250-2254): `np.unique(knots)[1:-1]`. -/
def uniqueInner (U : Nat → K) (m : Nat) : List K :=
  (((List.range m).map U).foldr insertSet []).tail.dropLast

/-- The elevated piece (knot.py:867-875); `g` is the memory behind the table of binomial coefficients.  `none`: the
`ValueError` of `degree_elevation_bez`, or for `num = 0` that of the assignment to an empty slice (knot.py:873). -/
def elevatePiece (g : Nat → K) (num : Nat) (d : Curve K) : Option (Curve K) :=
  if d.n ≠ d.degree + 1 ∨ num = 0 then none
  else some
    { degree := d.degree + num, n := d.degree + 1 + num,
      P := fun i col => match Bez.elevate g d.n d.degree num (fun a => d.P a col) with
        | some q => q.1 i
        | none => 0
      m := d.m + num * 2,
      U := fun k => if k < num then d.U 0 else if k < num + d.m then d.U (k - num) else d.U (d.m - 1),
      periodic := false }

/-- All pieces, or `none` if one raises. -/
def elevateAll (g : Nat → K) (num : Nat) : List (Curve K) → Option (List (Curve K))
  | [] => some []
  | d :: ds =>
    match elevatePiece g num d, elevateAll g num ds with
    | some e, some es => some (e :: es)
    | _, _ => none

/-- `degree_elevate_curve` (knot.py:837-900).  Outer `none`: a loop does not end; inner `none`: an exception. -/
def degreeElevate (g : Nat → K) (fuel : Nat) (eps : K → K) (tol : K) (init junk : Nat → Nat → K) (c : Curve K) (num : Nat) :
    Option (Option (Curve K)) :=
  match splitMultiple fuel eps tol init junk c (uniqueInner c.U c.m) with
  | none => none
  | some none => some none
  | some (some ds) =>
    match elevateAll g num ds with
    | none => some none
    | some es => some (composeCurves (c.degree + num) es)

/-! ## Refinement and ruled surfaces -/

/-- The loop of `refine_curve` (knot.py:1098-1111) with the knots `old` not yet passed.  Outer `none`: a loop does not end;
inner `none`: the `IndexError` of `old[0]`. -/
def refineLoop (fuel : Nat) (eps : K → K) (init junk : Nat → Nat → K) : Curve K → List K → List K → Option (Option (Curve K))
  | c, _, [] => some (some c)
  | _, [], _ :: _ => some none
  | c, o :: old, k :: ks =>
    if k < o then
      match c.insertKnot fuel eps init junk k 1 with
      | none => none
      | some c' => refineLoop fuel eps init junk c' (o :: old) ks
    else refineLoop fuel eps init junk c old ks

/-- The knots as a list. -/
def knotList (c : Curve K) : List K := (List.range c.m).map c.U

/-- `refine_curve` (knot.py:1083-1111). -/
def refineCurve (fuel : Nat) (eps : K → K) (init junk : Nat → Nat → K) (c : Curve K) (newKnots : List K) :
    Option (Option (Curve K)) :=
  refineLoop fuel eps init junk c (knotList c) newKnots

/-- `make_curves_compatible` (ruled.py:23-56). -/
def makeCompatible (g : Nat → K) (close : K → K → Bool) (fuel : Nat) (eps : K → K) (tol : K) (init junk : Nat → Nat → K)
    (c1 c2 : Curve K) : Option (Option (Curve K × Curve K)) :=
  let e1 := if c1.degree < c2.degree then degreeElevate g fuel eps tol init junk c1 (c2.degree - c1.degree) else some (some c1)
  let e2 := if c2.degree < c1.degree then degreeElevate g fuel eps tol init junk c2 (c1.degree - c2.degree) else some (some c2)
  match e1, e2 with
  | some (some d1), some (some d2) =>
    let unified := mergeKnots close (knotList d1) (knotList d2)
    match refineCurve fuel eps init junk d1 unified, refineCurve fuel eps init junk d2 unified with
    | some (some r1), some (some r2) => some (some (r1, r2))
    | none, _ => none
    | _, none => none
    | _, _ => some none
  | none, _ => none
  | _, none => none
  | _, _ => some none

/-- `ruled` (ruled.py:59-98): the stored rows of both curves become the two columns of control points of the surface. -/
def ruled (g : Nat → K) (close : K → K → Bool) (fuel : Nat) (eps : K → K) (tol : K) (init junk : Nat → Nat → K)
    (c1 c2 : Curve K) : Option (Option (Surf K)) :=
  match makeCompatible g close fuel eps tol init junk c1.normalizeKnots c2.normalizeKnots with
  | none => none
  | some none => some none
  | some (some (r1, r2)) =>
    if r2.n < r1.n then some none  -- `c2._control_points[i]` out of range
    else some (some
      { pu := r1.degree, pv := 1, nu := r1.n, nv := 2, mu := r1.m, mv := 4, U := r1.U,
        V := fun i => if i < 2 then 0 else 1,
        P := fun i j => if j = 0 then r1.P i else r2.P i })

/-! ## Joining -/

/-- Which ends of the curves meet (knot.py:1114-1124): the last pair `(i, j)` with `i`, `j` = 0 for the start and 1 for the
end that is closer than `tol`; `near i j` is that comparison. -/
def joinIx (near : Nat → Nat → Bool) : Option (Nat × Nat) :=
  [(0, 0), (0, 1), (1, 0), (1, 1)].foldl (fun r ij => if near ij.1 ij.2 then some ij else r) none

/-- The data of `join_two_curves` (knot.py:1147-1169) for two curves of the same degree already turned round: the knots of
the second, moved to the end of those of the first, are appended; only the coordinates of the points are taken. -/
def joinCurves (c1 c2 : Curve K) : Curve K :=
  { degree := c1.degree, n := c1.n - 1 + c2.n, m := c1.m + c2.m, periodic := false,
    P := fun i col => if col = 3 then 1 else if i < c1.n - 1 then c1.P i col else c2.P (i - (c1.n - 1)) col,
    U := appendFn c1.m c1.U (fun k => c1.U (c1.m - 1) + c2.U k - c2.U 0) }

end Verif.Knot
