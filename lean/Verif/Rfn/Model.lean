import Verif.Nurbs.SurfModel

/-! # Model of knot refinement and knot removal

`knot_refinement` and `knot_removal` of `mmcore/geom/nurbs.pyx`, and their Python relatives `knot_refinement1`,
`knot_refinement2`, `knot_insertion` and `nurbs_split` of `mmcore/geom/curves/knot.py` (the last one is `NURBSpline.split`,
`mmcore/geom/curves/bspline.py:258-259`).

Floats are elements of a linearly ordered field.  Rows of control points are treated one column at a time where the code does the
same thing to every column.  The tolerances `1e-8` and `10e-8` are the parameter `tol`; `eps` is `calc_epsilon`.  Reading outside
of an array has no value (`none`), unless the value read is a parameter, and then it is named so. -/

namespace Verif.Rfn
open Verif.Nurbs

variable {K : Type} [Field K] [LinearOrder K]

/-! ## The loop shared by `knot_refinement` and `knot_refinement1` -/

/-- The variables of the loop: `i`, `k`, one column of `new_ctrlpts`, and `new_kv`. -/
structure St (K : Type) where
  i : Nat
  k : Nat
  Q : Nat → K
  V : Nat → K

/-- `while X[j] <= knotvector[i] and i > a` (nurbs.pyx:744-748, knot.py:641-645).  `i` decreases, so the recursion is on `i`. -/
def shift (p a : Nat) (U P : Nat → K) (x : K) : Nat → Nat → (Nat → K) → (Nat → K) → St K
  | 0, k, Q, V => ⟨0, k, Q, V⟩
  | i + 1, k, Q, V =>
    if x ≤ U (i + 1) ∧ a < i + 1 then
      shift p a U P x i (k - 1) (Function.update Q (k - p - 1) (P (i + 1 - p - 1))) (Function.update V k (U (i + 1)))
    else ⟨i + 1, k, Q, V⟩

/-- One turn of `for l in range(1, degree + 1)` (nurbs.pyx:750-759, knot.py:647-661). -/
def blend (tol : K) (p i k : Nat) (U V : Nat → K) (x : K) (Q : Nat → K) (l : Nat) : Nat → K :=
  let idx := k - p + l
  let alpha := V (k + l) - x
  if |alpha| < tol then Function.update Q (idx - 1) (Q idx)
  else
    let alpha := alpha / (V (k + l) - U (i - p + l))
    Function.update Q (idx - 1) (alpha * Q (idx - 1) + (1 - alpha) * Q idx)

/-- One turn of `while j >= 0` (nurbs.pyx:743-761, knot.py:640-664) for the knot `x = X[j]`. -/
def insertOne (tol : K) (p a : Nat) (U P : Nat → K) (s : St K) (x : K) : St K :=
  let s := shift p a U P x s.i s.k s.Q s.V
  let Q := Function.update s.Q (s.k - p - 1) (s.Q (s.k - p))
  let Q := (List.range p).foldl (fun Q l => blend tol p s.i s.k U s.V x Q (l + 1)) Q
  ⟨s.i, s.k - 1, Q, Function.update s.V s.k x⟩

/-- The arrays before the loop (nurbs.pyx:725-740, knot.py:613-637): `r = len(X) - 1`, `a` and `b` the spans as the code has
them.  `np.zeros` has filled the rest. -/
def start (p a b r : Nat) (U P : Nat → K) : St K where
  i := b + p - 1
  k := b + p + r
  Q := fun j => if b - 1 + r + 1 ≤ j then P (j - r - 1) else if j ≤ a - p then P j else 0
  V := fun j => if b + p + r + 1 ≤ j then U (j - r - 1) else if j ≤ a then U j else 0

/-- The whole of it: the knots `X` are inserted from the last to the first. -/
def refineCol (tol : K) (p a b : Nat) (U P : Nat → K) (X : List K) : St K :=
  X.reverse.foldl (insertOne tol p a U P) (start p a b (X.length - 1) U P)

/-! ## `knot_refinement` of nurbs.pyx -/

/-- `uniqueSorted` (numeric/algorithms/_unique.c:58-93) on a non-empty array: sorted, without repetitions. -/
def uniqueSorted (L : List K) : List K := L.foldr insertSet []

/-- One round of the density loop (nurbs.pyx:691-701): `usz` is the length the code believes the list to have and `len` the
length `uniqueSorted` has given.  Entries past the end of the list are read outside of the array. -/
def densifyOnce (len usz : Nat) (L : List K) : Option (List K) :=
  if usz ≤ L.length ∧ len ≤ L.length ∧ 0 < usz ∧ 0 < len then
    some (((List.range (usz - 1)).flatMap fun i => [L.getD i 0, L.getD i 0 + (L.getD (i + 1) 0 - L.getD i 0) / 2]) ++
      [L.getD (len - 1) 0])
  else none

/-- `for d in range(density - 1)` (nurbs.pyx:691-701). -/
def densify (len : Nat) : Nat → Nat → List K → Option (List K)
  | 0, _, L => some L
  | d + 1, usz, L =>
    match densifyOnce len usz L with
    | none => none
    | some L' => densify len d (usz * 2 - 1) L'

/-- `X` (nurbs.pyx:702-713): every knot of the list as many times as the degree exceeds its multiplicity. -/
def missing (eps : K → K) (c : Curve K) (L : List K) : List K :=
  L.flatMap fun mk => List.replicate (c.degree - findMultiplicity eps mk c.U c.m) mk

/-- `knotvector[degree:-degree]` (nurbs.pyx:674). -/
def inner (c : Curve K) : List K := (List.range (c.m - 2 * c.degree)).map fun i => c.U (c.degree + i)

/-- The list of knots to refine (nurbs.pyx:673-701). -/
def refineList (c : Curve K) (knots add : Option (List K)) (density : Nat) : Option (List K) :=
  let L := knots.getD (inner c) ++ add.getD []
  let L' := uniqueSorted L
  densify L'.length (density - 1) L.length L'

/-- `knot_refinement` (nurbs.pyx:666-763) with `X` already built: the curve made of the points and the knots it returns.  `none`
is the exception for an empty `X` (nurbs.pyx:715-716) or an endless span search. -/
def refineWith (fuel : Nat) (tol : K) (c : Curve K) (X : List K) : Option (Curve K) :=
  match X with
  | [] => none
  | x :: _ =>
    match findSpan fuel (c.n - 1) c.degree x c.U c.periodic,
        findSpan fuel (c.n - 1) c.degree (X.getLastD 0) c.U c.periodic with
    | some a, some b1 => some { c with
        n := c.n + X.length
        m := c.m + X.length
        P := fun row col => (refineCol tol c.degree a (b1 + 1) c.U (fun l => c.P l col) X).Q row
        U := (refineCol tol c.degree a (b1 + 1) c.U (fun l => c.P l 0) X).V }
    | _, _ => none

/-- `knot_refinement` (nurbs.pyx:666-763). -/
def knotRefinement (fuel : Nat) (eps : K → K) (tol : K) (c : Curve K) (knots add : Option (List K)) (density : Nat) :
    Option (Curve K) :=
  match refineList c knots add density with
  | none => none
  | some L => refineWith fuel tol c (missing eps c L)

/-! ## `knot_refinement1` of knot.py -/

/-- The spans of `knot_refinement1` (knot.py:610-611): `find_span_linear` is given the index of the last control point where it
wants their number. -/
def span1 (c : Curve K) (x : K) : Nat := findSpanLinear c.degree c.U (c.n - 1) x

/-- `knot_refinement1` (knot.py:542-667) with `X` already built.  Rows never written are empty lists in the code, zeros here. -/
def refineWith1 (tol : K) (c : Curve K) (X : List K) : Option (Curve K) :=
  match X with
  | [] => none
  | x :: _ =>
    let a := span1 c x
    let b := span1 c (X.getLastD 0) + 1
    some { c with
      n := c.n + X.length
      m := c.m + X.length
      P := fun row col => (refineCol tol c.degree a b c.U (fun l => c.P l col) X).Q row
      U := (refineCol tol c.degree a b c.U (fun l => c.P l 0) X).V }

/-! ## `knot_refinement2` of knot.py -/

/-- `while X[j] <= U[i] and i > 0` (knot.py:1045-1049); `k` is an index of the arrays `Qw` and `Ubar`, negative ones count from the
end (`wrap`), as in numpy. -/
structure St2 (K : Type) where
  i : Nat
  k : Int
  Ubar : Int → K

/-- Index of numpy: negative ones count from the end of an array of length `len`. -/
def wrap (len : Nat) (k : Int) : Int := if k < 0 then k + len else k

def shift2 (len : Nat) (U : Nat → K) (x : K) : Nat → Int → (Int → K) → St2 K
  | 0, k, V => ⟨0, k, V⟩
  | i + 1, k, V => if x ≤ U (i + 1) then shift2 len U x i (k - 1) (Function.update V (wrap len k) (U (i + 1))) else ⟨i + 1, k, V⟩

/-- One turn of `while j >= 0` (knot.py:1044-1071), knots only. -/
def step2 (len : Nat) (U : Nat → K) (s : St2 K) (x : K) : St2 K :=
  let s := shift2 len U x s.i s.k s.Ubar
  ⟨s.i, s.k - 1, Function.update s.Ubar (wrap len s.k) x⟩

/-- `while i > 0` (knot.py:1074-1078), knots only. -/
def rest2 (len : Nat) (U : Nat → K) : Nat → Int → (Int → K) → Int → K
  | 0, _, V => V
  | i + 1, k, V => rest2 len U i (k - 1) (Function.update V (wrap len k) (U (i + 1)))

/-- The knots `knot_refinement2` returns (knot.py:991-1080); the curve has `c.n` points, so `n = c.n - 1`. -/
def refine2Knots (c : Curve K) (X : List K) : Int → K :=
  let len := c.m + X.length
  let V0 : Int → K := fun j => if ((c.m - c.degree - 1 + X.length : Nat) : Int) ≤ j then c.U (c.m - 1)
    else if j ≤ c.degree then c.U 0 else 0
  let s := X.reverse.foldl (step2 len c.U) ⟨c.degree, (c.degree : Int) + 1, V0⟩
  rest2 len c.U s.i s.k s.Ubar

/-! ## `knot_removal` of nurbs.pyx -/

/-- `knot_removal_alpha_i` (nurbs.pxd:281-282). -/
def alphaI (u : K) (p : Nat) (U : Int → K) (num idx : Int) : K := (u - U idx) / (U (idx + p + 1 + num) - U idx)

/-- `knot_removal_alpha_j` (nurbs.pxd:285-286). -/
def alphaJ (u : K) (p : Nat) (U : Int → K) (num idx : Int) : K := (u - U (idx - num)) / (U (idx + p + 1) - U (idx - num))

/-- `point_distance` (nurbs.pyx:571-578): `near a b` tells if it is at most `tol`, that is if the sum of the squares of the
coordinates of `a + b` is at most `tol²`. -/
def near (tol : K) (dim : Nat) (a b : Nat → K) : Prop := (List.range dim).foldl (fun s k => s + (a k + b k) ^ 2) 0 ≤ tol ^ 2

instance (tol : K) (dim : Nat) (a b : Nat → K) : Decidable (near tol dim a b) := inferInstanceAs (Decidable (_ ≤ _))

/-- The variables of the inner loop of `knot_removal` (nurbs.pyx:606-623). -/
structure Rem (K : Type) where
  i : Int
  j : Int
  ii : Int
  jj : Int
  temp : Int → Nat → K

/-- `while j - i >= t` (nurbs.pyx:614-623); the distance `j - i` drops by two in every turn, `fuel` turns are enough if
`j - i < t + fuel`. -/
def remLoop (u : K) (p : Nat) (U : Int → K) (P : Int → Nat → K) (t : Int) : Nat → Rem K → Rem K
  | 0, s => s
  | fuel + 1, s =>
    if t ≤ s.j - s.i then
      let ai := alphaI u p U t s.i
      let aj := alphaJ u p U t s.j
      let temp := Function.update s.temp s.ii fun k => (P s.i k - (1 - ai) * s.temp (s.ii - 1) k) / ai
      let temp := Function.update temp s.jj fun k => (P s.j k - aj * temp (s.jj + 1) k) / (1 - aj)
      remLoop u p U P t fuel ⟨s.i + 1, s.j - 1, s.ii + 1, s.jj - 1, temp⟩
    else s

/-- `while j - i > t` (nurbs.pyx:638-642). -/
def saveLoop (first : Int) (temp : Int → Nat → K) (t : Int) : Nat → Int → Int → (Int → Nat → K) → Int → Nat → K
  | 0, _, _, new => new
  | fuel + 1, i, j, new =>
    if t < j - i then
      saveLoop first temp t fuel (i + 1) (j - 1)
        (Function.update (Function.update new i (temp (i - first + 1))) j (temp (j - first + 1)))
    else new

/-- One turn of `for t in range(num)` (nurbs.pyx:605-645); the state is `(first, last, temp, ctrlpts_new)`. -/
def remRound (u tol : K) (dim p : Nat) (U : Int → K) (P : Int → Nat → K) (fuel : Nat)
    (s : Int × Int × (Int → Nat → K) × (Int → Nat → K)) (t : Nat) : Int × Int × (Int → Nat → K) × (Int → Nat → K) :=
  let first := s.1
  let last := s.2.1
  let temp := Function.update (Function.update s.2.2.1 0 (P (first - 1))) (last - first + 2) (P (last + 1))
  let w := remLoop u p U P t fuel ⟨first, last, 1, last - first + 1, temp⟩
  let ok : Prop := if w.j - w.i < t then near tol dim (w.temp (w.ii - 1)) (w.temp (w.jj + 1))
    else near tol dim (P w.i) (fun k => alphaI u p U t w.i * w.temp (w.ii + t + 1) k + (1 - alphaI u p U t w.i) * w.temp (w.ii - 1) k)
  haveI : Decidable ok := by unfold ok; exact inferInstance
  let new := if ok then saveLoop first w.temp t fuel first last s.2.2.2 else s.2.2.2
  (first - 1, last + 1, w.temp, new)

/-- The loop of nurbs.pyx:650-654: `i` and `j` step aside in turn. -/
def aside (num : Nat) (j : Int) : Int × Int :=
  (List.range (num - 1)).foldl (fun s k => if (k + 1) % 2 = 1 then (s.1 + 1, s.2) else (s.1, s.2 - 1)) (j, j)

/-- The last loop (nurbs.pyx:655-657): the rows `i + 1, …, n - 1` of the points given are copied to `j, j + 1, …`. -/
def moveDown (n : Nat) (i j : Int) (P new : Int → Nat → K) : Int → Nat → K := fun row =>
  if j ≤ row ∧ row - j + (i + 1) < n then P (row - j + (i + 1)) else new row

/-- `knot_removal` (nurbs.pyx:584-660) with the multiplicity `s` and the span `r` it has found: the rows of the array returned,
of which there are `n - num`.  `P` also tells what is read outside of the array of control points, `temp` and `U` likewise. -/
def knotRemoval (fuel dim p : Nat) (U : Int → K) (n : Nat) (P : Int → Nat → K) (u tol : K) (num s r : Nat)
    (temp : Int → Nat → K) : Int → Nat → K :=
  let w := (List.range num).foldl (remRound u tol dim p U P fuel) ((r : Int) - p, (r : Int) - s, temp, P)
  let ij := aside num ((2 * (r : Int) - s - p) / 2)
  moveDown n ij.1 ij.2 P w.2.2.2

/-- `knot_removal` on the data of a curve (nurbs.pyx:584-591): the multiplicity and the span are searched for.  `out` is what lies
outside of the arrays. -/
def removeKnot (fuel : Nat) (eps : K → K) (dim : Nat) (c : Curve K) (u tol : K) (num : Nat) (out temp : Int → Nat → K) :
    Option (Int → Nat → K) :=
  match findSpan fuel (c.n - 1) c.degree u c.U c.periodic with
  | none => none
  | some r =>
    some (knotRemoval fuel dim c.degree (fun i => if 0 ≤ i ∧ i < c.m then c.U i.toNat else out i 0) c.n
      (fun i => if 0 ≤ i ∧ i < c.n then c.P i.toNat else out i) u tol num (findMultiplicity eps u c.U c.m) r temp)

/-! ## `knot_insertion` and `nurbs_split` of knot.py -/

/-- The kinds of argument that matter for `knot_insertion_alpha_py`. -/
inductive Knots (K : Type) where
  | tuple (l : Nat → K)
  | array (l : Nat → K)

/-- `knot_insertion_alpha_py` (nurbs.pyx:494-495): its second argument is a typed memoryview, which a tuple does not provide
(`TypeError`). -/
def alphaPy (u : K) : Knots K → Nat → Nat → Nat → Option K
  | .tuple _, _, _, _ => none
  | .array U, span, idx, leg => some (kiAlpha u U span idx leg)

/-- One turn of the inner loop (knot.py:451-458) for one column; `arg` is the second argument of `knot_insertion_alpha_py`. -/
def innerPy (u : K) (arg : Knots K) (span L : Nat) (temp : Nat → K) (i : Nat) : Option (Nat → K) :=
  (alphaPy u arg span i L).map fun alpha => Function.update temp i (alpha * temp (i + 1) + (1 - alpha) * temp i)

/-- One turn of the outer loop (knot.py:449-460). -/
def roundPy (u : K) (arg : Knots K) (p num s span : Nat) (st : (Nat → K) × (Nat → K)) (j : Nat) : Option ((Nat → K) × (Nat → K)) :=
  ((List.range (p - (j + 1) - s + 1)).foldlM (innerPy u arg span (span - p + (j + 1))) st.1).map fun temp =>
    (temp, Function.update (Function.update st.2 (span - p + (j + 1)) (temp 0)) (span + num - (j + 1) - s) (temp (p - (j + 1) - s)))

/-- `find_multiplicity` (knot.py:358-381): an absolute tolerance. -/
def multPy (tol : K) (u : K) (U : Nat → K) (m : Nat) : Nat := findMultiplicity (fun _ => tol) u U m

/-- `knot_insertion` (knot.py:403-468), one column; `none` is the exception.  `arg` is `tuple(knotvector)` in the code
(knot.py:452). -/
def knotInsertionPy (arg : Knots K) (p n : Nat) (P : Nat → K) (u : K) (num s span : Nat) : Option (Nat → K) :=
  let new : Nat → K := fun i => if span - s + num ≤ i ∧ i < n + num then P (i - num) else if i < span - p + 1 then P i else 0
  let temp : Nat → K := fun i => P (span - p + i)
  ((List.range num).foldlM (roundPy u arg p num s span) (temp, new)).map fun st => fun i =>
    if span - p + num + 1 ≤ i ∧ i < span - s then st.1 (i - (span - p + num)) else st.2 i

/-- `nurbs_split` (knot.py:670-724), that is `NURBSpline.split` (bspline.py:258-259), up to the insertion of the knot: one column of
the control points that are cut afterwards. -/
def splitPoints (tol : K) (c : Curve K) (t : K) (span col : Nat) : Option (Nat → K) :=
  let s := multPy tol t c.U c.m
  knotInsertionPy (.tuple c.U) c.degree c.n (fun l => c.P l col) t (c.degree - s) s span

end Verif.Rfn
