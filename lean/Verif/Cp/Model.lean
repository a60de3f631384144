import Mathlib.Algebra.Order.Field.Basic
import Mathlib.Algebra.Order.Floor.Ring
import Mathlib.Order.WithBot
import Mathlib.Data.List.Sort
import Verif.DnC.Model

/-! # `mmcore/numeric/closest_point.py`

Numbers are elements of an ordered field.  The distance `dist` (closest_point.py:33-34) is a parameter; the theorems
instantiate it with the square root over the reals.  `float('inf')` is `⊤`. -/

set_option linter.unusedSectionVars false

namespace Verif.Cp

variable {K : Type} [Field K] [LinearOrder K] [IsStrictOrderedRing K]

/-- A point with its index (closest_point.py:121). -/
structure P (K : Type) where
  x : K
  y : K
  i : ℕ
  deriving DecidableEq, Repr

/-- A distance and a pair of indices. -/
abbrev Best (K : Type) := WithTop K × (ℤ × ℤ)

/-- The `while` loop of `strip_closest` (closest_point.py:48-53) for the point `p` and the points after it. -/
def stripInner (dist : P K → P K → K) (p : P K) : List (P K) → Best K → Best K
  | [], m => m
  | q :: l, m =>
    if ((q.y - p.y : K) : WithTop K) < m.1 then
      if (dist p q : WithTop K) < m.1 then stripInner dist p l (dist p q, (p.i, q.i)) else stripInner dist p l m
    else m

/-- The `for` loop of `strip_closest` (closest_point.py:46-53). -/
def stripLoop (dist : P K → P K → K) : List (P K) → Best K → Best K
  | [], m => m
  | p :: l, m => stripLoop dist l (stripInner dist p l m)

/-- `strip_closest` (closest_point.py:38-55). -/
def stripClosest (dist : P K → P K → K) (strip : List (P K)) (d : Best K) : Best K :=
  stripLoop dist (strip.insertionSort fun p q => p.y ≤ q.y) d

/-- The inner loop over `j` of the base case (closest_point.py:65-69). -/
def bruteInner (dist : P K → P K → K) (p : P K) : List (P K) → Best K → Best K
  | [], m => m
  | q :: l, m => bruteInner dist p l (if (dist p q : WithTop K) < m.1 then (dist p q, (p.i, q.i)) else m)

/-- The base case (closest_point.py:61-70). -/
def brute (dist : P K → P K → K) : List (P K) → Best K → Best K
  | [], m => m
  | p :: l, m => brute dist l (bruteInner dist p l m)

/-- `closest_util` (closest_point.py:59-100); `n` is always the length of `xs`.  `none`: out of fuel. -/
def closestUtil (dist : P K → P K → K) : ℕ → List (P K) → List (P K) → Option (Best K)
  | fuel, xs, ys =>
    if xs.length ≤ 3 then some (brute dist xs (⊤, (-1, -1)))
    else
      match fuel, xs[xs.length / 2]? with
      | k + 1, some m =>
        match closestUtil dist k (xs.take (xs.length / 2)) (ys.filter fun p => p.x ≤ m.x),
            closestUtil dist k (xs.drop (xs.length / 2)) (ys.filter fun p => p.x > m.x) with
        | some dl, some dr =>
          let d := if dl.1 < dr.1 then dl else dr
          let s := stripClosest dist (ys.filter fun p => ((|p.x - m.x| : K) : WithTop K) < d.1) d
          some (if s.1 < d.1 then s else d)
        | _, _ => none
      | _, _ => none

/-- The points with their indices (closest_point.py:118-121). -/
def index (pts : List (K × K)) : List (P K) := pts.zipIdx.map fun a => ⟨a.1.1, a.1.2, a.2⟩

/-- `min_distance` (closest_point.py:104-128). -/
def minDistance (dist : P K → P K → K) (pts : List (K × K)) : Option (Best K) :=
  closestUtil dist pts.length ((index pts).insertionSort fun p q => p.x ≤ q.x)
    ((index pts).insertionSort fun p q => p.y ≤ q.y)

/-! ## `closest_point_on_curve_single` -/

/-- `divide_interval(start, end, step)` (numeric/routines/__init__.py:170-172): `np.arange` has `⌈(end - start) / step⌉`
elements. -/
def divideInterval [FloorRing K] (a b step : K) : List (K × K) :=
  (List.range (⌈(b - a) / step⌉).toNat).map fun i : ℕ => (a + i * step, a + i * step + step)

/-- The loop over the pieces (closest_point.py:259-264). -/
def curveLoop (f : K → K) (tol : K) (fuel : ℕ) : List (K × K) → K × K → Option (K × K)
  | [], best => some best
  | (a, b) :: l, best =>
    match DnC.minIter f tol fuel a b with
    | none => none
    | some (t, d) => curveLoop f tol fuel l (if d < best.2 then (t, d) else best)

/-- `closest_point_on_curve_single` (closest_point.py:237-266); `f` is `distance_func` and `(t0, t1)` the interval of the
curve. -/
def closestOnCurve [FloorRing K] (f : K → K) (t0 t1 tol : K) (fuel : ℕ) : Option (K × K) :=
  let best := (t0, f t0)
  let best := if f t1 < best.2 then (t1, f t1) else best
  curveLoop f tol fuel (divideInterval t0 t1 (1 / 2)) best

end Verif.Cp
