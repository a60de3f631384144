import Verif.Aabb.Model
import Verif.DnC.Model

/-!
# Model of the bounding boxes of curves in mmcore/numeric/aabb.py

A curve is a function from parameters to points (coordinate functions, three coordinates).  Evaluation on an
array of parameters is evaluation one by one.  Numbers are elements of an ordered field; `none` stands for
a loop that does not end within the fuel, or for an exception.
-/

namespace Verif.Cbb
open Aabb

variable {K : Type} [Field K] [LinearOrder K]

/-- Insertion into a sorted list without repetition, for `np.unique`. -/
def insertU (x : K) : List K → List K
  | [] => [x]
  | y :: l => if x < y then x :: y :: l else if x = y then y :: l else y :: insertU x l

/-- `np.unique`. -/
def unique (l : List K) : List K := l.foldr insertU []

/-- `solve_interval` (numeric.py:531-534). -/
def solveInterval (fuel : Nat) (tol a b : K) (f : K → K) : Option (List K) := do
  let r ← DnC.minIter f tol fuel a b
  let s ← DnC.minIter (fun t => - f t) tol fuel a b
  return [r.1, s.1]

/-- `curve_bound_points` (numeric.py:512-551) on the bounds `(a, b)`. -/
def curveBoundPoints (fuel : Nat) (tol : K) (c : K → Pt K) (a b : K) : Option (List K) := do
  let x ← solveInterval fuel tol a b (fun t => c t 0)
  let y ← solveInterval fuel tol a b (fun t => c t 1)
  let z ← solveInterval fuel tol a b (fun t => c t 2)
  return unique (a :: (x ++ y ++ z ++ [b]))

/-- `curve_aabb` (aabb.py:78-97). -/
def curveAabb (fuel : Nat) (tol : K) (c : K → Pt K) (a b : K) : Option (Box K) := do
  let ts ← curveBoundPoints fuel tol c a b
  aabb 3 (ts.map c)

/-- The loop of `curve_bound_points2` (numeric.py:565-579): one range for each coordinate; `sg` is -1 with
`neg`, else 1; `np.diag` takes coordinate `i` of the point at parameter `i`. -/
def bound2Loop (tol sg : K) (c : K → Pt K) : Nat → Pt K → Pt K → Option (Pt K × Pt K)
  | 0, _, _ => none
  | k + 1, low, high =>
    if ∀ i < 3, tol ≤ |high i - low i| then
      let m1 : Pt K := fun i => low i + (high i - low i) / 4
      let m2 : Pt K := fun i => high i - (high i - low i) / 4
      let mask : Nat → Bool := fun i => decide (sg * c (m1 i) i < sg * c (m2 i) i)
      bound2Loop tol sg c k (fun i => if mask i then low i else m1 i) (fun i => if mask i then m2 i else high i)
    else some (low, high)

/-- `curve_bound_points2` (numeric.py:554-583): the three points. -/
def curveBoundPoints2 (fuel : Nat) (tol sg : K) (c : K → Pt K) (a b : K) : Option (List (Pt K)) := do
  let (low, high) ← bound2Loop tol sg c fuel (fun _ => a) (fun _ => b)
  return [0, 1, 2].map fun i => c ((low i + high i) / 2)

/-- `min(axis=0)` of a non-empty list of points. -/
def minRow : List (Pt K) → Option (Pt K)
  | [] => none
  | p :: l => some (l.foldl (fun m q i => min (m i) (q i)) p)

/-- `max(axis=0)`. -/
def maxRow : List (Pt K) → Option (Pt K)
  | [] => none
  | p :: l => some (l.foldl (fun m q i => max (m i) (q i)) p)

/-- `curve_aabb2` (aabb.py:99-103); `tol` is 1e-5 there. Without bounds it raises (`None[0]`). -/
def curveAabb2 (fuel : Nat) (tol : K) (c : K → Pt K) (bounds : Option (K × K)) : Option (Box K) := do
  let (a, b) ← bounds
  let mins ← curveBoundPoints2 fuel tol 1 c a b
  let maxs ← curveBoundPoints2 fuel tol (-1) c a b
  let lo ← minRow mins
  let hi ← maxRow maxs
  aabb 3 [lo, hi]

/-- `np.linspace(a, b, n)`. -/
def linspace (a b : K) (n : Nat) : List K :=
  if n = 1 then [a] else (List.range n).map fun i : Nat => a + (i : K) * ((b - a) / ((n : K) - 1))

/-- `curve_aabb_eager` (aabb.py:106-111). -/
def curveAabbEager (c : K → Pt K) (a b : K) (cnt : Nat) : Option (Box K) :=
  aabb 3 ((linspace a b cnt).map c)

end Verif.Cbb
