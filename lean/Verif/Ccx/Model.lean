import Verif.Mol.Model
import Verif.Cp.Model

/-! # Curve and curve: `mmcore/numeric/intersection/ccx/ccx.py`

Numbers are elements of an ordered field.  Curves are functions of the parameter into space (`Verif.Mol.V`) with an interval;
running out of `fuel` stands for Python's recursion limit (`none`: an exception). -/

set_option linter.unusedSectionVars false

namespace Verif.Ccx

open Verif.Mol (V)

variable {K : Type} [Field K] [LinearOrder K] [IsStrictOrderedRing K]

/-- An axis-aligned box: the rows of the array of shape `(2, 3)`. -/
structure Box (K : Type) where
  lo : V K
  hi : V K
  deriving DecidableEq, Repr

/-- `aabb` (C20 has the loop) for the points `p :: ps`. -/
def aabb (p : V K) : List (V K) → Box K
  | [] => ⟨p, p⟩
  | q :: ps =>
    let b := aabb p ps
    ⟨⟨min q.x b.lo.x, min q.y b.lo.y, min q.z b.lo.z⟩, ⟨max q.x b.hi.x, max q.y b.hi.y, max q.z b.hi.z⟩⟩

/-- `aabb_overlap` (aabb.py:49-56). -/
def aabbOverlap (a b : Box K) : Bool :=
  decide (a.lo.x ≤ b.hi.x) && decide (a.hi.x ≥ b.lo.x) && decide (a.lo.y ≤ b.hi.y) && decide (a.hi.y ≥ b.lo.y) &&
    decide (a.lo.z ≤ b.hi.z) && decide (a.hi.z ≥ b.lo.z)

/-- `np.linspace(a, b, 8)` without its first element, at the call of aabb.py:110. -/
def samples (a b : K) : List K := (List.range 7).map fun i : ℕ => a + (i + 1) * ((b - a) / 7)

/-- `curve_aabb_eager(curve, bounds, cnt=8)` (aabb.py:106-111). -/
def aabbEager (c : K → V K) (r : K × K) : Box K := aabb (c r.1) ((samples r.1 r.2).map c)

/-- The square of `np.linalg.norm(a - b)`. -/
def dist2 (a b : V K) : K := (a.x - b.x) ^ 2 + (a.y - b.y) ^ 2 + (a.z - b.z) ^ 2

/-- The middle of a range (ccx.py:263-264). -/
def mid (r : K × K) : K := r.1 + (r.2 - r.1) / 2

/-- The two halves (ccx.py:268-271). -/
def left (r : K × K) : K × K := (r.1, mid r)
def right (r : K × K) : K × K := (mid r, r.2)

/-- `recursive_intersect` (ccx.py:246-281); `b1`, `b2` give the box of a range of the curve. -/
def recInt (b1 b2 : K × K → Box K) (c1 c2 : K → V K) (tol : K) : ℕ → K × K → K × K → Option (List (K × K))
  | 0, _, _ => none
  | k + 1, r1, r2 =>
    if ¬ aabbOverlap (b1 r1) (b2 r2) then some []
    else if dist2 (c1 (mid r1)) (c2 (mid r2)) ≤ tol ^ 2 then some [(mid r1, mid r2)]
    else do
      let p ← recInt b1 b2 c1 c2 tol k (left r1) (left r2)
      let q ← recInt b1 b2 c1 c2 tol k (left r1) (right r2)
      let r ← recInt b1 b2 c1 c2 tol k (right r1) (left r2)
      let s ← recInt b1 b2 c1 c2 tol k (right r1) (right r2)
      return p ++ q ++ r ++ s

/-- The ranges of one curve (ccx.py:288-318): pieces of length one if the interval is longer. -/
def pieces [FloorRing K] (r : K × K) : List (K × K) :=
  if r.2 - r.1 > 1 then Cp.divideInterval r.1 r.2 1 else [r]

/-- The loops over the pieces (ccx.py:291-318). -/
def search [FloorRing K] (b1 b2 : K × K → Box K) (c1 c2 : K → V K) (tol : K) (fuel : ℕ) (r1 r2 : K × K) :
    Option (List (K × K)) :=
  ((pieces r1).flatMap fun p => (pieces r2).map fun q => (p, q)).foldr
    (fun pq acc => do
      let a ← recInt b1 b2 c1 c2 tol fuel pq.1 pq.2
      let l ← acc
      return a ++ l) (some [])

/-- `_categorize_with_defaultdict(result, index)` (ccx.py:196-200, 320-321): the lists of the pairs with the same rounded
values `key`, in the order of their first members. -/
def group {κ : Type} [DecidableEq κ] (key : K × K → κ) : List (K × K) → List (List (K × K))
  | [] => []
  | p :: l =>
    if (group key l).any (fun g => g.any fun q => decide (key q = key p)) then
      -- the group of `p` moves to the front and gets `p` as its first member
      (p :: ((group key l).filter (fun g => g.any fun q => decide (key q = key p))).flatten) ::
        (group key l).filter (fun g => ! g.any fun q => decide (key q = key p))
    else [p] :: group key l

/-- `np.average(val, axis=0)`. -/
def average (g : List (K × K)) : K × K := ((g.map Prod.fst).sum / g.length, (g.map Prod.snd).sum / g.length)

/-- The end of `curve_ppx` (ccx.py:320-321). -/
def merge {κ : Type} [DecidableEq κ] (key : K × K → κ) (l : List (K × K)) : List (K × K) :=
  ((group key l).map average).insertionSort fun a b => a.1 ≤ b.1

/-- `curve_ppx(curve1, curve2, tol, bounds1, bounds2, eager=True)` (ccx.py:201-321). -/
def curvePpx [FloorRing K] {κ : Type} [DecidableEq κ] (key : K × K → κ) (c1 c2 : K → V K) (tol : K) (fuel : ℕ)
    (r1 r2 : K × K) : Option (List (K × K)) :=
  (search (aabbEager c1) (aabbEager c2) c1 c2 tol fuel r1 r2).map (merge key)

/-! ## `curve_pix` -/

/-- `sign` (divide_and_conquer.py:167-168): `math.copysign(1, val)`, with no negative zero. -/
def sgn (y : K) : Bool := decide (0 ≤ y)

/-- `test_all_roots` (divide_and_conquer.py:508-533).  `bis` is `scipy.optimize.bisect`; `inner` is the fuel of the two
searches for the extrema. -/
def allRoots (f : K → K) (bis : K → K → K) (tol : K) (inner : ℕ) : ℕ → K → K → Option (List K)
  | 0, _, _ => none
  | k + 1, t0, t1 =>
    if t1 - t0 ≤ tol then some []
    else
      match DnC.minIter (fun t => - f t) tol inner t0 t1, DnC.minIter f tol inner t0 t1 with
      | some (tmax, ymax), some (tmin, ymin) =>
        -- `sorted` is stable: the minimum first if both are at the same place
        let a := if tmax < tmin then (tmax, -ymax) else (tmin, ymin)
        let b := if tmax < tmin then (tmin, ymin) else (tmax, -ymax)
        if sgn a.2 ≠ sgn b.2 then
          if b.1 - a.1 ≤ tol then some [bis a.1 b.1]
          else do
            let l ← allRoots f bis tol inner k t0 (a.1 - tol)
            let r ← allRoots f bis tol inner k (b.1 + tol) t1
            return l ++ bis a.1 b.1 :: r
        else if b.1 - a.1 ≤ tol then some []
        else allRoots f bis tol inner k (b.1 + tol) t1
      | _, _ => none

/-- `curve_pix(curve, implicit, step, tol)` (ccx.py:125-193); `f` is the implicit form at the point of the parameter.
`curve_x_axis` and `curve_x_ray` (ccx.py:32-38) are the cases of a coordinate. -/
def curvePix [FloorRing K] (f : K → K) (bis : K → K → K) (t0 t1 step tol : K) (fuel : ℕ) : Option (List K) :=
  (Cp.divideInterval t0 t1 step).foldr
    (fun p acc => do
      let a ← allRoots f bis tol fuel fuel p.1 p.2
      let l ← acc
      return a ++ l) (some [])

/-! ## `ccx` -/

/-- The forms a curve object has. -/
structure Forms where
  implicit : Bool
  evaluate : Bool
  deriving DecidableEq, Repr

/-- What `ccx` (ccx.py:40-120) does; `raise curve_iix(...)` (line 114) raises a `TypeError`, since the value is a list. -/
inductive Call
  /-- `curve_pix(curve2, curve1)`: parameters on the second curve -/
  | pix21
  /-- `curve_pix(curve1, curve2)`: parameters on the first curve -/
  | pix12
  /-- `curve_ppx(curve1, curve2, tol)` -/
  | ppx
  | typeError
  | valueError
  deriving DecidableEq, Repr

def ccx (c1 c2 : Forms) : Call :=
  if c1.implicit && c2.evaluate then .pix21
  else if c2.implicit && c1.evaluate then .pix12
  else if c2.evaluate && c1.evaluate then .ppx
  else if c2.implicit && c1.implicit then .typeError
  else .valueError

end Verif.Ccx
