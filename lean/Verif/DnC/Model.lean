import Mathlib.Algebra.Order.Field.Basic
import Mathlib.Algebra.Order.Group.Abs

/-!
# Model of mmcore/numeric/divide_and_conquer.py and mmcore/numeric/bisection.py

Numbers are elements of an ordered field.  Objective functions are arbitrary functions.  Loops and
recursions take fuel; `none` stands for running out of it, or for an exception where noted.
-/

namespace Verif.DnC

variable {K : Type} [Field K] [LinearOrder K]

/-- `recursive_divide_and_conquer_min` (divide_and_conquer.py:13-55). -/
def minRec (f : K → K) (tol : K) : Nat → K → K → Option (K × K)
  | 0, _, _ => none
  | k + 1, low, high =>
    if high - low < tol then some ((low + high) / 2, f ((low + high) / 2))
    else
      let m1 := low + (high - low) / 4
      let m2 := high - (high - low) / 4
      if f m1 < f m2 then minRec f tol k low m2 else minRec f tol k m1 high

/-- `recursive_divide_and_conquer_max` (divide_and_conquer.py:58-100). -/
def maxRec (f : K → K) (tol : K) : Nat → K → K → Option (K × K)
  | 0, _, _ => none
  | k + 1, low, high =>
    if high - low < tol then some ((low + high) / 2, f ((low + high) / 2))
    else
      let m1 := low + (high - low) / 4
      let m2 := high - (high - low) / 4
      if f m1 > f m2 then maxRec f tol k low m2 else maxRec f tol k m1 high

/-- `iterative_divide_and_conquer_min` (divide_and_conquer.py:103-136). -/
def minIter (f : K → K) (tol : K) : Nat → K → K → Option (K × K)
  | 0, _, _ => none
  | k + 1, low, high =>
    if |high - low| ≥ tol then
      let m1 := low + (high - low) / 4
      let m2 := high - (high - low) / 4
      if f m1 < f m2 then minIter f tol k low m2 else minIter f tol k m1 high
    else some ((low + high) / 2, f ((low + high) / 2))

/-- `recursive_divide_and_conquer_roots` (divide_and_conquer.py:146-165); the returned list always
has one entry. -/
def rootsRec (f : K → K) (tol : K) : Nat → K → K → Option (K × K)
  | 0, _, _ => none
  | k + 1, low, high =>
    if |high - low| < tol then some ((low + high) / 2, f ((low + high) / 2))
    else
      let m1 := low + (high - low) / 2
      let m2 := high - (high - low) / 2
      if |f m1| < |f m2| then rootsRec f tol k low m2 else rootsRec f tol k m1 high

/-- Python's `min(candidates, key=...)`: the first candidate with the least value. -/
def argmin {α : Type} (g : α → K) : α → List α → α
  | best, [] => best
  | best, x :: xs => if g x < g best then argmin g x xs else argmin g best xs

/-- A search box of the two dimensional search. -/
structure Box (K : Type) where
  x0 : K
  x1 : K
  y0 : K
  y1 : K
deriving DecidableEq

/-- The nine candidates, in order (divide_and_conquer.py:197-207). -/
def cands (b : Box K) : List (K × K) :=
  let xm := (b.x0 + b.x1) / 2
  let ym := (b.y0 + b.y1) / 2
  [(b.x1, b.y0), (b.x0, b.y1), (b.x1, b.y1), (xm, b.y0), (xm, b.y1), (b.x0, ym), (b.x1, ym),
   (xm, ym)]

/-- The box around the best candidate, clipped to the range (divide_and_conquer.py:209-216). -/
def shrink (r b : Box K) (c : K × K) : Box K :=
  ⟨max (c.1 - (b.x1 - b.x0) / 4) r.x0, min (c.1 + (b.x1 - b.x0) / 4) r.x1,
   max (c.2 - (b.y1 - b.y0) / 4) r.y0, min (c.2 + (b.y1 - b.y0) / 4) r.y1⟩

/-- One round of the search. -/
def step2 (f : K × K → K) (r b : Box K) : Box K :=
  shrink r b (argmin f (b.x0, b.y0) (cands b))

/-- The loop of `divide_and_conquer_min_2d` (divide_and_conquer.py:183-216). -/
def loop2 (f : K × K → K) (tol : K) (r : Box K) : Nat → Box K → Option (Box K)
  | 0, _ => none
  | k + 1, b =>
    if b.x1 - b.x0 > tol ∨ b.y1 - b.y0 > tol then loop2 f tol r k (step2 f r b) else some b

/-- `divide_and_conquer_min_2d` (divide_and_conquer.py:169-217). -/
def min2d (f : K × K → K) (tol : K) (r : Box K) (k : Nat) : Option (K × K) :=
  (loop2 f tol r k r).map (fun b => ((b.x0 + b.x1) / 2, (b.y0 + b.y1) / 2))

/-- The loop of `divide_and_conquer_min_2d_vectorized` (divide_and_conquer.py:234-277): a list of
(function, range, box), one per column; it goes on while all `x` extents or all `y` extents exceed
the tolerance. -/
def loopV (tol : K) : Nat → List ((K × K → K) × Box K × Box K) → Option (List (Box K))
  | 0, _ => none
  | k + 1, L =>
    if L.all (fun e => decide (e.2.2.x1 - e.2.2.x0 > tol)) ∨
        L.all (fun e => decide (e.2.2.y1 - e.2.2.y0 > tol)) then
      loopV tol k (L.map (fun e => (e.1, e.2.1, step2 e.1 e.2.1 e.2.2)))
    else some (L.map (fun e => e.2.2))

/-- `divide_and_conquer_min_2d_vectorized` (divide_and_conquer.py:219-279); the tolerance is halved
first. -/
def min2dV (tol : K) (L : List ((K × K → K) × Box K)) (k : Nat) : Option (List (K × K)) :=
  (loopV (tol / 2) k (L.map (fun e => (e.1, e.2, e.2)))).map
    (fun bs => bs.map (fun b => ((b.x0 + b.x1) / 2, (b.y0 + b.y1) / 2)))

/-- The candidates of `divide_and_conquer_min_nd` for two variables, each twice
(divide_and_conquer.py:390-394). -/
def candsNd (b : Box K) : List (K × K) :=
  let xm := (b.x0 + b.x1) / 2
  let ym := (b.y0 + b.y1) / 2
  [(xm, b.y0), (b.x0, ym), (b.x0, ym)]

/-- The loop of `divide_and_conquer_min_nd` for two variables (divide_and_conquer.py:383-421). -/
def loopNd (f : K × K → K) (tol : K) (r : Box K) : Nat → Box K → Option (Box K)
  | 0, _ => none
  | k + 1, b =>
    if b.x1 - b.x0 > tol ∨ b.y1 - b.y0 > tol then
      loopNd f tol r k (shrink r b (argmin f ((b.x0 + b.x1) / 2, b.y0) (candsNd b)))
    else some b

/-- `divide_and_conquer_min_nd` for two variables (divide_and_conquer.py:369-424). -/
def minNd2 (f : K × K → K) (tol : K) (r : Box K) (k : Nat) : Option (K × K) :=
  (loopNd f tol r k r).map (fun b => ((b.x0 + b.x1) / 2, (b.y0 + b.y1) / 2))

/-- The loop of `bisection1d` (bisection.py:24-38): state `x`, the remembered sign and the minimum
so far (`none` for infinity). -/
def bis1 (f : K → K) (step stop : K) : Nat → K → Bool → Option K → List (K × K) →
    Option (List (K × K) × Option K)
  | 0, _, _, _, _ => none
  | k + 1, x, sign, mn, roots =>
    if x ≤ stop then
      let v := f x
      let mn := match mn with
        | none => some v
        | some m => if v < m then some v else some m
      let roots := if v = 0 then roots ++ [(x, v)]
        else if decide (v > 0) ≠ sign then roots ++ [(x, v)] else roots
      bis1 f step stop k (x + step) (decide (v > 0)) mn roots
    else some (roots, mn)

/-- `bisection1d` (bisection.py:17-39). -/
def bisection1d (f : K → K) (step start stop : K) (k : Nat) :
    Option (List (K × K) × Option K) :=
  bis1 f step stop k start (decide (f start > 0)) none []

/-- The choice of the next box in `bisection_2d` (bisection.py:55-84). -/
def bisStep (f : K × K → K) (b : Box K) : Box K :=
  let xm := (b.x0 + b.x1) / 2
  let ym := (b.y0 + b.y1) / 2
  let fmid := f (xm, ym)
  if f (b.x0, b.y0) * fmid < 0 then ⟨b.x0, xm, b.y0, ym⟩
  else if f (b.x1, b.y0) * fmid < 0 then ⟨xm, b.x1, b.y0, ym⟩
  else if f (b.x0, b.y1) * fmid < 0 then ⟨b.x0, xm, ym, b.y1⟩
  else if f (b.x1, b.y1) * fmid < 0 then ⟨xm, b.x1, ym, b.y1⟩
  else
    let xs := if |f (b.x0, ym)| < |f (b.x1, ym)| then (b.x0, xm) else (xm, b.x1)
    -- `x_mid` keeps its value, so the second test looks at the old middle
    let ys := if |f (xm, b.y0)| < |f (xm, b.y1)| then (b.y0, ym) else (ym, b.y1)
    ⟨xs.1, xs.2, ys.1, ys.2⟩

/-- The loop of `bisection_2d` (bisection.py:54-84). -/
def bis2 (f : K × K → K) (tol : K) : Nat → Box K → Option (Box K)
  | 0, _ => none
  | k + 1, b =>
    if (b.x1 - b.x0) / 2 > tol ∨ (b.y1 - b.y0) / 2 > tol then bis2 f tol k (bisStep f b)
    else some b

/-- `bisection_2d` (bisection.py:45-86).  Outer `none`: out of fuel; inner `none`: the function
returned `None`. -/
def bisection2d (f : K × K → K) (tol : K) (r : Box K) (k : Nat) : Option (Option (K × K)) :=
  if f (r.x0, r.y0) * f (r.x1, r.y1) > 0 then some none
  else (bis2 f tol k r).map (fun b => some ((b.x0 + b.x1) / 2, (b.y0 + b.y1) / 2))

/-- `np.linspace(start, end, n)`. -/
def linspace (start stop : K) (n : Nat) (j : Nat) : K :=
  start + j * ((stop - start) / ((n : K) - 1))

/-- The first index below `n` at which the value is close to the least value
(bisection.py:94-95).  `close` is `np.isclose`. -/
def firstMin (close : K → K → Bool) (g : Nat → K) (n : Nat) : Option Nat :=
  let m := argmin g 0 (List.range n)
  (List.range n).find? (fun j => close (g j) (g m))

/-- The result of `scalar_min_1d`: a value, an `IndexError`, or too deep a recursion. -/
inductive Res (K : Type)
  | val (x : K)
  | indexError
  | deep
deriving DecidableEq

/-- `wrap` of `scalar_min_1d` (bisection.py:89-104): `t[i - 1]` with `i = 0` is the last entry,
`t[i + 1]` with `i = divs - 1` is out of range. -/
def wrap (close : K → K → Bool) (f : K → K) (step : K) (divs : Nat) : Nat → K → K → Res K
  | 0, _, _ => .deep
  | k + 1, start, stop =>
    let t := linspace start stop divs
    match firstMin close (fun j => f (t j)) divs with
    | none => .indexError
    | some i =>
      if |t 0 - t 1| ≤ step then .val (t i)
      else if i + 1 ≥ divs then .indexError
      else wrap close f step divs k (t (if i = 0 then divs - 1 else i - 1)) (t (i + 1))

end Verif.DnC
