import Verif.ImplTree.Model
import Mathlib.Algebra.Order.AbsoluteValue.Basic
import Mathlib.Algebra.Order.Group.Unbundled.Abs

/-!
# Model of mmcore/geom/implicit/dc/__init__.py (dual contouring in the plane)

Numbers are elements of an ordered field; a shape is a function of the point.  `math.sqrt` and
`np.linalg.lstsq` are parameters.  The trees are those of `Verif.ImplTree` with four children.
Not modelled: the demonstration shapes `hi`, `test1` .. `test4`, and the `print` of `index`.
-/

set_option linter.unusedSectionVars false

namespace Verif.Dc
open Verif.ImplTree

variable {K : Type} [Field K] [LinearOrder K] [IsStrictOrderedRing K]

/-- A point `(x, y)` (collapse2d.py:5). -/
abbrev P (K : Type) := K × K

/-! ## Shapes -/

/-- `opUnion`, `opSubtraction`, `opIntersection`, `opXor` (dc/__init__.py:154-167). -/
def opUnion (d1 d2 : K) : K := min d1 d2
def opSubtraction (d1 d2 : K) : K := max (-d1) d2
def opIntersection (d1 d2 : K) : K := max d1 d2
def opXor (d1 d2 : K) : K := max (min d1 d2) (-(max d1 d2))

/-- `union`, `intersection`, `inv`, `substract` (dc/__init__.py:94-119). -/
def union (a b : P K → K) (p : P K) : K := opUnion (a p) (b p)
def intersection (a b : P K → K) (p : P K) : K := opIntersection (a p) (b p)
def inv (a : P K → K) (p : P K) : K := -1 * a p
def substract (a b : P K → K) (p : P K) : K := opSubtraction (b p) (a p)

/-- `left`, `right`, `lower`, `upper` (dc/__init__.py:62-91). -/
def left (x0 : K) (p : P K) : K := p.1 - x0
def right (x0 : K) (p : P K) : K := x0 - p.1
def lower (y0 : K) (p : P K) : K := p.2 - y0
def upper (y0 : K) (p : P K) : K := y0 - p.2

/-- `rectangle` (dc/__init__.py:122-127). -/
def rectangle (mn mx : P K) : P K → K :=
  intersection (right mn.1) (intersection (left mx.1) (intersection (upper mn.2) (lower mx.2)))

/-- `circle` for a tuple (dc/__init__.py:54-57). -/
def circle (sqrt : K → K) (center : P K) (r : K) (p : P K) : K :=
  sqrt ((center.1 - p.1) ^ 2 + (center.2 - p.2) ^ 2) - r

/-- `circle` for an array with the points as columns (dc/__init__.py:40-52): the square is taken of the sum over all entries, and the
result is one number. -/
def circleArr (sqrt : K → K) (center : P K) (r : K) (ps : List (P K)) : K :=
  sqrt ((ps.map fun p => (center.1 - p.1) + (center.2 - p.2)).sum ^ 2) - r

/-- `abs_cmp(a, b, max)` (dc/__init__.py:14-16). -/
def absCmp (a b : K) : K := if |a| = max |a| |b| then a else b

/-- `nd_max` for two arrays (dc/__init__.py:22-24): the new contents of the array `a`, which is also the result.  The boolean index
assignment `a[aa < ba] = b[aa < ba]` is entry by entry. -/
def ndMaxArr (a b : List K) : List K := a.zipWith (fun x y => if |x| < |y| then y else x) b

/-- `nd_max` for an array and a number (dc/__init__.py:25-28), and for a number and an array (29-32). -/
def ndMaxL (a : List K) (b : K) : List K := a.map fun x => if |x| < |b| then b else x
def ndMaxR (a : K) (b : List K) : List K := b.map fun y => if |y| < |a| then a else y

/-! ## Zeros on the sides of a cell -/

/-- `Side` (collapse2d.py:194-198). -/
inductive Side where
  | Upper | Lower | Left | Right
deriving DecidableEq, Repr

/-- `pos` (dc/__init__.py:245-248). -/
def pos (a b : P K) (f : K) : P K := (a.1 * (1 - f) + b.1 * f, a.2 * (1 - f) + b.2 * f)

/-- `zero_` (dc/__init__.py:236-243). -/
def zeroRec (s : P K → K) (a b : P K) : K → K → Nat → P K
  | f, _, 0 => pos a b f
  | f, step, i + 1 =>
    if s (pos a b f) < 0 then zeroRec s a b (f + step) (step / 2) i else zeroRec s a b (f - step) (step / 2) i

/-- `zero` (dc/__init__.py:228-250); the first argument is the depth of the recursion available. -/
def zero (s : P K → K) : Nat → P K → P K → Option (P K)
  | 0, _, _ => none
  | n + 1, a, b => if s a ≥ 0 then zero s n b a else some (zeroRec s a b (1 / 2) (1 / 4) 10)

/-- The end points of the side of a cell handed to `zero` by `pt` (dc/__init__.py:217-225). -/
def sideEnds (c : Q K) : Side → P K × P K
  | .Left => ((c.1.1, c.1.2), (c.1.1, c.2.2))
  | .Right => ((c.2.1, c.1.2), (c.2.1, c.2.2))
  | .Lower => ((c.1.1, c.1.2), (c.2.1, c.1.2))
  | .Upper => ((c.1.1, c.2.2), (c.2.1, c.2.2))

/-- `pt` (dc/__init__.py:217-225). -/
def pt (s : P K → K) (n : Nat) (c : Q K) (side : Side) : Option (P K) := zero s n (sideEnds c side).1 (sideEnds c side).2

/-- `index` (dc/__init__.py:203-210). -/
def index (s : P K → K) (c : Q K) : Nat :=
  let pts : List (P K) := [(c.1.1, c.1.2), (c.2.1, c.1.2), (c.1.1, c.2.2), (c.2.1, c.2.2)]
  (pts.zipIdx.map fun e => if s e.1 < 0 then 2 ^ (3 - e.2) else 0).sum

/-- `lut` (dc/__init__.py:396-413). -/
def lut : List (List (Side × Side)) :=
  [[],
   [(.Upper, .Right)],
   [(.Left, .Upper)],
   [(.Left, .Right)],
   [(.Right, .Lower)],
   [(.Upper, .Lower)],
   [(.Right, .Lower), (.Left, .Upper)],
   [(.Left, .Lower)],
   [(.Lower, .Left)],
   [(.Lower, .Left), (.Upper, .Right)],
   [(.Lower, .Upper)],
   [(.Lower, .Right)],
   [(.Right, .Left)],
   [(.Upper, .Left)],
   [(.Right, .Upper)],
   []]

/-- `edges` (dc/__init__.py:213-214). -/
def edges (s : P K → K) (c : Q K) : List (Side × Side) := lut.getD (index s c) []

/-- `contours` (dc/__init__.py:253-259). -/
def contours (s : P K → K) (n : Nat) (c : Q K) : Option (List (P K × P K)) :=
  (edges s c).mapM fun e => do
    let p ← pt s n c e.1
    let q ← pt s n c e.2
    some (p, q)

/-! ## Merging cells -/

/-- `interpolate` (dc/__init__.py:295-305); a cell of no width raises `ZeroDivisionError`, which is not modelled. -/
def interpolate (s : P K → K) (c : Q K) (p : P K) : K :=
  let dx := (p.1 - c.1.1) / (c.2.1 - c.1.1)
  let dy := (p.2 - c.1.2) / (c.2.2 - c.1.2)
  let ab := s (c.1.1, c.1.2) * (1 - dx) + s (c.2.1, c.1.2) * dx
  let cd := s (c.1.1, c.2.2) * (1 - dx) + s (c.2.1, c.2.2) * dx
  ab * (1 - dy) + cd * dy

/-- `score` (dc/__init__.py:308-309). -/
def score (s : P K → K) (c : Q K) (p : P K) : K := |interpolate s c p - s p|

/-- `_merge` (dc/__init__.py:263-283). -/
def merge4 (s : P K → K) (ch : Fin 4 → T 4 (Q K)) : T 4 (Q K) :=
  match ch 0, ch 1, ch 2, ch 3 with
  | .leaf a, .leaf b, .leaf c, .leaf d =>
    let cell : Q K := (a.1, d.2)
    if [a.2, b.1, b.2, c.1, c.2].all fun p => decide (score s cell p < 1 / 1000) then .leaf cell else .root ch
  | _, _, _, _ => .root ch

/-- `merge` (dc/__init__.py:262-292). -/
def merge (s : P K → K) : T 4 (Q K) → T 4 (Q K)
  | .root ch => merge4 s fun i => merge s (ch i)
  | t => t

/-! ## Features -/

/-- `deriv` (dc/__init__.py:312-320); no value stands for the division by zero. -/
def deriv (sqrt : K → K) (s : P K → K) (p : P K) : Option (P K) :=
  let e : K := 1 / 1000
  let dx := s (p.1 + e, p.2) - s (p.1 - e, p.2)
  let dy := s (p.1, p.2 + e) - s (p.1, p.2 - e)
  let length := sqrt (dx ^ 2 + dy ^ 2)
  if length = 0 then none else some (dx / length, dy / length)

/-- `feature` (dc/__init__.py:323-337).  `lstsq a b` is the solution `np.linalg.lstsq(a, b)[0]`.  The outer option is a value at all, the inner
one is `None`. -/
def feature (sqrt : K → K) (lstsq : List (P K) → List K → P K) (s : P K → K) (n : Nat) (c : Q K) : Option (Option (P K)) := do
  let cs ← contours s n c
  let pts := cs.flatMap fun e => [e.1, e.2]
  if 2 ≤ pts.length then
    let nms ← pts.mapM (deriv sqrt s)
    let center : P K := ((pts.map Prod.fst).sum / pts.length, (pts.map Prod.snd).sum / pts.length)
    let b := pts.zipWith (fun p nm => (p.1 - center.1) * nm.1 + (p.2 - center.2) * nm.2) nms
    let x := lstsq nms b
    some (some (center.1 + x.1, center.2 + x.2))
  else some none

/-! ## The edges of the dual contour -/

/-- `edgeProcH` for a leaf on the left (dc/__init__.py:363-367, 375-376): the pairs of cells whose features are joined. -/
def procHLeaf (c : Q K) : T 4 (Q K) → List (Q K × Q K)
  | .leaf d => [(c, d)]
  | .root ch => procHLeaf c (ch 0) ++ procHLeaf c (ch 2)
  | _ => []

/-- `edgeProcH` (dc/__init__.py:362-376). -/
def procH : T 4 (Q K) → T 4 (Q K) → List (Q K × Q K)
  | .leaf c, t => procHLeaf c t
  | .root ch, .leaf d => procH (ch 1) (.leaf d) ++ procH (ch 3) (.leaf d)
  | .root ch, .root ch' => procH (ch 1) (ch' 0) ++ procH (ch 3) (ch' 2)
  | _, _ => []

/-- `edgeProcV` for a leaf as first tree (dc/__init__.py:380-384, 392-393). -/
def procVLeaf (c : Q K) : T 4 (Q K) → List (Q K × Q K)
  | .leaf d => [(c, d)]
  | .root ch => procVLeaf c (ch 2) ++ procVLeaf c (ch 3)
  | _ => []

/-- `edgeProcV` (dc/__init__.py:379-393). -/
def procV : T 4 (Q K) → T 4 (Q K) → List (Q K × Q K)
  | .leaf c, t => procVLeaf c t
  | .root ch, .leaf d => procV (ch 0) (.leaf d) ++ procV (ch 1) (.leaf d)
  | .root ch, .root ch' => procV (ch 0) (ch' 2) ++ procV (ch 1) (ch' 3)
  | _, _ => []

/-- `faceProc` (dc/__init__.py:347-359). -/
def faceProc : T 4 (Q K) → List (Q K × Q K)
  | .root ch =>
    ((List.finRange 4).map fun i => faceProc (ch i)).flatten ++ procH (ch 0) (ch 1) ++ procH (ch 2) (ch 3) ++
      procV (ch 0) (ch 2) ++ procV (ch 1) (ch 3)
  | _ => []

/-- `dc` (dc/__init__.py:343-344): the edges, in their order. -/
def dc {α : Type} (feat : Q K → α) (t : T 4 (Q K)) : List (α × α) := (faceProc t).map fun e => (feat e.1, feat e.2)

/-! ## Walking through trees -/

/-- `foldTree` (dc/__init__.py:181-200). -/
def foldTree (root empty full leaf : Q K → K) : T 4 (Q K) → Q K → K
  | .root ch, q => root q + foldTree root empty full leaf (ch 0) (quadSplit q 0) + foldTree root empty full leaf (ch 1) (quadSplit q 1) +
      foldTree root empty full leaf (ch 2) (quadSplit q 2) + foldTree root empty full leaf (ch 3) (quadSplit q 3)
  | .empty _, q => empty q
  | .full _, q => full q
  | .leaf _, q => leaf q

/-- The children of a node (collapse2d.py:15-17, 31-33, 43-45, 55-57, 70-72). -/
def children : T 4 (Q K) → List (T 4 (Q K))
  | .root ch => (List.finRange 4).map ch
  | .empty t => [t]
  | .full t => [t]
  | .leaf _ => []

/-- The default filter `isinstance(ch, Leaf)` (dc/__init__.py:173). -/
def isLeaf : T 4 (Q K) → Bool
  | .leaf _ => true
  | _ => false

/-- `trav` with the default filter, as the nested calls use it (dc/__init__.py:170-180): the pairs handed to `cb`, in order. -/
def travD : T 4 (Q K) → List (T 4 (Q K) × T 4 (Q K))
  | .root ch => (List.finRange 4).flatMap fun i => if isLeaf (ch i) then [(.root ch, ch i)] else travD (ch i)
  | .empty t => if isLeaf t then [(.empty t, t)] else travD t
  | .full t => if isLeaf t then [(.full t, t)] else travD t
  | .leaf _ => []

/-- `trav` with a filter (dc/__init__.py:170-180): the nested call `trav(ch, cb)` does not pass the filter on. -/
def trav (fltr : T 4 (Q K) → T 4 (Q K) → Bool) (t : T 4 (Q K)) : List (T 4 (Q K) × T 4 (Q K)) :=
  (children t).flatMap fun ch => if fltr t ch then [(t, ch)] else travD ch

end Verif.Dc
