import Mathlib.Algebra.Order.Field.Basic
import Mathlib.Algebra.Order.Group.Abs

/-! # Common points of two implicit curves, and the guesses of a grid

`implicit_find_features` (`mmcore/geom/implicit/tree/tree2d.py`), called by `curve_iix` (`numeric/intersection/ccx/ccx.py:325-377`), and the
guesses `gs2` of `find_intersections_grid` (`numeric/intersection/csx/__init__.py`).  Numbers are elements of an ordered field; the norm,
`scipy.optimize.minimize` and the nearest sample of `KDTree.query` are parameters. -/

namespace Verif.Fea

variable {K : Type} [Field K] [LinearOrder K]

/-- A cell `((xmin, ymin), (xmax, ymax))`. -/
abbrev Cell (K : Type) := (K × K) × (K × K)

/-- `np.average(node, axis=0)`. -/
def centre (c : Cell K) : K × K := ((c.1.1 + c.2.1) / 2, (c.1.2 + c.2.2) / 2)

/-- `f` (tree2d.py:60-61). -/
def both (f1 f2 : K × K → K) (x : K × K) : K := max |f1 x| |f2 x|

/-- `_find_feature` (tree2d.py:59-73): the point if there is one.  `mini c` is the point and the value that `minimize` returns in the bounds of
the cell; `eps` is the absolute tolerance of `np.isclose(·, 0)`. -/
def findFeature (f1 f2 : K × K → K) (mini : Cell K → (K × K) × K) (eps : K) (c : Cell K) (norm : K) : Option (K × K) :=
  if norm < |f1 (centre c)| then none
  else if norm < |f2 (centre c)| then none
  else if |(mini c).2| ≤ eps then some (mini c).1 else none

/-- `np.allclose(a, b, rtol, atol)`. -/
def allclose (tol : K × K) (a b : K × K) : Prop := |a.1 - b.1| ≤ tol.2 + tol.1 * |b.1| ∧ |a.2 - b.2| ≤ tol.2 + tol.1 * |b.2|

instance (tol : K × K) (a b : K × K) : Decidable (allclose tol a b) := by unfold allclose; infer_instance

/-- The tolerances `(rtol, atol)` of line 90 from the arguments (tree2d.py:79-85; a zero counts as `None`): line 85 takes `atol` for `rtol`.
`none` if `rtol` becomes `None`: the comparison raises. -/
def tols (dflt : K × K) (rtol atol : Option K) : Option (K × K) :=
  let given : Option K → Bool := fun x => match x with | none => false | some v => v ≠ 0
  let a := if given atol then atol.getD 0 else dflt.2
  if given rtol then atol.map fun r => (r, a) else some (dflt.1, a)

/-- The loop (tree2d.py:87-94); `last` is the point given last.  `none`: an exception. -/
def scan (find : Cell K → Option (K × K)) (tol : Option (K × K)) : Option (K × K) → List (Cell K) → Option (List (K × K))
  | _, [] => some []
  | last, c :: cs =>
    match find c with
    | none => scan find tol last cs
    | some x =>
      match last with
      | none => (scan find tol (some x) cs).map (x :: ·)
      | some l =>
        match tol with
        | none => none
        | some t => if allclose t l x then scan find tol last cs else (scan find tol (some x) cs).map (x :: ·)

/-- `implicit_find_features` (tree2d.py:76-94); for no cells line 77 raises. -/
def features (nrm : K → K → K) (f1 f2 : K × K → K) (mini : Cell K → (K × K) × K) (eps : K) (dflt : K × K) (rtol atol : Option K) :
    List (Cell K) → Option (List (K × K))
  | [] => none
  | c :: cs =>
    scan (fun d => findFeature f1 f2 mini eps d (nrm (c.2.1 - c.1.1) (c.2.2 - c.1.2))) (tols dflt rtol atol) none (c :: cs)

/-- A shape of a tree: a python function, or an object with `bounds`. -/
inductive Shape (K : Type) where
  | function (f : K × K → K)
  | object (f : K × K → K) (bounds : Cell K)

/-- `self.shape.bounds()` in `ImplicitTree2D.build` (tree2d.py:32-38): a function has no attribute `bounds`; `none` is the exception. -/
def Shape.bounds : Shape K → Option (Cell K)
  | .function _ => none
  | .object _ b => some b

/-- `curve_iix` (ccx.py:325-377).  `border f b` are the border cells of the tree of the function on the bounds (`Verif.ImplTree`); `tree` the border
cells of the tree that is given. -/
def curveIix (border : (K × K → K) → Cell K → List (Cell K)) (nrm : K → K → K) (f1 f2 : K × K → K) (mini : Cell K → (K × K) × K) (eps : K)
    (dflt : K × K) (rtol atol : Option K) (tree : Option (List (Cell K))) : Option (List (K × K)) :=
  match tree with
  | some cs => features nrm f1 f2 mini eps dflt rtol atol cs
  | none =>
    let shape : K × K → K := fun v => min (f1 v) (f2 v)
    (Shape.bounds (.function shape)).bind fun b => features nrm f1 f2 mini eps dflt rtol atol (border shape b)

/-! ## The guesses of a grid -/

/-- A point of the curve in `gs2`: its parameter, its distance to the nearest sample of the surface and the parameters of that sample. -/
structure Sample (K : Type) where
  t : K
  dst : K
  uv : K × K

/-- The pairs of the loop (csx/__init__.py:136-138): the parameters are taken where `dst < mdst`, the samples where `dst <= mdst`. -/
def pairs (mdst : K) (l : List (Sample K)) : List (K × (K × K)) :=
  ((l.filter fun s => s.dst < mdst).map (·.t)).zip ((l.filter fun s => s.dst ≤ mdst).map (·.uv))

/-- The loop (csx/__init__.py:138-150): a pair near to the one before is left out. -/
def thin (tol : K) : Option (K × (K × K)) → List (K × (K × K)) → List (K × (K × K))
  | _, [] => []
  | old, x :: l =>
    match old with
    | none => x :: thin tol (some x) l
    | some o =>
      if |o.1 - x.1| < tol ∧ |o.2.1 - x.2.1| < tol ∧ |o.2.2 - x.2.2| < tol then thin tol (some x) l
      else x :: thin tol (some x) l

/-- The guesses of `gs2` (csx/__init__.py:104-150). -/
def gs2 (mdst tol : K) (l : List (Sample K)) : List (K × (K × K)) := thin tol none (pairs mdst l)

end Verif.Fea
