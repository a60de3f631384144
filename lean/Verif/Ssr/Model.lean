import Verif.Mnm.Model
import Verif.Vec.Model

/-! # Nearest points of two curves, and the results of the intersection of surfaces

`ccd`, `proximity_points_curve_curve` (`mmcore/numeric/intersection/ccx/ccd.py`), `ssx` and `find_closest_points`
(`mmcore/numeric/intersection/ssx/surface_surface.py`).  Numbers are elements of an ordered field.  `find_all_minima` is that of
`Mnm/Model.lean`; `surface_ppi`, the interpolation, the pairs of leaves and `freeform.solve` are parameters. -/

namespace Verif.Ssr

open Verif.Mnm Verif.Vec V3

variable {K : Type} [Field K] [LinearOrder K]

/-- `fun` (ccd.py:42-44). -/
def sqDist (c1 c2 : K → V3 K) (p : K × K) : K := dot ((c1 p.1).sub (c2 p.2)) ((c1 p.1).sub (c2 p.2))

/-- `ccd` (ccd.py:6-47): the density of the grid is 11. -/
def ccd (newton : Arg K → Except Err (Option (K × K) × Hess K)) (dist : K × K → K × K → K) (c1 c2 : K → V3 K) (i1 i2 : K × K) (tol tol2 : K)
    (fuel : Nat) : Except Err (List ((K × K) × K)) := findAllMinima newton dist (sqDist c1 c2) i1 i2 11 tol tol2 fuel

/-- How `proximity_points_curve_curve` fails: in `ccd`, or by `min` of an empty list. -/
inductive PErr
  | minima (e : Err)
  | empty
deriving DecidableEq

/-- `proximity_points_curve_curve` (ccd.py:50-81). -/
def proximity (newton : Arg K → Except Err (Option (K × K) × Hess K)) (dist : K × K → K × K → K) (c1 c2 : K → V3 K) (i1 i2 : K × K)
    (tol tol2 : K) (fuel : Nat) : Except PErr ((K × K) × K) :=
  match ccd newton dist c1 c2 i1 i2 tol tol2 fuel with
  | .error e => .error (.minima e)
  | .ok [] => .error .empty
  | .ok (x :: l) => .ok (l.foldl (fun b y => if y.2 < b.2 then y else b) x)

/-! ## `ssx` -/

/-- One curve of `surface_ppi`: points, parameters on both surfaces and whether each of its terminators is `LOOP`. -/
structure Branch (K : Type) where
  pts : List (V3 K)
  uv1 : List (K × K)
  uv2 : List (K × K)
  loops : List Bool

/-- The curves of one branch (surface_surface.py:723-735). -/
def curvesOf {C D : Type} (i3 : List (V3 K) → C) (i2 : List (K × K) → D) (b : Branch K) : C × D × D :=
  if b.loops.all id then (i3 b.pts, i2 b.uv1.dropLast, i2 b.uv2.dropLast) else (i3 b.pts, i2 b.uv1, i2 b.uv2)

/-- `ssx` (surface_surface.py:686-748); `ppi` is the result of `surface_ppi`, `i3` and `i2` are `interpolate_nurbs_curve(·, 3)`. -/
def ssx {C D : Type} (i3 : List (V3 K) → C) (i2 : List (K × K) → D) (ppi : Option (List (Branch K))) : List (C × D × D) :=
  match ppi with
  | none => []
  | some bs => bs.map (curvesOf i3 i2)

/-- A start: point and parameters on both surfaces. -/
abbrev Start (K : Type) := V3 K × (K × K) × (K × K)

/-- `handle_inside` (surface_surface.py:158-163): is a parameter outside? -/
def outside (uv : K × K) (bounds : (K × K) × (K × K)) : Bool :=
  !(decide (bounds.1.1 ≤ uv.1) && decide (uv.1 ≤ bounds.1.2)) || !(decide (bounds.2.1 ≤ uv.2) && decide (uv.2 ≤ bounds.2.2))

/-- The loop of `find_closest_points` (surface_surface.py:119-150): a start with a parameter outside is met with `pass` and added all the same. -/
def starts (b1 b2 : (K × K) × (K × K)) (solve : K × K → K × K → Option (Start K)) : List ((K × K) × (K × K)) → List (Start K) → List (Start K)
  | [], acc => acc
  | (uv1, uv2) :: l, acc =>
    match solve uv1 uv2 with
    | none => starts b1 b2 solve l acc
    | some r =>
      let acc' := if outside r.2.1 b1 || outside r.2.2 b2 then acc else acc
      starts b1 b2 solve l (acc' ++ [r])

/-- `find_closest_points` (surface_surface.py:105-155); `meet`: the boxes of the trees meet; `.ok none` is `None`.  The tree of no points cannot be
built (`.error`). -/
def findClosest (meet : Bool) (b1 b2 : (K × K) × (K × K)) (solve : K × K → K × K → Option (Start K)) (pairs : List ((K × K) × (K × K))) :
    Except Unit (Option (List (Start K))) :=
  if meet then
    match starts b1 b2 solve pairs [] with
    | [] => .error ()
    | l => .ok (some l)
  else .ok none

end Verif.Ssr
