import Verif.Ccx.Model
import Verif.Nurbs.SurfModel

/-! # Curve and surface: `mmcore/numeric/intersection/csx`, boundaries: `ssx/boundary_intersection.py`

Numbers are elements of an ordered field; `scalar_norm(a - b) <= tol` is the comparison of squares (`tol` is not negative).
The recursion of `NURBSCurveSurfaceIntersector` is modelled over any curves and surfaces with the operations of `Env`; running
out of `fuel` stands for Python's recursion limit (outer `none`), a `ValueError` is an inner `none`. -/

set_option linter.unusedSectionVars false

namespace Verif.Csx

open Verif.Mol (V)
open Verif.Ccx (dist2)

variable {K : Type} [Field K] [LinearOrder K] [IsStrictOrderedRing K]

/-- What `nurbs_csx` uses of its curves (`C`) and surfaces (`S`). -/
structure Env (K C S : Type) where
  /-- `curve.interval()`, `surface.interval()` -/
  cint : C → K × K
  sint : S → (K × K) × (K × K)
  /-- `curve.evaluate`, `surface.evaluate_v2` -/
  cev : C → K → V K
  sev : S → K → K → V K
  /-- `split_curve(curve, t, tol)` (C56) and `subdivide_surface(surface, u, v, tol)` (C65); `none` is the `ValueError`. -/
  split : K → C → K → Option (C × C)
  subdiv : K → S → K → K → Option (S × S × S × S)
  /-- `spatial_separability` (C165) of the control points, `spherical_separability` (below) with the point found -/
  sep : C → S → Bool
  sph : C → S → V K → Bool
  /-- `newtons_method` (C152) from the middle of the intervals; `none` for `None` and for a result with NaN -/
  newton : C → S → Option (K × K × K)
  /-- `_is_degenerate` (_ncsx.py:181-187) -/
  degen : C → S → K × K × K → Bool

/-- An entry of `intersections`: the flag `"degenerate"`, the point and the parameters. -/
structure Hit (K : Type) where
  deg : Bool
  pt : V K
  t : K
  u : K
  v : K
  deriving DecidableEq, Repr

variable {C S : Type}

/-- The comparison of two points in `_find_new_intersection` (_ncsx.py:164-167). -/
def near (tol : K) (p q : V K) : Bool :=
  decide (|p.x - q.x| < tol) && decide (|p.y - q.y| < tol) && decide (|p.z - q.z| < tol)

/-- `_is_valid_parameter` (_ncsx.py:174-179). -/
def validParam (E : Env K C S) (c : C) (s : S) (t u v : K) : Bool :=
  decide ((E.cint c).1 ≤ t ∧ t ≤ (E.cint c).2) && decide ((E.sint s).1.1 ≤ u ∧ u ≤ (E.sint s).1.2) &&
    decide ((E.sint s).2.1 ≤ v ∧ v ≤ (E.sint s).2.2)

/-- `_find_new_intersection` (_ncsx.py:135-172). -/
def findNew (E : Env K C S) (tol : K) (hits : List (Hit K)) (c : C) (s : S) : Option (V K × K × K × K) :=
  match E.newton c s with
  | none => none
  | some (t, u, v) =>
    if validParam E c s t u v then
      if dist2 (E.cev c t) (E.sev s u v) ≤ tol ^ 2 then
        if hits.any (fun h => near tol h.pt (E.cev c t)) then none else some (E.cev c t, t, u, v)
      else none
    else none

/-- The test for parameters at the edge of the patch (_ncsx.py:81, 96). -/
def atEdge (E : Env K C S) (ptol : K) (s : S) (u v : K) : Bool :=
  decide (|u - (E.sint s).1.1| < ptol) || decide (|u - (E.sint s).1.2| < ptol) ||
    decide (|v - (E.sint s).2.1| < ptol) || decide (|v - (E.sint s).2.2| < ptol)

/-- The eight calls (_ncsx.py:110-117). -/
def pairs (c1 c2 : C) (q : S × S × S × S) : List (C × S) :=
  [(c1, q.1), (c1, q.2.1), (c1, q.2.2.1), (c1, q.2.2.2), (c2, q.1), (c2, q.2.1), (c2, q.2.2.1), (c2, q.2.2.2)]

/-- Calls one after the other, all with the same list of intersections. -/
def callAll (f : List (Hit K) → C → S → Option (Option (List (Hit K)))) : List (C × S) → List (Hit K) → Option (Option (List (Hit K)))
  | [], h => some (some h)
  | p :: r, h =>
    match f h p.1 p.2 with
    | some (some h') => callAll f r h'
    | o => o

/-- `_curve_surface_intersect` (_ncsx.py:56-117); `stol` is the default tolerance of `split_curve`, used at line 75. -/
def intersect (E : Env K C S) (tol ptol stol : K) : Nat → List (Hit K) → C → S → Option (Option (List (Hit K)))
  | 0, _, _, _ => none
  | k + 1, hits, c, s =>
    if E.sep c s then some (some hits)
    else
      match findNew E tol hits c s with
      | none =>
        match E.split stol c (((E.cint c).1 + (E.cint c).2) * (1 / 2)) with
        | none => some none
        | some (c1, c2) =>
          let u := ((E.sint s).1.1 + (E.sint s).1.2) * (1 / 2)
          let v := ((E.sint s).2.1 + (E.sint s).2.2) * (1 / 2)
          if atEdge E ptol s u v then some (some hits)
          else
            match E.subdiv ptol s u v with
            | none => some none
            | some q => callAll (intersect E tol ptol stol k) (pairs c1 c2 q) hits
      | some (p, t, u, v) =>
        let hits' := hits ++ [⟨E.degen c s (t, u, v), p, t, u, v⟩]
        if atEdge E ptol s u v then some (some hits')
        else if E.sph c s p then some (some hits')
        else
          match E.split ptol c t with
          | none => some none
          | some (c1, c2) =>
            match E.subdiv ptol s u v with
            | none => some none
            | some q => callAll (intersect E tol ptol stol k) (pairs c1 c2 q) hits'

/-- `nurbs_csx` (_ncsx.py:190, 276-278). -/
def nurbsCsx (E : Env K C S) (tol ptol stol : K) (fuel : Nat) (c : C) (s : S) : Option (Option (List (Hit K))) :=
  intersect E tol ptol stol fuel [] c s

/-- The branch of `csx` for two NURBS objects (csx/__init__.py:248-254): the parameters sorted by `t`; for an empty list
`typs, pts, params = zip(*ixs)` raises `ValueError`. -/
def csx (E : Env K C S) (tol ptol stol : K) (fuel : Nat) (c : C) (s : S) : Option (Option (List (K × K × K))) :=
  match nurbsCsx E tol ptol stol fuel c s with
  | some (some []) => some none
  | some (some l) => some (some ((l.insertionSort fun a b => a.t ≤ b.t).map fun h => (h.t, h.u, h.v)))
  | some none => some none
  | none => none

/-! ## Newton's method of the other surfaces -/

/-- `newton_raphson` (csx/__init__.py:61-78): `delta x` is the solution of the linear system at `x`, `none` the `LinAlgError` of
a singular Jacobian; `small d` is `scalar_norm(d) < tol`. -/
def newtonRaphson (delta : K × K × K → Option (K × K × K)) (small : K × K × K → Bool) : Nat → K × K × K → Option (K × K × K)
  | 0, x => some x
  | k + 1, x =>
    match delta x with
    | none => none
    | some d =>
      let y := (x.1 + d.1, x.2.1 + d.2.1, x.2.2 + d.2.2)
      if small d then some y else newtonRaphson delta small k y

/-- The loop of `find_intersections_bvh` (csx/__init__.py:197-209) over the guesses; `close r i` is
`np.allclose(r, i, atol=tol)`. -/
def refineAll (nr : K × K × K → Option (K × K × K)) (close : K × K × K → K × K × K → Bool) :
    List (K × K × K) → List (K × K × K) → Option (List (K × K × K))
  | [], found => some found
  | g :: gs, found =>
    match nr g with
    | none => none
    | some r => refineAll nr close gs (if found.any (fun i => close r i) then found else found ++ [r])

/-- The filter of `curve_surface_intersection` (csx/__init__.py:233-240). -/
def inBounds (tb ub vb : K × K) (l : List (K × K × K)) : List (K × K × K) :=
  l.filter fun r => decide (tb.1 ≤ r.1 ∧ r.1 ≤ tb.2) && decide (ub.1 ≤ r.2.1 ∧ r.2.1 ≤ ub.2) &&
    decide (vb.1 ≤ r.2.2 ∧ r.2.2 ≤ vb.2)

/-! ## Boundaries of surfaces -/

open Verif.Nurbs (Surf Curve findSpan basisFuns) in
/-- `extract_isocurve(surface, param, "u")` (boundary_intersection.py:227-273).  `find_span` is called with the last index of the
control points.  Outer `none`: a loop does not end; inner `none`: `ValueError`. -/
def isoU (S : Surf K) (fuel : Nat) (x : K) : Option (Option (Curve K)) :=
  if x < S.U 0 ∨ S.U (S.mu - 1) < x then some none
  else
    match findSpan fuel (S.nu - 1) S.pu x S.U false with
    | none => none
    | some span => some (some
        { degree := S.pv, n := S.nv, m := S.mv, U := S.V, periodic := false
          P := fun i col => ((List.range (S.pu + 1)).map fun j => basisFuns span x S.pu S.U (fun _ => 1) j * S.P (span - S.pu + j) i col).sum })

open Verif.Nurbs (Surf Curve findSpan basisFuns) in
/-- `extract_isocurve(surface, param, "v")` (boundary_intersection.py:275-302). -/
def isoV (S : Surf K) (fuel : Nat) (x : K) : Option (Option (Curve K)) :=
  if x < S.V 0 ∨ S.V (S.mv - 1) < x then some none
  else
    match findSpan fuel (S.nv - 1) S.pv x S.V false with
    | none => none
    | some span => some (some
        { degree := S.pu, n := S.nu, m := S.mu, U := S.U, periodic := false
          P := fun i col => ((List.range (S.pv + 1)).map fun j => basisFuns span x S.pv S.V (fun _ => 1) j * S.P i (span - S.pv + j) col).sum })

open Verif.Nurbs (Surf Curve) in
/-- The entries of `extract_surface_boundaries` (boundary_intersection.py:18-39) for the interval `d` of the surface. -/
def boundaryCurve (S : Surf K) (fuel : Nat) (d : (K × K) × (K × K)) (i : Nat) : Option (Option (Curve K)) :=
  if i = 0 then isoU S fuel d.1.1 else if i = 1 then isoU S fuel d.1.2 else if i = 2 then isoV S fuel d.2.1 else isoV S fuel d.2.2

/-- `_boundary_index_to_params` (boundary_intersection.py:98-108). -/
def boundaryParams (d : (K × K) × (K × K)) (i : Nat) (x : K) : K × K :=
  if i = 0 then (d.1.1, x) else if i = 1 then (d.1.2, x) else if i = 2 then (x, d.2.1) else (x, d.2.2)

/-- `IntersectionPoint` (boundary_intersection.py:41-75). -/
structure BPoint (K : Type) where
  pt : V K
  param : K
  other : K × K
  index : Nat
  first : Bool
  uv1 : K × K
  uv2 : K × K
  deriving DecidableEq, Repr

/-- `IntersectionPoint.__init__` (boundary_intersection.py:44-75), `d` the interval of the surface with the boundary. -/
def bpoint (pt : V K) (param : K) (other : K × K) (index : Nat) (first : Bool) (d : (K × K) × (K × K)) : BPoint K :=
  if first then ⟨pt, param, other, index, first, boundaryParams d index param, other⟩
  else ⟨pt, param, other, index, first, other, boundaryParams d index param⟩

/-- `get_start_params` (boundary_intersection.py:77-96). -/
def startParams (b : BPoint K) (d : (K × K) × (K × K)) : (K × K) × (K × K) :=
  if b.first then (boundaryParams d b.index b.param, b.other) else (b.other, boundaryParams d b.index b.param)

/-- The points of all boundaries of one surface with the other (boundary_intersection.py:131-145, 148-160): `hits i` is the
result of `nurbs_csx` for boundary `i`. -/
def boundaryHits (hits : Nat → List (Hit K)) (first : Bool) (d : (K × K) × (K × K)) : List (BPoint K) :=
  (List.range 4).flatMap fun i => (hits i).map fun h => bpoint h.pt h.t (h.u, h.v) i first d

/-- The removal of duplicates (boundary_intersection.py:162-171): the points kept, and the points still to be looked at. -/
def dedup (tol : K) : List (BPoint K) → List (BPoint K) → List (BPoint K)
  | kept, [] => kept
  | kept, p :: ps => if kept.any (fun q => decide (dist2 p.pt q.pt < tol ^ 2)) then dedup tol kept ps else dedup tol (kept ++ [p]) ps

/-- `find_boundary_intersections` (boundary_intersection.py:110-173). -/
def boundaryIntersections (tol : K) (hits1 hits2 : Nat → List (Hit K)) (d1 d2 : (K × K) × (K × K)) : List (BPoint K) :=
  dedup tol [] (boundaryHits hits1 true d1 ++ boundaryHits hits2 false d2)

/-- The nearest of the candidates, the first of several (boundary_intersection.py:202-212); `d2 a b` is the squared distance of
the points with these indices. -/
def nearest (d2 : Nat → Nat → K) (a : Nat) : List Nat → Option Nat
  | [] => none
  | i :: is => some (is.foldl (fun m j => if d2 a j < d2 a m then j else m) i)

/-- `sort_boundary_intersections` (boundary_intersection.py:175-224) on the indices of the points: `pick` is `set.pop` with the
rest in the order of iteration over the set.  A sequence ends when it has two points or no point is left. -/
def sortPairs (pick : List Nat → Option (Nat × List Nat)) (d2 : Nat → Nat → K) : Nat → List Nat → Option (List (List Nat))
  | 0, _ => none
  | k + 1, un =>
    match pick un with
    | none => some []
    | some (a, rest) =>
      match nearest d2 a rest with
      | none => (sortPairs pick d2 k rest).map ([a] :: ·)
      | some b => (sortPairs pick d2 k (rest.erase b)).map ([a, b] :: ·)

/-! ## `spherical_separability` (separability/spherical.py) on the angles of the points -/

/-- The first index of the largest entry: `np.argmax`. -/
def argmaxFrom (best : Nat) (bestv : K) : Nat → List K → Nat
  | _, [] => best
  | i, x :: xs => if bestv < x then argmaxFrom i x (i + 1) xs else argmaxFrom best bestv (i + 1) xs

/-- `np.diff`. -/
def diffs : List K → List K
  | a :: b :: l => (b - a) :: diffs (b :: l)
  | _ => []

/-- `find_smallest_wedge` (spherical.py:19-31); the angles come from `arctan2`, `tau` is `2 * np.pi`.  `none` is the `IndexError`
of an empty array. -/
def wedge (tau : K) (angles : List K) : Option (K × K) :=
  match angles.insertionSort (· ≤ ·) with
  | [] => none
  | a :: l =>
    let s := a :: l
    let gaps := diffs s ++ [tau - (a :: l).getLast (by simp) + a]
    let k := match gaps with
      | [] => 0
      | g :: gs => argmaxFrom 0 g 1 gs
    some (s.getD k 0, s.getD ((k + 1) % s.length) 0)

/-- The comparison of two wedges (spherical.py:51-53). -/
def wedgesApart (w1 w2 : K × K) : Bool :=
  (decide (w1.2 < w2.1) && decide (w1.1 < w2.2)) || (decide (w2.2 < w1.1) && decide (w2.1 < w1.2))

/-- `spherical_bounding_box_test` (spherical.py:34-56): `a1 i` and `a2 i` are the angles of the two sets in the plane of axis `i`. -/
def boxTest (tau : K) (a1 a2 : Nat → List K) : List Nat → Option Bool
  | [] => some false
  | i :: is =>
    match wedge tau (a1 i), wedge tau (a2 i) with
    | some w1, some w2 => if wedgesApart w1 w2 then some true else boxTest tau a1 a2 is
    | _, _ => none

/-- The linear program of `separating_circles_test` (spherical.py:66-77): `x` is feasible; `linprog` bounds all variables below
by 0. -/
def feasible (p1 p2 : List (V K)) (x : K × K × K × K) : Prop :=
  (0 ≤ x.1 ∧ 0 ≤ x.2.1 ∧ 0 ≤ x.2.2.1 ∧ 0 ≤ x.2.2.2) ∧
  (∀ p ∈ p1, -p.x * x.1 + -p.y * x.2.1 + -p.z * x.2.2.1 + -1 * x.2.2.2 ≤ 0) ∧
  (∀ p ∈ p2, p.x * x.1 + p.y * x.2.1 + p.z * x.2.2.1 + -1 * x.2.2.2 ≤ 0)

/-- `res.success` of a solver: there is an optimal solution of the objective `x[3]`. -/
def solvable (p1 p2 : List (V K)) : Prop :=
  ∃ x, feasible p1 p2 x ∧ ∀ y, feasible p1 p2 y → x.2.2.2 ≤ y.2.2.2

/-- `spherical_separability` (spherical.py:82-161) after the point itself has been removed: `circles` is the answer of
`separating_circles_test`. -/
def spherical (tau : K) (a1 a2 : Nat → List K) (circles : Bool) : Option Bool :=
  match boxTest tau a1 a2 [0, 1, 2] with
  | some true => some true
  | some false => some circles
  | none => none

end Verif.Csx
