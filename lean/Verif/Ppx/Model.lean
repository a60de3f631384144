import Mathlib.Algebra.Order.Field.Basic
import Verif.Vec.Model

/-!
# Marching along the intersection of two surfaces, `mmcore/numeric/intersection/pp.py`

Exact ordered field; `np.linalg.solve`, `np.linalg.lstsq`, the norm and the square root are parameters.  The surfaces enter the two steps
through what is computed from them.
-/

set_option linter.unusedSectionVars false

namespace Verif.Ppx

open Verif.Vec (V3)
open Verif.Vec.V3

variable {K : Type} [Field K] [LinearOrder K]

/-- `_plane_line_intersect` (pp.py:42-50) for the plane with origin `o` and normal `n`. -/
def planeLine (o n : V3 K) (ro rd : V3 K) (tol : K) : Option (V3 K) :=
  let ndotu := dot n rd
  if |ndotu| < tol then none
  else
    let w := sub ro o
    let si := dot (smul (-1) n) w / ndotu
    some (add (add w (smul si rd)) o)

/-- The system of `_plane_plane_intersect` (pp.py:57-73): `solve n1 n2 r d1 d2` solves
`2 x + l1 n1 + l2 n2 = r`, `n1 x = d1`, `n2 x = d2`. -/
abbrev Solve5 (K : Type) := V3 K → V3 K → V3 K → K → K → Option (V3 K × K × K)

/-- `_plane_plane_intersect` (pp.py:53-77): a point and a direction. -/
def planePlane (solve : Solve5 K) (o1 n1 o2 n2 : V3 K) : Option (V3 K × V3 K) :=
  match solve n1 n2 o1 (dot o1 n1) (dot o2 n2) with
  | none => none
  | some s => some (s.1, cross n1 n2)

/-- `_plane_plane_plane_intersect` (pp.py:80-81). -/
def threePlanes (solve : Solve5 K) (o1 n1 o2 n2 o3 n3 : V3 K) (tol : K) : Option (V3 K) :=
  match planePlane solve o1 n1 o2 n2 with
  | none => none
  | some l => planeLine o3 n3 l.1 l.2 tol

/-- `_vector_projection` (pp.py:84-86): the sums of the rows of the outer product. -/
def vectorProjection (a b : V3 K) : V3 K :=
  let bn := dot b b
  ⟨(a.x * b.x + a.x * b.y + a.x * b.z) / bn, (a.y * b.x + a.y * b.y + a.y * b.z) / bn, (a.z * b.x + a.z * b.y + a.z * b.z) / bn⟩

/-- `_closest_point_on_line` (pp.py:89-92). -/
def closestOnLine (start stop p : V3 K) : V3 K := add start (vectorProjection (sub p start) (sub stop start))

/-- `freeform_step_debug` (pp.py:95-101). -/
def freeformDebug (solve : Solve5 K) (o1 n1 o2 n2 : V3 K) : Option (V3 K × V3 K × V3 K) :=
  match planePlane solve o1 n1 o2 n2 with
  | none => none
  | some l =>
    let p := closestOnLine l.1 (add l.1 l.2) o1
    let q := closestOnLine l.1 (add l.1 l.2) o2
    some (p, add p (smul (1 / 2) (sub q p)), q)

/-- `improve_uv` (pp.py:116-124): `lstsq du dv b` minimises the distance of `s du + t dv` from `b`. -/
def improve (lstsq : V3 K → V3 K → V3 K → K × K) (old du dv better : V3 K) : K × K := lstsq du dv (sub better old)

/-- The step of `solve_marching` (pp.py:107-112) and the origin of the third plane. -/
def marchStep (nrm : V3 K → K) (sqrt : K → K) (o1 n1 n2 : V3 K) (tol : K) : K × V3 K :=
  let d := cross n1 n2
  let l := nrm d
  let t := smul (1 / l) d
  let k := smul (1 / (l * l)) (add n1 (smul (-(dot n1 t)) t))
  let r := 1 / nrm k
  let step := sqrt (r * r - (r - tol) * (r - tol)) * 2
  (step, add o1 (smul step d))

/-- What `freeform_step` returns: nothing, a pair, or a pair whose second part is a result of the same kind.  The conditional expression of
pp.py:139-140 belongs to the second part only. -/
inductive Res (A : Type) where
  | none
  | two (a b : A)
  | nest (a : A) (r : Res A)
  deriving DecidableEq

/-- `freeform_step` (pp.py:127-140).  `better` gives the new parameters of both surfaces, `neg` whether one is negative, `close` whether the points
are closer than the tolerance, `a1` and `a2` point and parameters on the surfaces.  The first argument bounds the recursion. -/
def freeform {S A : Type} (better : S → S) (neg close : S → Bool) (a1 a2 : S → A) : ℕ → S → Option (Res A)
  | 0, _ => none
  | k + 1, s =>
    let s' := better s
    if neg s' then some .none
    else if close s' then some (.two (a1 s') (a2 s'))
    else (freeform better neg close a1 a2 k s').map (.nest (a1 s'))

/-- What `marching_step` returns: both parts and the step, or in place of the step a result of the same kind. -/
inductive MRes (A K : Type) where
  | none
  | done (a b : A) (step : K)
  | nest (a b : A) (r : MRes A K)
  deriving DecidableEq

/-- `marching_step` (pp.py:143-155). -/
def marching {S A : Type} (better : S → S) (neg close : S → Bool) (a1 a2 : S → A) (step : S → K) : ℕ → S → Option (MRes A K)
  | 0, _ => none
  | k + 1, s =>
    let s' := better s
    if neg s' then some .none
    else if close s' then some (.done (a1 s') (a2 s') (step s))
    else (marching better neg close a1 a2 step k s').map (.nest (a1 s') (a2 s'))

/-- `check_surface_edge` (pp.py:158-161). -/
def surfaceEdge (uv : K × K) (_interval : (K × K) × (K × K)) : Bool := !(decide (0 < uv.1) && decide (uv.1 < 1) && (decide (0 < uv.2) && decide (uv.2 < 1)))

end Verif.Ppx
