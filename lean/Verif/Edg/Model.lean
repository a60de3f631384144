import Verif.Bvh.Model

/-! # The nearest point of a NURBS curve and the ends of an edge

`closest_point_on_nurbs_curve`, `closest_point_on_nurbs_surface` and `closest_point_on_surface` (`mmcore/numeric/closest_point.py`), the
parameters of the ends of an edge (`mmcore/topo/brep/__init__.py`).  The tree of boxes and its searches are those of `Bvh/Model.lean`; the
pieces of `decompose_curve`, `newtons_method`, `bounded_newtons_method` and `divide_and_conquer_min_2d` are parameters. -/

namespace Verif.Edg

open Verif.Bvh
open Verif.Aabb (Pt)

variable {K : Type} [Field K] [LinearOrder K] {α : Type}

/-- The first of the pairs `(res, objective(res))` with the least second entry: `sorted(..., key=lambda x: x[1])[0]` (closest_point.py:189);
`none` for the empty list. -/
def best : List (K × K) → Option (K × K)
  | [] => none
  | x :: l => some (l.foldl (fun b y => if y.2 < b.2 then y else b) x)

/-- A call with `on_curve=False` (closest_point.py:162-189) on the tree `n`; `newton o` is what `newtons_method` returns from the middle of the
piece `o`, `none` for `None` (line 186 raises then).  `f` is `objective`. -/
def closestFree (nrm : K → K → K → K) (n : Node K α) (p : Pt K) (newton : α → Option K) (f : K → K) : Option (Bool × K × K) :=
  match (breadth nrm p n).1.flatten.mapM newton with
  | none => none
  | some ts => (best (ts.map fun t => (t, f t))).map fun r => (true, r)

/-- A call with `on_curve=True`: `bounded o` is the result of `bounded_newtons_method` on the interval of the piece. -/
def closestOn (nrm : K → K → K → K) (n : Node K α) (p : Pt K) (bounded : α → K) (newton : α → Option K) (f : K → K) : Option (Bool × K × K) :=
  match vicinity nrm p n with
  | none => (closestFree nrm n p newton f).map fun r => (false, r.2)
  | some (gs, _) =>
    if gs.length = 0 then (closestFree nrm n p newton f).map fun r => (false, r.2)
    else (best (gs.flatten.map fun o => (bounded o, f (bounded o)))).map fun r => (true, r)

/-- `closest_point_on_nurbs_surface` (closest_point.py:327-342): the candidates are those whose boxes hold the point; in the loop both branches
return without a value. -/
def closestOnNurbsSurface (n : Node K α) (p : Pt K) (dcMin : α → K × K) (f : α → K × K → K) (tol : K) : Option (K × K) :=
  match (containsPt n p).flatten with
  | [] => none
  | c :: _ => if f c (dcMin c) < tol then none else none

/-- `closest_point_on_surface` (closest_point.py:344-369).  `cpt` are the objects of the tree whose boxes hold the point with the volumes of the
boxes and the averages of their `uvs`; `Except.error` is the `ValueError`. -/
def closestOnSurface (cpt : List (K × (K × K))) (newton : K × K → Option (K × K)) (dcMin : (K × K) × (K × K) → K × K)
    (own : (K × K) × (K × K)) (bounds : Option ((K × K) × (K × K))) : Except Unit (K × K) :=
  match cpt with
  | [] => .ok (dcMin (bounds.getD own))
  | x :: l =>
    match newton (l.foldl (fun b y => if y.1 < b.1 then y else b) x).2 with
    | none => .error ()
    | some uv => .ok uv

/-! ## Edges -/

/-- What a vertex is represented by: an array of numbers, or any hashable object. -/
inductive Val (P : Type)
  | array (p : P)
  | hashable (p : P)

/-- The exceptions of `get_edge_ends_parameters`. -/
inductive Err
  /-- `TypeError` of `lru_cache`: the argument cannot be hashed -/
  | unhashable
  /-- the argument is not an array of numbers -/
  | notArray
  /-- `newtons_method` did not return -/
  | newton
  /-- `ValueError` of `check` -/
  | notOnEdge
deriving DecidableEq

/-- `_EndParameterResult` (brep/__init__.py:43-46). -/
structure EndResult (K : Type) where
  success : Bool
  param : K
  dist : K

/-- The body of `_get_edge_curve_parameters_at_points` (brep/__init__.py:73-78); `cp` is `closest_point_on_nurbs_curve(curve, ·, on_curve=True)`. -/
def endsBody {P : Type} (cp : P → Option (Bool × K × K)) (s e : P) : Option (EndResult K × EndResult K) :=
  match cp s, cp e with
  | some (ss, sp, _), some (es, ep, ed) => some (⟨ss, sp, sp⟩, ⟨es, ep, ed⟩)
  | _, _ => none

/-- `_EdgeCurveParametersResult.check` (brep/__init__.py:53-63): true if nothing is raised. -/
def check (r : EndResult K × EndResult K) : Bool := r.1.success && r.2.success

/-- `get_edge_ends_parameters` (brep/__init__.py:81-84) if the cache of line 65 were not there. -/
def endsUncached {P : Type} (cp : P → Option (Bool × K × K)) (chk : Bool) (s e : P) : Except Err (K × K) :=
  match endsBody cp s e with
  | none => .error .newton
  | some r => if chk && !check r then .error .notOnEdge else .ok (r.1.param, r.2.param)

/-- Whether `hash` of the value exists: not for an array. -/
def Val.canHash {P : Type} : Val P → Bool
  | .array _ => false
  | .hashable _ => true

/-- The value as `double[:]` (an argument of the compiled functions). -/
def Val.buffer {P : Type} : Val P → Option P
  | .array p => some p
  | .hashable _ => none

/-- `get_edge_ends_parameters` (brep/__init__.py:81-84) with the cache of line 65, which hashes its arguments before the body is run. -/
def endsParameters {P : Type} (cp : P → Option (Bool × K × K)) (chk : Bool) (s e : Val P) : Except Err (K × K) :=
  if !s.canHash || !e.canHash then .error .unhashable
  else
    match s.buffer, e.buffer with
    | some s, some e => endsUncached cp chk s e
    | _, _ => .error .notArray

end Verif.Edg
