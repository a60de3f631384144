import Verif.Pinv.Model

/-! # Intersection of two surfaces by marching

`mmcore/numeric/intersection/ssx/_ssi.pyx`, `surface_surface.py` and `_terminator.py`.

Numbers are elements of an ordered field; `nrm` and `nrm2` are the Euclidean norms, `sqrt` the square root.  `none` is an exception or
a NaN.  A surface is a point and the two derivatives for each pair of parameters (`Verif.Pinv.Srf`). -/

namespace Verif.Ssx

open Verif.Vec V3 Verif.Pinv

variable {K : Type} [Field K] [LinearOrder K]

/-! ## Improving the parameters -/

/-- A 2 × 2 system: the matrix by rows and the right-hand side. -/
structure Sys (K : Type) where
  a : K
  b : K
  c : K
  d : K
  y0 : K
  y1 : K

/-- Its determinant. -/
def Sys.det (s : Sys K) : K := s.a * s.d - s.b * s.c

/-- The systems in the coordinates xy, xz and yz (_ssi.pyx:11-13, surface_surface.py:63-65). -/
def systems (du dv d : V3 K) : List (Sys K) :=
  [⟨du.x, dv.x, du.y, dv.y, d.x, d.y⟩, ⟨du.x, dv.x, du.z, dv.z, d.x, d.z⟩, ⟨du.y, dv.y, du.z, dv.z, d.y, d.z⟩]

/-- The loop that chooses a system (_ssi.pyx:22-26). -/
def pick : List (Sys K) → K × Sys K → K × Sys K
  | [], st => st
  | s :: l, st => pick l (if s.det > st.1 then (s.det, s) else st)

/-- `improve_uv` (_ssi.pyx:10-36); `none` is the return value 1, `eps` is 1e-9. -/
def improveUv (eps : K) (du dv old better : V3 K) : Option (K × K) :=
  let d := better.sub old
  let st := pick (systems du dv d) (0, ⟨du.x, dv.x, du.y, dv.y, d.x, d.y⟩)
  if st.1 < eps then none
  else some ((st.2.y0 * st.2.d - st.2.b * st.2.y1) / st.1, (st.2.a * st.2.y1 - st.2.y0 * st.2.c) / st.1)

/-- `max` of a list with `det` as key: the first of the largest. -/
def maxDet (s : Sys K) : List (Sys K) → Sys K
  | [] => s
  | t :: l => maxDet (if t.det > s.det then t else s) l

/-- `improve_uv` (surface_surface.py:57-70), the version in Python. -/
def improveUvPy (du dv old better : V3 K) : Option (K × K) :=
  match systems du dv (better.sub old) with
  | [] => none
  | s :: l => let m := maxDet s l; solve2x2 m.a m.b m.c m.d m.y0 m.y1

/-- What does not change during a computation: the norms, the square root, the 1e-9 of `improve_uv`, the tolerance 1e-6 and the
number of iterations of the point inversion. -/
structure Env (K : Type) where
  nrm : V3 K → K
  nrm2 : K × K → K
  sqrt : K → K
  eps : K
  ptol : K
  iters : Nat

/-- `improve_uv_robust` (surface_surface.py:72-83). -/
def improveRobust (E : Env K) (s : Srf K) (uv : K × K) (du dv old better : V3 K) : Option (K × K) :=
  match improveUv E.eps du dv old better with
  | none => invSurface E.nrm E.nrm2 s better E.ptol E.ptol E.iters uv
  | some r => some (r.1 + uv.1, r.2 + uv.2)

/-! ## One step -/

/-- `SurfaceDerivativesData` (surface_surface.py:47-53). -/
structure SD (K : Type) where
  uv : K × K
  pt : V3 K
  du : V3 K
  dv : V3 K
  n : V3 K

/-- `calculate_derivatives_data` (surface_surface.py:196-208). -/
def derivData (E : Env K) (s : Srf K) (uv : K × K) : Option (SD K) :=
  (unit E.nrm (cross (s.du uv) (s.dv uv))).map fun n => ⟨uv, s.ev uv, s.du uv, s.dv uv, n⟩

/-- `IntersectionStepData` (surface_surface.py:85-89). -/
structure StepD (K : Type) where
  first : SD K
  second : SD K
  t : V3 K

/-- `SSXMethod.calculate_intersection_step_data` (surface_surface.py:210-219). -/
def stepData (E : Env K) (s1 s2 : Srf K) (uv1 uv2 : K × K) : Option (StepD K) := do
  let a ← derivData E s1 uv1
  let b ← derivData E s2 uv2
  let t ← unit E.nrm (cross a.n b.n)
  pure ⟨a, b, t⟩

/-- `improve_uvs` (surface_surface.py:222-229). -/
def improveUvs (E : Env K) (s1 s2 : Srf K) (d : StepD K) (better : V3 K) : Option ((K × K) × (K × K)) := do
  let a ← improveRobust E s1 d.first.uv d.first.du d.first.dv d.first.pt better
  let b ← improveRobust E s2 d.second.uv d.second.du d.second.dv d.second.pt better
  pure (a, b)

/-- `Surface.normal`. -/
def normalAt (E : Env K) (s : Srf K) (uv : K × K) : Option (V3 K) := unit E.nrm (cross (s.du uv) (s.dv uv))

/-- `sectional_tangent` (surface_surface.py:429-445). -/
def sectionalTangent (E : Env K) (s1 s2 : Srf K) (d : StepD K) (veps : V3 K) : Option (V3 K) := do
  let uvs ← improveUvs E s1 s2 d (d.first.pt.add veps)
  let n1 ← normalAt E s1 uvs.1
  let n2 ← normalAt E s2 uvs.2
  unit E.nrm (cross n1 n2)

/-- `calculate_sectional_curvature` (surface_surface.py:427-455). -/
def sectionalCurvature (E : Env K) (s1 s2 : Srf K) (d : StepD K) : Option (V3 K) :=
  (sectionalTangent E s1 s2 d d.t).map fun tn => smul (1 / E.nrm d.t) (tn.sub d.t)

/-- `calculate_step` (surface_surface.py:409-415): the norm of the curvature vector is `k`; a division by zero raises, the root of a
negative number is NaN. -/
def stepLen (sqrt : K → K) (tol k : K) : Option K :=
  if k = 0 then none
  else
    let r := 1 / k
    let q := r ^ 2 - (r - tol) ^ 2
    if q < 0 then none else some (sqrt q * 2)

/-- `refine_point` with `calculate_new_plane` (surface_surface.py:417-425, 457-469). -/
def refinePoint (d : StepD K) (side step : K) : Option (V3 K) :=
  intersect3 d.first.pt d.first.n d.second.pt d.second.n (d.second.pt.add (smul (side * step) d.t)) d.t

/-- A pair of parameters is in the rectangle (`handle_inside`, surface_surface.py:231-237, negated). -/
def inRect (b : (K × K) × (K × K)) (uv : K × K) : Bool :=
  decide (b.1.1 ≤ uv.1) && decide (uv.1 ≤ b.1.2) && decide (b.2.1 ≤ uv.2) && decide (uv.2 ≤ b.2.2)

/-- A point with its parameters on both surfaces. -/
structure Pt (K : Type) where
  xyz : V3 K
  uv1 : K × K
  uv2 : K × K

/-- `handle_edge` (surface_surface.py:239-250); `closest` is `get_closest` of the terminators, `none` if there are none. -/
def handleEdge (b1 b2 : (K × K) × (K × K)) (closest : Option (V3 K → Pt K)) (p : Pt K) : Bool × Pt K :=
  if inRect b1 p.uv1 && inRect b2 p.uv2 then (false, p)
  else match closest with
    | none => (true, p)
    | some f => (true, f p.xyz)

/-- `MarchingMethod.step` (surface_surface.py:366-407): the point, the length of the step and whether the edge was reached. -/
def marchStep (E : Env K) (s1 s2 : Srf K) (b1 b2 : (K × K) × (K × K)) (closest : Option (V3 K → Pt K)) (tol side : K) (uv1 uv2 : K × K) :
    Option (Pt K × K × Bool) := do
  let d ← stepData E s1 s2 uv1 uv2
  let kv ← sectionalCurvature E s1 s2 d
  let step ← stepLen E.sqrt tol (E.nrm kv)
  let p ← refinePoint d side step
  let uvs ← improveUvs E s1 s2 d p
  let r := handleEdge b1 b2 closest ⟨p, uvs.1, uvs.2⟩
  pure (r.2, step, r.1)

/-! ## The free-form iteration -/

/-- `closest_point_on_ray` (closest_point.py:309-312). -/
def onRay (start dir p : V3 K) : V3 K := start.add (vectorProjection (p.sub start) dir)

/-- `FreeFormMethod.refine_points` (surface_surface.py:258-266, 278-285): the point in the middle. -/
def freeMid (a b : SD K) : Option (V3 K) :=
  (intersect2 a.pt a.n b.pt b.n).map fun l =>
    let p1 := onRay l.1 l.2 a.pt
    let p2 := onRay l.1 l.2 b.pt
    p1.add (smul (1 / 2) (p2.sub p1))

/-- The answer of `FreeFormMethod.solve`; `raised` is an exception, or NaN in the parameters, for which `handle_inside` makes the code return
nothing. -/
inductive Free (K : Type) where
  | raised
  | nothing
  | found (p : Pt K)

/-- `FreeFormMethod.solve` without edges (surface_surface.py:287-338). -/
def freeSolve (E : Env K) (s1 s2 : Srf K) (b1 b2 : (K × K) × (K × K)) (tol : K) : Nat → K × K → K × K → Free K
  | 0, _, _ => .nothing
  | n + 1, uv1, uv2 =>
    match derivData E s1 uv1, derivData E s2 uv2 with
    | some a, some b =>
      match freeMid a b with
      | none => .raised
      | some mid =>
        match improveRobust E s1 a.uv a.du a.dv a.pt mid, improveRobust E s2 b.uv b.du b.dv b.pt mid with
        | some w1, some w2 =>
          if inRect b1 w1 && inRect b2 w2 then
            if E.nrm (mid.sub a.pt) < tol ∧ E.nrm (mid.sub b.pt) < tol then .found ⟨mid, w1, w2⟩
            else freeSolve E s1 s2 b1 b2 tol n w1 w2
          else .nothing
        | _, _ => .raised
    | _, _ => .raised

/-! ## The loop of marching -/

/-- `TerminatorType` (_terminator.py:17-21). -/
inductive Term where
  | fail
  | loop
  | edge
  | step
  deriving DecidableEq

/-- What `MarchingMethod.solve` returns: parameters, points, lengths, indices of the start points passed, terminator. -/
structure Res (P U K : Type) where
  uvs : List U
  pts : List P
  steps : List K
  ixss : List Nat
  term : Term

section
variable {P U : Type}

/-- The loop of `MarchingMethod.solve` (surface_surface.py:498-523).  `step uv` is the point, the parameters, the length and the
flag, or `none`; `ball x r` is `query_ball_point`; `near p r` is the test with the first point of the first surface in line 516. -/
def marchLoop (step : U → Option (P × U × K × Bool)) (ball : P → K → List Nat) (near : P → K → Bool) (init : U) (first : P) :
    Nat → U → Res P U K → Res P U K
  | 0, _, r => r
  | n + 1, uv, r =>
    match step uv with
    | none => { r with term := .edge }
    | some (p, w, l, edge) =>
      let r' : Res P U K := ⟨r.uvs ++ [w], r.pts ++ [p], r.steps ++ [l], r.ixss ++ ball p (l * 2), if edge then .edge else .step⟩
      if edge then r'
      else if near p l then { r' with uvs := r'.uvs ++ [init], pts := r'.pts ++ [first], term := .loop }
      else marchLoop step ball near init first n w r'

/-- `MarchingMethod.solve` (surface_surface.py:472-523). -/
def marchSolve (step : U → Option (P × U × K × Bool)) (ball : P → K → List Nat) (near : P → K → Bool) (maxIter : Nat) (init : U) :
    Option (Res P U K) :=
  match step init with
  | none => none
  | some (p, w, l, edge) =>
    let r : Res P U K := ⟨[w], [p], [l], 0 :: ball p (l * 2), if edge then .edge else .step⟩
    if edge then some r else some (marchLoop step ball near init p maxIter w r)

/-! ## The loop over the start points -/

/-- The state of `surface_ppi` (surface_surface.py:572-578): start points with their parameters, and the curves found, points and
parameters. -/
structure PS (P U : Type) where
  data : List P
  uvs : List U
  curves : List (List P)
  cuvs : List (List U)
  terms : List (List Term)

/-- `np.delete(l, rmv, axis=0)`. -/
def deleteAt {α : Type} (l : List α) (rmv : List Nat) : List α :=
  (l.zipIdx.filter fun x => decide (x.2 ∉ rmv)).map Prod.fst

/-- `_next` (surface_surface.py:589-657).  `solve side data uv` is the result of marching from `uv` in the direction `side` with the
tree of `data`.  The parameters of both surfaces are one list here. -/
def ppiNext (solve : Bool → List P → U → Option (Res P U K)) (s : PS P U) : PS P U :=
  match s.data, s.uvs with
  | p :: _, uv :: _ =>
    match solve true s.data uv with
    | none => { s with data := deleteAt s.data [0], uvs := deleteAt s.uvs [0] }
    | some r =>
      match (if r.term ≠ .loop then solve false s.data uv else none) with
      | some b =>
        let rmv := r.ixss ++ b.ixss
        ⟨deleteAt s.data rmv, deleteAt s.uvs rmv, s.curves ++ [b.pts.reverse ++ [p] ++ r.pts], s.cuvs ++ [b.uvs.reverse ++ [uv] ++ r.uvs],
          s.terms ++ [[b.term, r.term]]⟩
      | none =>
        ⟨deleteAt s.data r.ixss, deleteAt s.uvs r.ixss, s.curves ++ [p :: r.pts], s.cuvs ++ [uv :: r.uvs], s.terms ++ [[r.term]]⟩
  | _, _ => s

/-- The loop of `surface_ppi` (surface_surface.py:660-670); the first argument is what is left of `min (max_iter, l)`. -/
def ppiLoop (solve : Bool → List P → U → Option (Res P U K)) : Nat → PS P U → PS P U
  | 0, s => s
  | n + 1, s => if s.data = [] then s else ppiLoop solve n (ppiNext solve s)

end

/-! ## Terminators -/

/-- `Terminator` (_terminator.py:24-35). -/
structure Trm (K : Type) where
  pts : List (Pt K)
  size : Nat
  kd : Option (List (V3 K))

/-- `Terminator.__init__`. -/
def Trm.new (ps : List (Pt K)) : Trm K := ⟨ps, ps.length, some (ps.map Pt.xyz)⟩

/-- The index of the closest point, the first of them: `KDTree.query` with `k = 1`; on an empty tree the index is its size. -/
def nearest (q : V3 K) : List (V3 K) → Nat
  | [] => 0
  | [_] => 0
  | p :: p' :: l =>
    let i := nearest q (p' :: l)
    if dot (p.sub q) (p.sub q) ≤ dot (((p' :: l).getD i p).sub q) (((p' :: l).getD i p).sub q) then 0 else i + 1

/-- `get_closest` (_terminator.py:51-55). -/
def Trm.getClosest (t : Trm K) (q : V3 K) : Option (Pt K) :=
  match t.kd with
  | none => t.pts[0]?
  | some l => t.pts[nearest q l]?

/-- `__delitem__` (_terminator.py:65-73): the results of `np.delete` are dropped. -/
def Trm.del (t : Trm K) (_i : Nat) : Trm K :=
  let size := t.size - 1
  ⟨t.pts, size, if size > 1 then some (t.pts.map Pt.xyz) else none⟩

/-- `pop` (_terminator.py:105-121). -/
def Trm.pop (t : Trm K) : Option (Pt K × Trm K) :=
  match t.pts with
  | [] => none
  | p :: l => some (p, ⟨l, t.size - 1, if t.size - 1 > 1 then some (l.map Pt.xyz) else none⟩)

/-- `surface_surface_boundary_intersection` for NURBS surfaces (_terminator.py:141-152): points that agree with one kept before in the
point, in the parameters on the first surface or in those on the second are skipped. -/
def keepNew (kept : List (Pt K)) : List (Pt K) → List (Pt K)
  | [] => kept
  | p :: l =>
    if kept.all fun q => decide (q.xyz.x ≠ p.xyz.x ∨ q.xyz.y ≠ p.xyz.y ∨ q.xyz.z ≠ p.xyz.z) && decide (q.uv1 ≠ p.uv1) && decide (q.uv2 ≠ p.uv2)
    then keepNew (kept ++ [p]) l else keepNew kept l

end Verif.Ssx
