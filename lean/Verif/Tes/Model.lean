import Mathlib.Algebra.Order.Field.Basic
import Mathlib.Algebra.BigOperators.Group.List.Basic
import Verif.Rtn.Model

/-!
# Input of the triangulation: loops, holes and grids of parameters

`mmcore/topo/mesh/triangle/tri.py` and `mmcore/topo/mesh/tess.py`.  The library Triangle itself is C code outside the repository; modelled
is what the Python code hands to it.  Points are pairs over an ordered field; indexing an empty sequence and unpacking an object that is
not a sequence are `none`.
-/

set_option linter.unusedSectionVars false

namespace Verif.Tes

open Verif.Rtn (linspace uvs)

variable {α K : Type}

/-- `segments_by_loop` (tri.py:185-186) for a loop of `n` points. -/
def segmentsByLoop (n start : ℕ) : List (ℕ × ℕ) := (List.range n).map fun i : ℕ => (i + start, (i + 1) % n + start)

/-- `if np.allclose(loop[0], loop[-1]): loop = loop[:-1]` (tri.py:195-196, 202-203); `cl` is `np.allclose`. -/
def dropClosing (cl : α → α → Bool) (l : List α) : Option (List α) :=
  match l.head?, l.getLast? with
  | some a, some b => some (if cl a b then l.dropLast else l)
  | _, _ => none

/-- The loop over the boundaries (tri.py:194-199): edges and the running index. -/
def boundaryEdges (cl : α → α → Bool) : List (List α) → ℕ → List (ℕ × ℕ) → Option (ℕ × List (ℕ × ℕ))
  | [], m, es => some (m, es)
  | b :: bs, m, es =>
    match dropClosing cl b with
    | none => none
    | some b => boundaryEdges cl bs (m + b.length) (es ++ segmentsByLoop b.length m)

variable [Field K]

/-- `np.average(points, axis=0)`. -/
def average (l : List (K × K)) : K × K := ((l.map Prod.fst).sum / (l.length : K), (l.map Prod.snd).sum / (l.length : K))

/-- The loop over the holes (tri.py:200-207): edges, points in the holes, the running index. -/
def holeEdges (cl : K × K → K × K → Bool) : List (List (K × K)) → ℕ → List (ℕ × ℕ) → List (K × K) → Option (List (ℕ × ℕ) × List (K × K))
  | [], _, es, ps => some (es, ps)
  | h :: hs, m, es, ps =>
    match dropClosing cl h.reverse with
    | none => none
    | some h => holeEdges cl hs (m + h.length) (es ++ segmentsByLoop h.length m) (ps ++ [average h])

/-- What is handed to Triangle. -/
structure Data (K : Type) where
  vertices : List (K × K)
  holes : List (K × K)
  segments : List (ℕ × ℕ)
  deriving DecidableEq

/-- `prepare_args` (tri.py:189-210). -/
def prepareArgs (cl : K × K → K × K → Bool) (boundaries holes : List (List (K × K))) : Option (Data K) :=
  match boundaryEdges cl boundaries 0 [] with
  | none => none
  | some (m, es) =>
    match holeEdges cl holes m es [] with
    | none => none
    | some (es, ps) => some ⟨(boundaries ++ holes).flatten, ps, es⟩

/-! ## Tessellation of surfaces -/

/-- The counts without density (tess.py:117-124); `None` is `none`. -/
def counts : Option ℕ → Option ℕ → Option ℕ × Option ℕ
  | some _, none => (some 25, some 25)
  | none, v => (v, v)
  | some u, some v => (some u, some v)

/-- The counts with density (tess.py:104-112); `trunc` is `int`, multiplying by `None` raises. -/
def countsDensity (trunc : K → ℕ) (ratio : K) : Option ℕ → Option ℕ → Option (ℕ × ℕ)
  | some _, none => some (25, trunc (ratio * ((25 : ℕ) : K)))
  | none, none => none
  | none, some v => some (trunc (1 / ratio * (v : K)), v)
  | some u, some v => some (u, v)

/-- `np.linspace(p, q, n)` for points. -/
def linspace2 (p q : K × K) (n : ℕ) : List (K × K) :=
  (List.range n).map fun i : ℕ => (linspace p.1 q.1 n i, linspace p.2 q.2 n i)

/-- The boundary of the parameter rectangle (tess.py:128-132). -/
def boundary (lo hi : K × K) (uc vc : ℕ) : List (K × K) :=
  linspace2 (lo.1, lo.2) (hi.1, lo.2) uc ++ linspace2 (hi.1, lo.2) (hi.1, hi.2) vc ++
    linspace2 (hi.1, hi.2) (lo.1, hi.2) uc ++ linspace2 (lo.1, hi.2) (lo.1, lo.2) vc

/-- `_process_trim` gives a polygon and its ring of edges (tess.py:48-53); the loop over the trims (tess.py:141-146). -/
def addTrims : List (List α) → ℕ → List (ℕ × ℕ) → List α → List (ℕ × ℕ) × List α
  | [], _, es, vs => (es, vs)
  | p :: ps, m, es, vs =>
    addTrims ps (m + (segmentsByLoop p.length 0).length) (es ++ (segmentsByLoop p.length 0).map fun e => (e.1 + m, e.2 + m)) (vs ++ p)

/-- The parameters inside (tess.py:133-135, 147): the two corners of the inner rectangle are passed as the two intervals of `uvs`. -/
def inner (lo hi : K × K) (uc vc : ℕ) (mem : ℕ → K × K) : List (K × K) :=
  let us := (hi.1 - lo.1) / (uc : K)
  let vs := (hi.2 - lo.2) / (vc : K)
  uvs (linspace (lo.1 + us) (lo.2 + vs) (uc - 1)) (linspace (hi.1 - us) (hi.2 - vs) (vc - 1)) (uc - 1) (vc - 1) mem

/-- The vertices and segments handed to Triangle (tess.py:126-154) once the corners of the parameter rectangle are known. -/
def tessParams (lo hi : K × K) (uc vc : ℕ) (trims : List (List (K × K))) (mem : ℕ → K × K) : List (ℕ × ℕ) × List (K × K) :=
  let b := boundary lo hi uc vc
  let r := addTrims trims b.length (segmentsByLoop b.length 0) b
  (r.1, r.2 ++ inner lo hi uc vc mem)

/-- A value given as surface: an object of a surface class (which has no `__iter__` and no `__getitem__`, but `__call__`), or a pair of
pairs. -/
inductive Val (K P : Type) where
  | surface (lo hi : K × K) (eval : K × K → P)
  | corners (lo hi : K × K)

/-- Unpacking `((u_min, v_min), (u_max, v_max)) = surface` (tess.py:126). -/
def Val.unpack {P : Type} : Val K P → Option ((K × K) × (K × K))
  | .surface _ _ _ => none
  | .corners lo hi => some (lo, hi)

/-- `surface(vxs)` (tess.py:167). -/
def Val.call {P : Type} : Val K P → Option (K × K → P)
  | .surface _ _ f => some f
  | .corners _ _ => none

/-- `tessellate_surface` without density (tess.py:85-168); `tri` is Triangle, giving vertices. -/
def tessellateSurface {P : Type} (tri : List (ℕ × ℕ) × List (K × K) → List (K × K)) (s : Val K P) (trims : List (List (K × K))) (uc vc : Option ℕ)
    (mem : ℕ → K × K) : Option (List (K × K) × List P) := do
  let c := counts uc vc
  let b ← s.unpack
  let u ← c.1
  let v ← c.2
  let vs := tri (tessParams b.1 b.2 u v trims mem)
  let f ← s.call
  return (vs, vs.map f)

/-- `tessellate_curve_on_surface` (tess.py:11-42): the polygon and the points of the unit square inside it; `inside` is
`is_point_in_polygon_bvh`. -/
def tessCurve (inside : List (K × K) → K × K → Bool) (plgn : List (K × K)) (uc vc : ℕ) : List (ℕ × ℕ) × List (K × K) :=
  (segmentsByLoop plgn.length 0,
    plgn ++ ((List.range uc).flatMap fun i : ℕ => (List.range vc).map fun j : ℕ => (linspace 0 1 uc i, linspace 0 1 vc j)).filter (inside plgn))

end Verif.Tes
