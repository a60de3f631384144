import Verif.Srf.Model
import Verif.DnC.Model
import Verif.Newt.Model
import Verif.Bvh.Model

/-! # Parameters of a point on a Python surface, its distance function, and frames of curves on surfaces

`Surface.inversion`, `Surface.implicit`, `Surface.gradient`, `CurveOnSurface.plane_at`, `CurveOnSurface.normal`
(`mmcore/geom/surfaces/__init__.py`).  Numbers are elements of an ordered field; the norm is a parameter.  Tree, Newton's method and the search by
halving are those of the areas `Bvh`, `Newt` and `DnC`. -/

namespace Verif.Sinv

open Verif.Vec V3

variable {K : Type} [Field K] [LinearOrder K]

/-- `PQuad` (bvh/__init__.py:221-226): the box of the four points and the four parameter pairs. -/
structure Quad (K : Type) where
  box : Bvh.BB K
  uvs : List (K × K)

/-- A vector as a row of an array. -/
def toPt (v : V3 K) : Aabb.Pt K := fun i => if i = 0 then v.x else if i = 1 then v.y else v.z

/-- `PQuad(surf(q), q)` (surfaces/__init__.py:391-393) with `BoundingBox(*aabb(pts))` (bvh/__init__.py:210-212). -/
def mkQuad (ev : K × K → V3 K) (q : (K × K) × (K × K) × (K × K) × (K × K)) : Quad K :=
  let p := fun i : Nat => toPt (ev (if i = 0 then q.1 else if i = 1 then q.2.1 else if i = 2 then q.2.2.1 else q.2.2.2))
  ⟨Bvh.BB.mk' (fun j => min (min (p 0 j) (p 1 j)) (min (p 2 j) (p 3 j))) (fun j => max (max (p 0 j) (p 1 j)) (max (p 2 j) (p 3 j))),
    [q.1, q.2.1, q.2.2.1, q.2.2.2]⟩

/-- `surface_bvh` (surfaces/__init__.py:379-395); `build_tree` (360-361) calls it with 5 and 5. -/
def tree (ev : K × K → V3 K) (r : DnC.Box K) (nu nv fuel : Nat) : Option (Bvh.Node K (Quad K)) :=
  Bvh.build Quad.box 1 fuel ((Srf.quads r.x0 r.x1 r.y0 r.y1 nu nv).map (mkQuad ev))

/-- The functions `wrp1` and `wrp` (surfaces/__init__.py:188-194). -/
def sqDist (ev : K × K → V3 K) (p : V3 K) (uv : K × K) : K := dot (sub (ev uv) p) (sub (ev uv) p)

/-- `np.average(uvs, axis=0)` (surfaces/__init__.py:204). -/
def average (l : List (K × K)) : K × K := ((l.map Prod.fst).sum / (l.length : K), (l.map Prod.snd).sum / (l.length : K))

/-- The constants of the two searches: tolerance and number of rounds of Newton's method, width of the differences, contents of a fresh
array, tolerance and number of rounds of the search by halving. -/
structure Cfg (K : Type) where
  ntol : K
  maxIter : Nat
  h : K
  y0 : Nat → K
  tol : K
  k : Nat

/-- `Surface.inversion` (surfaces/__init__.py:187-205) on the range `r`; `none` is `None`. -/
def inversion (cfg : Cfg K) (ev : K × K → V3 K) (root : Bvh.Node K (Quad K)) (r : DnC.Box K) (p : V3 K) : Option (K × K) :=
  match (Bvh.containsPt root (toPt p)).flatten with
  | [] => DnC.min2d (sqDist ev p) cfg.tol r cfg.k
  | q :: qs =>
    let s := average (DnC.argmin (fun q => q.box.volume) q qs).uvs
    (Newt.newtonsMethod 2 (fun x => sqDist ev p (x 0, x 1)) (fun i => if i = 0 then s.1 else s.2) cfg.ntol cfg.maxIter cfg.h cfg.y0).map
      fun x => (x 0, x 1)

/-- `Surface.implicit` (surfaces/__init__.py:208-213) for an `inversion`; for the result `None` it raises. -/
def implicit (inv : V3 K → Option (K × K)) (ev : K × K → V3 K) (p : V3 K) : Option K :=
  (inv p).map fun uv => dot (sub p (ev uv)) (sub p (ev uv))

/-- `Surface.gradient` (surfaces/__init__.py:218-222): the last row of `plane_at`; `none` is an exception or NaN. -/
def gradient (nrm : V3 K → K) (inv : V3 K → Option (K × K)) (du dv : K × K → V3 K) (p : V3 K) : Option (V3 K) :=
  (inv p).bind fun uv => (Srf.planeAt nrm (du uv) (dv uv)).map fun f => f.2.2

/-- An argument of `scalar_unit(double[:] vec)`: an array of numbers, or a Python list. -/
inductive Arg (K : Type) where
  | array (v : V3 K)
  | list (l : List (V3 K))

/-- `scalar_unit` (vectors.pyx:363-375).  A list has no buffer: `TypeError`; a vector of length zero gives NaN.  Both are `none`. -/
def scalarUnit (nrm : V3 K → K) : Arg K → Option (V3 K)
  | .array v => if nrm v = 0 then none else some ⟨v.x / nrm v, v.y / nrm v, v.z / nrm v⟩
  | .list _ => none

/-- `CurveOnSurface.plane_at` (surfaces/__init__.py:128-134) from the point, the tangent and the normal of the surface. -/
def planeAt (nrm : V3 K → K) (o t n : V3 K) : Option (V3 K × V3 K × V3 K × V3 K) := do
  let t ← scalarUnit nrm (.array t)
  let b ← scalarUnit nrm (.array n)
  return (o, t, cross b t, b)

/-- `CurveOnSurface.normal` (surfaces/__init__.py:136-138): the two entries of the result of `scalar_unit` would go to `scalar_cross`; the entries
of a vector are numbers, for which `scalar_cross` raises too. -/
def normal (nrm : V3 K → K) (n t : V3 K) : Option (V3 K) := (scalarUnit nrm (.list [n, t])).bind fun _ => none

end Verif.Sinv
