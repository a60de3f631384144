import Verif.Sinv.Model

/-! # Nearest points of a surface for many points

`closest_points_on_surface`, `closest_point_on_surface_batched` (`mmcore/numeric/closest_point.py`).  Tree and searches are those of
`Bvh` and `DnC`; `k` bounds the rounds of the searches. -/

namespace Verif.Sinv

open Verif.Vec V3

variable {K : Type} [Field K] [LinearOrder K]

/-- The smallest rectangle with the pairs: `np.min` and `np.max` of the columns (closest_point.py:398-404). -/
def span (a : K × K) (l : List (K × K)) : DnC.Box K :=
  l.foldl (fun b q => ⟨min b.x0 q.1, max b.x1 q.1, min b.y0 q.2, max b.y1 q.2⟩) ⟨a.1, a.1, a.2, a.2⟩

/-- One round of the loop of `closest_points_on_surface` (closest_point.py:389-408); `none` is no end of the search. -/
def closestOne (ev : K × K → V3 K) (tol : K) (k : Nat) (root : Bvh.Node K (Quad K)) (r : DnC.Box K) (p : V3 K) : Option (K × K) :=
  match (Bvh.containsPt root (toPt p)).flatten with
  | [] => DnC.min2d (sqDist ev p) tol r k
  | o :: os =>
    match (o :: os).flatMap Quad.uvs with
    | [] => none
    | a :: l => DnC.min2d (sqDist ev p) tol (span a l) k

/-- `closest_points_on_surface` (closest_point.py:372-409): the tree is built with 10 and 10. -/
def closestPoints (ev : K × K → V3 K) (tol : K) (k fuel : Nat) (r : DnC.Box K) (pts : List (V3 K)) : Option (List (K × K)) :=
  match tree ev r 10 10 fuel with
  | none => none
  | some root => pts.mapM (closestOne ev tol k root r)

/-- `closest_point_on_surface_batched` (closest_point.py:412-440). -/
def closestBatched (ev : K × K → V3 K) (tol : K) (k : Nat) (r : DnC.Box K) (pts : List (V3 K)) : Option (List (K × K)) :=
  DnC.min2dV tol (pts.map fun p => (sqDist ev p, r)) k

end Verif.Sinv
