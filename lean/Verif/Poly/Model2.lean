import Verif.Poly.Model

/-!
# Model of `Polygon.refine` and `PolygonCollection._union` (`mmcore/geom/polygon.py`)

The ring of vertices is the list of its points from the head on; a node is a place in the list.  `refine` compares the cosine of the
angle at a vertex with 1 and -1 by `np.allclose`; the test is a parameter of the loop, and `flat` is the test without a tolerance.
-/

namespace Verif.Poly

variable {K : Type} [Field K] [LinearOrder K]

/-- `np.allclose(np.abs(node.dot), 1.)` (polygon.py:229-231, 403; vec/__init__.py:74-77) without the tolerance: the two edges at `b` lie on one
line.  With an edge of length zero the cosine is NaN and the test fails. -/
def flat (a b c : K × K) : Bool :=
  decide (a ≠ b ∧ b ≠ c ∧ (a.1 - b.1) * (c.2 - b.2) - (a.2 - b.2) * (c.1 - b.1) = 0)

/-- The loop of `Polygon.refine` (polygon.py:398-406): `k` is the place of `node`; `none` when the rounds do not suffice. -/
def refineLoop {P : Type} (fl : P → P → P → Bool) (d : P) : Nat → List P → Nat → Option (List P)
  | 0, _, _ => none
  | fuel + 1, r, k =>
    if k + 1 = r.length then some r
    else if fl (r.getD k d) (r.getD (k + 1) d) (r.getD ((k + 2) % r.length) d) then
      let r' := r.eraseIdx (k + 1)
      refineLoop fl d fuel r' (if k + 1 = r'.length then 0 else k + 1)
    else refineLoop fl d fuel r (k + 1)

/-- `Polygon.refine` (polygon.py:397-406); `none` for a polygon without vertices, where it raises. -/
def refine {P : Type} (fl : P → P → P → Bool) (d : P) (r : List P) : Option (List P) :=
  if r = [] then none else refineLoop fl d (r.length * r.length + r.length + 1) r 0

/-- The loop over the other polygons (polygon.py:617-622): the place and the union of the first one whose union with `p` is one
polygon. -/
def firstUnion {P : Type} (un : P → P → List P) (p : P) : Nat → List P → Option (Nat × P)
  | _, [] => none
  | i, q :: rest => match un q p with
    | [u] => some (i, u)
    | _ => firstUnion un p (i + 1) rest

/-- `PolygonCollection._union` (polygon.py:605-624), which returns at the end of the first round of its outer loop; `none` is `None`.
`un` is `Polygon.union`. -/
def unionAll {P : Type} (un : P → P → List P) : List P → Option (List P × List P)
  | [] => none
  | p :: rest => match firstUnion un p 0 rest with
    | some (i, u) => some (rest.set i u, [])
    | none => some (rest, [p])

end Verif.Poly
