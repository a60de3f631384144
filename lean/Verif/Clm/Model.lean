import Mathlib.Algebra.Order.Field.Basic
import Mathlib.Data.List.Basic

/-! # Boxes, grids and turned vectors in the plane

`clamp`, `expand`, `perp2d` (`mmcore/geom/vec/__init__.py`), `point_grid_2d` (`mmcore/numeric/routines/__init__.py`).  Arrays of one axis are lists; an
index out of range is `none`; numbers are elements of an ordered field. -/

namespace Verif.Clm

variable {K : Type} [Field K] [LinearOrder K]

/-- `clamp(self, min, max)` (vec/__init__.py:270-273). -/
def clamp (p lo hi : List K) : Option (List K) := do
  let l0 ← lo[0]?
  let h0 ← hi[0]?
  let p0 ← p[0]?
  let l1 ← lo[1]?
  let h1 ← hi[1]?
  let p1 ← p[1]?
  return [max l0 (min h0 p0), max l1 (min h1 p1)]

/-- `expand(self, pt)` (vec/__init__.py:276-279). -/
def expand (s p : List K) : Option (List K) := do
  let s0 ← s[0]?
  let p0 ← p[0]?
  let s1 ← s[1]?
  let p1 ← p[1]?
  return [min s0 p0, max s1 p1]

/-- `perp2d(v)` (vec/__init__.py:165-178): a copy with the first two entries written. -/
def perp2d (v : List K) : Option (List K) := do
  let v1 ← v[1]?
  let v0 ← v[0]?
  return (v.set 0 (-v1)).set 1 v0

/-- `np.linspace(a, b, n)[i]`: one value is the start; the last of several is the stop. -/
def linspace (a b : K) (n i : ℕ) : K :=
  if n ≤ 1 then a else if i = n - 1 then b else a + i * ((b - a) / ((n - 1 : ℕ) : K))

/-- `point_grid_2d` (routines/__init__.py:8-14): rows of points. -/
def pointGrid (nu nv : ℕ) (bu bv : K × K) : List (List (K × K)) :=
  (List.range nu).map fun i => (List.range nv).map fun j => (linspace bu.1 bu.2 nu i, linspace bv.1 bv.2 nv j)

end Verif.Clm
