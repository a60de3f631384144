import Mathlib.Algebra.Order.Field.Basic
import Mathlib.Data.List.Sort

/-!
# Offsets of curves on a surface

Model of `geodesic_length` and `OffsetOnSurface.evaluate` of `mmcore/geom/curves/offset.py`.  Numbers are elements of an ordered
field.  The length of the image of the straight line of parameters, an integral, is the function `L`: `L p` is
`evaluate_length(ddr, 0, p)[0]`, negative for negative `p`.  The plane of the curve at `t` is an argument.
-/

namespace Verif.Ofs

variable {K : Type} [Field K] [LinearOrder K] [IsStrictOrderedRing K]

/-- `np.linspace(a, b, n + 2)`. -/
def linspace (a b : K) (n : Nat) : List K := (List.range (n + 2)).map fun (i : Nat) => a + (b - a) * (i : K) / ((n : K) + 1)

/-- `scipy.interpolate.interp1d` behind the first node: the first interval whose end is not below `t`. -/
def interpFrom (t : K) : K × K → List (K × K) → Option K
  | _, [] => none
  | a, c :: rest => if t ≤ c.1 then some (a.2 + (t - a.1) * ((c.2 - a.2) / (c.1 - a.1))) else interpFrom t c rest

/-- `scipy.interpolate.interp1d` (linear) for sorted nodes: `none` is the `ValueError` outside of the nodes. -/
def interp (t : K) : List (K × K) → Option K
  | [] => none
  | a :: rest => if t < a.1 then none else interpFrom t a rest

/-- The interpolation of `geodesic_length` (offset.py:78-92): `n + 2 = 100` nodes; `interp1d` sorts them. -/
def geoParam (L : K → K) (n : Nat) (dist t : K) : Option K :=
  interp t (((linspace (-dist) dist n).map fun p => (L p, p)).insertionSort fun a b => a.1 ≤ b.1)

/-- `geodesic_length(self, start_uv, end_uv, dist)` at `t` (offset.py:78-92), with `d = end_uv - start_uv`. -/
def geodesicLength (L : K → K) (n : Nat) (start d : K × K) (dist t : K) : Option (K × K) :=
  (geoParam L n dist t).map fun r => (start.1 + d.1 * r, start.2 + d.2 * r)

/-- The parameters of `OffsetOnSurface.evaluate` (offset.py:111-115): `o` and `nrm` are rows 0 and 2 of the plane of the curve of
parameters. -/
def offsetUV (L : K → K) (n : Nat) (o nrm : K × K) (offset : K) : Option (K × K) :=
  geodesicLength L n o ((o.1 + nrm.1) - o.1, (o.2 + nrm.2) - o.2) (offset * 2) offset

end Verif.Ofs
