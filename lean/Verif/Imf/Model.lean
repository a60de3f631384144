import Mathlib.Analysis.SpecialFunctions.Trigonometric.Basic

/-!
# Two implicit functions and the ellipsoid

`mmcore/geom/implicit/cassini.py`, `mmcore/geom/implicit/genus2.py`, `mmcore/geom/surfaces/ellipsoid.pyx`.  Numbers are elements of a field, for the
ellipsoid real numbers; an array of coordinates is given by its entries.
-/

namespace Verif.Imf

/-- `cassini` (cassini.py:2-3). -/
def cassini {K : Type} [Field K] (x y a c : K) : K := (x ^ 2 + y ^ 2) * (x ^ 2 + y ^ 2) - 2 * c * c * (x ^ 2 - y ^ 2) - (a ^ 4 - c ^ 4)

/-- `genus2` (genus2.py:2-12). -/
def genus2 {K : Type} [Field K] (x y z : K) : K :=
  2 * y * (y ^ 2 - 3 * x ^ 2) * (1 - z ^ 2) + (x ^ 2 + y ^ 2) ^ 2 - (9 * z ^ 2 - 1) * (1 - z ^ 2)

/-- `ellipsoid` (ellipsoid.pyx:4-17): what is written to `output`. -/
noncomputable def ellipsoid (u v a b c ox oy oz : ℝ) : ℝ × ℝ × ℝ :=
  (ox + a * Real.sin u * Real.cos v, oy + b * Real.sin u * Real.sin v, oz + c * Real.cos u)

end Verif.Imf
