import Mathlib.Algebra.Order.Field.Basic
import Mathlib.Data.Fintype.Basic
import Mathlib.Algebra.Order.AbsoluteValue.Basic
import Mathlib.Algebra.Order.Group.Abs

/-! # Equality of API vectors

`BaseVector.__eq__`, `BaseVector.is_equal` (`mmcore/api/_base_vectors.py`), used by `Vector2D`, `Vector3D`, `Point2D`, `Point3D`
(`mmcore/api/vectors.py`).  Vectors of the same dimension, with numbers in an ordered field. -/

namespace Verif.ApiMat

variable {K : Type} [Field K] [LinearOrder K]

/-- `np.isclose(a, b)`: the tolerance is relative to the second argument. -/
def npClose (rtol atol a b : K) : Bool := decide (|a - b| ≤ atol + rtol * |b|)

/-- `v == w` (_base_vectors.py:60-61) and `v.is_equal(w)` (_base_vectors.py:90-96): `np.allclose(self._array, vector._array)`. -/
def vecEq {n : ℕ} (rtol atol : K) (v w : Fin n → K) : Bool := decide (∀ i, npClose rtol atol (v i) (w i) = true)

end Verif.ApiMat
