import Mathlib.Analysis.Real.Sqrt
import Mathlib.Data.Set.Card

/-! # The ray of `curve_boolean_operation` (`mmcore/geom/curves/curve_bool.py:79-94, 118-129`)

Points are triples of reals; the intersector `ccx` is taken to be exact: it returns the parameters in `[0, 1]` at which the
ray meets the other curve. -/

namespace Verif.Boo

/-- A point. -/
@[ext] structure Pt where
  x : ℝ
  y : ℝ
  z : ℝ

/-- `scalar_norm(max_2 - min_2) * 2` (curve_bool.py:79, 87): twice the diagonal of the box. -/
noncomputable def rayLength (mn mx : Pt) : ℝ := Real.sqrt ((mx.x - mn.x) ^ 2 + (mx.y - mn.y) ^ 2 + (mx.z - mn.z) ^ 2) * 2

/-- The ray of degree one from `mid` to `mid + [1, 0, 0] * length` (curve_bool.py:87, 122) at the parameter `t`. -/
def rayAt (mid : Pt) (len t : ℝ) : Pt := ⟨mid.x + t * len, mid.y, mid.z⟩

/-- The parameters at which the ray meets the curve, as an exact `ccx` returns them (curve_bool.py:88, 123). -/
def meets (curve : Set Pt) (mid : Pt) (len : ℝ) : Set ℝ := {t | 0 ≤ t ∧ t ≤ 1 ∧ rayAt mid len t ∈ curve}

/-- `a_inside_b`, `b_inside_a` (curve_bool.py:94, 129): the number of crossings is odd. -/
def saysInside (curve : Set Pt) (mn mx mid : Pt) : Prop := (meets curve mid (rayLength mn mx)).ncard % 2 = 1

end Verif.Boo
