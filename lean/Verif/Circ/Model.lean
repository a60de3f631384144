import Mathlib.Analysis.SpecialFunctions.Complex.Arg
import Mathlib.Analysis.SpecialFunctions.Trigonometric.Inverse
import Mathlib.Analysis.Real.Sqrt

/-! # A model of `mmcore/geom/circle.py`

Floats are real numbers, `cos`, `sin`, `arccos`, `sqrt` the functions of analysis, `arctan2(y, x)` the argument of
`x + iy`. NaN (division by zero, `arccos` outside `[-1, 1]`, root of a negative number) is `none`. The constants
`PI05`, `PI2` (lines 7-8) are π/2 and 2π. -/

namespace Verif.Circ

/-- A point of the plane. -/
structure V2 where
  x : ℝ
  y : ℝ

/-- `Circle2D`, geom/circle.py:38-46. `origin` is an array with two or, optionally, three entries. -/
structure Circle where
  ox : ℝ
  oy : ℝ
  oz : Option ℝ
  r : ℝ

/-- `origin[-1]`: the last entry of the array. -/
def Circle.last (c : Circle) : ℝ := c.oz.getD c.oy

/-- Euclidean length, `np.linalg.norm`, `np.hypot`. -/
noncomputable def len (v : V2) : ℝ := Real.sqrt (v.x ^ 2 + v.y ^ 2)

/-- `_implicit_normal`, geom/circle.py:54-55. -/
def Circle.implicitNormal (c : Circle) (v : V2) : V2 := ⟨v.x - c.ox, v.y - c.oy⟩

/-- `implicit`, geom/circle.py:51-52. -/
noncomputable def Circle.implicit (c : Circle) (v : V2) : ℝ := len (c.implicitNormal v) - c.r

/-- `_implicit_unit_normal` / `normal`, geom/circle.py:57-59: NaN at the centre. -/
noncomputable def Circle.unitNormal (c : Circle) (v : V2) : Option V2 :=
  let p := c.implicitNormal v
  if len p = 0 then none else some ⟨p.x / len p, p.y / len p⟩

/-- `evaluate`, geom/circle.py:67-74. -/
noncomputable def Circle.evaluate (c : Circle) (t : ℝ) : V2 := ⟨c.ox + c.r * Real.cos t, c.oy + c.r * Real.sin t⟩

/-- `point_on_curve`, geom/circle.py:76-81: a point and a parameter. -/
noncomputable def Circle.pointOnCurve (c : Circle) (v : V2) : Option (V2 × ℝ) :=
  let N := c.implicitNormal v
  let nn := len N
  if nn = 0 then none
  else
    let nu : V2 := ⟨N.x / nn, N.y / nn⟩
    some (⟨v.x - nu.x * (nn - c.r), v.y - nu.y * (nn - c.r)⟩, Real.arccos nu.x)

/-- Outcome of `circle_intersection2d`. -/
inductive Inter where
  | raises
  | nan
  | points (p1 : V2) (z1 : ℝ) (p2 : V2) (z2 : ℝ)

/-- `circle_intersection2d`, geom/circle.py:117-138. -/
noncomputable def circleIntersection2d (c1 c2 : Circle) : Inter :=
  let d := Real.sqrt ((c2.ox - c1.ox) ^ 2 + (c2.oy - c1.oy) ^ 2)
  if d > c1.r + c2.r ∨ d < |c2.r - c1.r| then .raises
  else if d = 0 then .nan
  else
    let a := (c1.r ^ 2 - c2.r ^ 2 + d ^ 2) / (2 * d)
    if c1.r ^ 2 - a ^ 2 < 0 then .nan
    else
      let h := Real.sqrt (c1.r ^ 2 - a ^ 2)
      let xm := c1.ox + a * (c2.ox - c1.ox) / d
      let ym := c1.oy + a * (c2.oy - c1.oy) / d
      .points ⟨xm - h * (c2.oy - c1.oy) / d, ym + h * (c2.ox - c1.ox) / d⟩ c1.last
        ⟨xm + h * (c2.oy - c1.oy) / d, ym - h * (c2.ox - c1.ox) / d⟩ c2.last

/-- `np.arctan2(y, x)`. -/
noncomputable def arctan2 (y x : ℝ) : ℝ := Complex.arg ⟨x, y⟩

/-- `tangents_lines`, geom/circle.py:141-154 (the third coordinates are zero): the two points of contact. -/
noncomputable def tangentsLines (c : Circle) (pt : V2) : Option (V2 × V2) :=
  let a := c.r
  let direct : V2 := ⟨pt.x - c.ox, pt.y - c.oy⟩
  let b := len direct
  if b = 0 ∨ a / b > 1 ∨ a / b < -1 then none
  else
    let th := Real.arccos (a / b)
    let d := arctan2 direct.x direct.y
    let d1 := d + th
    let d2 := d - th
    some (⟨c.ox + a * Real.cos d1, c.oy + a * Real.sin d1⟩, ⟨c.ox + a * Real.cos d2, c.oy + a * Real.sin d2⟩)

/-- `closest_point_on_circle_2d`, geom/circle.py:157-160: a parameter. -/
noncomputable def closestPointOnCircle2d (c : Circle) (pt : V2) : Option ℝ :=
  (c.unitNormal pt).map fun un => Real.arccos un.x - Real.pi / 2

end Verif.Circ
