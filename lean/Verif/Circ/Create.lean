import Verif.Vec.Model
import Verif.Deb.Model
import Mathlib.Analysis.SpecialFunctions.Trigonometric.Basic
import Mathlib.Analysis.Real.Sqrt

/-! # A model of `NURBSpline.create_circle`, `mmcore/geom/curves/bspline.py`:325-349

The class method builds control points, weights and knots; the curve is evaluated by the model of
`geom/curves/deboor.pyx` (area `Deb`), whose `evaluate_nurbs` is the rational curve (C192). -/

namespace Verif.Circ
open Verif.Vec Verif.Deb

/-- The control points of the circle before they are moved, geom/curves/bspline.py:335-343, without weights. -/
noncomputable def rawPoints (radius : ℝ) : List (V3 ℝ) :=
  [⟨radius, 0, 0⟩, ⟨radius, radius, 0⟩, ⟨0, radius, 0⟩, ⟨-radius, radius, 0⟩, ⟨-radius, 0, 0⟩, ⟨-radius, -radius, 0⟩,
   ⟨0, -radius, 0⟩, ⟨radius, -radius, 0⟩, ⟨radius, 0, 0⟩]

/-- The weights, geom/curves/bspline.py:333-343. -/
noncomputable def circleWeights : List ℝ :=
  let w := Real.sqrt 2 / 2
  [1, w, 1, w, 1, w, 1, w, 1]

/-- The knots, geom/curves/bspline.py:346-348: `np.repeat` with multiplicities 3, 2, 2, 2, 3. -/
noncomputable def circleKnots : List ℝ :=
  [0, 0, 0, Real.pi / 2, Real.pi / 2, Real.pi, Real.pi, 3 * Real.pi / 2, 3 * Real.pi / 2, 2 * Real.pi, 2 * Real.pi,
   2 * Real.pi]

/-- The control points, geom/curves/bspline.py:344: the origin is subtracted. -/
noncomputable def circlePoints (origin : V3 ℝ) (radius : ℝ) (plane : Plane ℝ) : List (V3 ℝ) :=
  (rawPoints radius).map fun p => evaluatePlane plane (p.sub origin)

/-- The point of `create_circle(origin, radius, plane)` at `t`. -/
noncomputable def circlePoint (origin : V3 ℝ) (radius : ℝ) (plane : Plane ℝ) (t : ℝ) : V3 ℝ :=
  let p := evaluateNurbs t 9
    (fun i => let q := (circlePoints origin radius plane).getD i ⟨0, 0, 0⟩; ⟨q.x, q.y, q.z⟩)
    (fun i => circleKnots.getD i 0) (fun i => circleWeights.getD i 0) 2
  ⟨p.x, p.y, p.z⟩

end Verif.Circ
