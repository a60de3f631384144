import Verif.Nurbs.SurfModel

/-! # Model of the curve methods that change the knot vector as a whole (`mmcore/geom/nurbs.pyx`, class `NURBSCurve`) -/

namespace Verif.Nurbs
variable {K : Type} [Field K] [LinearOrder K]

/-- `cnormalize_knots` of a curve (nurbs.pyx:1872-1879): smallest and largest knot (`np.min`, `np.max`), then
`(U[i]-start)*d` with `d = 1/(end-start)`. -/
def Curve.normalizeKnots (c : Curve K) : Curve K :=
  let start := (List.range c.m).foldl (fun a i => min a (c.U i)) (c.U 0)
  let stop := (List.range c.m).foldl (fun a i => max a (c.U i)) (c.U 0)
  let d := 1 / (stop - start)
  { c with U := fun i => if i < c.m then (c.U i - start) * d else c.U i }

/-- `generate_knots_periodic` (nurbs.pyx:1359-1369): `U[i] = i - degree`. -/
def periodicKnots (p : Nat) (i : Nat) : K := (i : K) - (p : K)

/-- `NURBSCurve.is_periodic` (nurbs.pyx:1221-1238): compares the first `degree` rows with the last `degree` rows; `break`
leaves only the inner loop, so the result is the one of the last row compared. -/
def Curve.isPeriodic (c : Curve K) : Bool :=
  (List.range c.degree).foldl (fun _ j => (List.range 4).foldl (fun (s : Bool) i =>
    if s then decide (c.P j i = c.P (c.n - c.degree + j) i) else s) true) true

/-- `NURBSCurve.make_periodic` (nurbs.pyx:1384-1406). -/
def Curve.makePeriodic (c : Curve K) : Curve K :=
  if c.isPeriodic then c
  else
    { c with
      n := c.n + c.degree
      P := fun i col => if i < c.n then c.P i col else c.P (i - c.n) col
      m := c.n + c.degree + c.degree + 1
      U := periodicKnots c.degree
      periodic := true }

/-- `is_closed` (parametric.pyx:87-91) with `start`, `end` (76-85): the points at the ends of `interval`, which are the first
and the last knot (`_update_interval`, nurbs.pyx:1371-1373). `none` when an evaluation does not return. -/
def Curve.isClosed (c : Curve K) (fuel : Nat) (tol : K) : Option Bool :=
  match c.evaluate fuel (c.U (c.m - 1)) 0, c.evaluate fuel (c.U (c.m - 1)) 1, c.evaluate fuel (c.U (c.m - 1)) 2,
    c.evaluate fuel (c.U 0) 0, c.evaluate fuel (c.U 0) 1, c.evaluate fuel (c.U 0) 2 with
  | some ex, some ey, some ez, some sx, some sy, some sz =>
    some (decide (|ex - sx| ≤ tol ∧ |ey - sy| ≤ tol ∧ |ez - sz| ≤ tol))
  | _, _, _, _, _, _ => none

/-- `NURBSCurve.make_open` (nurbs.pyx:1412-1423); `is_open` is `not is_closed` (parametric.pyx:92-94). -/
def Curve.makeOpen (c : Curve K) (fuel : Nat) (tol : K) : Option (Curve K) :=
  match c.isClosed fuel tol with
  | none => none
  | some closed =>
    if closed then some c
    else some
      { c with
        n := c.n - c.degree
        m := c.n - c.degree + c.degree + 1
        U := generateKnots (c.n - c.degree) c.degree
        periodic := false }

end Verif.Nurbs
