import Verif.Nurbs.PeriodicModel
import Verif.NDer.Model

/-! # `NURBSpline` (`mmcore/geom/curves/_nurbs.pyx`)

The functions of this file have the same text as those of `mmcore/geom/nurbs.pyx`, up to the names of the types, apart from the ones below;
the model is the one of `Nurbs/Model.lean`, `Nurbs/PeriodicModel.lean` and `NDer/Model.lean`.  `cplane` and `cnormal` are here for both
classes (`nurbs.pyx` 1611-1642).  Numbers are elements of an ordered field; memory is a function from cells to numbers. -/

namespace Verif.Nsp

open Verif.Nurbs (Curve)

variable {K : Type} [Field K] [LinearOrder K]

/-- `_update_interval` (_nurbs.pyx:603-605). -/
def interval (c : Curve K) : K × K := (c.U c.degree, c.U (c.m - c.degree - 1))

/-- `is_closed` (parametric.pyx:87-91) at the ends of `interval`; `none` if an evaluation does not return. -/
def isClosed (c : Curve K) (fuel : Nat) (tol : K) : Option Bool :=
  match c.evaluate fuel (interval c).2 0, c.evaluate fuel (interval c).2 1, c.evaluate fuel (interval c).2 2,
    c.evaluate fuel (interval c).1 0, c.evaluate fuel (interval c).1 1, c.evaluate fuel (interval c).1 2 with
  | some ex, some ey, some ez, some sx, some sy, some sz =>
    some (decide (|ex - sx| ≤ tol ∧ |ey - sy| ≤ tol ∧ |ez - sz| ≤ tol))
  | _, _, _, _, _, _ => none

/-- `make_open` (_nurbs.pyx:644-655); `is_open` is `not is_closed` (parametric.pyx:92-94). -/
def makeOpen (c : Curve K) (fuel : Nat) (tol : K) : Option (Curve K) :=
  match isClosed c fuel tol with
  | none => none
  | some closed =>
    if closed then some c
    else some
      { c with
        n := c.n - c.degree
        m := c.n - c.degree + c.degree + 1
        U := Nurbs.generateKnots (c.n - c.degree) c.degree
        periodic := false }

/-- `__deepcopy__` (_nurbs.pyx:446-452): the constructor is called without `periodic`, the weights are set afterwards. -/
def deepcopy (c : Curve K) : Curve K :=
  let obj : Curve K := { degree := c.degree, n := c.n, P := fun i col => if col = 3 then 1 else c.P i col, m := c.m, U := c.U, periodic := false }
  { obj with P := fun i col => if col = 3 then c.P i 3 else obj.P i col }

/-- The setter of `control_points` (_nurbs.pyx:523-532) with an array of `k` rows and `cols` columns: the knots stay. -/
def setControlPoints (c : Curve K) (k cols : Nat) (arr : Nat → Nat → K) : Curve K :=
  { c with n := k, P := fun i col => if cols = 4 then arr i col else if col < cols then arr i col else 1 }

/-- The getter of `control_points` (_nurbs.pyx:520-522): three columns. -/
def getControlPoints (c : Curve K) : Nat × Nat × (Nat → Nat → K) := (c.n, 3, c.P)

/-- One assignment to a cell. -/
def put (mem : Nat → K) (i : Nat) (v : K) : Nat → K := fun j => if j = i then v else mem j

/-- A row of three cells divided by a number (_nurbs.pyx:843-845, 850-852; nurbs.pyx:1617-1619, 1624-1626). -/
def divRow (mem : Nat → K) (r : Nat) (x : K) : Nat → K :=
  let m0 := put mem (3 * r) (mem (3 * r) / x)
  let m1 := put m0 (3 * r + 1) (m0 (3 * r + 1) / x)
  put m1 (3 * r + 2) (m1 (3 * r + 2) / x)

/-- `scalar_norm` of a row. -/
def rowNorm (nrm : K → K → K → K) (mem : Nat → K) (r : Nat) : K := nrm (mem (3 * r)) (mem (3 * r + 1)) (mem (3 * r + 2))

/-- `scalar_gram_schmidt_emplace` (vectors.pyx:505-510) on the rows 1 and 2. -/
def gramSchmidt (mem : Nat → K) : Nat → K :=
  let delta := mem 6 * mem 3 + mem 7 * mem 4 + mem 8 * mem 5
  let m0 := put mem 6 (mem 6 - mem 3 * delta)
  let m1 := put m0 7 (m0 7 - m0 4 * delta)
  put m1 8 (m1 8 - m1 5 * delta)

/-- The rows 0 to 2 after `cderivatives2(t, 2, result[:3,:])`: the derivatives are added to what is there. -/
def addDers (ders : Nat → Nat → K) (mem : Nat → K) : Nat → K := fun i => if i < 9 then mem i + ders (i / 3) (i % 3) else mem i

/-- `cplane` (_nurbs.pyx:837-856; nurbs.pyx:1611-1630) on the memory that starts at the first cell of `result`. -/
def cplane (nrm : K → K → K → K) (ders : Nat → Nat → K) (mem : Nat → K) : Nat → K :=
  let m := addDers ders mem
  let m := divRow m 1 (rowNorm nrm m 1)
  let m := gramSchmidt m
  let m := divRow m 2 (rowNorm nrm m 2)
  let m := put m 9 (m 4 * m 8 - m 5 * m 7)
  let m := put m 10 (m 5 * m 6 - m 3 * m 8)
  put m 11 (m 3 * m 7 - m 4 * m 6)

/-- `cnormal` (_nurbs.pyx:861-864; nurbs.pyx:1635-1638): an array of zeros of three rows (nine cells) is passed to `cplane`.  `heap` is what
lies in memory from there on.  The result are the three cells of row 2 and the memory afterwards. -/
def cnormal (nrm : K → K → K → K) (ders : Nat → Nat → K) (heap : Nat → K) : (K × K × K) × (Nat → K) :=
  let mem := cplane nrm ders (fun i => if i < 9 then 0 else heap i)
  ((mem 6, mem 7, mem 8), mem)

end Verif.Nsp
