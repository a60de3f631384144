import Mathlib.Algebra.Order.Field.Basic

/-! # A model of `mmcore/geom/curves/deboor.pyx`

The file is a Cython extension with a recursive basis function and a rational curve evaluator built on it. Knots,
control points and weights are arrays; they are modelled as functions of the index, and the theorems only use indices
inside the arrays. Floats are an exact ordered field. -/

namespace Verif.Deb
variable {K : Type} [Field K] [LinearOrder K]

/-- `cdeboor` / `deboor`, geom/curves/deboor.pyx:7-28 and 64-66. The degree-0 test is closed at both ends (line 17). -/
def deboor (knots : Nat → K) (t : K) (i : Nat) : Nat → K
  | 0 => if knots i ≤ t ∧ t ≤ knots (i + 1) then 1 else 0
  | k + 1 =>
    let c1 := if knots (i + (k + 1)) = knots i then 0
      else (t - knots i) / (knots (i + (k + 1)) - knots i) * deboor knots t i k
    let c2 := if knots (i + (k + 1) + 1) = knots (i + 1) then 0
      else (knots (i + (k + 1) + 1) - t) / (knots (i + (k + 1) + 1) - knots (i + 1)) * deboor knots t (i + 1) k
    c1 + c2

/-- The C struct `xyz` of geom/curves/deboor.pxd. -/
structure XYZ (K : Type) where
  x : K
  y : K
  z : K
deriving DecidableEq, Repr

/-- One iteration of the loop of `cevaluate_nurbs`, geom/curves/deboor.pyx:40-45: the struct and `sum_of_weights`. -/
def accumulate (t : K) (cpts : Nat → XYZ K) (knots weights : Nat → K) (degree : Nat) (s : XYZ K × K) (i : Nat) :
    XYZ K × K :=
  let b := deboor knots t i degree * weights i
  (⟨s.1.x + b * (cpts i).x, s.1.y + b * (cpts i).y, s.1.z + b * (cpts i).z⟩, s.2 + b)

/-- `cevaluate_nurbs`, geom/curves/deboor.pyx:33-48: the struct behind the pointer goes in and comes out; the function does
not clear it. Division by a zero sum (NaN in C, the module is compiled with `cdivision`) is `0` here; the theorems have
a positive sum. -/
def cevaluateNurbs (t : K) (n : Nat) (cpts : Nat → XYZ K) (knots weights : Nat → K) (degree : Nat) (result : XYZ K) :
    XYZ K :=
  let s := (List.range n).foldl (accumulate t cpts knots weights degree) (result, 0)
  ⟨s.1.x / s.2, s.1.y / s.2, s.1.z / s.2⟩

/-- `evaluate_nurbs`, geom/curves/deboor.pyx:68-76: `pt` starts at zero. -/
def evaluateNurbs (t : K) (n : Nat) (cpts : Nat → XYZ K) (knots weights : Nat → K) (degree : Nat) : XYZ K :=
  cevaluateNurbs t n cpts knots weights degree ⟨0, 0, 0⟩

/-- `cevaluate_nurbs_multi`, geom/curves/deboor.pyx:53-61: the loop over the parameters; `pt` is the struct declared before
the loop. -/
def multiLoop (n : Nat) (cpts : Nat → XYZ K) (knots weights : Nat → K) (degree : Nat) :
    List K → XYZ K → List (XYZ K)
  | [], _ => []
  | t :: ts, pt =>
    let pt' := cevaluateNurbs t n cpts knots weights degree pt
    pt' :: multiLoop n cpts knots weights degree ts pt'

/-- `evaluate_nurbs_multi`, geom/curves/deboor.pyx:77-80. -/
def evaluateNurbsMulti (ts : List K) (n : Nat) (cpts : Nat → XYZ K) (knots weights : Nat → K) (degree : Nat) :
    List (XYZ K) :=
  multiLoop n cpts knots weights degree ts ⟨0, 0, 0⟩

end Verif.Deb
