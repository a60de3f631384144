import Mathlib.Algebra.Order.Floor.Ring
import Verif.Clm.Model

/-!
# The boxes of a spline, `spline_curve_bvh` (`mmcore/geom/curves/spline.py`)

Exact ordered field; a curve is a function of its parameter.  The tree is that of `Bvh/Model.lean`; here are the objects it is built from.
-/

namespace Verif.Sbv

variable {K : Type} [Field K] [LinearOrder K]

/-- `PSegment` (bvh/__init__.py:228-233): two points and their parameters. -/
structure PSegment (K : Type) where
  p : Fin 3 → K
  q : Fin 3 → K
  t : K × K

/-- The box of a `PSegment` (bvh/__init__.py:233), least and greatest coordinates. -/
def PSegment.box (s : PSegment K) : (Fin 3 → K) × (Fin 3 → K) := (fun i => min (s.p i) (s.q i), fun i => max (s.p i) (s.q i))

/-- The default of `count` (spline.py:18-19). -/
def defaultCount [FloorRing K] (a b : K) (degree : ℕ) : ℤ := ⌈b - a⌉ * degree

/-- The segments of `spline_curve_bvh` (spline.py:20-31). -/
def segments (f : K → Fin 3 → K) (a b : K) (count : ℕ) : List (PSegment K) :=
  (List.range count).map fun i =>
    { p := f (Clm.linspace a b (count + 1) i)
      q := f (Clm.linspace a b (count + 1) (i + 1))
      t := (Clm.linspace a b (count + 1) i, Clm.linspace a b (count + 1) (i + 1)) }

end Verif.Sbv
