import Verif.Fea.Model
import Verif.Clm.Model
import Verif.Srf.Model
import Verif.Vec.Model
import Mathlib.Algebra.Order.Floor.Ring

/-! # Guesses for the intersection of a curve and a surface

`_grid_search`, `count_from_length_brute_force` (`mmcore/numeric/intersection/csx/__init__.py`).  The distance of points and the length of a curve are
parameters; `KDTree.query_ball_point` gives the samples within the threshold, here in the order of the samples. -/

namespace Verif.Fea

variable {K P : Type} [Field K] [LinearOrder K]

/-- `_grid_search` (csx/__init__.py:152-179): the parameters of the pairs of samples within the threshold. -/
def gridSearch (dist : P → P → K) (crv : K → P) (srf : K × K → P) (tr ur vr : K × K) (steps : ℕ) (thr : K) : List (K × (K × K)) :=
  (List.range steps).flatMap fun i =>
    let t := Clm.linspace tr.1 tr.2 steps i
    (List.range steps).flatMap fun j => (List.range steps).filterMap fun k =>
      let uv := (Clm.linspace 0 1 steps j * (ur.2 - ur.1) + ur.1, Clm.linspace 0 1 steps k * (vr.2 - vr.1) + vr.1)
      if dist (crv t) (srf uv) ≤ thr then some (t, uv) else none

/-- `count_from_length_brute_force` (csx/__init__.py:84-96): the counts for the curve, `u` and `v`; `len c r` is `c.evaluate_length(r)`. -/
def counts [FloorRing K] (len : (K → P) → K × K → K) (crv : K → P) (srf : K × K → P) (thr : K) (tr ur vr : K × K) : ℤ × ℤ × ℤ :=
  let ud := max (len (fun t => srf (Srf.isolineU ur.1 t)) vr) (len (fun t => srf (Srf.isolineU ur.2 t)) vr)
  let vd := max (len (fun t => srf (Srf.isolineV vr.1 t)) ur) (len (fun t => srf (Srf.isolineV vr.2 t)) ur)
  (⌈len crv tr / thr⌉, ⌈ud / thr⌉, ⌈vd / thr⌉)

end Verif.Fea
