import Verif.Gm.Model

/-! # Intersections of two surfaces over their Bezier patches

`detect_intersections` of `mmcore/numeric/gauss_map.py`. -/

namespace Verif.Gm

open Verif.Mol (V)

variable {K : Type} [Field K] [LinearOrder K] [IsStrictOrderedRing K]

/-- `detect_intersections` (gauss_map.py:504-640): `pairs` are the pairs of patches of `intersect_bvh_objects` on the trees of the two
decompositions (C26); `gauss_maps` holds one map for each patch.  The lines 623-625 exchange the names: `ff` is the map of the second patch.
`k` is the depth available to the deep search. -/
def detect {G : Type} (M : Maps K G) (nrm : V K → K) (lp : List (Row K) → Option (Row K)) (tol : K) (k : ℕ) (pairs : List (G × G)) : Option (List (G × G)) :=
  collect (fun p =>
    if ¬ M.gjk p.1 p.2 then some []
    else if (separate nrm lp (M.hull p.2) (M.hull p.1)).isSome then some []
    else deep M nrm lp tol k p.1 p.2) pairs

end Verif.Gm
