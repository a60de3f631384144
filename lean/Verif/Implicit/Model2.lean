import Verif.Implicit.Model
import Mathlib.Algebra.BigOperators.Fin

/-!
# Points inside, the gradient in space and calls with several points

More of `mmcore/geom/implicit/implicit.py`.  The norm is a parameter; a division by the norm zero gives NaN, here `none`.
-/

namespace Verif.Implicit

variable {K : Type} [Field K] [LinearOrder K]

/-- `Implicit2D.point_inside` (implicit.py:176-188) for the value `res`; `atol = 1e-8` is that of `np.isclose(res, 0)`. -/
def inside (atol res : K) : Bool := if res < 0 then true else if |res| ≤ atol then true else false

/-- `Implicit3D.gradient` (implicit.py:316-322): the central differences divided by their norm. -/
def gradient3 (nrm : (Fin 3 → K) → K) (f : (Fin 3 → K) → K) (d : K) (v : Fin 3 → K) : Option (Fin 3 → K) :=
  let g := normalFrom f d v
  if nrm g = 0 then none else some fun i => g i / nrm g

/-- `Implicit2D.tangent` (implicit.py:193-194) with `tangent2d` (36-40). -/
def tangent2 (g : Fin 2 → K) : Fin 2 → K := fun i => if i = 0 then -g 1 else g 0

/-- An argument of `implicit`: a number or an array. -/
inductive Arg (K : Type)
  | num (x : K)
  | vec (v : List K)

/-- `Implicit.__call__` (implicit.py:135-141) for one point: an array with one axis. -/
def callOne (f : Arg K → Option K) (v : List K) : Option K := f (.vec v)

/-- `Implicit.__call__` for an array with two axes (implicit.py:135-141): `np.vectorize(self.implicit, signature="()->(i)")` (104)
hands over the numbers of the array one by one; it raises for an array without entries. -/
def callMany (f : Arg K → Option K) (rows : List (List K)) : Option (List (List K)) :=
  if rows.flatten = [] then none else rows.mapM fun r => r.mapM fun x => f (.num x)

end Verif.Implicit
