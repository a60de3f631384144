import Verif.Vec.Model
import Mathlib.Analysis.SpecialFunctions.Complex.Arg
import Mathlib.Analysis.Real.Sqrt
import Mathlib.Data.Matrix.Mul

/-! # Model of coordinate changes and of functions on several planes and vectors

`spherical_to_cartesian`, `cartesian_to_spherical`, `cylindrical_to_xyz`, `courtesan_to_cylindrical`, `multi_support_vector` and
`invert_jacobian` of `mmcore/numeric/vectors.pyx`, the functions on several planes of `mmcore/numeric/plane/cplane.pyx`,
`arbitrary`, `orient_matrix`, `local_to_world`, `world_to_local` and `plane_ray_intersection` of `mmcore/numeric/plane/__init__.py`,
and `rotate_matrix` of `mmcore/geom/vec`.

Functions with sines and square roots are over the real numbers, `atan2(y, x)` is the argument of `x + iy`; the others are over any
field.  `none` is an exception, or NaN where said so. -/

namespace Verif.Crd
open Verif.Vec Verif.Vec.V3

/-! ## Coordinates -/

/-- `atan2` of the C library. -/
noncomputable def atan2 (y x : ℝ) : ℝ := Complex.arg ⟨x, y⟩

/-- One row of `spherical_to_cartesian` (vectors.pyx:264-271): radius, angle from the pole, angle around it. -/
noncomputable def sphericalToCartesian (q : V3 ℝ) : V3 ℝ :=
  ⟨q.x * Real.sin q.y * Real.cos q.z, q.x * Real.sin q.y * Real.sin q.z, q.x * Real.cos q.y⟩

/-- One row of `cartesian_to_spherical` (vectors.pyx:276-285). -/
noncomputable def cartesianToSpherical (p : V3 ℝ) : V3 ℝ :=
  let s := p.x ^ 2 + p.y ^ 2
  ⟨Real.sqrt (s + p.z ^ 2), atan2 (Real.sqrt s) p.z, atan2 p.y p.x⟩

/-- One row of `cylindrical_to_xyz` (vectors.pyx:290-299): radius, angle, height. -/
noncomputable def cylindricalToXyz (q : V3 ℝ) : V3 ℝ := ⟨q.x * Real.cos q.y, q.x * Real.sin q.y, q.z⟩

/-- One row of `courtesan_to_cylindrical` (vectors.pyx:304-313). -/
noncomputable def cartesianToCylindrical (p : V3 ℝ) : V3 ℝ :=
  let s := p.x ^ 2 + p.y ^ 2
  ⟨Real.sqrt (s + p.z ^ 2), atan2 (Real.sqrt s) p.z, p.z⟩

/-- `arbitrary` (plane/__init__.py:46-71): `none` for NaN (a normal along the z axis). -/
noncomputable def arbitrary (t : ℝ) (n o : V3 ℝ) : Option (V3 ℝ) :=
  let r := Real.sqrt (n.x ^ 2 * n.z ^ 2 + n.y ^ 2 * n.z ^ 2 + (n.x ^ 2 + n.y ^ 2) ^ 2)
  let q := Real.sqrt (n.x ^ 2 + n.y ^ 2)
  if r = 0 ∨ q = 0 then none
  else some ⟨-n.x * n.z * Real.sin t / r - n.y * Real.cos t / q + o.x,
    n.x * Real.cos t / q - n.y * n.z * Real.sin t / r + o.y,
    o.z + (n.x ^ 2 + n.y ^ 2) * Real.sin t / r⟩

/-- `rotate_matrix` (geom/vec/__init__.py:215-231). -/
noncomputable def rotateMatrix (a : ℝ) : Matrix (Fin 3) (Fin 3) ℝ :=
  Matrix.of ![![Real.cos a, -Real.sin a, 0], ![Real.sin a, Real.cos a, 0], ![0, 0, 1]]

/-! ## Frames -/

section ring
variable {R : Type} [CommRing R]

/-- A plane: its origin and the matrix whose rows are the three axes. -/
structure Frame (R : Type) where
  o : Fin 3 → R
  A : Matrix (Fin 3) (Fin 3) R

/-- `orient_matrix` (plane/__init__.py:238-242): the upper left block and the last row of the 4×4 matrix. -/
def orientMatrix (p1 p2 : Frame R) : Matrix (Fin 3) (Fin 3) R × (Fin 3 → R) := (p1.A * p2.A.transpose, fun i => p2.o i - p1.o i)

/-- A row `(x, 1)` times a matrix with the last column `(0, 0, 0, 1)`. -/
def applyRow (M : Matrix (Fin 3) (Fin 3) R × (Fin 3 → R)) (x : Fin 3 → R) : Fin 3 → R := fun i => Matrix.vecMul x M.1 i + M.2 i

/-- `local_to_world` (plane/__init__.py:245-262) for a plane with attributes `origin`, `xaxis`, `yaxis`, `zaxis`. -/
def localToWorld (p : Frame R) (c : Fin 3 → R) : Fin 3 → R := fun i => p.o i + c 0 * p.A 0 i + c 1 * p.A 1 i + c 2 * p.A 2 i

/-- `world_to_local` (plane/__init__.py:267-269). -/
def worldToLocal (p : Frame R) (x : Fin 3 → R) : Fin 3 → R := Matrix.mulVec p.A fun i => x i - p.o i

/-- What is handed to `local_to_world` as plane: an object with attributes, or an array such as the default `WORLD_XY`, which has none
of them (`AttributeError`). -/
inductive PlaneArg (R : Type) where
  | object (p : Frame R)
  | array (p : Frame R)

/-- `local_to_world` (plane/__init__.py:245-262) with either kind of argument. -/
def localToWorldArg (c : Fin 3 → R) : PlaneArg R → Option (Fin 3 → R)
  | .object p => some (localToWorld p c)
  | .array _ => none

end ring

/-! ## Several planes -/

section field
variable {K : Type} [Field K] [LinearOrder K]

/-- Origin and normal of a plane array (rows 0 and 3). -/
abbrev Pl (K : Type) := V3 K × V3 K

/-- `cplane_plane_intersect` (cplane.pyx:214-249) for one pair: `none` for NaN. -/
def one (a b : Pl K) : Option (V3 K × V3 K) := intersect2 a.1 a.2 b.1 b.2

/-- `cplanes_plane_intersect` (cplane.pyx:305-308) and `planes_plane_intersect` (312-317). -/
def planesPlane (as : List (Pl K)) (b : Pl K) : List (Option (V3 K × V3 K)) := as.map fun a => one a b

/-- `cplanes_planes_intersect` (cplane.pyx:321-324): goes by the length of the first argument; `none` when it reads past the end of
the second. -/
def planesPlanes (as bs : List (Pl K)) : Option (List (Option (V3 K × V3 K))) :=
  if as.length ≤ bs.length then some (List.zipWith one as bs) else none

/-- `planes_planes_intersect` (cplane.pyx:328-334): without a `return`, the memoryview it should return is not initialised, which is an
exception. -/
def planesPlanesIntersect (as bs : List (Pl K)) : Option (List (Option (V3 K × V3 K))) :=
  if as.length ≠ bs.length then none
  else (planesPlanes as bs).bind fun _ => none

/-- Arguments of `plane_plane_intersection` by number of dimensions: 2, 3, or more. -/
inductive Arg (K : Type) where
  | plane (a : Pl K)
  | stack (as : List (Pl K))
  | deep (as : List (Pl K))

/-- The two arguments after the flattening (cplane.pyx:431-444): the second one is reshaped from the entries of the first; if the first
has not been flattened there are none (`AttributeError`).  A reshape to a different size is an exception. -/
def flattenArgs : Arg K → Arg K → Option (Arg K × Arg K)
  | .deep as, .deep bs => if as.length = bs.length then some (.stack as, .stack as) else none
  | .deep as, b => some (.stack as, b)
  | _, .deep _ => none
  | a, b => some (a, b)

/-- `plane_plane_intersection` without `result` (cplane.pyx:421-470): the rows, in the order of the stack. -/
def planePlaneIntersection (a b : Arg K) : Option (List (Option (V3 K × V3 K))) :=
  match flattenArgs a b with
  | some (.stack as, .stack bs) => planesPlanes as bs
  | some (.stack as, .plane b) => some (planesPlane as b)
  | some (.plane a, .stack bs) => some (planesPlane bs a)
  | some (.plane a, .plane b) => some [one a b]
  | _ => none

/-- `plane_ray_intersection` (plane/__init__.py:196-209): `rows` is the number of rows of the plane, `pln` is only bound for four
(`UnboundLocalError`). -/
def planeRay (eps : K) (rows : Nat) (a : Pl K) (ro rd : V3 K) : Option (Option (V3 K)) :=
  if rows = 4 then some (rayPlane eps a.1 a.2 ro rd) else none

/-! ## Several vectors -/

/-- `multi_support_vector` (vectors.pyx:230-243). -/
def multiSupport (vs ds : List (V3 K)) : List (V3 K) := ds.map (supportVector vs)

/-- The first argument of `invert_jacobian`: one matrix, or a stack of them. -/
inductive Jac (K : Type) where
  | one (a b c d : K)
  | stack (l : List (K × K × K × K))

/-- `invert_jacobian` (vectors.pyx:412-427): for a stack, an array with three dimensions is assigned to the memoryview `status` with
one (`ValueError`).  `some none` is the status -1. -/
def invertJac : Jac K → Option (Option ((K × K) × (K × K)))
  | .one a b c d => some (invertJacobian a b c d)
  | .stack _ => none

end field
end Verif.Crd
