import Verif.Opt.Model

/-! # Tangents of intersections of surfaces along the curve

`sectional_tangent_local`, `sectional_tangent_der`, `sectional_tangent_der_local`, `sectional_curvature_vector`
(`mmcore/numeric/intersection/ssx/sectioal_tangent.py`).  The norm is a parameter; a division by a norm of zero is `none`. -/

namespace Verif.Opt

open Verif.Vec V3

variable {K : Type} [Field K] [LinearOrder K]

/-- A surface with its derivatives. -/
structure DSurf (K : Type) where
  ev : K × K → V3 K
  du : K × K → V3 K
  dv : K × K → V3 K

/-- The result of `sectional_tangent_local`. -/
structure Local (K : Type) where
  T : V3 K
  uv1 : K × K
  uv2 : K × K
  du1 : V3 K
  dv1 : V3 K
  du2 : V3 K
  dv2 : V3 K

/-- `sectional_tangent_local` (sectioal_tangent.py:65-90). -/
def sectionalTangentLocal (nrm : V3 K → K) (s1 s2 : DSurf K) (prev : V3 K) (u1 u2 : K × K) (du1 dv1 du2 dv2 : V3 K) : Option (Local K) :=
  let d1 := improveUV du1 dv1 prev
  let d2 := improveUV du2 dv2 prev
  let uv1 := (u1.1 + d1.1, u1.2 + d1.2)
  let uv2 := (u2.1 + d2.1, u2.2 + d2.2)
  let n1 := cross (s1.du uv1) (s1.dv uv1)
  let n2 := cross (s2.du uv2) (s2.dv uv2)
  (sectionalTangent nrm n1 n2).map fun T => ⟨T, uv1, uv2, s1.du uv1, s1.dv uv1, s2.du uv2, s2.dv uv2⟩

/-- `sectional_tangent_der` (sectioal_tangent.py:92-106), `sectional_tangent_der_local` (107-121), `sectional_curvature_vector` (124-143): `tang tol p` is
`sectional_tangent(s1, s2, p, tol)`; the two tangents of the difference use the default tolerance `tol0`. -/
def sectionalDer (nrm : V3 K → K) (tang : K → V3 K → Option (V3 K)) (tol0 tol eps : K) (p : V3 K) : Option (V3 K × V3 K) := do
  let T ← tang tol p
  let v := smul eps T
  let a ← tang tol0 (add p v)
  let b ← tang tol0 (sub p v)
  if nrm v = 0 then none else return (T, smul (1 / (2 * nrm v)) (sub a b))

end Verif.Opt
