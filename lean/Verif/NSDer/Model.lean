import Verif.Nurbs.SurfModel
import Verif.NDer.Model
import Verif.Bez.Model

/-!
# Model of the derivatives of surfaces in `mmcore/geom/nurbs.pyx` and `nurbs.pxd`

One column of the control points at a time.  The control points are given as a flat array (row `cv + nv * cu`) in the code and
as `S.P cu cv` here.  A division of zero by zero gives NaN in the code and `none` here, as does a read outside the control
points.
-/

namespace Verif.NSDer
open Verif.Nurbs Verif.NDer
variable {K : Type} [Field K] [LinearOrder K]

/-- The inner loop over `r` of `surface_derivatives` (nurbs.pyx:999-1004): `temp[s]`. -/
def tempAt (S : Surf K) (us vs : Nat) (du : Nat → Nat → K) (k s col : Nat) : K :=
  (List.range (S.pu + 1)).foldl (fun t r => t + du k r * S.P (us - S.pu + r) (vs - S.pv + s) col) 0

/-- `surface_derivatives` (nurbs.pyx:893-1016) on a zeroed output: `SKL[k][l][col]`.  The span is searched with the number of
control points, not that number minus one (nurbs.pyx:980, 988).  `g0` is the memory of the two blocks from `malloc`.
`none`: a span without extent (its first division is zero by zero), or a control point that does not exist. -/
def surfaceDerivatives (S : Surf K) (fuel : Nat) (g0 : Nat → Nat → K) (u v : K) (order k l col : Nat) : Option K :=
  match findSpan fuel S.nu S.pu u S.U false, findSpan fuel S.nv S.pv v S.V false with
  | some us, some vs =>
    if S.U us = S.U (us + 1) ∨ S.V vs = S.V (vs + 1) ∨ S.nu * S.nv ≤ vs + S.nv * us then none
    else
      let d0 := min S.pu order
      let d1 := min S.pv order
      let du := dersBasisFuns us u S.pu d0 S.U g0
      let dv := dersBasisFuns vs v S.pv d1 S.V g0
      let dd := min order d1
      if k ≤ d0 ∧ l ≤ dd then
        some ((List.range (S.pv + 1)).foldl (fun t s => t + dv l s * tempAt S us vs du k s col) 0)
      else some 0
  | _, _ => none

/-- The value of one entry in `rat_surface_derivs` (nurbs.pxd:404-428): `A` is the column of `SKLw`, `W` its last column, `R`
what `SKL` contains so far, `g` the memory behind the table of binomial coefficients. -/
def ratEntry (g : Nat → K) (A W R : Nat → Nat → K) (k l : Nat) : K :=
  let v1 := (List.range' 1 l).foldl (fun v j => v - Bez.binom g l j * W 0 j * R k (l - j)) (A k l)
  let v2 := (List.range' 1 k).foldl (fun v i =>
    v - Bez.binom g k i * W i 0 * R (k - i) l
      - Bez.binom g k i * (List.range' 1 l).foldl (fun x j => x + Bez.binom g l j * W i j * R (k - i) (l - j)) 0) v1
  v2 / W 0 0

/-- `rat_surface_derivs` (nurbs.pxd:350-431), one column. -/
def ratSurfaceDerivs (g : Nat → K) (A W : Nat → Nat → K) (order : Nat) (R0 : Nat → Nat → K) : Nat → Nat → K :=
  (List.range (order + 1)).foldl (fun R k =>
    (List.range (order + 1)).foldl (fun R l => upd R k l (ratEntry g A W R k l)) R) R0

/-- The first part of `surface_deriv_cpts` (nurbs.pyx:842-854) for one column of control points: `PKL[k][0][i][j]`. -/
def uCpts (S : Surf K) (col r0 r1 s0 order : Nat) (k i j : Nat) : K :=
  let du := min S.pu order
  if k ≤ du ∧ i + k ≤ r1 - r0 then
    curveDerivCpts S.pu S.U (fun a => S.P a (s0 + j) col) du r0 r1 (fun _ _ => 0) k i
  else 0

/-- `surface_deriv_cpts` (nurbs.pyx:773-871) for one column of control points and a zeroed output: `PKL[k][l][i][j]`.  The
buffer `temp_cpts` has `cpsize[0]` rows; `none` is a write behind its end (nurbs.pyx:860-862). -/
def surfaceDerivCpts (S : Surf K) (col r0 r1 s0 s1 order : Nat) (k l i j : Nat) : Option K :=
  let du := min S.pu order
  let dv := min S.pv order
  if 0 < du ∧ S.nu < s1 - s0 + 1 then none
  else if l = 0 then some (if j ≤ s1 - s0 then uCpts S col r0 r1 s0 order k i j else 0)
  else if k < du ∧ i + k ≤ r1 - r0 ∧ l ≤ min (order - k) dv ∧ j + l ≤ s1 - s0 then
    some (curveDerivCpts S.pv (fun a => S.V (s0 + a)) (fun b => uCpts S col r0 r1 s0 order k i b) (min (order - k) dv) 0
      (s1 - s0) (fun _ _ => 0) l j)
  else some 0

end Verif.NSDer
