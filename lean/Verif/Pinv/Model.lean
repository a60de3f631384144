import Verif.Vec.Model

/-! # Point inversion: `mmcore/numeric/algorithms/point_inversion.py`

Numbers are elements of an ordered field; `nrm` is the Euclidean norm (`scalar_norm`, `np.linalg.norm`), a parameter with the
properties `Nrm` below; `near0 x` is `np.isclose(x, 0)`.  `none` is an exception. -/

namespace Verif.Pinv

open Verif.Vec V3

variable {K : Type} [Field K] [LinearOrder K]

/-- A curve with its first two derivatives. -/
structure Crv (K : Type) where
  ev : K → V3 K
  d1 : K → V3 K
  d2 : K → V3 K

/-- The next iterate (point_inversion.py:51-57): `none` if `fpi` is close to 0 (54). -/
def newtonC (near0 : K → Bool) (c : Crv K) (p : V3 K) (u : K) : Option K :=
  let fi := dot (c.d1 u) ((c.ev u).sub p)
  let fpi := dot (c.d2 u) ((c.ev u).sub p) + dot (c.d1 u) (c.d1 u)
  if near0 fpi then none else some (u - fi / fpi)

/-- The loop of `point_inversion_curve` (point_inversion.py:45-73).  At the head of the loop `C_point`, `C_prime` and
`C_double_prime` are those of `ui`.  The three `break`s leave `ui` as it was.  A division by zero in line 67 raises. -/
def invCurve (nrm : V3 K → K) (near0 : K → Bool) (c : Crv K) (p : V3 K) (tol1 tol2 : K) : Nat → K → Option K
  | 0, u => some u
  | n + 1, u =>
    match newtonC near0 c p u with
    | none => some u
    | some u1 =>
      if |u1 - u| * nrm (c.d1 u) ≤ tol1 then some u
      else if nrm ((c.ev u1).sub p) ≤ tol1 then some u
      else
        let den := nrm (c.d1 u1) * nrm ((c.d1 u1).sub p)
        if den = 0 then none
        else if |dot (c.d1 u1) ((c.ev u1).sub p)| / den ≤ tol2 then some u
        else invCurve nrm near0 c p tol1 tol2 n u1

/-- A surface with its first derivatives. -/
structure Srf (K : Type) where
  ev : K × K → V3 K
  du : K × K → V3 K
  dv : K × K → V3 K

/-- The next iterate (point_inversion.py:136-180): `none` if the system cannot be solved. -/
def gaussS (s : Srf K) (p : V3 K) (uv : K × K) : Option (K × K) :=
  let d := (s.ev uv).sub p
  let du := s.du uv
  let dv := s.dv uv
  (solve2x2 (dot du du) (dot du dv) (dot dv du) (dot dv dv) (dot du d) (dot dv d)).map fun x => (uv.1 - x.1, uv.2 - x.2)

/-- The loop of `point_inversion_surface` (point_inversion.py:132-198); `nrm2` is the norm of a pair.  The three `break`s leave
`uivi` as it was.  `none` is the `ValueError` of line 178.  In line 192 a division `0 / 0` is NaN, which is not `≤ tol2`. -/
def invSurface (nrm : V3 K → K) (nrm2 : K × K → K) (s : Srf K) (p : V3 K) (tol1 tol2 : K) : Nat → K × K → Option (K × K)
  | 0, uv => some uv
  | n + 1, uv =>
    match gaussS s p uv with
    | none => none
    | some uv1 =>
      if nrm2 (uv1.1 - uv.1, uv1.2 - uv.2) * (nrm (s.du uv) + nrm (s.dv uv)) ≤ tol1 then some uv
      else if nrm ((s.ev uv1).sub p) ≤ tol1 then some uv
      else
        let den := nrm (s.du uv1) * nrm ((s.ev uv1).sub p)
        if den ≠ 0 ∧ |dot (s.du uv1) ((s.ev uv1).sub p)| / den ≤ tol2 then some uv
        else invSurface nrm nrm2 s p tol1 tol2 n uv1

/-- The masks of `points_inversion_surface` for one point (point_inversion.py:245-246, 288-297).  The norm in line 288 is that
of the iterate itself, and `dv_norm` is the norm of `du` too. -/
def maskS (nrm : V3 K → K) (nrm2 : K × K → K) (s : Srf K) (p : V3 K) (tol1 tol2 : K) (uv uv1 : K × K) : Bool :=
  decide (nrm2 uv1 * (nrm (s.du uv) + nrm (s.du uv)) ≤ tol1) || (decide (nrm ((s.ev uv1).sub p) ≤ tol1) ||
    (decide (nrm (s.du uv1) * nrm ((s.ev uv1).sub p) ≠ 0) &&
      decide (|dot (s.du uv1) ((s.ev uv1).sub p)| / (nrm (s.du uv1) * nrm ((s.ev uv1).sub p)) ≤ tol2)))

/-- The loop of `points_inversion_surface` (point_inversion.py:237-310) on the points still active: index in the result, point
and iterate.  `none` is the `LinAlgError` of the solver. -/
def invPoints (nrm : V3 K → K) (nrm2 : K × K → K) (s : Srf K) (tol1 tol2 : K) :
    Nat → List (Nat × V3 K × (K × K)) → (Nat → K × K) → Option (Nat → K × K)
  | 0, _, res => some res
  | n + 1, act, res =>
    match act.mapM fun a => (gaussS s a.2.1 a.2.2).map fun uv1 => (a, uv1) with
    | none => none
    | some l =>
      let done := l.filter fun b => maskS nrm nrm2 s b.1.2.1 tol1 tol2 b.1.2.2 b.2
      let rest := (l.filter fun b => !maskS nrm nrm2 s b.1.2.1 tol1 tol2 b.1.2.2 b.2).map fun b => (b.1.1, b.1.2.1, b.2)
      let res1 := done.foldl (fun r b => Function.update r b.1.1 b.1.2.2) res
      if rest = [] then some res1 else invPoints nrm nrm2 s tol1 tol2 n rest res1

/-- `points_inversion_surface` (point_inversion.py:205-328): the result starts with zeros. -/
def invAll (nrm : V3 K → K) (nrm2 : K × K → K) (s : Srf K) (tol1 tol2 : K) (maxIter : Nat) (ps : List (V3 K)) (u0 v0 : K) :
    Option (Nat → K × K) :=
  invPoints nrm nrm2 s tol1 tol2 maxIter (ps.zipIdx.map fun a => (a.2, a.1, (u0, v0))) fun _ => (0, 0)

end Verif.Pinv
