import Verif.Vec.Model

/-! # Points on the intersection of two implicit surfaces, compiled

`cintersection_curve_point` of `mmcore/numeric/calgorithms.pxd`, `_curve_point2` and `surface_plane` of `mmcore/numeric/algorithms/implicit_point.py`,
`line_search_backtrack` of `mmcore/numeric/newton/bounded.py`, `mgrid3d` and `ImplicitIntersectionCurve.plane` of
`mmcore/numeric/intersection/implicit_implicit.py`.  Numbers are elements of an ordered field; the length of a vector is a parameter `nrm`. -/

namespace Verif.Icp

open Verif.Vec V3

variable {K : Type} [Field K] [LinearOrder K]

/-! ## `cintersection_curve_point` -/

/-- A surface: `cimplicit` and `cgradient`. -/
structure Surf (K : Type) where
  f : V3 K → K
  g : V3 K → V3 K

/-- One solution of the system (calgorithms.pxd:82-97 and 118-134): the return code, and the content of `alpha_beta`, which stays as it was when the
matrix is singular. -/
def coeffs (s1 s2 : Surf K) (ab : K × K) (q : V3 K) : Bool × (K × K) :=
  match solve2x2 (dot (s1.g q) (s1.g q)) (dot (s2.g q) (s1.g q)) (dot (s1.g q) (s2.g q)) (dot (s2.g q) (s2.g q)) (-s1.f q) (-s2.f q) with
  | some ab' => (true, ab')
  | none => (false, ab)

/-- `delta` (calgorithms.pxd:101-103 and 138-140). -/
def delta (s1 s2 : Surf K) (ab : K × K) (q : V3 K) : V3 K := add (smul ab.1 (s1.g q)) (smul ab.2 (s2.g q))

/-- The loop (calgorithms.pxd:110-147).  `left` is `max_iter + 1 - i`, `qn` is `qk_next`, `d` the last `delta`.  The answer is the return code and what is
written to `result`, if anything; `_success` is not used. -/
def loop (nrm : V3 K → K) (tol : K) (s1 s2 : Surf K) (success : Bool) : Nat → K × K → V3 K → V3 K → Bool × Option (V3 K)
  | left, ab, qn, d =>
    if nrm d > tol then
      match left with
      | 0 => (false, none)
      | n + 1 =>
        let ab' := (coeffs s1 s2 ab qn).2
        let d' := delta s1 s2 ab' qn
        loop nrm tol s1 s2 success n ab' (add d' qn) d'
    else (success, some qn)

/-- `cintersection_curve_point` (calgorithms.pxd:69-152); `i > max_iter` is tested before each round. -/
def curvePoint (nrm : V3 K → K) (tol : K) (maxIter : Nat) (s1 s2 : Surf K) (q0 : V3 K) : Bool × Option (V3 K) :=
  let c := coeffs s1 s2 (0, 0) q0
  let d := delta s1 s2 c.2 q0
  loop nrm tol s1 s2 c.1 (maxIter + 1) c.2 (add d q0) d

/-! ## `_curve_point2` and `surface_plane` -/

/-- `_curve_point_newton_step` (implicit_point.py:153-162). -/
def newtonStep (f : K × K → K) (g : K × K → K × K) (p : K × K) : K × K :=
  let cc := (g p).1 ^ 2 + (g p).2 ^ 2
  if cc > 0 then (p.1 + -f p / cc * (g p).1, p.2 + -f p / cc * (g p).2) else p

/-- `_curve_point2` (implicit_point.py:165-174); the first argument is the number of rounds available. -/
def curvePoint2 (f : K × K → K) (g : K × K → K × K) (tol : K) : Nat → K × K → Option (K × K)
  | 0, _ => none
  | n + 1, p =>
    let q := newtonStep f g p
    if |p.1 - q.1| + |p.2 - q.2| ≥ tol then curvePoint2 f g tol n q else some q

/-- The assignment `p, nv = surface_point(...)` of `surface_plane` (implicit_point.py:218), whose right side is one point with the coordinates `r`; `rest` is
what follows, `none` an exception. -/
def surfacePlane {R : Type} (r : List K) (rest : K → K → Option R) : Option R :=
  match r with
  | [p, nv] => rest p nv
  | _ => none

/-! ## `line_search_backtrack` -/

/-- The loop of `line_search_backtrack` (bounded.py:98-103); `slope` is `directional_derivative`, `c` is `1e-4`. -/
def backLoop (c : K) (f : List K → K) (x dx : List K) (slope : K) : Nat → K → List K × Bool
  | 0, _ => (x, false)
  | m + 1, α =>
    let trial := List.zipWith (fun a b => a + α * b) x dx
    if f trial ≤ f x + c * α * slope then (trial, true) else backLoop c f x dx slope m (α * (1 / 2))

/-- `line_search_backtrack` (bounded.py:92-104) with `n` the number of coordinates; `xnew` is not used. -/
def backtrack (c : K) (f : List K → K) (g : List K → List K) (x dx : List K) (α : K) (maxIter : Nat) : List K × Bool :=
  backLoop c f x dx (List.zipWith (· * ·) (g x) dx).sum maxIter α

/-! ## `mgrid3d` and the frame of the intersection curve -/

/-- `np.linspace(a, b, n)`. -/
def linspace (a b : K) (n : Nat) : List K := (List.range n).map fun (i : Nat) => if n = 1 then a else a + (b - a) * (i : K) / ((n : K) - 1)

/-- `mgrid3d` (implicit_implicit.py:18-28): `meshgrid` with `indexing='ij'`, then flattened. -/
def mgrid3d (lo hi : V3 K) (nx ny nz : Nat) : List (V3 K) :=
  (linspace lo.x hi.x nx).flatMap fun x => (linspace lo.y hi.y ny).flatMap fun y => (linspace lo.z hi.z nz).map fun z => ⟨x, y, z⟩

/-- `scalar_unit` (vectors.pyx:363-375) for a vector that is not zero. -/
def unit (nrm : V3 K → K) (v : V3 K) : V3 K := ⟨v.x / nrm v, v.y / nrm v, v.z / nrm v⟩

/-- `ImplicitIntersectionCurve.plane` (implicit_implicit.py:56-69): `n1`, `n2` are the gradients at the closest point `o`.  The value of line 60, the
direction to the point asked for, is overwritten. -/
def plane (nrm : V3 K → K) (o n1 n2 : V3 K) : V3 K × V3 K × V3 K × V3 K :=
  let tang := unit nrm (cross n1 n2)
  let n := unit nrm (sub n1 (smul (dot n1 tang) tang))
  (o, tang, n, cross tang n)

end Verif.Icp
