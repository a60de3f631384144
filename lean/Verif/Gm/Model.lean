import Verif.Bez.Model
import Verif.Ccx.Model

/-! # Gauss maps: `mmcore/numeric/gauss_map.py`

Arrays of shape `(n, m, dim)` are those of `Verif.Bez` (monomial.py); boxes and vectors those of `Verif.Ccx` and
`Verif.Mol`. -/

set_option linter.unusedSectionVars false

namespace Verif.Gm

open Finset
open Verif.Bez (Arr bezierToMonomial monomialToBezier)
open Verif.Mol (V)
open Verif.Ccx (Box aabbOverlap)

section
variable {K : Type} [Field K]

/-- `compute_partial_derivative(coeffs, "u")` (gauss_map.py:78-88): the shape is kept, the last row is zero. -/
def derivU (A : Arr K) : Arr K :=
  ⟨A.n, A.m, A.dim, fun i j d => if i + 1 < A.n then ((i + 1 : ℕ) : K) * A.get (i + 1) j d else 0⟩

/-- `compute_partial_derivative(coeffs, "v")` (gauss_map.py:78-88). -/
def derivV (A : Arr K) : Arr K :=
  ⟨A.n, A.m, A.dim, fun i j d => if j + 1 < A.m then ((j + 1 : ℕ) : K) * A.get i (j + 1) d else 0⟩

/-- `cross_product(a, b)` (gauss_map.py:91-109): the products which are added to `[i, j]`; the shape of `a` is used for both. -/
def crossProduct (A B : Arr K) : Arr K :=
  ⟨2 * A.n - 1, 2 * A.m - 1, 3, fun i j d =>
    ∑ i1 ∈ range A.n, ∑ j1 ∈ range A.m, ∑ i2 ∈ range A.n, ∑ j2 ∈ range A.m,
      if i1 + i2 = i ∧ j1 + j2 = j then
        A.get i1 j1 ((d + 1) % 3) * B.get i2 j2 ((d + 2) % 3) - A.get i1 j1 ((d + 2) % 3) * B.get i2 j2 ((d + 1) % 3)
      else 0⟩

/-- `compute_gauss_map` (gauss_map.py:172-185). -/
def gaussMap (g : ℕ → K) (inv : ℕ → (ℕ → ℕ → K) → ℕ → ℕ → K) (P : Arr K) : Arr K :=
  let F := bezierToMonomial g P
  monomialToBezier g inv (crossProduct (derivU F) (derivV F))

/-- The points times the weights, with the weights behind them (gauss_map.py:150-151). -/
def homogeneous (P : Arr K) (w : ℕ → ℕ → K) : Arr K :=
  ⟨P.n, P.m, P.dim + 1, fun i j d => if d < P.dim then P.get i j d * w i j else w i j⟩

/-- `compute_gauss_mapw` with weights (gauss_map.py:146-169), for points with three coordinates.  All products and quotients of
lines 159-163 are taken element by element on the arrays of coefficients.  `none`: a division by zero (`nan`). -/
def gaussMapW [DecidableEq K] (g : ℕ → K) (inv : ℕ → (ℕ → ℕ → K) → ℕ → ℕ → K) (P : Arr K) (w : ℕ → ℕ → K) : Option (Arr K) :=
  let F := bezierToMonomial g (homogeneous P w)
  let Fu := derivU F
  let Fv := derivV F
  if ∀ i < P.n, ∀ j < P.m, F.get i j 3 ^ 2 ≠ 0 then
    let Gu : Arr K := ⟨P.n, P.m, 3, fun i j d =>
      (Fu.get i j d * F.get i j 3 - F.get i j d * Fu.get i j 3) / F.get i j 3 ^ 2⟩
    let Gv : Arr K := ⟨P.n, P.m, 3, fun i j d =>
      (Fv.get i j d * F.get i j 3 - F.get i j d * Fv.get i j 3) / F.get i j 3 ^ 2⟩
    some (monomialToBezier g inv (crossProduct Gu Gv))
  else none

/-- The control vectors of `GaussMap.from_surf` (gauss_map.py:200-205): `unit` (vectors.pyx:183-197) of every control vector, with
`nrm` the square root of the sum of the squares.  `none`: a division by zero (`nan`). -/
def unitMap [DecidableEq K] (nrm : K → K → K → K) (A : Arr K) : Option (Arr K) :=
  if ∀ i < A.n, ∀ j < A.m, nrm (A.get i j 0) (A.get i j 1) (A.get i j 2) ≠ 0 then
    some ⟨A.n, A.m, 3, fun i j d => A.get i j d / nrm (A.get i j 0) (A.get i j 1) (A.get i j 2)⟩
  else none

/-- The control points of the first half of a Bezier curve (`subdivide_surface` at the middle, one direction). -/
def leftHalf (c : ℕ → K) (k : ℕ) : K := (∑ i ∈ range (k + 1), (Nat.choose k i : K) * c i) / 2 ^ k

end

variable {K : Type} [Field K] [LinearOrder K] [IsStrictOrderedRing K]

/-- A row of `A_ub` or a value of the four variables: a vector and epsilon. -/
abbrev Row (K : Type) := V K × K

/-- `find_separating_vector` (gauss_map.py:303-334): `lp rows` is `linear_program_solver` with these rows of `A_ub`, zero right
sides, the equation `epsilon = 0` and the default bounds of `linprog`; `nrm` is `scalar_norm`. -/
def findSeparating (nrm : V K → K) (lp : List (Row K) → Option (Row K)) (n1 n2 : List (V K)) : Option (V K) :=
  match lp (n1.map (fun n => (Mol.smul (-1) n, -1)) ++ n2.map fun n => (n, -1)) with
  | some (p, e) => if nrm p > 1 / 1000000 ∧ e < 0 then some (Mol.smul (1 / nrm p) p) else none
  | none => none

/-- `find_common_side_vector` (gauss_map.py:337-368). -/
def findCommonSide (nrm : V K → K) (lp : List (Row K) → Option (Row K)) (n1 n2 : List (V K)) : Option (V K) :=
  match lp (n1.map (fun n => (Mol.smul (-1) n, -1)) ++ n2.map fun n => (Mol.smul (-1) n, -1)) with
  | some (p, e) => if nrm p > 1 / 1000000 ∧ e < 0 then some (Mol.smul (1 / nrm p) p) else none
  | none => none

/-- `separate_gauss_maps` (gauss_map.py:280-300); `none` is `(None, None)`. -/
def separate (nrm : V K → K) (lp : List (Row K) → Option (Row K)) (n1 n2 : List (V K)) : Option (V K × V K) :=
  match findSeparating nrm lp n1 n2 with
  | none => none
  | some p1 =>
    match findCommonSide nrm lp n1 n2 with
    | none => none
    | some p2 => some (p1, p2)

/-- What `_detect_intersections_deep` uses of a `GaussMap` object: the box of the control points of the patch, the vectors of the
hull, and the four children. -/
structure Maps (K G : Type) where
  box : G → Box K
  hull : G → List (V K)
  hullBox : G → Box K
  sub : G → List G
  /-- `gjk` on the control points (line 454) -/
  gjk : G → G → Bool

/-- `scalar_norm(diag) < tol` (gauss_map.py:430-432). -/
def small (b : Box K) (tol : K) : Prop := 0 < tol ∧ Ccx.dist2 b.hi b.lo < tol ^ 2

instance (b : Box K) (tol : K) : Decidable (small b tol) := inferInstanceAs (Decidable (_ ∧ _))

/-- `np.min(ii[1] - ii[0]) < tol` for the common part of two boxes (gauss_map.py:437-440). -/
def thin (a b : Box K) (tol : K) : Prop :=
  min (min (min a.hi.x b.hi.x - max a.lo.x b.lo.x) (min a.hi.y b.hi.y - max a.lo.y b.lo.y))
    (min a.hi.z b.hi.z - max a.lo.z b.lo.z) < tol

instance (a b : Box K) (tol : K) : Decidable (thin a b tol) := inferInstanceAs (Decidable (_ < _))

/-- Concatenation of the results of the calls. -/
def collect {α β : Type} (f : α → Option (List β)) : List α → Option (List β)
  | [] => some []
  | a :: l => do
    let r ← f a
    let s ← collect f l
    return r ++ s

/-- `_detect_intersections_deep` (gauss_map.py:403-495). -/
def deep {G : Type} (M : Maps K G) (nrm : V K → K) (lp : List (Row K) → Option (Row K)) (tol : K) :
    ℕ → G → G → Option (List (G × G))
  | 0, _, _ => none
  | k + 1, g1, g2 =>
    if ¬ aabbOverlap (M.box g1) (M.box g2) then some []
    else if small (M.box g1) tol then some [(g1, g2)]
    else if thin (M.box g1) (M.box g2) tol then some []
    else if ¬ M.gjk g1 g2 then some []
    else if ¬ aabbOverlap (M.hullBox g2) (M.hullBox g1) then some [(g1, g2)]
    else if (separate nrm lp (M.hull g1) (M.hull g2)).isSome then some []
    else collect (fun gg => collect (fun gh => deep M nrm lp tol k gg gh) (M.sub g2)) (M.sub g1)

/-- `is_flat` (gauss_map.py:21-35); `nan < tolerance` is false. -/
def isFlat (nrm : V K → K) (s : K → K → V K) (u0 u1 v0 v1 tol : K) : Bool :=
  let c0 := s u0 v0
  let c1 := s u0 v1
  let c2 := s u1 v0
  let m := s ((u0 + u1) / 2) ((v0 + v1) / 2)
  let n := Mol.cross (Mol.sub c1 c0) (Mol.sub c2 c0)
  if nrm n = 0 then false
  else
    let n := Mol.smul (1 / nrm n) n
    decide (|Mol.dot n m + (- Mol.dot n c0)| < tol)

end Verif.Gm
