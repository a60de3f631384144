import Verif.DnC.Model
import Verif.Cbb.Model

/-!
# Model of `divide_and_conquer_min_3d` and `find_all_minima` (mmcore/numeric/divide_and_conquer.py)

Numbers are elements of an ordered field; functions to minimise are arbitrary.
-/

namespace Verif.Mnm

variable {K : Type} [Field K] [LinearOrder K]

/-- A point of space. -/
abbrev P3 (K : Type) := K × K × K

/-- A box: lower and upper corner. -/
structure Box3 (K : Type) where
  x0 : K
  x1 : K
  y0 : K
  y1 : K
  z0 : K
  z1 : K
deriving DecidableEq

/-- The candidates after the first (divide_and_conquer.py:331-351). -/
def cands3 (b : Box3 K) : List (P3 K) :=
  let xm := (b.x0 + b.x1) / 2
  let ym := (b.y0 + b.y1) / 2
  let zm := (b.z0 + b.z1) / 2
  [(b.x1, b.y0, b.z0), (b.x0, b.y1, b.z0), (b.x1, b.y1, b.z0), (b.x0, b.y0, b.z1), (b.x1, b.y0, b.z1),
   (b.x0, b.y1, b.z1), (b.x1, b.y1, b.z1), (xm, b.y0, b.z0), (xm, b.y1, b.z0), (b.x0, ym, b.z0), (b.x1, ym, b.z0),
   (xm, ym, b.z0), (b.x0, b.y0, zm), (b.x1, b.y0, zm), (b.x0, b.y1, zm), (b.x1, b.y1, zm), (xm, ym, b.z1),
   (xm, ym, zm)]

/-- One side of the next box (divide_and_conquer.py:354-365). -/
def side (r0 r1 u0 u1 c : K) : K × K := (max (c - (u1 - u0) / 4) r0, min (c + (u1 - u0) / 4) r1)

/-- One round (divide_and_conquer.py:300-365). -/
def step3 (f : P3 K → K) (r b : Box3 K) : Box3 K :=
  let c := DnC.argmin f (b.x0, b.y0, b.z0) (cands3 b)
  let x := side r.x0 r.x1 b.x0 b.x1 c.1
  let y := side r.y0 r.y1 b.y0 b.y1 c.2.1
  let z := side r.z0 r.z1 b.z0 b.z1 c.2.2
  ⟨x.1, x.2, y.1, y.2, z.1, z.2⟩

/-- The loop (divide_and_conquer.py:299-365). -/
def loop3 (f : P3 K → K) (tol : K) (r : Box3 K) : Nat → Box3 K → Option (Box3 K)
  | 0, _ => none
  | k + 1, b =>
    if b.x1 - b.x0 > tol ∨ b.y1 - b.y0 > tol ∨ b.z1 - b.z0 > tol then loop3 f tol r k (step3 f r b) else some b

/-- `divide_and_conquer_min_3d` (divide_and_conquer.py:282-367). -/
def min3d (f : P3 K → K) (tol : K) (r : Box3 K) (k : Nat) : Option (P3 K) :=
  (loop3 f tol r k r).map fun b => ((b.x0 + b.x1) / 2, (b.y0 + b.y1) / 2, (b.z0 + b.z1) / 2)

/-! ## `find_all_minima` -/

/-- What a caller hands to a routine: a list of two numbers, or an array of them. -/
inductive Arg (K : Type)
  | list (p : K × K)
  | array (p : K × K)

/-- How a call fails: by an exception, or by not ending within the fuel. -/
inductive Err
  | typeError
  | fuel
deriving DecidableEq

/-- A Hessian: f_xx, f_xy, f_yy. -/
structure Hess (K : Type) where
  xx : K
  xy : K
  yy : K

/-- `classify_critical_point_2d(hess) is LOCAL_MINIMUM` (fdm.py:654-676). -/
def isMinimum (h : Hess K) : Bool := decide (h.xx * h.yy - h.xy * h.xy > 0) && decide (h.xx > 0)

/-- `newtons_method` of cnewton.pyx:186: the argument `double[:] initial_point` takes a buffer, and a list is
not one; `run` is the method itself. -/
def cnewton (run : K × K → Option (K × K) × Hess K) : Arg K → Except Err (Option (K × K) × Hess K)
  | .list _ => .error .typeError
  | .array p => .ok (run p)

/-- A list without entries near an earlier one: an entry is kept if its distance to all kept ones is above `tol`
(divide_and_conquer.py:476-481 and 496-501). -/
def sieve {α : Type} (far : α → α → Bool) (l : List α) : List α :=
  l.foldl (fun kept p => if kept.all (far p) then kept ++ [p] else kept) []

/-- The grid, row by row (divide_and_conquer.py:453-460). -/
def grid (xr yr : K × K) (n : Nat) : List (K × K) :=
  (Cbb.linspace xr.1 xr.2 n).flatMap fun x => (Cbb.linspace yr.1 yr.2 n).map fun y => (x, y)

/-- The refinement of one minimum (divide_and_conquer.py:484-494). -/
def refine (f : K × K → K) (tol : K) (fuel : Nat) (p : K × K) : Except Err ((K × K) × K) :=
  match DnC.min2d f tol ⟨p.1 - tol, p.1 + tol, p.2 - tol, p.2 + tol⟩ fuel with
  | some q => .ok (q, f q)
  | none => .error .fuel

/-- `find_all_minima` (divide_and_conquer.py:428-502) with a given Newton routine; it is called with a list.
`tol2` is the square root of the tolerance. The loop over the grid calls the routine on all points. -/
def findAllMinima (newton : Arg K → Except Err (Option (K × K) × Hess K)) (dist : K × K → K × K → K) (f : K × K → K)
    (xr yr : K × K) (n : Nat) (tol tol2 : K) (fuel : Nat) : Except Err (List ((K × K) × K)) := do
  let runs ← (grid xr yr n).mapM fun p => newton (.list p)
  let found := runs.filterMap fun r => if isMinimum r.2 then r.1 else none
  let minima := sieve (fun p q => decide (dist p q > tol2)) found
  let refined ← minima.mapM (refine f tol fuel)
  return sieve (fun p q => decide (dist p.1 q.1 > tol)) refined

end Verif.Mnm
