import Mathlib.Algebra.Order.Field.Basic
import Mathlib.Algebra.BigOperators.Fin

/-!
# Model of mmcore/geom/implicit/implicit.py

Values of implicit functions are elements of an ordered field.  A point has `n` coordinates.
-/

namespace Verif.Implicit

variable {K : Type} [Field K] [LinearOrder K]

/-- `op_union` (implicit.py:16-17). -/
def opUnion (d1 d2 : K) : K := min d1 d2

/-- `op_subtraction` (implicit.py:20-21). -/
def opSub (d1 d2 : K) : K := max (-d1) d2

/-- `op_intersection` (implicit.py:24-25, 391-392). -/
def opInter (d1 d2 : K) : K := max d1 d2

/-- `op_xor` (implicit.py:28-29). -/
def opXor (d1 d2 : K) : K := max (min d1 d2) (-max d1 d2)

/-- `op_inv` (implicit.py:32-33). -/
def opInv (a : K) : K := -a

/-- The two corners returned by `bounds`. -/
structure Bnd (n : Nat) (K : Type) where
  lo : Fin n → K
  hi : Fin n → K

/-- Objects made from primitives by `Union2D/3D`, `Intersection2D/3D` and `Sub2D/3D`; a primitive has
an implicit function and bounds of its own. -/
inductive Csg (n : Nat) (K : Type)
  | prim (f : (Fin n → K) → K) (b : Bnd n K)
  | union (a b : Csg n K)
  | inter (a b : Csg n K)
  | sub (a b : Csg n K)

/-- `implicit` (implicit.py:341-342, 364-365, 390-394, 427-428, 440-441, 453-454). -/
def Csg.eval {n : Nat} : Csg n K → (Fin n → K) → K
  | .prim f _, v => f v
  | .union a b, v => opUnion (a.eval v) (b.eval v)
  | .inter a b, v => opInter (a.eval v) (b.eval v)
  | .sub a b, v => opSub (a.eval v) (b.eval v)

/-- `bounds` after the constructor ran `solve_bounds` (implicit.py:344-350, 367-376, 396-402,
416-425, 443-444, 456-457).  `none` if a constructor raised: `Intersection2D` calls `None`. -/
def Csg.bounds {n : Nat} : Csg n K → Option (Bnd n K)
  | .prim _ b => some b
  | .union a b => match a.bounds, b.bounds with
    | some p, some q => some ⟨fun i => min (p.lo i) (q.lo i), fun i => max (p.hi i) (q.hi i)⟩
    | _, _ => none
  | .inter a b => match a.bounds, b.bounds with
    | some p, some q =>
      if n = 2 then none
      else some ⟨fun i => max (p.lo i) (q.lo i), fun i => min (p.hi i) (q.hi i)⟩
    | _, _ => none
  | .sub a b => match a.bounds, b.bounds with
    | some p, some _ => some p
    | _, _ => none

/-- `xyz + D[i]` where `D` is the identity times `d`. -/
def shift {n : Nat} (v : Fin n → K) (i : Fin n) (d : K) : Fin n → K :=
  fun j => if j = i then v j + d else v j

/-- `normal_from_function2d/3d` (implicit.py:43-75); the normalised vector is computed and dropped. -/
def normalFrom {n : Nat} (f : (Fin n → K) → K) (d : K) (v : Fin n → K) : Fin n → K :=
  fun i => (f (shift v i d) - f (shift v i (-d))) / 2 / d

/-- `point_on_curve` (implicit.py:115-122). -/
def pointOn {n : Nat} (f : (Fin n → K) → K) (g : (Fin n → K) → Fin n → K) (v : Fin n → K) :
    Fin n → K :=
  fun i => v i - g v i * f v

/-! ## `NpCache` (implicit.py:78-93) -/

/-- The dictionary, most recent entry first. -/
abbrev Cache (κ β : Type) := List (κ × β)

/-- `dict.__getitem__`. -/
def find {κ β : Type} [DecidableEq κ] (c : Cache κ β) (k : κ) : Option β :=
  match c with
  | [] => none
  | e :: c => if e.1 = k then some e.2 else find c k

/-- `NpCache.__call__` (implicit.py:86-93). -/
def call {α κ β : Type} [DecidableEq κ] (repr : α → κ) (f : α → β) (c : Cache κ β) (x : α) :
    β × Cache κ β :=
  match find c (repr x) with
  | some r => (r, c)
  | none => (f x, (repr x, f x) :: c)

/-- What happens to a cache: a call, or `clear` (implicit.py:83-84). -/
inductive Ev (α : Type)
  | call (x : α)
  | clear

/-- Run a history and collect argument and result of every call. -/
def runCache {α κ β : Type} [DecidableEq κ] (repr : α → κ) (f : α → β) :
    Cache κ β → List (Ev α) → List (α × β)
  | _, [] => []
  | _, .clear :: es => runCache repr f [] es
  | c, .call x :: es =>
    (x, (call repr f c x).1) :: runCache repr f (call repr f c x).2 es

end Verif.Implicit
