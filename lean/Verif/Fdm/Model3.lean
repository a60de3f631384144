import Mathlib.Algebra.Order.Field.Rat
import Mathlib.Algebra.Order.Ring.Abs

/-! # The class `PDE` of `mmcore/numeric/fdm.py`

Numbers are elements of an ordered field.  A point is a function of its index; `f` takes one point, applied to a matrix it is applied to each row. -/

namespace Verif.Fdm.Pde

variable {K : Type} [Field K] [LinearOrder K]

/-- The attributes of `PDE` (fdm.py:91-96): `sel` is `_full_dim_select`.  `H` is used nowhere. -/
structure Pde (K : Type) where
  f : (Nat → K) → K
  h : K
  dim : Nat
  sel : List Nat

/-- `PDE.__init__` (fdm.py:91-96). -/
def make (f : (Nat → K) → K) (dim : Nat) (h : K) : Pde K := ⟨f, h, dim, List.range dim⟩

/-- The setter of `dim` (fdm.py:102-104). -/
def setDim (p : Pde K) (v : Nat) : Pde K := { p with dim := v }

/-- `get_h` (fdm.py:129-132): row `i` of the matrix is `h` at `i` if `i` is among the axes; `none` is the `IndexError`. -/
def getH (p : Pde K) (axes : List Nat) : Option (Nat → Nat → K) :=
  if axes.all fun i => decide (i < p.dim) then some fun i j => if i = j ∧ i ∈ axes then p.h else 0 else none

/-- `_wrp` (fdm.py:106-119) for a point with `dim` coordinates: the comparison with the bounds raises if there is more than one. -/
def wrp (p : Pde K) (t : Nat → K) (H : Nat → Nat → K) (bounds : Option (K × K)) : Option (List K) :=
  let ts := fun i j => t j + H i j
  let te := fun i j => t j - H i j
  let central := (List.range p.dim).map fun i => (p.f (ts i) - p.f (te i)) / (2 * p.h)
  match bounds with
  | none => some central
  | some (lo, hi) =>
    if p.dim ≠ 1 then none
    else if |lo - t 0| ≤ p.h then some ((List.range p.dim).map fun i => (p.f (ts i) - p.f t) / p.h)
    else if |hi - t 0| ≤ p.h then some ((List.range p.dim).map fun i => (p.f t - p.f (te i)) / p.h)
    else some central

/-- `dnn` (fdm.py:154-156); `dx`, `dy`, `dz`, `dxy`, `dyz`, `dzx` (121-152) are calls with the axes 0, 1, 2, (0, 1), (1, 2) and (0, 2). -/
def dnn (p : Pde K) (t : Nat → K) (axes : List Nat) (bounds : Option (K × K)) : Option (List K) := (getH p axes).bind fun H => wrp p t H bounds

/-- `__call__` (fdm.py:158-161) without axes. -/
def call (p : Pde K) (t : Nat → K) (bounds : Option (K × K)) : Option (List K) := dnn p t p.sel bounds

end Verif.Fdm.Pde
