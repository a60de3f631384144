import Mathlib.Algebra.Order.Field.Basic

/-!
# Model of `mmcore/numeric/interval/_interval.py`

Endpoints in an exact ordered field.  `Interval(low, upp)` does not check `low ≤ upp`, nor does the model.
Operators with a plain number as second operand are separate definitions (`…Scalar`).
Division by a zero endpoint (`ZeroDivisionError`) is `none`.
-/

namespace Verif.Interval

/-- `Interval` (_interval.py:13-27). -/
structure Interval (K : Type) where
  low : K
  upp : K
  deriving DecidableEq, Repr

variable {K : Type} [Field K] [LinearOrder K]

/-- `__add__` (33-36) / `__radd__` (38-41) with an interval. -/
def add (a b : Interval K) : Interval K := ⟨a.low + b.low, a.upp + b.upp⟩

/-- `__add__` with a number (36). -/
def addScalar (a : Interval K) (s : K) : Interval K := ⟨a.low + s, a.upp + s⟩

/-- `__sub__` with an interval (43-45). -/
def sub (a b : Interval K) : Interval K := ⟨a.low - b.low, a.upp - b.upp⟩

/-- `__sub__` with a number (46). -/
def subScalar (a : Interval K) (s : K) : Interval K := ⟨a.low - s, a.upp - s⟩

/-- `min` of a non-empty Python list `x :: xs`. -/
def minOf (x : K) (xs : List K) : K := xs.foldl min x
/-- `max` of a non-empty Python list `x :: xs`. -/
def maxOf (x : K) (xs : List K) : K := xs.foldl max x

/-- `__mul__` with an interval (48-51). -/
def mul (a b : Interval K) : Interval K :=
  let p1 := a.low * b.low
  let p2 := a.low * b.upp
  let p3 := a.upp * b.low
  let p4 := a.upp * b.upp
  ⟨minOf p1 [p2, p3, p4], maxOf p1 [p2, p3, p4]⟩

/-- `__mul__` with a number (52). -/
def mulScalar (a : Interval K) (s : K) : Interval K := ⟨a.low * s, a.upp * s⟩

/-- `__truediv__` with an interval (54-58). -/
def div (a b : Interval K) : Option (Interval K) :=
  if b.low = 0 ∨ b.upp = 0 then none
  else
    let r1 := 1 / b.low
    let r2 := 1 / b.upp
    some (mul a ⟨min r1 r2, max r1 r2⟩)

/-- `__truediv__` with a number (59). -/
def divScalar (a : Interval K) (s : K) : Option (Interval K) :=
  if s = 0 then none else some ⟨a.low / s, a.upp / s⟩

/-- `__pow__` (200-204) and `Interval.pow` (154-159) for a natural exponent. -/
def pow (a : Interval K) (n : Nat) : Interval K :=
  if n % 2 = 0 then ⟨min (a.low ^ n) (a.upp ^ n), max (a.low ^ n) (a.upp ^ n)⟩
  else ⟨a.low ^ n, a.upp ^ n⟩

/-- `__invert__` (129-138); the outer `none` is `ZeroDivisionError`, `inr ()` the unbounded interval. -/
def invert (a : Interval K) : Option (Interval K ⊕ Unit) :=
  if a.low = 0 ∨ a.upp = 0 then none
  else if a.low < 0 ∧ 0 < a.upp then some (.inr ())
  else some (.inl ⟨1 / a.upp, 1 / a.low⟩)

/-- `__contains__` with a number (64). -/
def mem (a : Interval K) (x : K) : Bool := decide (a.low ≤ x ∧ x ≤ a.upp)

/-- `__contains__` with an interval (62-63). -/
def memInterval (a b : Interval K) : Bool := decide (a.low ≤ b.low ∧ b.upp ≤ a.upp)

/-- `Comparison` (8-11). -/
inductive Comparison | true | false | maybe
  deriving DecidableEq

/-- `compare` with an interval (66-73). -/
def compare (a b : Interval K) : Comparison :=
  if a.upp < b.low then .true else if a.low > b.upp then .false else .maybe

/-- `compare` with a number (74). -/
def compareScalar (a : Interval K) (s : K) : Comparison := if a.upp < s then .true else .false

/-- `__lt__` (76-78), `__le__` (80-82), `__gt__` (84-86), `__ge__` (88-90) given the comparison result. -/
def isLt (c : Comparison) : Bool := c == .true
def isLe (c : Comparison) : Bool := c == .true || c == .maybe
def isGt (c : Comparison) : Bool := c == .false
def isGe (c : Comparison) : Bool := c == .false || c == .maybe

/-- `_subdivide_step` (100-105); `* 0.5` is `* (1/2)`. -/
def subdivideStep (a : Interval K) : List (Interval K) :=
  let mid := (a.low + a.upp) * (1 / 2)
  [⟨a.low, mid⟩, ⟨mid, a.upp⟩]

/-- `subdivide(steps)` (107-114). -/
def subdivideFrom (res : List (Interval K)) : Nat → List (Interval K)
  | 0 => res
  | n + 1 => subdivideFrom (res.flatMap subdivideStep) n

def subdivide (a : Interval K) (steps : Nat) : List (Interval K) := subdivideFrom [a] steps

/-- `evaluate` (116-117). -/
def evaluate (a : Interval K) (t : K) : K := a.low + (a.upp - a.low) * t

/-- `__and__` (119-121). -/
def inter (a b : Interval K) : Interval K := ⟨max a.low b.low, min a.upp b.upp⟩

/-- `__or__` (124-126) and `merge` (140-141). -/
def hull (a b : Interval K) : Interval K := ⟨min a.low b.low, max a.upp b.upp⟩

end Verif.Interval
