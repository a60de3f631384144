import Mathlib.Algebra.Field.Basic
import Mathlib.Algebra.Order.Group.Abs
import Mathlib.Order.Defs.LinearOrder

/-!
# Model of `mmcore/numeric/bisection.py`: `bisection1d`, `bisection_2d`, `scalar_min_1d`

Numbers come from an ordered field; loops and recursions are given a number of rounds and are `none` when it does not suffice.
-/

namespace Verif.Bisect

variable {F : Type} [Field F] [LinearOrder F]

/-- `if value < minimum: minimum = value` (bisection.py:26-27), `none` is `inf`. -/
def lower (minimum : Option F) (value : F) : Option F :=
  match minimum with
  | none => some value
  | some m => if value < m then some value else some m

/-- The loop of `bisection1d` (bisection.py:24-38): the list of the pairs `(x, value)` and the least value (`none` is `inf`). -/
def scanLoop (f : F → F) (step stop : F) : Nat → F → Bool → List (F × F) → Option F → Option (List (F × F) × Option F)
  | 0, _, _, _, _ => none
  | fuel + 1, x, sign, roots, minimum =>
    if x ≤ stop then
      let value := f x
      let minimum := lower minimum value
      let roots :=
        if value = 0 then roots ++ [(x, value)]
        else if decide (0 < value) ≠ sign then roots ++ [(x, value)]
        else roots
      scanLoop f step stop fuel (x + step) (decide (0 < value)) roots minimum
    else some (roots, minimum)

/-- `bisection1d(f, step, start, stop)` (bisection.py:17-39). -/
def bisection1d (f : F → F) (step start stop : F) (fuel : Nat) : Option (List (F × F) × Option F) :=
  scanLoop f step stop fuel start (decide (0 < f start)) [] none

/-- A rectangle. -/
structure Box (F : Type) where
  x0 : F
  x1 : F
  y0 : F
  y1 : F

/-- The body of the loop of `bisection_2d` (bisection.py:55-84). -/
def halve (f : F → F → F) (b : Box F) : Box F :=
  let xm := (b.x0 + b.x1) / 2
  let ym := (b.y0 + b.y1) / 2
  let f00 := f b.x0 b.y0
  let f10 := f b.x1 b.y0
  let f01 := f b.x0 b.y1
  let f11 := f b.x1 b.y1
  let fmid := f xm ym
  if f00 * fmid < 0 then { b with x1 := xm, y1 := ym }
  else if f10 * fmid < 0 then { b with x0 := xm, y1 := ym }
  else if f01 * fmid < 0 then { b with x1 := xm, y0 := ym }
  else if f11 * fmid < 0 then { b with x0 := xm, y0 := ym }
  else
    let b1 : Box F := if |f b.x0 ym| < |f b.x1 ym| then { b with x1 := xm } else { b with x0 := xm }
    if |f xm b1.y0| < |f xm b1.y1| then { b1 with y1 := ym } else { b1 with y0 := ym }

/-- The loop of `bisection_2d` (bisection.py:54-86). -/
def loop2d (f : F → F → F) (tol : F) : Nat → Box F → Option (F × F)
  | 0, _ => none
  | fuel + 1, b =>
    if tol < (b.x1 - b.x0) / 2 ∨ tol < (b.y1 - b.y0) / 2 then loop2d f tol fuel (halve f b)
    else some ((b.x0 + b.x1) / 2, (b.y0 + b.y1) / 2)

/-- `bisection_2d(f, x_range, y_range, tol)` (bisection.py:45-86): the inner `none` is the `None` for corners of the same sign. -/
def bisection2d (f : F → F → F) (b : Box F) (tol : F) (fuel : Nat) : Option (Option (F × F)) :=
  if 0 < f b.x0 b.y0 * f b.x1 b.y1 then some none
  else match loop2d f tol fuel b with
    | none => none
    | some r => some (some r)

/-- What a call of `scalar_min_1d` ends with. -/
inductive Outcome (F : Type)
  | value (t : F)
  | indexError
  deriving DecidableEq

/-- `np.linspace(start, end, divs)[k]`. -/
def node (s e : F) (divs k : Nat) : F := s + (k : F) * ((e - s) / ((divs : F) - 1))

/-- `res.min()` over the `divs` values (the first node for an empty tail). -/
def least (f : F → F) (s e : F) (divs : Nat) : F :=
  (List.range divs).foldl (fun m k => min m (f (node s e divs k))) (f (node s e divs 0))

/-- `np.where(np.isclose(res, m))[0][0]`: `close` is `np.isclose`. -/
def firstIndex (close : F → F → Bool) (f : F → F) (s e : F) (divs : Nat) : Option Nat :=
  (List.range divs).find? fun k => close (f (node s e divs k)) (least f s e divs)

/-- `wrap(start, end)` (bisection.py:90-102): the index `-1` is the last one, the index `divs` an `IndexError`. -/
def wrap (close : F → F → Bool) (f : F → F) (step : F) (divs : Nat) : Nat → F → F → Option (Outcome F)
  | 0, _, _ => none
  | fuel + 1, s, e =>
    match firstIndex close f s e divs with
    | none => some .indexError
    | some i =>
      if |node s e divs 0 - node s e divs 1| ≤ step then some (.value (node s e divs i))
      else if divs ≤ i + 1 then some .indexError
      else wrap close f step divs fuel (node s e divs (if i = 0 then divs - 1 else i - 1)) (node s e divs (i + 1))

/-- `scalar_min_1d(f, start, end, step, divs)` (bisection.py:89-104). -/
def scalarMin (close : F → F → Bool) (f : F → F) (s e step : F) (divs : Nat) (fuel : Nat) : Option (Outcome F) :=
  wrap close f step divs fuel s e

end Verif.Bisect
