import Verif.Ppx.Model

/-!
# The loop of `marching_method` (pp.py:164-206)

A state is the pair of parameters on both surfaces.  `better` is the correction of `marching_step`, `neg`, `close`, `a1`, `a2` and `step` are as for
`marching` in `Model.lean`.  The call of `freeform_step` is represented by the state it ends in; a result of it that is not a pair of
points with parameters is an exception.
-/

set_option linter.unusedSectionVars false

namespace Verif.Ppx

variable {K : Type} [Field K] [LinearOrder K]

/-- `check_wrap_back` (pp.py:164-165). -/
def wrapBack {P : Type} (dist : P → P → K) (x x0 : P) (step : K) : Bool := decide (dist x x0 < step / 2)

/-- `stop_check` (pp.py:168-174).  It is called nowhere. -/
def stopCheck {P : Type} (dist : P → P → K) (TOL : K) (i1 i2 : (K × K) × (K × K)) (x1 x2 : P) (uv1 uv2 : K × K) (x0 : P) (step : K)
    (iterations maxIter : ℕ) : Bool :=
  decide (maxIter ≤ iterations) || decide (TOL ≤ dist x1 x2) || surfaceEdge uv1 i1 || surfaceEdge uv2 i2 ||
    wrapBack dist x1 x0 step || wrapBack dist x2 x0 step

/-- Both parts at the head of a result of `marching_step`, which is what the assignment of pp.py:197 takes. -/
def heads {A : Type} : MRes A K → Option (A × A)
  | .none => none
  | .done a b _ => some (a, b)
  | .nest a b _ => some (a, b)

/-- The loop of `marching_method` (pp.py:190-204), what is appended to the lists.  `none` is an exception: the recursion of `marching_step` goes
deeper than `d`. -/
def methodLoop {S A : Type} (better : S → S) (neg close : S → Bool) (a1 a2 : S → A) (step : S → K) (d : ℕ) : ℕ → S → Option (List (A × A))
  | 0, _ => some []
  | n + 1, s =>
    match marching better neg close a1 a2 step d s with
    | none => none
    | some r =>
      match heads r with
      | none => some []
      | some h => (methodLoop better neg close a1 a2 step d n (better s)).map (h :: ·)

/-- `marching_method` (pp.py:177-206) from the state after `freeform_step`: the points on both surfaces with their parameters. -/
def method {S A : Type} (better : S → S) (neg close : S → Bool) (a1 a2 : S → A) (step : S → K) (d maxIter : ℕ) (s : S) : Option (List (A × A)) :=
  match marching better neg close a1 a2 step d s with
  | none => none
  | some r =>
    match heads r with
    | none => none
    | some h => (methodLoop better neg close a1 a2 step d maxIter (better s)).map (h :: ·)

end Verif.Ppx
