import Verif.Srf.Model
import Mathlib.Algebra.Order.Floor.Defs
import Mathlib.Data.Rat.Floor

/-!
# Model of the Python curves: `mmcore/geom/curves/curve.py`

Numbers come from an ordered field `K`, points from a module `V` over it.  `DEFAULT_H` is the argument `h`.  The integral of the
speed, `evaluate_length` of numeric.py:84-95, is an argument.  `np.linspace` is `Srf.lin`.  Not modelled: `curvature_points`,
`circle_of_curvature` of the base class, the trees above the segments, and the cache of lengths.
-/

namespace Verif.Crv

open Verif.Srf (lin)

variable {K : Type} [Field K] [LinearOrder K] {V : Type} [AddCommGroup V] [Module K V]

/-! ## Differences -/

/-- The two parameters and the divisor of `Curve.derivative` (curve.py:208-217). -/
def stencil (h t : K) : K × K × K :=
  if t ≤ 1 - h ∧ h ≤ t then (t - h, t + h, 2 * h)
  else if t ≤ h then (t, t + h, h)
  else (t - h, t, h)

/-- `Curve.derivative` (curve.py:203-217). -/
def derivative (h : K) (f : K → V) (t : K) : V :=
  let s := stencil h t
  (1 / s.2.2) • (f s.2.1 - f s.1)

/-- `Curve.second_derivative` (curve.py:219-225): `fdm(self.derivative)` with the central formula (fdm.py:49). -/
def secondDerivative (h : K) (f : K → V) (t : K) : V := (1 / (2 * h)) • (derivative h f (t + h) - derivative h f (t - h))

/-! ## `TrimmedCurve` -/

/-- A curve as far as it matters here: points, derivatives and interval. -/
structure Cv (K V : Type) where
  eval : K → V
  der : K → V
  der2 : K → V
  interval : K × K

/-- `TrimmedCurve(curve, start, end)` (curve.py:370-402). -/
def trimmed (c : Cv K V) (s e : K) : Cv K V := ⟨c.eval, c.der, c.der, (s, e)⟩

/-- `Curve.split` (curve.py:149-153). -/
def split (c : Cv K V) (t : K) : Cv K V × Cv K V := (trimmed c c.interval.1 t, trimmed c t c.interval.2)

/-- The state of a `TrimmedCurve`: `trim`, and the `_interval` of the base class. -/
structure TState (K : Type) where
  trim : K × K
  base : K × K

/-- What can be done with the ends of a trimmed curve. -/
inductive TOp (K : Type)
  | getStart
  | getEnd
  | setStart (v : K)
  | setEnd (v : K)
  | extend (s e : K)

/-- `TrimmedCurve.start` (curve.py:382-384) reads itself; the recursion is cut at the depth given. -/
def readStart : Nat → TState K → Option K
  | 0, _ => none
  | n + 1, s => readStart n s

/-- One operation (curve.py:155-156, 382-396): the value read and the new state; `none` for `RecursionError`. -/
def tstep (depth : Nat) (s : TState K) : TOp K → Option (Option K × TState K)
  | .getStart => do let v ← readStart depth s; return (some v, s)
  | .getEnd => some (some s.trim.2, s)
  | .setStart v => some (none, { s with trim := (v, s.trim.2) })
  | .setEnd v => do let a ← readStart depth s; return (none, { s with trim := (a, v) })
  | .extend a b => some (none, { s with base := (s.base.1 - a, s.base.2 + b) })

/-! ## Operators -/

/-- The operand of an operator on a curve (curve.py:321-327). -/
inductive Operand (K V : Type)
  | curve (c : Cv K V)
  | fn (f : K → V)
  | value (v : V)

/-- `evaluate` of the node (curve.py:441-452). -/
def nodeEval (c : Cv K V) (op : V → V → V) : Operand K V → K → V
  | .curve d, t => op (c.eval t) (d.eval t)
  | .fn f, t => op (c.eval t) (f t)
  | .value v, t => op (c.eval t) v

/-- `interval` of the node (curve.py:438-439, 454-458). -/
def nodeInterval (c : Cv K V) : Operand K V → K × K
  | .curve d => (max c.interval.1 d.interval.1, min c.interval.2 d.interval.2)
  | _ => c.interval

/-! ## Parameters -/

/-- `np.interp(t, (a, b), (c, d))` for `a < b`. -/
def interp2 (a b c d t : K) : K := if t < a then c else if b < t then d else (d - c) / (b - a) * (t - a) + c

/-- `Curve.normalize_param` (curve.py:341-342). -/
def normalizeParam (a b t : K) : K := interp2 a b 0 1 t

/-- `Curve.remap_param` (curve.py:344-345). -/
def remapParam (a b lo hi t : K) : K := interp2 lo hi a b t

/-! ## Lengths -/

/-- The sum in `_evaluate_length` (curve.py:272-281); `len s e` is `evaluate_length(self.derivative, s, e, tol)[0]` and
`divide_interval(s1, e1, 1)` gives the pieces `[s1 + i, s1 + i + 1]` for `s1 + i < e1`. -/
def evaluateLength [FloorRing K] (len : K → K → K) (b0 b1 : K) : K :=
  if 4 < |b1 - b0| then
    let s1 : ℤ := ⌈b0⌉
    let e1 : ℤ := ⌊b1⌋
    let mid := (List.range (e1 - s1).toNat).map fun i : Nat => len ((s1 : K) + i) ((s1 : K) + i + 1)
    (len b0 s1 :: mid ++ [len e1 b1]).foldl (· + ·) 0
  else len b0 b1

/-- `searchsorted` from the index `i` on with `k` entries left. -/
def search (xs : Nat → K) (x : K) : Nat → Nat → Nat
  | i, 0 => i
  | i, k + 1 => if xs i < x then search xs x (i + 1) k else i

/-- `interp1d(xs, ys)(x)` for `n` increasing `xs`; `none` for the `ValueError` outside of the range. -/
def interp1 (n : Nat) (xs ys : Nat → K) (x : K) : Option K :=
  if x < xs 0 ∨ xs (n - 1) < x then none
  else
    let i := min (max (search xs x 0 n) 1) (n - 1)
    some ((ys i - ys (i - 1)) / (xs i - xs (i - 1)) * (x - xs (i - 1)) + ys (i - 1))

/-- `length_evaluator(curve, tol)` (curve.py:535-541) with `n = 100` samples; `len` is `curve.evaluate_length`. -/
def lengthEvaluator (n : Nat) (len : K → K → K) (a b : K) : K → Option K :=
  interp1 n (fun i => len a (lin a b n i)) (lin a b n)

/-- The state of a curve: the interval and the attribute `_length_evaluator`. -/
structure LState (K : Type) where
  interval : K × K
  evaluator : Option (K → Option K)

/-- What can be done: ask for the parameter at a length (from `t0`), or extend the curve. -/
inductive LOp (K : Type)
  | query (length : K) (t0 : Option K)
  | extend (s e : K)

/-- `evaluate_parameter_at_length` (curve.py:292-319) and `extend` (155-156); the answer is `none` for the `ValueError`. -/
def lstep (n : Nat) (len : K → K → K) (s : LState K) : LOp K → Option K × LState K
  | .query l _ =>
    let ev := s.evaluator.getD (lengthEvaluator n len s.interval.1 s.interval.2)
    (ev l, { s with evaluator := some ev })
  | .extend a b => (none, { s with interval := (s.interval.1 - a, s.interval.2 + b) })

/-- Several operations; the answers in turn. -/
def lrun (n : Nat) (len : K → K → K) : LState K → List (LOp K) → List (Option K)
  | _, [] => []
  | s, o :: l => (lstep n len s o).1 :: lrun n len (lstep n len s o).2 l

/-- `arc_length_reparameterization` (curve.py:518-532) with `n = 100` samples: the inverse at equally spaced lengths, interpolated
over [0, 1].  `lvals.min()` and `lvals.max()` are the first and the last of the increasing lengths. -/
def arcLength (n : Nat) (len : K → K → K) (a b : K) (s : K) : Option K := do
  let total := len a (lin a b n (n - 1))
  let first := len a (lin a b n 0)
  let ys ← (List.range n).mapM fun i => lengthEvaluator n len a b (lin first total n i)
  interp1 n (lin 0 1 n) (fun i => ys.getD i 0) s

/-! ## Segments and other parameters -/

/-- The segments of `curve_bvh` (curve.py:461-481): points and parameters. -/
def segments (f : K → V) (a b : K) (count : Nat) : List ((V × V) × (K × K)) :=
  (List.range count).map fun i =>
    ((f (lin a b (count + 1) i), f (lin a b (count + 1) (i + 1))), (lin a b (count + 1) i, lin a b (count + 1) (i + 1)))

/-- `ReparametrizedCurve(curve, parametrization)` (curve.py:543-563). -/
def reparam (c : Cv K V) (phi : K → K) (x0 x1 : K) : Cv K V :=
  ⟨fun t => c.eval (phi t), fun t => c.der (phi t), fun t => c.der2 (phi t), (x0, x1)⟩

/-- `ReparametrizedCurve.circle_of_curvature` (curve.py:573-574) calls itself; the recursion is cut at the depth given. -/
def reparamCircle (phi : K → K) : Nat → K → Option V
  | 0, _ => none
  | n + 1, t => reparamCircle phi n (phi t)

end Verif.Crv
