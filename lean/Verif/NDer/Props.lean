import Verif.NDer.Spline
import Mathlib.Analysis.Calculus.Deriv.Polynomial
import Mathlib.Analysis.Calculus.Deriv.Inv
import Mathlib.Analysis.Calculus.Deriv.Mul
import Mathlib.Tactic.NormNum
import Mathlib.Tactic.Positivity

/-! # Derivatives of curves -/

set_option linter.unusedSectionVars false

namespace Verif.NDer
open Finset Polynomial Verif.Nurbs
variable {K : Type} [Field K] [LinearOrder K] [IsStrictOrderedRing K]

/-! ## C123: all_basis_funs -/

/-- C123: column `j` of `all_basis_funs` holds the values of all functions of degree `j` that may be non-zero, for all
degrees up to `p`. -/
theorem C123_all_basis_funs (n p m : Nat) (U : Nat → K) (hU : MonoUpTo U m) (hm : n + p + 1 ≤ m) (hp : p < n)
    (hlast : U (n - 1) < U n) (x : K) (hl : U p ≤ x) (hh : x ≤ U n) (fuel : Nat) (hf : n ≤ fuel) :
    ∃ i, findSpan fuel (n - 1) p x U false = some i ∧ p ≤ i ∧ i < n ∧
      ∀ j, j ≤ p → (∀ r, r ≤ j → allBasisFuns i x p U r j = bspl U n x j (i - j + r)) ∧
        ∀ l, l < i - j ∨ i < l → bspl U n x j l = 0 := by
  obtain ⟨i, e, a, b⟩ := findSpan_sp fuel n p x U hp hf m hU (by omega) hlast hl hh
  have hb := bspl_eq U n m hU (by omega) hlast x i b
  refine ⟨i, e, a, b.1, fun j hj => ⟨fun r hr => ?_, fun l hlo => ?_⟩⟩
  · rw [hb]; exact (allBasisFuns_spec i x U p a).1 j r hr hj
  · rw [hb]; exact cox_spike_out i U x j l (by omega)

example : (List.range 3).map (fun r => allBasisFuns 2 (1 / 2) 2 exU r 2) = [1 / 4, 1 / 2, 1 / 4] ∧
    (List.range 2).map (fun r => allBasisFuns 2 (1 / 2) 2 exU r 1) = [1 / 2, 1 / 2] := by
  refine ⟨by decide +kernel, by decide +kernel⟩

/-! ## C124: ders_basis_funs -/

/-- C124: entry `(k, c)` of `ders_basis_funs` is the `k`-th derivative of the basis function `N_{i-p+c,p}`: the value at `x`
of the `k`-th derivative of a polynomial that agrees with the function on the span of `x`.  Entries outside `n + 1` rows and
`p + 1` columns are left alone. -/
theorem C124_ders_basis_funs (n p m : Nat) (U : Nat → K) (hU : MonoUpTo U m) (hm : n + p + 1 ≤ m) (hp : p < n)
    (hlast : U (n - 1) < U n) (x : K) (hl : U p ≤ x) (hh : x ≤ U n) (fuel : Nat) (hf : n ≤ fuel) (d : Nat) (hd : d ≤ p)
    (d0 : Nat → Nat → K) :
    ∃ i, findSpan fuel (n - 1) p x U false = some i ∧ p ≤ i ∧ Sp U n x i ∧
      (∀ k c, k ≤ d → c ≤ p → ∃ q : K[X], (∀ y, Sp U n y i → q.eval y = bspl U n y p (i - p + c)) ∧
        dersBasisFuns i x p d U d0 k c = (Polynomial.derivative^[k] q).eval x) ∧
      ∀ k c, (d < k ∨ p < c) → dersBasisFuns i x p d U d0 k c = d0 k c := by
  obtain ⟨i, e, a, b⟩ := findSpan_sp fuel n p x U hp hf m hU (by omega) hlast hl hh
  have hi := b.1
  refine ⟨i, e, a, b, fun k c hk hc => ⟨coxP i U p (i - p + c), fun y hy => ?_, ?_⟩, fun k c h => ?_⟩
  · rw [bspl_eq U n m hU (by omega) hlast y i hy, eval_coxP]
  · rw [dersBasisFuns_eq U m hU i b.2.1 x p d a (by omega) hd, if_pos ⟨hk, by omega⟩]
  · rw [dersBasisFuns_eq U m hU i b.2.1 x p d a (by omega) hd, if_neg (by omega)]

/-- On `[0, 1)` the functions of degree 2 are `(1 - x)^2`, `2 x (1 - x)` and `x^2`. -/
example : (List.range 3).map (fun c => dersBasisFuns 2 (1 / 4) 2 2 exU (fun _ _ => 0) 1 c) = [-3 / 2, 1, 1 / 2] ∧
    (List.range 3).map (fun c => dersBasisFuns 2 (1 / 4) 2 2 exU (fun _ _ => 0) 2 c) = [2, -4, 2] := by
  refine ⟨by decide +kernel, by decide +kernel⟩

/-- The derivatives of all functions add up to zero. -/
theorem C124_sum_zero (n p m : Nat) (U : Nat → K) (hU : MonoUpTo U m) (hm : n + p + 1 ≤ m) (hp : p < n)
    (i : Nat) (hi : p ≤ i) (hin : i < n) (hspan : U i < U (i + 1)) (x : K) (d : Nat) (hd : d ≤ p) (d0 : Nat → Nat → K)
    (k : Nat) (hk : 1 ≤ k) (hkd : k ≤ d) : ∑ c ∈ range (p + 1), dersBasisFuns i x p d U d0 k c = 0 := by
  have e : ∑ c ∈ range (p + 1), dersBasisFuns i x p d U d0 k c =
      (Polynomial.derivative^[k] (splineP i U p fun _ => 1)).eval x := by
    rw [iterate_sum, eval_finsetSum]
    apply sum_congr rfl
    intro c hc
    rw [dersBasisFuns_eq U m hU i hspan x p d hi (by omega) hd, if_pos ⟨hkd, mem_range.1 hc⟩, C_1, one_mul]
  rw [e, iterate_splineP U m hU i hspan p hi (by omega) _ k (by omega), eval_finsetSum]
  apply sum_eq_zero
  intro j _
  have hz : ∀ k, 1 ≤ k → ∀ j, cptD p U (fun _ => 1) (i - p) k j = 0 := by
    intro k hk
    obtain ⟨k, rfl⟩ : ∃ q, k = q + 1 := ⟨k - 1, by omega⟩
    clear hk hkd e
    induction k with
    | zero => intro j; simp [cptD]
    | succ k ih => intro j; rw [cptD, ih, ih]; simp
  rw [hz k hk, C_0, zero_mul, eval_zero]

/-! ## C125: derivatives of curves -/

/-- C125, polynomial form: on the span of the parameter the spline over one column of control points is a polynomial, and row
`k` of `derivatives1` and of `derivatives2` is the value of its `k`-th derivative. -/
theorem C125_derivatives (c : Curve K) (hc : Valid c) (hper : c.periodic = false) (fuel : Nat) (hf : c.n ≤ fuel) (x : K)
    (hl : c.U c.degree ≤ x) (hh : x ≤ c.U c.n) (col : Nat) :
    ∃ (i : Nat) (S : K[X]), Sp c.U c.n x i ∧
      (∀ y, Sp c.U c.n y i → specVal c (fun l => c.P l col) y = S.eval y) ∧
      ∀ d k, k ≤ d → derivatives1 c fuel x d k col = some ((Polynomial.derivative^[k] S).eval x) ∧
        derivatives2 c fuel x d k col = some ((Polynomial.derivative^[k] S).eval x) := by
  have h1 := hc.npos
  have h2 := hc.knots
  obtain ⟨i, e, a, b⟩ := findSpan_sp fuel c.n c.degree x c.U hc.npos hf c.m hc.mono (by omega) hc.last hl hh
  have hi := b.1
  refine ⟨i, splineP i c.U c.degree fun l => c.P l col, b, fun y hy => ?_, fun d k hk => ⟨?_, ?_⟩⟩
  · rw [specVal_eq c hc _ y i hy, eval_splineP i c.U c.degree c.n _ y a hi]
  · exact alg1_eq c.U c.m hc.mono i b.2.1 c.degree a (by omega) _ fuel (c.n - 1) x c.periodic (by rw [hper]; exact e) d k hk
  · exact alg2_eq c.U c.m hc.mono i b.2.1 c.degree a (by omega) _ fuel (c.n - 1) x c.periodic (by rw [hper]; exact e) d k hk

/-- The two algorithms agree. -/
theorem C125_agree (c : Curve K) (hc : Valid c) (hper : c.periodic = false) (fuel : Nat) (hf : c.n ≤ fuel) (x : K)
    (hl : c.U c.degree ≤ x) (hh : x ≤ c.U c.n) (col d k : Nat) (hk : k ≤ d) :
    derivatives1 c fuel x d k col = derivatives2 c fuel x d k col := by
  obtain ⟨i, S, -, -, h⟩ := C125_derivatives c hc hper fuel hf x hl hh col
  rw [(h d k hk).1, (h d k hk).2]

example : derivative exPoly 6 (1 / 2) 1 = some 6 ∧ secondDerivative exPoly 6 (1 / 2) 1 = some (-4) ∧
    derivatives1 exPoly 6 (5 / 2) 2 1 1 = derivatives2 exPoly 6 (5 / 2) 2 1 1 := by
  refine ⟨by decide +kernel, by decide +kernel, by decide +kernel⟩

/-- With equal weights, evaluation is the spline. -/
theorem evaluate_spec (c : Curve K) (hc : Valid c) (hper : c.periodic = false) (fuel : Nat) (hf : c.n ≤ fuel) (w : K)
    (hw0 : w ≠ 0) (hw : ∀ l, l < c.n → c.P l 3 = w) (y : K) (hl : c.U c.degree ≤ y) (hh : y ≤ c.U c.n) (col : Nat) :
    c.evaluate fuel y col = some (specVal c (fun l => c.P l col) y) := by
  have hnp := hc.npos
  have hk := hc.knots
  rw [C35_evaluate_is_rational_spline c hc hper fuel hf y hl hh col]
  obtain ⟨i, _, hpi, hsp⟩ := findSpan_sp fuel c.n c.degree y c.U hc.npos hf c.m hc.mono (by omega) hc.last hl hh
  have hi := hsp.1
  have e1 : specVal c (fun l => c.P l 3 * c.P l col) y = w * specVal c (fun l => c.P l col) y := by
    rw [specVal, specVal, mul_sum]
    exact sum_congr rfl fun l hl => by rw [hw l (mem_range.mp hl)]; ring
  have e2 : specVal c (fun l => c.P l 3) y = w := by
    rw [specVal_eq c hc _ y i hsp, spline_const c.U c.degree c.n _ (fun _ => w * 1) y i
      (fun l hl => by rw [hw l hl, mul_one]), spline_smul,
      spline_ones c.U c.m hc.mono c.degree c.n y i hsp.2.1 hpi hsp.1 (by omega), mul_one]
  rw [e1, e2, mul_div_cancel_left₀ _ hw0]

/-- A span contains all parameters from its left knot to before its right knot. -/
theorem sp_of_lt {U : Nat → K} {n m : Nat} (hU : MonoUpTo U m) (hm : n < m) {x : K} {i : Nat} (h : Sp U n x i) (y : K)
    (h1 : U i ≤ y) (h2 : y < U (i + 1)) : Sp U n y i := ⟨h.1, h.2.1, h1, .inl h2⟩

/-- The domain bounds of a span. -/
theorem sp_dom {c : Curve K} (hc : Valid c) {y : K} {i : Nat} (hi : c.degree ≤ i) (h : Sp c.U c.n y i) :
    c.U c.degree ≤ y ∧ y ≤ c.U c.n := by
  have hnp := hc.npos
  have hk := hc.knots
  obtain ⟨a, b, d, e⟩ := h
  refine ⟨le_trans (hc.mono _ _ hi (by omega)) d, ?_⟩
  rcases e with e | ⟨-, e⟩
  · exact le_trans (le_of_lt e) (hc.mono _ _ (by omega) (by omega))
  · exact le_of_eq e

theorem sp_degree {c : Curve K} (hc : Valid c) (fuel : Nat) (hf : c.n ≤ fuel) {x : K} {i : Nat}
    (hl : c.U c.degree ≤ x) (hh : x ≤ c.U c.n) (h : Sp c.U c.n x i) : c.degree ≤ i := by
  have hnp := hc.npos
  have hk := hc.knots
  obtain ⟨j, _, a, b⟩ := findSpan_sp fuel c.n c.degree x c.U hc.npos hf c.m hc.mono (by omega) hc.last hl hh
  rw [sp_unique c.U c.n c.m hc.mono (by omega) x i j h b]
  exact a

/-! ## C126: derivative control points -/

theorem cptsFirst_error (nd ns : Nat) (h : ns ≠ nd) (h1 : ns ≠ 1) (P : Nat → Nat → K) (r1 r : Nat) :
    cptsFirst nd ns P r1 r = .error () := by
  rw [cptsFirst, List.range_succ_eq_map, List.foldlM_cons, assignRow, if_neg h, if_neg h1]
  rfl

/-- C126 fails on every call: the rows of the buffer are one column shorter than the rows copied into them. -/
theorem C126_refuted (c : Curve K) (cols : Nat) (hc : 2 ≤ cols) (fuel : Nat) (t : K) (d : Nat) :
    derivativeControlPoints c cols fuel t d = .error () := by
  rw [derivativeControlPoints]
  cases findSpan fuel (c.n - 1) c.degree t c.U c.periodic with
  | none => rfl
  | some span => simp only; rw [cptsFirst_error _ _ (by omega) (by omega)]; rfl

/-- C126 (partial): `curve_deriv_cpts` called without the weights, as `derivatives2` does, gives in row `k` the control points
of the `k`-th derivative with respect to the functions of degree `p - k`. -/
theorem C126_control_points_partial (c : Curve K) (hc : Valid c) (hper : c.periodic = false) (fuel : Nat)
    (hf : c.n ≤ fuel) (x : K) (hl : c.U c.degree ≤ x) (hh : x ≤ c.U c.n) (col d k : Nat) (hk : k ≤ d)
    (hkp : k ≤ c.degree) :
    ∃ (i : Nat) (S : K[X]), Sp c.U c.n x i ∧ c.degree ≤ i ∧
      (∀ y, Sp c.U c.n y i → specVal c (fun l => c.P l col) y = S.eval y) ∧
      ∀ y, Sp c.U c.n y i → ∑ j ∈ range (c.degree - k + 1), bspl c.U c.n y (c.degree - k) (i - (c.degree - k) + j) *
        curveDerivCpts c.degree c.U (fun l => c.P l col) d (i - c.degree) i (fun _ _ => 0) k j =
          (Polynomial.derivative^[k] S).eval y := by
  have h1 := hc.npos
  have h2 := hc.knots
  obtain ⟨i, e, a, b⟩ := findSpan_sp fuel c.n c.degree x c.U hc.npos hf c.m hc.mono (by omega) hc.last hl hh
  have hi := b.1
  refine ⟨i, splineP i c.U c.degree fun l => c.P l col, b, a, fun y hy => ?_, fun y hy => ?_⟩
  · rw [specVal_eq c hc _ y i hy, eval_splineP i c.U c.degree c.n _ y a hi]
  · rw [iterate_splineP c.U c.m hc.mono i b.2.1 c.degree a (by omega) _ k hkp, eval_finsetSum]
    apply sum_congr rfl
    intro j hj
    have hj := mem_range.1 hj
    rw [bspl_eq c.U c.n c.m hc.mono (by omega) hc.last y i hy, curveDerivCpts_eq _ _ _ _ _ _ d k j hk (by omega), eval_mul,
      eval_C, eval_coxP, mul_comm]

/-- A buffer of equal width would have worked. -/
example : cptsFirst 4 4 exPoly.P 0 2 ≠ .error () ∧ cptsFirst 3 4 exPoly.P 0 2 = .error () := by
  refine ⟨?_, cptsFirst_error 3 4 (by omega) (by omega) _ _ _⟩
  rw [cptsFirst]
  simp [List.range_succ_eq_map, assignRow, Except.map, bind, Except.bind, pure, Except.pure]

example : (List.range 2).map (curveDerivCpts 2 exU (fun l => exPoly.P l 1) 2 0 2 (fun _ _ => 0) 1) = [8, 4] := by
  decide +kernel

section real

/-- The functions of the parameter that a caller sees. -/
def valueAt (f : Option ℝ) : ℝ := f.getD 0

/-- The setting of the theorems over the reals: a function that is a polynomial on every span, and its derivative there. -/
theorem right_derivative (c : Curve ℝ) (hc : Valid c) (fuel : Nat) (hf : c.n ≤ fuel) (f : ℝ → ℝ) (x : ℝ) (i : Nat)
    (S : ℝ[X]) (hsp : Sp c.U c.n x i) (hS : ∀ y, Sp c.U c.n y i → f y = S.eval y) (hx : x < c.U c.n) :
    HasDerivWithinAt f ((Polynomial.derivative S).eval x) (Set.Ici x) x := by
  have hnp := hc.npos
  have hk := hc.knots
  have hlt : x < c.U (i + 1) := by
    rcases hsp.2.2.2 with h | ⟨_, h⟩
    · exact h
    · exact absurd h (ne_of_lt hx)
  refine ((S.hasDerivAt x).hasDerivWithinAt (s := Set.Ici x)).congr_of_eventuallyEq ?_ (hS x hsp)
  have : Set.Iio (c.U (i + 1)) ∈ nhdsWithin x (Set.Ici x) := mem_nhdsWithin_of_mem_nhds (Iio_mem_nhds hlt)
  filter_upwards [this, self_mem_nhdsWithin] with y hy hy'
  exact hS y (sp_of_lt hc.mono (m := c.m) (by omega) hsp y (le_trans hsp.2.2.1 hy') hy)

/-- C125 (partial): for equal weights, at every parameter of `[U[p], U[n])`, also at knots, `derivative` is the derivative from
the right of `evaluate`.  Missing: different weights, periodic curves. -/
theorem C125_derivative_partial (c : Curve ℝ) (hc : Valid c) (hper : c.periodic = false) (fuel : Nat) (hf : c.n ≤ fuel)
    (w : ℝ) (hw0 : w ≠ 0) (hw : ∀ l, l < c.n → c.P l 3 = w) (x : ℝ) (hl : c.U c.degree ≤ x) (hh : x < c.U c.n)
    (col : Nat) : ∃ v, derivative c fuel x col = some v ∧
      HasDerivWithinAt (fun t => valueAt (c.evaluate fuel t col)) v (Set.Ici x) x := by
  obtain ⟨i, S, hsp, hS, hd⟩ := C125_derivatives c hc hper fuel hf x hl hh.le col
  refine ⟨_, (hd 1 1 (le_refl _)).2, ?_⟩
  refine right_derivative c hc fuel hf _ x i S hsp (fun y hy => ?_) hh
  obtain ⟨d1, d2⟩ := sp_dom hc (sp_degree hc fuel hf hl hh.le hsp) hy
  rw [← hS y hy, evaluate_spec c hc hper fuel hf w hw0 hw y d1 d2 col]
  rfl

/-- At the right end it is the derivative from the left. -/
theorem C125_end_partial (c : Curve ℝ) (hc : Valid c) (hper : c.periodic = false) (fuel : Nat) (hf : c.n ≤ fuel)
    (w : ℝ) (hw0 : w ≠ 0) (hw : ∀ l, l < c.n → c.P l 3 = w) (col : Nat) :
    ∃ v, derivative c fuel (c.U c.n) col = some v ∧
      HasDerivWithinAt (fun t => valueAt (c.evaluate fuel t col)) v (Set.Iic (c.U c.n)) (c.U c.n) := by
  have hnp := hc.npos
  have hk := hc.knots
  have hl : c.U c.degree ≤ c.U c.n := hc.mono _ _ (by omega) (by omega)
  obtain ⟨i, S, hsp, hS, hd⟩ := C125_derivatives c hc hper fuel hf (c.U c.n) hl (le_refl _) col
  refine ⟨_, (hd 1 1 (le_refl _)).2, ?_⟩
  have hf' : ∀ y, Sp c.U c.n y i → valueAt (c.evaluate fuel y col) = S.eval y := fun y hy => by
    obtain ⟨d1, d2⟩ := sp_dom hc (sp_degree hc fuel hf hl (le_refl _) hsp) hy
    rw [← hS y hy, evaluate_spec c hc hper fuel hf w hw0 hw y d1 d2 col]
    rfl
  have hi : i + 1 = c.n := by
    rcases hsp.2.2.2 with h | ⟨h, _⟩
    · exfalso
      have := hc.mono (i + 1) c.n (by have := hsp.1; omega) (by omega)
      linarith
    · exact h
  refine ((S.hasDerivAt (c.U c.n)).hasDerivWithinAt (s := Set.Iic (c.U c.n))).congr_of_eventuallyEq ?_ (hf' _ hsp)
  have hlt : c.U i < c.U c.n := by rw [← hi]; exact hsp.2.1
  have : Set.Ioi (c.U i) ∈ nhdsWithin (c.U c.n) (Set.Iic (c.U c.n)) := mem_nhdsWithin_of_mem_nhds (Ioi_mem_nhds hlt)
  filter_upwards [this, self_mem_nhdsWithin] with y hy hy'
  rcases lt_or_eq_of_le (Set.mem_Iic.1 hy') with h | h
  · exact hf' y ⟨hsp.1, hsp.2.1, le_of_lt hy, .inl (by rw [hi]; exact h)⟩
  · exact hf' y ⟨hsp.1, hsp.2.1, le_of_lt hy, .inr ⟨hi, h⟩⟩

/-- Away from knots it is the derivative. -/
theorem C125_interior_partial (c : Curve ℝ) (hc : Valid c) (hper : c.periodic = false) (fuel : Nat) (hf : c.n ≤ fuel)
    (w : ℝ) (hw0 : w ≠ 0) (hw : ∀ l, l < c.n → c.P l 3 = w) (x : ℝ) (hl : c.U c.degree ≤ x) (hh : x < c.U c.n)
    (hx : ∀ j, j < c.m → c.U j ≠ x) (col : Nat) : ∃ v, derivative c fuel x col = some v ∧
      HasDerivAt (fun t => valueAt (c.evaluate fuel t col)) v x := by
  have hnp := hc.npos
  have hk := hc.knots
  obtain ⟨i, S, hsp, hS, hd⟩ := C125_derivatives c hc hper fuel hf x hl hh.le col
  refine ⟨_, (hd 1 1 (le_refl _)).2, ?_⟩
  have h1 : c.U i < x := lt_of_le_of_ne hsp.2.2.1 (hx i (by have := hsp.1; omega))
  have h2 : x < c.U (i + 1) := by
    rcases hsp.2.2.2 with h | ⟨_, h⟩
    · exact h
    · exact absurd h (ne_of_lt hh)
  refine (S.hasDerivAt x).congr_of_eventuallyEq ?_
  filter_upwards [Ioo_mem_nhds h1 h2] with y hy
  have hy' := sp_of_lt hc.mono (m := c.m) (by omega) hsp y (le_of_lt hy.1) hy.2
  obtain ⟨d1, d2⟩ := sp_dom hc (sp_degree hc fuel hf hl hh.le hsp) hy'
  show valueAt (c.evaluate fuel y col) = S.eval y
  rw [← hS y hy', evaluate_spec c hc hper fuel hf w hw0 hw y d1 d2 col]
  rfl

/-- `second_derivative` is the derivative from the right of `derivative`, whatever the weights. -/
theorem C125_second (c : Curve ℝ) (hc : Valid c) (hper : c.periodic = false) (fuel : Nat) (hf : c.n ≤ fuel) (x : ℝ)
    (hl : c.U c.degree ≤ x) (hh : x < c.U c.n) (col : Nat) : ∃ v, secondDerivative c fuel x col = some v ∧
      HasDerivWithinAt (fun t => valueAt (derivative c fuel t col)) v (Set.Ici x) x := by
  have hnp := hc.npos
  have hk := hc.knots
  obtain ⟨i, e, a, b⟩ := findSpan_sp fuel c.n c.degree x c.U hc.npos hf c.m hc.mono (by omega) hc.last hl hh.le
  have hi := b.1
  have key : ∀ y, Sp c.U c.n y i → ∀ d k, k ≤ d → derivatives2 c fuel y d k col =
      some ((Polynomial.derivative^[k] (splineP i c.U c.degree fun l => c.P l col)).eval y) := by
    intro y hy d k hk
    obtain ⟨d1, d2⟩ := sp_dom hc a hy
    obtain ⟨j, e', _, b'⟩ := findSpan_sp fuel c.n c.degree y c.U hc.npos hf c.m hc.mono (by omega) hc.last d1 d2
    have : j = i := sp_unique c.U c.n c.m hc.mono (by omega) y j i b' hy
    rw [this] at e'
    exact alg2_eq c.U c.m hc.mono i b.2.1 c.degree a (by omega) _ fuel (c.n - 1) y c.periodic (by rw [hper]; exact e') d k hk
  refine ⟨_, key x b 2 2 (le_refl _), ?_⟩
  have := right_derivative c hc fuel hf (fun t => valueAt (derivative c fuel t col)) x i
    (Polynomial.derivative (splineP i c.U c.degree fun l => c.P l col)) b (fun y hy => by
      show valueAt (derivatives2 c fuel y 1 1 col) = _
      rw [key y hy 1 1 (le_refl _)]; rfl) hh
  exact this

/-- The line from 0 to 1 with weights 1 and `w`. -/
noncomputable def lineW (w : ℝ) : Curve ℝ where
  degree := 1
  n := 2
  P := fun l col => if col = 3 then (if l = 0 then 1 else w) else if l = 0 then 0 else 1
  m := 4
  U := fun l => if l < 2 then 0 else 1
  periodic := false

theorem lineW_valid (w : ℝ) : Valid (lineW w) := by
  refine ⟨by norm_num [lineW], rfl, ?_, by norm_num [lineW]⟩
  intro a b hab hb
  simp only [lineW]
  split_ifs <;> first | omega | norm_num

theorem lineW_spec (w y : ℝ) (h0 : 0 ≤ y) (h1 : y < 1) (q : Nat → ℝ) :
    specVal (lineW w) q y = q 0 * (1 - y) + q 1 * y := by
  have hsp : Sp (lineW w).U (lineW w).n y 1 := by
    refine ⟨by norm_num [lineW], by norm_num [lineW], by simpa [lineW] using h0, .inl (by simpa [lineW] using h1)⟩
  rw [specVal_eq _ (lineW_valid w) q y 1 hsp, spline_window _ _ _ _ _ _ (by norm_num [lineW]) (by norm_num [lineW])]
  simp [lineW, sum_range_succ, cox, spike]

/-- C125 fails for every line with two different positive weights: at the middle `derivative` is 1, which is not the derivative
of `evaluate`. -/
theorem C125_rational_refuted (w : ℝ) (hw : 0 < w) (hw1 : w ≠ 1) :
    Valid (lineW w) ∧ (∀ l, 0 < (lineW w).P l 3) ∧ ∃ v, derivative (lineW w) 2 (1 / 2) 0 = some v ∧
      ¬ HasDerivAt (fun t => valueAt ((lineW w).evaluate 2 t 0)) v (1 / 2) := by
  refine ⟨lineW_valid w, fun l => ?_, ?_⟩
  · simp only [lineW, if_true]; split_ifs <;> linarith
  have hdom : ∀ y : ℝ, 0 ≤ y → y < 1 → (lineW w).U (lineW w).degree ≤ y ∧ y ≤ (lineW w).U (lineW w).n := fun y a b => by
    constructor
    · simpa [lineW] using a
    · simpa [lineW] using b.le
  obtain ⟨d1, d2⟩ := hdom (1 / 2) (by norm_num) (by norm_num)
  obtain ⟨i, S, hsp, hS, hd⟩ := C125_derivatives (lineW w) (lineW_valid w) rfl 2 (le_refl _) (1 / 2) d1 d2 0
  refine ⟨_, (hd 1 1 (le_refl _)).2, fun hc => ?_⟩
  have hi : i = 1 := by
    have h1 := sp_degree (lineW_valid w) 2 (le_refl _) d1 d2 hsp
    have h2 := hsp.1
    simp only [lineW] at h1 h2
    omega
  subst hi
  have hSX : HasDerivAt (fun y => S.eval y) 1 (1 / 2) := by
    refine (hasDerivAt_id (1 / 2 : ℝ)).congr_of_eventuallyEq ?_
    filter_upwards [Ioo_mem_nhds (show (0 : ℝ) < 1 / 2 by norm_num) (show (1 / 2 : ℝ) < 1 by norm_num)] with y hy
    rw [← hS y (by
      refine ⟨by norm_num [lineW], by norm_num [lineW], by simpa [lineW] using hy.1.le, .inl (by simpa [lineW] using hy.2)⟩),
      lineW_spec w y hy.1.le hy.2]
    simp [lineW]
  have hv : (Polynomial.derivative S).eval (1 / 2) = 1 := (S.hasDerivAt (1 / 2)).unique hSX
  have hpos : (1 : ℝ) - 1 / 2 + w * (1 / 2) ≠ 0 := by positivity
  have hev : HasDerivAt (fun t => valueAt ((lineW w).evaluate 2 t 0))
      ((w * (1 - 1 / 2 + w * (1 / 2)) - w * (1 / 2) * (-1 + w)) / (1 - 1 / 2 + w * (1 / 2)) ^ 2) (1 / 2) := by
    have h1 : HasDerivAt (fun t : ℝ => w * t) w (1 / 2) := by
      simpa using (hasDerivAt_id (1 / 2 : ℝ)).const_mul w
    have h2 : HasDerivAt (fun t : ℝ => 1 - t + w * t) (-1 + w) (1 / 2) :=
      ((hasDerivAt_id (1 / 2 : ℝ)).const_sub 1).add h1
    refine (h1.div h2 hpos).congr_of_eventuallyEq ?_
    filter_upwards [Ioo_mem_nhds (show (0 : ℝ) < 1 / 2 by norm_num) (show (1 / 2 : ℝ) < 1 by norm_num)] with y hy
    obtain ⟨e1, e2⟩ := hdom y hy.1.le hy.2
    rw [C35_evaluate_is_rational_spline (lineW w) (lineW_valid w) rfl 2 (le_refl _) y e1 e2 0,
      lineW_spec w y hy.1.le hy.2, lineW_spec w y hy.1.le hy.2]
    simp [lineW, valueAt]
  have := hc.unique hev
  rw [Function.iterate_one, hv] at this
  rw [eq_div_iff (by positivity)] at this
  have h0 : (w - 1) ^ 2 = 0 := by nlinarith
  exact hw1 (by have := pow_eq_zero_iff (two_ne_zero) |>.1 h0; linarith)

example : (0 : ℝ) < 2 ∧ (2 : ℝ) ≠ 1 := by norm_num

end real
end Verif.NDer
