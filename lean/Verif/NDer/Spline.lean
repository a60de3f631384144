import Verif.NDer.Loops
import Verif.Nurbs.Props

/-! Derivatives of a spline on one span. -/

set_option linter.unusedSectionVars false

namespace Verif.NDer
open Finset Polynomial Verif.Nurbs
variable {K : Type} [Field K] [LinearOrder K]

/-- The polynomial that the spline with coefficients `P` is on the span `i`. -/
noncomputable def splineP (i : Nat) (U : Nat → K) (p : Nat) (P : Nat → K) : K[X] :=
  ∑ j ∈ range (p + 1), C (P (i - p + j)) * coxP i U p (i - p + j)

/-- Control points of the derivatives. -/
def cptD (p : Nat) (U : Nat → K) (P : Nat → K) (r1 : Nat) : Nat → Nat → K
  | 0, j => P (r1 + j)
  | k + 1, j => ((p - k : Nat) : K) * (cptD p U P r1 k (j + 1) - cptD p U P r1 k j) /
      (U (r1 + j + (p + 1)) - U (r1 + j + (k + 1)))

theorem curveDerivCpts_eq (p : Nat) (U P : Nat → K) (r1 r2 : Nat) (PK0 : Nat → Nat → K) : ∀ d,
    ∀ k j, k ≤ d → k + j ≤ r2 - r1 → curveDerivCpts p U P d r1 r2 PK0 k j = cptD p U P r1 k j := by
  intro d
  induction d with
  | zero =>
    intro k j hk hj
    obtain rfl : k = 0 := by omega
    simp only [curveDerivCpts, List.range'_zero, List.foldl_nil, Function.update_self]
    rw [if_pos (by omega), cptD]
  | succ d ih =>
    intro k j hk hj
    have hstep : curveDerivCpts p U P (d + 1) r1 r2 PK0 =
        cptsRound p U r1 (r2 - r1) (curveDerivCpts p U P d r1 r2 PK0) (d + 1) := by
      simp only [curveDerivCpts, List.range'_concat, List.foldl_append, List.foldl_cons, List.foldl_nil, Nat.one_mul,
        Nat.add_comm 1 d]
    rw [hstep, cptsRound]
    by_cases hkd : k = d + 1
    · subst hkd
      rw [Function.update_self, if_pos (by omega), show d + 1 - 1 = d by omega, ih d (j + 1) (le_refl _) (by omega),
        ih d j (le_refl _) (by omega), cptD, show p + 1 - (d + 1) = p - d by omega]
    · rw [Function.update_of_ne hkd]
      exact ih k j (by omega) hj

section ordered
variable [IsStrictOrderedRing K]

/-- The `k`-th derivative of the spline is the spline of lower degree over the control points of the derivative. -/
theorem iterate_splineP (U : Nat → K) (m : Nat) (hU : MonoUpTo U m) (i : Nat) (hi : U i < U (i + 1)) (p : Nat)
    (hp : p ≤ i) (hm : i + p + 1 < m) (P : Nat → K) : ∀ k, k ≤ p → Polynomial.derivative^[k] (splineP i U p P) =
      ∑ j ∈ range (p - k + 1), C (cptD p U P (i - p) k j) * coxP i U (p - k) (i - (p - k) + j) := by
  intro k
  induction k with
  | zero => intro _; rfl
  | succ k ih =>
    intro hk
    rw [Function.iterate_succ_apply', ih (by omega), derivative_sum]
    obtain ⟨q, hq⟩ : ∃ q, p - k = q + 1 := ⟨p - k - 1, by omega⟩
    rw [hq, show p - (k + 1) = q by omega]
    have hd : ∀ j ∈ range (q + 1 + 1), Polynomial.derivative (C (cptD p U P (i - p) k j) *
        coxP i U (q + 1) (i - (q + 1) + j)) =
        C (((q : K) + 1) * cptD p U P (i - p) k j * (U (i - (q + 1) + j + q + 1) - U (i - (q + 1) + j))⁻¹) *
          coxP i U q (i - (q + 1) + j) -
        C (((q : K) + 1) * cptD p U P (i - p) k j * (U (i - (q + 1) + j + q + 2) - U (i - (q + 1) + j + 1))⁻¹) *
          coxP i U q (i - (q + 1) + j + 1) := by
      intro j hj
      have hj := mem_range.1 hj
      rw [derivative_C_mul, derivative_coxP U m hU i hi q _ (by omega)]
      simp only [C_mul]
      ring
    rw [sum_congr rfl hd, sum_sub_distrib, sum_range_succ', sum_range_succ (n := q + 1),
      coxP_out i U q (i - (q + 1) + 0) (by omega), coxP_out i U q (i - (q + 1) + (q + 1) + 1) (by omega), mul_zero,
      mul_zero, add_zero, add_zero, ← sum_sub_distrib]
    apply sum_congr rfl
    intro j hj
    have hj := mem_range.1 hj
    rw [cptD, show p - k = q + 1 by omega, show i - p + j + (p + 1) = i + j + 1 by omega,
      show i - p + j + (k + 1) = i - q + j by omega, show i - (q + 1) + (j + 1) = i - q + j by omega,
      show i - (q + 1) + j + 1 = i - q + j by omega, show i - (q + 1) + j + q + 2 = i + j + 1 by omega,
      show i - q + j + q + 1 = i + j + 1 by omega, ← sub_mul, ← C_sub]
    congr 2
    push_cast
    rw [div_eq_mul_inv]
    ring

/-- Derivatives past the degree vanish. -/
theorem iterate_splineP_zero (U : Nat → K) (m : Nat) (hU : MonoUpTo U m) (i : Nat) (hi : U i < U (i + 1)) (p : Nat)
    (hp : p ≤ i) (hm : i + p + 1 < m) (P : Nat → K) (k : Nat) (hk : p < k) :
    Polynomial.derivative^[k] (splineP i U p P) = 0 := by
  obtain ⟨e, rfl⟩ : ∃ e, k = e + (p + 1) := ⟨k - (p + 1), by omega⟩
  rw [Function.iterate_add_apply]
  have : Polynomial.derivative^[p + 1] (splineP i U p P) = 0 := by
    rw [Function.iterate_succ_apply', iterate_splineP U m hU i hi p hp hm P p (le_refl _), derivative_sum]
    apply sum_eq_zero
    intro j _
    rw [derivative_C_mul, Nat.sub_self, coxP]
    split_ifs <;> simp
  rw [this]
  exact iterate_derivative_zero

theorem iterate_sum (U : Nat → K) (i p : Nat) (P : Nat → K) (k : Nat) : Polynomial.derivative^[k] (splineP i U p P) =
    ∑ j ∈ range (p + 1), C (P (i - p + j)) * Polynomial.derivative^[k] (coxP i U p (i - p + j)) := by
  induction k with
  | zero => rfl
  | succ k ih =>
    rw [Function.iterate_succ_apply', ih, derivative_sum]
    apply sum_congr rfl
    intro j _
    rw [derivative_C_mul, Function.iterate_succ_apply']

theorem foldl_sum {α : Type} [AddCommMonoid α] (f : Nat → α) (n : Nat) :
    (List.range n).foldl (fun s j => s + f j) 0 = ∑ j ∈ range n, f j := by
  induction n with
  | zero => rfl
  | succ n ih => rw [List.range_succ, List.foldl_append, ih, sum_range_succ]; rfl

/-- `curve_derivs_alg1` at a parameter whose span is `i`. -/
theorem alg1_eq (U : Nat → K) (m : Nat) (hU : MonoUpTo U m) (i : Nat) (hi : U i < U (i + 1)) (p : Nat)
    (hp : p ≤ i) (hm : i + p + 1 < m) (P : Nat → K) (fuel n : Nat) (x : K) (per : Bool)
    (hs : findSpan fuel n p x U per = some i) (d k : Nat) (hk : k ≤ d) :
    curveDerivsAlg1 fuel n p U P x d per k = some ((Polynomial.derivative^[k] (splineP i U p P)).eval x) := by
  rw [curveDerivsAlg1, hs]
  dsimp only
  by_cases hkp : k ≤ p
  · rw [if_pos (by omega), foldl_sum, iterate_sum, eval_finsetSum]
    congr 1
    apply sum_congr rfl
    intro j hj
    rw [dersBasisFuns_eq U m hU i hi x p (min d p) hp hm (by omega), if_pos ⟨by omega, mem_range.1 hj⟩, eval_mul, eval_C,
      mul_comm]
  · rw [if_neg (by omega), iterate_splineP_zero U m hU i hi p hp hm P k (by omega), eval_zero]

/-- `curve_derivs_alg2` at a parameter whose span is `i`. -/
theorem alg2_eq (U : Nat → K) (m : Nat) (hU : MonoUpTo U m) (i : Nat) (hi : U i < U (i + 1)) (p : Nat)
    (hp : p ≤ i) (hm : i + p + 1 < m) (P : Nat → K) (fuel n : Nat) (x : K) (per : Bool)
    (hs : findSpan fuel n p x U per = some i) (d k : Nat) (hk : k ≤ d) :
    curveDerivsAlg2 fuel n p U P x d per k = some ((Polynomial.derivative^[k] (splineP i U p P)).eval x) := by
  rw [curveDerivsAlg2, hs]
  dsimp only
  by_cases hkp : k ≤ p
  · rw [if_pos (by omega), foldl_sum, iterate_splineP U m hU i hi p hp hm P k hkp, eval_finsetSum]
    congr 1
    apply sum_congr rfl
    intro j hj
    have hj := mem_range.1 hj
    rw [(allBasisFuns_spec i x U p hp).1 (p - k) j (by omega) (by omega),
      curveDerivCpts_eq p U P (i - p) i _ d k j hk (by omega), eval_mul, eval_C, eval_coxP, mul_comm]
  · rw [if_neg (by omega), iterate_splineP_zero U m hU i hi p hp hm P k (by omega), eval_zero]

end ordered

theorem eval_splineP (i : Nat) (U : Nat → K) (p n : Nat) (P : Nat → K) (x : K) (hp : p ≤ i) (hn : i < n) :
    (splineP i U p P).eval x = spline U p n P x i := by
  rw [spline_window U p n P x i hp hn, splineP, eval_finsetSum]
  apply sum_congr rfl
  intro j _
  rw [eval_mul, eval_C, eval_coxP]

end Verif.NDer
