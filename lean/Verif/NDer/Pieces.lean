import Verif.NDer.Model
import Verif.Nurbs.Basis
import Mathlib.Algebra.Polynomial.Derivative
import Mathlib.Data.Nat.Factorial.Basic
import Mathlib.Tactic.LinearCombination

/-! The Cox-de Boor functions on one span as polynomials, and their derivatives. -/

set_option linter.unusedSectionVars false

namespace Verif.NDer
open Finset Polynomial Verif.Nurbs
variable {K : Type} [Field K] [LinearOrder K]

/-- The polynomial that the Cox-de Boor function `N_{l,p}` is on the span `i`. -/
noncomputable def coxP (i : Nat) (U : Nat → K) : Nat → Nat → K[X]
  | 0, l => if l = i then 1 else 0
  | p + 1, l =>
    C (U (l + p + 1) - U l)⁻¹ * (X - C (U l)) * coxP i U p l +
    C (U (l + p + 2) - U (l + 1))⁻¹ * (C (U (l + p + 2)) - X) * coxP i U p (l + 1)

theorem eval_coxP (i : Nat) (U : Nat → K) (x : K) : ∀ p l, (coxP i U p l).eval x = cox (spike i) U x p l := by
  intro p
  induction p with
  | zero =>
    intro l
    rw [coxP, cox, spike]
    split_ifs <;> simp
  | succ p ih =>
    intro l
    rw [coxP, cox, ← ih, ← ih]
    simp only [eval_add, eval_mul, eval_C, eval_sub, eval_X, div_eq_mul_inv]
    ring

theorem coxP_out (i : Nat) (U : Nat → K) : ∀ p l, (i < l ∨ l + p < i) → coxP i U p l = 0 := by
  intro p
  induction p with
  | zero => intro l h; rw [coxP, if_neg (by omega)]
  | succ p ih => intro l h; rw [coxP, ih l (by omega), ih (l + 1) (by omega)]; ring

/-- The coefficients of the `k`-th derivative of `N_{l,p}` (The NURBS Book, (2.10)). -/
def coefA (U : Nat → K) (p l : Nat) : Nat → Nat → K
  | 0, j => if j = 0 then 1 else 0
  | k + 1, 0 => coefA U p l k 0 / (U (l + p - k) - U l)
  | k + 1, j + 1 => (coefA U p l k (j + 1) - coefA U p l k j) / (U (l + p + (j + 1) - k) - U (l + (j + 1)))

theorem coefA_out (U : Nat → K) (p l : Nat) : ∀ k j, k < j → coefA U p l k j = 0 := by
  intro k
  induction k with
  | zero => intro j hj; rw [coefA, if_neg (by omega)]
  | succ k ih =>
    intro j hj
    cases j with
    | zero => omega
    | succ j => rw [coefA, ih _ (by omega), ih _ (by omega)]; simp

section ordered
variable [IsStrictOrderedRing K]

/-- A piece is zero or all spans around it are non-empty. -/
theorem coxP_zero_or (U : Nat → K) (m : Nat) (hU : MonoUpTo U m) (i : Nat) (hi : U i < U (i + 1)) (p l : Nat)
    (a b : Nat) (ha : a ≤ l) (hb : l + p + 1 ≤ b) (hbm : b < m) :
    coxP i U p l = 0 ∨ (U b - U a) ≠ 0 := by
  by_cases h : i < l ∨ l + p < i
  · exact .inl (coxP_out i U p l h)
  · right
    have h1 : U a ≤ U i := hU _ _ (by omega) (by omega)
    have h2 : U (i + 1) ≤ U b := hU _ _ (by omega) hbm
    exact sub_ne_zero.2 (ne_of_gt (lt_of_le_of_lt h1 (lt_of_lt_of_le hi h2)))

/-- The derivative of a Cox-de Boor function. -/
theorem derivative_coxP (U : Nat → K) (m : Nat) (hU : MonoUpTo U m) (i : Nat) (hi : U i < U (i + 1)) :
    ∀ p l, l + p + 2 < m → Polynomial.derivative (coxP i U (p + 1) l) =
      C ((p : K) + 1) * (C (U (l + p + 1) - U l)⁻¹ * coxP i U p l -
        C (U (l + p + 2) - U (l + 1))⁻¹ * coxP i U p (l + 1)) := by
  intro p
  induction p with
  | zero =>
    intro l _
    have h0 : ∀ l, Polynomial.derivative (coxP i U 0 l) = 0 := by
      intro l; rw [coxP]; split_ifs <;> simp
    rw [show coxP i U (0 + 1) l = C (U (l + 0 + 1) - U l)⁻¹ * (X - C (U l)) * coxP i U 0 l +
      C (U (l + 0 + 2) - U (l + 1))⁻¹ * (C (U (l + 0 + 2)) - X) * coxP i U 0 (l + 1) from rfl]
    simp only [derivative_add, derivative_mul, derivative_sub, derivative_X, derivative_C, h0]
    simp
    ring
  | succ p ih =>
    intro l hl
    have ih0 := ih l (by omega)
    have ih1 := ih (l + 1) (by omega)
    rw [show l + 1 + p + 1 = l + p + 2 by omega, show l + 1 + p + 2 = l + p + 3 by omega,
      show l + 1 + 1 = l + 2 by omega] at ih1
    have key : C (U (l + (p + 1) + 2) - U (l + 1))⁻¹ * coxP i U p (l + 1) * (C (U (l + (p + 1) + 2)) - C (U (l + 1)))
        = coxP i U p (l + 1) := by
      rcases coxP_zero_or U m hU i hi p (l + 1) (l + 1) (l + (p + 1) + 2) (by omega) (by omega) (by omega) with h | h
      · rw [h]; ring
      · rw [← C_sub, mul_right_comm, ← C_mul, inv_mul_cancel₀ h]; simp
    have key2 : C (U (l + (p + 1) + 1) - U l)⁻¹ * coxP i U p (l + 1) * (C (U (l + (p + 1) + 1)) - C (U l))
        = coxP i U p (l + 1) := by
      rcases coxP_zero_or U m hU i hi p (l + 1) l (l + (p + 1) + 1) (by omega) (by omega) (by omega) with h | h
      · rw [h]; ring
      · rw [← C_sub, mul_right_comm, ← C_mul, inv_mul_cancel₀ h]; simp
    rw [coxP]
    simp only [derivative_add, derivative_mul, derivative_sub, derivative_X, derivative_C, ih0, ih1]
    rw [show coxP i U (p + 1) l = C (U (l + p + 1) - U l)⁻¹ * (X - C (U l)) * coxP i U p l +
      C (U (l + p + 2) - U (l + 1))⁻¹ * (C (U (l + p + 2)) - X) * coxP i U p (l + 1) from rfl,
      show coxP i U (p + 1) (l + 1) = C (U (l + p + 2) - U (l + 1))⁻¹ * (X - C (U (l + 1))) * coxP i U p (l + 1) +
      C (U (l + p + 3) - U (l + 2))⁻¹ * (C (U (l + p + 3)) - X) * coxP i U p (l + 2) by
        rw [coxP, show l + 1 + p + 1 = l + p + 2 by omega, show l + 1 + p + 2 = l + p + 3 by omega,
          show l + 1 + 1 = l + 2 by omega]]
    rw [show l + (p + 1) + 1 = l + p + 2 by omega, show l + (p + 1) + 2 = l + p + 3 by omega] at *
    push_cast
    simp only [C_add, C_1, map_natCast]
    linear_combination (((p : K[X]) + 1) * C (U (l + p + 2) - U (l + 1))⁻¹) * (key - key2)

/-- The `k`-th derivative of `N_{l,p}`. -/
theorem iterate_coxP (U : Nat → K) (m : Nat) (hU : MonoUpTo U m) (i : Nat) (hi : U i < U (i + 1)) (p l : Nat)
    (hm : l + p + 1 < m) : ∀ k, k ≤ p → Polynomial.derivative^[k] (coxP i U p l) =
      ∑ j ∈ range (k + 1), C ((p.descFactorial k : K) * coefA U p l k j) * coxP i U (p - k) (l + j) := by
  intro k
  induction k with
  | zero => intro _; simp [coefA]
  | succ k ih =>
    intro hk
    rw [Function.iterate_succ_apply', ih (by omega), derivative_sum]
    have hd : ∀ j ∈ range (k + 1), Polynomial.derivative (C ((p.descFactorial k : K) * coefA U p l k j) *
        coxP i U (p - k) (l + j)) = C ((p.descFactorial (k + 1) : K) * coefA U p l k j *
          (U (l + p + j - k) - U (l + j))⁻¹) * coxP i U (p - (k + 1)) (l + j) -
        C ((p.descFactorial (k + 1) : K) * coefA U p l k j *
          (U (l + p + (j + 1) - k) - U (l + (j + 1)))⁻¹) * coxP i U (p - (k + 1)) (l + (j + 1)) := by
      intro j hj
      have hj := mem_range.1 hj
      obtain ⟨q, hq⟩ : ∃ q, p - k = q + 1 := ⟨p - k - 1, by omega⟩
      rw [derivative_C_mul, hq, derivative_coxP U m hU i hi q (l + j) (by omega),
        show p - (k + 1) = q by omega, show l + j + q + 1 = l + p + j - k by omega,
        show l + j + q + 2 = l + p + (j + 1) - k by omega, Nat.descFactorial_succ, hq]
      push_cast
      simp only [C_mul, C_add, map_natCast, C_1, add_assoc]
      ring
    rw [sum_congr rfl hd, sum_sub_distrib, sum_range_succ (n := k + 1)]
    have hS : ∑ j ∈ range (k + 1), C ((p.descFactorial (k + 1) : K) * coefA U p l (k + 1) j) *
          coxP i U (p - (k + 1)) (l + j) + C ((p.descFactorial (k + 1) : K) * coefA U p l (k + 1) (k + 1)) *
          coxP i U (p - (k + 1)) (l + (k + 1)) =
        ∑ j ∈ range (k + 2), C ((p.descFactorial (k + 1) : K) * coefA U p l (k + 1) j) *
          coxP i U (p - (k + 1)) (l + j) := by rw [sum_range_succ (n := k + 1)]
    rw [hS]
    have e1 : ∑ j ∈ range (k + 1), C ((p.descFactorial (k + 1) : K) * coefA U p l k j *
          (U (l + p + j - k) - U (l + j))⁻¹) * coxP i U (p - (k + 1)) (l + j) =
        ∑ j ∈ range (k + 2), C ((p.descFactorial (k + 1) : K) * coefA U p l k j *
          (U (l + p + j - k) - U (l + j))⁻¹) * coxP i U (p - (k + 1)) (l + j) := by
      rw [sum_range_succ (n := k + 1), coefA_out U p l k (k + 1) (by omega)]; simp
    rw [e1, sum_range_succ' (n := k + 1), sum_range_succ' (n := k + 1), add_sub_right_comm, ← sum_sub_distrib]
    congr 1
    · apply sum_congr rfl
      intro j _
      rw [coefA, div_eq_mul_inv, ← sub_mul, ← C_sub]
      congr 2
      ring
    · rw [coefA, div_eq_mul_inv]
      simp only [Nat.add_zero, mul_assoc]

end ordered
end Verif.NDer
