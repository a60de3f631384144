import Verif.Integ.Rom
import Mathlib.MeasureTheory.Integral.IntervalIntegral.Basic
import Mathlib.MeasureTheory.Integral.IntervalIntegral.FundThmCalculus
import Mathlib.Analysis.Calculus.Deriv.Polynomial
import Mathlib.Topology.Algebra.Polynomial
import Mathlib.Algebra.Order.Ring.Rat

/-!
# Properties of the Romberg integration (C136, C137)
-/

set_option linter.unusedSectionVars false

namespace Verif.Integ
open Finset Polynomial

section
variable {F : Type} [Field F] [LinearOrder F] [IsStrictOrderedRing F]

/-- **C136.** `romberg1d` is exact on polynomials of degree at most 5 whatever the accuracy asked for, given at least three rows. -/
theorem C136_exact (p q : F[X]) (hp : p.natDegree ≤ 5) (hq : derivative q = p) (a b acc : F) (n : Nat) (hn : 3 ≤ n) :
    romberg1d (fun x => p.eval x) a b n acc = some (q.eval b - q.eval a) := by
  obtain ⟨n, rfl⟩ := Nat.exists_eq_succ_of_ne_zero (by omega : n ≠ 0)
  obtain ⟨k, hk, e⟩ := romberg_spec (fun x => p.eval x) a b n acc
  rw [Nat.succ_eq_add_one, e, romb_exact 5 p q hp hq a b k]
  by_cases h : k < n
  · exact (hk.2.1 h).1
  · have := hk.1; omega

/-- **C136.** With an accuracy that is never met (`acc <= 0`) all `n` rows are used and polynomials of degree at most `2 n - 1`
are integrated exactly. -/
theorem C136_rows (p q : F[X]) (n : Nat) (hp : p.natDegree ≤ 2 * n + 1) (hq : derivative q = p) (a b acc : F) (hacc : acc ≤ 0) :
    romberg1d (fun x => p.eval x) a b (n + 1) acc = some (q.eval b - q.eval a) := by
  obtain ⟨k, hk, e⟩ := romberg_spec (fun x => p.eval x) a b n acc
  rw [e, romb_exact (2 * n + 1) p q hp hq a b k]
  by_cases h : k < n
  · exact absurd (lt_of_lt_of_le (hk.2.1 h).2 hacc) (not_lt.2 (abs_nonneg _))
  · omega

/-- **C136.** For every function the result is the last entry of the first row (from row 2 on) that differs from the last entry of the
row before by less than `acc`, or of row `n - 1`; the first column are the trapezoidal sums with `2 ^ i` cells. -/
theorem C136_table (f : F → F) (a b acc : F) (n : Nat) :
    ∃ (k : Nat) (R : Nat → Nat → F), (∀ i, R i 0 = trap f a b (2 ^ i)) ∧
      (∀ i j, R (i + 1) (j + 1) = R (i + 1) j + (R (i + 1) j - R i j) / ((4 : F) ^ (j + 1) - 1)) ∧
      romberg1d f a b (n + 1) acc = some (R k k) ∧ k ≤ n ∧
      (k < n → 2 ≤ k ∧ |R (k - 1) (k - 1) - R k k| < acc) ∧ ∀ l, 2 ≤ l → l < k → acc ≤ |R (l - 1) (l - 1) - R l l| := by
  obtain ⟨k, hk, e⟩ := romberg_spec f a b n acc
  refine ⟨k, romb (col f a b), fun i => rfl, fun i j => ?_, e, hk⟩
  rw [romb, Nat.add_sub_cancel]
  have := four_pow_ne (F := F) j
  field_simp
  ring

/-- `x^5 - 3 x^2` from 1 to 3: the rows stop at the third. -/
example : romberg1d (fun x : ℚ => x ^ 5 - 3 * x ^ 2) 1 3 16 (1 / 1000) = some ((3 ^ 6 - 1) / 6 - (3 ^ 3 - 1)) := by decide +kernel

end

/-- A function that vanishes at the five points that the first rows use. -/
noncomputable def bump (a b C : ℝ) : ℝ → ℝ := fun x => C * ∏ k ∈ range 5, (x - (a + k * ((b - a) / 4))) ^ 2

theorem bump_zero (a b C : ℝ) (k : Nat) (hk : k < 5) : bump a b C (a + k * ((b - a) / 4)) = 0 := by
  unfold bump
  rw [prod_eq_zero (mem_range.2 hk) (by rw [sub_self]; norm_num), mul_zero]

theorem trap_bump (a b C : ℝ) (N : Nat) (hN : N = 1 ∨ N = 2 ∨ N = 4) : trap (bump a b C) a b N = 0 := by
  unfold trap
  refine sum_eq_zero fun k hk => ?_
  have hk := mem_range.1 hk
  have z : ∀ j, j ≤ N → bump a b C (a + (j : ℝ) * ((b - a) / N)) = 0 := by
    intro j hj
    have : ∃ m : Nat, m < 5 ∧ a + (j : ℝ) * ((b - a) / N) = a + (m : ℝ) * ((b - a) / 4) := by
      rcases hN with rfl | rfl | rfl
      · exact ⟨4 * j, by omega, by push_cast; ring⟩
      · exact ⟨2 * j, by omega, by push_cast; ring⟩
      · exact ⟨j, by omega, by push_cast; ring⟩
    obtain ⟨m, hm, e⟩ := this
    rw [e]; exact bump_zero a b C m hm
  have h1 := z k (by omega)
  have h2 := z (k + 1) (by omega)
  push_cast at h2
  rw [h1, h2]; ring

/-- **C137, refuted.** `acc` does not bound the error: for every interval, every `acc > 0` and every size `M` there is a continuous
function for which `romberg1d` returns zero while the integral is `M`. -/
theorem C137_accuracy_refuted (a b : ℝ) (hab : a < b) (acc : ℝ) (hacc : 0 < acc) (n : Nat) (hn : 3 ≤ n) (M : ℝ) :
    ∃ f : ℝ → ℝ, Continuous f ∧ romberg1d f a b n acc = some 0 ∧ ∫ x in a..b, f x = M := by
  have cont : ∀ C, Continuous (bump a b C) := by intro C; unfold bump; fun_prop
  have pos : 0 < ∫ x in a..b, bump a b 1 x := by
    apply intervalIntegral.integral_pos hab (cont 1).continuousOn
    · intro x _
      unfold bump
      rw [one_mul]
      exact prod_nonneg fun k _ => sq_nonneg _
    · refine ⟨a + 1 / 2 * ((b - a) / 4), ⟨by linarith, by linarith⟩, ?_⟩
      unfold bump
      rw [one_mul]
      refine prod_pos fun k hk => ?_
      have : a + 1 / 2 * ((b - a) / 4) - (a + (k : ℝ) * ((b - a) / 4)) = (1 / 2 - (k : ℝ)) * ((b - a) / 4) := by ring
      rw [this]
      have h1 : (1 / 2 - (k : ℝ)) ≠ 0 := by
        intro h
        have h2 : (1 : ℝ) = 2 * (k : ℝ) := by linarith
        have h3 : (1 : ℕ) = 2 * k := by exact_mod_cast h2
        omega
      have h2 : (b - a) / 4 ≠ 0 := ne_of_gt (by linarith)
      exact sq_pos_of_ne_zero (mul_ne_zero h1 h2)
  refine ⟨bump a b (M / ∫ x in a..b, bump a b 1 x), cont _, ?_, ?_⟩
  · generalize (M / ∫ x in a..b, bump a b 1 x) = C
    obtain ⟨n, rfl⟩ := Nat.exists_eq_succ_of_ne_zero (by omega : n ≠ 0)
    obtain ⟨k, hk, e⟩ := romberg_spec (bump a b C) a b n acc
    have c0 : col (bump a b C) a b 0 = 0 := trap_bump a b C _ (by norm_num)
    have c1 : col (bump a b C) a b 1 = 0 := trap_bump a b C _ (by norm_num)
    have c2 : col (bump a b C) a b 2 = 0 := trap_bump a b C _ (by norm_num)
    have r11 : romb (col (bump a b C) a b) 1 1 = 0 := by simp [romb, c0, c1]
    have r22 : romb (col (bump a b C) a b) 2 2 = 0 := by simp [romb, c0, c1, c2]
    have hk2 : k = 2 := by
      by_cases h : 2 < k
      · have := hk.2.2 2 (le_refl _) h
        rw [show 2 - 1 = 1 by rfl, r11, r22, sub_self, abs_zero] at this
        exact absurd hacc (not_lt.2 this)
      · by_cases h2 : k < n
        · have := (hk.2.1 h2).1; omega
        · have := hk.1; omega
    rw [Nat.succ_eq_add_one, e, hk2, r22]
  · have e : ∀ C, ∫ x in a..b, bump a b C x = C * ∫ x in a..b, bump a b 1 x := by
      intro C
      rw [← intervalIntegral.integral_const_mul]
      congr 1
      funext x; unfold bump; ring
    rw [e, div_mul_cancel₀ M (ne_of_gt pos)]

/-- **C137, what holds.** Polynomials of degree at most 5 are integrated without error.  Missing: other functions. -/
theorem C137_polynomial_partial (p : ℝ[X]) (hp : p.natDegree ≤ 5) (a b acc : ℝ) (n : Nat) (hn : 3 ≤ n) :
    romberg1d (fun x => p.eval x) a b n acc = some (∫ x in a..b, p.eval x) := by
  obtain ⟨q, hq, _⟩ := exists_anti p
  rw [C136_exact p q hp hq a b acc n hn]
  congr 1
  symm
  apply intervalIntegral.integral_eq_sub_of_hasDerivAt (f := fun x => q.eval x)
  · intro x _
    have := q.hasDerivAt x
    rw [hq] at this
    exact this
  · exact (p.continuous).intervalIntegrable _ _

end Verif.Integ
