import Verif.Bez.Props
import Mathlib.Analysis.Calculus.Deriv.Pow
import Mathlib.Analysis.Calculus.Deriv.Add
import Mathlib.Analysis.Calculus.Deriv.Mul
import Mathlib.Tactic.IntervalCases

/-! # C114: products and derivatives in monomial form; C115: rational patches -/

set_option linter.unusedSectionVars false

namespace Verif.Bez

open Finset

variable {K : Type} [Field K]

/-- One term of a product polynomial: collecting by exponents. -/
theorem collect (N M a b : Nat) (ha : a < N) (hb : b < M) (c u v : K) :
    ∑ i ∈ range N, ∑ j ∈ range M, (if a = i ∧ b = j then c else 0) * u ^ i * v ^ j = c * u ^ a * v ^ b := by
  rw [sum_eq_single a, sum_eq_single b]
  · rw [if_pos ⟨rfl, rfl⟩]
  · intro j _ hj
    rw [if_neg (fun h => hj h.2.symm), zero_mul, zero_mul]
  · intro h; exact absurd (mem_range.mpr hb) h
  · intro i _ hi
    apply sum_eq_zero
    intro j _
    rw [if_neg (fun h => hi h.1.symm), zero_mul, zero_mul]
  · intro h; exact absurd (mem_range.mpr ha) h

theorem product_values (A B : Arr K) (d e : Nat) (u v : K) :
    evalMonomial A u v d * evalMonomial B u v e =
      ∑ i1 ∈ range A.n, ∑ j1 ∈ range A.m, ∑ i2 ∈ range B.n, ∑ j2 ∈ range B.m,
        A.get i1 j1 d * B.get i2 j2 e * u ^ (i1 + i2) * v ^ (j1 + j2) := by
  unfold evalMonomial
  rw [sum_mul]
  apply sum_congr rfl; intro i1 _
  rw [sum_mul]
  apply sum_congr rfl; intro j1 _
  rw [mul_sum]
  apply sum_congr rfl; intro i2 _
  rw [mul_sum]
  apply sum_congr rfl; intro j2 _
  rw [pow_add, pow_add]
  ring

/-- The value of the product is the cross product of the values, in every coordinate. -/
theorem C114_cross (A B : Arr K) (u v : K) (d : Nat) :
    evalMonomial (crossMonomial A B) u v d =
      evalMonomial A u v ((d + 1) % 3) * evalMonomial B u v ((d + 2) % 3) -
      evalMonomial A u v ((d + 2) % 3) * evalMonomial B u v ((d + 1) % 3) := by
  rw [product_values, product_values]
  simp only [← sum_sub_distrib]
  unfold evalMonomial crossMonomial
  dsimp only
  have h1 : ∀ i ∈ range (A.n + B.n - 1), ∀ j ∈ range (A.m + B.m - 1),
      (∑ i1 ∈ range A.n, ∑ j1 ∈ range A.m, ∑ i2 ∈ range B.n, ∑ j2 ∈ range B.m,
        if i1 + i2 = i ∧ j1 + j2 = j then
          A.get i1 j1 ((d + 1) % 3) * B.get i2 j2 ((d + 2) % 3) -
            A.get i1 j1 ((d + 2) % 3) * B.get i2 j2 ((d + 1) % 3)
        else 0) * u ^ i * v ^ j =
      ∑ i1 ∈ range A.n, ∑ j1 ∈ range A.m, ∑ i2 ∈ range B.n, ∑ j2 ∈ range B.m,
        (if i1 + i2 = i ∧ j1 + j2 = j then
          A.get i1 j1 ((d + 1) % 3) * B.get i2 j2 ((d + 2) % 3) -
            A.get i1 j1 ((d + 2) % 3) * B.get i2 j2 ((d + 1) % 3)
        else 0) * u ^ i * v ^ j := by
    intro i _ j _
    simp only [sum_mul]
  rw [sum_congr rfl fun i hi => sum_congr rfl fun j hj => h1 i hi j hj]
  -- move the sums over the exponents inside
  rw [sum_congr rfl fun i _ => sum_comm, sum_comm]
  apply sum_congr rfl; intro i1 hi1
  rw [sum_congr rfl fun i _ => sum_comm, sum_comm]
  apply sum_congr rfl; intro j1 hj1
  rw [sum_congr rfl fun i _ => sum_comm, sum_comm]
  apply sum_congr rfl; intro i2 hi2
  rw [sum_congr rfl fun i _ => sum_comm, sum_comm]
  apply sum_congr rfl; intro j2 hj2
  rw [mem_range] at hi1 hj1 hi2 hj2
  rw [collect _ _ _ _ (by omega) (by omega)]
  ring

/-- The arrays of derivatives are the partial derivatives of the polynomial. -/
theorem C114_derivatives (A : Arr ℝ) (u v : ℝ) (d : Nat) :
    HasDerivAt (fun x => evalMonomial A x v d) (evalMonomial (partialU A) u v d) u ∧
    HasDerivAt (fun y => evalMonomial A u y d) (evalMonomial (partialV A) u v d) v := by
  refine ⟨?_, ?_⟩
  · have h : HasDerivAt (fun x => ∑ i ∈ range A.n, ∑ j ∈ range A.m, A.get i j d * x ^ i * v ^ j)
        (∑ i ∈ range A.n, ∑ j ∈ range A.m, A.get i j d * ((i : ℝ) * u ^ (i - 1)) * v ^ j) u := by
      apply HasDerivAt.fun_sum; intro i _
      apply HasDerivAt.fun_sum; intro j _
      exact ((hasDerivAt_pow i u).const_mul _).mul_const _
    have e : ∑ i ∈ range A.n, ∑ j ∈ range A.m, A.get i j d * ((i : ℝ) * u ^ (i - 1)) * v ^ j =
        evalMonomial (partialU A) u v d := by
      unfold evalMonomial partialU
      dsimp only
      cases hn : A.n with
      | zero => simp
      | succ n =>
        rw [sum_range_succ', show n + 1 - 1 = n by omega]
        have z : ∑ j ∈ range A.m, A.get 0 j d * (((0 : Nat) : ℝ) * u ^ (0 - 1)) * v ^ j = 0 := by simp
        rw [z, add_zero]
        apply sum_congr rfl; intro i _
        apply sum_congr rfl; intro j _
        rw [show i + 1 - 1 = i by omega]
        ring
    rw [← e]
    exact h
  · have h : HasDerivAt (fun y => ∑ i ∈ range A.n, ∑ j ∈ range A.m, A.get i j d * u ^ i * y ^ j)
        (∑ i ∈ range A.n, ∑ j ∈ range A.m, A.get i j d * u ^ i * ((j : ℝ) * v ^ (j - 1))) v := by
      apply HasDerivAt.fun_sum; intro i _
      apply HasDerivAt.fun_sum; intro j _
      exact (hasDerivAt_pow j v).const_mul _
    have e : ∑ i ∈ range A.n, ∑ j ∈ range A.m, A.get i j d * u ^ i * ((j : ℝ) * v ^ (j - 1)) =
        evalMonomial (partialV A) u v d := by
      unfold evalMonomial partialV
      dsimp only
      apply sum_congr rfl; intro i _
      cases hm : A.m with
      | zero => simp
      | succ m =>
        rw [sum_range_succ', show m + 1 - 1 = m by omega]
        have z : A.get i 0 d * u ^ i * (((0 : Nat) : ℝ) * v ^ (0 - 1)) = 0 := by simp
        rw [z, add_zero]
        apply sum_congr rfl; intro j _
        rw [show j + 1 - 1 = j by omega]
        ring
    rw [← e]
    exact h

/-- The normal polynomial has the values of the cross product of the partial derivatives. -/
theorem C114_normal (A : Arr ℝ) (u v : ℝ) (d : Nat) :
    evalMonomial (normalMonomial A) u v d =
      deriv (fun x => evalMonomial A x v ((d + 1) % 3)) u * deriv (fun y => evalMonomial A u y ((d + 2) % 3)) v -
      deriv (fun x => evalMonomial A x v ((d + 2) % 3)) u * deriv (fun y => evalMonomial A u y ((d + 1) % 3)) v := by
  unfold normalMonomial
  rw [C114_cross, (C114_derivatives A u v _).1.deriv, (C114_derivatives A u v _).1.deriv,
    (C114_derivatives A u v _).2.deriv, (C114_derivatives A u v _).2.deriv]

/-- It is orthogonal to both derivatives. -/
theorem C114_orthogonal (A : Arr ℝ) (u v : ℝ) :
    ∑ d ∈ range 3, evalMonomial (normalMonomial A) u v d * deriv (fun x => evalMonomial A x v d) u = 0 ∧
    ∑ d ∈ range 3, evalMonomial (normalMonomial A) u v d * deriv (fun y => evalMonomial A u y d) v = 0 := by
  refine ⟨?_, ?_⟩
  · simp only [sum_range_succ, sum_range_zero, C114_normal]
    norm_num
    ring
  · simp only [sum_range_succ, sum_range_zero, C114_normal]
    norm_num
    ring

/-- The rational patch made of homogeneous coefficients has the projected values, where no weight of the
Bezier form is zero. -/
theorem C115_rational [CharZero K] (g : Nat → K) {inv : Nat → (Nat → Nat → K) → Nat → Nat → K}
    (hinv : InvSpec inv) (A : Arr K) (hn : A.n ≤ 31) (hm : A.m ≤ 31)
    (hw : ∀ i < A.n, ∀ j < A.m, (monomialToBezier g inv A).get i j 3 ≠ 0) (u v : K) (d : Nat) (hd : d < 3) :
    evalRational (homogeneousToRational g inv A) (fun i j => (homogeneousToRational g inv A).get i j 3) u v d =
      evalMonomial A u v d / evalMonomial A u v 3 := by
  rw [← C40_evaluate' g hinv A hn hm u v d, ← C40_evaluate' g hinv A hn hm u v 3]
  unfold evalRational evalBezier homogeneousToRational
  dsimp only
  have e1 : (monomialToBezier g inv A).n = A.n := rfl
  have e2 : (monomialToBezier g inv A).m = A.m := rfl
  rw [e1, e2]
  congr 1
  · apply sum_congr rfl; intro i hi
    apply sum_congr rfl; intro j hj
    rw [mem_range] at hi hj
    have := hw i hi j hj
    rw [if_neg (by omega : d ≠ 3), if_pos rfl]
    field_simp
  · apply sum_congr rfl; intro i hi
    apply sum_congr rfl; intro j hj
    rw [if_pos rfl]
    ring

/-! ## Examples -/

-- u times v in the first two coordinates
def arrEx : Arr ℝ := ⟨2, 2, 3, fun i j d => if d = 0 ∧ i = 1 ∧ j = 0 then 1 else if d = 1 ∧ i = 0 ∧ j = 1 then 1 else 0⟩

example : evalMonomial arrEx 2 3 0 = 2 ∧ evalMonomial arrEx 2 3 1 = 3 := by
  constructor <;> norm_num [evalMonomial, arrEx, sum_range_succ]

example : evalMonomial (normalMonomial arrEx) 2 3 2 = 1 := by
  unfold normalMonomial
  rw [C114_cross]
  norm_num [evalMonomial, partialU, partialV, arrEx, sum_range_succ]

/-- A constant polynomial of weight one has nonzero weights in Bezier form. -/
example (g : Nat → ℚ) (inv : Nat → (Nat → Nat → ℚ) → Nat → Nat → ℚ) (hinv : InvSpec inv) :
    (monomialToBezier g inv ⟨1, 1, 4, fun _ _ _ => 1⟩).get 0 0 3 ≠ 0 := by
  have h := (inv_bpmat g hinv 1 (by omega)).1 0 (by omega) 0 (by omega)
  simp only [sum_range_one, if_true] at h
  unfold monomialToBezier
  simp only [sum_range_one, mul_one]
  intro hz
  rcases mul_eq_zero.mp hz with e | e <;> (rw [e] at h; simp at h)

end Verif.Bez
