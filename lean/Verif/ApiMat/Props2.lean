import Verif.ApiMat.Model2
import Mathlib.Algebra.Order.Archimedean.Basic
import Mathlib.Data.Fin.VecNotation
import Mathlib.Tactic.Ring
import Mathlib.Tactic.Linarith
import Mathlib.Tactic.FieldSimp
import Mathlib.Tactic.NormNum
import Mathlib.Tactic.Positivity

set_option linter.unusedSectionVars false

/-! # Equality of API vectors (C480) -/

namespace Verif.ApiMat

variable {K : Type} [Field K] [LinearOrder K] [IsStrictOrderedRing K]

theorem vecEq_iff {n : ℕ} (rtol atol : K) (v w : Fin n → K) : vecEq rtol atol v w = true ↔ ∀ i, |v i - w i| ≤ atol + rtol * |w i| := by
  simp [vecEq, npClose]

/-- **C480, what equality means**: every vector equals itself; vectors that differ by no more than the absolute tolerance in each coordinate are equal both
ways round; equal vectors are equal the other way round with tolerances larger by `1 / (1 - rtol)`.  Missing: an equivalence, refuted below. -/
theorem C480_meaning_partial {n : ℕ} (rtol atol : K) (hr : 0 ≤ rtol) (ha : 0 ≤ atol) (v w : Fin n → K) :
    vecEq rtol atol v v = true ∧ ((∀ i, |v i - w i| ≤ atol) → vecEq rtol atol v w = true ∧ vecEq rtol atol w v = true) ∧
    (rtol < 1 → vecEq rtol atol v w = true → vecEq (rtol / (1 - rtol)) (atol / (1 - rtol)) w v = true) := by
  refine ⟨?_, fun h => ⟨?_, ?_⟩, fun h1 h => ?_⟩
  · rw [vecEq_iff]; intro i; rw [sub_self, abs_zero]; positivity
  · rw [vecEq_iff]; intro i; have := mul_nonneg hr (abs_nonneg (w i)); linarith [h i]
  · rw [vecEq_iff]; intro i; rw [abs_sub_comm]; have := mul_nonneg hr (abs_nonneg (v i)); linarith [h i]
  · rw [vecEq_iff] at h ⊢
    intro i
    have hp : 0 < 1 - rtol := by linarith
    have h := h i
    have t := abs_sub_abs_le_abs_sub (w i) (v i)
    rw [abs_sub_comm (w i)] at t ⊢
    have e : atol / (1 - rtol) + rtol / (1 - rtol) * |v i| = (atol + rtol * |v i|) / (1 - rtol) := by ring
    rw [e, le_div_iff₀ hp]
    have h2 : rtol * (|w i| - |v i|) ≤ rtol * |v i - w i| := mul_le_mul_of_nonneg_left t hr
    linarith

/-- **C480, symmetry, refuted.** For every vector with a coordinate large enough there is another one that equals it, but which it does not equal. -/
theorem C480_symmetry_refuted {n : ℕ} (rtol atol : K) (hr : 0 < rtol) (ha : 0 ≤ atol) (w : Fin n → K) (i : Fin n) (hw : 0 < w i)
    (hi : atol ≤ (1 - rtol) * w i) : ∃ v : Fin n → K, vecEq rtol atol v w = true ∧ vecEq rtol atol w v = false := by
  have hp := mul_pos hr hw
  refine ⟨Function.update w i (w i - (atol + rtol * w i)), ?_, ?_⟩
  · rw [vecEq_iff]
    intro j
    by_cases h : j = i
    · subst h
      rw [Function.update_self, abs_of_pos hw, abs_le]
      constructor <;> linarith
    · rw [Function.update_of_ne h, sub_self, abs_zero]
      have := mul_nonneg hr.le (abs_nonneg (w j))
      linarith
  · rw [← Bool.not_eq_true, vecEq_iff]
    intro h
    have h := h i
    rw [Function.update_self, abs_of_nonneg (show 0 ≤ w i - (atol + rtol * w i) by linarith),
      abs_of_nonneg (show 0 ≤ w i - (w i - (atol + rtol * w i)) by linarith)] at h
    have : 0 < rtol * (atol + rtol * w i) := mul_pos hr (by linarith)
    nlinarith

/-- **C480, transitivity, refuted.** Any two vectors are joined by a chain of vectors of which each equals the next, both ways round. -/
theorem C480_chain_refuted [Archimedean K] {n : ℕ} (rtol atol : K) (hr : 0 ≤ rtol) (ha : 0 < atol) (v w : Fin n → K) :
    ∃ (m : ℕ) (c : ℕ → Fin n → K), c 0 = v ∧ c m = w ∧ ∀ k, k < m → vecEq rtol atol (c k) (c (k + 1)) = true ∧ vecEq rtol atol (c (k + 1)) (c k) = true := by
  obtain ⟨m, hm⟩ : ∃ m : ℕ, ∀ i, |w i - v i| ≤ m * atol := by
    have h : ∀ i, ∃ m : ℕ, |w i - v i| ≤ m * atol := fun i => by
      obtain ⟨m, hm⟩ := Archimedean.arch (|w i - v i|) ha
      exact ⟨m, by simpa [nsmul_eq_mul] using hm⟩
    choose f hf using h
    refine ⟨(List.ofFn f).sum, fun i => (hf i).trans ?_⟩
    have : f i ≤ (List.ofFn f).sum := List.le_sum_of_mem (by rw [List.mem_ofFn]; exact ⟨i, rfl⟩)
    exact mul_le_mul_of_nonneg_right (Nat.cast_le.2 this) ha.le
  have hm1 : (0 : K) < ((m + 1 : ℕ) : K) := Nat.cast_pos.2 (by omega)
  refine ⟨m + 1, fun k i => v i + k * ((w i - v i) / ((m + 1 : ℕ) : K)), ?_, ?_, fun k _ => ?_⟩
  · funext i; simp
  · funext i
    dsimp only
    rw [mul_div_cancel₀ _ hm1.ne']; ring
  · refine (C480_meaning_partial rtol atol hr ha.le _ _).2.1 fun i => ?_
    have e : v i + (k : K) * ((w i - v i) / ((m + 1 : ℕ) : K)) - (v i + ((k + 1 : ℕ) : K) * ((w i - v i) / ((m + 1 : ℕ) : K))) =
        -((w i - v i) / ((m + 1 : ℕ) : K)) := by push_cast; ring
    rw [e, abs_neg, abs_div, abs_of_pos hm1, div_le_iff₀ hm1]
    refine (hm i).trans ?_
    rw [mul_comm]
    exact mul_le_mul_of_nonneg_left (Nat.cast_le.2 (Nat.le_succ m)) ha.le

/-- **C480, near the origin**: a vector equals the zero vector exactly when every coordinate is within the absolute tolerance; the zero vector may equal a
vector with a larger coordinate only by the relative tolerance. -/
theorem C480_zero {n : ℕ} (rtol atol : K) (v : Fin n → K) :
    (vecEq rtol atol v 0 = true ↔ ∀ i, |v i| ≤ atol) ∧ (rtol < 1 → (vecEq rtol atol 0 v = true ↔ ∀ i, |v i| ≤ atol / (1 - rtol))) := by
  constructor
  · rw [vecEq_iff]; simp
  · intro h1
    rw [vecEq_iff]
    have hp : 0 < 1 - rtol := by linarith
    refine forall_congr' fun i => ?_
    rw [Pi.zero_apply, zero_sub, abs_neg, le_div_iff₀ hp]
    constructor <;> intro h <;> nlinarith

/-- With the tolerances of numpy: `(0, 2e-8)` is not `(0, 0)`, though both equal `(0, 1e-8)`. -/
example : vecEq (1 / 100000 : ℚ) (1 / 100000000) ![0, 0] ![0, 1 / 100000000] = true ∧
    vecEq (1 / 100000 : ℚ) (1 / 100000000) ![0, 1 / 100000000] ![0, 2 / 100000000] = true ∧
    vecEq (1 / 100000 : ℚ) (1 / 100000000) ![0, 0] ![0, 2 / 100000000] = false := by decide +kernel

/-- The hypotheses of the refutation of symmetry hold for the point `(1, 0, 0)`. -/
example : (1 / 100000000 : ℚ) ≤ (1 - 1 / 100000) * (![1, 0, 0] : Fin 3 → ℚ) 0 := by decide +kernel

end Verif.ApiMat
