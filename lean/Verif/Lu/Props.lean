import Verif.Lu.Dec
import Mathlib.LinearAlgebra.Matrix.NonsingularInverse
import Mathlib.LinearAlgebra.Matrix.ToLinearEquiv
import Mathlib.Algebra.Field.Rat
import Mathlib.Algebra.Order.Ring.Rat

/-!
# Properties of the matrix inverse (C134, C135)
-/

set_option linter.unusedSectionVars false

namespace Verif.Lu
variable {F : Type} [Field F] [LinearOrder F] [IsStrictOrderedRing F]
open Finset

/-- The square matrix with these entries. -/
def toM (n : Nat) (A : Mat F) : Matrix (Fin n) (Fin n) F := Matrix.of fun i j => A i j

theorem view_contiguous (n : Nat) (mem : Nat → F) : view n 1 mem = rowMajor n mem := by
  funext i j; unfold view rowMajor; rw [Nat.mul_one]

theorem toM_mul (n : Nat) (A X : Mat F)
    (h : ∀ r k, r < n → k < n → ∑ c ∈ range n, A r c * X c k = if k = r then 1 else 0) : toM n A * toM n X = 1 := by
  ext r k
  rw [Matrix.mul_apply, Matrix.one_apply]
  have := h r k r.2 k.2
  rw [← Fin.sum_univ_eq_sum_range (fun c => A r c * X c k) n] at this
  refine this.trans ?_
  by_cases e : (k : Nat) = r
  · rw [if_pos e, if_pos (Fin.ext e.symm)]
  · rw [if_neg e, if_neg (fun h => e (by rw [h]))]

theorem sing_det (n : Nat) (A : Mat F) (h : Sing n A) : (toM n A).det = 0 := by
  obtain ⟨v, ⟨c, hc, hv⟩, hz⟩ := h
  apply Matrix.exists_mulVec_eq_zero_iff.1
  refine ⟨fun j => v j, fun e => hv (congrFun e ⟨c, hc⟩), ?_⟩
  funext r
  have := hz r r.2
  rw [← Fin.sum_univ_eq_sum_range (fun c => A r c * v c) n] at this
  exact this

theorem inv_cases (n : Nat) (mem y0 x0 : Nat → F) :
    (∃ B P X, luDecomposition n (rowMajor n mem) = some (B, P) ∧ inv n mem y0 x0 = some (store n mem B, X) ∧
      Dec n (rowMajor n mem) n B P ∧ toM n (rowMajor n mem) * toM n X = 1) ∨
    (inv n mem y0 x0 = none ∧ (toM n (rowMajor n mem)).det = 0) := by
  rcases lu_spec n (rowMajor n mem) with h | ⟨h1, h2⟩
  · obtain ⟨B, P, X, e, e2, hD, hX⟩ := invertMatrix_ok n (rowMajor n mem) (fun _ _ => 0) y0 x0 h
    exact Or.inl ⟨B, P, X, e, by unfold inv; rw [e2], hD, toM_mul n _ _ hX⟩
  · exact Or.inr ⟨by unfold inv; rw [invertMatrix_fail n _ _ _ _ h2], sing_det n _ h1⟩

/-- **C134.** For every size and every contiguous square array with non-zero determinant `inv` gives the inverse; for a
singular one the computation divides by zero.  The contents of fresh arrays do not matter. -/
theorem C134_inverse (n : Nat) (mem y0 x0 : Nat → F) :
    ((toM n (view n 1 mem)).det ≠ 0 →
      ∃ mem' X, inv n mem y0 x0 = some (mem', X) ∧ toM n (view n 1 mem) * toM n X = 1 ∧ toM n X * toM n (view n 1 mem) = 1) ∧
    ((toM n (view n 1 mem)).det = 0 → inv n mem y0 x0 = none) := by
  rw [view_contiguous]
  rcases inv_cases n mem y0 x0 with ⟨B, P, X, _, e, _, hX⟩ | ⟨e, hd⟩
  · refine ⟨fun _ => ⟨_, X, e, hX, mul_eq_one_comm.1 hX⟩, fun hz => ?_⟩
    exfalso
    have := congrArg Matrix.det hX
    rw [Matrix.det_mul, hz, zero_mul, Matrix.det_one] at this
    exact zero_ne_one this
  · exact ⟨fun h => absurd hd h, fun _ => e⟩

/-- **C134.** The factors that are left in the memory are those of a row permutation of the matrix, and no multiplier is
greater than one in absolute value (partial pivoting). -/
theorem C134_factors (n : Nat) (A : Mat F) (hd : (toM n A).det ≠ 0) :
    ∃ B P, luDecomposition n A = some (B, P) ∧
      (∀ r, r < n → P r < n) ∧ (∀ r s, r < n → s < n → P r = P s → r = s) ∧
      (∀ r c, r < n → c < n →
        A (P r) c = ∑ t ∈ range n, (if t < r then B r t else if t = r then 1 else 0) * (if t ≤ c then B t c else 0)) ∧
      ∀ r t, t < r → r < n → |B r t| ≤ 1 := by
  rcases lu_spec n A with ⟨B, P, e, hD, _⟩ | ⟨h1, _⟩
  · refine ⟨B, P, e, hD.perm, hD.inj, ?_, fun r t h1 h2 => hD.mult r t h1 h2 (by omega)⟩
    intro r c hr hc
    have := hD.eq r c hr hc
    rw [if_neg (by omega), add_zero] at this
    exact this
  · exact absurd (sing_det n A h1) hd

/-- The solver alone. -/
theorem C134_solve (n : Nat) (A : Mat F) (hd : (toM n A).det ≠ 0) (b y0 x0 : Nat → F) :
    ∃ B P x, luDecomposition n A = some (B, P) ∧ luSolve n B P b y0 x0 = some x ∧
      (toM n A).mulVec (fun j => x j) = fun j : Fin n => b j := by
  rcases lu_spec n A with ⟨B, P, e, hD, hd'⟩ | ⟨h1, _⟩
  · obtain ⟨x, e2, hx⟩ := luSolve_spec n A B P hD hd' b y0 x0
    refine ⟨B, P, x, e, e2, ?_⟩
    funext r
    have := hx r r.2
    rw [← Fin.sum_univ_eq_sum_range (fun c => A r c * x c) n] at this
    exact this
  · exact absurd (sing_det n A h1) hd

/-- A matrix of three rows that needs exchanges: the memory of `[[0, 2, 1], [4, 1, 0], [2, 2, 2]]`. -/
def exMem : Nat → ℚ := fun a => ([0, 2, 1, 4, 1, 0, 2, 2, 2] : List ℚ).getD a 0

example : ((inv 3 exMem (fun _ => 7) (fun _ => 9)).map fun r =>
    ((List.range 3).map fun i => (List.range 3).map fun j => r.2 i j, (List.range 9).map r.1)) =
    some ([[-1/5, 1/5, 1/10], [4/5, 1/5, -2/5], [-3/5, -2/5, 4/5]], [4, 1, 0, 0, 2, 1, 1/2, 3/4, 5/4]) := by
  decide +kernel

/-- A singular matrix. -/
example : inv 2 (fun a => ([1, 2, 2, 4] : List ℚ).getD a 0) (fun _ => 7) (fun _ => 9) = none := by decide +kernel

/-- **C135, refuted.** `inv` overwrites its argument: whenever an entry below the diagonal is greater than one in absolute value
the array afterwards differs from what it was. -/
theorem C135_argument_refuted (n : Nat) (mem y0 x0 : Nat → F) (hd : (toM n (view n 1 mem)).det ≠ 0)
    (r t : Nat) (htr : t < r) (hr : r < n) (hb : 1 < |view n 1 mem r t|) :
    ∃ mem' X, inv n mem y0 x0 = some (mem', X) ∧ view n 1 mem' r t ≠ view n 1 mem r t := by
  rw [view_contiguous] at hd hb ⊢
  rcases inv_cases n mem y0 x0 with ⟨B, P, X, _, e, hD, _⟩ | ⟨_, h⟩
  · refine ⟨_, X, e, ?_⟩
    rw [view_contiguous]
    have hlt : r * n + t < n * n := by
      calc r * n + t < r * n + n := by omega
        _ = (r + 1) * n := by rw [Nat.succ_mul]
        _ ≤ n * n := Nat.mul_le_mul_right n hr
    have e1 : rowMajor n (store n mem B) r t = B r t := by
      unfold rowMajor store
      rw [if_pos hlt, Nat.mul_comm, Nat.mul_add_div (by omega), Nat.mul_add_mod, Nat.div_eq_of_lt (by omega),
        Nat.mod_eq_of_lt (by omega), Nat.add_zero]
    rw [e1]
    intro h
    have := hD.mult r t htr hr (by omega)
    rw [h] at this
    exact absurd hb (not_lt.2 this)
  · exact absurd h hd

/-- **C135, refuted.** The strides of the argument are ignored.  Whatever the strides, the result is the inverse of the matrix
that the first `n * n` numbers in memory form; so it is the inverse of the argument only if the argument is that matrix. -/
theorem C135_strides_refuted (n s0 s1 : Nat) (mem y0 x0 : Nat → F) (hd : (toM n (rowMajor n mem)).det ≠ 0) :
    ∃ mem' X, inv n mem y0 x0 = some (mem', X) ∧
      (toM n (view s0 s1 mem) * toM n X = 1 ↔ toM n (view s0 s1 mem) = toM n (rowMajor n mem)) := by
  rcases inv_cases n mem y0 x0 with ⟨B, P, X, _, e, _, hX⟩ | ⟨_, h⟩
  · refine ⟨_, X, e, fun h => ?_, fun h => by rw [h, hX]⟩
    have hX' : toM n X * toM n (rowMajor n mem) = 1 := mul_eq_one_comm.1 hX
    calc toM n (view s0 s1 mem) = toM n (view s0 s1 mem) * (toM n X * toM n (rowMajor n mem)) := by rw [hX', mul_one]
      _ = toM n (rowMajor n mem) := by rw [← mul_assoc, h, one_mul]
  · exact absurd h hd

/-- **C135, refuted.** For a transposed array (`inv(A.T)`) the result is right only when the array is symmetric. -/
theorem C135_transpose_refuted (n : Nat) (mem y0 x0 : Nat → F) (hd : (toM n (view 1 n mem)).det ≠ 0) :
    ∃ mem' X, inv n mem y0 x0 = some (mem', X) ∧
      (toM n (view 1 n mem) * toM n X = 1 ↔ (toM n (view 1 n mem)).transpose = toM n (view 1 n mem)) := by
  have ht : toM n (rowMajor n mem) = (toM n (view 1 n mem)).transpose := by
    ext i j
    show mem _ = mem _
    congr 1; rw [Nat.mul_one]; exact Nat.add_comm _ _
  have hd' : (toM n (rowMajor n mem)).det ≠ 0 := by rw [ht, Matrix.det_transpose]; exact hd
  obtain ⟨mem', X, e, h⟩ := C135_strides_refuted n 1 n mem y0 x0 hd'
  refine ⟨mem', X, e, ?_⟩
  rw [h, ht]
  exact ⟨fun h => h.symm, fun h => h.symm⟩

/-- **C135, what holds.** For a contiguous array the result is the inverse of what the array was before the call, and memory
behind the array is not touched.  Missing: an unchanged argument, and arrays with other strides. -/
theorem C135_contiguous_partial (n : Nat) (mem y0 x0 : Nat → F) (hd : (toM n (view n 1 mem)).det ≠ 0) :
    ∃ mem' X, inv n mem y0 x0 = some (mem', X) ∧ toM n (view n 1 mem) * toM n X = 1 ∧ ∀ a, n * n ≤ a → mem' a = mem a := by
  rw [view_contiguous] at hd ⊢
  rcases inv_cases n mem y0 x0 with ⟨B, P, X, _, e, _, hX⟩ | ⟨_, h⟩
  · exact ⟨_, X, e, hX, fun a ha => by unfold store; rw [if_neg (by omega)]⟩
  · exact absurd h hd

/-- `[[1, 2], [5, 3]]` has an entry greater than one below the diagonal and is not symmetric. -/
example : 1 < |view 2 1 (fun a => ([1, 2, 5, 3] : List ℚ).getD a 0) 1 0| ∧
    view 1 2 (fun a => ([1, 2, 5, 3] : List ℚ).getD a 0) 0 1 ≠ view 1 2 (fun a => ([1, 2, 5, 3] : List ℚ).getD a 0) 1 0 ∧
    ((inv 2 (fun a => ([1, 2, 5, 3] : List ℚ).getD a 0) (fun _ => 7) (fun _ => 9)).map fun r =>
      ((List.range 2).map fun i => (List.range 2).map fun j => r.2 i j, (List.range 4).map r.1)) =
      some ([[-3/7, 2/7], [5/7, -1/7]], [5, 3, 1/5, 7/5]) := by
  decide +kernel

end Verif.Lu
