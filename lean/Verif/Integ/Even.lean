import Verif.Integ.Model
import Mathlib.Algebra.Polynomial.Taylor
import Mathlib.Algebra.Polynomial.Derivative
import Mathlib.Algebra.Polynomial.HasseDeriv
import Mathlib.Algebra.BigOperators.Intervals
import Mathlib.Algebra.Order.BigOperators.Group.Finset
import Mathlib.Algebra.Order.Field.Basic
import Mathlib.Algebra.BigOperators.Field
import Mathlib.Tactic.Ring
import Mathlib.Tactic.FieldSimp
import Mathlib.Tactic.LinearCombination
import Mathlib.Tactic.Positivity
import Mathlib.Tactic.SplitIfs
import Mathlib.Tactic.Linarith

/-!
# Trapezoidal sums of polynomials are polynomials in the square of the step
-/

set_option linter.unusedSectionVars false

namespace Verif.Integ
variable {F : Type} [Field F] [LinearOrder F] [IsStrictOrderedRing F]
open Finset Polynomial

/-- The function `g` of the number of pieces is `c₀ + c₁ x + ... + c_D x^D` with `x = 1 / N²`. -/
def EvenExp (g : Nat → F) (D : Nat) (c0 : F) : Prop :=
  ∃ c : Nat → F, c 0 = c0 ∧ ∀ N, 0 < N → g N = ∑ m ∈ range (D + 1), c m * (1 / ((N : F) ^ 2)) ^ m

theorem EvenExp.mono {g : Nat → F} {D D' : Nat} {c0 : F} (h : EvenExp g D c0) (hD : D ≤ D') : EvenExp g D' c0 := by
  obtain ⟨c, h0, h⟩ := h
  refine ⟨fun m => if m ≤ D then c m else 0, by simp [h0], fun N hN => ?_⟩
  rw [h N hN]
  have hs : range (D + 1) ⊆ range (D' + 1) := range_subset_range.2 (by omega)
  rw [← sum_subset hs]
  · exact sum_congr rfl fun m hm => by dsimp only; rw [if_pos (by have := mem_range.1 hm; omega)]
  · intro m _ hm
    dsimp only
    rw [if_neg (by intro h; exact hm (mem_range.2 (by omega))), zero_mul]

theorem EvenExp.add {g g' : Nat → F} {D : Nat} {c0 c0' : F} (h : EvenExp g D c0) (h' : EvenExp g' D c0') :
    EvenExp (fun N => g N + g' N) D (c0 + c0') := by
  obtain ⟨c, h0, h⟩ := h
  obtain ⟨c', h0', h'⟩ := h'
  refine ⟨fun m => c m + c' m, by dsimp only; rw [h0, h0'], fun N hN => ?_⟩
  dsimp only
  rw [h N hN, h' N hN, ← sum_add_distrib]
  exact sum_congr rfl fun m _ => by ring

theorem EvenExp.const (D : Nat) (c0 : F) : EvenExp (fun _ => c0) D c0 := by
  refine ⟨fun m => if m = 0 then c0 else 0, if_pos rfl, fun N _ => ?_⟩
  rw [sum_eq_single 0]
  · simp
  · intro m _ hm; dsimp only; rw [if_neg hm, zero_mul]
  · intro h; exact absurd (mem_range.2 (Nat.succ_pos D)) h

/-- A factor `k / N^(2 j)`. -/
theorem EvenExp.shift {g : Nat → F} {D : Nat} {c0 : F} (h : EvenExp g D c0) (k : F) (j : Nat) (hj : 0 < j) :
    EvenExp (fun N => k * (1 / ((N : F) ^ 2)) ^ j * g N) (D + j) 0 := by
  obtain ⟨c, h0, h⟩ := h
  refine ⟨fun m => if m < j then 0 else k * c (m - j), if_pos hj, fun N hN => ?_⟩
  dsimp only
  rw [h N hN, show D + j + 1 = j + (D + 1) by omega, sum_range_add _ j (D + 1), mul_sum]
  have z : ∑ m ∈ range j, (if m < j then 0 else k * c (m - j)) * (1 / ((N : F) ^ 2)) ^ m = 0 :=
    sum_eq_zero fun m hm => by rw [if_pos (mem_range.1 hm), zero_mul]
  rw [z, zero_add]
  refine sum_congr rfl fun m _ => ?_
  rw [if_neg (by omega), Nat.add_sub_cancel_left, pow_add]
  ring

theorem EvenExp.sum {ι : Type} (s : Finset ι) (g : ι → Nat → F) (D : Nat) (h : ∀ j ∈ s, EvenExp (g j) D 0) :
    EvenExp (fun N => ∑ j ∈ s, g j N) D 0 := by
  classical
  induction s using Finset.induction_on with
  | empty => simpa using EvenExp.const (F := F) D 0
  | insert a s ha ih =>
    have h1 := h a (mem_insert_self _ _)
    have h2 := ih fun j hj => h j (mem_insert_of_mem hj)
    have := h1.add h2
    rw [add_zero] at this
    simpa [sum_insert ha] using this

/-- The middle of the cell `k` of `N`. -/
def midPt (a b : F) (N k : Nat) : F := a + ((k : F) + 1 / 2) * ((b - a) / N)

/-- The midpoint rule. -/
def mid (p : F[X]) (a b : F) (N : Nat) : F := ∑ k ∈ range N, ((b - a) / N) * p.eval (midPt a b N k)

/-- The trapezoidal rule. -/
def trap (f : F → F) (a b : F) (N : Nat) : F :=
  ∑ k ∈ range N, ((b - a) / N) * ((f (a + (k : F) * ((b - a) / N)) + f (a + ((k : F) + 1) * ((b - a) / N))) / 2)

theorem eval_shift (p : F[X]) (y t : F) (n : Nat) (hn : p.natDegree < n) :
    p.eval (y + t) = ∑ k ∈ range n, (hasseDeriv k p).eval y * t ^ k := by
  have h := taylor_eval y p t
  rw [add_comm y t, ← h, eval_eq_sum_range' (n := n) (by rw [natDegree_taylor]; exact hn)]
  exact sum_congr rfl fun k _ => by rw [taylor_coeff]

/-- Odd part: `q(y+t) - q(y-t)`. -/
theorem odd_part (q : F[X]) (y t : F) (n : Nat) (hn : q.natDegree ≤ 2 * n) :
    q.eval (y + t) - q.eval (y - t) = ∑ k ∈ range n, 2 * (hasseDeriv (2 * k + 1) q).eval y * t ^ (2 * k + 1) := by
  rw [sub_eq_add_neg y t, eval_shift q y t (2 * n + 1) (by omega), eval_shift q y (-t) (2 * n + 1) (by omega), ← sum_sub_distrib]
  clear hn
  induction n with
  | zero => simp
  | succ n ih =>
    rw [show 2 * (n + 1) + 1 = 2 * n + 1 + 1 + 1 by omega, sum_range_succ, sum_range_succ, ih, sum_range_succ]
    have e1 : (-t) ^ (2 * n) = t ^ (2 * n) := by rw [pow_mul, pow_mul, neg_sq]
    have e2 : (-t) ^ (2 * n + 1) = -t ^ (2 * n + 1) := by rw [pow_succ, e1, pow_succ]; ring
    have e3 : (-t) ^ (2 * n + 1 + 1) = t ^ (2 * n + 1 + 1) := by rw [pow_succ, e2, pow_succ t (2 * n + 1)]; ring
    rw [e2, e3]
    ring

/-- Even part: `p(y+t) + p(y-t)`. -/
theorem even_part (p : F[X]) (y t : F) (n : Nat) (hn : p.natDegree < 2 * n) :
    p.eval (y + t) + p.eval (y - t) = ∑ k ∈ range n, 2 * (hasseDeriv (2 * k) p).eval y * t ^ (2 * k) := by
  rw [sub_eq_add_neg y t, eval_shift p y t (2 * n) hn, eval_shift p y (-t) (2 * n) hn, ← sum_add_distrib]
  clear hn
  induction n with
  | zero => simp
  | succ n ih =>
    rw [show 2 * (n + 1) = 2 * n + 1 + 1 by omega, sum_range_succ, sum_range_succ, ih, sum_range_succ]
    have e1 : (-t) ^ (2 * n) = t ^ (2 * n) := by rw [pow_mul, pow_mul, neg_sq]
    rw [pow_succ (-t), e1, pow_succ t]
    ring

/-- The derivatives of an antiderivative. -/
theorem hasse_anti (p q : F[X]) (h : derivative q = p) (k : Nat) :
    hasseDeriv (k + 1) q = C (1 / ((k : F) + 1)) * hasseDeriv k p := by
  have h1 : hasseDeriv k (hasseDeriv 1 q) = ((k + 1).choose k) • hasseDeriv (k + 1) q := by
    have := LinearMap.congr_fun (hasseDeriv_comp k 1 (R := F)) q
    exact this
  rw [hasseDeriv_one, h, Nat.choose_succ_self_right] at h1
  rw [h1, nsmul_eq_mul, ← mul_assoc]
  have : (C (1 / ((k : F) + 1)) : F[X]) * ((k + 1 : Nat) : F[X]) = 1 := by
    rw [← C_eq_natCast, ← C_mul, Nat.cast_succ, one_div, inv_mul_cancel₀ (by positivity), C_1]
  rw [this, one_mul]

theorem natDegree_hasse (p : F[X]) (k : Nat) : (hasseDeriv k p).natDegree ≤ p.natDegree - k := natDegree_hasseDeriv_le p k

theorem cell_lo (a b : F) (N k : Nat) : midPt a b N k - (b - a) / N / 2 = a + (k : F) * ((b - a) / N) := by
  unfold midPt; ring

theorem cell_hi (a b : F) (N k : Nat) : midPt a b N k + (b - a) / N / 2 = a + ((k : F) + 1) * ((b - a) / N) := by
  unfold midPt; ring

theorem step_pow (a b : F) (N j : Nat) : ((b - a) / N / 2) ^ (2 * j) = ((b - a) / 2) ^ (2 * j) * (1 / (N : F) ^ 2) ^ j := by
  rw [show (b - a) / N / 2 = (b - a) / 2 * (1 / N) by ring, mul_pow, pow_mul (1 / (N : F)), one_div_pow]

/-- The midpoint rule in terms of the midpoint rule of even derivatives. -/
theorem mid_rec (p q : F[X]) (h : derivative q = p) (a b : F) (N : Nat) (hN : 0 < N) (n : Nat) (hn : q.natDegree ≤ 2 * (n + 1)) :
    mid p a b N = (q.eval b - q.eval a) +
      ∑ j ∈ range n, -(((b - a) / 2) ^ (2 * (j + 1)) / (2 * ((j : F) + 1) + 1)) * (1 / (N : F) ^ 2) ^ (j + 1) *
        mid (hasseDeriv (2 * (j + 1)) p) a b N := by
  have hN' : (N : F) ≠ 0 := by exact_mod_cast (by omega : N ≠ 0)
  have tel : ∀ M, ∑ k ∈ range M, (q.eval (a + ((k : F) + 1) * ((b - a) / N)) - q.eval (a + (k : F) * ((b - a) / N))) =
      q.eval (a + (M : F) * ((b - a) / N)) - q.eval a := by
    intro M
    induction M with
    | zero => simp
    | succ M ih => rw [sum_range_succ, ih, Nat.cast_succ]; ring
  have t1 := tel N
  rw [show a + (N : F) * ((b - a) / N) = b by field_simp; ring] at t1
  rw [← t1]
  have cell : ∀ k ∈ range N, q.eval (a + ((k : F) + 1) * ((b - a) / N)) - q.eval (a + (k : F) * ((b - a) / N)) =
      ((b - a) / N) * p.eval (midPt a b N k) + ∑ j ∈ range n, ((b - a) / 2) ^ (2 * (j + 1)) / (2 * ((j : F) + 1) + 1) *
        (1 / (N : F) ^ 2) ^ (j + 1) * (((b - a) / N) * (hasseDeriv (2 * (j + 1)) p).eval (midPt a b N k)) := by
    intro k _
    rw [← cell_lo, ← cell_hi, odd_part q _ _ (n + 1) hn, sum_range_succ']
    rw [add_comm]
    congr 1
    · rw [hasse_anti p q h]; simp ; ring
    · refine sum_congr rfl fun j _ => ?_
      rw [hasse_anti p q h, eval_mul, eval_C, pow_succ, step_pow]
      push_cast
      ring
  rw [sum_congr rfl cell, sum_add_distrib, sum_comm]
  unfold mid
  rw [add_assoc, ← sum_add_distrib]
  rw [sum_eq_zero (s := range n), add_zero]
  intro j _
  rw [← mul_sum]
  ring

/-- The trapezoidal rule in terms of the midpoint rule of even derivatives. -/
theorem trap_rec (p : F[X]) (a b : F) (N : Nat) (n : Nat) (hn : p.natDegree < 2 * (n + 1)) :
    trap (fun x => p.eval x) a b N = mid p a b N +
      ∑ j ∈ range n, ((b - a) / 2) ^ (2 * (j + 1)) * (1 / (N : F) ^ 2) ^ (j + 1) * mid (hasseDeriv (2 * (j + 1)) p) a b N := by
  have cell : ∀ k ∈ range N, ((b - a) / N) * ((p.eval (a + (k : F) * ((b - a) / N)) + p.eval (a + ((k : F) + 1) * ((b - a) / N))) / 2) =
      ((b - a) / N) * p.eval (midPt a b N k) + ∑ j ∈ range n, ((b - a) / 2) ^ (2 * (j + 1)) *
        (1 / (N : F) ^ 2) ^ (j + 1) * (((b - a) / N) * (hasseDeriv (2 * (j + 1)) p).eval (midPt a b N k)) := by
    intro k _
    rw [← cell_lo, ← cell_hi, add_comm (p.eval (_ - _)), even_part p _ _ (n + 1) hn, sum_range_succ', add_div, mul_add, add_comm]
    congr 1
    · simp 
    · rw [sum_div, mul_sum]
      refine sum_congr rfl fun j _ => ?_
      rw [step_pow]; ring
  unfold trap
  rw [sum_congr rfl cell, sum_add_distrib, sum_comm]
  unfold mid
  congr 1
  refine sum_congr rfl fun j _ => ?_
  rw [mul_sum]

/-- Every polynomial has an antiderivative of one degree more. -/
theorem exists_anti (p : F[X]) : ∃ q : F[X], derivative q = p ∧ q.natDegree ≤ p.natDegree + 1 := by
  refine ⟨∑ k ∈ range (p.natDegree + 1), C (p.coeff k / ((k : F) + 1)) * X ^ (k + 1), ?_, ?_⟩
  · rw [derivative_sum]
    conv_rhs => rw [p.as_sum_range_C_mul_X_pow]
    refine sum_congr rfl fun k _ => ?_
    rw [derivative_C_mul_X_pow]
    congr 2
    push_cast
    field_simp
  · apply natDegree_sum_le_of_forall_le
    intro k hk
    refine (natDegree_C_mul_X_pow_le _ _).trans ?_
    have := mem_range.1 hk
    omega

theorem anti_unique (q q' : F[X]) (h : derivative q = derivative q') (a b : F) :
    q.eval b - q.eval a = q'.eval b - q'.eval a := by
  have : derivative (q - q') = 0 := by rw [derivative_sub, h, sub_self]
  have hd := derivative_eq_zero.1 this
  obtain ⟨c, hc⟩ := natDegree_eq_zero.1 hd
  have e : q = q' + C c := by rw [hc]; ring
  rw [e]; simp

theorem mid_even (d : Nat) : ∀ p q : F[X], p.natDegree ≤ d → derivative q = p → ∀ a b : F,
    EvenExp (mid p a b) (d / 2) (q.eval b - q.eval a) := by
  induction d using Nat.strong_induction_on with
  | _ d ih =>
    intro p q hp hq a b
    obtain ⟨q', hq', hdeg⟩ := exists_anti p
    rw [anti_unique q q' (by rw [hq, hq']) a b]
    have h := fun N hN => mid_rec p q' hq' a b N hN (d / 2) (by omega)
    have key : EvenExp (fun N => (q'.eval b - q'.eval a) +
      ∑ j ∈ range (d / 2), -(((b - a) / 2) ^ (2 * (j + 1)) / (2 * ((j : F) + 1) + 1)) * (1 / (N : F) ^ 2) ^ (j + 1) *
        mid (hasseDeriv (2 * (j + 1)) p) a b N) (d / 2) ((q'.eval b - q'.eval a) + 0) := by
      apply (EvenExp.const _ _).add
      apply EvenExp.sum
      intro j hj
      have hj := mem_range.1 hj
      obtain ⟨r, hr, _⟩ := exists_anti (hasseDeriv (2 * (j + 1)) p)
      have h2 := ih (d - 2 * (j + 1)) (by omega) (hasseDeriv (2 * (j + 1)) p) r
        ((natDegree_hasse p _).trans (by omega)) hr a b
      exact (h2.shift _ (j + 1) (by omega)).mono (by omega)
    rw [add_zero] at key
    obtain ⟨c, c0, hc⟩ := key
    exact ⟨c, c0, fun N hN => by rw [h N hN]; exact hc N hN⟩

/-- The trapezoidal sums of a polynomial of degree at most `d`. -/
theorem trap_even (d : Nat) (p q : F[X]) (hp : p.natDegree ≤ d) (hq : derivative q = p) (a b : F) :
    EvenExp (trap (fun x => p.eval x) a b) (d / 2) (q.eval b - q.eval a) := by
  have h := fun N => trap_rec p a b N (d / 2) (by omega)
  have key : EvenExp (fun N => mid p a b N +
      ∑ j ∈ range (d / 2), ((b - a) / 2) ^ (2 * (j + 1)) * (1 / (N : F) ^ 2) ^ (j + 1) * mid (hasseDeriv (2 * (j + 1)) p) a b N)
      (d / 2) ((q.eval b - q.eval a) + 0) := by
    apply (mid_even d p q hp hq a b).add
    apply EvenExp.sum
    intro j hj
    have hj := mem_range.1 hj
    obtain ⟨r, hr, _⟩ := exists_anti (hasseDeriv (2 * (j + 1)) p)
    have h2 := mid_even (d - 2 * (j + 1)) (hasseDeriv (2 * (j + 1)) p) r ((natDegree_hasse p _).trans (by omega)) hr a b
    exact (h2.shift _ (j + 1) (by omega)).mono (by omega)
  rw [add_zero] at key
  obtain ⟨c, c0, hc⟩ := key
  exact ⟨c, c0, fun N hN => by rw [h N]; exact hc N hN⟩

end Verif.Integ
