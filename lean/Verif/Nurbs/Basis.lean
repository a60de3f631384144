import Verif.Nurbs.Span
import Mathlib.Algebra.BigOperators.Group.Finset.Basic
import Mathlib.Algebra.BigOperators.Ring.Finset
import Mathlib.Algebra.Order.BigOperators.Group.Finset
import Mathlib.Tactic.FieldSimp
import Mathlib.Tactic.Ring
import Mathlib.Tactic.Linarith

/-! Cox-de Boor functions and `basis_funs`. -/

set_option linter.unusedSectionVars false

namespace Verif.Nurbs
open Finset
variable {K : Type} [Field K] [LinearOrder K]

/-- The Cox-de Boor recursion from given degree-0 values `e`. -/
def cox (e : Nat → K) (U : Nat → K) (x : K) : Nat → Nat → K
  | 0, l => e l
  | p + 1, l =>
    (x - U l) / (U (l + p + 1) - U l) * cox e U x p l +
    (U (l + p + 2) - x) / (U (l + p + 2) - U (l + 1)) * cox e U x p (l + 1)

/-- Degree-0 values concentrated on the span `i`. -/
def spike (i : Nat) : Nat → K := fun l => if l = i then 1 else 0

theorem cox_zero (e : Nat → K) (U : Nat → K) (x : K) : ∀ (p l : Nat), (∀ k, l ≤ k → k ≤ l + p → e k = 0) →
    cox e U x p l = 0 := by
  intro p
  induction p with
  | zero => intro l h; exact h l (le_refl _) (by omega)
  | succ p ih =>
    intro l h
    rw [cox, ih l (fun k h1 h2 => h k h1 (by omega)), ih (l + 1) (fun k h1 h2 => h k (by omega) (by omega))]
    simp

theorem cox_congr (e e' : Nat → K) (U U' : Nat → K) (x : K) : ∀ (p l : Nat), (∀ k, l ≤ k → k ≤ l + p → e k = e' k) →
    (∀ k, l ≤ k → k ≤ l + p + 1 → U k = U' k) → cox e U x p l = cox e' U' x p l := by
  intro p
  induction p with
  | zero => intro l h _; exact h l (le_refl _) (by omega)
  | succ p ih =>
    intro l h hU
    rw [cox, cox, ih l (fun k h1 h2 => h k h1 (by omega)) (fun k h1 h2 => hU k h1 (by omega)),
      ih (l + 1) (fun k h1 h2 => h k (by omega) (by omega)) (fun k h1 h2 => hU k (by omega) (by omega)),
      hU l (by omega) (by omega), hU (l + p + 1) (by omega) (by omega), hU (l + p + 2) (by omega) (by omega),
      hU (l + 1) (by omega) (by omega)]

theorem cox_spike_out (i : Nat) (U : Nat → K) (x : K) (p l : Nat) (h : i < l ∨ l + p < i) :
    cox (spike i) U x p l = 0 := by
  apply cox_zero
  intro k h1 h2
  simp only [spike]
  rw [if_neg (by omega)]

/-- One round of the code's loop computes the next column of the recursion. -/
theorem bfRound_spec (U : Nat → K) (i : Nat) (x : K) (N : Nat → K) (j : Nat) (hj : j + 1 ≤ i)
    (hN : ∀ q, q ≤ j → N q = cox (spike i) U x j (i - j + q)) :
    ∀ q, q ≤ j + 1 → bfRound U i x N (j + 1) q = cox (spike i) U x (j + 1) (i - (j + 1) + q) := by
  have key : ∀ r, r ≤ j + 1 →
      ((List.range r).foldl (bfStep U i x (j + 1)) (N, 0)).2 =
        (x - U (i - (j + 1) + r)) / (U (i - (j + 1) + r + j + 1) - U (i - (j + 1) + r)) *
          cox (spike i) U x j (i - (j + 1) + r) ∧
      (∀ q, q < r → ((List.range r).foldl (bfStep U i x (j + 1)) (N, 0)).1 q =
        cox (spike i) U x (j + 1) (i - (j + 1) + q)) ∧
      (∀ q, r ≤ q → ((List.range r).foldl (bfStep U i x (j + 1)) (N, 0)).1 q = N q) := by
    intro r
    induction r with
    | zero =>
      intro _
      refine ⟨?_, fun q h => absurd h (Nat.not_lt_zero _), fun q _ => rfl⟩
      rw [cox_spike_out i U x j _ (Or.inr (by omega))]
      simp
    | succ r ih =>
      intro hr
      obtain ⟨hs, hlo, hhi⟩ := ih (by omega)
      rw [List.range_succ, List.foldl_append]
      simp only [List.foldl_cons, List.foldl_nil, bfStep]
      have hNr : N r = cox (spike i) U x j (i - (j + 1) + (r + 1)) := by
        rw [hN r (by omega)]; congr 1; omega
      have hden : rightOf U i x (r + 1) + leftOf U i x (j + 1 - r) =
          U (i - (j + 1) + (r + 1) + j + 1) - U (i - (j + 1) + (r + 1)) := by
        simp only [rightOf, leftOf]
        rw [show i + (r + 1) = i - (j + 1) + (r + 1) + j + 1 by omega,
          show i + 1 - (j + 1 - r) = i - (j + 1) + (r + 1) by omega]
        ring
      rw [hhi r (le_refl _), hden]
      refine ⟨?_, ?_, ?_⟩
      · rw [hNr]
        simp only [leftOf]
        rw [show i + 1 - (j + 1 - r) = i - (j + 1) + (r + 1) by omega]
        ring
      · intro q hq
        by_cases hqr : q = r
        · subst hqr
          rw [Function.update_self, hs, hNr, cox]
          simp only [rightOf]
          rw [show i + (q + 1) = i - (j + 1) + q + j + 2 by omega,
            show i - (j + 1) + (q + 1) + j + 1 = i - (j + 1) + q + j + 2 by omega,
            show i - (j + 1) + (q + 1) = i - (j + 1) + q + 1 by omega]
          ring
        · rw [Function.update_of_ne hqr]
          exact hlo q (by omega)
      · intro q hq
        rw [Function.update_of_ne (by omega)]
        exact hhi q (by omega)
  intro q hq
  obtain ⟨hs, hlo, hhi⟩ := key (j + 1) (le_refl _)
  simp only [bfRound]
  by_cases hqj : q = j + 1
  · subst hqj
    rw [Function.update_self, hs, cox, cox_spike_out i U x j (i - (j + 1) + (j + 1) + 1) (Or.inl (by omega))]
    ring
  · rw [Function.update_of_ne hqj]
    exact hlo q (by omega)

theorem basisFuns_eq (i : Nat) (x : K) (U N0 : Nat → K) : ∀ (p : Nat), p ≤ i → ∀ r, r ≤ p →
    basisFuns i x p U N0 r = cox (spike i) U x p (i - p + r) := by
  intro p
  induction p with
  | zero =>
    intro _ r hr
    obtain rfl : r = 0 := by omega
    simp [basisFuns, cox, spike]
  | succ p ih =>
    intro hp
    have hstep : basisFuns i x (p + 1) U N0 = bfRound U i x (basisFuns i x p U N0) (p + 1) := by
      simp only [basisFuns, List.range_succ, List.foldl_append, List.foldl_cons, List.foldl_nil]
    rw [hstep]
    exact bfRound_spec U i x _ p hp (ih (by omega))

/-- Rows past the last one are left as they were. -/
theorem basisFuns_frame_step (U : Nat → K) (i : Nat) (x : K) (j : Nat) (s : (Nat → K) × K) (q r : Nat) (h : r ≤ q) :
    ((List.range r).foldl (bfStep U i x j) s).1 q = s.1 q := by
  induction r with
  | zero => rfl
  | succ r ih =>
    rw [List.range_succ, List.foldl_append]
    simp only [List.foldl_cons, List.foldl_nil, bfStep]
    rw [Function.update_of_ne (by omega)]
    exact ih (by omega)

section ordered
variable [IsStrictOrderedRing K]

/-- In the recursion over span `i` every divisor multiplying a possibly non-zero term is positive. -/
theorem den_pos (U : Nat → K) (m : Nat) (hU : MonoUpTo U m) (i : Nat) (hi : U i < U (i + 1)) (l q : Nat)
    (h1 : l ≤ i) (h2 : i < l + q) (h3 : l + q < m) : U l < U (l + q) :=
  lt_of_le_of_lt (hU l i h1 (by omega)) (lt_of_lt_of_le hi (hU (i + 1) (l + q) (by omega) h3))

theorem cox_nonneg (U : Nat → K) (m : Nat) (hU : MonoUpTo U m) (i : Nat) (hi : U i < U (i + 1)) (x : K)
    (h1 : U i ≤ x) (h2 : x ≤ U (i + 1)) : ∀ (p l : Nat), l + p + 1 < m → 0 ≤ cox (spike i) U x p l := by
  intro p
  induction p with
  | zero =>
    intro l _
    simp only [cox, spike]
    split
    · exact zero_le_one
    · exact le_refl _
  | succ p ih =>
    intro l hm
    rw [cox]
    have ha : 0 ≤ (x - U l) / (U (l + p + 1) - U l) * cox (spike i) U x p l := by
      by_cases hs : l ≤ i ∧ i ≤ l + p
      · refine mul_nonneg (div_nonneg ?_ ?_) (ih l (by omega))
        · linarith [hU l i hs.1 (by omega)]
        · linarith [hU l (l + p + 1) (by omega) (by omega)]
      · rw [cox_spike_out i U x p l (by omega)]; simp
    have hb : 0 ≤ (U (l + p + 2) - x) / (U (l + p + 2) - U (l + 1)) * cox (spike i) U x p (l + 1) := by
      by_cases hs : l + 1 ≤ i ∧ i ≤ l + 1 + p
      · refine mul_nonneg (div_nonneg ?_ ?_) (ih (l + 1) (by omega))
        · linarith [hU (i + 1) (l + p + 2) (by omega) (by omega)]
        · linarith [hU (l + 1) (l + p + 2) (by omega) (by omega)]
      · rw [cox_spike_out i U x p (l + 1) (by omega)]; simp
    exact add_nonneg ha hb

theorem cox_sum_one (U : Nat → K) (m : Nat) (hU : MonoUpTo U m) (i : Nat) (hi : U i < U (i + 1)) (x : K) :
    ∀ (p : Nat), p ≤ i → i + p < m → ∑ r ∈ range (p + 1), cox (spike i) U x p (i - p + r) = 1 := by
  intro p
  induction p with
  | zero => intro _ _; simp [cox, spike]
  | succ p ih =>
    intro hp hm
    have IH := ih (by omega) (by omega)
    have hA : ∑ r ∈ range (p + 2), (x - U (i - (p + 1) + r)) / (U (i - (p + 1) + r + p + 1) - U (i - (p + 1) + r)) *
        cox (spike i) U x p (i - (p + 1) + r) =
        ∑ r ∈ range (p + 1), (x - U (i - p + r)) / (U (i - p + r + p + 1) - U (i - p + r)) *
        cox (spike i) U x p (i - p + r) := by
      rw [sum_range_succ']
      rw [cox_spike_out i U x p (i - (p + 1) + 0) (by omega), mul_zero, add_zero]
      apply sum_congr rfl
      intro r _
      rw [show i - (p + 1) + (r + 1) = i - p + r by omega]
    have hB : ∑ r ∈ range (p + 2), (U (i - (p + 1) + r + p + 2) - x) /
        (U (i - (p + 1) + r + p + 2) - U (i - (p + 1) + r + 1)) * cox (spike i) U x p (i - (p + 1) + r + 1) =
        ∑ r ∈ range (p + 1), (U (i - p + r + p + 1) - x) / (U (i - p + r + p + 1) - U (i - p + r)) *
        cox (spike i) U x p (i - p + r) := by
      rw [sum_range_succ, cox_spike_out i U x p (i - (p + 1) + (p + 1) + 1) (by omega), mul_zero, add_zero]
      apply sum_congr rfl
      intro r _
      rw [show i - (p + 1) + r + 1 = i - p + r by omega, show i - (p + 1) + r + p + 2 = i - p + r + p + 1 by omega]
    calc ∑ r ∈ range (p + 2), cox (spike i) U x (p + 1) (i - (p + 1) + r)
        = ∑ r ∈ range (p + 1), ((x - U (i - p + r)) / (U (i - p + r + p + 1) - U (i - p + r)) *
            cox (spike i) U x p (i - p + r) +
          (U (i - p + r + p + 1) - x) / (U (i - p + r + p + 1) - U (i - p + r)) * cox (spike i) U x p (i - p + r)) := by
          simp only [cox]
          rw [sum_add_distrib, hA, hB, ← sum_add_distrib]
      _ = ∑ r ∈ range (p + 1), cox (spike i) U x p (i - p + r) := by
          apply sum_congr rfl
          intro r hr
          have hr := mem_range.mp hr
          have hd := den_pos U m hU i hi (i - p + r) (p + 1) (by omega) (by omega) (by omega)
          have hd' : U (i - p + r + p + 1) - U (i - p + r) ≠ 0 := by
            have : i - p + r + (p + 1) = i - p + r + p + 1 := by omega
            rw [this] at hd
            exact sub_ne_zero.mpr (ne_of_gt hd)
          field_simp
          ring
      _ = 1 := IH

end ordered
end Verif.Nurbs
