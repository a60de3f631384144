import Verif.NSDer.Rat
import Mathlib.Analysis.Calculus.Deriv.Polynomial
import Mathlib.Analysis.Calculus.Deriv.Inv
import Mathlib.Analysis.Calculus.Deriv.Mul
import Mathlib.Analysis.Calculus.Deriv.Add

/-! # Derivatives of the solution of Leibniz' rule -/

set_option linter.unusedSectionVars false

namespace Verif.NSDer
open Finset Verif.NDer Filter Topology

theorem leib_congr {K : Type} [Field K] [LinearOrder K] (W R R' : Nat → Nat → K) (k l : Nat)
    (h : ∀ i j, i ≤ k → j ≤ l → R i j = R' i j) : leib W R k l = leib W R' k l := by
  rw [leib, leib]
  refine sum_congr rfl fun i _ => sum_congr rfl fun j _ => ?_
  rw [h _ _ (by omega) (by omega)]

theorem leib_first {K : Type} [Field K] [LinearOrder K] (W R : Nat → Nat → K) (k l : Nat) :
    leib W R k l = W 0 0 * R k l + leib W (upd R k l 0) k l := by
  have e : ∀ R : Nat → Nat → K, leib W R k l = (∑ i ∈ range k, ∑ j ∈ range (l + 1), (k.choose (i + 1) : K) * (l.choose j : K) *
      W (i + 1) j * R (k - (i + 1)) (l - j)) + ((∑ j ∈ range l, (l.choose (j + 1) : K) * W 0 (j + 1) * R k (l - (j + 1))) +
        W 0 0 * R k l) := by
    intro R
    rw [leib, sum_range_succ', sum_range_succ']
    simp
  rw [e R, e (upd R k l 0), upd_self]
  have e1 : ∑ i ∈ range k, ∑ j ∈ range (l + 1), (k.choose (i + 1) : K) * (l.choose j : K) *
      W (i + 1) j * (upd R k l 0) (k - (i + 1)) (l - j) = ∑ i ∈ range k, ∑ j ∈ range (l + 1), (k.choose (i + 1) : K) *
      (l.choose j : K) * W (i + 1) j * R (k - (i + 1)) (l - j) := by
    refine sum_congr rfl fun i hi => sum_congr rfl fun j _ => ?_
    have := mem_range.1 hi
    rw [upd_ne _ _ _ _ _ _ (by omega)]
  have e2 : ∑ j ∈ range l, (l.choose (j + 1) : K) * W 0 (j + 1) * (upd R k l 0) k (l - (j + 1)) =
      ∑ j ∈ range l, (l.choose (j + 1) : K) * W 0 (j + 1) * R k (l - (j + 1)) := by
    refine sum_congr rfl fun j hj => ?_
    have := mem_range.1 hj
    rw [upd_ne _ _ _ _ _ _ (by omega)]
  rw [e1, e2]
  ring

theorem leib_deriv (s : Set ℝ) (x : ℝ) (W R : ℝ → Nat → Nat → ℝ) (W' R' : Nat → Nat → ℝ) (k l : Nat)
    (hW : ∀ i j, i ≤ k → j ≤ l → HasDerivWithinAt (fun t => W t i j) (W' i j) s x)
    (hR : ∀ i j, i ≤ k → j ≤ l → HasDerivWithinAt (fun t => R t i j) (R' i j) s x) :
    HasDerivWithinAt (fun t => leib (W t) (R t) k l) (leib W' (R x) k l + leib (W x) R' k l) s x := by
  have : leib W' (R x) k l + leib (W x) R' k l = ∑ i ∈ range (k + 1), ∑ j ∈ range (l + 1),
      (((k.choose i : ℝ) * (l.choose j : ℝ) * W' i j) * R x (k - i) (l - j) +
        ((k.choose i : ℝ) * (l.choose j : ℝ) * W x i j) * R' (k - i) (l - j)) := by
    simp only [leib, sum_add_distrib]
  rw [this]
  simp only [leib]
  refine HasDerivWithinAt.fun_sum fun i hi => HasDerivWithinAt.fun_sum fun j hj => ?_
  have h1 := mem_range.1 hi
  have h2 := mem_range.1 hj
  exact ((hW i j (by omega) (by omega)).const_mul _).mul (hR _ _ (by omega) (by omega))

/-- The quotient rule for all mixed derivatives, first direction. -/
theorem quotient_left (s : Set ℝ) (x : ℝ) (hs : UniqueDiffWithinAt ℝ s x) (hx : x ∈ s) (A W R : ℝ → Nat → Nat → ℝ) (m n : Nat)
    (hL : ∀ᶠ t in 𝓝[s] x, W t 0 0 ≠ 0 ∧ ∀ k l, k ≤ m → l ≤ n → A t k l = leib (W t) (R t) k l)
    (dA : ∀ k l, k < m → l ≤ n → HasDerivWithinAt (fun t => A t k l) (A x (k + 1) l) s x)
    (dW : ∀ k l, k < m → l ≤ n → HasDerivWithinAt (fun t => W t k l) (W x (k + 1) l) s x) :
    ∀ k l, k < m → l ≤ n → HasDerivWithinAt (fun t => R t k l) (R x (k + 1) l) s x := by
  obtain ⟨hW0, hLx⟩ := hL.self_of_nhdsWithin hx
  suffices H : ∀ N k l, k + l = N → k < m → l ≤ n → HasDerivWithinAt (fun t => R t k l) (R x (k + 1) l) s x from
    fun k l => H _ k l rfl
  intro N
  induction N using Nat.strong_induction_on with
  | _ N ih =>
    intro k l hN hk hl
    have dU : ∀ i j, i ≤ k → j ≤ l → HasDerivWithinAt (fun t => upd (R t) k l 0 i j)
        (upd (fun i j => R x (i + 1) j) k l 0 i j) s x := by
      intro i j hi hj
      by_cases hij : i = k ∧ j = l
      · obtain ⟨rfl, rfl⟩ := hij
        simp only [upd_self]
        exact hasDerivWithinAt_const _ _ _
      · have e : ∀ Q : Nat → Nat → ℝ, upd Q k l 0 i j = Q i j := fun Q => upd_ne _ _ _ _ _ _ (by omega)
        simp only [e]
        exact ih (i + j) (by omega) i j rfl (by omega) (by omega)
    have dl := leib_deriv s x W (fun t => upd (R t) k l 0) (fun i j => W x (i + 1) j) _ k l
      (fun i j hi hj => dW i j (by omega) (by omega)) dU
    have d0 := ((dA k l hk hl).sub dl).div (dW 0 0 (by omega) (by omega)) hW0
    have d1 : ∃ D, HasDerivWithinAt (fun t => R t k l) D s x := by
      refine ⟨_, d0.congr_of_eventuallyEq ?_ ?_⟩
      · filter_upwards [hL] with t ht
        have := ht.2 k l hk.le hl
        rw [leib_first] at this
        show R t k l = (A t k l - leib (W t) (upd (R t) k l 0) k l) / W t 0 0
        rw [this, add_sub_cancel_right, mul_div_cancel_left₀ _ ht.1]
      · have := hLx k l hk.le hl
        rw [leib_first] at this
        show R x k l = (A x k l - leib (W x) (upd (R x) k l 0) k l) / W x 0 0
        rw [this, add_sub_cancel_right, mul_div_cancel_left₀ _ hW0]
    obtain ⟨D, d1⟩ := d1
    have dR : ∀ i j, i ≤ k → j ≤ l → HasDerivWithinAt (fun t => R t i j)
        (upd (fun i j => R x (i + 1) j) k l D i j) s x := by
      intro i j hi hj
      by_cases hij : i = k ∧ j = l
      · obtain ⟨rfl, rfl⟩ := hij
        rw [upd_self]
        exact d1
      · rw [upd_ne _ _ _ _ _ _ (by omega)]
        exact ih (i + j) (by omega) i j rfl (by omega) (by omega)
    have d2 := leib_deriv s x W R (fun i j => W x (i + 1) j) _ k l (fun i j hi hj => dW i j (by omega) (by omega)) dR
    have d3 : HasDerivWithinAt (fun t => A t k l) _ s x := d2.congr_of_eventuallyEq
      (by filter_upwards [hL] with t ht; exact ht.2 k l hk.le hl) (hLx k l hk.le hl)
    have e1 := hs.eq_deriv _ (dA k l hk hl) d3
    rw [hLx (k + 1) l hk hl, leib_succ_left] at e1
    have e2 := add_left_cancel e1
    have e3 := leib_unique (W x) (fun i j => R x (i + 1) j) (upd (fun i j => R x (i + 1) j) k l D) hW0 k l (by
      intro k' l' hk' hl'
      by_cases hij : k' = k ∧ l' = l
      · obtain ⟨rfl, rfl⟩ := hij; exact e2
      · refine leib_congr _ _ _ _ _ fun i j hi hj => ?_
        rw [upd_ne _ _ _ _ _ _ (by omega)]) k l (le_refl _) (le_refl _)
    rw [upd_self] at e3
    rw [e3]
    exact d1

/-- Second direction. -/
theorem quotient_right (s : Set ℝ) (x : ℝ) (hs : UniqueDiffWithinAt ℝ s x) (hx : x ∈ s) (A W R : ℝ → Nat → Nat → ℝ) (m n : Nat)
    (hL : ∀ᶠ t in 𝓝[s] x, W t 0 0 ≠ 0 ∧ ∀ k l, k ≤ m → l ≤ n → A t k l = leib (W t) (R t) k l)
    (dA : ∀ k l, k ≤ m → l < n → HasDerivWithinAt (fun t => A t k l) (A x k (l + 1)) s x)
    (dW : ∀ k l, k ≤ m → l < n → HasDerivWithinAt (fun t => W t k l) (W x k (l + 1)) s x) :
    ∀ k l, k ≤ m → l < n → HasDerivWithinAt (fun t => R t k l) (R x k (l + 1)) s x := by
  intro k l hk hl
  refine quotient_left s x hs hx (fun t i j => A t j i) (fun t i j => W t j i) (fun t i j => R t j i) n m ?_
    (fun k l hk hl => dA l k hl hk) (fun k l hk hl => dW l k hl hk) l k hl hk
  filter_upwards [hL] with t ht
  exact ⟨ht.1, fun k l hk hl => by rw [ht.2 l k hl hk, leib_swap]⟩

end Verif.NSDer
