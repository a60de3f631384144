import Verif.Spl.Props2

/-! # C386: extrapolation -/

set_option linter.unusedSectionVars false

namespace Verif.Spl
open Finset Polynomial Verif.Nurbs Verif.NDer

variable {K : Type} [Field K] [LinearOrder K] [IsStrictOrderedRing K]

theorem natDegree_coxP (i : Nat) (U : Nat → K) : ∀ (p l : Nat), (coxP i U p l).natDegree ≤ p := by
  intro p
  induction p with
  | zero =>
    intro l
    rw [coxP]
    split <;> simp
  | succ p ih =>
    intro l
    rw [coxP]
    refine natDegree_add_le_of_degree_le ?_ ?_
    · refine le_trans natDegree_mul_le ?_
      have h1 : (C (U (l + p + 1) - U l)⁻¹ * (X - C (U l)) : K[X]).natDegree ≤ 1 := by
        refine le_trans natDegree_mul_le ?_
        rw [natDegree_C, natDegree_X_sub_C]
      have := ih l
      omega
    · refine le_trans natDegree_mul_le ?_
      have h1 : (C (U (l + p + 2) - U (l + 1))⁻¹ * (C (U (l + p + 2)) - X) : K[X]).natDegree ≤ 1 := by
        refine le_trans natDegree_mul_le ?_
        rw [natDegree_C]
        have : (C (U (l + p + 2)) - X : K[X]).natDegree ≤ 1 := le_trans (natDegree_sub_le _ _) (by simp)
        omega
      have := ih (l + 1)
      omega

theorem natDegree_splineP (i : Nat) (U : Nat → K) (p : Nat) (P : Nat → K) : (splineP i U p P).natDegree ≤ p := by
  rw [splineP]
  refine natDegree_sum_le_of_forall_le _ _ ?_
  intro j _
  refine le_trans natDegree_mul_le ?_
  rw [natDegree_C, Nat.zero_add]
  exact natDegree_coxP i U p _

/-- **C386, after the end.** There are polynomials of at most the degree of the curve, one per coordinate and one for the weight, whose
quotient is the curve on its last span and everywhere after the end of the domain. -/
theorem C386_after (c : Curve K) (hc : Valid c) (hper : c.periodic = false) (fuel : Nat) (hf : c.n ≤ fuel) :
    ∃ (A : Nat → K[X]) (W : K[X]), (∀ col, (A col).natDegree ≤ c.degree) ∧ W.natDegree ≤ c.degree ∧
      ∀ t col, c.U (c.n - 1) ≤ t → c.evaluate fuel t col = some ((A col).eval t / W.eval t) := by
  have hn := hc.npos
  have hm := hc.knots
  refine ⟨fun col => splineP (c.n - 1) c.U c.degree (fun l => c.P l 3 * c.P l col), splineP (c.n - 1) c.U c.degree (fun l => c.P l 3),
    fun col => natDegree_splineP _ _ _ _, natDegree_splineP _ _ _ _, fun t col ht => ?_⟩
  have e : findSpan fuel (c.n - 1) c.degree t c.U c.periodic = some (c.n - 1) := by
    rw [hper]
    by_cases h : c.U c.n ≤ t
    · exact findSpan_end fuel (c.n - 1) c.degree t c.U (by rw [show c.n - 1 + 1 = c.n by omega]; exact h)
    · obtain ⟨i, e, a1, a2, a3, a4⟩ := findSpan_spec fuel (c.n - 1) c.degree t c.U (by omega) (by omega)
        (hc.mono 0 _ (by omega) (by omega)) (le_trans (hc.mono _ _ (by omega) (by omega)) ht)
        (by rw [show c.n - 1 + 1 = c.n by omega]; exact not_le.1 h)
      rw [e]
      congr 1
      by_contra hne
      have := hc.mono (i + 1) (c.n - 1) (by omega) (by omega)
      exact absurd (lt_of_lt_of_le a4 this) (not_lt.2 ht)
  rw [Curve.evaluate, curvePoint_eq fuel (c.n - 1) c.degree c.U c.P t c.periodic col _ e (by omega) (le_refl _),
    eval_splineP (c.n - 1) c.U c.degree (c.n - 1 + 1) _ t (by omega) (by omega),
    eval_splineP (c.n - 1) c.U c.degree (c.n - 1 + 1) _ t (by omega) (by omega)]

/-- **C386, before the start.** The same for the first span and everything before the domain, if the knots are clamped at the start
(with an empty first span the code divides 0 by 0, so that is excluded). -/
theorem C386_before (c : Curve K) (hc : Valid c) (hper : c.periodic = false) (hstart : c.U 0 = c.U c.degree)
    (_hfirst : c.U c.degree < c.U (c.degree + 1)) (fuel : Nat) (hf : c.n ≤ fuel) :
    ∃ (A : Nat → K[X]) (W : K[X]), (∀ col, (A col).natDegree ≤ c.degree) ∧ W.natDegree ≤ c.degree ∧
      ∀ t col, t < c.U (c.degree + 1) → c.evaluate fuel t col = some ((A col).eval t / W.eval t) := by
  have hn := hc.npos
  have hm := hc.knots
  refine ⟨fun col => splineP c.degree c.U c.degree (fun l => c.P l 3 * c.P l col), splineP c.degree c.U c.degree (fun l => c.P l 3),
    fun col => natDegree_splineP _ _ _ _, natDegree_splineP _ _ _ _, fun t col ht => ?_⟩
  have htn : t < c.U c.n := lt_of_lt_of_le ht (hc.mono _ _ (by omega) (by omega))
  have e : findSpan fuel (c.n - 1) c.degree t c.U c.periodic = some c.degree := by
    rw [hper]
    by_cases h : c.U c.degree ≤ t
    · obtain ⟨i, e, a1, a2, a3, a4⟩ := findSpan_spec fuel (c.n - 1) c.degree t c.U (by omega) (by omega)
        (hc.mono 0 _ (by omega) (by omega)) h (by rw [show c.n - 1 + 1 = c.n by omega]; exact htn)
      rw [e]
      congr 1
      by_contra hne
      have := hc.mono (c.degree + 1) i (by omega) (by omega)
      exact absurd (lt_of_lt_of_le ht this) (not_lt.2 a3)
    · simp only [findSpan, Bool.false_eq_true, if_false]
      rw [show c.n - 1 + 1 = c.n by omega, if_neg (not_le.2 htn), if_pos (by rw [hstart]; exact not_le.1 h)]
  rw [Curve.evaluate, curvePoint_eq fuel (c.n - 1) c.degree c.U c.P t c.periodic col _ e (le_refl _) (by omega),
    eval_splineP c.degree c.U c.degree (c.n - 1 + 1) _ t (le_refl _) (by omega),
    eval_splineP c.degree c.U c.degree (c.n - 1 + 1) _ t (le_refl _) (by omega)]

/-- The line `x = t` goes on as `x = t` on both sides. -/
example : ((lineW 0 1 1 1 : Curve ℚ).evaluate 9 (-2) 0, (lineW 0 1 1 1 : Curve ℚ).evaluate 9 5 0) = (some (-2), some 5) := by decide +kernel
example : exPoly.U 0 = exPoly.U exPoly.degree ∧ exPoly.U exPoly.degree < exPoly.U (exPoly.degree + 1) := by decide +kernel

end Verif.Spl
