import Verif.NDer.Props

/-! # Neighbouring pieces of a spline -/

set_option linter.unusedSectionVars false

namespace Verif.Spl
open Finset Polynomial Verif.Nurbs Verif.NDer

variable {K : Type} [Field K] [LinearOrder K]

/-- At the left end of the span `i`, where `q` knots coincide, one function of degree `q` is one and all others are zero. -/
theorem cox_left (U : Nat → K) (i : Nat) (x : K) (h1 : U (i + 1) ≠ x) : ∀ q, q ≤ i → (∀ k, i < k + q → k ≤ i → U k = x) →
    ∀ l, cox (spike i) U x q l = spike (i - q) l := by
  intro q
  induction q with
  | zero => intro _ _ l; rfl
  | succ q ih =>
    intro hq h l
    rw [cox, ih (by omega) (fun k a b => h k (by omega) b) l, ih (by omega) (fun k a b => h k (by omega) b) (l + 1)]
    simp only [spike]
    by_cases e1 : l = i - q
    · rw [if_pos e1, if_neg (by omega), if_neg (by omega), h l (by omega) (by omega)]
      simp
    · rw [if_neg e1]
      by_cases e2 : l + 1 = i - q
      · rw [if_pos e2, if_pos (by omega), show l + q + 2 = i + 1 by omega, h (l + 1) (by omega) (by omega), div_self (sub_ne_zero.2 h1)]
        ring
      · rw [if_neg e2, if_neg (by omega)]
        simp

/-- The same at the right end. -/
theorem cox_right (U : Nat → K) (i : Nat) (x : K) (h1 : U i ≠ x) : ∀ q, (∀ k, i < k → k ≤ i + q → U k = x) →
    ∀ l, cox (spike i) U x q l = spike i l := by
  intro q
  induction q with
  | zero => intro _ l; rfl
  | succ q ih =>
    intro h l
    rw [cox, ih (fun k a b => h k a (by omega)) l, ih (fun k a b => h k a (by omega)) (l + 1)]
    simp only [spike]
    by_cases e1 : l = i
    · rw [if_pos e1, if_neg (by omega), e1, h (i + q + 1) (by omega) (by omega), div_self (sub_ne_zero.2 (Ne.symm h1))]
      simp
    · rw [if_neg e1]
      by_cases e2 : l + 1 = i
      · rw [if_pos e2, show l + q + 2 = i + (q + 1) by omega, h (i + (q + 1)) (by omega) (by omega)]
        simp
      · rw [if_neg e2]
        simp

/-- The functions of degree `p` of the spans on both sides of a knot of multiplicity at most `p` agree there. -/
theorem cox_join (U : Nat → K) (j i : Nat) (x : K) (hji : j ≤ i) (hj : U j ≠ x) (hi : U (i + 1) ≠ x) (h : ∀ k, j < k → k ≤ i → U k = x)
    (p : Nat) (hp : i ≤ j + p) : ∀ l, cox (spike j) U x p l = cox (spike i) U x p l := by
  obtain ⟨d, rfl⟩ : ∃ d, p = (i - j) + d := ⟨p - (i - j), by omega⟩
  clear hp
  induction d with
  | zero =>
    intro l
    rw [Nat.add_zero, cox_right U j x hj (i - j) (fun k a b => h k a (by omega)) l, cox_left U i x hi (i - j) (by omega) (fun k a b => h k (by omega) b) l,
      show i - (i - j) = j by omega]
  | succ d ih =>
    intro l
    rw [← Nat.add_assoc, cox, cox, ih, ih]

theorem cptD_shift (p : Nat) (U P : Nat → K) (r1 : Nat) : ∀ k j, cptD p U P r1 k j = cptD p U P 0 k (r1 + j) := by
  intro k
  induction k with
  | zero => intro j; simp [cptD]
  | succ k ih =>
    intro j
    rw [cptD, cptD, ih, ih]
    simp only [Nat.zero_add, Nat.add_assoc]

section ordered
variable [IsStrictOrderedRing K]

/-- The derivatives of a piece as a spline of lower degree. -/
theorem piece_eq (U : Nat → K) (m : Nat) (hU : MonoUpTo U m) (i : Nat) (hi : U i < U (i + 1)) (p n : Nat) (hp : p ≤ i) (hm : i + p + 1 < m) (hn : i < n)
    (P : Nat → K) (k : Nat) (hk : k ≤ p) (x : K) :
    (Polynomial.derivative^[k] (splineP i U p P)).eval x = spline U (p - k) n (fun l => cptD p U P 0 k (l - k)) x i := by
  rw [iterate_splineP U m hU i hi p hp hm P k hk, eval_finsetSum, spline_window U (p - k) n _ x i (by omega) hn]
  apply sum_congr rfl
  intro j hj
  have := mem_range.1 hj
  rw [eval_mul, eval_C, eval_coxP, cptD_shift, show i - (p - k) + j - k = i - p + j by omega]

/-- Derivatives of order `k` of neighbouring pieces agree at a knot of multiplicity at most `p - k`. -/
theorem piece_join (U : Nat → K) (m : Nat) (hU : MonoUpTo U m) (j i : Nat) (hji : j ≤ i) (hj : U j < U (j + 1)) (hi : U i < U (i + 1)) (p : Nat)
    (hp : p ≤ j) (hm : i + p + 1 < m) (P : Nat → K) (k : Nat) (x : K) (hjx : U j ≠ x) (hix : U (i + 1) ≠ x)
    (h : ∀ l, j < l → l ≤ i → U l = x) (hk : i + k ≤ j + p) :
    (Polynomial.derivative^[k] (splineP j U p P)).eval x = (Polynomial.derivative^[k] (splineP i U p P)).eval x := by
  rw [piece_eq U m hU j hj p (i + 1) hp (by omega) (by omega) P k (by omega), piece_eq U m hU i hi p (i + 1) (by omega) hm (by omega) P k (by omega)]
  unfold spline
  apply sum_congr rfl
  intro l _
  rw [cox_join U j i x hji hjx hix h (p - k) (by omega)]

/-- The span before a parameter. -/
theorem prev_span (U : Nat → K) (m n p : Nat) (hU : MonoUpTo U m) (hn : n < m) (x : K) (i : Nat) (hi : Sp U n x i) (hp : p ≤ i) (hx : U p < x) :
    ∃ j, p ≤ j ∧ j ≤ i ∧ U j < x ∧ U j < U (j + 1) ∧ (∀ k, j < k → k ≤ i → U k = x) ∧ ∀ y, U j ≤ y → y < x → Sp U n y j := by
  obtain ⟨h1, h2, h3, h4⟩ := hi
  have ex : ∃ j, j ≤ i ∧ p ≤ j ∧ U j < x ∧ ∀ k, j < k → k ≤ i → ¬U k < x := by
    have : ∀ d, d ≤ i - p → (∃ j, j ≤ p + d ∧ p ≤ j ∧ U j < x ∧ ∀ k, j < k → k ≤ p + d → ¬U k < x) := by
      intro d
      induction d with
      | zero => intro _; exact ⟨p, le_refl _, le_refl _, hx, fun k a b => by omega⟩
      | succ d ih =>
        intro hd
        by_cases hc : U (p + (d + 1)) < x
        · exact ⟨p + (d + 1), le_refl _, by omega, hc, fun k a b => by omega⟩
        · obtain ⟨j, a, b, c, e⟩ := ih (by omega)
          refine ⟨j, by omega, b, c, fun k f g => ?_⟩
          by_cases hk : k = p + (d + 1)
          · rw [hk]; exact hc
          · exact e k f (by omega)
    obtain ⟨j, a, b, c, e⟩ := this (i - p) (le_refl _)
    rw [show p + (i - p) = i by omega] at a e
    exact ⟨j, a, b, c, e⟩
  obtain ⟨j, hji, hpj, hjx, hjk⟩ := ex
  have hall : ∀ k, j < k → k ≤ i → U k = x := fun k a b =>
    le_antisymm (le_trans (hU k i b (by omega)) h3) (not_lt.1 (hjk k a b))
  have hnext : x ≤ U (j + 1) := by
    by_cases e : j = i
    · rw [e]
      rcases h4 with h4 | ⟨h4, h5⟩
      · exact h4.le
      · rw [h4, h5]
    · exact (hall (j + 1) (by omega) (by omega)).ge
  exact ⟨j, hpj, hji, hjx, lt_of_lt_of_le hjx hnext, hall, fun y a b => ⟨by omega, lt_of_lt_of_le hjx hnext, a, Or.inl (lt_of_lt_of_le b hnext)⟩⟩

end ordered
end Verif.Spl
