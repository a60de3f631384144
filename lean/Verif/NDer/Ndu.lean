import Verif.NDer.Pieces

/-! The triangular table of `all_basis_funs` and `ders_basis_funs`. -/

set_option linter.unusedSectionVars false

namespace Verif.NDer
open Finset Verif.Nurbs
variable {K : Type} [Field K] [LinearOrder K]

theorem upd_self (a : Nat → Nat → K) (r c : Nat) (v : K) : upd a r c v r c = v := by simp [upd]

theorem upd_ne (a : Nat → Nat → K) (r c : Nat) (v : K) (r' c' : Nat) (h : r' ≠ r ∨ c' ≠ c) :
    upd a r c v r' c' = a r' c' := by
  unfold upd
  by_cases hr : r' = r
  · subst hr
    rw [Function.update_self, Function.update_of_ne (h.resolve_left (fun h => h rfl))]
  · rw [Function.update_of_ne hr]

theorem abfStep_eq (U : Nat → K) (i : Nat) (u : K) (j : Nat) (s : (Nat → Nat → K) × K) (r : Nat) :
    abfStep U i u j s r =
      let N1 := upd s.1 j r (rightOf U i u (r + 1) + leftOf U i u (j - r))
      (upd N1 r j (s.2 + rightOf U i u (r + 1) * (N1 r (j - 1) / N1 j r)),
        leftOf U i u (j - r) * (N1 r (j - 1) / N1 j r)) := rfl

/-- One round fills row and column `j + 1` and changes nothing else. -/
theorem abfRound_spec (U : Nat → K) (i : Nat) (x : K) (N : Nat → Nat → K) (j : Nat) (hj : j + 1 ≤ i)
    (hN : ∀ q, q ≤ j → N q j = cox (spike i) U x j (i - j + q)) :
    (∀ q, q ≤ j + 1 → abfRound U i x N (j + 1) q (j + 1) = cox (spike i) U x (j + 1) (i - (j + 1) + q)) ∧
    (∀ q, q < j + 1 → abfRound U i x N (j + 1) (j + 1) q = U (i + q + 1) - U (i + 1 - (j + 1) + q)) ∧
    (∀ a b, a ≠ j + 1 → b ≠ j + 1 → abfRound U i x N (j + 1) a b = N a b) := by
  have key : ∀ r, r ≤ j + 1 →
      ((List.range r).foldl (abfStep U i x (j + 1)) (N, 0)).2 =
        (x - U (i - (j + 1) + r)) / (U (i - (j + 1) + r + j + 1) - U (i - (j + 1) + r)) *
          cox (spike i) U x j (i - (j + 1) + r) ∧
      (∀ q, q < r → ((List.range r).foldl (abfStep U i x (j + 1)) (N, 0)).1 q (j + 1) =
        cox (spike i) U x (j + 1) (i - (j + 1) + q)) ∧
      (∀ q, q < r → ((List.range r).foldl (abfStep U i x (j + 1)) (N, 0)).1 (j + 1) q =
        U (i + q + 1) - U (i + 1 - (j + 1) + q)) ∧
      (∀ a b, a ≠ j + 1 → b ≠ j + 1 → ((List.range r).foldl (abfStep U i x (j + 1)) (N, 0)).1 a b = N a b) := by
    intro r
    induction r with
    | zero =>
      intro _
      refine ⟨?_, fun q h => absurd h (Nat.not_lt_zero _), fun q h => absurd h (Nat.not_lt_zero _), fun _ _ _ _ => rfl⟩
      rw [cox_spike_out i U x j _ (Or.inr (by omega))]
      simp
    | succ r ih =>
      intro hr
      obtain ⟨hs, hcol, hrow, hfr⟩ := ih (by omega)
      rw [List.range_succ, List.foldl_append]
      simp only [List.foldl_cons, List.foldl_nil, abfStep_eq]
      generalize (List.range r).foldl (abfStep U i x (j + 1)) (N, 0) = S at *
      have hNr : N r j = cox (spike i) U x j (i - (j + 1) + (r + 1)) := by
        rw [hN r (by omega)]; congr 1; omega
      have hden : rightOf U i x (r + 1) + leftOf U i x (j + 1 - r) =
          U (i - (j + 1) + (r + 1) + j + 1) - U (i - (j + 1) + (r + 1)) := by
        simp only [rightOf, leftOf]
        rw [show i + (r + 1) = i - (j + 1) + (r + 1) + j + 1 by omega,
          show i + 1 - (j + 1 - r) = i - (j + 1) + (r + 1) by omega]
        ring
      rw [upd_self, upd_ne _ _ _ _ _ _ (.inl (by omega)), show j + 1 - 1 = j by omega,
        hfr r j (by omega) (by omega), hden, hNr]
      refine ⟨?_, ?_, ?_, ?_⟩
      · simp only [leftOf]
        rw [show i + 1 - (j + 1 - r) = i - (j + 1) + (r + 1) by omega]
        ring
      · intro q hq
        by_cases hqr : q = r
        · subst hqr
          rw [upd_self, hs, cox]
          simp only [rightOf]
          rw [show i + (q + 1) = i - (j + 1) + q + j + 2 by omega,
            show i - (j + 1) + (q + 1) + j + 1 = i - (j + 1) + q + j + 2 by omega,
            show i - (j + 1) + (q + 1) = i - (j + 1) + q + 1 by omega]
          ring
        · rw [upd_ne _ _ _ _ _ _ (.inl hqr), upd_ne _ _ _ _ _ _ (.inl (by omega))]
          exact hcol q (by omega)
      · intro q hq
        rw [upd_ne _ _ _ _ _ _ (.inl (by omega))]
        by_cases hqr : q = r
        · subst hqr
          rw [upd_self]
          congr 2 <;> omega
        · rw [upd_ne _ _ _ _ _ _ (.inr hqr)]
          exact hrow q (by omega)
      · intro a b ha hb
        rw [upd_ne _ _ _ _ _ _ (.inr hb), upd_ne _ _ _ _ _ _ (.inl ha)]
        exact hfr a b ha hb
  obtain ⟨hs, hcol, hrow, hfr⟩ := key (j + 1) (le_refl _)
  have e : abfRound U i x N (j + 1) = upd ((List.range (j + 1)).foldl (abfStep U i x (j + 1)) (N, 0)).1 (j + 1) (j + 1)
    ((List.range (j + 1)).foldl (abfStep U i x (j + 1)) (N, 0)).2 := rfl
  rw [e]
  refine ⟨fun q hq => ?_, fun q hq => ?_, fun a b ha hb => ?_⟩
  · by_cases hqj : q = j + 1
    · subst hqj
      rw [upd_self, hs, cox, cox_spike_out i U x j (i - (j + 1) + (j + 1) + 1) (Or.inl (by omega))]
      ring
    · rw [upd_ne _ _ _ _ _ _ (.inl hqj)]
      exact hcol q (by omega)
  · rw [upd_ne _ _ _ _ _ _ (.inr (by omega))]
    exact hrow q hq
  · rw [upd_ne _ _ _ _ _ _ (.inl ha)]
    exact hfr a b ha hb

/-- Column `j` holds the functions of degree `j`, row `j` the differences of knots. -/
theorem allBasisFuns_spec (i : Nat) (x : K) (U : Nat → K) : ∀ p, p ≤ i →
    (∀ j r, r ≤ j → j ≤ p → allBasisFuns i x p U r j = cox (spike i) U x j (i - j + r)) ∧
    (∀ j r, r < j → j ≤ p → allBasisFuns i x p U j r = U (i + r + 1) - U (i + 1 - j + r)) := by
  intro p
  induction p with
  | zero =>
    intro _
    constructor
    · intro j r h1 h2
      obtain rfl : j = 0 := by omega
      obtain rfl : r = 0 := by omega
      simp [allBasisFuns, cox, spike]
    · intro j r h1 h2; omega
  | succ p ih =>
    intro hp
    obtain ⟨ihc, ihr⟩ := ih (by omega)
    have hstep : allBasisFuns i x (p + 1) U = abfRound U i x (allBasisFuns i x p U) (p + 1) := by
      simp only [allBasisFuns, List.range_succ, List.foldl_append, List.foldl_cons, List.foldl_nil]
    obtain ⟨h1, h2, h3⟩ := abfRound_spec U i x (allBasisFuns i x p U) p hp (fun q hq => ihc p q hq (le_refl _))
    rw [hstep]
    constructor
    · intro j r hr hj
      by_cases hjp : j = p + 1
      · subst hjp; exact h1 r hr
      · rw [h3 r j (by omega) hjp]; exact ihc j r hr (by omega)
    · intro j r hr hj
      by_cases hjp : j = p + 1
      · subst hjp; exact h2 r hr
      · rw [h3 j r hjp (by omega)]; exact ihr j r hr (by omega)

end Verif.NDer
