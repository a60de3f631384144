import Verif.Nurbs.Split
import Mathlib.Algebra.BigOperators.Intervals

/-! Lemmas for reversal: symmetry of the recursion, continuity at knots. -/

set_option linter.unusedSectionVars false

namespace Verif.Nurbs
open Finset
variable {K : Type} [Field K] [LinearOrder K]

theorem cox_reverse (U : Nat → K) (s : K) (M : Nat) (i : Nat) (hi : i + 1 ≤ M) (x : K) : ∀ (p l : Nat), l + p + 1 ≤ M →
    cox (spike i) U x p l = cox (spike (M - 1 - i)) (fun k => s - U (M - k)) (s - x) p (M - 1 - p - l) := by
  intro p
  induction p with
  | zero =>
    intro l hl
    simp only [cox, spike]
    by_cases h : l = i
    · rw [if_pos h, if_pos (by omega)]
    · rw [if_neg h, if_neg (by omega)]
  | succ p ih =>
    intro l hl
    rw [cox, cox, ih l (by omega), ih (l + 1) (by omega)]
    rw [show M - 1 - (p + 1) - l + p + 1 = M - 1 - l by omega, show M - 1 - (p + 1) - l + p + 2 = M - l by omega,
      show M - (M - 1 - (p + 1) - l) = l + p + 2 by omega, show M - (M - 1 - l) = l + 1 by omega,
      show M - (M - l) = l by omega, show M - (M - 1 - (p + 1) - l + 1) = l + p + 1 by omega,
      show M - 1 - (p + 1) - l + 1 = M - 1 - p - l by omega, show M - 1 - p - (l + 1) = M - 1 - (p + 1) - l by omega,
      add_comm]
    congr 1
    · congr 1
      rw [show s - x - (s - U (l + p + 2)) = U (l + p + 2) - x by ring,
        show s - U (l + 1) - (s - U (l + p + 2)) = U (l + p + 2) - U (l + 1) by ring]
    · congr 1
      rw [show s - U l - (s - x) = x - U l by ring, show s - U l - (s - U (l + p + 1)) = U (l + p + 1) - U l by ring]

theorem cox_from (e e' : Nat → K) (U : Nat → K) (x : K) (k : Nat) (h : ∀ l, cox e U x k l = cox e' U x k l) :
    ∀ (d l : Nat), cox e U x (k + d) l = cox e' U x (k + d) l := by
  intro d
  induction d with
  | zero => exact h
  | succ d ih => intro l; rw [← Nat.add_assoc, cox, cox, ih, ih]

/-- At a knot of multiplicity `k ≤ p` the spans on both sides give the same basis values. -/
theorem cox_continuous (U : Nat → K) (x : K) (a k p : Nat) (hk : k ≤ p) (h1 : U a ≠ x)
    (h2 : ∀ j, a < j → j ≤ a + k → U j = x) (h3 : U (a + k + 1) ≠ x) (l : Nat) :
    cox (spike a) U x p l = cox (spike (a + k)) U x p l := by
  obtain ⟨d, rfl⟩ : ∃ d, p = k + d := ⟨p - k, by omega⟩
  apply cox_from
  intro l
  rw [cox_left a U x h1 k h2, cox_right (a + k) U x h3 k (by omega) (fun j hj1 hj2 => h2 j (by omega) hj2)]
  congr 1
  exact propext ⟨fun h => by omega, fun h => by omega⟩

/-- No knot strictly inside the domain is repeated more than `degree` times, so that the curve is continuous. -/
def NoJump (c : Curve K) : Prop :=
  ∀ j, j + c.degree < c.m → c.U c.degree < c.U j → c.U j < c.U c.n → c.U j < c.U (j + c.degree)

theorem spline_congr_cox (U V : Nat → K) (p n : Nat) (P : Nat → K) (x y : K) (i j : Nat)
    (h : ∀ l, l < n → cox (spike i) U x p l = cox (spike j) V y p l) : spline U p n P x i = spline V p n P y j :=
  sum_congr rfl fun l hl => by rw [h l (mem_range.mp hl)]

section ordered
variable [IsStrictOrderedRing K]

/-- The first knot of the block of knots equal to `x` ends before `i`: largest index below `i` with a smaller knot. -/
theorem block_start (U : Nat → K) (m : Nat) (hU : MonoUpTo U m) (x : K) : ∀ (i : Nat), i < m → U i = x → U 0 < x →
    ∃ a k, 1 ≤ k ∧ i = a + k ∧ U a < x ∧ ∀ j, a < j → j ≤ a + k → U j = x := by
  intro i
  induction i with
  | zero => intro _ h1 h2; rw [h1] at h2; exact absurd h2 (lt_irrefl _)
  | succ i ih =>
    intro hi h1 h2
    rcases lt_or_eq_of_le (hU i (i + 1) (by omega) hi) with h | h
    · rw [h1] at h
      refine ⟨i, 1, le_refl _, rfl, h, fun j hj1 hj2 => ?_⟩
      obtain rfl : j = i + 1 := by omega
      exact h1
    · obtain ⟨a, k, hk, he, ha, hb⟩ := ih (by omega) (by rw [h, h1]) h2
      refine ⟨a, k + 1, by omega, by omega, ha, fun j hj1 hj2 => ?_⟩
      by_cases hj : j = i + 1
      · rw [hj]; exact h1
      · exact hb j hj1 (by omega)

/-- Reversal of one column. -/
theorem reverse_column (c : Curve K) (hc : Valid c) (hfirst : c.U c.degree < c.U (c.degree + 1)) (hj : NoJump c)
    (s : K) (x : K) (hx1 : c.U c.degree ≤ x) (hx2 : x ≤ c.U c.n) :
    ∃ i i', Sp c.U c.n x i ∧ Sp (fun k => s - c.U (c.m - 1 - k)) c.n (s - x) i' ∧ ∀ P : Nat → K,
      spline (fun k => s - c.U (c.m - 1 - k)) c.degree c.n (fun l => P (c.n - 1 - l)) (s - x) i' =
        spline c.U c.degree c.n P x i := by
  have hk := hc.knots
  have hnp := hc.npos
  obtain ⟨i, _, hpi, hsp⟩ := findSpan_sp c.n c.n c.degree x c.U hnp (le_refl _) c.m hc.mono (by omega) hc.last hx1 hx2
  have hspi := hsp
  obtain ⟨a1, a2, a3, a4⟩ := hsp
  -- the span on the left of x
  have hleft : ∃ a, c.degree ≤ a ∧ a < c.n ∧ (c.U a < x ∨ (a = c.degree ∧ x = c.U c.degree)) ∧ x ≤ c.U (a + 1) ∧
      c.U a < c.U (a + 1) ∧ ∀ l, cox (spike a) c.U x c.degree l = cox (spike i) c.U x c.degree l := by
    rcases lt_or_eq_of_le a3 with h | h
    · refine ⟨i, hpi, a1, Or.inl h, ?_, a2, fun _ => rfl⟩
      rcases a4 with h' | ⟨h1, h'⟩
      · exact le_of_lt h'
      · rw [h1, h']
    · rcases lt_or_eq_of_le hx1 with h0 | h0
      · have hU0 : c.U 0 < x := lt_of_le_of_lt (hc.mono 0 c.degree (by omega) (by omega)) h0
        obtain ⟨a, k, hk1, he, ha, hb⟩ := block_start c.U c.m hc.mono x i (by omega) h hU0
        have hxn : x < c.U c.n := by
          rcases a4 with h' | ⟨h1, h'⟩
          · exact lt_of_lt_of_le h' (hc.mono _ _ (by omega) (by omega))
          · rw [← h, show i = c.n - 1 by omega]; exact hc.last
        have hxi : x < c.U (i + 1) := by rw [← h]; exact a2
        have hkp : k ≤ c.degree := by
          by_contra hcon
          have e1 : c.U (a + 1) = x := hb _ (by omega) (by omega)
          have := hj (a + 1) (by omega) (by rw [e1]; exact h0) (by rw [e1]; exact hxn)
          rw [e1, hb (a + 1 + c.degree) (by omega) (by omega)] at this
          exact lt_irrefl _ this
        have hda : c.degree ≤ a := by
          by_contra hcon
          have : c.U (a + 1) ≤ c.U c.degree := hc.mono _ _ (by omega) (by omega)
          rw [hb (a + 1) (by omega) (by omega)] at this
          exact absurd h0 (not_lt.mpr this)
        have e1 : c.U (a + 1) = x := hb _ (by omega) (by omega)
        refine ⟨a, hda, by omega, Or.inl ha, by rw [e1], by rw [e1]; exact ha, fun l => ?_⟩
        rw [he]
        exact cox_continuous c.U x a k c.degree hkp (ne_of_lt ha) hb (by rw [← he]; exact ne_of_gt hxi) l
      · have hip : i = c.degree := by
          refine sp_unique c.U c.n c.m hc.mono (by omega) x i c.degree ⟨a1, a2, a3, a4⟩
            ⟨hnp, hfirst, hx1, Or.inl (by rw [← h0]; exact hfirst)⟩
        exact ⟨i, hpi, a1, Or.inr ⟨hip, by rw [h0]⟩, by rw [← h]; exact le_of_lt a2, a2, fun _ => rfl⟩
  obtain ⟨a, b1, b2, b3, b4, b5, b6⟩ := hleft
  refine ⟨i, c.m - 1 - 1 - a, hspi, ⟨by omega, ?_, ?_, ?_⟩, fun P => ?_⟩
  · show s - c.U (c.m - 1 - (c.m - 1 - 1 - a)) < s - c.U (c.m - 1 - (c.m - 1 - 1 - a + 1))
    rw [show c.m - 1 - (c.m - 1 - 1 - a) = a + 1 by omega, show c.m - 1 - (c.m - 1 - 1 - a + 1) = a by omega]
    linarith
  · show s - c.U (c.m - 1 - (c.m - 1 - 1 - a)) ≤ s - x
    rw [show c.m - 1 - (c.m - 1 - 1 - a) = a + 1 by omega]
    linarith
  · show s - x < s - c.U (c.m - 1 - (c.m - 1 - 1 - a + 1)) ∨ (_ ∧ s - x = s - c.U (c.m - 1 - c.n))
    rw [show c.m - 1 - (c.m - 1 - 1 - a + 1) = a by omega, show c.m - 1 - c.n = c.degree by omega]
    rcases b3 with h | ⟨h, h'⟩
    · exact Or.inl (by linarith)
    · exact Or.inr ⟨by omega, by rw [h']⟩
  · have e1 : spline c.U c.degree c.n P x i = spline c.U c.degree c.n P x a :=
      spline_congr_cox _ _ _ _ _ _ _ _ _ (fun l _ => (b6 l).symm)
    rw [e1, spline, spline, ← sum_range_reflect]
    apply sum_congr rfl
    intro l hl
    have hl' := mem_range.mp hl
    rw [cox_reverse c.U s (c.m - 1) a (by omega) x c.degree l (by omega), show c.n - 1 - (c.n - 1 - l) = l by omega,
      show c.m - 1 - 1 - c.degree - l = c.n - 1 - l by omega]

/-- A non-jumping curve has knots of multiplicity at most the degree inside the domain. -/
theorem mult_le_degree (c : Curve K) (hc : Valid c) (hj : NoJump c) (eps : K → K) (t : K) (hl : c.U c.degree < t)
    (hh : t < c.U c.n) (hsep : ∀ i, i < c.m → |t - c.U i| ≤ eps (c.U i) → c.U i = t) :
    findMultiplicity eps t c.U c.m ≤ c.degree := by
  have hk := hc.knots
  have hnp := hc.npos
  obtain ⟨span, _, a, ⟨b1, b2, b3, b4⟩⟩ := findSpan_sp c.n c.n c.degree t c.U hnp (le_refl _) c.m hc.mono (by omega) hc.last
    (le_of_lt hl) (le_of_lt hh)
  have b5 : t < c.U (span + 1) := by
    rcases b4 with h | ⟨_, h⟩
    · exact h
    · rw [h] at hh; exact absurd hh (lt_irrefl _)
  obtain ⟨h1, h2⟩ := mult_block eps t c.U c.m hc.mono span (by omega) b3 b5 hsep
  have hle : findMultiplicity eps t c.U c.m ≤ span := by
    rw [findMultiplicity_eq]
    have := countP_range_le (fun i => decide (|t - c.U i| ≤ eps (c.U i))) 0 span c.m (fun i hi hf => by
      have he := hsep i hi (by simpa using hf)
      refine ⟨?_, ?_⟩
      · by_contra hcon
        have h0 := hc.mono i c.degree (by omega) (by omega)
        rw [he] at h0
        exact absurd hl (not_lt.mpr h0)
      · by_contra hcon
        have h0 := hc.mono (span + 1) i (by omega) hi
        rw [he] at h0
        exact absurd b5 (not_lt.mpr h0))
    omega
  by_contra hcon
  have e1 := h2 (span - c.degree) (by omega) (by omega)
  have e2 := h2 span (by omega) (le_refl _)
  have := hj (span - c.degree) (by omega) (by rw [e1]; exact hl) (by rw [e1]; exact hh)
  rw [show span - c.degree + c.degree = span by omega, e1, e2] at this
  exact lt_irrefl _ this

end ordered
end Verif.Nurbs
