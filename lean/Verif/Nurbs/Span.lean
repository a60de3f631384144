import Verif.Nurbs.Model
import Mathlib.Algebra.Order.Archimedean.Basic
import Mathlib.Tactic.Linarith
import Mathlib.Tactic.Ring

/-! Lemmas about `find_span`. -/

set_option linter.unusedSectionVars false

namespace Verif.Nurbs
variable {K : Type} [Field K] [LinearOrder K]

/-- Nondecreasing on the first `m` entries. -/
def MonoUpTo (U : Nat → K) (m : Nat) : Prop := ∀ a b, a ≤ b → b < m → U a ≤ U b

theorem spanLoop_spec (U : Nat → K) (u : K) : ∀ (fuel low high : Nat), low < high → high - low ≤ fuel →
    U low ≤ u → u < U high →
    ∃ i, spanLoop U u fuel low high = some i ∧ low ≤ i ∧ i < high ∧ U i ≤ u ∧ u < U (i + 1) := by
  intro fuel
  induction fuel with
  | zero => intro low high h1 h2; omega
  | succ f ih =>
    intro low high hlh hf hl hh
    have hm1 : low ≤ (low + high) / 2 := by omega
    have hm2 : (low + high) / 2 < high := by omega
    rw [spanLoop]
    by_cases h1 : u < U ((low + high) / 2)
    · rw [if_pos (Or.inl h1), if_pos h1]
      have hne : (low + high) / 2 ≠ low := by
        intro he; rw [he] at h1; exact absurd hl (not_le.mpr h1)
      obtain ⟨i, e, a, b, c, d⟩ := ih low ((low + high) / 2) (by omega) (by omega) hl h1
      exact ⟨i, e, a, by omega, c, d⟩
    · by_cases h2 : U ((low + high) / 2 + 1) ≤ u
      · rw [if_pos (Or.inr h2), if_neg h1]
        have hne : (low + high) / 2 + 1 ≠ high := by
          intro he; rw [he] at h2; exact absurd hh (not_lt.mpr h2)
        have hne2 : low ≠ (low + high) / 2 := by omega
        obtain ⟨i, e, a, b, c, d⟩ := ih ((low + high) / 2) high hm2 (by omega) (not_lt.mp h1) hh
        exact ⟨i, e, by omega, b, c, d⟩
      · rw [if_neg (by tauto)]
        exact ⟨_, rfl, hm1, hm2, not_lt.mp h1, not_le.mp h2⟩

/-- Below `U low` the loop never ends. -/
theorem spanLoop_hang (U : Nat → K) (u : K) : ∀ (fuel low high : Nat), low ≤ high →
    (∀ k, low ≤ k → k ≤ high → u < U k) → spanLoop U u fuel low high = none := by
  intro fuel
  induction fuel with
  | zero => intros; rfl
  | succ f ih =>
    intro low high hlh h
    have hm := h ((low + high) / 2) (by omega) (by omega)
    rw [spanLoop]
    rw [if_pos (Or.inl hm), if_pos hm]
    exact ih low _ (by omega) (fun k h1 h2 => h k h1 (by omega))

theorem findSpan_spec (fuel n p : Nat) (u : K) (U : Nat → K) (hp : p ≤ n) (hfuel : n + 1 - p ≤ fuel)
    (h0 : U 0 ≤ U p) (hl : U p ≤ u) (hh : u < U (n + 1)) :
    ∃ i, findSpan fuel n p u U false = some i ∧ p ≤ i ∧ i ≤ n ∧ U i ≤ u ∧ u < U (i + 1) := by
  obtain ⟨i, e, a, b, c, d⟩ := spanLoop_spec U u fuel p (n + 1) (by omega) hfuel hl hh
  refine ⟨i, ?_, a, by omega, c, d⟩
  simp only [findSpan, Bool.false_eq_true, if_false]
  rw [if_neg (not_le.mpr hh), if_neg (not_lt.mpr (le_trans h0 hl)), if_neg (ne_of_lt hh)]
  exact e

theorem findSpan_end (fuel n p : Nat) (u : K) (U : Nat → K) (hh : U (n + 1) ≤ u) :
    findSpan fuel n p u U false = some n := by
  simp only [findSpan, Bool.false_eq_true, if_false]
  rw [if_pos hh]

/-- The span of a parameter is unique. -/
theorem span_unique (U : Nat → K) (m : Nat) (hU : MonoUpTo U m) (u : K) (i j : Nat) (hi : i + 1 < m) (hj : j + 1 < m)
    (h1 : U i ≤ u) (h2 : u < U (i + 1)) (h3 : U j ≤ u) (h4 : u < U (j + 1)) : i = j := by
  rcases Nat.lt_trichotomy i j with h | h | h
  · exact absurd (lt_of_lt_of_le h2 (le_trans (hU (i + 1) j h (by omega)) h3)) (lt_irrefl _)
  · exact h
  · exact absurd (lt_of_lt_of_le h4 (le_trans (hU (j + 1) i h (by omega)) h1)) (lt_irrefl _)

theorem linear_spec (U : Nat → K) (num : Nat) (u : K) : ∀ (fuel span : Nat), 0 < span → span ≤ num → num ≤ span + fuel →
    U (span - 1) ≤ u →
    span - 1 ≤ findSpanLinearLoop U num u fuel span ∧ findSpanLinearLoop U num u fuel span < num ∧
    U (findSpanLinearLoop U num u fuel span) ≤ u ∧
    (u < U (findSpanLinearLoop U num u fuel span + 1) ∨ findSpanLinearLoop U num u fuel span + 1 = num) := by
  intro fuel
  induction fuel with
  | zero =>
    intro span h0 h1 h2 h3
    have : span = num := by omega
    rw [findSpanLinearLoop]
    exact ⟨le_refl _, by omega, h3, Or.inr (by omega)⟩
  | succ f ih =>
    intro span h0 h1 h2 h3
    rw [findSpanLinearLoop]
    by_cases hc : span < num ∧ U span ≤ u
    · rw [if_pos hc]
      obtain ⟨a, b, c, d⟩ := ih (span + 1) (by omega) (by omega) (by omega) (by simpa using hc.2)
      exact ⟨by omega, b, c, d⟩
    · rw [if_neg hc]
      refine ⟨le_refl _, by omega, h3, ?_⟩
      have hs : span - 1 + 1 = span := by omega
      rw [hs]
      by_cases h : span < num
      · left
        by_contra hcon
        exact hc ⟨h, not_lt.mp hcon⟩
      · right; omega

section arch
variable [IsStrictOrderedRing K]

theorem wrapUp_mono (umin period : K) : ∀ (f : Nat) (u v : K), wrapUp umin period f u = some v →
    ∀ g, f ≤ g → wrapUp umin period g u = some v := by
  intro f
  induction f with
  | zero =>
    intro u v h g _
    rw [wrapUp] at h
    split at h
    · cases h
    · rename_i hn
      cases g <;> rw [wrapUp, if_neg hn] <;> exact h
  | succ f ih =>
    intro u v h g hg
    obtain ⟨g, rfl⟩ : ∃ g', g = g' + 1 := ⟨g - 1, by omega⟩
    rw [wrapUp] at h ⊢
    split at h
    · rename_i hc; rw [if_pos hc]; exact ih _ _ h g (by omega)
    · rename_i hn; rw [if_neg hn]; exact h

theorem wrapDown_mono (umax period : K) : ∀ (f : Nat) (u v : K), wrapDown umax period f u = some v →
    ∀ g, f ≤ g → wrapDown umax period g u = some v := by
  intro f
  induction f with
  | zero =>
    intro u v h g _
    rw [wrapDown] at h
    split at h
    · cases h
    · rename_i hn
      cases g <;> rw [wrapDown, if_neg hn] <;> exact h
  | succ f ih =>
    intro u v h g hg
    obtain ⟨g, rfl⟩ : ∃ g', g = g' + 1 := ⟨g - 1, by omega⟩
    rw [wrapDown] at h ⊢
    split at h
    · rename_i hc; rw [if_pos hc]; exact ih _ _ h g (by omega)
    · rename_i hn; rw [if_neg hn]; exact h

/-- The upward wrap ends in `[umin, max u (umin + period))`. -/
theorem wrapUp_spec (umin period : K) : ∀ (f : Nat) (u : K), umin ≤ u + f * period →
    ∃ v, ∃ k : Nat, wrapUp umin period f u = some v ∧ v = u + k * period ∧ umin ≤ v ∧ (v = u ∨ v < umin + period) := by
  intro f
  induction f with
  | zero =>
    intro u h
    refine ⟨u, 0, ?_, by simp, by simpa using h, Or.inl rfl⟩
    rw [wrapUp, if_neg (not_lt.mpr (by simpa using h))]
  | succ f ih =>
    intro u h
    rw [wrapUp]
    by_cases hc : u < umin
    · rw [if_pos hc]
      obtain ⟨v, k, e, hv, h1, h2⟩ := ih (u + period) (by push_cast at h; linarith)
      refine ⟨v, k + 1, e, by rw [hv]; push_cast; ring, h1, Or.inr ?_⟩
      rcases h2 with h2 | h2
      · rw [h2]; linarith
      · exact h2
    · rw [if_neg hc]
      exact ⟨u, 0, rfl, by simp, not_lt.mp hc, Or.inl rfl⟩

theorem wrapDown_spec (umax period : K) : ∀ (f : Nat) (u : K), u ≤ umax + f * period →
    ∃ v, ∃ k : Nat, wrapDown umax period f u = some v ∧ v = u - k * period ∧ v ≤ umax ∧
      (v = u ∨ umax - period < v) := by
  intro f
  induction f with
  | zero =>
    intro u h
    refine ⟨u, 0, ?_, by simp, by simpa using h, Or.inl rfl⟩
    rw [wrapDown, if_neg (not_lt.mpr (by simpa using h))]
  | succ f ih =>
    intro u h
    rw [wrapDown]
    by_cases hc : umax < u
    · rw [if_pos hc]
      obtain ⟨v, k, e, hv, h1, h2⟩ := ih (u - period) (by push_cast at h; linarith)
      refine ⟨v, k + 1, e, by rw [hv]; push_cast; ring, h1, Or.inr ?_⟩
      rcases h2 with h2 | h2
      · rw [h2]; linarith
      · exact h2
    · rw [if_neg hc]
      exact ⟨u, 0, rfl, by simp, not_lt.mp hc, Or.inl rfl⟩

/-- Periodic lookup: some multiple of the period brings `u` into the domain, and its span is returned. -/
theorem findSpan_periodic [Archimedean K] (n p : Nat) (u : K) (U : Nat → K) (hp : p ≤ n) (hlt : U p < U (n + 1)) :
    ∃ F, ∀ fuel, F ≤ fuel → ∃ i, ∃ k : Int, ∃ v, findSpan fuel n p u U true = some i ∧ v = u + k * (U (n + 1) - U p) ∧
      U p ≤ v ∧ v ≤ U (n + 1) ∧ ((v = U (n + 1) ∧ i = n) ∨ (p ≤ i ∧ i ≤ n ∧ U i ≤ v ∧ v < U (i + 1))) := by
  have hper : 0 < U (n + 1) - U p := by linarith
  obtain ⟨f1, hf1⟩ := Archimedean.arch (U p - u) hper
  rw [nsmul_eq_mul] at hf1
  obtain ⟨v1, k1, e1, hv1, hlo1, hup1⟩ := wrapUp_spec (U p) (U (n + 1) - U p) f1 u (by linarith)
  obtain ⟨f2, hf2⟩ := Archimedean.arch (v1 - U (n + 1)) hper
  rw [nsmul_eq_mul] at hf2
  obtain ⟨v2, k2, e2, hv2, hlo2, hup2⟩ := wrapDown_spec (U (n + 1)) (U (n + 1) - U p) f2 v1 (by linarith)
  have hv2lo : U p ≤ v2 := by
    rcases hup2 with h | h
    · rw [h]; exact hlo1
    · linarith
  refine ⟨f1 + f2 + (n + 1), fun fuel hF => ?_⟩
  have w1 := wrapUp_mono _ _ _ _ _ e1 fuel (by omega)
  have w2 := wrapDown_mono _ _ _ _ _ e2 fuel (by omega)
  have hk : v2 = u + ((k1 : Int) - (k2 : Int) : Int) * (U (n + 1) - U p) := by
    rw [hv2, hv1]; push_cast; ring
  by_cases hend : v2 = U (n + 1)
  · refine ⟨n, (k1 : Int) - (k2 : Int), v2, ?_, hk, hv2lo, hlo2, Or.inl ⟨hend, rfl⟩⟩
    simp only [findSpan, if_true, w1, w2, if_pos hend]
  · obtain ⟨i, e, a, b, c, d⟩ := spanLoop_spec U v2 fuel p (n + 1) (by omega) (by omega) hv2lo (lt_of_le_of_ne hlo2 hend)
    refine ⟨i, (k1 : Int) - (k2 : Int), v2, ?_, hk, hv2lo, hlo2, Or.inr ⟨a, by omega, c, d⟩⟩
    simp only [findSpan, if_true, w1, w2, if_neg hend]
    exact e

end arch
end Verif.Nurbs
