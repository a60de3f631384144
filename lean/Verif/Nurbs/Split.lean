import Verif.Nurbs.Props

/-! Lemmas for splitting: knot vectors with a knot of full multiplicity. -/

set_option linter.unusedSectionVars false

namespace Verif.Nurbs
open Finset
variable {K : Type} [Field K] [LinearOrder K]

/-- With the spike at `i`, the function `l = i` does not see the last knot of its support. -/
theorem cox_congr_last (i : Nat) (U V : Nat → K) (x : K) : ∀ (p l : Nat), i ≤ l → (∀ k, l ≤ k → k ≤ l + p → U k = V k) →
    cox (spike i) U x p l = cox (spike i) V x p l := by
  intro p
  induction p with
  | zero => intro l _ _; rfl
  | succ p ih =>
    intro l hl h
    rw [cox, cox, ih l hl (fun k h1 h2 => h k h1 (by omega)), cox_spike_out i U x p (l + 1) (Or.inl (by omega)),
      cox_spike_out i V x p (l + 1) (Or.inl (by omega)), h l (by omega) (by omega), h (l + p + 1) (by omega) (by omega)]
    simp

/-- With the spike at `l + p`, the function `l` does not see the first knot of its support. -/
theorem cox_congr_first (i : Nat) (U V : Nat → K) (x : K) : ∀ (p l : Nat), l + p ≤ i →
    (∀ k, l < k → k ≤ l + p + 1 → U k = V k) → cox (spike i) U x p l = cox (spike i) V x p l := by
  intro p
  induction p with
  | zero => intro l _ _; rfl
  | succ p ih =>
    intro l hl h
    rw [cox, cox, ih (l + 1) (by omega) (fun k h1 h2 => h k (by omega) (by omega)),
      cox_spike_out i U x p l (Or.inr (by omega)), cox_spike_out i V x p l (Or.inr (by omega)),
      h (l + 1) (by omega) (by omega), h (l + p + 2) (by omega) (by omega)]
    simp

theorem cox_shift (i d : Nat) (U : Nat → K) (x : K) : ∀ (p l : Nat),
    cox (spike (i + d)) U x p (l + d) = cox (spike i) (fun k => U (k + d)) x p l := by
  intro p
  induction p with
  | zero => intro l; simp [cox, spike]
  | succ p ih =>
    intro l
    rw [cox, cox, ← ih l, ← ih (l + 1), show l + d + p + 1 = l + p + 1 + d by omega,
      show l + d + p + 2 = l + p + 2 + d by omega, show l + d + 1 = l + 1 + d by omega]

/-- At a knot repeated `p` times, seen from the right. -/
theorem cox_right (j : Nat) (U : Nat → K) (x : K) (hj : U (j + 1) ≠ x) : ∀ (p : Nat), p ≤ j →
    (∀ k, j - p < k → k ≤ j → U k = x) → ∀ l, cox (spike j) U x p l = if l = j - p then 1 else 0 := by
  intro p
  induction p with
  | zero => intro _ _ l; rfl
  | succ p ih =>
    intro hp h l
    have h1 := ih (by omega) (fun k h1 h2 => h k (by omega) h2)
    rw [cox, h1 l, h1 (l + 1)]
    by_cases c1 : l = j - p
    · rw [if_pos c1, if_neg (by omega), if_neg (by omega), h l (by omega) (by omega)]
      simp
    · rw [if_neg c1]
      by_cases c2 : l = j - (p + 1)
      · rw [if_pos (by omega), if_pos c2, h (l + 1) (by omega) (by omega), show l + p + 2 = j + 1 by omega, mul_zero,
          zero_add, mul_one, div_self (sub_ne_zero.mpr hj)]
      · rw [if_neg (by omega), if_neg c2]
        simp

/-- At a knot repeated `p` times, seen from the left. -/
theorem cox_left (i : Nat) (U : Nat → K) (x : K) (hi : U i ≠ x) : ∀ (p : Nat),
    (∀ k, i < k → k ≤ i + p → U k = x) → ∀ l, cox (spike i) U x p l = if l = i then 1 else 0 := by
  intro p
  induction p with
  | zero => intro _ l; rfl
  | succ p ih =>
    intro h l
    have h1 := ih (fun k h1 h2 => h k h1 (by omega))
    rw [cox, h1 l, h1 (l + 1)]
    by_cases c1 : l = i
    · rw [if_pos c1, if_neg (by omega), h (l + p + 1) (by omega) (by omega), mul_zero, add_zero, mul_one, c1,
        div_self (sub_ne_zero.mpr (Ne.symm hi))]
    · rw [if_neg c1]
      by_cases c2 : l + 1 = i
      · rw [if_pos c2, h (l + p + 2) (by omega) (by omega)]
        simp
      · rw [if_neg c2]
        simp

theorem countP_range_ge (f : Nat → Bool) (a b : Nat) : ∀ m, (∀ i, i < m → a ≤ i → i ≤ b → f i = true) →
    min m (b + 1) - a ≤ (List.range m).countP f := by
  intro m
  induction m with
  | zero => intro _; simp
  | succ m ih =>
    intro h
    have h' := ih (fun i hi => h i (by omega))
    rw [List.range_succ, List.countP_append, List.countP_cons, List.countP_nil]
    by_cases hf : f m = true
    · rw [if_pos hf]; omega
    · have : ¬ (a ≤ m ∧ m ≤ b) := fun hc => hf (h m (by omega) hc.1 hc.2)
      rw [if_neg (by simpa using hf)]
      omega

section ordered
variable [IsStrictOrderedRing K]

/-- With a non-negative tolerance every knot equal to `t` is counted. -/
theorem mult_strict (eps : K → K) (heps : ∀ y, 0 ≤ eps y) (t : K) (U : Nat → K) (m : Nat) (hU : MonoUpTo U m) (span : Nat)
    (hs : span + 1 < m) (h1 : U span ≤ t) (hms : findMultiplicity eps t U m ≤ span) :
    U (span - findMultiplicity eps t U m) < t := by
  refine lt_of_le_of_ne (le_trans (hU _ span (by omega) (by omega)) h1) ?_
  intro he
  have := countP_range_ge (fun i => decide (|t - U i| ≤ eps (U i))) (span - findMultiplicity eps t U m) span m
    (fun i hi ha hb => by
      have h2 : U i = t := le_antisymm (le_trans (hU i span hb (by omega)) h1) (by rw [← he]; exact hU _ i ha hi)
      simp only [decide_eq_true_eq, h2, sub_self, abs_zero]
      exact heps t)
  rw [← findMultiplicity_eq] at this
  omega

/-- Splitting at a knot of multiplicity exactly `p`, first piece: knots `V[0..q+p]` followed by `t`, where
`V[q+1..q+p] = t` and `V[q] < t < V[q+p+1]`. -/
theorem split_first (V : Nat → K) (m p n q : Nat) (hV : MonoUpTo V m) (hm : n + p + 1 ≤ m) (hq : q + p < n)
    (t : K) (h1 : V q < t) (h2 : ∀ k, q < k → k ≤ q + p → V k = t) (h3 : t < V (q + p + 1)) (P : Nat → K)
    (x : K) (i : Nat) (hi : Sp V n x i) (hx : x ≤ t) (hpi : p ≤ i) (hp : 1 ≤ p) :
    ∃ i', Sp (fun k => if k < q + p + 1 then V k else t) (q + 1) x i' ∧
      spline (fun k => if k < q + p + 1 then V k else t) p (q + 1) P x i' = spline V p n P x i := by
  obtain ⟨a1, a2, a3, a4⟩ := hi
  have hW : ∀ k, k ≤ q + p → (fun k => if k < q + p + 1 then V k else t) k = V k := fun k hk => if_pos (by omega)
  have hWt : V (q + 1) = t := h2 (q + 1) (by omega) (by omega)
  have hxn : x < V (i + 1) ∨ False := by
    rcases a4 with h | ⟨h, h'⟩
    · exact Or.inl h
    · have := hV (q + p + 1) n (by omega) (by omega)
      rw [h'] at hx
      exact absurd h3 (not_lt.mpr (le_trans this hx))
  have hxi : x < V (i + 1) := hxn.resolve_right id
  rcases lt_or_eq_of_le hx with hlt | heq
  · have hiq : i ≤ q := by
      by_contra hc
      have := hV (q + 1) i (by omega) (by omega)
      rw [hWt] at this
      exact absurd hlt (not_lt.mpr (le_trans this a3))
    refine ⟨i, ⟨by omega, ?_, ?_, Or.inl ?_⟩, ?_⟩
    · rw [hW i (by omega), hW (i + 1) (by omega)]; exact a2
    · rw [hW i (by omega)]; exact a3
    · rw [hW (i + 1) (by omega)]; exact hxi
    · rw [spline_window _ p (q + 1) P x i (by omega) (by omega), spline_window V p n P x i (by omega) a1]
      apply sum_congr rfl
      intro r hr
      have hr' := mem_range.mp hr
      congr 1
      by_cases c : i - p + r = q
      · exact cox_congr_last i _ V x p _ (by omega) (fun k _ hk => hW k (by omega))
      · exact cox_congr _ _ _ V x p _ (fun _ _ _ => rfl) (fun k _ hk => hW k (by omega))
  · have hiq : i = q + p := by
      have hqp : V (q + p) = t := h2 _ (by omega) (by omega)
      exact span_unique V m hV x i (q + p) (by omega) (by omega) a3 hxi (by rw [hqp, heq]) (by rw [heq]; exact h3)
    have e1 : V q ≠ x := by rw [heq]; exact ne_of_lt h1
    refine ⟨q, ⟨by omega, ?_, ?_, Or.inr ⟨rfl, ?_⟩⟩, ?_⟩
    · rw [hW q (by omega), hW (q + 1) (by omega), hWt]; exact h1
    · rw [hW q (by omega), heq]; exact le_of_lt h1
    · rw [hW (q + 1) (by omega), hWt, heq]
    · have e2 : spline V p n P x i = P q := by
        rw [spline, sum_eq_single q]
        · rw [cox_right i V x (by rw [hiq, heq]; exact ne_of_gt h3) p hpi
            (fun k hk1 hk2 => by rw [heq]; exact h2 k (by omega) (by omega)), if_pos (by omega), mul_one]
        · intro l _ hl
          rw [cox_right i V x (by rw [hiq, heq]; exact ne_of_gt h3) p hpi
            (fun k hk1 hk2 => by rw [heq]; exact h2 k (by omega) (by omega)), if_neg (by omega), mul_zero]
        · intro hc; exact absurd (mem_range.mpr (by omega)) hc
      have hl : ∀ l, cox (spike q) (fun k => if k < q + p + 1 then V k else t) x p l = if l = q then 1 else 0 :=
        cox_left q _ x (by have := hW q (by omega); dsimp only at this; rw [this]; exact e1) p
          (fun k hk1 hk2 => by have := hW k hk2; dsimp only at this; rw [this, heq]; exact h2 k hk1 hk2)
      rw [e2, spline, sum_eq_single q]
      · rw [hl, if_pos rfl, mul_one]
      · intro l _ hlq; rw [hl, if_neg hlq, mul_zero]
      · intro hc; exact absurd (mem_range.mpr (by omega)) hc

/-- Second piece: `p + 1` copies of `t` followed by the knots after `V[q+p]`. -/
theorem split_second (V : Nat → K) (m p n q : Nat) (hV : MonoUpTo V m) (hm : n + p + 1 ≤ m) (hq : q + p < n)
    (t : K) (h2 : ∀ k, q < k → k ≤ q + p → V k = t) (h3 : t < V (q + p + 1)) (P : Nat → K)
    (x : K) (i : Nat) (hi : Sp V n x i) (hx : t ≤ x) (hp : 1 ≤ p) :
    ∃ i', Sp (fun k => if k < p + 1 then t else V (k - (p + 1) + (q + p + 1))) (n - q) x i' ∧
      spline (fun k => if k < p + 1 then t else V (k - (p + 1) + (q + p + 1))) p (n - q) (fun l => P (l + q)) x i' =
        spline V p n P x i := by
  obtain ⟨a1, a2, a3, a4⟩ := hi
  have hW : ∀ k, 1 ≤ k → (fun k => if k < p + 1 then t else V (k - (p + 1) + (q + p + 1))) k = V (k + q) := by
    intro k hk
    by_cases c : k < p + 1
    · show (if k < p + 1 then t else V (k - (p + 1) + (q + p + 1))) = V (k + q)
      rw [if_pos c, h2 (k + q) (by omega) (by omega)]
    · show (if k < p + 1 then t else V (k - (p + 1) + (q + p + 1))) = V (k + q)
      rw [if_neg c]; congr 1; omega
  have hiq : q + p ≤ i := by
    by_contra hc
    rcases a4 with h | ⟨h, _⟩
    · have : V (i + 1) ≤ V (q + p) := hV (i + 1) (q + p) (by omega) (by omega)
      rw [h2 (q + p) (by omega) (by omega)] at this
      exact absurd (lt_of_lt_of_le h this) (not_lt.mpr hx)
    · omega
  obtain ⟨d, rfl⟩ : ∃ d, i = d + q := ⟨i - q, by omega⟩
  refine ⟨d, ⟨by omega, ?_, ?_, ?_⟩, ?_⟩
  · rw [hW d (by omega), hW (d + 1) (by omega), show d + 1 + q = d + q + 1 by omega]; exact a2
  · rw [hW d (by omega)]; exact a3
  · rw [hW (d + 1) (by omega), hW (n - q) (by omega), show d + 1 + q = d + q + 1 by omega, show n - q + q = n by omega]
    rcases a4 with h | ⟨h, h'⟩
    · exact Or.inl h
    · exact Or.inr ⟨by omega, h'⟩
  · rw [spline_window _ p (n - q) _ x d (by omega) (by omega), spline_window V p n P x (d + q) (by omega) a1]
    apply sum_congr rfl
    intro r hr
    have hr' := mem_range.mp hr
    rw [show d + q - p + r = d - p + r + q by omega, cox_shift]
    congr 1
    by_cases c : d - p + r = 0
    · rw [c]
      exact cox_congr_first d _ _ x p 0 (by omega) (fun k h1 _ => hW k (by omega))
    · exact cox_congr _ _ _ _ x p _ (fun _ _ _ => rfl) (fun k h1 _ => hW k (by omega))

/-- The data of a split: everything needed about the result of `splitCurve`, column by column. -/
theorem split_columns (c : Curve K) (hc : Valid c) (hdeg : 1 ≤ c.degree) (fuel : Nat) (eps : K → K)
    (heps : ∀ y, 0 ≤ eps y) (t tol : K)
    (hf : c.n + c.degree + 1 ≤ fuel) (hl : c.U c.degree < t) (hh : t < c.U c.n)
    (ht1 : tol < t - c.U 0) (ht2 : tol < c.U (c.m - 1) - t)
    (hsep : ∀ i, i < c.m → |t - c.U i| ≤ eps (c.U i) → c.U i = t)
    (hmult : findMultiplicity eps t c.U c.m ≤ c.degree) (init junk : Nat → Nat → K) :
    ∃ c1 c2, splitCurve c fuel eps tol init junk t = some (some (c1, c2)) ∧ Valid c1 ∧ Valid c2 ∧
      c1.degree = c.degree ∧ c2.degree = c.degree ∧ c1.periodic = false ∧ c2.periodic = false ∧
      c1.U c1.degree = c.U c.degree ∧ c1.U c1.n = t ∧ c2.U c2.degree = t ∧ c2.U c2.n = c.U c.n ∧
      c1.n + c2.n = c.n + (c.degree - findMultiplicity eps t c.U c.m) + 1 ∧
      (∀ x, c.U c.degree ≤ x → x ≤ t → ∀ col, specVal c1 (fun l => c1.P l col) x = specVal c (fun l => c.P l col) x) ∧
      (∀ x, t ≤ x → x ≤ c.U c.n → ∀ col, specVal c2 (fun l => c2.P l col) x = specVal c (fun l => c.P l col) x) ∧
      (∀ w, (∀ l, l < c.n → c.P l 3 = w) → (∀ l, l < c1.n → c1.P l 3 = w) ∧ ∀ l, l < c2.n → c2.P l 3 = w) ∧
      c2.U 0 = t ∧ (∃ d, c2.m + d = c.m ∧ ∀ k, c.degree < k → c2.U k = c.U (k + d)) ∧ c1.U (c1.m - 1) = t ∧
      (∀ k, k < c1.n → c1.U k = c.U k) ∧ t < c2.U (c2.degree + 1) := by
  have hk := hc.knots
  have hnp := hc.npos
  have hU0 : c.U 0 ≤ c.U c.degree := hc.mono _ _ (by omega) (by omega)
  have hUm : c.U c.n ≤ c.U (c.m - 1) := hc.mono _ _ (by omega) (by omega)
  obtain ⟨s, hs⟩ : ∃ s, findMultiplicity eps t c.U c.m = s := ⟨_, rfl⟩
  obtain ⟨r, hr⟩ : ∃ r, c.degree - s = r := ⟨_, rfl⟩
  rw [hs] at hmult
  obtain ⟨span, e, a, b, d, f, he, hpt⟩ := insert_column c hc fuel eps t r (by omega) (le_of_lt hl) hh hsep
    (by rw [hs]; omega) init junk
  rw [hs] at he hpt
  have hstr := mult_strict eps heps t c.U c.m hc.mono span (by omega) d (by rw [hs]; omega)
  rw [hs] at hstr
  have hblk := (mult_block eps t c.U c.m hc.mono span (by omega) d f hsep).2
  rw [hs] at hblk
  -- the span of t leaves room before it
  have hsp0 : c.degree < span - s + 1 := by
    by_contra hcon
    have : c.U c.degree = t := hblk c.degree (by omega) (by omega)
    exact absurd hl (by rw [this]; exact lt_irrefl _)
  -- V: the knot vector after insertion
  obtain ⟨V, hV⟩ : ∃ V, knotInsertionKv c.U t span r = V := ⟨_, rfl⟩
  have hVlow : ∀ k, k ≤ span → V k = c.U k := fun k hk => by rw [← hV, knotInsertionKv, if_pos (by omega)]
  have hVt : ∀ k, span - s < k → k ≤ span - s + c.degree → V k = t := fun k h1 h2 => by
    rw [← hV, knotInsertionKv]
    by_cases c0 : k < span + 1
    · rw [if_pos c0]; exact hblk k h1 (by omega)
    · rw [if_neg c0, if_pos (by omega)]
  have hVhi : ∀ k, span < k → V (k + r) = c.U k := fun k hk => by
    rw [← hV, knotInsertionKv, if_neg (by omega), if_neg (by omega), Nat.add_sub_cancel]
  have hVq : V (span - s) < t := by rw [hVlow _ (by omega)]; exact hstr
  have hVn : t < V (span - s + c.degree + 1) := by
    rw [show span - s + c.degree + 1 = span + 1 + r by omega, hVhi _ (by omega)]; exact f
  have hVm : MonoUpTo V (c.m + r) := by rw [← hV]; exact kv_mono c.U t span c.m hc.mono (by omega) d (le_of_lt f) r
  -- the two searches of the split itself
  have hfs1 : findSpan fuel c.n c.degree t c.U false = some span := by
    obtain ⟨i, e', a', b', d', f'⟩ := findSpan_spec fuel c.n c.degree t c.U (by omega) (by omega) hU0 (le_of_lt hl)
      (lt_of_lt_of_le hh (hc.mono _ _ (by omega) (by omega)))
    rw [e', span_unique c.U c.m hc.mono t i span (by omega) (by omega) d' f' d f]
  have hfs2 : findSpan fuel (c.n + r) c.degree t V false = some (span - s + c.degree) := by
    have hVp : V c.degree = c.U c.degree := hVlow _ a
    obtain ⟨i, e', a', b', d', f'⟩ := findSpan_spec fuel (c.n + r) c.degree t V (by omega) (by omega)
      (hVm _ _ (by omega) (by omega)) (by rw [hVp]; exact le_of_lt hl)
      (lt_of_lt_of_le hVn (hVm _ _ (by omega) (by omega)))
    rw [e', span_unique V (c.m + r) hVm t i (span - s + c.degree) (by omega) (by omega) d' f'
      (by rw [hVt _ (by omega) (by omega)]) hVn]
  obtain ⟨Q, hQ⟩ : ∃ Q : Nat → Nat → K, Q = fun i col => knotInsertion c.degree c.U c.n (fun a => c.P a col) t r s span
    (fun a => init a col) (fun a => junk a col) i := ⟨_, rfl⟩
  rw [← hQ, hV] at he
  have hQpt : ∀ col i, i < c.n + r → Q i col = iterPts c.U t span c.degree (fun a => c.P a col) r i := by
    intro col i hi; rw [hQ]; exact hpt col i hi
  -- the value of the splitCurve
  have hsplit : splitCurve c fuel eps tol init junk t = some (some (
      { degree := c.degree, n := span - s + 1, P := Q, m := span - s + c.degree + 2,
        U := fun k => if k < span - s + c.degree + 1 then V k else t, periodic := false },
      { degree := c.degree, n := c.n + r - (span - s), P := fun i => Q (i + (span - s)),
        m := c.n + r - (span - s) + c.degree + 1,
        U := fun k => if k < c.degree + 1 then t else V (k - (c.degree + 1) + (span - s + c.degree + 1)),
        periodic := false })) := by
    have hcond : ¬ (t ≤ c.U 0 ∨ c.U (c.m - 1) ≤ t ∨ |t - c.U 0| ≤ tol ∨ |t - c.U (c.m - 1)| ≤ tol) := by
      rintro (h | h | h | h)
      · exact absurd (lt_of_le_of_lt hU0 hl) (not_lt.mpr h)
      · exact absurd (lt_of_lt_of_le hh hUm) (not_lt.mpr h)
      · exact absurd (lt_of_lt_of_le ht1 (le_abs_self _)) (not_lt.mpr h)
      · rw [abs_sub_comm] at h
        exact absurd (lt_of_lt_of_le ht2 (le_abs_self _)) (not_lt.mpr h)
    rw [splitCurve]
    simp only
    rw [if_neg hcond, hfs1]
    simp only
    rw [hs, hr, he]
    simp only
    rw [hfs2]
    simp only
    congr 4
    · omega
    · omega
    · funext i; congr 1; omega
    · omega
  obtain ⟨c1, hc1⟩ : ∃ c1 : Curve K, c1 =
      { degree := c.degree, n := span - s + 1, P := Q, m := span - s + c.degree + 2,
        U := fun k => if k < span - s + c.degree + 1 then V k else t, periodic := false } := ⟨_, rfl⟩
  obtain ⟨c2, hc2⟩ : ∃ c2 : Curve K, c2 =
      { degree := c.degree, n := c.n + r - (span - s), P := fun i => Q (i + (span - s)),
        m := c.n + r - (span - s) + c.degree + 1,
        U := fun k => if k < c.degree + 1 then t else V (k - (c.degree + 1) + (span - s + c.degree + 1)),
        periodic := false } := ⟨_, rfl⟩
  rw [← hc1, ← hc2] at hsplit
  have hv1 : Valid c1 := by
    rw [hc1]
    refine ⟨by show c.degree < span - s + 1; omega, by show span - s + c.degree + 2 = span - s + 1 + c.degree + 1; omega, ?_, ?_⟩
    · intro x y hxy hy
      have hy' : y < span - s + c.degree + 2 := hy
      show (if x < span - s + c.degree + 1 then V x else t) ≤ (if y < span - s + c.degree + 1 then V y else t)
      by_cases cy : y < span - s + c.degree + 1
      · rw [if_pos cy, if_pos (by omega)]; exact hVm x y hxy (by omega)
      · rw [if_neg cy]
        by_cases cx : x < span - s + c.degree + 1
        · rw [if_pos cx, ← hVt (span - s + c.degree) (by omega) (by omega)]
          exact hVm _ _ (by omega) (by omega)
        · rw [if_neg cx]
    · show (if span - s + 1 - 1 < span - s + c.degree + 1 then V (span - s + 1 - 1) else t) <
        (if span - s + 1 < span - s + c.degree + 1 then V (span - s + 1) else t)
      rw [if_pos (by omega), if_pos (by omega), hVt (span - s + 1) (by omega) (by omega)]
      exact hVq
  have hW2 : ∀ k, 1 ≤ k → c2.U k = V (k + (span - s)) := by
    intro k hk1
    rw [hc2]
    show (if k < c.degree + 1 then t else V (k - (c.degree + 1) + (span - s + c.degree + 1))) = V (k + (span - s))
    by_cases c0 : k < c.degree + 1
    · rw [if_pos c0, hVt _ (by omega) (by omega)]
    · rw [if_neg c0]; congr 1; omega
  have hd2 : c2.degree = c.degree := by rw [hc2]
  have hn2 : c2.n = c.n + r - (span - s) := by rw [hc2]
  have hm2 : c2.m = c.n + r - (span - s) + c.degree + 1 := by rw [hc2]
  have h20 : c2.U 0 = t := by
    rw [hc2]
    show (if 0 < c.degree + 1 then t else V (0 - (c.degree + 1) + (span - s + c.degree + 1))) = t
    rw [if_pos (Nat.succ_pos _)]
  have hv2 : Valid c2 := by
    refine ⟨by omega, by omega, ?_, ?_⟩
    · intro x y hxy hy
      by_cases cx : x = 0
      · rw [cx, h20]
        by_cases cy : y = 0
        · rw [cy, h20]
        · rw [hW2 y (by omega), ← hVt (span - s + 1) (by omega) (by omega)]
          exact hVm _ _ (by omega) (by omega)
      · rw [hW2 x (by omega), hW2 y (by omega)]
        exact hVm _ _ (by omega) (by omega)
    · rw [hW2 _ (by omega), hW2 _ (by omega), show c2.n - 1 + (span - s) = c.n + r - 1 by omega,
        show c2.n + (span - s) = c.n + r by omega, ← hV, (kv_domain c.U t span c.degree c.n r a b f hc.last).2.1]
      exact (kv_domain c.U t span c.degree c.n r a b f hc.last).2.2
  have hVdom := kv_domain c.U t span c.degree c.n r a b f hc.last
  rw [hV] at hVdom
  have hcol : ∀ x, c.U c.degree ≤ x → x ≤ c.U c.n → ∃ i', c.degree ≤ i' ∧ Sp V (c.n + r) x i' ∧ ∀ col,
      spline V c.degree (c.n + r) (fun l => Q l col) x i' = specVal c (fun l => c.P l col) x := by
    intro x hx1 hx2
    obtain ⟨i, _, hpi, hsp⟩ := findSpan_sp c.n c.n c.degree x c.U hnp (le_refl _) c.m hc.mono (by omega) hc.last hx1 hx2
    obtain ⟨i', hsp', hsl⟩ := iter_spline c.U c.m c.n c.degree hc.mono (by omega) t span a b d f (fun _ => 0) x i hsp r
    rw [hV] at hsp' hsl
    refine ⟨i', ?_, hsp', fun col => ?_⟩
    · by_contra hcon
      have h1 : V (i' + 1) ≤ V c.degree := hVm _ _ (by omega) (by omega)
      rw [hVdom.1] at h1
      rcases hsp'.2.2.2 with h2 | ⟨h2, _⟩
      · exact absurd (lt_of_lt_of_le h2 h1) (not_lt.mpr hx1)
      · omega
    · rw [specVal_eq c hc _ x i hsp, ← hsl]
      exact spline_const _ _ _ _ _ x i' (fun l hl => hQpt col l hl)
  refine ⟨c1, c2, hsplit, hv1, hv2, by rw [hc1], hd2, by rw [hc1], by rw [hc2], ?_, ?_, ?_, ?_, ?_, ?_, ?_, ?_, h20,
    ⟨span - c.degree, by omega, fun k hk => ?_⟩, ?_, ?_, ?_⟩
  · rw [hc1]
    show (if c.degree < span - s + c.degree + 1 then V c.degree else t) = _
    rw [if_pos (by omega), hVlow _ a]
  · rw [hc1]
    show (if span - s + 1 < span - s + c.degree + 1 then V (span - s + 1) else t) = _
    rw [if_pos (by omega), hVt _ (by omega) (by omega)]
  · rw [hd2, hW2 _ (by omega), hVt _ (by omega) (by omega)]
  · rw [hW2 _ (by omega), show c2.n + (span - s) = c.n + r by omega]; exact hVdom.2.1
  · rw [hs, hr, hn2, hc1]
    show span - s + 1 + (c.n + r - (span - s)) = c.n + r + 1
    omega
  · intro x hx1 hx2 col
    obtain ⟨i', hpi', hsp', hcol'⟩ := hcol x hx1 (le_trans hx2 (le_of_lt hh))
    obtain ⟨i1, hsp1, hsl⟩ := split_first V (c.m + r) c.degree (c.n + r) (span - s) hVm (by omega) (by omega) t hVq hVt
      hVn (fun l => Q l col) x i' hsp' hx2 hpi' hdeg
    rw [← hcol' col, ← hsl, specVal_eq c1 hv1 _ x i1 (by rw [hc1]; exact hsp1), hc1]
  · intro x hx1 hx2 col
    obtain ⟨i', hpi', hsp', hcol'⟩ := hcol x (le_trans (le_of_lt hl) hx1) hx2
    obtain ⟨i1, hsp1, hsl⟩ := split_second V (c.m + r) c.degree (c.n + r) (span - s) hVm (by omega) (by omega) t hVt
      hVn (fun l => Q l col) x i' hsp' hx1 hdeg
    rw [← hcol' col, ← hsl, specVal_eq c2 hv2 _ x i1 (by rw [hc2]; exact hsp1), hc2]
  · intro w hw
    have hQw : ∀ l, l < c.n + r → Q l 3 = w := fun l hl => by
      rw [hQpt 3 l hl, iterPts_congr c.U t span c.degree c.n b _ (fun _ => w) hw r l hl, iterPts_const]
    constructor
    · intro l hl
      rw [hc1] at hl ⊢
      have : l < span - s + 1 := hl
      exact hQw l (by omega)
    · intro l hl
      rw [hn2] at hl
      rw [hc2]
      exact hQw _ (by omega)
  · rw [hW2 k (by omega), show k + (span - s) = k + (span - c.degree) + r by omega, hVhi _ (by omega)]
  · rw [hc1]
    show (if span - s + c.degree + 2 - 1 < span - s + c.degree + 1 then V (span - s + c.degree + 2 - 1) else t) = t
    rw [if_neg (by omega)]
  · intro k hk
    rw [hc1] at hk ⊢
    have hk' : k < span - s + 1 := hk
    show (if k < span - s + c.degree + 1 then V k else t) = c.U k
    rw [if_pos (by omega), hVlow _ (by omega)]
  · rw [hW2 _ (by omega), hd2, show c.degree + 1 + (span - s) = span - s + c.degree + 1 by omega]
    exact hVn

end ordered
end Verif.Nurbs
