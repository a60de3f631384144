import Verif.Nurbs.Curve
import Mathlib.Algebra.Order.Field.Rat
import Mathlib.Tactic.NormNum
import Mathlib.Tactic.IntervalCases
import Mathlib.Algebra.BigOperators.Field

/-! # C33-C36: knot spans, basis functions, curve evaluation, knot insertion -/

set_option linter.unusedSectionVars false

namespace Verif.Nurbs
open Finset
variable {K : Type} [Field K] [LinearOrder K]

/-! ## Example data -/

/-- Knot vector written as a list (examples). -/
def kvec (l : List ℚ) : Nat → ℚ := fun i => l.getD i 0

/-- Degree 2 with a double interior knot (examples). -/
def exU : Nat → ℚ := kvec [0, 0, 0, 1, 1, 2, 3, 3, 3]

theorem monoUpTo_of_step (U : Nat → K) (m : Nat) (h : ∀ a, a + 1 < m → U a ≤ U (a + 1)) : MonoUpTo U m := by
  intro a b hab
  induction b with
  | zero => intro _; obtain rfl : a = 0 := by omega
            exact le_refl _
  | succ b ih =>
    intro hb
    rcases Nat.lt_or_ge a (b + 1) with h1 | h1
    · exact le_trans (ih (by omega) (by omega)) (h b hb)
    · obtain rfl : a = b + 1 := by omega
      exact le_refl _

theorem exU_mono : MonoUpTo exU 9 := by
  apply monoUpTo_of_step
  intro a ha
  have : a < 8 := by omega
  interval_cases a <;> norm_num [exU, kvec]

/-! ## C33 -/

/-- **C33.** Nondecreasing knots `U[0..m)`, `n+1` control points, degree `p ≤ n`, parameter in `[U[p], U[n+1])`: the search
ends after at most `n+1-p` rounds and returns the only index `i` with `p ≤ i ≤ n` and `U[i] ≤ u < U[i+1]`; at the right
end it returns `n`, the last span.  Repeated knots are allowed everywhere. -/
theorem C33_find_span (n p m : Nat) (U : Nat → K) (hU : MonoUpTo U m) (hm : n + 1 < m) (hp : p ≤ n) (u : K)
    (hl : U p ≤ u) (fuel : Nat) (hfuel : n + 1 - p ≤ fuel) :
    (u < U (n + 1) → ∃ i, findSpan fuel n p u U false = some i ∧ p ≤ i ∧ i ≤ n ∧ U i ≤ u ∧ u < U (i + 1) ∧
      ∀ j, j + 1 < m → U j ≤ u → u < U (j + 1) → j = i) ∧
    (U (n + 1) ≤ u → findSpan fuel n p u U false = some n) := by
  refine ⟨fun hh => ?_, fun hh => findSpan_end fuel n p u U hh⟩
  obtain ⟨i, e, a, b, c, d⟩ := findSpan_spec fuel n p u U hp hfuel (hU 0 p (by omega) (by omega)) hl hh
  exact ⟨i, e, a, b, c, d, fun j hj h3 h4 => span_unique U m hU u j i hj (by omega) h3 h4 c d⟩

/-- Degree 2, six control points, double knot at 1: the parameter 1 gets span 4, and 3 gets span 5. -/
example : MonoUpTo exU 9 ∧ exU 2 ≤ (1 : ℚ) ∧ findSpan 6 5 2 1 exU false = some 4 ∧ findSpan 6 5 2 3 exU false = some 5 := by
  refine ⟨exU_mono, by norm_num [exU, kvec], by decide +kernel, by decide +kernel⟩

/-- **C33, linear search.** `find_span_linear` returns the same index as the binary search on the whole domain, the right
end included. -/
theorem C33_find_span_linear (n p m : Nat) (U : Nat → K) (hU : MonoUpTo U m) (hm : n + 1 < m) (hp : p ≤ n) (u : K)
    (hl : U p ≤ u) (fuel : Nat) (hfuel : n + 1 - p ≤ fuel) :
    findSpan fuel n p u U false = some (findSpanLinear p U (n + 1) u) := by
  have hs := linear_spec U (n + 1) u (n + 1) (p + 1) (by omega) (by omega) (by omega)
    (by rw [Nat.add_sub_cancel]; exact hl)
  rw [Nat.add_sub_cancel] at hs
  obtain ⟨h1, h2, h3, h4⟩ := hs
  rw [findSpanLinear]
  generalize hj : findSpanLinearLoop U (n + 1) u (n + 1) (p + 1) = j at *
  by_cases hh : u < U (n + 1)
  · obtain ⟨i, e, a, b, c, d, huniq⟩ := (C33_find_span n p m U hU hm hp u hl fuel hfuel).1 hh
    rcases h4 with h4 | h4
    · rw [e, huniq j (by omega) h3 h4]
    · rw [e, huniq j (by omega) h3 (by rw [h4]; exact hh)]
  · rw [findSpan_end fuel n p u U (not_lt.mp hh)]
    rcases h4 with h4 | h4
    · exfalso
      have := hU (j + 1) (n + 1) (by omega) hm
      exact hh (lt_of_lt_of_le h4 this)
    · congr 1; omega

example : findSpanLinear 2 exU 6 1 = 4 ∧ findSpanLinear 2 exU 6 3 = 5 := by
  constructor <;> decide +kernel

/-- **C33, periodic search.** With a non-empty domain the wrapping loops end for every parameter and the span returned is
that of the parameter shifted by a whole number of periods into the domain. -/
theorem C33_find_span_periodic [IsStrictOrderedRing K] [Archimedean K] (n p : Nat) (u : K) (U : Nat → K) (hp : p ≤ n)
    (hlt : U p < U (n + 1)) :
    ∃ F, ∀ fuel, F ≤ fuel → ∃ i, ∃ k : Int, ∃ v, findSpan fuel n p u U true = some i ∧
      v = u + k * (U (n + 1) - U p) ∧ U p ≤ v ∧ v ≤ U (n + 1) ∧
      ((v = U (n + 1) ∧ i = n) ∨ (p ≤ i ∧ i ≤ n ∧ U i ≤ v ∧ v < U (i + 1))) :=
  findSpan_periodic n p u U hp hlt

/-- Domain `[0,3]`: 7 is wrapped to 1. -/
example : exU 2 < exU 6 ∧ findSpan 10 5 2 7 exU true = some 4 := by
  refine ⟨by norm_num [exU, kvec], by decide +kernel⟩

/-! ## C54 -/

/-- Unclamped knots of a degree-2 curve with 4 control points; `interval()` reports `[0, 6]`. -/
def unclampedU : Nat → ℚ := kvec [0, 1, 2, 3, 4, 5, 6]

/-- **C54 refuted.** For an unclamped non-periodic knot vector the search loop never ends on a parameter of the reported
interval that lies before `U[p]`. -/
theorem C54_find_span_hangs (n p m : Nat) (U : Nat → K) (hU : MonoUpTo U m) (hm : n + 1 < m) (hp : p ≤ n) (u : K)
    (h0 : U 0 ≤ u) (h1 : u < U p) (fuel : Nat) : findSpan fuel n p u U false = none := by
  have hup : U p ≤ U (n + 1) := hU p (n + 1) (by omega) hm
  simp only [findSpan, Bool.false_eq_true, if_false]
  rw [if_neg (not_le.mpr (lt_of_lt_of_le h1 hup)), if_neg (not_lt.mpr h0), if_neg (ne_of_lt (lt_of_lt_of_le h1 hup))]
  exact spanLoop_hang U u fuel p (n + 1) (by omega) (fun k hk1 hk2 => lt_of_lt_of_le h1 (hU p k hk1 (by omega)))

theorem C54_evaluate_terminates_refuted : ¬ ∀ (n p m : Nat) (U : Nat → ℚ), MonoUpTo U m → m = n + p + 2 → p ≤ n →
    ∀ u, U 0 ≤ u → u ≤ U (m - 1) → ∃ fuel, (findSpan fuel n p u U false).isSome := by
  intro h
  have hmono : MonoUpTo unclampedU 7 := by
    apply monoUpTo_of_step
    intro a ha
    have : a < 6 := by omega
    interval_cases a <;> norm_num [unclampedU, kvec]
  obtain ⟨f, hf⟩ := h 3 2 7 unclampedU hmono rfl (by omega) (1 / 2) (by norm_num [unclampedU, kvec])
    (by norm_num [unclampedU, kvec])
  rw [C54_find_span_hangs 3 2 7 unclampedU hmono (by omega) (by omega) (1 / 2) (by norm_num [unclampedU, kvec])
    (by norm_num [unclampedU, kvec])] at hf
  cases hf

/-- **C54, partial.** For a vector clamped at the left end (`U[0] = U[p]`) the search ends for every parameter at all, within
`n+1-p` rounds.  Missing: unclamped vectors, where it is false. -/
theorem C54_evaluate_terminates_partial (n p m : Nat) (U : Nat → K) (hU : MonoUpTo U m) (hm : n + 1 < m) (hp : p ≤ n)
    (hclamp : U 0 = U p) (u : K) (fuel : Nat) (hfuel : n + 1 - p ≤ fuel) :
    ∃ i, findSpan fuel n p u U false = some i ∧ p ≤ i ∧ i ≤ n := by
  by_cases hl : U p ≤ u
  · by_cases hh : u < U (n + 1)
    · obtain ⟨i, e, a, b, _⟩ := (C33_find_span n p m U hU hm hp u hl fuel hfuel).1 hh
      exact ⟨i, e, a, b⟩
    · exact ⟨n, (C33_find_span n p m U hU hm hp u hl fuel hfuel).2 (not_lt.mp hh), hp, le_refl _⟩
  · refine ⟨p, ?_, le_refl _, hp⟩
    have hup : U p ≤ U (n + 1) := hU p (n + 1) (by omega) hm
    simp only [findSpan, Bool.false_eq_true, if_false]
    rw [if_neg (not_le.mpr (lt_of_lt_of_le (not_le.mp hl) hup)), if_pos (by rw [hclamp]; exact not_le.mp hl)]

example : exU 0 = exU 2 ∧ findSpan 4 5 2 (-1) exU false = some 2 ∧ findSpan 4 5 2 9 exU false = some 5 := by
  refine ⟨by norm_num [exU, kvec], by decide +kernel, by decide +kernel⟩

/-! ## C34 -/

/-- Specification: degree-0 B-spline of span `l`, half open except that the last of the `n` spans is closed. -/
def bspl0 (U : Nat → K) (n : Nat) (x : K) (l : Nat) : K :=
  if l < n ∧ U l ≤ x ∧ (x < U (l + 1) ∨ (l + 1 = n ∧ x = U n)) then 1 else 0

/-- Specification: the Cox-de Boor basis function `N_{l,p}(x)` of a spline space of dimension `n`, with 0/0 = 0. -/
def bspl (U : Nat → K) (n : Nat) (x : K) : Nat → Nat → K
  | 0, l => bspl0 U n x l
  | p + 1, l => (x - U l) / (U (l + p + 1) - U l) * bspl U n x p l +
      (U (l + p + 2) - x) / (U (l + p + 2) - U (l + 1)) * bspl U n x p (l + 1)

theorem bspl_eq (U : Nat → K) (n m : Nat) (hU : MonoUpTo U m) (hn : n < m) (hlast : U (n - 1) < U n) (x : K) (i : Nat)
    (hi : Sp U n x i) : ∀ (p l : Nat), bspl U n x p l = cox (spike i) U x p l := by
  intro p
  induction p with
  | zero =>
    intro l
    rw [bspl, cox, bspl0, spike]
    by_cases h : l < n ∧ U l ≤ x ∧ (x < U (l + 1) ∨ (l + 1 = n ∧ x = U n))
    · rw [if_pos h]
      have : l = i := sp_unique U n m hU hn x l i ⟨h.1, by
        rcases h.2.2 with h' | ⟨h1, h2⟩
        · exact lt_of_le_of_lt h.2.1 h'
        · rw [h1]; have : l = n - 1 := by omega
          rw [this]; exact hlast, h.2⟩ hi
      rw [if_pos this]
    · rw [if_neg h, if_neg]
      intro he
      subst he
      exact h ⟨hi.1, hi.2.2⟩
  | succ p ih => intro l; rw [bspl, cox, ih, ih]

/-- **C34.** For nondecreasing knots `U[0..m)`, `n` control points, a non-empty last span and a parameter of the domain
`[U[p], U[n]]` with span `i` found by `find_span`: `basis_funs` writes exactly the Cox-de Boor values
`N_{i-p,p}, ..., N_{i,p}` and nothing past them; all other basis functions vanish at `x`; the values are non-negative and
add up to one; no divisor met on the way is zero. -/
theorem C34_basis_funs [IsStrictOrderedRing K] (n p m : Nat) (U : Nat → K) (hU : MonoUpTo U m) (hm : n + p + 1 ≤ m)
    (hp : p < n) (hlast : U (n - 1) < U n) (x : K) (hl : U p ≤ x) (hh : x ≤ U n) (fuel : Nat) (hf : n ≤ fuel)
    (N0 : Nat → K) :
    ∃ i, findSpan fuel (n - 1) p x U false = some i ∧ p ≤ i ∧ i < n ∧
      (∀ r, r ≤ p → basisFuns i x p U N0 r = bspl U n x p (i - p + r)) ∧
      (∀ r, p < r → basisFuns i x p U N0 r = N0 r) ∧
      (∀ l, l < i - p ∨ i < l → bspl U n x p l = 0) ∧
      (∀ r, r ≤ p → 0 ≤ basisFuns i x p U N0 r) ∧
      ∑ r ∈ range (p + 1), basisFuns i x p U N0 r = 1 ∧
      ∀ j r, r < j → j ≤ p → 0 < rightOf U i x (r + 1) + leftOf U i x (j - r) := by
  obtain ⟨i, e, a, b⟩ := findSpan_sp fuel n p x U hp hf m hU (by omega) hlast hl hh
  obtain ⟨b1, b2, b3, b4⟩ := b
  have hb := bspl_eq U n m hU (by omega) hlast x i ⟨b1, b2, b3, b4⟩
  have hx2 : x ≤ U (i + 1) := by
    rcases b4 with h | ⟨h1, h2⟩
    · exact le_of_lt h
    · rw [h1, h2]
  have heq : ∀ r, r ≤ p → basisFuns i x p U N0 r = cox (spike i) U x p (i - p + r) := basisFuns_eq i x U N0 p a
  refine ⟨i, e, a, b1, fun r hr => by rw [hb]; exact heq r hr, fun r hr => ?_, fun l hlo => ?_, fun r hr => ?_, ?_,
    fun j r hr hj => ?_⟩
  · have key : ∀ q, q ≤ p → (List.range q).foldl (fun N j => bfRound U i x N (j + 1)) (Function.update N0 0 1) r = N0 r := by
      intro q
      induction q with
      | zero => intro _; rw [List.range_zero, List.foldl_nil, Function.update_of_ne (by omega)]
      | succ q ih =>
        intro hq
        rw [List.range_succ, List.foldl_append, List.foldl_cons, List.foldl_nil, bfRound,
          Function.update_of_ne (by omega), basisFuns_frame_step U i x (q + 1) _ r (q + 1) (by omega)]
        exact ih (by omega)
    exact key p (le_refl _)
  · rw [hb]; exact cox_spike_out i U x p l (by omega)
  · rw [heq r hr]; exact cox_nonneg U m hU i b2 x b3 hx2 p _ (by omega)
  · rw [sum_congr rfl (fun r hr => heq r (by have := mem_range.mp hr; omega))]
    exact cox_sum_one U m hU i b2 x p a (by omega)
  · have h1 : U (i + 1 - (j - r)) ≤ U i := hU _ _ (by omega) (by omega)
    have h2 : U (i + 1) ≤ U (i + (r + 1)) := hU _ _ (by omega) (by omega)
    have : rightOf U i x (r + 1) + leftOf U i x (j - r) = U (i + (r + 1)) - U (i + 1 - (j - r)) := by
      simp only [rightOf, leftOf]; ring
    rw [this]
    exact sub_pos.mpr (lt_of_le_of_lt h1 (lt_of_lt_of_le b2 h2))

/-- Degree 2 with a double interior knot, at 1/2, at the double knot and at the right end. -/
example : MonoUpTo exU 9 ∧ exU (6 - 1) < exU 6 ∧
    (List.range 3).map (basisFuns 2 (1 / 2) 2 exU (fun _ => 0)) = [1 / 4, 1 / 2, 1 / 4] ∧
    (List.range 3).map (fun r => bspl exU 6 (1 / 2) 2 r) = [1 / 4, 1 / 2, 1 / 4] ∧
    (List.range 3).map (basisFuns 4 1 2 exU (fun _ => 0)) = [1, 0, 0] ∧
    (List.range 6).map (fun l => bspl exU 6 3 2 l) = [0, 0, 0, 0, 0, 1] := by
  refine ⟨exU_mono, by norm_num [exU, kvec], ?_, ?_, ?_, ?_⟩ <;> decide +kernel

/-! ## C35 -/

/-- **C35, convex hull.** A non-periodic curve with positive weights: at every parameter of the domain the evaluated point is
a convex combination of the `degree+1` control points of the span, with one set of coefficients for all coordinates. -/
theorem C35_convex_hull [IsStrictOrderedRing K] (c : Curve K) (hc : Valid c) (hper : c.periodic = false) (fuel : Nat)
    (hf : c.n ≤ fuel) (x : K) (hl : c.U c.degree ≤ x) (hh : x ≤ c.U c.n) (hw : ∀ l, l < c.n → 0 < c.P l 3) :
    ∃ i, ∃ lam : Nat → K, findSpan fuel (c.n - 1) c.degree x c.U false = some i ∧ c.degree ≤ i ∧ i < c.n ∧
      (∀ r, r ≤ c.degree → 0 ≤ lam r) ∧ ∑ r ∈ range (c.degree + 1), lam r = 1 ∧
      ∀ col, c.evaluate fuel x col = some (∑ r ∈ range (c.degree + 1), lam r * c.P (i - c.degree + r) col) := by
  obtain ⟨i, hpi, hsp, hfs, hev⟩ := hc.evaluate_eq hper fuel hf x hl hh
  obtain ⟨b1, b2, b3, b4⟩ := hsp
  have hm := hc.knots
  have hx2 : x ≤ c.U (i + 1) := by
    rcases b4 with h | ⟨h1, h2⟩
    · exact le_of_lt h
    · rw [h1, h2]
  have hN : ∀ r, r ≤ c.degree → 0 ≤ cox (spike i) c.U x c.degree (i - c.degree + r) := fun r hr =>
    cox_nonneg c.U c.m hc.mono i b2 x b3 hx2 c.degree _ (by omega)
  have hsum := cox_sum_one c.U c.m hc.mono i b2 x c.degree hpi (by omega)
  have hden : 0 < ∑ r ∈ range (c.degree + 1), c.P (i - c.degree + r) 3 * cox (spike i) c.U x c.degree (i - c.degree + r) := by
    by_contra hcon
    have hz : ∀ r ∈ range (c.degree + 1), c.P (i - c.degree + r) 3 * cox (spike i) c.U x c.degree (i - c.degree + r) = 0 := by
      have hnn : ∀ r ∈ range (c.degree + 1),
          0 ≤ c.P (i - c.degree + r) 3 * cox (spike i) c.U x c.degree (i - c.degree + r) := fun r hr => by
        have := mem_range.mp hr
        exact mul_nonneg (le_of_lt (hw _ (by omega))) (hN r (by omega))
      exact (sum_eq_zero_iff_of_nonneg hnn).mp (le_antisymm (not_lt.mp hcon) (sum_nonneg hnn))
    have : ∑ r ∈ range (c.degree + 1), cox (spike i) c.U x c.degree (i - c.degree + r) = 0 := by
      apply sum_eq_zero
      intro r hr
      have h1 := hz r hr
      have := mem_range.mp hr
      rcases mul_eq_zero.mp h1 with h2 | h2
      · exact absurd h2 (ne_of_gt (hw _ (by omega)))
      · exact h2
    rw [this] at hsum
    exact zero_ne_one hsum
  refine ⟨i, fun r => c.P (i - c.degree + r) 3 * cox (spike i) c.U x c.degree (i - c.degree + r) /
    ∑ r ∈ range (c.degree + 1), c.P (i - c.degree + r) 3 * cox (spike i) c.U x c.degree (i - c.degree + r), hfs, hpi, b1,
    fun r hr => ?_, ?_, fun col => ?_⟩
  · exact div_nonneg (mul_nonneg (le_of_lt (hw _ (by omega))) (hN r hr)) (le_of_lt hden)
  · rw [← sum_div, div_self (ne_of_gt hden)]
  · rw [hev col, spline_window c.U c.degree c.n _ x i hpi b1, spline_window c.U c.degree c.n _ x i hpi b1, sum_div]
    congr 1
    apply sum_congr rfl
    intro r _
    dsimp only
    ring

/-- A degree-2 curve in the plane with weights 1 or 2 (examples). -/
def exCurve : Curve ℚ where
  degree := 2
  n := 6
  P := fun i col => if col = 3 then (if i = 1 then 2 else 1) else if col = 0 then i else if col = 1 then i * (5 - i) else 0
  m := 9
  U := exU
  periodic := false

theorem exCurve_valid : Valid exCurve :=
  ⟨by decide, rfl, exU_mono, by show exU 5 < exU 6; norm_num [exU, kvec]⟩

example : Valid exCurve ∧ (∀ l, l < exCurve.n → 0 < exCurve.P l 3) ∧ exCurve.evaluate 6 (1 / 2) 0 = some 1 ∧
    exCurve.evaluate 6 (1 / 2) 1 = some (11 / 3) := by
  refine ⟨exCurve_valid, fun l _ => ?_, by decide +kernel, by decide +kernel⟩
  simp only [exCurve, if_true]
  split <;> norm_num

theorem aabbCol_spec (n : Nat) (P : Nat → Nat → K) (col : Nat) : ∀ j, j < n →
    (aabbCol n P col).1 ≤ P j col / P j 3 ∧ P j col / P j 3 ≤ (aabbCol n P col).2 := by
  have key : ∀ k, ∀ j, j < k + 1 →
      ((List.range k).foldl (fun (b : K × K) j =>
        let p := P (j + 1) col / P (j + 1) 3
        ((if p < b.1 then p else b.1), (if p > b.2 then p else b.2))) (P 0 col / P 0 3, P 0 col / P 0 3)).1
        ≤ P j col / P j 3 ∧
      P j col / P j 3 ≤ ((List.range k).foldl (fun (b : K × K) j =>
        let p := P (j + 1) col / P (j + 1) 3
        ((if p < b.1 then p else b.1), (if p > b.2 then p else b.2))) (P 0 col / P 0 3, P 0 col / P 0 3)).2 := by
    intro k
    induction k with
    | zero =>
      intro j hj
      obtain rfl : j = 0 := by omega
      exact ⟨le_refl _, le_refl _⟩
    | succ k ih =>
      intro j hj
      rw [List.range_succ, List.foldl_append]
      simp only [List.foldl_cons, List.foldl_nil]
      rcases Nat.lt_or_ge j (k + 1) with h | h
      · obtain ⟨h1, h2⟩ := ih j h
        constructor
        · split
          · rename_i hc; exact le_of_lt (lt_of_lt_of_le hc h1)
          · exact h1
        · split
          · rename_i hc; exact le_of_lt (lt_of_le_of_lt h2 hc)
          · exact h2
      · obtain rfl : j = k + 1 := by omega
        constructor
        · split
          · exact le_refl _
          · rename_i hc; exact not_lt.mp hc
        · split
          · exact le_refl _
          · rename_i hc; exact not_lt.mp hc
  intro j hj
  obtain ⟨k, rfl⟩ : ∃ k, n = k + 1 := ⟨n - 1, by omega⟩
  exact key k j hj

/-- **C35, bounding box, partial.** With all weights equal to 1 the box of `bbox` contains every point of the curve.
Missing: other weights, for which it is false (next theorem). -/
theorem C35_bbox_contains_curve_partial [IsStrictOrderedRing K] (c : Curve K) (hc : Valid c) (hper : c.periodic = false)
    (fuel : Nat) (hf : c.n ≤ fuel) (x : K) (hl : c.U c.degree ≤ x) (hh : x ≤ c.U c.n) (hw : ∀ l, l < c.n → c.P l 3 = 1)
    (col : Nat) : ∃ y, c.evaluate fuel x col = some y ∧ (c.bbox col).1 ≤ y ∧ y ≤ (c.bbox col).2 := by
  obtain ⟨i, lam, _, hpi, hin, hpos, hsum, hev⟩ := C35_convex_hull c hc hper fuel hf x hl hh
    (fun l hl => by rw [hw l hl]; exact one_pos)
  refine ⟨_, hev col, ?_, ?_⟩
  · have : (c.bbox col).1 = ∑ r ∈ range (c.degree + 1), lam r * (c.bbox col).1 := by rw [← sum_mul, hsum, one_mul]
    rw [this]
    apply sum_le_sum
    intro r hr
    have hr' := mem_range.mp hr
    have := (aabbCol_spec c.n c.P col (i - c.degree + r) (by omega)).1
    rw [hw _ (by omega), div_one] at this
    exact mul_le_mul_of_nonneg_left this (hpos r (by omega))
  · have : (c.bbox col).2 = ∑ r ∈ range (c.degree + 1), lam r * (c.bbox col).2 := by rw [← sum_mul, hsum, one_mul]
    rw [this]
    apply sum_le_sum
    intro r hr
    have hr' := mem_range.mp hr
    have := (aabbCol_spec c.n c.P col (i - c.degree + r) (by omega)).2
    rw [hw _ (by omega), div_one] at this
    exact mul_le_mul_of_nonneg_left this (hpos r (by omega))

/-- The same curve with unit weights (examples). -/
def exPoly : Curve ℚ := { exCurve with P := fun i col => if col = 3 then 1 else exCurve.P i col }

theorem exPoly_valid : Valid exPoly := ⟨exCurve_valid.npos, exCurve_valid.knots, exCurve_valid.mono, exCurve_valid.last⟩

example : Valid exPoly ∧ (∀ l, l < exPoly.n → exPoly.P l 3 = 1) ∧ exPoly.bbox 1 = (0, 6) ∧
    exPoly.evaluate 6 (1 / 2) 1 = some (7 / 2) :=
  ⟨exPoly_valid, fun _ _ => rfl, by decide +kernel, by decide +kernel⟩

/-- A line with both weights 2, from 2 to 2 in the first coordinate (examples). -/
def lineW (x0 x1 w0 w1 : ℚ) : Curve ℚ where
  degree := 1
  n := 2
  P := fun i col => if col = 3 then (if i = 0 then w0 else w1) else if col = 0 then (if i = 0 then x0 else x1) else 0
  m := 4
  U := kvec [0, 0, 1, 1]
  periodic := false

theorem lineW_valid (x0 x1 w0 w1 : ℚ) : Valid (lineW x0 x1 w0 w1) := by
  refine ⟨by show 1 < 2; omega, rfl, ?_, by show kvec [0, 0, 1, 1] 1 < kvec [0, 0, 1, 1] 2; norm_num [kvec]⟩
  show MonoUpTo (kvec [0, 0, 1, 1]) 4
  apply monoUpTo_of_step
  intro a ha
  have : a < 3 := by omega
  interval_cases a <;> norm_num [kvec]

/-- **C35, bounding box, refuted.** `bbox` divides the (Cartesian) coordinates by the weight, so with weights different from
1 the box need not meet the curve: control points 2, 2 with weights 2, 2 give the box `[1, 1]`. -/
theorem C35_bbox_contains_curve_refuted : ¬ ∀ (c : Curve ℚ), Valid c → c.periodic = false → (∀ l, l < c.n → 0 < c.P l 3) →
    ∀ x, c.U c.degree ≤ x → x ≤ c.U c.n → ∀ col, col < 3 →
    ∃ y, c.evaluate c.n x col = some y ∧ (c.bbox col).1 ≤ y ∧ y ≤ (c.bbox col).2 := by
  intro h
  obtain ⟨y, h1, h2, h3⟩ := h (lineW 2 2 2 2) (lineW_valid 2 2 2 2) rfl (fun l _ => by simp [lineW]) (1 / 2)
    (by norm_num [lineW, kvec]) (by norm_num [lineW, kvec]) 0 (by omega)
  have e1 : (lineW 2 2 2 2).evaluate 2 (1 / 2) 0 = some 2 := by decide +kernel
  have e2 : (lineW 2 2 2 2).bbox 0 = (1, 1) := by decide +kernel
  have e3 : (lineW 2 2 2 2).evaluate (lineW 2 2 2 2).n (1 / 2) 0 = some 2 := e1
  rw [e3] at h1
  rw [e2] at h3
  cases h1
  norm_num at h3

/-! ## C36 -/

/-- Specification: the homogeneous value `Σ N_l(x) q_l` of column `q` in the spline space of `c`. -/
def specVal (c : Curve K) (q : Nat → K) (x : K) : K := ∑ l ∈ range c.n, q l * bspl c.U c.n x c.degree l

theorem specVal_eq (c : Curve K) (hc : Valid c) (q : Nat → K) (x : K) (i : Nat) (hi : Sp c.U c.n x i) :
    specVal c q x = spline c.U c.degree c.n q x i := by
  have h1 := hc.npos
  have h2 := hc.knots
  rw [specVal, spline]
  exact sum_congr rfl fun l _ => by rw [bspl_eq c.U c.n c.m hc.mono (by omega) hc.last x i hi]

/-- **C34/C35 on curves.** `evaluate` is the textbook rational spline `Σ N_l w_l P_l / Σ N_l w_l` over all control points. -/
theorem C35_evaluate_is_rational_spline (c : Curve K) (hc : Valid c) (hper : c.periodic = false) (fuel : Nat)
    (hf : c.n ≤ fuel) (x : K) (hl : c.U c.degree ≤ x) (hh : x ≤ c.U c.n) (col : Nat) :
    c.evaluate fuel x col = some (specVal c (fun l => c.P l 3 * c.P l col) x / specVal c (fun l => c.P l 3) x) := by
  obtain ⟨i, _, hsp, _, hev⟩ := hc.evaluate_eq hper fuel hf x hl hh
  rw [hev col, specVal_eq c hc _ x i hsp, specVal_eq c hc _ x i hsp]

example : Valid exCurve ∧ specVal exCurve (fun l => exCurve.P l 3 * exCurve.P l 1) (1 / 2) = 11 / 2 ∧
    specVal exCurve (fun l => exCurve.P l 3) (1 / 2) = 3 / 2 ∧ exCurve.evaluate 6 (1 / 2) 1 = some (11 / 3) :=
  ⟨exCurve_valid, by decide +kernel, by decide +kernel, by decide +kernel⟩

theorem insert_valid [IsStrictOrderedRing K] (c : Curve K) (hc : Valid c) (t : K) (span count : Nat) (P' : Nat → Nat → K)
    (h1 : c.degree ≤ span) (h2 : span < c.n) (h3 : c.U span ≤ t) (h4 : t < c.U (span + 1)) :
    Valid { c with n := c.n + count, P := P', m := c.m + count, U := knotInsertionKv c.U t span count } := by
  have hk := hc.knots
  have hnp := hc.npos
  obtain ⟨_, d2, d3⟩ := kv_domain c.U t span c.degree c.n count h1 h2 h4 hc.last
  refine ⟨by show c.degree < c.n + count; omega, by show c.m + count = c.n + count + c.degree + 1; omega,
    kv_mono c.U t span c.m hc.mono (by omega) h3 (le_of_lt h4) count, ?_⟩
  show knotInsertionKv c.U t span count (c.n + count - 1) < knotInsertionKv c.U t span count (c.n + count)
  rw [d2]; exact d3

/-- **C36, the linear part.** Inserting a parameter `t` of `[U[p], U[n])` `count` times, as long as the resulting multiplicity
does not exceed the degree and only knots equal to `t` are within the multiplicity tolerance: the result is well formed, has
`count` more control points and knots, the same degree and the same domain, and each of the four stored columns is
interpolated by the same spline as before at every parameter of the domain, whatever was in the buffers. -/
theorem C36_insert_knot_columns [IsStrictOrderedRing K] (c : Curve K) (hc : Valid c) (fuel : Nat) (eps : K → K) (t : K)
    (count : Nat) (hf : c.n + count ≤ fuel) (hl : c.U c.degree ≤ t) (hh : t < c.U c.n)
    (hsep : ∀ i, i < c.m → |t - c.U i| ≤ eps (c.U i) → c.U i = t)
    (hcount : count + findMultiplicity eps t c.U c.m ≤ c.degree) (init junk : Nat → Nat → K) :
    ∃ c', c.insertKnot fuel eps init junk t count = some c' ∧ Valid c' ∧ c'.n = c.n + count ∧ c'.m = c.m + count ∧
      c'.degree = c.degree ∧ c'.periodic = c.periodic ∧ c'.U c'.degree = c.U c.degree ∧ c'.U c'.n = c.U c.n ∧
      (∀ x, c.U c.degree ≤ x → x ≤ c.U c.n → ∀ col,
        specVal c' (fun l => c'.P l col) x = specVal c (fun l => c.P l col) x) ∧
      ∀ w, (∀ l, l < c.n → c.P l 3 = w) → ∀ l, l < c'.n → c'.P l 3 = w := by
  obtain ⟨span, e, a, b, d, f, he, hpt⟩ := insert_column c hc fuel eps t count hf hl hh hsep hcount init junk
  have hk := hc.knots
  have hnp := hc.npos
  have hv := fun P' => insert_valid c hc t span count P' a b d f
  obtain ⟨d1, d2, d3⟩ := kv_domain c.U t span c.degree c.n count a b f hc.last
  refine ⟨_, he, hv _, rfl, rfl, rfl, rfl, d1, d2, fun x hx1 hx2 col => ?_, fun w hw l hl' => ?_⟩
  · obtain ⟨i, _, _, hsp⟩ := findSpan_sp c.n c.n c.degree x c.U hnp (le_refl _) c.m hc.mono (by omega) hc.last hx1 hx2
    obtain ⟨i', hsp', hs⟩ := iter_spline c.U c.m c.n c.degree hc.mono (by omega) t span a b d f (fun _ => 0) x i hsp count
    rw [specVal_eq c hc _ x i hsp, specVal_eq _ (hv _) _ x i' hsp', ← hs]
    exact spline_const _ _ _ _ _ x i' (fun l hl => hpt col l hl)
  · have := hpt 3 l hl'
    show knotInsertion c.degree c.U c.n (fun a => c.P a 3) t count _ span _ _ l = w
    rw [this, iterPts_congr c.U t span c.degree c.n b _ (fun _ => w) hw count l hl', iterPts_const]

/-- The hypotheses on `exCurve`, inserting the double knot's neighbour 2 (multiplicity 1) once. -/
example : Valid exCurve ∧ exCurve.U exCurve.degree ≤ 2 ∧ (2 : ℚ) < exCurve.U exCurve.n ∧
    (∀ i, i < exCurve.m → |2 - exCurve.U i| ≤ (1 / 100 : ℚ) → exCurve.U i = 2) ∧
    1 + findMultiplicity (fun _ => (1 / 100 : ℚ)) 2 exCurve.U exCurve.m ≤ exCurve.degree := by
  refine ⟨exCurve_valid, by norm_num [exCurve, exU, kvec], by norm_num [exCurve, exU, kvec], ?_, by decide +kernel⟩
  intro i hi
  have : i < 9 := hi
  interval_cases i <;> norm_num [exCurve, exU, kvec]

/-- **C36, partial.** For a non-periodic curve whose weights are all equal (a polynomial curve), `insert_knot` leaves the
value of every coordinate unchanged at every parameter of the domain.  Missing: curves with different weights (false, next
theorem), and multiplicities above the degree, where the code writes out of bounds. -/
theorem C36_insert_knot_partial [IsStrictOrderedRing K] (c : Curve K) (hc : Valid c) (hper : c.periodic = false)
    (fuel : Nat) (eps : K → K) (t : K) (count : Nat) (hf : c.n + count ≤ fuel) (hl : c.U c.degree ≤ t) (hh : t < c.U c.n)
    (hsep : ∀ i, i < c.m → |t - c.U i| ≤ eps (c.U i) → c.U i = t)
    (hcount : count + findMultiplicity eps t c.U c.m ≤ c.degree) (init junk : Nat → Nat → K)
    (w : K) (hw0 : w ≠ 0) (hw : ∀ l, l < c.n → c.P l 3 = w) :
    ∃ c', c.insertKnot fuel eps init junk t count = some c' ∧ Valid c' ∧ c'.n = c.n + count ∧ c'.m = c.m + count ∧
      c'.degree = c.degree ∧ c'.U c'.degree = c.U c.degree ∧ c'.U c'.n = c.U c.n ∧
      ∀ x, c.U c.degree ≤ x → x ≤ c.U c.n → ∀ col, c'.evaluate fuel x col = c.evaluate fuel x col := by
  obtain ⟨c', he, hv, h1, h2, h3, h4, h5, h6, h7, h8⟩ :=
    C36_insert_knot_columns c hc fuel eps t count hf hl hh hsep hcount init junk
  refine ⟨c', he, hv, h1, h2, h3, h5, h6, fun x hx1 hx2 col => ?_⟩
  have hev : ∀ (d : Curve K), Valid d → d.periodic = false → d.n ≤ fuel → d.U d.degree ≤ x → x ≤ d.U d.n →
      (∀ l, l < d.n → d.P l 3 = w) → d.evaluate fuel x col = some (specVal d (fun l => d.P l col) x) := by
    intro d hd hdp hdf hd1 hd2 hdw
    rw [C35_evaluate_is_rational_spline d hd hdp fuel hdf x hd1 hd2 col]
    obtain ⟨i, _, hpi, hsp⟩ := findSpan_sp d.n d.n d.degree x d.U hd.npos (le_refl _) d.m hd.mono
      (by rw [hd.knots]; have := hd.npos; omega) hd.last hd1 hd2
    have e1 : specVal d (fun l => d.P l 3 * d.P l col) x = w * specVal d (fun l => d.P l col) x := by
      rw [specVal, specVal, mul_sum]
      exact sum_congr rfl fun l hl => by rw [hdw l (mem_range.mp hl)]; ring
    have e2 : specVal d (fun l => d.P l 3) x = w := by
      rw [specVal_eq d hd _ x i hsp, spline_const d.U d.degree d.n _ (fun _ => w * 1) x i
        (fun l hl => by rw [hdw l hl, mul_one]), spline_smul,
        spline_ones d.U d.m hd.mono d.degree d.n x i hsp.2.1 hpi hsp.1 (by rw [hd.knots]; have := hsp.1; omega), mul_one]
    rw [e1, e2, mul_div_cancel_left₀ _ hw0]
  rw [hev c hc hper (by omega) hx1 hx2 hw,
    hev c' hv (by rw [h4, hper]) (by omega) (by rw [h5]; exact hx1) (by rw [h6]; exact hx2) (h8 w hw), h7 x hx1 hx2 col]

/-- On the polynomial example: inserting 2 once gives 7 control points and keeps the value at 5/2. -/
example : Valid exPoly ∧ exPoly.evaluate 7 (5 / 2) 1 = some (13 / 4) ∧
    ((exPoly.insertKnot 7 (fun _ => 1 / 100) (fun _ _ => 77) (fun _ _ => 88) 2 1).map
      (fun c => (c.n, (List.range c.m).map c.U, c.evaluate 7 (5 / 2) 1))) =
      some (7, [0, 0, 0, 1, 1, 2, 2, 3, 3, 3], some (13 / 4)) := by
  refine ⟨exPoly_valid, by decide +kernel, by decide +kernel⟩

/-- **C36, refuted.** The code interpolates Cartesian coordinates and weights separately, which changes a rational curve: the
line from 0 to 1 with weights 1 and 2 has value 2/3 at 1/2, and 1/2 after inserting the knot 1/2. -/
theorem C36_insert_knot_refuted : ¬ ∀ (c : Curve ℚ), Valid c → c.periodic = false → (∀ l, l < c.n → 0 < c.P l 3) →
    ∀ (eps : ℚ → ℚ) (t : ℚ) (init junk : Nat → Nat → ℚ), c.U c.degree ≤ t → t < c.U c.n →
    (∀ i, i < c.m → |t - c.U i| ≤ eps (c.U i) → c.U i = t) → 1 + findMultiplicity eps t c.U c.m ≤ c.degree →
    ∃ c', c.insertKnot (c.n + 1) eps init junk t 1 = some c' ∧
      ∀ x, c.U c.degree ≤ x → x ≤ c.U c.n → ∀ col, col < 3 → c'.evaluate (c.n + 1) x col = c.evaluate (c.n + 1) x col := by
  intro h
  obtain ⟨c', h1, h2⟩ := h (lineW 0 1 1 2) (lineW_valid 0 1 1 2) rfl
    (fun l _ => by simp only [lineW, if_true]; split <;> norm_num)
    (fun _ => 1 / 100) (1 / 2) (fun _ _ => 0) (fun _ _ => 0) (by norm_num [lineW, kvec]) (by norm_num [lineW, kvec])
    (by
      intro i hi
      have : i < 4 := hi
      interval_cases i <;> norm_num [lineW, kvec] <;> norm_num [abs_of_neg, abs_of_pos])
    (by decide +kernel)
  have h3 := h2 (1 / 2) (by norm_num [lineW, kvec]) (by norm_num [lineW, kvec]) 0 (by omega)
  have e1 : ((lineW 0 1 1 2).insertKnot 3 (fun _ => 1 / 100) (fun _ _ => 0) (fun _ _ => 0) (1 / 2) 1).map
      (fun c => c.evaluate 3 (1 / 2) 0) = some (some (1 / 2)) := by decide +kernel
  have e2 : (lineW 0 1 1 2).evaluate 3 (1 / 2) 0 = some (2 / 3) := by decide +kernel
  have h1' : (lineW 0 1 1 2).insertKnot 3 (fun _ => 1 / 100) (fun _ _ => 0) (fun _ _ => 0) (1 / 2) 1 = some c' := h1
  have h3' : c'.evaluate 3 (1 / 2) 0 = (lineW 0 1 1 2).evaluate 3 (1 / 2) 0 := h3
  rw [h1'] at e1
  simp only [Option.map_some] at e1
  rw [h3', e2] at e1
  norm_num at e1

/-! ## C55 -/

/-- A closed periodic degree-1 curve on the domain `[1, 4]` through 0, 1, 2, 0 (examples). -/
def exPeriodic : Curve ℚ where
  degree := 1
  n := 4
  P := fun i col => if col = 3 then 1 else if col = 0 then kvec [0, 1, 2, 0] i else 0
  m := 6
  U := kvec [0, 1, 2, 3, 4, 5]
  periodic := true

/-- **C55 refuted.** A curve flagged periodic is not evaluated periodically: the span is looked up at the wrapped parameter
but the basis functions are computed at the parameter as given. -/
theorem C55_periodic_evaluate_refuted : ¬ ∀ (c : Curve ℚ), Valid c → c.periodic = true → (∀ l, l < c.n → c.P l 3 = 1) →
    (∀ col, c.P 0 col = c.P (c.n - 1) col) → ∀ x, c.U c.degree ≤ x → x ≤ c.U c.n → ∀ col,
    c.evaluate 20 (x + (c.U c.n - c.U c.degree)) col = c.evaluate 20 x col := by
  intro h
  have hv : Valid exPeriodic := by
    refine ⟨by decide, rfl, ?_, by show kvec [0, 1, 2, 3, 4, 5] 3 < kvec [0, 1, 2, 3, 4, 5] 4; norm_num [kvec]⟩
    apply monoUpTo_of_step
    intro a ha
    have : a < 5 := by have : a + 1 < 6 := ha
                       omega
    interval_cases a <;> norm_num [exPeriodic, kvec]
  have h1 := h exPeriodic hv rfl (fun _ _ => rfl) (fun col => by
    by_cases h3 : col = 3 <;> by_cases h0 : col = 0 <;> simp [exPeriodic, h3, h0, kvec]) (3 / 2)
    (by norm_num [exPeriodic, kvec]) (by norm_num [exPeriodic, kvec]) 0
  have e1 : exPeriodic.evaluate 20 (3 / 2) 0 = some (1 / 2) := by decide +kernel
  have e2 : exPeriodic.evaluate 20 (3 / 2 + (exPeriodic.U exPeriodic.n - exPeriodic.U exPeriodic.degree)) 0 = some (7 / 2) := by
    decide +kernel
  rw [e1, e2] at h1
  norm_num at h1

/-- **C55, partial.** Inside the domain itself a periodic curve is evaluated like the same curve without the flag.
Missing: parameters outside the domain, where it is false. -/
theorem C55_periodic_evaluate_partial (c : Curve K) (hc : Valid c) (hper : c.periodic = true) (fuel : Nat) (hf : c.n ≤ fuel)
    (x : K) (hl : c.U c.degree ≤ x) (hh : x ≤ c.U c.n) (col : Nat) :
    c.evaluate fuel x col = { c with periodic := false }.evaluate fuel x col := by
  have h1 := hc.npos
  have hk := hc.knots
  have hw1 : wrapUp (c.U c.degree) (c.U c.n - c.U c.degree) fuel x = some x := by
    cases fuel <;> rw [wrapUp, if_neg (not_lt.mpr hl)]
  have hw2 : wrapDown (c.U c.n) (c.U c.n - c.U c.degree) fuel x = some x := by
    cases fuel <;> rw [wrapDown, if_neg (not_lt.mpr hh)]
  have hfs : findSpan fuel (c.n - 1) c.degree x c.U true = findSpan fuel (c.n - 1) c.degree x c.U false := by
    simp only [findSpan, Bool.false_eq_true, if_false, if_true]
    rw [show c.n - 1 + 1 = c.n by omega, hw1]
    simp only
    rw [hw2]
    simp only
    by_cases he : x = c.U c.n
    · rw [if_pos he, if_pos (by rw [he])]
    · rw [if_neg he, if_neg (not_le.mpr (lt_of_le_of_ne hh he)),
        if_neg (not_lt.mpr (le_trans (hc.mono 0 _ (by omega) (by omega)) hl))]
  rw [Curve.evaluate, Curve.evaluate, hper, curvePoint, curvePoint, hfs]

example : exPeriodic.evaluate 20 (5 / 2) 0 = some (3 / 2) ∧
    { exPeriodic with periodic := false }.evaluate 20 (5 / 2) 0 = some (3 / 2) := by
  constructor <;> decide +kernel

end Verif.Nurbs
