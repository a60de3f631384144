import Verif.Deb.Lemmas
import Mathlib.Tactic.Positivity
import Mathlib.Tactic.NormNum
import Mathlib.Algebra.Order.Field.Rat
import Mathlib.Algebra.BigOperators.Field

/-! Theorems about the recursive basis functions and the evaluator built on them. -/

set_option linter.unusedSectionVars false

namespace Verif.Deb
open Verif.Nurbs Finset
variable {K : Type} [Field K] [LinearOrder K] [IsStrictOrderedRing K]

/-- Outside its support the recursive function is zero. -/
theorem deboor_support (U : Nat → K) (m : Nat) (hU : MonoUpTo U m) (t : K) (p l : Nat) (hl : l + p + 1 < m)
    (h : t < U l ∨ U (l + p + 1) < t) : deboor U t l p = 0 := by
  rw [deboor_cox]
  apply cox_zero
  intro k h1 h2
  unfold hit
  rw [if_neg]
  rintro ⟨a, b⟩
  rcases h with h | h
  · exact absurd (hU l k h1 (by omega)) (not_le.mpr (lt_of_le_of_lt a h))
  · exact absurd (hU (k + 1) (l + p + 1) (by omega) hl) (not_le.mpr (lt_of_lt_of_le h b))

theorem deboor_nonneg (U : Nat → K) (m : Nat) (hU : MonoUpTo U m) (t : K) : ∀ (p l : Nat), l + p + 1 < m →
    0 ≤ deboor U t l p := by
  intro p
  induction p with
  | zero => intro l _; rw [deboor]; split_ifs; exacts [zero_le_one, le_refl _]
  | succ p ih =>
    intro l hl
    rw [deboor]
    apply add_nonneg
    · split_ifs with c
      · exact le_refl _
      · by_cases h : t < U l
        · rw [deboor_support U m hU t p l (by omega) (Or.inl h), mul_zero]
        · exact mul_nonneg (div_nonneg (sub_nonneg.mpr (not_lt.mp h)) (sub_nonneg.mpr (hU _ _ (by omega) (by omega))))
            (ih l (by omega))
    · split_ifs with c
      · exact le_refl _
      · by_cases h : U (l + (p + 1) + 1) < t
        · rw [deboor_support U m hU t p (l + 1) (by omega) (Or.inr (by rwa [show l + 1 + p + 1 = l + (p + 1) + 1 by omega])),
            mul_zero]
        · exact mul_nonneg (div_nonneg (sub_nonneg.mpr (not_lt.mp h)) (sub_nonneg.mpr (hU _ _ (by omega) (by omega))))
            (ih (l + 1) (by omega))

/-- **C191.** Basis functions are never negative, vanish outside `[knots[l], knots[l+p+1]]`, and add up to one at every
parameter strictly inside a span of the domain. -/
theorem C191_unity_partial (U : Nat → K) (p n : Nat) (hU : MonoUpTo U (n + p + 1)) (i : Nat) (hp : p ≤ i) (hn : i < n)
    (t : K) (h1 : U i < t) (h2 : t < U (i + 1)) :
    (∀ l, l < n → 0 ≤ deboor U t l p) ∧ (∀ l, l < n → (t < U l ∨ U (l + p + 1) < t) → deboor U t l p = 0) ∧
    ∑ l ∈ range n, deboor U t l p = 1 := by
  refine ⟨fun l hl => deboor_nonneg U _ hU t p l (by omega), fun l hl h => deboor_support U _ hU t p l (by omega) h, ?_⟩
  rw [← cox_sum_range U _ hU i (h1.trans h2) t p n hp hn (by omega)]
  apply sum_congr rfl
  intro l hl
  exact deboor_inside U _ hU i t (by omega) h1 h2 p l (by have := mem_range.mp hl; omega)

/-- **C191, refuted at knots.** At every knot strictly inside the domain, of any multiplicity, the basis functions of any
degree from one on add up to two: both neighbouring spans count because the degree-0 test is closed at both ends. -/
theorem C191_knots_refuted (U : Nat → K) (p n : Nat) (hp : 1 ≤ p) (hU : MonoUpTo U (n + p + 1)) (j : Nat) (hj : j ≤ n + p)
    (h1 : U p < U j) (h2 : U j < U n) : ∑ l ∈ range n, deboor U (U j) l p = 2 := by
  have hpj : p < j := by
    by_contra h
    exact absurd (hU j p (by omega) (by have := hU; omega)) (not_le.mpr h1)
  have hjn : j < n := by
    by_contra h
    exact absurd (hU n j (by omega) (by omega)) (not_le.mpr h2)
  -- the block of knots equal to `U j`
  obtain ⟨b, hb1, hb2, hb3⟩ : ∃ b, j ≤ b ∧ U b = U j ∧ U j < U (b + 1) ∧ b < n := by
    have : ∀ d, j + d ≤ n → U (j + d) = U j ∨ ∃ b, j ≤ b ∧ U b = U j ∧ U j < U (b + 1) ∧ b < n := by
      intro d
      induction d with
      | zero => intro _; left; rfl
      | succ d ih =>
        intro hd
        rcases ih (by omega) with h | h
        · rcases lt_or_eq_of_le (hU (j + d) (j + (d + 1)) (by omega) (by omega)) with c | c
          · right; exact ⟨j + d, by omega, h, by rw [← h]; exact c, by omega⟩
          · left; rw [← c, h]
        · right; exact h
    rcases this (n - j) (by omega) with h | h
    · rw [show j + (n - j) = n by omega] at h
      rw [h] at h2; exact absurd h2 (lt_irrefl _)
    · exact h
  obtain ⟨hb3, hb4⟩ := hb3
  obtain ⟨a, k, hk, rfl, ha, hblock⟩ := block_start U (n + p + 1) hU (U j) b (by omega) hb2
    (lt_of_le_of_lt (hU 0 p (by omega) (by omega)) h1)
  have hpa : p ≤ a := by
    by_contra h
    have : U p = U j := hblock p (by omega) (by omega)
    rw [this] at h1; exact absurd h1 (lt_irrefl _)
  obtain ⟨q, rfl⟩ : ∃ q, p = q + 1 := ⟨p - 1, by omega⟩
  have ha1 : U a < U (a + 1) := by rw [hblock (a + 1) (by omega) (by omega)]; exact ha
  have hb5 : U (a + k) < U (a + k + 1) := by rw [hb2]; exact hb3
  calc ∑ l ∈ range n, deboor U (U j) l (q + 1)
      = ∑ l ∈ range n, (cox (spike a) U (U j) (q + 1) l + cox (spike (a + k)) U (U j) (q + 1) l) := by
        apply sum_congr rfl
        intro l hl
        exact deboor_at U _ hU a k (U j) hk (by omega) ha hblock hb3 q l (by have := mem_range.mp hl; omega)
    _ = 2 := by
        rw [sum_add_distrib, cox_sum_range U _ hU a ha1 _ _ n hpa (by omega) (by omega),
          cox_sum_range U _ hU (a + k) hb5 _ _ n (by omega) (by omega) (by omega)]
        norm_num

/-- A cubic knot vector with knots `1` (simple) and `2` (double) inside the domain. -/
def exKnots : Nat → ℚ := fun i => [0, 0, 0, 0, 1, 2, 2, 3, 3, 3, 3].getD i 3

theorem exKnots_mono : MonoUpTo exKnots 11 := by
  intro a b hab hb
  interval_cases b <;> interval_cases a <;> norm_num [exKnots]

example : ∑ l ∈ range 7, deboor exKnots (exKnots 4) l 3 = 2 :=
  C191_knots_refuted exKnots 3 7 (by omega) exKnots_mono 4 (by omega) (by norm_num [exKnots]) (by norm_num [exKnots])
example : ∑ l ∈ range 7, deboor exKnots (exKnots 5) l 3 = 2 :=
  C191_knots_refuted exKnots 3 7 (by omega) exKnots_mono 5 (by omega) (by norm_num [exKnots]) (by norm_num [exKnots])
example : ∑ l ∈ range 7, deboor exKnots (1/2) l 3 = 1 :=
  (C191_unity_partial exKnots 3 7 exKnots_mono 3 (by omega) (by omega) (1/2) (by norm_num [exKnots])
    (by norm_num [exKnots])).2.2

/-- A clamped knot vector: `p+1` equal knots at both ends, no knot strictly inside repeated more than `p` times. -/
structure Clamped (U : Nat → K) (p n : Nat) : Prop where
  mono : MonoUpTo U (n + p + 1)
  first : ∀ j, j ≤ p → U j = U p
  last : ∀ j, n ≤ j → j ≤ n + p → U j = U n
  inner : ∀ j, j + p ≤ n + p → U p < U j → U j < U n → U j < U (j + p)

/-- The point of the rational curve on the span `i`, by the Cox-de Boor functions of that span. -/
def point (U w : Nat → K) (P : Nat → XYZ K) (p n : Nat) (t : K) (i : Nat) : XYZ K :=
  let W := ∑ l ∈ range n, cox (spike i) U t p l * w l
  ⟨(∑ l ∈ range n, cox (spike i) U t p l * w l * (P l).x) / W,
   (∑ l ∈ range n, cox (spike i) U t p l * w l * (P l).y) / W,
   (∑ l ∈ range n, cox (spike i) U t p l * w l * (P l).z) / W⟩

theorem evaluate_eq (t : K) (n : Nat) (P : Nat → XYZ K) (U w : Nat → K) (p : Nat) :
    evaluateNurbs t n P U w p =
      ⟨(∑ l ∈ range n, deboor U t l p * w l * (P l).x) / ∑ l ∈ range n, deboor U t l p * w l,
       (∑ l ∈ range n, deboor U t l p * w l * (P l).y) / ∑ l ∈ range n, deboor U t l p * w l,
       (∑ l ∈ range n, deboor U t l p * w l * (P l).z) / ∑ l ∈ range n, deboor U t l p * w l⟩ := by
  unfold evaluateNurbs cevaluateNurbs
  rw [foldl_accumulate]
  simp only [zero_add]

/-- If the code's values are a non-zero multiple of the values of the span, the points agree. -/
theorem evaluate_of_scaled (U w : Nat → K) (P : Nat → XYZ K) (p n : Nat) (t : K) (i : Nat) (c : K) (hc : c ≠ 0)
    (h : ∀ l, l < n → deboor U t l p = c * cox (spike i) U t p l) :
    evaluateNurbs t n P U w p = point U w P p n t i := by
  have key : ∀ f : Nat → K, ∑ l ∈ range n, deboor U t l p * w l * f l =
      c * ∑ l ∈ range n, cox (spike i) U t p l * w l * f l := by
    intro f
    rw [mul_sum]
    apply sum_congr rfl
    intro l hl
    rw [h l (mem_range.mp hl)]; ring
  have key0 : ∑ l ∈ range n, deboor U t l p * w l = c * ∑ l ∈ range n, cox (spike i) U t p l * w l := by
    rw [mul_sum]
    apply sum_congr rfl
    intro l hl
    rw [h l (mem_range.mp hl)]; ring
  rw [evaluate_eq, key0, key, key, key]
  unfold point
  simp only [mul_div_mul_left _ _ hc]

/-- The end of the block of knots equal to `U j`, `j < n`, `U j < U n`. -/
theorem block_end (U : Nat → K) (p n : Nat) (hU : MonoUpTo U (n + p + 1)) (j : Nat) (hj : j ≤ n) (h2 : U j < U n) :
    ∃ b, j ≤ b ∧ b < n ∧ U b = U j ∧ U j < U (b + 1) := by
  have : ∀ d, j + d ≤ n → U (j + d) = U j ∨ ∃ b, j ≤ b ∧ b < n ∧ U b = U j ∧ U j < U (b + 1) := by
    intro d
    induction d with
    | zero => intro _; left; rfl
    | succ d ih =>
      intro hd
      rcases ih (by omega) with h | h
      · rcases lt_or_eq_of_le (hU (j + d) (j + (d + 1)) (by omega) (by omega)) with c | c
        · right; exact ⟨j + d, by omega, by omega, h, by rw [← h]; exact c⟩
        · left; rw [← c, h]
      · right; exact h
  rcases this (n - j) (by omega) with h | h
  · rw [show j + (n - j) = n by omega] at h
    rw [h] at h2; exact absurd h2 (lt_irrefl _)
  · exact h

/-- The code's basis values over a span of the domain, ends included, are one or two times the values of the span. -/
theorem deboor_scaled (U : Nat → K) (p n : Nat) (hp : 1 ≤ p) (hpn : p < n) (hC : Clamped U p n) (i : Nat) (hpi : p ≤ i)
    (hin : i < n) (hi : U i < U (i + 1)) (t : K) (h1 : U i ≤ t) (h2 : t ≤ U (i + 1)) :
    ∃ c : K, (c = 1 ∨ c = 2) ∧ ∀ l, l < n → deboor U t l p = c * cox (spike i) U t p l := by
  have hU := hC.mono
  obtain ⟨q, rfl⟩ : ∃ q, p = q + 1 := ⟨p - 1, by omega⟩
  rcases lt_or_eq_of_le h1 with a1 | a1
  · rcases lt_or_eq_of_le h2 with a2 | a2
    · exact ⟨1, Or.inl rfl, fun l hl => by rw [one_mul]; exact deboor_inside U _ hU i t (by omega) a1 a2 _ l (by omega)⟩
    · -- right end of the span
      rcases lt_or_eq_of_le (hU (i + 1) n (by omega) (by omega)) with c | c
      · obtain ⟨b, hb1, hb2, hb3, hb4⟩ := block_end U (q + 1) n hU (i + 1) (by omega) c
        obtain ⟨k, rfl⟩ : ∃ k, b = i + k := ⟨b - i, by omega⟩
        have hbl : ∀ j, i < j → j ≤ i + k → U j = t := fun j g1 g2 => by
          rw [a2]
          exact le_antisymm (by rw [← hb3]; exact hU j (i + k) g2 (by omega)) (hU (i + 1) j g1 (by omega))
        have hkp : k ≤ q + 1 := by
          by_contra hk
          have := hC.inner (i + 1) (by omega) (lt_of_le_of_lt (hU (q + 1) i hpi (by omega)) hi) c
          rw [hbl (i + 1 + (q + 1)) (by omega) (by omega), a2] at this
          exact absurd this (lt_irrefl _)
        refine ⟨2, Or.inr rfl, fun l hl => ?_⟩
        rw [deboor_at U _ hU i k t (by omega) (by omega) a1 hbl (by rw [a2]; exact hb4) q l (by omega),
          ← cox_continuous U t i k (q + 1) hkp (ne_of_lt a1) hbl (ne_of_gt (by rw [a2]; exact hb4)) l]
        ring
      · refine ⟨1, Or.inl rfl, fun l hl => ?_⟩
        rw [one_mul]
        refine deboor_end U _ hU i t (by omega) a1 (fun j g1 g2 => ?_) q l (by omega)
        rw [a2]
        refine le_antisymm ?_ (hU (i + 1) j g1 g2)
        rw [c, ← hC.last (n + (q + 1)) (by omega) (by omega)]
        exact hU j _ (by omega) (by omega)
  · -- left end of the span
    rcases lt_or_eq_of_le (hU (q + 1) i hpi (by omega)) with c | c
    · obtain ⟨a, k, hk, rfl, ha, hblock⟩ := block_start U _ hU t i (by omega) a1
        (by rw [← a1]; exact lt_of_le_of_lt (hU 0 (q + 1) (by omega) (by omega)) c)
      have hqa : q + 1 ≤ a := by
        by_contra hh
        have := hblock (q + 1) (by omega) hpi
        rw [this, a1] at c; exact absurd c (lt_irrefl _)
      have hkp : k ≤ q + 1 := by
        by_contra hk
        have e1 := hblock (a + 1) (by omega) (by omega)
        have := hC.inner (a + 1) (by omega) (by rw [e1, ← a1]; exact c)
          (by rw [e1, ← a1]; exact lt_of_lt_of_le hi (hU (a + k + 1) n (by omega) (by omega)))
        rw [e1, hblock (a + 1 + (q + 1)) (by omega) (by omega)] at this
        exact absurd this (lt_irrefl _)
      have h3 : t < U (a + k + 1) := by rw [← a1]; exact hi
      refine ⟨2, Or.inr rfl, fun l hl => ?_⟩
      rw [deboor_at U _ hU a k t hk (by omega) ha hblock h3 q l (by omega),
        cox_continuous U t a k (q + 1) hkp (ne_of_lt ha) hblock (ne_of_gt h3) l]
      ring
    · refine ⟨1, Or.inl rfl, fun l hl => ?_⟩
      rw [one_mul]
      refine deboor_start U _ hU i t (by omega) (fun j hj => ?_) (by rw [← a1]; exact hi) q l (by omega)
      rw [← a1]
      refine le_antisymm (hU j i hj (by omega)) ?_
      rw [← c, ← hC.first 0 (by omega)]
      exact hU 0 j (by omega) (by omega)

/-- **C192.** On a clamped knot vector whose inner knots have multiplicity at most the degree, `evaluate_nurbs` returns the
point of the rational curve at every parameter of every span, both ends included. -/
theorem C192_evaluate (U w : Nat → K) (P : Nat → XYZ K) (p n : Nat) (hp : 1 ≤ p) (hpn : p < n) (hC : Clamped U p n)
    (i : Nat) (hpi : p ≤ i) (hin : i < n) (hi : U i < U (i + 1)) (t : K) (h1 : U i ≤ t) (h2 : t ≤ U (i + 1)) :
    evaluateNurbs t n P U w p = point U w P p n t i := by
  obtain ⟨c, hc, h⟩ := deboor_scaled U p n hp hpn hC i hpi hin hi t h1 h2
  exact evaluate_of_scaled U w P p n t i c (by rcases hc with rfl | rfl <;> norm_num) h

/-- **C192.** The curve starts in the first control point and ends in the last. -/
theorem C192_ends (U w : Nat → K) (P : Nat → XYZ K) (p n : Nat) (hp : 1 ≤ p) (hpn : p < n) (hC : Clamped U p n)
    (h1 : U p < U (p + 1)) (h2 : U (n - 1) < U n) (hw0 : w 0 ≠ 0) (hw1 : w (n - 1) ≠ 0) :
    evaluateNurbs (U p) n P U w p = P 0 ∧ evaluateNurbs (U n) n P U w p = P (n - 1) := by
  have collapse : ∀ (t : K) (i s : Nat), s < n → w s ≠ 0 →
      (∀ l, cox (spike i) U t p l = if l = s then 1 else 0) → point U w P p n t i = P s := by
    intro t i s hs hw h
    unfold point
    simp only [h, ite_mul, one_mul, zero_mul, sum_ite_eq', mem_range, hs, if_true]
    rw [mul_div_cancel_left₀ _ hw, mul_div_cancel_left₀ _ hw, mul_div_cancel_left₀ _ hw]
  constructor
  · rw [C192_evaluate U w P p n hp hpn hC p (le_refl _) hpn h1 _ (le_refl _) h1.le]
    refine collapse _ _ 0 (by omega) hw0 (fun l => ?_)
    rw [cox_right p U (U p) (ne_of_gt h1) p (le_refl _) (fun k _ hk => hC.first k hk), Nat.sub_self]
  · have e : n - 1 + 1 = n := by omega
    rw [C192_evaluate U w P p n hp hpn hC (n - 1) (by omega) (by omega) (by rw [e]; exact h2) _ h2.le (by rw [e])]
    refine collapse _ _ (n - 1) (by omega) hw1 (fun l => ?_)
    exact cox_left (n - 1) U (U n) (ne_of_lt h2) p (fun k hk1 hk2 => hC.last k (by omega) (by omega)) l

/-- **C193.** With positive weights the point lies in every half space that contains the control points, at every parameter
of the domain of a clamped knot vector. -/
theorem C193_hull (U w : Nat → K) (P : Nat → XYZ K) (p n : Nat) (hp : 1 ≤ p) (hpn : p < n) (hC : Clamped U p n)
    (hw : ∀ l, l < n → 0 < w l) (i : Nat) (hpi : p ≤ i) (hin : i < n) (hi : U i < U (i + 1)) (t : K) (h1 : U i ≤ t)
    (h2 : t ≤ U (i + 1)) (a b c d : K) (hP : ∀ l, l < n → a * (P l).x + b * (P l).y + c * (P l).z ≤ d) :
    a * (evaluateNurbs t n P U w p).x + b * (evaluateNurbs t n P U w p).y + c * (evaluateNurbs t n P U w p).z ≤ d := by
  have hnn : ∀ l, l < n → 0 ≤ deboor U t l p := fun l hl => deboor_nonneg U _ hC.mono t p l (by omega)
  have hsum : 0 < ∑ l ∈ range n, deboor U t l p := by
    obtain ⟨e, he, h⟩ := deboor_scaled U p n hp hpn hC i hpi hin hi t h1 h2
    rw [sum_congr rfl (fun l hl => h l (mem_range.mp hl)), ← mul_sum,
      cox_sum_range U _ hC.mono i hi t p n hpi hin (by omega), mul_one]
    rcases he with rfl | rfl <;> norm_num
  obtain ⟨s, hs, hs0⟩ : ∃ s ∈ range n, 0 < deboor U t s p := by
    by_contra hh
    push Not at hh
    exact absurd hsum (not_lt.mpr (sum_nonpos hh))
  have hW : 0 < ∑ l ∈ range n, deboor U t l p * w l :=
    sum_pos' (fun l hl => mul_nonneg (hnn l (mem_range.mp hl)) (hw l (mem_range.mp hl)).le)
      ⟨s, hs, mul_pos hs0 (hw s (mem_range.mp hs))⟩
  rw [evaluate_eq]
  dsimp only
  rw [show ∀ A B C W : K, a * (A / W) + b * (B / W) + c * (C / W) = (a * A + b * B + c * C) / W from
    fun A B C W => by ring, div_le_iff₀ hW, mul_sum, mul_sum, mul_sum, mul_sum, ← sum_add_distrib, ← sum_add_distrib]
  apply sum_le_sum
  intro l hl
  have hl := mem_range.mp hl
  have := mul_le_mul_of_nonneg_left (hP l hl) (mul_nonneg (hnn l hl) (hw l hl).le)
  linarith

/-- **C194.** What the batch evaluator computes: each row is the point of the curve plus the previous row divided by the
sum of weighted basis values. -/
theorem multi_row (n : Nat) (P : Nat → XYZ K) (U w : Nat → K) (p : Nat) (t : K) (r : XYZ K) :
    cevaluateNurbs t n P U w p r =
      ⟨(evaluateNurbs t n P U w p).x + r.x / ∑ l ∈ range n, deboor U t l p * w l,
       (evaluateNurbs t n P U w p).y + r.y / ∑ l ∈ range n, deboor U t l p * w l,
       (evaluateNurbs t n P U w p).z + r.z / ∑ l ∈ range n, deboor U t l p * w l⟩ := by
  rw [evaluate_eq]
  unfold cevaluateNurbs
  rw [foldl_accumulate]
  dsimp only
  congr 1 <;> rw [add_div, add_comm]

theorem multiLoop_length (n : Nat) (P : Nat → XYZ K) (U w : Nat → K) (p : Nat) : ∀ (ts : List K) (r : XYZ K),
    (multiLoop n P U w p ts r).length = ts.length := by
  intro ts
  induction ts with
  | nil => intro r; rfl
  | cons t ts ih => intro r; rw [multiLoop]; simp [ih]

theorem multiLoop_succ (n : Nat) (P : Nat → XYZ K) (U w : Nat → K) (p : Nat) : ∀ (ts : List K) (r : XYZ K) (j : Nat)
    (t : K) (q : XYZ K), ts[j + 1]? = some t → (multiLoop n P U w p ts r)[j]? = some q →
    (multiLoop n P U w p ts r)[j + 1]? = some (cevaluateNurbs t n P U w p q) := by
  intro ts
  induction ts with
  | nil => intro r j t q h; simp at h
  | cons s ts ih =>
    intro r j t q h1 h2
    rw [multiLoop] at h2 ⊢
    simp only [List.getElem?_cons_succ] at h1 ⊢
    cases j with
    | zero =>
      simp only [List.getElem?_cons_zero, Option.some.injEq] at h2
      cases ts with
      | nil => simp at h1
      | cons u ts =>
        simp only [List.getElem?_cons_zero, Option.some.injEq] at h1
        rw [multiLoop, List.getElem?_cons_zero, h1, h2]
    | succ j =>
      simp only [List.getElem?_cons_succ] at h2
      exact ih _ j t q h1 h2

/-- **C194, the part that holds.** One row per parameter, and the first row is the point `evaluate_nurbs` returns. -/
theorem C194_first_partial (n : Nat) (P : Nat → XYZ K) (U w : Nat → K) (p : Nat) (t : K) (ts : List K) :
    (evaluateNurbsMulti (t :: ts) n P U w p).length = ts.length + 1 ∧
    (evaluateNurbsMulti (t :: ts) n P U w p)[0]? = some (evaluateNurbs t n P U w p) := by
  constructor
  · unfold evaluateNurbsMulti; rw [multiLoop_length, List.length_cons]
  · rfl

/-- **C194, refuted.** Every later row is wrong unless the row before it is the origin: the accumulator is not cleared
between parameters. -/
theorem C194_rows_refuted (n : Nat) (P : Nat → XYZ K) (U w : Nat → K) (p : Nat) (hp : 1 ≤ p) (hpn : p < n)
    (hC : Clamped U p n) (hw : ∀ l, l < n → 0 < w l) (ts : List K) (j i : Nat) (t : K) (q : XYZ K)
    (hpi : p ≤ i) (hin : i < n) (hi : U i < U (i + 1)) (h1 : U i ≤ t) (h2 : t ≤ U (i + 1))
    (ht : ts[j + 1]? = some t) (hq : (evaluateNurbsMulti ts n P U w p)[j]? = some q) (hq0 : q ≠ ⟨0, 0, 0⟩) :
    (evaluateNurbsMulti ts n P U w p)[j + 1]? ≠ some (evaluateNurbs t n P U w p) := by
  unfold evaluateNurbsMulti at hq ⊢
  rw [multiLoop_succ n P U w p ts _ j t q ht hq, multi_row]
  have hnn : ∀ l, l < n → 0 ≤ deboor U t l p := fun l hl => deboor_nonneg U _ hC.mono t p l (by omega)
  have hsum : 0 < ∑ l ∈ range n, deboor U t l p := by
    obtain ⟨e, he, h⟩ := deboor_scaled U p n hp hpn hC i hpi hin hi t h1 h2
    rw [sum_congr rfl (fun l hl => h l (mem_range.mp hl)), ← mul_sum,
      cox_sum_range U _ hC.mono i hi t p n hpi hin (by omega), mul_one]
    rcases he with rfl | rfl <;> norm_num
  obtain ⟨s, hs, hs0⟩ : ∃ s ∈ range n, 0 < deboor U t s p := by
    by_contra hh
    push Not at hh
    exact absurd hsum (not_lt.mpr (sum_nonpos hh))
  have hW : 0 < ∑ l ∈ range n, deboor U t l p * w l :=
    sum_pos' (fun l hl => mul_nonneg (hnn l (mem_range.mp hl)) (hw l (mem_range.mp hl)).le)
      ⟨s, hs, mul_pos hs0 (hw s (mem_range.mp hs))⟩
  intro h
  rw [Option.some.injEq] at h
  apply hq0
  have cancel : ∀ A B : K, A + B / ∑ l ∈ range n, deboor U t l p * w l = A → B = 0 := by
    intro A B e
    have e' : B / ∑ l ∈ range n, deboor U t l p * w l = 0 := by linarith
    exact (div_eq_zero_iff.mp e').resolve_right hW.ne'
  have hx := congrArg XYZ.x h
  have hy := congrArg XYZ.y h
  have hz := congrArg XYZ.z h
  dsimp only at hx hy hz
  cases q
  simp only [XYZ.mk.injEq]
  exact ⟨cancel _ _ hx, cancel _ _ hy, cancel _ _ hz⟩

/-- A cubic knot vector with a simple and a double inner knot is clamped. -/
theorem exKnots_clamped : Clamped exKnots 3 7 where
  mono := exKnots_mono
  first := by intro j hj; interval_cases j <;> norm_num [exKnots]
  last := by intro j h1 h2; interval_cases j <;> norm_num [exKnots]
  inner := by
    intro j hj h1 h2
    have : j ≤ 7 := by omega
    revert h1 h2
    interval_cases j <;> norm_num [exKnots]

def exPts : Nat → XYZ ℚ := fun i => ⟨i, i * i, 1⟩
def exW : Nat → ℚ := fun i => i + 1

example : evaluateNurbs 0 7 exPts exKnots exW 3 = exPts 0 ∧ evaluateNurbs 3 7 exPts exKnots exW 3 = exPts 6 := by
  have := C192_ends exKnots exW exPts 3 7 (by omega) (by omega) exKnots_clamped (by norm_num [exKnots])
    (by norm_num [exKnots]) (by norm_num [exW]) (by norm_num [exW])
  simpa [exKnots] using this
/-- At the double knot `2` the span on its left gives the point. -/
example : evaluateNurbs 2 7 exPts exKnots exW 3 = point exKnots exW exPts 3 7 2 4 :=
  C192_evaluate exKnots exW exPts 3 7 (by omega) (by omega) exKnots_clamped 4 (by omega) (by omega)
    (by norm_num [exKnots]) 2 (by norm_num [exKnots]) (by norm_num [exKnots])
example : (evaluateNurbsMulti [0, 1] 7 exPts exKnots exW 3)[1]? ≠ some (evaluateNurbs 1 7 exPts exKnots exW 3) := by
  refine C194_rows_refuted 7 exPts exKnots exW 3 (by omega) (by omega) exKnots_clamped
    (fun l _ => by unfold exW; positivity) [0, 1] 0 3 1 (evaluateNurbs 0 7 exPts exKnots exW 3) (by omega) (by omega)
    (by norm_num [exKnots]) (by norm_num [exKnots]) (by norm_num [exKnots]) rfl rfl ?_
  have := (C192_ends exKnots exW exPts 3 7 (by omega) (by omega) exKnots_clamped (by norm_num [exKnots])
    (by norm_num [exKnots]) (by norm_num [exW]) (by norm_num [exW])).1
  rw [show exKnots 3 = 0 by norm_num [exKnots]] at this
  rw [this]
  intro h
  have := congrArg XYZ.z h
  norm_num [exPts] at this

end Verif.Deb
