import Verif.Knot.Props3
import Verif.Nurbs.Props6

/-!
# C248, C249: knot vectors and knot spans of `knot.py`
-/

set_option linter.unusedSectionVars false

namespace Verif.Knot
open Verif.Nurbs Finset

variable {K : Type} [Field K] [LinearOrder K] [IsStrictOrderedRing K]

/-! ## C248 `generate_knot` -/

theorem linspace_steps (q : Nat) : linspace ((q : K) + 1) (q + 2) = (List.range (q + 2)).map fun i : Nat => (i : K) := by
  have h : ((q : K) + 1) ≠ 0 := by positivity
  unfold linspace
  apply List.map_congr_left
  intro i _
  rw [if_neg (by omega), show q + 2 - 1 = q + 1 by omega]
  push_cast
  rw [div_self h, mul_one]

/-- **C248, clamped.** `generate_knot(p, n)` with more than `p` points has `n + p + 1` knots: `p + 1` zeros, the integers up to
`n - p`, which is repeated `p + 1` times, and with it every set of `n` control points is a clamped curve. -/
theorem C248_clamped (p n : Nat) (hp : 1 ≤ p) (hn : p < n) :
    ∃ ks : List K, generateKnot p n true = some ks ∧ ks.length = n + p + 1 ∧
      (∀ k (h : k < ks.length), ks[k] = if k ≤ p then 0 else if k < n then (k : K) - p else (n : K) - p) ∧
      ∀ P : Nat → Nat → K, Clamped { degree := p, n := n, P := P, m := ks.length, U := fun k => ks.getD k 0, periodic := false } := by
  obtain ⟨q, rfl⟩ : ∃ q, n = p + 1 + q := ⟨n - (p + 1), by omega⟩
  have hseg : ((p + 1 + q : Nat) : Int) - (p + 1) = q := by push_cast; ring
  have e : generateKnot (K := K) p (p + 1 + q) true = some (List.replicate p 0 ++ (List.range (q + 2)).map (fun i : Nat => (i : K)) ++
      List.replicate p ((q : K) + 1)) := by
    unfold generateKnot
    rw [if_neg (by omega)]
    simp only [if_true, hseg]
    rw [if_neg (by omega), show ((q : Int) + 2).toNat = q + 2 by omega]
    push_cast
    rw [linspace_steps]
  have hlen : (List.replicate p (0 : K) ++ (List.range (q + 2)).map (fun i : Nat => (i : K)) ++
      List.replicate p ((q : K) + 1)).length = p + 1 + q + p + 1 := by simp; omega
  have hget : ∀ k (h : k < (List.replicate p (0 : K) ++ (List.range (q + 2)).map (fun i : Nat => (i : K)) ++
      List.replicate p ((q : K) + 1)).length), (List.replicate p (0 : K) ++ (List.range (q + 2)).map (fun i : Nat => (i : K)) ++
      List.replicate p ((q : K) + 1))[k] = if k ≤ p then 0 else if k < p + 1 + q then (k : K) - p else ((p + 1 + q : Nat) : K) - p := by
    intro k hk
    rw [hlen] at hk
    by_cases h1 : k < p
    · rw [if_pos (by omega), List.getElem_append_left (by simp; omega), List.getElem_append_left (by simp; omega)]
      simp
    · by_cases h2 : k < p + (q + 2)
      · rw [List.getElem_append_left (by simp; omega), List.getElem_append_right (by simp; omega)]
        simp only [List.length_replicate, List.getElem_map, List.getElem_range]
        obtain ⟨d, rfl⟩ : ∃ d, k = p + d := ⟨k - p, by omega⟩
        rw [Nat.add_sub_cancel_left]
        by_cases h3 : d = 0
        · subst h3; simp
        · rw [if_neg (by omega)]
          by_cases h4 : p + d < p + 1 + q
          · rw [if_pos h4]; push_cast; ring
          · rw [if_neg h4]
            obtain rfl : d = q + 1 := by omega
            push_cast; ring
      · rw [if_neg (by omega), if_neg (by omega), List.getElem_append_right (by simp; omega)]
        simp only [List.getElem_replicate]
        push_cast; ring
  generalize List.replicate p (0 : K) ++ (List.range (q + 2)).map (fun i : Nat => (i : K)) ++ List.replicate p ((q : K) + 1) = ks
    at e hlen hget
  refine ⟨ks, e, hlen, hget, fun P => ?_⟩
  have hU : ∀ k, k < p + 1 + q + p + 1 → ks.getD k 0 =
        if k ≤ p then 0 else if k < p + 1 + q then (k : K) - p else ((p + 1 + q : Nat) : K) - p := by
    intro k hk
    rw [List.getD_eq_getElem?_getD, List.getElem?_eq_getElem (by rw [hlen]; exact hk), Option.getD_some, hget]
  clear hget e
  have hstep : ∀ k, (if k ≤ p then (0 : K) else if k < p + 1 + q then (k : K) - p else ((p + 1 + q : Nat) : K) - p) ≤
      if k + 1 ≤ p then 0 else if k + 1 < p + 1 + q then ((k + 1 : Nat) : K) - p else ((p + 1 + q : Nat) : K) - p := by
    intro k
    have hq : (0 : K) ≤ q := Nat.cast_nonneg q
    by_cases h1 : k ≤ p
    · rw [if_pos h1]
      by_cases h2 : k + 1 ≤ p
      · rw [if_pos h2]
      · rw [if_neg h2]
        obtain rfl : k = p := by omega
        split_ifs <;> push_cast <;> linarith
    · rw [if_neg h1, if_neg (by omega : ¬ k + 1 ≤ p)]
      by_cases h2 : k < p + 1 + q
      · rw [if_pos h2]
        by_cases h3 : k + 1 < p + 1 + q
        · rw [if_pos h3]; push_cast; linarith
        · rw [if_neg h3]
          obtain rfl : k = p + q := by omega
          push_cast; linarith
      · rw [if_neg h2, if_neg (by omega)]
  have hq : (0 : K) ≤ q := Nat.cast_nonneg q
  constructor
  · refine ⟨by show p < p + 1 + q; omega, hlen, ?_, ?_⟩
    · apply monoUpTo_of_step
      intro a ha
      have ha : a + 1 < ks.length := ha
      rw [hlen] at ha
      show ks.getD a 0 ≤ ks.getD (a + 1) 0
      rw [hU a (by omega), hU (a + 1) (by omega)]
      exact hstep a
    · show ks.getD (p + 1 + q - 1) 0 < ks.getD (p + 1 + q) 0
      rw [hU _ (by omega), hU _ (by omega), if_neg (by omega : ¬ p + 1 + q ≤ p), if_neg (by omega : ¬ p + 1 + q < p + 1 + q),
        show p + 1 + q - 1 = p + q by omega]
      by_cases h : q = 0
      · subst h; rw [if_pos (by omega)]; push_cast; linarith
      · rw [if_neg (by omega), if_pos (by omega)]; push_cast; linarith
  · exact hp
  · rfl
  · show ks.getD 0 0 = ks.getD p 0
    rw [hU 0 (by omega), hU p (by omega), if_pos (by omega), if_pos (by omega)]
  · show ks.getD (ks.length - 1) 0 = ks.getD (p + 1 + q) 0
    rw [hlen, hU _ (by omega), hU _ (by omega), if_neg (by omega), if_neg (by omega), if_neg (by omega), if_neg (by omega)]
  · show ks.getD p 0 < ks.getD (p + 1) 0
    rw [hU _ (by omega), hU _ (by omega), if_pos (by omega), if_neg (by omega)]
    by_cases h : p + 1 < p + 1 + q
    · rw [if_pos h]; push_cast; linarith
    · rw [if_neg h]; push_cast; linarith

example : generateKnot (K := ℚ) 2 5 true = some [0, 0, 0, 1, 2, 3, 3, 3] := by decide +kernel

/-- **C248, unclamped.** The knots are `0, 1, ..., n + p`. -/
theorem C248_unclamped (p n : Nat) (hp : 1 ≤ p) (hn : 1 ≤ n) :
    generateKnot (K := K) p n false = some ((List.range (n + p + 1)).map fun i : Nat => (i : K)) := by
  obtain ⟨q, rfl⟩ : ∃ q, n = q + 1 := ⟨n - 1, by omega⟩
  have hseg : ((p : Int) + ((q + 1 : Nat) : Int) - 1) = ((p + q : Nat) : Int) := by push_cast; ring
  unfold generateKnot
  rw [if_neg (by omega)]
  simp only [Bool.false_eq_true, if_false, hseg]
  rw [if_neg (by omega), show (((p + q : Nat) : Int) + 2).toNat = p + q + 2 by omega]
  have := linspace_steps (K := K) (p + q)
  push_cast at this ⊢
  rw [this]
  simp only [List.nil_append, List.append_nil]
  rw [show p + q + 2 = q + 1 + p + 1 by omega]

example : generateKnot (K := ℚ) 2 2 false = some [0, 1, 2, 3, 4] := by decide +kernel

/-- **C248, refuted part.** With as many points as the degree the result is a constant vector: no error, no curve. -/
theorem C248_few_points_refuted (p : Nat) (hp : 1 ≤ p) :
    generateKnot (K := K) p p true = some (List.replicate (p + p + 1) 0) := by
  have hseg : ((p : Nat) : Int) - (p + 1) = -1 := by ring
  unfold generateKnot
  rw [if_neg (by omega)]
  simp only [if_true, hseg]
  rw [if_neg (by omega), show ((-1 : Int) + 2).toNat = 1 by rfl]
  have : linspace (K := K) (((-1 : Int) : K) + 1) 1 = List.replicate 1 0 := by simp [linspace]
  rw [this]
  have h2 : (((-1 : Int) : K) + 1) = 0 := by norm_num
  rw [h2, ← List.replicate_add, ← List.replicate_add, show p + 1 + p = p + p + 1 by omega]

/-- With one point less the knots even decrease. -/
theorem C248_decreasing_refuted (p : Nat) (hp : 2 ≤ p) :
    generateKnot (K := K) p (p - 1) true = some (List.replicate p 0 ++ List.replicate p (-1)) := by
  obtain ⟨q, rfl⟩ : ∃ q, p = q + 2 := ⟨p - 2, by omega⟩
  have hseg : ((q + 2 - 1 : Nat) : Int) - ((q + 2 : Nat) + 1) = -2 := by
    rw [show q + 2 - 1 = q + 1 by omega]; push_cast; ring
  unfold generateKnot
  rw [if_neg (by omega)]
  simp only [if_true, hseg]
  rw [if_neg (by omega), show ((-2 : Int) + 2).toNat = 0 by rfl]
  have h2 : (((-2 : Int) : K) + 1) = -1 := by norm_num
  rw [h2]
  simp [linspace]

/-- Fewer points, or a zero argument, are rejected. -/
theorem C248_rejects (p n : Nat) (h : p = 0 ∨ n = 0 ∨ n + 1 < p) : generateKnot (K := K) p n true = none := by
  unfold generateKnot
  by_cases h0 : p = 0 ∨ n = 0
  · rw [if_pos h0]
  · rw [if_neg h0]
    simp only [if_true]
    rw [if_pos (by omega)]

/-- **C248** `normalize_knot`: a vector that is not constant is mapped to one from 0 to 1 with the same order and the same ratios;
a constant one raises. -/
theorem C248_normalize (U : Nat → K) (m : Nat) (hU : MonoUpTo U m) (h0 : 0 < m) :
    (U 0 < U (m - 1) → ∃ V, normalizeKnot U m = some V ∧ V 0 = 0 ∧ V (m - 1) = 1 ∧ MonoUpTo V m ∧
      (∀ i j, V i < V j ↔ U i < U j) ∧ ∀ i j, (V i - V j) * (U (m - 1) - U 0) = U i - U j) ∧
    (U 0 = U (m - 1) → normalizeKnot U m = none) := by
  constructor
  · intro h
    have hd : 0 < U (m - 1) - U 0 := sub_pos.2 h
    refine ⟨fun i => (U i - U 0) / (U (m - 1) - U 0), by rw [normalizeKnot]; exact if_neg hd.ne', by simp, div_self hd.ne', ?_, ?_, ?_⟩
    · intro i j hij hj
      exact div_le_div_of_nonneg_right (sub_le_sub_right (hU i j hij hj) _) hd.le
    · intro i j
      rw [div_lt_div_iff_of_pos_right hd]
      simp
    · intro i j
      have : U (m - 1) - U 0 ≠ 0 := hd.ne'
      field_simp
      ring
  · intro h
    rw [normalizeKnot]
    exact if_pos (by rw [h, sub_self])

example : MonoUpTo exPoly.U exPoly.m ∧ exPoly.U 0 < exPoly.U (exPoly.m - 1) := ⟨exPoly_valid.mono, by decide +kernel⟩

/-! ## C249 knot spans -/

theorem binLoop_eq (U : Nat → K) (u : K) : ∀ fuel low high, binLoop U u fuel low high ((low + high) / 2) = spanLoop U u fuel low high := by
  intro fuel
  induction fuel with
  | zero => intros; rfl
  | succ f ih =>
    intro low high
    rw [binLoop, spanLoop, ih, ih]

/-- A parameter above all knots: the loop does not end. -/
theorem spanLoop_above (U : Nat → K) (u : K) : ∀ (fuel low high : Nat), low < high → (∀ k, k ≤ high → U k ≤ u) →
    spanLoop U u fuel low high = none := by
  intro fuel
  induction fuel with
  | zero => intros; rfl
  | succ f ih =>
    intro low high hlh h
    have h1 := h ((low + high) / 2) (by omega)
    have h2 := h ((low + high) / 2 + 1) (by omega)
    rw [spanLoop]
    rw [if_pos (Or.inr h2), if_neg (not_lt.2 h1)]
    exact ih _ _ (by omega) h

/-- **C249** `find_knot_span` (`n` the last index of the control points): inside the domain and at its end the span is that of
the definition. -/
theorem C249_find_knot_span (n p m : Nat) (U : Nat → K) (hU : MonoUpTo U m) (hm : n + 1 < m) (hp : p ≤ n) (u : K)
    (hl : U p ≤ u) (fuel : Nat) (hfuel : n + 1 - p ≤ fuel) :
    (u < U (n + 1) → ∃ i, findKnotSpan fuel n p u U = some i ∧ p ≤ i ∧ i ≤ n ∧ U i ≤ u ∧ u < U (i + 1) ∧
      ∀ j, j + 1 < m → U j ≤ u → u < U (j + 1) → j = i) ∧
    (u = U (n + 1) → findKnotSpan fuel n p u U = some n) := by
  refine ⟨fun hh => ?_, fun hh => if_pos hh⟩
  obtain ⟨i, e, a, b, c, d⟩ := spanLoop_spec U u fuel p (n + 1) (by omega) hfuel hl hh
  refine ⟨i, ?_, a, by omega, c, d, fun j hj h3 h4 => span_unique U m hU u j i hj (by omega) h3 h4 c d⟩
  rw [findKnotSpan, if_neg hh.ne]
  exact e

/-- **C249, refuted part.** Outside the domain `find_knot_span` does not return. -/
theorem C249_outside_refuted (n p m : Nat) (U : Nat → K) (hU : MonoUpTo U m) (hm : n + 1 < m) (hp : p ≤ n) (u : K)
    (h : u < U p ∨ U (n + 1) < u) (fuel : Nat) : findKnotSpan fuel n p u U = none := by
  rw [findKnotSpan]
  rcases h with h | h
  · have h1 := hU p (n + 1) (by omega) hm
    rw [if_neg (h.trans_le h1).ne]
    exact spanLoop_hang U u fuel p (n + 1) (by omega) fun k h1 h2 => h.trans_le (hU p k h1 (by omega))
  · rw [if_neg h.ne']
    exact spanLoop_above U u fuel p (n + 1) (by omega) fun k hk => (hU k (n + 1) hk hm).trans h.le

/-- **C249** `find_span_binsearch` for `n` control points, partial: the parameter is in the domain and further than `tol` from its
end. -/
theorem C249_binsearch_partial (n p m : Nat) (U : Nat → K) (hU : MonoUpTo U m) (hm : n < m) (hp : p < n) (u tol : K)
    (hl : U p ≤ u) (hh : u < U n) (htol : tol < U n - u) (fuel : Nat) (hfuel : n - p + 1 ≤ fuel) :
    ∃ i, findSpanBinsearch fuel p U n u tol = some i ∧ p ≤ i ∧ i < n ∧ U i ≤ u ∧ u < U (i + 1) ∧
      ∀ j, j + 1 < m → U j ≤ u → u < U (j + 1) → j = i := by
  have main : ∃ i, findSpanBinsearch fuel p U n u tol = some i ∧ p ≤ i ∧ i < n ∧ U i ≤ u ∧ u < U (i + 1) := by
    obtain ⟨f, rfl⟩ : ∃ f, fuel = f + 1 := ⟨fuel - 1, by omega⟩
    rw [findSpanBinsearch, show n - 1 + 1 = n by omega, if_neg (not_le.2 (htol.trans_le (le_abs_self _))), binLoop]
    generalize hmid : (p + n + 1) / 2 = mid
    by_cases h1 : u < U mid
    · rw [if_pos (Or.inl h1), if_pos h1, binLoop_eq]
      have : p < mid := by
        by_contra hc
        obtain rfl : mid = p := by omega
        exact absurd h1 (not_lt.2 hl)
      obtain ⟨i, e, a, b, c, d⟩ := spanLoop_spec U u f p mid this (by omega) hl h1
      exact ⟨i, e, a, by omega, c, d⟩
    · have hmn : mid < n := by
        by_contra hc
        obtain rfl : mid = n := by omega
        exact h1 hh
      by_cases h2 : U (mid + 1) ≤ u
      · rw [if_pos (Or.inr h2), if_neg h1, binLoop_eq]
        obtain ⟨i, e, a, b, c, d⟩ := spanLoop_spec U u f mid n hmn (by omega) (not_lt.1 h1) hh
        exact ⟨i, e, by omega, b, c, d⟩
      · rw [if_neg (by tauto)]
        exact ⟨mid, rfl, by omega, hmn, not_lt.1 h1, not_le.1 h2⟩
  obtain ⟨i, e, a, b, c, d⟩ := main
  exact ⟨i, e, a, b, c, d, fun j hj h3 h4 => span_unique U m hU u j i hj (by omega) h3 h4 c d⟩

/-- Within the tolerance of the end of the domain the answer is the last span. -/
theorem C249_binsearch_end (n p : Nat) (U : Nat → K) (u tol : K) (hn : 1 ≤ n) (h : |U n - u| ≤ tol) (fuel : Nat) :
    findSpanBinsearch fuel p U n u tol = some (n - 1) := by
  rw [findSpanBinsearch, show n - 1 + 1 = n by omega, if_pos h]

/-- **C249, refuted part.** If the last span is shorter than the tolerance, the parameters before it and within the tolerance are
put into it although they are not in it; below the domain and above all knots the search does not return. -/
theorem C249_binsearch_refuted (n p m : Nat) (U : Nat → K) (hU : MonoUpTo U m) (hm : n + 1 < m) (hp : p < n) (u tol : K) (fuel : Nat) :
    (u < U (n - 1) → U n - u ≤ tol → findSpanBinsearch fuel p U n u tol = some (n - 1) ∧ ¬ U (n - 1) ≤ u) ∧
    (u < U p → tol < U n - u → findSpanBinsearch fuel p U n u tol = none) ∧
    (U (n + 1) ≤ u → tol < u - U n → findSpanBinsearch fuel p U n u tol = none) := by
  refine ⟨fun h1 h2 => ⟨?_, not_le.2 h1⟩, fun h1 h2 => ?_, fun h1 h2 => ?_⟩
  · have := hU (n - 1) n (by omega) (by omega)
    exact C249_binsearch_end n p U u tol (by omega) (by rw [abs_of_nonneg (by linarith)]; exact h2) fuel
  · rw [findSpanBinsearch, show n - 1 + 1 = n by omega, if_neg (not_le.2 (h2.trans_le (le_abs_self _)))]
    have hb : ∀ k, p ≤ k → k ≤ n → u < U k := fun k hk1 hk2 => h1.trans_le (hU p k hk1 (by omega))
    cases fuel with
    | zero => rfl
    | succ f =>
      have := hb ((p + n + 1) / 2) (by omega) (by omega)
      rw [binLoop, if_pos (Or.inl this), if_pos this, binLoop_eq]
      exact spanLoop_hang U u f p _ (by omega) fun k hk1 hk2 => hb k hk1 (by omega)
  · rw [findSpanBinsearch, show n - 1 + 1 = n by omega,
      if_neg (not_le.2 (h2.trans_le (by rw [abs_sub_comm]; exact le_abs_self _)))]
    have hb : ∀ k, k ≤ n + 1 → U k ≤ u := fun k hk => (hU k (n + 1) hk hm).trans h1
    cases fuel with
    | zero => rfl
    | succ f =>
      rw [binLoop, if_pos (Or.inr (hb _ (by omega))), if_neg (not_lt.2 (hb _ (by omega))), binLoop_eq]
      rcases Nat.lt_or_ge ((p + n + 1) / 2) n with h | h
      · exact spanLoop_above U u f _ n h fun k hk => hb k (by omega)
      · rw [show (p + n + 1) / 2 = n by omega]
        clear h
        induction f with
        | zero => rfl
        | succ f ih =>
          rw [spanLoop]
          rw [show (n + n) / 2 = n by omega, if_pos (Or.inr (hb _ (le_refl _))), if_neg (not_lt.2 (hb n (by omega)))]
          exact ih

/-- The knots `0, 0, 0, 1, 99/100, ...`: with tolerance `1/10` and a last span of `1/100`. -/
example : MonoUpTo exPoly.U exPoly.m ∧ exPoly.degree < exPoly.n ∧ exPoly.U exPoly.degree ≤ (1 / 2 : ℚ) ∧
    (1 / 100 : ℚ) < exPoly.U exPoly.n - 1 / 2 ∧ findSpanBinsearch 9 exPoly.degree exPoly.U exPoly.n (1 / 2) (1 / 100) = some 2 ∧
    findKnotSpan 9 (exPoly.n - 1) exPoly.degree (5 / 2) exPoly.U = some 5 :=
  ⟨exPoly_valid.mono, by decide +kernel, by decide +kernel, by decide +kernel, by decide +kernel, by decide +kernel⟩

/-- The knots 0, 0, 99/100, 1, 1 and tolerance 1/10: the parameter 95/100 is put into the last span. -/
example : let U : Nat → ℚ := fun k => if k < 2 then 0 else if k = 2 then 99 / 100 else 1
    findSpanBinsearch 9 1 U 3 (95 / 100) (1 / 10) = some 2 ∧ (95 / 100 : ℚ) < U 2 ∧ U 3 - 95 / 100 ≤ 1 / 10 := by decide +kernel

end Verif.Knot
