import Verif.Nurbs.Insert

/-! Curve-level lemmas. -/

set_option linter.unusedSectionVars false

namespace Verif.Nurbs
open Finset
variable {K : Type} [Field K] [LinearOrder K]

/-- Well-formed curve data: enough control points, the right number of knots, nondecreasing knots, last span not empty. -/
structure Valid (c : Curve K) : Prop where
  npos : c.degree < c.n
  knots : c.m = c.n + c.degree + 1
  mono : MonoUpTo c.U c.m
  last : c.U (c.n - 1) < c.U c.n

theorem cpSums_eq (span p : Nat) (N : Nat → K) (P : Nat → Nat → K) (col : Nat) :
    cpSums span p N P col = (∑ r ∈ range (p + 1), N r * P (span - p + r) 3 * P (span - p + r) col,
      ∑ r ∈ range (p + 1), N r * P (span - p + r) 3) := by
  have : ∀ k, (List.range k).foldl (fun (s : K × K) i =>
      let b := N i * P (span - p + i) 3
      (s.1 + b * P (span - p + i) col, s.2 + b)) (0, 0) =
      (∑ r ∈ range k, N r * P (span - p + r) 3 * P (span - p + r) col, ∑ r ∈ range k, N r * P (span - p + r) 3) := by
    intro k
    induction k with
    | zero => simp
    | succ k ih =>
      rw [List.range_succ, List.foldl_append, ih]
      simp only [List.foldl_cons, List.foldl_nil, sum_range_succ]
  exact this (p + 1)

theorem spline_window (U : Nat → K) (p n : Nat) (P : Nat → K) (x : K) (i : Nat) (hp : p ≤ i) (hn : i < n) :
    spline U p n P x i = ∑ r ∈ range (p + 1), P (i - p + r) * cox (spike i) U x p (i - p + r) := by
  have h1 : spline U p n P x i = spline U p (i + 1) P x i := by
    obtain ⟨d, rfl⟩ : ∃ d, n = i + 1 + d := ⟨n - (i + 1), by omega⟩
    clear hn
    induction d with
    | zero => rfl
    | succ d ih =>
      rw [← ih]
      show spline U p (i + 1 + d + 1) P x i = _
      rw [spline, sum_range_succ, cox_spike_out i U x p _ (Or.inl (by omega)), mul_zero, add_zero]
      rfl
  rw [h1]
  obtain ⟨d, rfl⟩ : ∃ d, i = p + d := ⟨i - p, by omega⟩
  rw [spline, show p + d + 1 = d + (p + 1) by omega, sum_range_add]
  have h0 : ∑ l ∈ range d, P l * cox (spike (p + d)) U x p l = 0 := by
    apply sum_eq_zero
    intro l hl
    have := mem_range.mp hl
    rw [cox_spike_out (p + d) U x p l (Or.inr (by omega)), mul_zero]
  rw [h0, zero_add]
  apply sum_congr rfl
  intro r _
  rw [show p + d - p + r = d + r by omega]

/-- Evaluation at a parameter whose span is `i`: quotient of two splines. -/
theorem curvePoint_eq (fuel n p : Nat) (U : Nat → K) (P : Nat → Nat → K) (u : K) (per : Bool) (col i : Nat)
    (h : findSpan fuel n p u U per = some i) (hp : p ≤ i) (hn : i ≤ n) :
    curvePoint fuel n p U P u per col =
      some (spline U p (n + 1) (fun l => P l 3 * P l col) u i / spline U p (n + 1) (fun l => P l 3) u i) := by
  rw [curvePoint, h]
  simp only
  rw [cpSums_eq]
  dsimp only
  rw [spline_window U p (n + 1) _ u i hp (by omega), spline_window U p (n + 1) _ u i hp (by omega)]
  have e : ∀ r ∈ range (p + 1), basisFuns i u p U (fun _ => 0) r = cox (spike i) U u p (i - p + r) := fun r hr =>
    basisFuns_eq i u U _ p hp r (by have := mem_range.mp hr; omega)
  congr 2
  · apply sum_congr rfl
    intro r hr
    rw [e r hr]; ring
  · apply sum_congr rfl
    intro r hr
    rw [e r hr]; ring

/-- On the domain `find_span` returns the span in the sense of `Sp`. -/
theorem findSpan_sp (fuel n p : Nat) (u : K) (U : Nat → K) (hp : p < n) (hfuel : n ≤ fuel) (m : Nat) (hU : MonoUpTo U m)
    (hm : n < m) (hlast : U (n - 1) < U n) (hl : U p ≤ u) (hh : u ≤ U n) :
    ∃ i, findSpan fuel (n - 1) p u U false = some i ∧ p ≤ i ∧ Sp U n u i := by
  have hn1 : n - 1 + 1 = n := by omega
  by_cases hlt : u < U n
  · obtain ⟨i, e, a, b, c, d⟩ := findSpan_spec fuel (n - 1) p u U (by omega) (by omega) (hU 0 p (by omega) (by omega)) hl
      (by rw [hn1]; exact hlt)
    exact ⟨i, e, a, by omega, lt_of_le_of_lt c d, c, Or.inl d⟩
  · have hu : u = U n := le_antisymm hh (not_lt.mp hlt)
    refine ⟨n - 1, findSpan_end fuel (n - 1) p u U (by rw [hn1, hu]), by omega, by omega, by rw [hn1]; exact hlast, ?_,
      Or.inr ⟨hn1, hu⟩⟩
    rw [hu]; exact le_of_lt hlast

theorem Valid.evaluate_eq {c : Curve K} (hc : Valid c) (hper : c.periodic = false) (fuel : Nat) (hf : c.n ≤ fuel) (x : K)
    (hl : c.U c.degree ≤ x) (hh : x ≤ c.U c.n) : ∃ i, c.degree ≤ i ∧ Sp c.U c.n x i ∧
    findSpan fuel (c.n - 1) c.degree x c.U false = some i ∧
    ∀ col, c.evaluate fuel x col = some (spline c.U c.degree c.n (fun l => c.P l 3 * c.P l col) x i /
      spline c.U c.degree c.n (fun l => c.P l 3) x i) := by
  have h1 := hc.npos
  obtain ⟨i, e, a, b⟩ := findSpan_sp fuel c.n c.degree x c.U hc.npos hf c.m hc.mono (by rw [hc.knots]; omega) hc.last hl hh
  refine ⟨i, a, b, e, fun col => ?_⟩
  have hb := b.1
  rw [Curve.evaluate, hper, curvePoint_eq fuel (c.n - 1) c.degree c.U c.P x false col i e a (by omega),
    show c.n - 1 + 1 = c.n by omega]

theorem spline_const (U : Nat → K) (p n : Nat) (P Q : Nat → K) (x : K) (i : Nat) (h : ∀ l, l < n → P l = Q l) :
    spline U p n P x i = spline U p n Q x i :=
  sum_congr rfl fun l hl => by rw [h l (mem_range.mp hl)]

theorem spline_smul (U : Nat → K) (p n : Nat) (w : K) (P : Nat → K) (x : K) (i : Nat) :
    spline U p n (fun l => w * P l) x i = w * spline U p n P x i := by
  rw [spline, spline, mul_sum]
  exact sum_congr rfl fun l _ => by ring

section mult

theorem foldl_count (f : Nat → Bool) (l : List Nat) : ∀ k, l.foldl (fun (mult : Nat) i => if f i then mult + 1 else mult) k
    = k + l.countP f := by
  induction l with
  | nil => intro k; rfl
  | cons a l ih =>
    intro k
    rw [List.foldl_cons, ih, List.countP_cons]
    split <;> omega

theorem countP_range_le (f : Nat → Bool) (a b : Nat) : ∀ m, (∀ i, i < m → f i = true → a < i ∧ i ≤ b) →
    (List.range m).countP f ≤ min m (b + 1) - (a + 1) := by
  intro m
  induction m with
  | zero => intro _; simp
  | succ m ih =>
    intro h
    have h' := ih (fun i hi => h i (by omega))
    rw [List.range_succ, List.countP_append, List.countP_cons, List.countP_nil]
    by_cases hf : f m = true
    · have := h m (by omega) hf
      rw [if_pos hf]
      omega
    · rw [if_neg (by simpa using hf)]
      omega

theorem findMultiplicity_eq (eps : K → K) (t : K) (U : Nat → K) (m : Nat) :
    findMultiplicity eps t U m = (List.range m).countP (fun i => decide (|t - U i| ≤ eps (U i))) := by
  rw [findMultiplicity]
  have := foldl_count (fun i => decide (|t - U i| ≤ eps (U i))) (List.range m) 0
  simp only [decide_eq_true_eq, Nat.zero_add] at this
  exact this

/-- When only knots equal to `t` are within the tolerance, the counted knots are the last ones of the span. -/
theorem mult_block (eps : K → K) (t : K) (U : Nat → K) (m : Nat) (hU : MonoUpTo U m) (span : Nat) (hs : span + 1 < m)
    (h1 : U span ≤ t) (h2 : t < U (span + 1)) (hsep : ∀ i, i < m → |t - U i| ≤ eps (U i) → U i = t) :
    findMultiplicity eps t U m ≤ span + 1 ∧
    ∀ a, span - findMultiplicity eps t U m < a → a ≤ span → U a = t := by
  have hle : ∀ i, i < m → U i = t → i ≤ span := by
    intro i hi he
    by_contra hcon
    have := hU (span + 1) i (by omega) hi
    rw [he] at this
    exact absurd h2 (not_lt.mpr this)
  rw [findMultiplicity_eq]
  constructor
  · have h3 : ∀ k, k ≤ m → (List.range k).countP (fun i => decide (|t - U i| ≤ eps (U i))) ≤ min k (span + 1) := by
      intro k
      induction k with
      | zero => intro _; simp
      | succ k ih =>
        intro hk
        have := ih (by omega)
        rw [List.range_succ, List.countP_append, List.countP_cons, List.countP_nil]
        by_cases hf : |t - U k| ≤ eps (U k)
        · have := hle k (by omega) (hsep k (by omega) hf)
          rw [if_pos (by simpa using hf)]; omega
        · rw [if_neg (by simpa using hf)]; omega
    have := h3 m (le_refl _)
    omega
  · intro a ha hb
    by_contra hne
    have hlt : U a < t := lt_of_le_of_ne (le_trans (hU a span hb (by omega)) h1) hne
    have := countP_range_le (fun i => decide (|t - U i| ≤ eps (U i))) a span m (fun i hi hf => by
      have he := hsep i hi (by simpa using hf)
      refine ⟨?_, hle i hi he⟩
      by_contra hcon
      have := hU i a (by omega) (by omega)
      rw [he] at this
      exact absurd hlt (not_lt.mpr this))
    omega

end mult

section ordered
variable [IsStrictOrderedRing K]

theorem spline_ones (U : Nat → K) (m : Nat) (hU : MonoUpTo U m) (p n : Nat) (x : K) (i : Nat) (hi : U i < U (i + 1))
    (hp : p ≤ i) (hn : i < n) (hm : i + p < m) : spline U p n (fun _ => 1) x i = 1 := by
  rw [spline_window U p n _ x i hp hn]
  simp only [one_mul]
  exact cox_sum_one U m hU i hi x p hp hm

/-- Effect of `insert_knot` on one column: the spline of the column is unchanged, whatever the weights. -/
theorem insert_column (c : Curve K) (hc : Valid c) (fuel : Nat) (eps : K → K) (t : K) (count : Nat)
    (hf : c.n + count ≤ fuel) (hl : c.U c.degree ≤ t) (hh : t < c.U c.n)
    (hsep : ∀ i, i < c.m → |t - c.U i| ≤ eps (c.U i) → c.U i = t)
    (hcount : count + findMultiplicity eps t c.U c.m ≤ c.degree) (init junk : Nat → Nat → K) :
    ∃ span, findSpan fuel (c.n - 1) c.degree t c.U false = some span ∧ c.degree ≤ span ∧ span < c.n ∧
      c.U span ≤ t ∧ t < c.U (span + 1) ∧
      c.insertKnot fuel eps init junk t count = some { c with
        n := c.n + count
        P := fun i col => knotInsertion c.degree c.U c.n (fun a => c.P a col) t count
          (findMultiplicity eps t c.U c.m) span (fun a => init a col) (fun a => junk a col) i
        m := c.m + count
        U := knotInsertionKv c.U t span count } ∧
      ∀ col i, i < c.n + count →
        knotInsertion c.degree c.U c.n (fun a => c.P a col) t count (findMultiplicity eps t c.U c.m) span
          (fun a => init a col) (fun a => junk a col) i = iterPts c.U t span c.degree (fun a => c.P a col) count i := by
  have h1 := hc.npos
  have h2 := hc.knots
  obtain ⟨span, e, a, b, d, f⟩ := findSpan_spec fuel (c.n - 1) c.degree t c.U (by omega) (by omega)
    (hc.mono 0 _ (by omega) (by omega)) hl (by rw [show c.n - 1 + 1 = c.n by omega]; exact hh)
  have hb := mult_block eps t c.U c.m hc.mono span (by omega) d f hsep
  refine ⟨span, e, a, by omega, d, f, ?_, fun col i hi => ?_⟩
  · rw [Curve.insertKnot, e]
  · exact knotInsertion_eq c.degree c.U c.n _ t count _ span _ _ a (by omega) hcount hb.2 i hi

theorem iterPts_const (U : Nat → K) (u : K) (span p : Nat) (w : K) : ∀ j i, iterPts U u span p (fun _ => w) j i = w := by
  intro j
  induction j with
  | zero => intro i; rfl
  | succ j ih => intro i; rw [iterPts, boehmPts, ih, ih]; ring

theorem iterPts_congr (U : Nat → K) (u : K) (span p n : Nat) (hn : span < n) (P Q : Nat → K) (h : ∀ i, i < n → P i = Q i) :
    ∀ j i, i < n + j → iterPts U u span p P j i = iterPts U u span p Q j i := by
  intro j
  induction j with
  | zero => intro i hi; exact h i hi
  | succ j ih =>
    intro i hi
    rw [iterPts, iterPts, boehmPts, boehmPts]
    by_cases hlt : i < n + j
    · rw [ih i hlt, ih (i - 1) (by omega)]
    · have : ratio (knotInsertionKv U u span (j + 1)) (span + j) u p i = 0 := by
        rw [ratio, if_neg (by omega), if_neg (by omega)]
      rw [this, ih (i - 1) (by omega)]; ring

/-- The knot vector after insertion keeps the domain and stays well formed. -/
theorem kv_domain (U : Nat → K) (t : K) (span p n count : Nat) (hp : p ≤ span) (hn : span < n)
    (h2 : t < U (span + 1)) (hlast : U (n - 1) < U n) :
    knotInsertionKv U t span count p = U p ∧ knotInsertionKv U t span count (n + count) = U n ∧
    knotInsertionKv U t span count (n + count - 1) < U n := by
  refine ⟨by rw [knotInsertionKv, if_pos (by omega)], ?_, ?_⟩
  · rw [knotInsertionKv, if_neg (by omega), if_neg (by omega), Nat.add_sub_cancel]
  · by_cases h : span = n - 1
    · subst h
      rw [show n - 1 + 1 = n by omega] at h2
      rw [knotInsertionKv]
      split
      · rename_i hlt
        rw [show n + count - 1 = n - 1 by omega]; exact hlast
      · rw [if_pos (by omega)]; exact h2
    · rw [knotInsertionKv, if_neg (by omega), if_neg (by omega), show n + count - 1 - count = n - 1 by omega]
      exact hlast

end ordered
end Verif.Nurbs
