import Verif.Spl.Props
import Mathlib.Topology.Algebra.Polynomial
import Mathlib.Topology.Order.OrderClosed

/-! # C337, C338: continuity of curves and of their derivatives -/

set_option linter.unusedSectionVars false

namespace Verif.Spl
open Finset Polynomial Verif.Nurbs Verif.NDer

/-- No knot strictly inside the domain occurs more than `s` times. -/
def MultLe (c : Curve ℝ) (s : Nat) : Prop := ∀ k, k + s < c.m → c.U c.degree < c.U k → c.U k < c.U c.n → c.U k < c.U (k + s)

/-- The spans on both sides of an inner parameter are at most as far apart as knots may coincide. -/
theorem span_dist (c : Curve ℝ) (hc : Valid c) (s : Nat) (hs : MultLe c s) (x : ℝ) (i j : Nat) (hi : Sp c.U c.n x i) (hji : j ≤ i)
    (hx : c.U c.degree < x) (hall : ∀ k, j < k → k ≤ i → c.U k = x) : i ≤ j + s := by
  have hk := hc.knots
  by_contra hcon
  have e1 := hall (j + 1) (by omega) (by omega)
  have e2 := hall (j + 1 + s) (by omega) (by omega)
  have hi1 := hi.1
  have e3 := hall i (by omega) (le_refl _)
  have hlt : x < c.U c.n := by
    rcases hi.2.2.2 with h | ⟨h, h'⟩
    · exact lt_of_lt_of_le h (hc.mono _ _ (by omega) (by omega))
    · have := hi.2.1
      rw [h, e3] at this
      exact this
  have := hs (j + 1) (by omega) (by rw [e1]; exact hx) (by rw [e1]; exact hlt)
  rw [e1, e2] at this
  exact lt_irrefl _ this

theorem exists_span (c : Curve ℝ) (hc : Valid c) (x : ℝ) (hl : c.U c.degree ≤ x) (hh : x ≤ c.U c.n) : ∃ i, c.degree ≤ i ∧ Sp c.U c.n x i := by
  have hk := hc.knots
  obtain ⟨i, _, a, b⟩ := findSpan_sp c.n c.n c.degree x c.U hc.npos (le_refl _) c.m hc.mono (by omega) hc.last hl hh
  exact ⟨i, a, b⟩

/-- From the right a function made of polynomials is continuous. -/
theorem glue_right (c : Curve ℝ) (f : ℝ → ℝ) (T : ℝ[X]) (x : ℝ) (i : Nat) (hsp : Sp c.U c.n x i) (hT : ∀ y, Sp c.U c.n y i → f y = T.eval y)
    (hx : x < c.U c.n) : HasDerivWithinAt f ((Polynomial.derivative T).eval x) (Set.Ici x) x := by
  have hlt : x < c.U (i + 1) := by
    rcases hsp.2.2.2 with h | ⟨_, h⟩
    · exact h
    · exact absurd h (ne_of_lt hx)
  refine ((T.hasDerivAt x).hasDerivWithinAt (s := Set.Ici x)).congr_of_eventuallyEq ?_ (hT x hsp)
  have : Set.Iio (c.U (i + 1)) ∈ nhdsWithin x (Set.Ici x) := mem_nhdsWithin_of_mem_nhds (Iio_mem_nhds hlt)
  filter_upwards [this, self_mem_nhdsWithin] with y hy hy'
  exact hT y ⟨hsp.1, hsp.2.1, le_trans hsp.2.2.1 hy', Or.inl hy⟩

/-- From the left too, if the polynomial before the parameter has the same value there. -/
theorem glue_left (c : Curve ℝ) (f : ℝ → ℝ) (T : ℝ[X]) (x : ℝ) (j : Nat) (hj : c.U j < x) (hsp : ∀ y, c.U j ≤ y → y < x → Sp c.U c.n y j)
    (hT : ∀ y, Sp c.U c.n y j → f y = T.eval y) (hx : f x = T.eval x) : HasDerivWithinAt f ((Polynomial.derivative T).eval x) (Set.Iic x) x := by
  refine ((T.hasDerivAt x).hasDerivWithinAt (s := Set.Iic x)).congr_of_eventuallyEq ?_ hx
  have : Set.Ioi (c.U j) ∈ nhdsWithin x (Set.Iic x) := mem_nhdsWithin_of_mem_nhds (Ioi_mem_nhds hj)
  filter_upwards [this, self_mem_nhdsWithin] with y hy hy'
  rcases lt_or_eq_of_le (Set.mem_Iic.1 hy') with h | h
  · exact hT y (hsp y (le_of_lt hy) h)
  · rw [h]; exact hx

/-- Polynomial pieces that agree at the knots make a continuous function on the domain. -/
theorem glue_continuous (c : Curve ℝ) (hc : Valid c) (s : Nat) (hs : MultLe c s) (f : ℝ → ℝ) (T : Nat → ℝ[X])
    (hT : ∀ i y, c.degree ≤ i → Sp c.U c.n y i → f y = (T i).eval y)
    (hj : ∀ j i x, c.degree ≤ j → j ≤ i → i ≤ j + s → Sp c.U c.n x i → c.U j < x → c.U j < c.U (j + 1) → (∀ k, j < k → k ≤ i → c.U k = x) →
      (T j).eval x = (T i).eval x) : ContinuousOn f (Set.Icc (c.U c.degree) (c.U c.n)) := by
  have hk := hc.knots
  intro x hx
  obtain ⟨i, hpi, hsp⟩ := exists_span c hc x hx.1 hx.2
  have hr : ContinuousWithinAt f (Set.Icc (c.U c.degree) (c.U c.n) ∩ Set.Ici x) x := by
    rcases lt_or_eq_of_le hx.2 with h | h
    · exact (glue_right c f (T i) x i hsp (fun y hy => hT i y hpi hy) h).continuousWithinAt.mono Set.inter_subset_right
    · refine (continuousWithinAt_singleton (f := f) (x := x)).mono ?_
      rintro y ⟨⟨_, h1⟩, h2⟩
      exact le_antisymm (h1.trans h.ge) h2
  have hl : ContinuousWithinAt f (Set.Icc (c.U c.degree) (c.U c.n) ∩ Set.Iic x) x := by
    rcases lt_or_eq_of_le hx.1 with h | h
    · obtain ⟨j, hpj, hji, hjx, hjj, hall, hyj⟩ := prev_span c.U c.m c.n c.degree hc.mono (by omega) x i hsp hpi h
      have hd := span_dist c hc s hs x i j hsp hji h hall
      refine (glue_left c f (T j) x j hjx hyj (fun y hy => hT j y hpj hy) ?_).continuousWithinAt.mono Set.inter_subset_right
      rw [hT i x hpi hsp, hj j i x hpj hji hd hsp hjx hjj hall]
    · refine (continuousWithinAt_singleton (f := f) (x := x)).mono ?_
      rintro y ⟨⟨h1, _⟩, h2⟩
      exact le_antisymm h2 (h.ge.trans h1)
  refine (hr.union hl).mono ?_
  intro y hy
  rcases le_total x y with h | h
  · exact Or.inl ⟨hy, h⟩
  · exact Or.inr ⟨hy, h⟩

/-- The polynomials of one column and their derivatives. -/
theorem pieces_join (c : Curve ℝ) (hc : Valid c) (P : Nat → ℝ) (k s : Nat) (hk : s + k ≤ c.degree) :
    ∀ j i x, c.degree ≤ j → j ≤ i → i ≤ j + s → Sp c.U c.n x i → c.U j < x → c.U j < c.U (j + 1) → (∀ l, j < l → l ≤ i → c.U l = x) →
      (Polynomial.derivative^[k] (splineP j c.U c.degree P)).eval x = (Polynomial.derivative^[k] (splineP i c.U c.degree P)).eval x := by
  intro j i x hpj hji hd hsp hjx hjj hall
  have hkn := hc.knots
  have hi := hsp.1
  rcases eq_or_lt_of_le hji with h | h
  · rw [h]
  · refine piece_join c.U c.m hc.mono j i hji hjj hsp.2.1 c.degree hpj (by omega) P k x (ne_of_lt hjx) ?_ hall (by omega)
    have := hall i h (le_refl _)
    have h2 := hsp.2.1
    rw [this] at h2
    exact ne_of_gt h2

/-! ## C337 -/

/-- C337: a curve with positive weights is continuous on its whole domain, if no inner knot occurs more often than the degree. -/
theorem C337_continuous (c : Curve ℝ) (hc : Valid c) (hper : c.periodic = false) (hw : ∀ l, l < c.n → 0 < c.P l 3) (hs : MultLe c c.degree)
    (fuel : Nat) (hf : c.n ≤ fuel) (col : Nat) :
    ContinuousOn (fun t => valueAt (c.evaluate fuel t col)) (Set.Icc (c.U c.degree) (c.U c.n)) := by
  have key : ∀ q : Nat → ℝ, ContinuousOn (specVal c q) (Set.Icc (c.U c.degree) (c.U c.n)) := fun q =>
    glue_continuous c hc c.degree hs _ (fun i => splineP i c.U c.degree q)
      (fun i y hpi hy => by rw [specVal_eq c hc _ y i hy, eval_splineP i c.U c.degree c.n _ y hpi hy.1])
      (pieces_join c hc q 0 c.degree (le_refl _))
  have hq := (key fun l => c.P l 3 * c.P l col).div (key fun l => c.P l 3) (fun x hx => by
    obtain ⟨i, hpi, hsp⟩ := exists_span c hc x hx.1 hx.2
    rw [specVal_eq c hc _ x i hsp]
    exact ne_of_gt (spline_pos c hc x i hpi hsp _ hw))
  refine hq.congr fun x hx => ?_
  show valueAt (c.evaluate fuel x col) = _
  rw [C35_evaluate_is_rational_spline c hc hper fuel hf x hx.1 hx.2 col]
  rfl

/-- The condition on the knots cannot be dropped: at an inner knot that occurs more often than the degree, the curve jumps from one control
point to another one. -/
theorem C337_jump (c : Curve ℝ) (hc : Valid c) (hper : c.periodic = false) (j i : Nat) (hpj : c.degree ≤ j) (hi : i < c.n) (x : ℝ)
    (hji : j + c.degree + 1 ≤ i) (hj : c.U j < x) (hall : ∀ k, j < k → k ≤ i → c.U k = x) (hix : x < c.U (i + 1)) (hwj : c.P j 3 ≠ 0)
    (hwi : c.P (i - c.degree) 3 ≠ 0) (fuel : Nat) (hf : c.n ≤ fuel) (col : Nat) (hne : c.P j col ≠ c.P (i - c.degree) col) :
    ¬ContinuousOn (fun t => valueAt (c.evaluate fuel t col)) (Set.Icc (c.U c.degree) (c.U c.n)) := by
  have hk := hc.knots
  have hnp := hc.npos
  have hjn : c.U (j + 1) = x := hall _ (by omega) (by omega)
  have hval : valueAt (c.evaluate fuel x col) = c.P (i - c.degree) col := by
    rw [C339_knot c hc hper fuel hf i (by omega) hi x (fun k a b => hall k (by omega) b) (hall i (by omega) (le_refl _)).le hix hwi col]
    rfl
  intro hcont
  have hxd : x ∈ Set.Icc (c.U c.degree) (c.U c.n) :=
    ⟨(hc.mono _ _ hpj (by omega)).trans hj.le, hix.le.trans (hc.mono _ _ (by omega) (by omega))⟩
  have hcw := (hcont x hxd).mono (show Set.Ico (c.U j) x ⊆ Set.Icc (c.U c.degree) (c.U c.n) from fun y hy =>
    ⟨(hc.mono _ _ hpj (by omega)).trans hy.1, hy.2.le.trans hxd.2⟩)
  have hspj : ∀ y ∈ Set.Ico (c.U j) x, Sp c.U c.n y j := fun y hy => ⟨by omega, by rw [hjn]; exact hj, hy.1, Or.inl (by rw [hjn]; exact hy.2)⟩
  have hend : ∀ q : Nat → ℝ, (splineP j c.U c.degree q).eval x = q j := by
    intro q
    rw [eval_splineP j c.U c.degree c.n q x hpj (by omega)]
    have h2 := cox_right c.U j x (ne_of_lt hj) c.degree (fun k a b => hall k a (by omega))
    unfold spline
    rw [sum_eq_single j]
    · rw [h2]; simp [spike]
    · intro l _ hl
      rw [h2]; simp [spike, hl]
    · intro h
      exact absurd (mem_range.2 (by omega)) h
  have hev : ∀ y ∈ Set.Ico (c.U j) x, valueAt (c.evaluate fuel y col) =
      (splineP j c.U c.degree fun l => c.P l 3 * c.P l col).eval y / (splineP j c.U c.degree fun l => c.P l 3).eval y := by
    intro y hy
    have hd := sp_dom hc hpj (hspj y hy)
    rw [C35_evaluate_is_rational_spline c hc hper fuel hf y hd.1 hd.2 col, specVal_eq c hc _ y j (hspj y hy), specVal_eq c hc _ y j (hspj y hy),
      eval_splineP j c.U c.degree c.n _ y hpj (by omega), eval_splineP j c.U c.degree c.n _ y hpj (by omega)]
    rfl
  have hden : (splineP j c.U c.degree fun l => c.P l 3).eval x ≠ 0 := by rw [hend]; exact hwj
  have hlim : Filter.Tendsto (fun t => valueAt (c.evaluate fuel t col)) (nhdsWithin x (Set.Ico (c.U j) x)) (nhds (c.P j col)) := by
    have h1 : ContinuousAt (fun y => (splineP j c.U c.degree fun l => c.P l 3 * c.P l col).eval y / (splineP j c.U c.degree fun l => c.P l 3).eval y) x :=
      (Polynomial.continuous _).continuousAt.div (Polynomial.continuous _).continuousAt hden
    have h2 := h1.tendsto.mono_left (nhdsWithin_le_nhds (s := Set.Ico (c.U j) x))
    rw [hend, hend, mul_div_cancel_left₀ _ hwj] at h2
    refine h2.congr' ?_
    filter_upwards [self_mem_nhdsWithin] with y hy
    exact (hev y hy).symm
  have hne' : (nhdsWithin x (Set.Ico (c.U j) x)).NeBot := by
    rw [nhdsWithin_Ico_eq_nhdsLT hj]
    infer_instance
  have hlim2 : Filter.Tendsto (fun t => valueAt (c.evaluate fuel t col)) (nhdsWithin x (Set.Ico (c.U j) x)) (nhds (c.P (i - c.degree) col)) := by
    have := hcw.tendsto
    rwa [hval] at this
  exact hne (tendsto_nhds_unique hlim hlim2)

/-! ## C338 -/

/-- The row `k` of the derivatives is the value of the polynomial of the span. -/
theorem row_eq (c : Curve ℝ) (hc : Valid c) (hper : c.periodic = false) (fuel : Nat) (hf : c.n ≤ fuel) (col d k : Nat) (hk : k ≤ d) (i : Nat) (y : ℝ)
    (hpi : c.degree ≤ i) (hy : Sp c.U c.n y i) :
    valueAt (derivatives2 c fuel y d k col) = (Polynomial.derivative^[k] (splineP i c.U c.degree fun l => c.P l col)).eval y := by
  have hkn := hc.knots
  have hi := hy.1
  obtain ⟨d1, d2⟩ := sp_dom hc hpi hy
  obtain ⟨j, e', _, b'⟩ := findSpan_sp fuel c.n c.degree y c.U hc.npos hf c.m hc.mono (by omega) hc.last d1 d2
  have : j = i := sp_unique c.U c.n c.m hc.mono (by omega) y j i b' hy
  rw [this] at e'
  have := alg2_eq c.U c.m hc.mono i hy.2.1 c.degree hpi (by omega) (fun l => c.P l col) fuel (c.n - 1) y c.periodic (by rw [hper]; exact e') d k hk
  unfold derivatives2
  rw [this]
  rfl

/-- C338: the derivatives of order `k` of `derivatives2` are continuous on the whole domain, knots included, if no inner knot occurs more often than
the degree minus `k`. -/
theorem C338_rows (c : Curve ℝ) (hc : Valid c) (hper : c.periodic = false) (fuel : Nat) (hf : c.n ≤ fuel) (col d k s : Nat) (hk : k ≤ d)
    (hs : MultLe c s) (hks : s + k ≤ c.degree) :
    ContinuousOn (fun t => valueAt (derivatives2 c fuel t d k col)) (Set.Icc (c.U c.degree) (c.U c.n)) :=
  glue_continuous c hc s hs _ (fun i => Polynomial.derivative^[k] (splineP i c.U c.degree fun l => c.P l col))
    (fun i y hpi hy => row_eq c hc hper fuel hf col d k hk i y hpi hy) (pieces_join c hc _ k s hks)

/-- And each row is the derivative of the row before at every parameter inside the domain, knots included, if no inner knot occurs more often
than the degree minus the order. -/
theorem C338_deriv (c : Curve ℝ) (hc : Valid c) (hper : c.periodic = false) (fuel : Nat) (hf : c.n ≤ fuel) (col d k s : Nat) (hk : k + 1 ≤ d)
    (hs : MultLe c s) (hks : s + (k + 1) ≤ c.degree) (x : ℝ) (hl : c.U c.degree < x) (hh : x < c.U c.n) :
    HasDerivAt (fun t => valueAt (derivatives2 c fuel t d k col)) (valueAt (derivatives2 c fuel x d (k + 1) col)) x := by
  have hkn := hc.knots
  obtain ⟨i, hpi, hsp⟩ := exists_span c hc x hl.le hh.le
  obtain ⟨j, hpj, hji, hjx, hjj, hall, hyj⟩ := prev_span c.U c.m c.n c.degree hc.mono (by omega) x i hsp hpi hl
  have hd := span_dist c hc s hs x i j hsp hji hl hall
  rw [row_eq c hc hper fuel hf col d (k + 1) hk i x hpi hsp]
  have hr := glue_right c (fun t => valueAt (derivatives2 c fuel t d k col)) _ x i hsp
    (fun y hy => row_eq c hc hper fuel hf col d k (by omega) i y hpi hy) hh
  have hlft := glue_left c (fun t => valueAt (derivatives2 c fuel t d k col)) _ x j hjx hyj
    (fun y hy => row_eq c hc hper fuel hf col d k (by omega) j y hpj hy) (by
      show valueAt (derivatives2 c fuel x d k col) = _
      rw [row_eq c hc hper fuel hf col d k (by omega) i x hpi hsp]
      exact (pieces_join c hc _ k s (by omega) j i x hpj hji hd hsp hjx hjj hall).symm)
  rw [← Function.iterate_succ_apply' Polynomial.derivative k] at hr hlft
  rw [pieces_join c hc (fun l => c.P l col) (k + 1) s hks j i x hpj hji hd hsp hjx hjj hall] at hlft
  have := hlft.union hr
  rw [Set.Iic_union_Ici, hasDerivWithinAt_univ] at this
  exact this

/-- For equal weights `derivative` is the derivative of `evaluate` at every parameter inside the domain, knots included, if no inner knot has a
multiplicity equal to the degree or above. -/
theorem C338_first_partial (c : Curve ℝ) (hc : Valid c) (hper : c.periodic = false) (fuel : Nat) (hf : c.n ≤ fuel) (w : ℝ) (hw0 : w ≠ 0)
    (hw : ∀ l, l < c.n → c.P l 3 = w) (s : Nat) (hs : MultLe c s) (hks : s + 1 ≤ c.degree) (x : ℝ) (hl : c.U c.degree < x) (hh : x < c.U c.n)
    (col : Nat) : HasDerivAt (fun t => valueAt (c.evaluate fuel t col)) (valueAt (derivative c fuel x col)) x := by
  have h := C338_deriv c hc hper fuel hf col 1 0 s (le_refl _) hs (by omega) x hl hh
  have e : (fun t => valueAt (c.evaluate fuel t col)) =ᶠ[nhds x] fun t => valueAt (derivatives2 c fuel t 1 0 col) := by
    filter_upwards [Ioo_mem_nhds hl hh] with y hy
    obtain ⟨i, hpi, hsp⟩ := exists_span c hc y hy.1.le hy.2.le
    rw [row_eq c hc hper fuel hf col 1 0 (by omega) i y hpi hsp, evaluate_spec c hc hper fuel hf w hw0 hw y hy.1.le hy.2.le col]
    show specVal c (fun l => c.P l col) y = _
    rw [specVal_eq c hc _ y i hsp, ← eval_splineP i c.U c.degree c.n _ y hpi hsp.1]
    rfl
  exact h.congr_of_eventuallyEq e

/-! ## A curve that meets the hypotheses -/

/-- A rational curve of degree 2 with the inner knots 1 and 2, and one of degree 1 with a double inner knot. -/
noncomputable def exR (p n : Nat) (U : List ℝ) : Curve ℝ where
  degree := p
  n := n
  P := fun l col => if col = 3 then 1 + l else (l : ℝ) ^ 2 + col
  m := n + p + 1
  U := fun k => U.getD k 0
  periodic := false

theorem exR_smooth : Valid (exR 2 5 [0, 0, 0, 1, 2, 3, 3, 3]) ∧ MultLe (exR 2 5 [0, 0, 0, 1, 2, 3, 3, 3]) 1 ∧
    ∀ l, l < 5 → 0 < (exR 2 5 [0, 0, 0, 1, 2, 3, 3, 3]).P l 3 := by
  refine ⟨⟨by decide, rfl, ?_, by norm_num [exR]⟩, ?_, fun l _ => by norm_num [exR]; positivity⟩
  · intro a b hab hb
    have hb' : b < 8 := hb
    interval_cases b <;> interval_cases a <;> norm_num [exR]
  · intro k hk h1 h2
    have hk' : k + 1 < 8 := hk
    have : k < 7 := by omega
    interval_cases k <;> first | (exfalso; revert h1 h2; norm_num [exR]; done) | norm_num [exR]

theorem exR_jump : Valid (exR 1 4 [0, 0, 1, 1, 2, 2]) ∧ (exR 1 4 [0, 0, 1, 1, 2, 2]).U 1 < 1 ∧
    (∀ k, 1 < k → k ≤ 3 → (exR 1 4 [0, 0, 1, 1, 2, 2]).U k = 1) ∧ 1 < (exR 1 4 [0, 0, 1, 1, 2, 2]).U 4 ∧
    (exR 1 4 [0, 0, 1, 1, 2, 2]).P 1 0 ≠ (exR 1 4 [0, 0, 1, 1, 2, 2]).P (3 - 1) 0 := by
  refine ⟨⟨by decide, rfl, ?_, by norm_num [exR]⟩, by norm_num [exR], ?_, by norm_num [exR], by norm_num [exR]⟩
  · intro a b hab hb
    have hb' : b < 6 := hb
    interval_cases b <;> interval_cases a <;> norm_num [exR]
  · intro k h1 h2
    interval_cases k <;> norm_num [exR]

example : ContinuousOn (fun t => valueAt ((exR 2 5 [0, 0, 0, 1, 2, 3, 3, 3]).evaluate 5 t 0)) (Set.Icc 0 3) := by
  have h := exR_smooth
  have := C337_continuous _ h.1 rfl h.2.2 (fun k hk a b => (h.2.1 k (by change k + 2 < 8 at hk; show k + 1 < 8; omega) a b).trans_le
    (h.1.mono _ _ (by show k + 1 ≤ k + 2; omega) hk)) 5 (by decide) 0
  simpa [exR] using this

example : ¬ContinuousOn (fun t => valueAt ((exR 1 4 [0, 0, 1, 1, 2, 2]).evaluate 4 t 0))
    (Set.Icc ((exR 1 4 [0, 0, 1, 1, 2, 2]).U 1) ((exR 1 4 [0, 0, 1, 1, 2, 2]).U 4)) := by
  have h := exR_jump
  exact C337_jump _ h.1 rfl 1 3 (le_refl 1) (show 3 < 4 by decide) 1 (le_refl 3) h.2.1 h.2.2.1 h.2.2.2.1 (by norm_num [exR]) (by norm_num [exR]) 4
    (show 4 ≤ 4 by decide) 0 h.2.2.2.2

end Verif.Spl
