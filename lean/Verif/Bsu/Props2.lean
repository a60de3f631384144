import Verif.Bsu.Props
import Verif.Nurbs.Props2
import Mathlib.Analysis.Calculus.IteratedDeriv.Lemmas
import Mathlib.Analysis.Calculus.ContDiff.Operations
import Mathlib.Data.Nat.Choose.Basic

/-! # C358–C360: rational derivatives, points of surfaces, and the curves of `bspline_first.py` -/

set_option linter.unusedSectionVars false

namespace Verif.Bsu

open Finset Verif.Nurbs Verif.NDer

variable {K : Type} [Field K] [LinearOrder K] [IsStrictOrderedRing K]

theorem prodTo_eq : ∀ n, prodTo n = n.factorial := by
  intro n
  cases n with
  | zero => rfl
  | succ n =>
    unfold prodTo
    rw [Nat.add_sub_cancel]
    induction n with
    | zero => rfl
    | succ n ih =>
      rw [List.range'_concat, List.prod_append, ih, Nat.factorial_succ (n + 1)]
      simp
      ring

/-- **C358** `calcKoverI` is the binomial coefficient. -/
theorem C358_binomial (k i : Nat) (h : i ≤ k) : (kOverI k i : K) = (k.choose i : K) := by
  unfold kOverI
  rw [prodTo_eq, prodTo_eq, prodTo_eq, div_eq_iff]
  · have := Nat.choose_mul_factorial_mul_factorial h
    rw [← this]; push_cast; ring
  · exact mul_ne_zero (Nat.cast_ne_zero.mpr (Nat.factorial_ne_zero _)) (Nat.cast_ne_zero.mpr (Nat.factorial_ne_zero _))

/-- The numbers that the quotient rule asks for. -/
theorem foldl_sub (f : Nat → K) (n : Nat) (a : K) :
    (List.range' 1 n).foldl (fun v i => v - f i) a = a - ∑ i ∈ range n, f (i + 1) := by
  induction n with
  | zero => simp
  | succ n ih =>
    rw [List.range'_concat, List.foldl_append, ih, sum_range_succ]
    simp only [List.foldl_cons, List.foldl_nil, one_mul, Nat.add_comm 1 n]
    ring

/-- On arrays of floats the routine returns the only numbers `C_k` with `Σ_i binom(k, i) w_i C_{k-i} = A_k`. -/
theorem ratDers_spec (rows : List (Arr K)) (hf : ∀ r ∈ rows, r.int = false) (hw : ∀ r, rows[0]? = some r → r.val 3 ≠ 0) :
    ∃ L, ratDers rows = .ok L ∧ L.length = rows.length ∧ ∀ k, k < rows.length → ∀ col,
      ∑ i ∈ range (k + 1), (k.choose i : K) * ((rows[i]?).map fun r => r.val 3).getD 0 * ((L[k - i]?).getD fun _ => 0) col
        = ((rows[k]?).map fun r => r.val col).getD 0 := by
  have key : ∀ n, n ≤ rows.length → ∃ L, (rows.take n).foldl (ratStep rows) (.ok []) = .ok L ∧ L.length = n ∧ ∀ k, k < n → ∀ col,
      ∑ i ∈ range (k + 1), (k.choose i : K) * ((rows[i]?).map fun r => r.val 3).getD 0 * ((L[k - i]?).getD fun _ => 0) col
        = ((rows[k]?).map fun r => r.val col).getD 0 := by
    intro n
    induction n with
    | zero => intro _; exact ⟨[], by simp, rfl, fun k hk => by omega⟩
    | succ n ih =>
      intro hn
      obtain ⟨L, e, hl, hL⟩ := ih (by omega)
      have hn' : n < rows.length := by omega
      have hrow : rows[n]? = some rows[n] := List.getElem?_eq_getElem hn'
      have h0 : ((rows[0]?).map fun r => r.val 3).getD 0 ≠ 0 := by
        have : rows[0]? = some rows[0] := List.getElem?_eq_getElem (by omega)
        rw [this]
        exact hw _ this
      rw [List.take_succ, hrow]
      simp only [Option.toList_some, List.foldl_append, List.foldl_cons, List.foldl_nil, e]
      set w : Nat → K := fun i => ((rows[i]?).map fun r => r.val 3).getD 0 with hwdef
      have hlast : ∃ v : Nat → K, ratStep rows (.ok L) rows[n] = .ok (L ++ [v]) ∧ ∀ col,
          w 0 * v col = rows[n].val col - ∑ i ∈ range n, (n.choose (i + 1) : K) * w (i + 1) * ((L[n - (i + 1)]?).getD fun _ => 0) col := by
        refine ⟨fun col => ((List.range' 1 n).foldl (fun v i => v - ((L[n - i]?).getD fun _ => 0) col * kOverI n i * w i)
          (rows[n].val col)) / w 0, ?_, fun col => ?_⟩
        · simp only [ratStep, hl]
          rw [if_neg (by rw [hf _ (List.getElem_mem hn')]; simp), if_neg h0]
        · beta_reduce
          rw [foldl_sub (fun i => ((L[n - i]?).getD fun _ => 0) col * kOverI n i * w i), mul_div_cancel₀ _ h0]
          congr 1
          apply sum_congr rfl
          intro i hi
          rw [C358_binomial n (i + 1) (by have := mem_range.1 hi; omega)]
          simp only [hwdef]
          ring
      obtain ⟨v, e1, e2⟩ := hlast
      refine ⟨L ++ [v], e1, by simp [hl], fun k hk col => ?_⟩
      by_cases hkn : k < n
      · rw [← hL k hkn col]
        apply sum_congr rfl
        intro i _
        rw [List.getElem?_append_left (by omega)]
      · obtain rfl : k = n := by omega
        rw [sum_range_succ', hrow]
        have a0 : (L ++ [v])[k - 0]? = some v := by
          rw [Nat.sub_zero, List.getElem?_append_right (by omega), hl]; simp
        rw [a0]
        have a1 : ∀ i ∈ range k, (k.choose (i + 1) : K) * w (i + 1) * (((L ++ [v])[k - (i + 1)]?).getD fun _ => 0) col
            = (k.choose (i + 1) : K) * w (i + 1) * ((L[k - (i + 1)]?).getD fun _ => 0) col := by
          intro i hi
          rw [List.getElem?_append_left (by have := mem_range.1 hi; omega)]
        have := e2 col
        rw [sum_congr rfl a1]
        simp only [Nat.choose_zero_right, Nat.cast_one, one_mul, Option.getD_some, Option.map_some]
        show _ + w 0 * v col = _
        rw [this]; ring
  obtain ⟨L, e, hl, hL⟩ := key rows.length (le_refl _)
  rw [List.take_length] at e
  exact ⟨L, e, hl, hL⟩

/-- **C358** (part) Given the derivatives of a curve `A` and of a weight `w` as arrays of floats, `calc_rational_curve_derivatives`
returns the derivatives of the quotient `A / w`, to every order.  Missing: `calcNURBSDerivatives`, which hands it an array of integers
(`C358_refuted`). -/
theorem C358_rational_partial (n : Nat) (A : Nat → ℝ → ℝ) (w : ℝ → ℝ) (t : ℝ) (hA : ∀ col, ContDiffAt ℝ n (A col) t)
    (hw : ContDiffAt ℝ n w t) (h0 : w t ≠ 0) :
    ∃ L, ratDers ((List.range (n + 1)).map fun k =>
        (⟨false, fun col => if col = 3 then iteratedDeriv k w t else iteratedDeriv k (A col) t⟩ : Arr ℝ)) = .ok L ∧
      L.length = n + 1 ∧ ∀ k, k ≤ n → ∀ col, col < 3 →
        ((L[k]?).getD fun _ => 0) col = iteratedDeriv k (fun s => A col s / w s) t := by
  set rows := (List.range (n + 1)).map fun k =>
        (⟨false, fun col => if col = 3 then iteratedDeriv k w t else iteratedDeriv k (A col) t⟩ : Arr ℝ) with hrows
  have hget : ∀ k, k ≤ n → rows[k]? = some ⟨false, fun col => if col = 3 then iteratedDeriv k w t else iteratedDeriv k (A col) t⟩ := by
    intro k hk
    rw [hrows, List.getElem?_map, List.getElem?_range (by omega)]; rfl
  obtain ⟨L, e, hl, hL⟩ := ratDers_spec rows
    (fun r hr => by
      rw [hrows, List.mem_map] at hr
      obtain ⟨k, -, rfl⟩ := hr; rfl)
    (fun r hr => by
      rw [hget 0 (by omega)] at hr
      simp only [Option.some.injEq] at hr
      subst hr; simpa using h0)
  have hlen : rows.length = n + 1 := by rw [hrows]; simp
  refine ⟨L, e, by rw [hl, hlen], ?_⟩
  intro k
  induction k using Nat.strong_induction_on with
  | _ k ih =>
    intro hk col hcol
    have h1 := hL k (by omega) col
    have hq : ∀ j : Nat, j ≤ n → ContDiffAt ℝ j (fun s => A col s / w s) t := fun j hj =>
      ((hA col).div hw h0).of_le (by exact_mod_cast hj)
    have h2 : iteratedDeriv k (A col) t = ∑ i ∈ range (k + 1), (k.choose i : ℝ) * iteratedDeriv i w t *
        iteratedDeriv (k - i) (fun s => A col s / w s) t := by
      rw [← iteratedDeriv_mul (hw.of_le (by exact_mod_cast hk)) (hq k hk)]
      apply Filter.EventuallyEq.iteratedDeriv_eq
      have := hw.continuousAt.eventually_ne h0
      filter_upwards [this] with s hs
      simp only [Pi.mul_apply]
      rw [mul_div_cancel₀ _ hs]
    rw [hget k hk] at h1
    simp only [Option.map_some, Option.getD_some] at h1
    rw [if_neg (by omega), h2, sum_range_succ', sum_range_succ'] at h1
    have h3 : ∀ i ∈ range k, (k.choose (i + 1) : ℝ) * ((rows[i + 1]?).map fun r => r.val 3).getD 0 * ((L[k - (i + 1)]?).getD fun _ => 0) col
        = (k.choose (i + 1) : ℝ) * iteratedDeriv (i + 1) w t * iteratedDeriv (k - (i + 1)) (fun s => A col s / w s) t := by
      intro i hi
      have hi := mem_range.1 hi
      rw [ih (k - (i + 1)) (by omega) (by omega) col hcol, hget (i + 1) (by omega)]
      simp
    rw [sum_congr rfl h3, hget 0 (by omega)] at h1
    simp only [Nat.choose_zero_right, Nat.cast_one, one_mul, Nat.sub_zero, Option.map_some, Option.getD_some, if_true, iteratedDeriv_zero] at h1
    have h4 := add_left_cancel h1
    exact mul_left_cancel₀ h0 h4

/-- The quotient rule on numbers: `A = 6, 5`, `w = 2, 4` gives `3` and `(5 - 4 * 3) / 2`. -/
example : (ratDers [(⟨false, fun c => if c = 3 then 2 else 6⟩ : Arr ℚ), ⟨false, fun c => if c = 3 then 4 else 5⟩]).toOption.map
    (fun L => L.map fun f => f 0) = some [3, -7 / 2] := by decide +kernel

/-! ## C359 -/

theorem iaddAll_int (a : Arr K) (ha : a.int = true) (b : Arr K) (hb : b.int = false) (bs : List (Arr K)) :
    iaddAll (.ok a) (b :: bs) = .error .raise := by
  unfold iaddAll
  rw [List.foldl_cons]
  simp only [iadd]
  rw [if_pos ⟨ha, hb⟩]
  exact fold_fix _ _ _ fun _ _ => rfl

/-- **C359** (negation) `calcSurfacePoint` and `calc_surface_point` raise for every surface and every parameter. -/
theorem C359_refuted (us vs p q : Nat) (Nu Nv : Nat → K) (P : Nat → Nat → Nat → K) :
    surfacePoint1 us vs p q Nu Nv P = .error .raise ∧ surfacePoint2 us vs p q Nu Nv P = .error .raise := by
  constructor
  · unfold surfacePoint1
    have h : List.range (q + 1) = 0 :: (List.range q).map (· + 1) := by
      rw [List.range_succ_eq_map]
    have h' : List.range (p + 1) = 0 :: (List.range p).map (· + 1) := by
      rw [List.range_succ_eq_map]
    rw [h]
    simp only [mapE]
    rw [h', List.map_cons, iaddAll_int _ rfl _ rfl]
  · unfold surfacePoint2
    have hf : ∀ (bs : List (Arr K)) (a : Arr K), a.int = false → ∃ c, iaddAll (.ok a) bs = .ok c ∧ c.int = false := by
      intro bs
      induction bs with
      | nil => intro a ha; exact ⟨a, rfl, ha⟩
      | cons b bs ih =>
        intro a ha
        unfold iaddAll
        rw [List.foldl_cons]
        simp only [iadd, ha]
        rw [if_neg (by simp)]
        exact ih _ rfl
    have hm : ∀ (f : Nat → Except Err (Arr K)) (l : List Nat), (∀ x, ∃ c, f x = .ok c) → ∃ L, mapE f l = .ok L ∧ L.length = l.length := by
      intro f l h
      induction l with
      | nil => exact ⟨[], rfl, rfl⟩
      | cons x l ih =>
        obtain ⟨c, hc⟩ := h x
        obtain ⟨L, hL, hl⟩ := ih
        exact ⟨c :: L, by simp only [mapE, hc, hL], by simp [hl]⟩
    obtain ⟨L, hL, hl⟩ := hm _ (List.range (q + 1)) (fun l => by
      obtain ⟨c, hc, -⟩ := hf ((List.range (p + 1)).map fun k =>
        (⟨false, fun c => homog (P (us - p + k)) (vs - q + l) c * Nu k⟩ : Arr K)) ⟨false, fun _ => 0⟩ rfl
      exact ⟨c, hc⟩)
    rw [hL]
    simp only
    cases L with
    | nil => simp at hl
    | cons c L =>
      rw [List.range_succ_eq_map, List.zip_cons_cons, List.map_cons, iaddAll_int _ rfl _ rfl]

/-- The bilinear patch with corners in one plane has points, but none is returned. -/
example : surfacePoint2 1 1 1 1 (fun _ => (1 / 2 : ℚ)) (fun _ => 1 / 2) (fun _ _ _ => 1) = .error .raise := (C359_refuted _ _ _ _ _ _ _).2

/-! ## C360 -/

theorem spanLoopFirst_ok (U : Nat → K) (u : K) : ∀ (fuel low high i : Nat), spanLoop U u fuel low high = some i →
    spanLoopFirst U u fuel low high = .ok i := by
  intro fuel
  induction fuel with
  | zero => intro low high i h; simp [spanLoop] at h
  | succ f ih =>
    intro low high i h
    rw [spanLoop] at h
    rw [spanLoopFirst]
    split_ifs at h ⊢
    · exact ih _ _ _ h
    · exact ih _ _ _ h
    · simp only [Option.some.injEq] at h; rw [h]

/-- **C360** On clamped knots `bspline_first.find_span` returns the span of every parameter of the domain, and never raises. -/
theorem C360_find_span (n p : Nat) (U : Nat → K) (hU : MonoUpTo U (n + p + 1)) (hp : p < n) (h0 : U 0 = U p) (hend : U (n + p) = U n)
    (hlast : U (n - 1) < U n) (u : K) (hl : U p ≤ u) (hh : u ≤ U n) :
    ∃ i, findSpanFirst (n - 1) p (n + p + 1) u U = .ok i ∧ p ≤ i ∧ Sp U n u i := by
  have e1 : n - 1 + 1 = n := by omega
  unfold findSpanFirst
  rw [e1]
  by_cases h1 : u = U n
  · rw [if_pos h1]
    refine ⟨n - 1, rfl, by omega, by omega, by rw [e1]; exact hlast, by rw [h1]; exact hlast.le, Or.inr ⟨e1, h1⟩⟩
  · rw [if_neg h1, if_neg (by rw [show n + p + 1 - 1 = n + p by omega, hend]; exact not_lt.mpr hh), if_neg (by rw [h0]; exact not_lt.mpr hl)]
    obtain ⟨i, e, a, b, c, d⟩ := spanLoop_spec U u (n + p + 1 + 1) p n hp (by omega) hl (lt_of_le_of_ne hh h1)
    exact ⟨i, spanLoopFirst_ok U u _ _ _ i e, a, b, lt_of_le_of_lt c d, c, Or.inl d⟩

/-- **C360** (negation for other knots) If the knots are not clamped at the start, every parameter between the first knot and the domain
raises; where the compiled curves extrapolate. -/
theorem C360_unclamped_refuted (n p : Nat) (U : Nat → K) (hU : MonoUpTo U (n + p + 1)) (hp : p < n) (u : K) (h0 : U 0 ≤ u) (h1 : u < U p) :
    findSpanFirst (n - 1) p (n + p + 1) u U = .error .raise := by
  have hpn := hU p n (by omega) (by omega)
  have hpe := hU p (n + p) (by omega) (by omega)
  unfold findSpanFirst
  rw [show n - 1 + 1 = n by omega, if_neg (by intro h; rw [h] at h1; exact absurd h1 (not_lt.mpr hpn)),
    if_neg (by rw [show n + p + 1 - 1 = n + p by omega]; exact not_lt.mpr (h1.le.trans hpe)), if_neg (not_lt.mpr h0)]
  have key : ∀ f low high, low = p → p ≤ high → high ≤ n → spanLoopFirst U u f low high = .error .raise := by
    intro f
    induction f with
    | zero =>
      intro low high hlow h2 h3
      have := hU p ((low + high) / 2) (by omega) (by omega)
      rw [spanLoopFirst, if_pos (Or.inl (lt_of_lt_of_le h1 this))]
    | succ f ih =>
      intro low high hlow h2 h3
      have := hU p ((low + high) / 2) (by omega) (by omega)
      rw [spanLoopFirst, if_pos (Or.inl (lt_of_lt_of_le h1 this)), if_pos (lt_of_lt_of_le h1 this)]
      exact ih _ _ hlow (by omega) (by omega)
  exact key _ _ _ rfl (by omega) (le_refl _)

/-- **C360** On clamped knots `bspline_first.NURBSCurve.evaluate` is the spline `Σ N_l P_l`. -/
theorem C360_evaluate (n p : Nat) (U : Nat → K) (hU : MonoUpTo U (n + p + 1)) (hp : p < n) (h0 : U 0 = U p) (hend : U (n + p) = U n)
    (hlast : U (n - 1) < U n) (P : Nat → Nat → K) (u : K) (hl : U p ≤ u) (hh : u ≤ U n) :
    ∃ C, evaluateFirst (n - 1) p (n + p + 1) U P u = .ok C ∧ ∀ col, C col = ∑ l ∈ range n, P l col * bspl U n u p l := by
  obtain ⟨i, e, a, hs⟩ := C360_find_span n p U hU hp h0 hend hlast u hl hh
  have hi := hs.1
  have hsum : ∀ f : Nat → K, (List.range (p + 1)).foldl (fun s r => s + basisFuns i u p U (fun _ => 0) r * f (i - p + r)) 0
      = ∑ l ∈ range n, f l * bspl U n u p l := by
    intro f
    rw [foldl_sum]
    have hw := spline_window U p n f u i a hi
    rw [spline] at hw
    simp only [bspl_eq U n (n + p + 1) hU (by omega) hlast u i hs]
    rw [hw]
    apply sum_congr rfl
    intro r hr
    rw [basisFuns_eq i u U _ p a r (by have := mem_range.1 hr; omega), mul_comm]
  have hone : (List.range (p + 1)).foldl (fun s r => s + basisFuns i u p U (fun _ => 0) r * 1) 0 = 1 := by
    rw [foldl_sum]
    have := cox_sum_one U (n + p + 1) hU i hs.2.1 u p a (by omega)
    refine Eq.trans ?_ this
    apply sum_congr rfl
    intro r hr
    rw [basisFuns_eq i u U _ p a r (by have := mem_range.1 hr; omega), mul_one]
  refine ⟨fun col => ∑ l ∈ range n, P l col * bspl U n u p l, ?_, fun col => rfl⟩
  simp only [evaluateFirst, e]
  rw [hone, if_neg one_ne_zero]
  congr 1
  funext col
  rw [div_one]
  exact hsum fun l => P l col

/-- The knots made by `generate_knots` meet the hypotheses of C360 for every number of control points above the degree. -/
theorem C360_generated (n p : Nat) (hp : p < n) : MonoUpTo (knotsFirst n p : Nat → K) (n + p + 1) ∧
    (knotsFirst n p 0 : K) = knotsFirst n p p ∧ (knotsFirst n p (n + p) : K) = knotsFirst n p n ∧
    (knotsFirst n p (n - 1) : K) < knotsFirst n p n ∧ (knotsFirst n p n : K) = ((n - p : Nat) : K) := by
  refine ⟨fun a b hab _ => ?_, ?_, ?_, ?_, ?_⟩
  · exact Nat.cast_le.mpr (by omega)
  · simp [knotsFirst]
  · simp only [knotsFirst]; congr 1; omega
  · exact Nat.cast_lt.mpr (by omega)
  · simp [knotsFirst]

example : (findSpanFirst 5 2 9 (1 / 2) exU).toOption = some 2 ∧ (findSpanFirst 5 2 9 3 exU).toOption = some 5
    ∧ (findSpanFirst 2 2 6 (1 / 2) (fun i => (i : ℚ))).toOption = none := by decide +kernel

end Verif.Bsu
