import Verif.Knot.Props4

/-!
# C250, C251: parameters, knots and interpolation of `knot.py`
-/

set_option linter.unusedSectionVars false

namespace Verif.Knot
open Verif.Nurbs Finset

variable {K : Type} [Field K] [LinearOrder K] [IsStrictOrderedRing K]

/-! ## C250 `_remove_adjacent_duplicates` -/

/-- **C250, partial.** When two points that follow each other are either equal or further apart than the tolerance, the result has
no close neighbours, the same first and last point, and contains every point of the input. -/
theorem C250_duplicates_partial {α : Type} (dist : α → α → K) (tol : K) (x : α) (xs : List α)
    (h : (x :: xs).IsChain fun a b => a = b ∨ tol < dist a b) (hd : ∀ a, dist a a ≤ tol) :
    (removeAdjacent dist tol (x :: xs)).IsChain (fun a b => tol < dist a b) ∧
      (removeAdjacent dist tol (x :: xs)).head? = some x ∧
      (removeAdjacent dist tol (x :: xs)).getLast? = (x :: xs).getLast? ∧
      ∀ y, y ∈ removeAdjacent dist tol (x :: xs) ↔ y ∈ x :: xs := by
  rw [removeAdjacent]
  induction xs generalizing x with
  | nil => simp [keepAfter]
  | cons y ys ih =>
    rw [List.isChain_cons_cons] at h
    obtain ⟨i1, i2, i3, i4⟩ := ih y h.2
    rw [keepAfter]
    rcases h.1 with rfl | h1
    · rw [if_neg (not_lt.2 (hd x))]
      refine ⟨i1, rfl, by rw [i3, List.getLast?_cons_cons], fun z => ?_⟩
      rw [i4]
      simp
    · rw [if_pos h1]
      refine ⟨List.IsChain.cons_cons h1 i1, rfl, by rw [List.getLast?_cons_cons, i3, List.getLast?_cons_cons], fun z => ?_⟩
      rw [List.mem_cons, i4, ← List.mem_cons]

example : removeAdjacent (fun a b : ℚ => |a - b|) (1 / 10) [0, 0, 1, 1, 1, 0] = [0, 1, 0] := by decide +kernel

/-- **C250, refuted part.** A point is compared with the point before it in the input, not with the last one kept: of any chain of
steps up to the tolerance only the first point is kept, -/
theorem C250_chain_refuted {α : Type} (dist : α → α → K) (tol : K) (x : α) (xs : List α)
    (h : (x :: xs).IsChain fun a b => dist a b ≤ tol) : removeAdjacent dist tol (x :: xs) = [x] := by
  rw [removeAdjacent]
  congr 1
  induction xs generalizing x with
  | nil => rfl
  | cons y ys ih =>
    rw [List.isChain_cons_cons] at h
    rw [keepAfter, if_neg (not_lt.2 h.1), ih y h.2]

/-- however far the last one is: here `q` times the tolerance. -/
theorem C250_far_refuted (tol : K) (ht : 0 ≤ tol) (q : Nat) :
    removeAdjacent (fun a b : K => |a - b|) tol ((List.range (q + 1)).map fun i : Nat => (i : K) * tol) = [0] ∧
    ((List.range (q + 1)).map fun i : Nat => (i : K) * tol).getLast? = some (q * tol) := by
  constructor
  · have hch : ((List.range (q + 1)).map fun i : Nat => (i : K) * tol).IsChain fun a b => |a - b| ≤ tol := by
      rw [List.isChain_iff_getElem]
      intro i hi
      simp only [List.getElem_map, List.getElem_range]
      rw [abs_le]
      push_cast
      constructor <;> linarith
    rw [List.range_succ_eq_map, List.map_cons, Nat.cast_zero, zero_mul] at hch ⊢
    exact C250_chain_refuted _ _ _ _ hch
  · rw [List.range_succ, List.map_append, List.map_cons, List.map_nil, List.getLast?_concat]

/-- The result may contain a point twice in a row. -/
theorem C250_repeat_refuted {α : Type} (dist : α → α → K) (tol : K) (x y z : α) (h1 : dist x y ≤ tol) (h2 : dist y z ≤ tol)
    (h3 : tol < dist z x) : removeAdjacent dist tol [x, y, z, x] = [x, x] := by
  simp [removeAdjacent, keepAfter, not_lt.2 h1, not_lt.2 h2, h3]

example : removeAdjacent (fun a b : ℚ => |a - b|) 1 [0, 3 / 5, 6 / 5, 0] = [0, 0] := by decide +kernel

/-! ## C251 parameters and knots -/

theorem params_spec (n : Nat) (chord : Nat → K) (hn : 2 ≤ n) (hc : ∀ i, i + 1 < n → 0 < chord i) :
    ∃ uk, computeParams n chord = some uk ∧ uk 0 = 0 ∧ uk (n - 1) = 1 ∧ (∀ i j, i < j → j < n → uk i < uk j) ∧
      ∀ i, i + 1 < n → (uk (i + 1) - uk i) * (∑ k ∈ range (n - 1), chord k) = chord i := by
  have hd : 0 < ∑ k ∈ range (n - 1), chord k :=
    sum_pos (fun i hi => hc i (by have := mem_range.1 hi; omega)) ⟨0, mem_range.2 (by omega)⟩
  refine ⟨fun i => (∑ k ∈ range i, chord k) / ∑ k ∈ range (n - 1), chord k, by rw [computeParams]; exact if_neg hd.ne', by simp,
    div_self hd.ne', ?_, ?_⟩
  · intro i j hij hj
    rw [div_lt_div_iff_of_pos_right hd]
    obtain ⟨d, rfl⟩ : ∃ d, j = i + d := ⟨j - i, by omega⟩
    rw [sum_range_add]
    have : 0 < ∑ x ∈ range d, chord (i + x) :=
      sum_pos (fun k hk => hc _ (by have := mem_range.1 hk; omega)) ⟨0, mem_range.2 (by omega)⟩
    linarith
  · intro i _
    have := hd.ne'
    beta_reduce
    rw [sum_range_succ]
    field_simp
    ring

/-- **C251** `compute_params_curve`: for at least two points, any two that follow each other different, the parameters increase
strictly from 0 to 1 and their steps are proportional to the chords. -/
theorem C251_params (n : Nat) (chord : Nat → K) (hn : 2 ≤ n) (hc : ∀ i, i + 1 < n → 0 < chord i) :
    ∃ uk, computeParams n chord = some uk ∧ uk 0 = 0 ∧ uk (n - 1) = 1 ∧ (∀ i j, i < j → j < n → uk i < uk j) ∧
      ∀ i, i + 1 < n → (uk (i + 1) - uk i) * (∑ k ∈ range (n - 1), chord k) = chord i := params_spec n chord hn hc

/-- One point, or equal points, raise. -/
theorem C251_params_equal (n : Nat) (chord : Nat → K) (hc : ∀ i, i + 1 < n → chord i = 0) : computeParams n chord = none := by
  rw [computeParams]
  exact if_pos (sum_eq_zero fun i hi => hc i (by have := mem_range.1 hi; omega))

theorem avg_bounds (p : Nat) (hp : 1 ≤ p) (f : Nat → K) (a b : K) (h : ∀ j, j < p → a < f j ∧ f j < b) :
    a < 1 / (p : K) * ∑ j ∈ range p, f j ∧ 1 / (p : K) * ∑ j ∈ range p, f j < b := by
  have hpp : (0 : K) < p := by exact_mod_cast hp
  have hne : (range p).Nonempty := ⟨0, mem_range.2 (by omega)⟩
  have h1 : ∑ j ∈ range p, a < ∑ j ∈ range p, f j := sum_lt_sum_of_nonempty hne fun j hj => (h j (mem_range.1 hj)).1
  have h2 : ∑ j ∈ range p, f j < ∑ j ∈ range p, b := sum_lt_sum_of_nonempty hne fun j hj => (h j (mem_range.1 hj)).2
  rw [sum_const, card_range, nsmul_eq_mul] at h1 h2
  rw [one_div, ← div_eq_inv_mul]
  exact ⟨by rw [lt_div_iff₀ hpp]; linarith, by rw [div_lt_iff₀ hpp]; linarith⟩

theorem computeKnots_mid (p n : Nat) (uk : Nat → K) (k : Nat) (h1 : p < k) (h2 : k < n) :
    computeKnots p n uk k = 1 / (p : K) * ∑ j ∈ range p, uk (k - p + j) := by
  rw [computeKnots, if_neg (by omega), if_pos (by omega)]
  congr 1
  apply sum_congr rfl
  intro j _
  congr 1
  omega

theorem computeKnots_lo (p n : Nat) (uk : Nat → K) (k : Nat) (h1 : k ≤ p) : computeKnots p n uk k = 0 := by
  rw [computeKnots, if_pos (by omega)]

theorem computeKnots_hi (p n : Nat) (uk : Nat → K) (k : Nat) (h1 : p < k) (h2 : n ≤ k) : computeKnots p n uk k = 1 := by
  rw [computeKnots, if_neg (by omega), if_neg (by omega)]

/-- **C251** `compute_knot_vector`: for parameters that increase strictly from 0 to 1 the knots belong to a clamped curve on
`[0, 1]`, and parameter `i` is inside the support of basis function `i` (the condition of Schoenberg and Whitney). -/
theorem C251_knots (p n : Nat) (hp : 1 ≤ p) (hn : p < n) (uk : Nat → K) (h0 : uk 0 = 0) (h1 : uk (n - 1) = 1)
    (hs : ∀ i j, i < j → j < n → uk i < uk j) (P : Nat → Nat → K) :
    Clamped { degree := p, n := n, P := P, m := computeKnotsLen p n, U := computeKnots p n uk, periodic := false } ∧
    computeKnots p n uk p = 0 ∧ computeKnots p n uk n = 1 ∧
    (∀ i, 0 < i → i + 1 < n → computeKnots p n uk i < uk i ∧ uk i < computeKnots p n uk (i + p + 1)) ∧
    ∀ k, p ≤ k → k < n → computeKnots p n uk k < computeKnots p n uk (k + 1) := by
  have hlen : computeKnotsLen p n = n + p + 1 := by rw [computeKnotsLen]; omega
  have hb : ∀ i, 0 < i → i + 1 < n → 0 < uk i ∧ uk i < 1 := fun i a b =>
    ⟨h0 ▸ hs 0 i a (by omega), h1 ▸ hs i (n - 1) (by omega) (by omega)⟩
  have hmid : ∀ k, p < k → k < n → 0 < computeKnots p n uk k ∧ computeKnots p n uk k < 1 := by
    intro k a b
    rw [computeKnots_mid p n uk k a b]
    exact avg_bounds p hp _ 0 1 fun j hj => hb _ (by omega) (by omega)
  have hstrict : ∀ k, p ≤ k → k < n → computeKnots p n uk k < computeKnots p n uk (k + 1) := by
    intro k a b
    rcases Nat.eq_or_lt_of_le a with rfl | a
    · rw [computeKnots_lo p n uk p le_rfl]
      rcases Nat.lt_or_ge (p + 1) n with c | c
      · exact (hmid _ (by omega) c).1
      · rw [computeKnots_hi p n uk _ (by omega) c]; exact one_pos
    · rcases Nat.lt_or_ge (k + 1) n with c | c
      · rw [computeKnots_mid p n uk k a b, computeKnots_mid p n uk (k + 1) (by omega) c]
        have hpp : (0 : K) < p := by exact_mod_cast hp
        apply mul_lt_mul_of_pos_left _ (by positivity)
        exact sum_lt_sum_of_nonempty ⟨0, mem_range.2 (by omega)⟩ fun j hj =>
          hs _ _ (by omega) (by have := mem_range.1 hj; omega)
      · rw [computeKnots_hi p n uk (k + 1) (by omega) c]
        exact (hmid k a b).2
  refine ⟨⟨⟨hn, hlen, ?_, ?_⟩, hp, rfl, ?_, ?_, hstrict p le_rfl hn⟩, computeKnots_lo p n uk p le_rfl, computeKnots_hi p n uk n hn le_rfl,
    ?_, hstrict⟩
  · apply monoUpTo_of_step
    intro a _
    show computeKnots p n uk a ≤ computeKnots p n uk (a + 1)
    rcases Nat.lt_or_ge a p with c | c
    · rw [computeKnots_lo p n uk a c.le, computeKnots_lo p n uk (a + 1) c]
    · rcases Nat.lt_or_ge a n with d | d
      · exact (hstrict a c d).le
      · rw [computeKnots_hi p n uk a (by omega) d, computeKnots_hi p n uk (a + 1) (by omega) (by omega)]
  · have := hstrict (n - 1) (by omega) (by omega)
    rwa [show n - 1 + 1 = n by omega] at this
  · show computeKnots p n uk 0 = computeKnots p n uk p
    rw [computeKnots_lo p n uk 0 (by omega), computeKnots_lo p n uk p le_rfl]
  · show computeKnots p n uk (computeKnotsLen p n - 1) = computeKnots p n uk n
    rw [hlen, computeKnots_hi p n uk _ (by omega) (by omega), computeKnots_hi p n uk n hn le_rfl]
  · intro i a b
    constructor
    · rcases Nat.lt_or_ge p i with c | c
      · rw [computeKnots_mid p n uk i c (by omega)]
        exact (avg_bounds p hp _ (-1) (uk i) fun j hj => ⟨by
          have := hb (i - p + j) (by omega) (by omega); linarith [this.1], hs _ _ (by omega) (by omega)⟩).2
      · rw [computeKnots_lo p n uk i c]; exact (hb i a b).1
    · rcases Nat.lt_or_ge (i + p + 1) n with c | c
      · rw [computeKnots_mid p n uk _ (by omega) c]
        exact (avg_bounds p hp _ (uk i) 1 fun j hj => ⟨hs _ _ (by omega) (by omega), (hb _ (by omega) (by omega)).2⟩).1
      · rw [computeKnots_hi p n uk _ (by omega) c]; exact (hb i a b).2

/-! ## C251 interpolation -/

theorem coefRow_sum (c : Curve K) (hv : Valid c) (u : K) (hl : c.U c.degree ≤ u) (hh : u ≤ c.U c.n) (q : Nat → K) :
    coefRowLen c.degree c.n c.U u = c.n ∧ ∑ l ∈ range c.n, coefRow c.degree c.n c.U u l * q l = specVal c q u := by
  have h1 := hv.npos
  have h2 := hv.knots
  obtain ⟨i, e, a, b⟩ := findSpan_sp c.n c.n c.degree u c.U h1 le_rfl c.m hv.mono (by omega) hv.last hl hh
  have hlin := C33_find_span_linear (c.n - 1) c.degree c.m c.U hv.mono (by omega) (by omega) u hl c.n (by omega)
  rw [show c.n - 1 + 1 = c.n by omega, e] at hlin
  have hi : findSpanLinear c.degree c.U c.n u = i := (Option.some.inj hlin).symm
  have hin := b.1
  constructor
  · simp only [coefRowLen, hi]
    rw [Nat.min_eq_left (by omega), Nat.min_eq_left (by omega)]
    omega
  · rw [specVal_eq c hv q u i b, spline]
    apply sum_congr rfl
    intro l _
    simp only [coefRow, hi]
    by_cases hc : i - c.degree ≤ l ∧ l < i + 1
    · rw [if_pos hc, basisFuns_eq i u c.U _ c.degree a _ (by omega), show i - c.degree + (l - (i - c.degree)) = l by omega, mul_comm]
    · rw [if_neg hc, cox_spike_out i c.U u c.degree l (by omega)]
      ring

/-- **C251** `interpolate_curve`, partial: at least `degree + 1` points, any two that follow each other different, and a solver that
only returns solutions: whenever a curve is returned, it is a clamped curve of the degree asked for on `[0, 1]` with as many
control points as there are points, and it passes through point `i` at parameter `i`.  Missing: that the matrix is regular, so
that the solver does return. -/
theorem C251_interpolate_partial (solve : Nat → (Nat → Nat → K) → (Nat → K) → Option (Nat → K))
    (hsolve : ∀ n A b x, solve n A b = some x → ∀ i, i < n → ∑ l ∈ range n, A i l * x l = b i)
    (n p : Nat) (hp : 1 ≤ p) (hn : p < n) (pt : Nat → Nat → K) (chord : Nat → K) (hc : ∀ i, i + 1 < n → 0 < chord i)
    (c : Curve K) (uk : Nat → K) (h : interpolateCurve solve n p pt chord = some (c, uk)) :
    Clamped c ∧ c.degree = p ∧ c.n = n ∧ c.U c.degree = 0 ∧ c.U c.n = 1 ∧ uk 0 = 0 ∧ uk (n - 1) = 1 ∧
      (∀ i j, i < j → j < n → uk i < uk j) ∧
      ∀ i, i < n → ∀ fuel, n ≤ fuel → ∀ col, col < 3 → c.evaluate fuel (uk i) col = some (pt i col) := by
  obtain ⟨uk', e, u0, u1, us, _⟩ := params_spec n chord (by omega) hc
  unfold interpolateCurve at h
  rw [e] at h
  dsimp only at h
  split_ifs at h with hlen
  split at h
  rotate_left
  · cases h
  rename_i x y z hx hy hz
  cases h
  have hk := C251_knots p n hp hn uk u0 u1 us
    (fun l col => if col = 0 then x l else if col = 1 then y l else if col = 2 then z l else 1)
  refine ⟨hk.1, rfl, rfl, hk.2.1, hk.2.2.1, u0, u1, us, fun i hi fuel hf col hcol => ?_⟩
  have b0 : 0 ≤ uk i := by
    rcases Nat.eq_zero_or_pos i with rfl | q
    · rw [u0]
    · rw [← u0]; exact (us 0 i q hi).le
  have b1 : uk i ≤ 1 := by
    rcases Nat.lt_or_ge i (n - 1) with q | q
    · rw [← u1]; exact (us i _ q (by omega)).le
    · rw [show i = n - 1 by omega, u1]
  have d0 := le_of_eq_of_le hk.2.1 b0
  have d1 := le_of_le_of_eq b1 hk.2.2.1.symm
  rw [evaluate_equal_weights _ hk.1.valid rfl 1 one_ne_zero (fun l _ => by simp) fuel hf (uk i) d0 d1 col,
    ← (coefRow_sum _ hk.1.valid (uk i) d0 d1 _).2]
  congr 1
  have hcase : col = 0 ∨ col = 1 ∨ col = 2 := by omega
  rcases hcase with rfl | rfl | rfl
  · simpa using hsolve n _ _ x hx i hi
  · simpa using hsolve n _ _ y hy i hi
  · simpa using hsolve n _ _ z hz i hi

/-- **C251** With a solver that solves the system of the matrix, `interpolate_curve` does return. -/
theorem C251_interpolate_returns (solve : Nat → (Nat → Nat → K) → (Nat → K) → Option (Nat → K))
    (n p : Nat) (hp : 1 ≤ p) (hn : p < n) (pt : Nat → Nat → K) (chord : Nat → K) (hc : ∀ i, i + 1 < n → 0 < chord i)
    (hsolve : ∀ A b, (solve n A b).isSome) : ∃ r, interpolateCurve solve n p pt chord = some r := by
  obtain ⟨uk, e, u0, u1, us, _⟩ := params_spec n chord (by omega) hc
  have hk := C251_knots p n hp hn uk u0 u1 us (fun _ _ => 0)
  unfold interpolateCurve
  rw [e]
  dsimp only
  rw [if_neg]
  · obtain ⟨x, hx⟩ := Option.isSome_iff_exists.1 (hsolve (fun i l => coefRow p n (computeKnots p n uk) (uk i) l) (fun i => pt i 0))
    obtain ⟨y, hy⟩ := Option.isSome_iff_exists.1 (hsolve (fun i l => coefRow p n (computeKnots p n uk) (uk i) l) (fun i => pt i 1))
    obtain ⟨z, hz⟩ := Option.isSome_iff_exists.1 (hsolve (fun i l => coefRow p n (computeKnots p n uk) (uk i) l) (fun i => pt i 2))
    rw [hx, hy, hz]
    exact ⟨_, rfl⟩
  · intro hany
    obtain ⟨i, hi, hne⟩ := List.any_eq_true.1 hany
    have hi := List.mem_range.1 hi
    have b0 : 0 ≤ uk i := by
      rcases Nat.eq_zero_or_pos i with rfl | q
      · rw [u0]
      · rw [← u0]; exact (us 0 i q hi).le
    have b1 : uk i ≤ 1 := by
      rcases Nat.lt_or_ge i (n - 1) with q | q
      · rw [← u1]; exact (us i _ q (by omega)).le
      · rw [show i = n - 1 by omega, u1]
    exact (of_decide_eq_true hne) (coefRow_sum _ hk.1.valid (uk i) (le_of_eq_of_le hk.2.1 b0) (le_of_le_of_eq b1 hk.2.2.1.symm) (fun _ => 0)).1

/-- **C251, refuted part.** With at most `degree` points nothing is interpolated: the call raises. -/
theorem C251_few_points_refuted (solve : Nat → (Nat → Nat → K) → (Nat → K) → Option (Nat → K))
    (n p : Nat) (h0 : 0 < n) (hn : n ≤ p) (pt : Nat → Nat → K) (chord : Nat → K) : interpolateCurve solve n p pt chord = none := by
  unfold interpolateCurve
  split
  · rfl
  · dsimp only
    rw [if_pos]
    refine List.any_eq_true.2 ⟨0, List.mem_range.2 h0, decide_eq_true ?_⟩
    have hs : ∀ U u, findSpanLinear (K := K) p U n u = p := by
      intro U u
      obtain ⟨q, rfl⟩ : ∃ q, n = q + 1 := ⟨n - 1, by omega⟩
      rw [findSpanLinear, findSpanLinearLoop, if_neg (by omega)]
      rfl
    simp only [coefRowLen, hs]
    omega

/-- A solver for the matrix of three points with equal chords and degree 2, which checks its result. -/
def exSolve (n : Nat) (A : Nat → Nat → ℚ) (b : Nat → ℚ) : Option (Nat → ℚ) :=
  let x := fun l => if l = 0 then b 0 else if l = 1 then 2 * b 1 - b 0 / 2 - b 2 / 2 else b 2
  if (List.range n).all (fun i => decide (∑ l ∈ range n, A i l * x l = b i)) then some x else none

theorem exSolve_spec : ∀ n A b x, exSolve n A b = some x → ∀ i, i < n → ∑ l ∈ range n, A i l * x l = b i := by
  intro n A b x h i hi
  unfold exSolve at h
  dsimp only at h
  split_ifs at h with hall
  cases h
  exact of_decide_eq_true (List.all_eq_true.1 hall i (List.mem_range.2 hi))

/-- The parabola through (0, 0, 0), (1, 1, 0), (0, 2, 0). -/
example : (∀ i, i + 1 < 3 → 0 < (fun _ : Nat => (1 : ℚ)) i) ∧
    (interpolateCurve exSolve 3 2 (fun i col => if col = 0 then (if i = 1 then 1 else 0) else if col = 1 then i else 0) (fun _ => 1)).map
      (fun r => ((List.range 3).map (fun l => (r.1.P l 0, r.1.P l 1)), r.1.evaluate 5 (r.2 1) 0, r.1.evaluate 5 (1 / 4) 0)) =
      some ([(0, 0), (2, 1), (0, 2)], some 1, some (3 / 4)) := ⟨fun _ _ => by norm_num, by decide +kernel⟩

end Verif.Knot
