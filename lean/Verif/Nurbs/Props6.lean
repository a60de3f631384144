import Verif.Nurbs.Props5
import Verif.Nurbs.PeriodicModel

/-! # C66, C67 for curves; C68, C69: periodic and open curves -/

set_option linter.unusedSectionVars false

namespace Verif.Nurbs
open Finset
variable {K : Type} [Field K] [LinearOrder K]

section ordered
variable [IsStrictOrderedRing K]

theorem min_first (U : Nat → K) (m : Nat) (hU : MonoUpTo U m) : ∀ k, k ≤ m →
    (List.range k).foldl (fun a i => min a (U i)) (U 0) = U 0 := by
  intro k
  induction k with
  | zero => intro _; rfl
  | succ k ih =>
    intro hk
    rw [List.range_succ, List.foldl_append, ih (by omega)]
    exact min_eq_left (hU 0 k (by omega) (by omega))

theorem max_last (U : Nat → K) (m : Nat) (hU : MonoUpTo U m) : ∀ k, k ≤ m → 0 < k →
    (List.range k).foldl (fun a i => max a (U i)) (U 0) = U (k - 1) := by
  intro k
  induction k with
  | zero => intro _ h; omega
  | succ k ih =>
    intro hk _
    rw [List.range_succ, List.foldl_append]
    rcases Nat.eq_zero_or_pos k with h0 | h0
    · subst h0; exact max_self _
    · rw [ih (by omega) h0]
      exact max_eq_right (hU (k - 1) k (by omega) (by omega))

/-- **C66 for curves.** `normalize_knots` maps the knots to `[0, 1]` and only reparametrises the curve. -/
theorem C66_curve_normalize_knots (c : Curve K) (hc : Valid c) (hper : c.periodic = false) (fuel : Nat) (hf : c.n ≤ fuel) :
    Valid c.normalizeKnots ∧ c.normalizeKnots.U 0 = 0 ∧ c.normalizeKnots.U (c.m - 1) = 1 ∧
    ∀ x, c.U c.degree ≤ x → x ≤ c.U c.n → ∀ col,
      c.normalizeKnots.U c.degree ≤ (x - c.U 0) / (c.U (c.m - 1) - c.U 0) ∧
      (x - c.U 0) / (c.U (c.m - 1) - c.U 0) ≤ c.normalizeKnots.U c.n ∧
      c.normalizeKnots.evaluate fuel ((x - c.U 0) / (c.U (c.m - 1) - c.U 0)) col = c.evaluate fuel x col := by
  have hk := hc.knots
  have hnp := hc.npos
  have eU : ∀ i, i < c.m → c.normalizeKnots.U i = normKnot c.U c.m i := by
    intro i hi
    simp only [Curve.normalizeKnots]
    rw [if_pos hi, min_first c.U c.m hc.mono c.m (le_refl _), max_last c.U c.m hc.mono c.m (le_refl _) (by omega), normKnot,
      mul_one_div]
  obtain ⟨hpos, hv⟩ := norm_valid c c.normalizeKnots hc rfl rfl rfl eU
  refine ⟨hv, ?_, ?_, fun x hl hh col => ?_⟩
  · rw [eU 0 (by omega), normKnot, sub_self, zero_div]
  · rw [eU _ (by omega), normKnot, div_self (ne_of_gt hpos)]
  · have h1 : c.normalizeKnots.U c.degree ≤ (x - c.U 0) / (c.U (c.m - 1) - c.U 0) := by
      rw [eU _ (by omega), normKnot, aff_le _ _ _ _ hpos]; exact hl
    have h2 : (x - c.U 0) / (c.U (c.m - 1) - c.U 0) ≤ c.normalizeKnots.U c.n := by
      rw [eU _ (by omega), normKnot, aff_le _ _ _ _ hpos]; exact hh
    refine ⟨h1, h2, ?_⟩
    rw [C35_evaluate_is_rational_spline c hc hper fuel hf x hl hh,
      C35_evaluate_is_rational_spline c.normalizeKnots hv hper fuel hf _ h1 h2]
    have hval : ∀ q, specVal c.normalizeKnots q ((x - c.U 0) / (c.U (c.m - 1) - c.U 0)) = specVal c q x := by
      intro q
      rw [specVal, specVal]
      refine sum_congr rfl fun l hl => ?_
      have hl' : l < c.n := mem_range.mp hl
      have := bspl_affine c.U c.normalizeKnots.U c.m c.n (c.U 0) _ x hpos eU (by omega) c.degree l (by omega)
      show q l * bspl c.normalizeKnots.U c.n _ c.degree l = _
      rw [this]
    rw [hval, hval]
    rfl

end ordered

example : Valid exCurve ∧ (List.range 9).map exCurve.normalizeKnots.U = [0, 0, 0, 1 / 3, 1 / 3, 2 / 3, 1, 1, 1] ∧
    exCurve.normalizeKnots.evaluate 6 (1 / 6) 1 = some (11 / 3) :=
  ⟨exCurve_valid, by decide +kernel, by decide +kernel⟩

section ordered
variable [IsStrictOrderedRing K]

/-- **C67 for curves.** Default knots of a curve with more control points than its degree. -/
theorem C67_curve_default_knots (p n : Nat) (hp : p < n) (P : Nat → Nat → K) :
    let c : Curve K := { degree := p, n := n, P := P, m := n + p + 1, U := generateKnots n p, periodic := false }
    Valid c ∧ c.U 0 = 0 ∧ c.U p = 0 ∧ c.U n = ((n - p : Nat) : K) ∧ c.U (n + p) = ((n - p : Nat) : K) ∧
      ∀ k, p ≤ k → k < n → c.U k < c.U (k + 1) := by
  obtain ⟨h, a1, a2, a3, a4, _, _, _, _, a5, _⟩ := C67_default_knots p p n n hp hp (fun _ _ _ => (0 : K))
  exact ⟨⟨h.u.npos, h.u.knots, h.u.mono, h.u.last⟩, a1, a2, a3, a4, a5⟩

/-! ## C68 -/

theorem periodic_valid (p N : Nat) (hp : p < N) (P : Nat → Nat → K) (b : Bool) :
    Valid (K := K) { degree := p, n := N, P := P, m := N + p + 1, U := periodicKnots p, periodic := b } := by
  refine ⟨hp, rfl, fun x y hxy _ => ?_, ?_⟩
  · exact sub_le_sub_right (Nat.cast_le.mpr hxy) _
  · exact sub_lt_sub_right (Nat.cast_lt.mpr (show N - 1 < N by omega)) _

theorem cox_translate (e U : Nat → K) (a x : K) : ∀ p l, cox e (fun k => U k + a) (x + a) p l = cox e U x p l := by
  intro p
  induction p with
  | zero => intro l; rfl
  | succ p ih =>
    intro l
    rw [cox, cox, ih, ih]
    rw [show x + a - (U l + a) = x - U l by ring, show U (l + p + 1) + a - (U l + a) = U (l + p + 1) - U l by ring,
      show U (l + p + 2) + a - (x + a) = U (l + p + 2) - x by ring,
      show U (l + p + 2) + a - (U (l + 1) + a) = U (l + p + 2) - U (l + 1) by ring]

/-- The two ends of a uniform spline whose last `p` coefficients repeat the first `p`. -/
theorem periodic_ends (p n : Nat) (h1 : 1 ≤ p) (h2 : p ≤ n) (q : Nat → K) (hq : ∀ i, i < p → q (n + i) = q i) :
    spline (periodicKnots p) p (n + p) q 0 p = spline (periodicKnots p) p (n + p) q (n : K) (n + p - 1) := by
  have kne : ∀ i j : Nat, i ≠ j → (periodicKnots p i : K) ≠ (j : K) - p := by
    intro i j h he
    rw [periodicKnots] at he
    exact h (Nat.cast_injective (R := K) (sub_left_injective he))
  have hx : (n : K) = ((n + p : Nat) : K) - p := by push_cast; ring
  have hcont : ∀ l, cox (spike (n + p - 1)) (periodicKnots p) (n : K) p l = cox (spike (n + p)) (periodicKnots p) (n : K) p l := by
    intro l
    have := cox_continuous (periodicKnots p) (n : K) (n + p - 1) 1 p h1 (by rw [hx]; exact kne _ _ (by omega))
      (fun j ha hb => by
        obtain rfl : j = n + p := by omega
        rw [periodicKnots, hx]) (by rw [hx]; exact kne _ _ (by omega)) l
    rw [this, show n + p - 1 + 1 = n + p by omega]
  -- right end, rewritten over a window
  let q' : Nat → K := fun l => if l = n + p then q p else q l
  have e1 : spline (periodicKnots p) p (n + p) q (n : K) (n + p - 1) =
      spline (periodicKnots p) p (n + p + 1) q' (n : K) (n + p) := by
    rw [spline, spline, sum_range_succ, ← hcont (n + p), cox_spike_out (n + p - 1) _ _ p (n + p) (Or.inl (by omega)), mul_zero,
      add_zero]
    refine sum_congr rfl fun l hl => ?_
    have := mem_range.mp hl
    rw [hcont]
    have : q' l = q l := if_neg (by omega)
    rw [this]
  rw [e1, spline_window _ p (n + p + 1) q' _ (n + p) (by omega) (by omega),
    spline_window _ p (n + p) q _ p (le_refl _) (by omega)]
  refine sum_congr rfl fun r hr => ?_
  have hr' := mem_range.mp hr
  have hq' : q' (n + p - p + r) = q (p - p + r) := by
    rw [show n + p - p + r = n + r by omega, show p - p + r = r by omega]
    by_cases h : r = p
    · subst h; exact if_pos rfl
    · have : q' (n + r) = q (n + r) := if_neg (by omega)
      rw [this]; exact hq r (by omega)
  rw [hq', show n + p - p + r = r + n by omega, show n + p = p + n by omega, cox_shift p n]
  have hU : (fun k => (periodicKnots p (k + n) : K)) = fun k => periodicKnots p k + (n : K) := by
    funext k
    simp only [periodicKnots]
    push_cast; ring
  rw [hU]
  have := cox_translate (spike p) (periodicKnots p) (n : K) 0 p r
  rw [zero_add] at this
  rw [this, show p - p + r = r by omega]

/-- **C68, partial.** `make_periodic` on a curve that `is_periodic` rejects: the control polygon is continued with its first
`degree` points, the curve is well formed with evaluation domain `[0, n]`, and the points at both ends of that domain coincide.
Missing: the ends of `interval()`, which are other parameters (next theorem). -/
theorem C68_make_periodic_partial (c : Curve K) (hc : Valid c) (hp : 1 ≤ c.degree) (h : c.isPeriodic = false)
    (fuel : Nat) (hf : c.n + c.degree ≤ fuel) :
    Valid c.makePeriodic ∧ (∀ i col, i < c.n → c.makePeriodic.P i col = c.P i col) ∧
    c.makePeriodic.U c.makePeriodic.degree = 0 ∧ c.makePeriodic.U c.makePeriodic.n = (c.n : K) ∧
    ∀ col, c.makePeriodic.evaluate fuel 0 col = c.makePeriodic.evaluate fuel (c.n : K) col := by
  have hnp := hc.npos
  obtain ⟨P', hP'⟩ : ∃ P' : Nat → Nat → K, P' = fun i col => if i < c.n then c.P i col else c.P (i - c.n) col := ⟨_, rfl⟩
  have hm : c.makePeriodic = { degree := c.degree, n := c.n + c.degree, P := P', m := c.n + c.degree + c.degree + 1,
                               U := periodicKnots c.degree, periodic := true } := by
    rw [Curve.makePeriodic, h, hP']; rfl
  rw [hm]
  have hv := periodic_valid (K := K) c.degree (c.n + c.degree) (by omega) P'
  have hlo : (periodicKnots c.degree c.degree : K) = 0 := sub_self _
  have hhi : (periodicKnots c.degree (c.n + c.degree) : K) = (c.n : K) := by rw [periodicKnots]; push_cast; ring
  have hn0 : (0 : K) ≤ (c.n : K) := Nat.cast_nonneg _
  refine ⟨hv true, fun i col hi => by rw [hP']; exact if_pos hi, hlo, hhi, fun col => ?_⟩
  have p1 := C55_periodic_evaluate_partial _ (hv true) rfl fuel hf 0 (le_of_eq hlo) (le_of_le_of_eq hn0 hhi.symm) col
  have p2 := C55_periodic_evaluate_partial _ (hv true) rfl fuel hf (c.n : K) (le_of_eq_of_le hlo hn0) (le_of_eq hhi.symm) col
  rw [p1, p2]
  obtain ⟨i, _, s1, _, ev1⟩ := (hv false).evaluate_eq rfl fuel hf 0 (le_of_eq hlo) (le_of_le_of_eq hn0 hhi.symm)
  obtain ⟨j, _, s2, _, ev2⟩ := (hv false).evaluate_eq rfl fuel hf (c.n : K) (le_of_eq_of_le hlo hn0)
    (le_of_eq hhi.symm)
  have hlt : ∀ a b : Nat, (periodicKnots c.degree a : K) < periodicKnots c.degree b ↔ a < b := by
    intro a b
    rw [periodicKnots, periodicKnots, sub_lt_sub_iff_right, Nat.cast_lt]
  have hle : ∀ a b : Nat, (periodicKnots c.degree a : K) ≤ periodicKnots c.degree b ↔ a ≤ b := by
    intro a b
    rw [periodicKnots, periodicKnots, sub_le_sub_iff_right, Nat.cast_le]
  have hi : i = c.degree := by
    obtain ⟨a1, a2, a3, a4⟩ := s1
    dsimp only at a1 a2 a3 a4
    rw [← hlo] at a3 a4
    rw [hle] at a3
    rcases a4 with a4 | ⟨_, a4⟩
    · rw [hlt] at a4; omega
    · rw [hlo, hhi] at a4
      have : (c.n : K) ≠ 0 := Nat.cast_ne_zero.mpr (by omega)
      exact absurd a4.symm this
  have hj : j = c.n + c.degree - 1 := by
    obtain ⟨a1, a2, a3, a4⟩ := s2
    dsimp only at a1 a2 a3 a4
    rw [← hhi] at a3 a4
    rcases a4 with a4 | ⟨a4, _⟩
    · rw [hlt] at a4; omega
    · omega
  subst hi
  have ends : ∀ q : Nat → K, (∀ i, i < c.degree → q (c.n + i) = q i) →
      spline (periodicKnots c.degree) c.degree (c.n + c.degree) q 0 c.degree =
      spline (periodicKnots c.degree) c.degree (c.n + c.degree) q (c.n : K) (c.n + c.degree - 1) :=
    fun q hq => periodic_ends c.degree c.n hp (by omega) q hq
  have hrep : ∀ i, i < c.degree → ∀ col, P' (c.n + i) col = P' i col := by
    intro i hi col
    rw [hP']
    dsimp only
    rw [if_neg (by omega), if_pos (by omega), show c.n + i - c.n = i by omega]
  rw [ev1 col, ev2 col, hj]
  dsimp only
  rw [ends (fun l => P' l 3 * P' l col) (fun i hi => by simp only [hrep i hi]), ends (fun l => P' l 3) (fun i hi => hrep i hi 3)]

end ordered

/-- A degree-2 arc through four points (examples). -/
def exOpen : Curve ℚ where
  degree := 2
  n := 4
  P := fun i col => if col = 3 then 1 else if col = 0 then kvec [0, 1, 3, 3] i else if col = 1 then kvec [0, 2, 2, 5] i else 0
  m := 7
  U := generateKnots 4 2
  periodic := false

theorem exOpen_valid : Valid exOpen := by
  obtain ⟨h, _⟩ := C67_curve_default_knots (K := ℚ) 2 4 (by omega) exOpen.P
  exact h

example : Valid exOpen ∧ 1 ≤ exOpen.degree ∧ exOpen.isPeriodic = false ∧ exOpen.makePeriodic.evaluate 6 0 0 = some (1 / 2) ∧
    exOpen.makePeriodic.evaluate 6 4 0 = some (1 / 2) ∧ exOpen.makePeriodic.evaluate 6 4 1 = some 1 :=
  ⟨exOpen_valid, by decide, by decide +kernel, by decide +kernel, by decide +kernel, by decide +kernel⟩

/-- **C68 refuted.** After `make_periodic` the curve does not report itself closed: `start()`, `end()` and so `is_closed()`
evaluate at the first and the last knot, outside the domain. -/
theorem C68_make_periodic_refuted : ¬ ∀ (c : Curve ℚ), Valid c → 1 ≤ c.degree → c.isPeriodic = false →
    c.makePeriodic.isClosed 20 (1 / 10000000) = some true := by
  intro h
  have h1 := h exOpen exOpen_valid (by decide) (by decide +kernel)
  have h2 : exOpen.makePeriodic.isClosed 20 (1 / 10000000) = some false := by decide +kernel
  rw [h2] at h1
  cases h1

/-! ## C69 -/

/-- **C69 refuted.** `is_periodic()` is true for curves whose first and last control points differ: only the last of the
compared rows counts. -/
theorem C69_is_periodic_refuted : ¬ ∀ (c : Curve ℚ), Valid c → c.isPeriodic = true →
    ∀ j, j < c.degree → ∀ col, col < 4 → c.P j col = c.P (c.n - c.degree + j) col := by
  intro h
  have h1 := h { exOpen with P := fun i col => if col = 3 then 1 else if col = 0 then kvec [0, 1, 3, 1] i else 0 }
    ⟨exOpen_valid.npos, exOpen_valid.knots, exOpen_valid.mono, exOpen_valid.last⟩ (by decide +kernel) 0 (by decide) 0 (by decide)
  norm_num [exOpen, kvec] at h1

theorem isPeriodic_row (c : Curve K) (j : Nat) : (List.range 4).foldl (fun (s : Bool) i =>
    if s then decide (c.P j i = c.P (c.n - c.degree + j) i) else s) true = true ↔
    ∀ col, col < 4 → c.P j col = c.P (c.n - c.degree + j) col := by
  have e : List.range 4 = [0, 1, 2, 3] := rfl
  rw [e]
  simp only [List.foldl_cons, List.foldl_nil]
  constructor
  · intro h col hcol
    by_cases h0 : c.P j 0 = c.P (c.n - c.degree + j) 0 <;> by_cases h1 : c.P j 1 = c.P (c.n - c.degree + j) 1 <;>
      by_cases h2 : c.P j 2 = c.P (c.n - c.degree + j) 2 <;> by_cases h3 : c.P j 3 = c.P (c.n - c.degree + j) 3 <;>
      simp only [h0, h1, h2, h3, decide_true, decide_false, if_true, Bool.false_eq_true, if_false] at h
    obtain rfl | rfl | rfl | rfl : col = 0 ∨ col = 1 ∨ col = 2 ∨ col = 3 := by omega
    · exact h0
    · exact h1
    · exact h2
    · exact h3
  · intro h
    simp [h 0 (by omega), h 1 (by omega), h 2 (by omega), h 3 (by omega)]

/-- **C69, partial.** `is_periodic()` says exactly whether row `degree - 1` equals the last row; so it is never false for a
curve whose last `degree` control points repeat its first ones, and it is exact for degree 1. Missing: the other rows. -/
theorem C69_is_periodic_partial (c : Curve K) (hp : 1 ≤ c.degree) (hn : c.degree ≤ c.n) :
    (c.isPeriodic = true ↔ ∀ col, col < 4 → c.P (c.degree - 1) col = c.P (c.n - 1) col) ∧
    ((∀ j, j < c.degree → ∀ col, col < 4 → c.P j col = c.P (c.n - c.degree + j) col) → c.isPeriodic = true) ∧
    (c.degree = 1 → (c.isPeriodic = true ↔ ∀ col, col < 4 → c.P 0 col = c.P (c.n - 1) col)) := by
  have key : c.isPeriodic = true ↔ ∀ col, col < 4 → c.P (c.degree - 1) col = c.P (c.n - 1) col := by
    rw [Curve.isPeriodic]
    obtain ⟨d, hd⟩ : ∃ d, c.degree = d + 1 := ⟨c.degree - 1, by omega⟩
    have := isPeriodic_row c (c.degree - 1)
    rw [show c.n - c.degree + (c.degree - 1) = c.n - 1 by omega] at this
    rw [← this, show (List.range c.degree) = List.range d ++ [d] by rw [hd, List.range_succ], List.foldl_append]
    simp only [List.foldl_cons, List.foldl_nil]
    rw [show c.degree - 1 = d by omega, show c.n - c.degree + d = c.n - 1 by omega]
  refine ⟨key, fun h => key.mpr fun col hcol => ?_, fun h1 => ?_⟩
  · rw [h (c.degree - 1) (by omega) col hcol, show c.n - c.degree + (c.degree - 1) = c.n - 1 by omega]
  · rw [key, h1]

example : exOpen.makePeriodic.isPeriodic = true ∧ 1 ≤ exOpen.makePeriodic.degree := by
  constructor <;> decide +kernel

/-- **C69, `make_open`, refuted.** On a curve that is already open and clamped `make_open()` drops the last `degree` control
points, so it is not the identity and moves the end point. -/
theorem C69_make_open_refuted : ¬ ∀ (c : Curve ℚ), Valid c → c.periodic = false →
    ∀ c', c.makeOpen 20 (1 / 10000000) = some c' → c'.n = c.n := by
  intro h
  have h2 : (exOpen.makeOpen 20 (1 / 10000000)).map (·.n) = some 2 := by decide +kernel
  cases e : exOpen.makeOpen 20 (1 / 10000000) with
  | none => rw [e] at h2; cases h2
  | some c' =>
    have h1 := h exOpen exOpen_valid rfl c' e
    rw [e] at h2
    simp only [Option.map_some, Option.some.injEq] at h2
    rw [h2] at h1
    exact absurd h1 (by decide)

end Verif.Nurbs
