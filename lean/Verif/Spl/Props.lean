import Verif.Spl.Join
import Verif.Nurbs.Props2

/-! # C334–C336, C339: what the control points say about the curve -/

set_option linter.unusedSectionVars false

namespace Verif.Spl
open Finset Verif.Nurbs Verif.NDer

variable {K : Type} [Field K] [LinearOrder K] [IsStrictOrderedRing K]

/-! ## C334 -/

/-- Sum of the `p` knots after the knot `l`. -/
def ksum (U : Nat → K) (p l : Nat) : K := ∑ k ∈ range p, U (l + 1 + k)

theorem cox_ksum (U : Nat → K) (m : Nat) (hU : MonoUpTo U m) (i : Nat) (hi : U i < U (i + 1)) (x : K) :
    ∀ p, p ≤ i → i + p < m → ∑ r ∈ range (p + 1), ksum U p (i - p + r) * cox (spike i) U x p (i - p + r) = p * x := by
  intro p
  induction p with
  | zero => intro _ _; simp [ksum]
  | succ p ih =>
    intro hp hm
    have IH := ih (by omega) (by omega)
    have one := cox_sum_one U m hU i hi x p (by omega) (by omega)
    have hA : ∑ r ∈ range (p + 2), ksum U (p + 1) (i - (p + 1) + r) * ((x - U (i - (p + 1) + r)) / (U (i - (p + 1) + r + p + 1) - U (i - (p + 1) + r)) *
        cox (spike i) U x p (i - (p + 1) + r)) =
        ∑ r ∈ range (p + 1), ksum U (p + 1) (i - p + r) * ((x - U (i - p + r)) / (U (i - p + r + p + 1) - U (i - p + r)) *
        cox (spike i) U x p (i - p + r)) := by
      rw [sum_range_succ']
      rw [cox_spike_out i U x p (i - (p + 1) + 0) (by omega), mul_zero, mul_zero, add_zero]
      apply sum_congr rfl
      intro r _
      rw [show i - (p + 1) + (r + 1) = i - p + r by omega]
    have hB : ∑ r ∈ range (p + 2), ksum U (p + 1) (i - (p + 1) + r) * ((U (i - (p + 1) + r + p + 2) - x) /
        (U (i - (p + 1) + r + p + 2) - U (i - (p + 1) + r + 1)) * cox (spike i) U x p (i - (p + 1) + r + 1)) =
        ∑ r ∈ range (p + 1), ksum U (p + 1) (i - (p + 1) + r) * ((U (i - p + r + p + 1) - x) / (U (i - p + r + p + 1) - U (i - p + r)) *
        cox (spike i) U x p (i - p + r)) := by
      rw [sum_range_succ, cox_spike_out i U x p (i - (p + 1) + (p + 1) + 1) (by omega), mul_zero, mul_zero, add_zero]
      apply sum_congr rfl
      intro r _
      rw [show i - (p + 1) + r + 1 = i - p + r by omega, show i - (p + 1) + r + p + 2 = i - p + r + p + 1 by omega]
    calc ∑ r ∈ range (p + 2), ksum U (p + 1) (i - (p + 1) + r) * cox (spike i) U x (p + 1) (i - (p + 1) + r)
        = ∑ r ∈ range (p + 1), (ksum U p (i - p + r) + x) * cox (spike i) U x p (i - p + r) := by
          simp only [cox, mul_add]
          rw [sum_add_distrib, hA, hB, ← sum_add_distrib]
          apply sum_congr rfl
          intro r hr
          have hr := mem_range.mp hr
          have hd := den_pos U m hU i hi (i - p + r) (p + 1) (by omega) (by omega) (by omega)
          have hd' : U (i - p + r + p + 1) - U (i - p + r) ≠ 0 := by
            have : i - p + r + (p + 1) = i - p + r + p + 1 := by omega
            rw [this] at hd
            exact sub_ne_zero.mpr (ne_of_gt hd)
          have e1 : ksum U (p + 1) (i - p + r) = ksum U p (i - p + r) + U (i - p + r + p + 1) := by
            unfold ksum
            rw [sum_range_succ, show i - p + r + 1 + p = i - p + r + p + 1 by omega]
          have e2 : ksum U (p + 1) (i - (p + 1) + r) = ksum U p (i - p + r) + U (i - p + r) := by
            unfold ksum
            rw [sum_range_succ', show i - (p + 1) + r + 1 + 0 = i - p + r by omega]
            congr 1
            apply sum_congr rfl
            intro k _
            congr 1
            omega
          rw [e1, e2]
          field_simp
          ring
      _ = ((p + 1 : Nat) : K) * x := by
          simp only [add_mul, sum_add_distrib, ← mul_sum]
          rw [IH, one]
          push_cast
          ring

/-- C334: a curve of degree at least one with equal weights whose control points are an affine function of the Greville abscissae is that
affine function of the parameter, everywhere in its domain. -/
theorem C334_linear (c : Curve K) (hc : Valid c) (hper : c.periodic = false) (fuel : Nat) (hf : c.n ≤ fuel) (w : K) (hw0 : w ≠ 0)
    (hw : ∀ l, l < c.n → c.P l 3 = w) (hp : 1 ≤ c.degree) (col : Nat) (a b : K)
    (hP : ∀ l, l < c.n → c.P l col = a + b * greville c.U c.degree l) (x : K) (hl : c.U c.degree ≤ x) (hh : x ≤ c.U c.n) :
    c.evaluate fuel x col = some (a + b * x) := by
  have hk := hc.knots
  have hnp := hc.npos
  obtain ⟨i, _, hpi, hsp⟩ := findSpan_sp fuel c.n c.degree x c.U hc.npos hf c.m hc.mono (by omega) hc.last hl hh
  have hi := hsp.1
  rw [evaluate_spec c hc hper fuel hf w hw0 hw x hl hh col, specVal_eq c hc _ x i hsp, spline_window c.U c.degree c.n _ x i hpi hsp.1]
  congr 1
  have h1 := cox_sum_one c.U c.m hc.mono i hsp.2.1 x c.degree hpi (by omega)
  have h2 := cox_ksum c.U c.m hc.mono i hsp.2.1 x c.degree hpi (by omega)
  have hp0 : (c.degree : K) ≠ 0 := by positivity
  have e : ∀ r ∈ range (c.degree + 1), c.P (i - c.degree + r) col * cox (spike i) c.U x c.degree (i - c.degree + r) =
      a * cox (spike i) c.U x c.degree (i - c.degree + r) +
        b / c.degree * (ksum c.U c.degree (i - c.degree + r) * cox (spike i) c.U x c.degree (i - c.degree + r)) := by
    intro r hr
    have := mem_range.1 hr
    rw [hP _ (by omega), greville_eq]
    show (a + b * (ksum c.U c.degree (i - c.degree + r) / c.degree)) * _ = _
    ring
  rw [sum_congr rfl e, sum_add_distrib, ← mul_sum, ← mul_sum, h1, h2]
  field_simp

/-- The curve of the examples with control points `2 + 3 g` for the Greville abscissae `g`. -/
def exLine : Curve ℚ := { exPoly with P := fun i col => if col = 3 then 1 else 2 + 3 * greville exU 2 i }

example : exLine.evaluate 6 (1 / 2) 0 = some (7 / 2) ∧ exLine.evaluate 6 (9 / 4) 0 = some (35 / 4) ∧ (List.range 6).map (fun i => exLine.P i 0) ≠ List.replicate 6 2 := by
  refine ⟨by decide +kernel, by decide +kernel, by decide +kernel⟩

/-! ## C335 -/

/-- C335: changing one control point and its weight changes the curve only on the span of knots belonging to it. -/
theorem C335_local (c c' : Curve K) (hc : Valid c) (hper : c.periodic = false) (hd : c'.degree = c.degree) (hn : c'.n = c.n) (hm : c'.m = c.m)
    (hU : c'.U = c.U) (hper' : c'.periodic = false) (j : Nat) (hj : j < c.n) (hP : ∀ l, l ≠ j → c'.P l = c.P l) (fuel : Nat) (hf : c.n ≤ fuel) (x : K)
    (hl : c.U c.degree ≤ x) (hh : x ≤ c.U c.n) (hx : x < c.U j ∨ (c.U (j + c.degree + 1) ≤ x ∧ (x < c.U c.n ∨ j + c.degree + 1 < c.n))) (col : Nat) :
    c'.evaluate fuel x col = c.evaluate fuel x col := by
  have hk := hc.knots
  have hnp := hc.npos
  have hc' : Valid c' := ⟨by rw [hd, hn]; exact hc.npos, by rw [hm, hn, hd]; exact hc.knots, by rw [hU, hm]; exact hc.mono, by rw [hU, hn]; exact hc.last⟩
  obtain ⟨i, hpi, hsp, hfs, e⟩ := hc.evaluate_eq hper fuel hf x hl hh
  obtain ⟨i', _, hsp', _, e'⟩ := hc'.evaluate_eq hper' fuel (by rw [hn]; exact hf) x (by rw [hU, hd]; exact hl) (by rw [hU, hn]; exact hh)
  rw [hU, hn] at hsp'
  have hii : i' = i := sp_unique c.U c.n c.m hc.mono (by omega) x i' i hsp' hsp
  subst hii
  rw [e col, e' col, hd, hn, hU]
  have hout : cox (spike i') c.U x c.degree j = 0 := by
    apply cox_spike_out
    obtain ⟨b1, b2, b3, b4⟩ := hsp
    rcases hx with h | ⟨h1, h2⟩
    · left
      by_contra hcon
      exact absurd (lt_of_lt_of_le h (hc.mono j i' (by omega) (by omega))) (not_lt.2 b3)
    · right
      by_contra hcon
      rcases b4 with b4 | ⟨b4, b5⟩
      · exact absurd (lt_of_le_of_lt h1 b4) (not_lt.2 (hc.mono (i' + 1) (j + c.degree + 1) (by omega) (by omega)))
      · rcases h2 with h2 | h2
        · exact absurd b5 (ne_of_lt h2)
        · omega
  have key : ∀ q q' : Nat → K, (∀ l, l ≠ j → q' l = q l) → spline c.U c.degree c.n q' x i' = spline c.U c.degree c.n q x i' := by
    intro q q' hq
    unfold spline
    apply sum_congr rfl
    intro l _
    by_cases h : l = j
    · rw [h, hout, mul_zero, mul_zero]
    · rw [hq l h]
  rw [key (fun l => c.P l 3 * c.P l col) (fun l => c'.P l 3 * c'.P l col) (fun l h => by simp only [hP l h]),
    key (fun l => c.P l 3) (fun l => c'.P l 3) (fun l h => by simp only [hP l h])]

example : let c' : Curve ℚ := { exCurve with P := fun l col => if l = 5 then 1000 else exCurve.P l col }
    c'.evaluate 6 (3 / 2) 0 = exCurve.evaluate 6 (3 / 2) 0 ∧ c'.evaluate 6 (5 / 2) 0 ≠ exCurve.evaluate 6 (5 / 2) 0 := by
  refine ⟨by decide +kernel, by decide +kernel⟩

/-! ## C336 -/

theorem spline_pos (c : Curve K) (hc : Valid c) (x : K) (i : Nat) (hpi : c.degree ≤ i) (hsp : Sp c.U c.n x i) (w : Nat → K) (hw : ∀ l, l < c.n → 0 < w l) :
    0 < spline c.U c.degree c.n w x i := by
  obtain ⟨b1, b2, b3, b4⟩ := hsp
  have hm := hc.knots
  have hx2 : x ≤ c.U (i + 1) := by
    rcases b4 with h | ⟨h1, h2⟩
    · exact le_of_lt h
    · rw [h1, h2]
  rw [spline_window c.U c.degree c.n _ x i hpi b1]
  have hN : ∀ r ∈ range (c.degree + 1), 0 ≤ w (i - c.degree + r) * cox (spike i) c.U x c.degree (i - c.degree + r) := fun r hr => by
    have := mem_range.1 hr
    exact mul_nonneg (hw _ (by omega)).le (cox_nonneg c.U c.m hc.mono i b2 x b3 hx2 c.degree _ (by omega))
  have hsum := cox_sum_one c.U c.m hc.mono i b2 x c.degree hpi (by omega)
  by_contra hcon
  have hz := (sum_eq_zero_iff_of_nonneg hN).mp (le_antisymm (not_lt.mp hcon) (sum_nonneg hN))
  have : ∑ r ∈ range (c.degree + 1), cox (spike i) c.U x c.degree (i - c.degree + r) = 0 := by
    apply sum_eq_zero
    intro r hr
    have := mem_range.mp hr
    rcases mul_eq_zero.mp (hz r hr) with h2 | h2
    · exact absurd h2 (ne_of_gt (hw _ (by omega)))
    · exact h2
  rw [this] at hsum
  exact zero_ne_one hsum

/-- The curve whose control points are moved by the affine map with matrix `A` and shift `b`. -/
def moved (c : Curve K) (A : Nat → Nat → K) (b : Nat → K) : Curve K :=
  { c with P := fun l col => if col = 3 then c.P l 3 else A col 0 * c.P l 0 + A col 1 * c.P l 1 + A col 2 * c.P l 2 + b col }

/-- C336: moving the control points of a curve with positive weights by an affine map moves all its points by that map. -/
theorem C336_affine (c : Curve K) (hc : Valid c) (hper : c.periodic = false) (hw : ∀ l, l < c.n → 0 < c.P l 3) (A : Nat → Nat → K) (b : Nat → K)
    (fuel : Nat) (hf : c.n ≤ fuel) (x : K) (hl : c.U c.degree ≤ x) (hh : x ≤ c.U c.n) :
    ∃ q : Nat → K, (∀ col, c.evaluate fuel x col = some (q col)) ∧
      ∀ col, col ≠ 3 → (moved c A b).evaluate fuel x col = some (A col 0 * q 0 + A col 1 * q 1 + A col 2 * q 2 + b col) := by
  have hk := hc.knots
  have hnp := hc.npos
  have hc' : Valid (moved c A b) := ⟨hc.npos, hc.knots, hc.mono, hc.last⟩
  obtain ⟨i, hpi, hsp, hfs, e⟩ := hc.evaluate_eq hper fuel hf x hl hh
  obtain ⟨i', _, hsp', _, e'⟩ := hc'.evaluate_eq hper fuel hf x hl hh
  have hii : i' = i := sp_unique c.U c.n c.m hc.mono (by omega) x i' i hsp' hsp
  subst hii
  refine ⟨fun col => spline c.U c.degree c.n (fun l => c.P l 3 * c.P l col) x i' / spline c.U c.degree c.n (fun l => c.P l 3) x i', e, fun col hcol => ?_⟩
  rw [e' col]
  congr 1
  have hden := ne_of_gt (spline_pos c hc x i' hpi hsp (fun l => c.P l 3) hw)
  have c1 : (fun l => (moved c A b).P l 3 * (moved c A b).P l col) =
      fun l => c.P l 3 * (A col 0 * c.P l 0 + A col 1 * c.P l 1 + A col 2 * c.P l 2 + b col) := by
    funext l; simp only [moved, if_true, if_neg hcol]
  have c2 : (fun l => (moved c A b).P l 3) = fun l => c.P l 3 := by funext l; simp only [moved, if_true]
  rw [c1, c2]
  show spline c.U c.degree c.n _ x i' / spline c.U c.degree c.n _ x i' = _
  have hnum : spline c.U c.degree c.n (fun l => c.P l 3 * (A col 0 * c.P l 0 + A col 1 * c.P l 1 + A col 2 * c.P l 2 + b col)) x i' =
      A col 0 * spline c.U c.degree c.n (fun l => c.P l 3 * c.P l 0) x i' + A col 1 * spline c.U c.degree c.n (fun l => c.P l 3 * c.P l 1) x i' +
        A col 2 * spline c.U c.degree c.n (fun l => c.P l 3 * c.P l 2) x i' + b col * spline c.U c.degree c.n (fun l => c.P l 3) x i' := by
    unfold spline
    simp only [mul_sum, ← sum_add_distrib]
    apply sum_congr rfl
    intro l _
    ring
  rw [hnum]
  field_simp

/-- Scaling all weights by one number other than zero does not change the curve. -/
theorem C336_weights (c : Curve K) (hc : Valid c) (hper : c.periodic = false) (w : K) (hw : w ≠ 0) (fuel : Nat) (hf : c.n ≤ fuel) (x : K)
    (hl : c.U c.degree ≤ x) (hh : x ≤ c.U c.n) (col : Nat) (hcol : col ≠ 3) :
    ({ c with P := fun l k => if k = 3 then w * c.P l 3 else c.P l k } : Curve K).evaluate fuel x col = c.evaluate fuel x col := by
  have hk := hc.knots
  have hnp := hc.npos
  have hc' : Valid ({ c with P := fun l k => if k = 3 then w * c.P l 3 else c.P l k } : Curve K) := ⟨hc.npos, hc.knots, hc.mono, hc.last⟩
  obtain ⟨i, hpi, hsp, hfs, e⟩ := hc.evaluate_eq hper fuel hf x hl hh
  obtain ⟨i', _, hsp', _, e'⟩ := hc'.evaluate_eq hper fuel hf x hl hh
  have hii : i' = i := sp_unique c.U c.n c.m hc.mono (by omega) x i' i hsp' hsp
  subst hii
  rw [e col, e' col]
  congr 1
  simp only [if_true, if_neg hcol, mul_assoc]
  rw [spline_smul, spline_smul, mul_div_mul_left _ _ hw]

/-! ## C339 -/

/-- C339: at a knot of multiplicity at least the degree, a curve passes through the control point belonging to it. -/
theorem C339_knot (c : Curve K) (hc : Valid c) (hper : c.periodic = false) (fuel : Nat) (hf : c.n ≤ fuel) (i : Nat) (hpi : c.degree ≤ i) (hin : i < c.n)
    (x : K) (hx : ∀ k, i < k + c.degree → k ≤ i → c.U k = x) (hx0 : c.U i ≤ x) (hx1 : x < c.U (i + 1)) (hw : c.P (i - c.degree) 3 ≠ 0) (col : Nat) :
    c.evaluate fuel x col = some (c.P (i - c.degree) col) := by
  have hk := hc.knots
  have hnp := hc.npos
  have hsp : Sp c.U c.n x i := ⟨hin, lt_of_le_of_lt hx0 hx1, hx0, Or.inl hx1⟩
  obtain ⟨d1, d2⟩ := sp_dom hc hpi hsp
  obtain ⟨i', _, hsp', _, e⟩ := hc.evaluate_eq hper fuel hf x d1 d2
  have hii : i' = i := sp_unique c.U c.n c.m hc.mono (by omega) x i' i hsp' hsp
  subst hii
  rw [e col]
  have key : ∀ q : Nat → K, spline c.U c.degree c.n q x i' = q (i' - c.degree) := by
    intro q
    unfold spline
    rw [sum_eq_single (i' - c.degree)]
    · rw [cox_left c.U i' x (ne_of_gt hx1) c.degree hpi hx]
      simp [spike]
    · intro l _ hl
      rw [cox_left c.U i' x (ne_of_gt hx1) c.degree hpi hx]
      simp [spike, hl]
    · intro h
      exact absurd (mem_range.2 (by omega)) h
  rw [key, key, mul_div_cancel_left₀ _ hw]

/-- In particular at the start of a clamped curve. -/
theorem C339_start (c : Curve K) (hc : Valid c) (hper : c.periodic = false) (fuel : Nat) (hf : c.n ≤ fuel)
    (hx : ∀ k, 1 ≤ k → k ≤ c.degree → c.U k = c.U c.degree) (hx1 : c.U c.degree < c.U (c.degree + 1)) (hw : c.P 0 3 ≠ 0) (col : Nat) :
    c.evaluate fuel (c.U c.degree) col = some (c.P 0 col) := by
  have := C339_knot c hc hper fuel hf c.degree (le_refl _) hc.npos (c.U c.degree) (fun k a b => hx k (by omega) b) (le_refl _) hx1
    (by rw [Nat.sub_self]; exact hw) col
  rwa [Nat.sub_self] at this

/-- And at its end. -/
theorem C339_end (c : Curve K) (hc : Valid c) (hper : c.periodic = false) (fuel : Nat) (hf : c.n ≤ fuel)
    (hx : ∀ k, c.n ≤ k → k + 1 ≤ c.n + c.degree → c.U k = c.U c.n) (hw : c.P (c.n - 1) 3 ≠ 0) (col : Nat) :
    c.evaluate fuel (c.U c.n) col = some (c.P (c.n - 1) col) := by
  have hk := hc.knots
  have hnp := hc.npos
  have hn1 : c.n - 1 + 1 = c.n := by omega
  have hsp : Sp c.U c.n (c.U c.n) (c.n - 1) := ⟨by omega, by rw [hn1]; exact hc.last, hc.last.le, Or.inr ⟨hn1, rfl⟩⟩
  obtain ⟨d1, d2⟩ := sp_dom hc (by omega : c.degree ≤ c.n - 1) hsp
  obtain ⟨i', _, hsp', _, e⟩ := hc.evaluate_eq hper fuel hf _ d1 d2
  have hii : i' = c.n - 1 := sp_unique c.U c.n c.m hc.mono (by omega) _ i' _ hsp' hsp
  subst hii
  rw [e col]
  have key : ∀ q : Nat → K, spline c.U c.degree c.n q (c.U c.n) (c.n - 1) = q (c.n - 1) := by
    intro q
    unfold spline
    have hc2 := cox_right c.U (c.n - 1) (c.U c.n) (ne_of_lt hc.last) c.degree (fun k a b => hx k (by omega) (by omega))
    rw [sum_eq_single (c.n - 1)]
    · rw [hc2]; simp [spike]
    · intro l _ hl
      rw [hc2]; simp [spike, hl]
    · intro h
      exact absurd (mem_range.2 (by omega)) h
  rw [key, key, mul_div_cancel_left₀ _ hw]

example : exCurve.evaluate 6 0 1 = some (exCurve.P 0 1) ∧ exCurve.evaluate 6 1 1 = some (exCurve.P 2 1) ∧ exCurve.evaluate 6 3 0 = some (exCurve.P 5 0) := by
  refine ⟨by decide +kernel, by decide +kernel, by decide +kernel⟩

end Verif.Spl
