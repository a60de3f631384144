import Verif.Knot.Props5

/-!
# C252: `join_two_curves` of `knot.py`
-/

set_option linter.unusedSectionVars false

namespace Verif.Knot
open Verif.Nurbs Finset

variable {K : Type} [Field K] [LinearOrder K] [IsStrictOrderedRing K]

/-- **C252, the ends.** The pair of ends taken is one that meets, and one is taken whenever two ends meet. -/
theorem C252_ends (near : Nat → Nat → Bool) :
    (∀ i j, joinIx near = some (i, j) → near i j = true ∧ i < 2 ∧ j < 2) ∧
    (joinIx near = none ↔ ∀ i j, i < 2 → j < 2 → near i j = false) := by
  have e : joinIx near = if near 1 1 then some (1, 1) else if near 1 0 then some (1, 0) else if near 0 1 then some (0, 1) else
      if near 0 0 then some (0, 0) else none := by
    simp only [joinIx, List.foldl_cons, List.foldl_nil]
  rw [e]
  constructor
  · intro i j h
    split_ifs at h with h1 h2 h3 h4 <;> cases h <;> simp_all
  · constructor
    · intro h i j hi hj
      split_ifs at h with h1 h2 h3 h4
      interval_cases i <;> interval_cases j <;> simp_all
    · intro h
      simp [h 1 1 (by omega) (by omega), h 1 0 (by omega) (by omega), h 0 1 (by omega) (by omega), h 0 0 (by omega) (by omega)]

/-- **C252 fails**: the knots of the second curve are appended in full, so the joined curve always has `degree + 2` knots more than
its control points allow, -/
theorem C252_knots_refuted (c1 c2 : Curve K) (h1 : Valid c1) (h2 : Valid c2) (hd : c2.degree = c1.degree) :
    (joinCurves c1 c2).m = (joinCurves c1 c2).n + (joinCurves c1 c2).degree + 1 + ((joinCurves c1 c2).degree + 2) ∧
      ¬ Valid (joinCurves c1 c2) := by
  have a1 := h1.npos
  have a2 := h1.knots
  have b1 := h2.npos
  have b2 := h2.knots
  have e : (joinCurves c1 c2).m = (joinCurves c1 c2).n + (joinCurves c1 c2).degree + 1 + ((joinCurves c1 c2).degree + 2) := by
    show c1.m + c2.m = c1.n - 1 + c2.n + c1.degree + 1 + (c1.degree + 2)
    omega
  exact ⟨e, fun h => by have := h.knots; omega⟩

/-- the curves are not required to meet: the last point of the first is dropped, wherever it is, -/
theorem C252_gap_refuted (c1 c2 : Curve K) (Q : Nat → K) :
    joinCurves { c1 with P := fun i => if i = c1.n - 1 then Q else c1.P i } c2 = joinCurves c1 c2 := by
  simp only [joinCurves]
  congr 1
  funext i col
  by_cases h : i < c1.n - 1
  · rw [if_pos h, if_pos h, if_neg (by omega : ¬ i = c1.n - 1)]
  · rw [if_neg h, if_neg h]

/-- and the weights of both are lost. -/
theorem C252_weights_refuted (c1 c2 : Curve K) (w1 w2 : Nat → K) :
    joinCurves { c1 with P := fun i col => if col = 3 then w1 i else c1.P i col } { c2 with P := fun i col => if col = 3 then w2 i else c2.P i col } =
      joinCurves c1 c2 := by
  simp only [joinCurves]
  congr 1
  funext i col
  by_cases h : col = 3
  · rw [if_pos h, if_pos h]
  · simp only [if_neg h]

/-- **C252, partial.** What does hold: when the second curve starts where the first, with weights 1, ends, the joined curve is the first
one on its domain (without the end). -/
theorem C252_first_partial (c1 c2 : Curve K) (h1 : Valid c1) (h2 : Valid c2) (hper : c1.periodic = false) (hd : c2.degree = c1.degree)
    (hw : ∀ l, l < c1.n → c1.P l 3 = 1) (hP : ∀ col, col < 3 → c2.P 0 col = c1.P (c1.n - 1) col) (fuel : Nat)
    (hf : c1.n + c2.n ≤ fuel) (x : K) (hx1 : c1.U c1.degree ≤ x) (hx2 : x < c1.U c1.n) (col : Nat) (hcol : col < 3) :
    (joinCurves c1 c2).evaluate fuel x col = c1.evaluate fuel x col := by
  have a1 := h1.npos
  have a2 := h1.knots
  have b1 := h2.npos
  have b2 := h2.knots
  set d := joinCurves c1 c2 with hdd
  have dn : d.n = c1.n - 1 + c2.n := rfl
  have dU1 : ∀ k, k < c1.m → d.U k = c1.U k := fun k hk => by
    show (if k < c1.m then c1.U k else _) = _
    rw [if_pos hk]
  have dU2 : ∀ k, c1.m ≤ k → d.U k = c1.U (c1.m - 1) + c2.U (k - c1.m) - c2.U 0 := fun k hk => by
    show (if k < c1.m then _ else _) = _
    rw [if_neg (by omega)]
  obtain ⟨i, hpi, _, b, hev⟩ := h1.evaluate_eq hper fuel (by omega) x hx1 hx2.le
  obtain ⟨i', s1, s2, s3, s4, s5, s6⟩ := (C33_find_span (c1.n - 1) c1.degree c1.m c1.U h1.mono (by omega) (by omega) x hx1 fuel (by omega)).1
    (by rw [show c1.n - 1 + 1 = c1.n by omega]; exact hx2)
  rw [b] at s1
  cases s1
  have hxd : x < d.U d.n := by
    rw [dn]
    rcases Nat.lt_or_ge (c1.n - 1 + c2.n) c1.m with q | q
    · rw [dU1 _ q]
      exact hx2.trans_le (h1.mono c1.n _ (by omega) q)
    · rw [dU2 _ q]
      have q1 := h1.mono c1.n (c1.m - 1) (by omega) (by omega)
      have q2 := h2.mono 0 (c1.n - 1 + c2.n - c1.m) (by omega) (by omega)
      linarith
  obtain ⟨j, t1, t2, t3, t4, t5⟩ := spanLoop_spec d.U x fuel c1.degree d.n (by rw [dn]; omega) (by rw [dn]; omega)
    (by rw [dU1 _ (by omega)]; exact hx1) hxd
  have hmono : MonoUpTo d.U (c1.m + c2.m) := by
    apply monoUpTo_of_step
    intro a ha
    rcases Nat.lt_or_ge (a + 1) c1.m with q | q
    · rw [dU1 _ (by omega), dU1 _ q]
      exact h1.mono a (a + 1) (by omega) q
    · rcases Nat.lt_or_ge a c1.m with r | r
      · rw [dU1 _ r, dU2 _ q, show a + 1 - c1.m = 0 by omega, show a = c1.m - 1 by omega]
        linarith
      · rw [dU2 _ r, dU2 _ q]
        have := h2.mono (a - c1.m) (a + 1 - c1.m) (by omega) (by omega)
        linarith
  have hji : j = i := span_unique d.U (c1.m + c2.m) hmono x j i (by omega) (by omega) t4 t5 (by rw [dU1 _ (by omega)]; exact s4)
    (by rw [dU1 _ (by omega)]; exact s5)
  have hfs : findSpan fuel (d.n - 1) c1.degree x d.U false = some i := by
    have g0 : d.n - 1 + 1 = d.n := by omega
    rw [← hji, ← t1]
    simp only [findSpan, Bool.false_eq_true, if_false]
    rw [g0, if_neg (not_le.2 hxd), if_neg (not_lt.2 _), if_neg hxd.ne]
    rw [dU1 0 (by omega)]
    exact (h1.mono 0 c1.degree (by omega) (by omega)).trans hx1
  rw [Curve.evaluate]
  show curvePoint fuel (d.n - 1) c1.degree d.U d.P x false col = _
  rw [curvePoint_eq fuel (d.n - 1) c1.degree d.U d.P x false col i hfs hpi (by omega), hev col, show d.n - 1 + 1 = d.n by omega,
    spline_window _ _ _ _ _ _ hpi (by omega), spline_window _ _ _ _ _ _ hpi (by omega),
    spline_window _ _ _ _ _ _ hpi (by omega), spline_window _ _ _ _ _ _ hpi (by omega)]
  have hc : ∀ l, i - c1.degree ≤ l → l ≤ i → cox (spike i) d.U x c1.degree l = cox (spike i) c1.U x c1.degree l := fun l l1 l2 =>
    cox_congr _ _ d.U c1.U x c1.degree l (fun k _ _ => rfl) (fun k k1 k2 => dU1 k (by omega))
  have hp3 : ∀ l, d.P l 3 = 1 := fun l => by
    simp [hdd, joinCurves]
  have hpc : ∀ l, l < c1.n → d.P l col = c1.P l col := by
    intro l hl
    show (if col = 3 then (1 : K) else if l < c1.n - 1 then c1.P l col else c2.P (l - (c1.n - 1)) col) = _
    rw [if_neg (by omega)]
    by_cases q : l < c1.n - 1
    · rw [if_pos q]
    · rw [if_neg q, show l - (c1.n - 1) = 0 by omega, hP col hcol, show l = c1.n - 1 by omega]
  congr 2
  · apply sum_congr rfl
    intro r hr
    have := mem_range.1 hr
    rw [hc _ (by omega) (by omega), hp3, hw _ (by omega), hpc _ (by omega)]
  · apply sum_congr rfl
    intro r hr
    have := mem_range.1 hr
    rw [hc _ (by omega) (by omega), hp3, hw _ (by omega)]

/-- A segment. -/
def exJ1 : Curve ℚ :=
  { degree := 1, n := 2, m := 4, periodic := false, P := fun i col => if col = 3 then 1 else i, U := fun k => if k < 2 then 0 else 1 }

/-- A polyline that starts at its end. -/
def exJ2 : Curve ℚ :=
  { degree := 1, n := 3, m := 5, periodic := false, P := fun i col => if col = 3 then 1 else if col = 0 then 1 + 2 * i else 1,
    U := fun k => if k < 2 then 0 else if k = 2 then 1 else 2 }

/-- The first is kept, but the end of the joined knots is not the end of the second. -/
example : Clamped exJ1 ∧ Clamped exJ2 ∧ exJ2.P 0 0 = exJ1.P 1 0 ∧ (joinCurves exJ1 exJ2).evaluate 9 (1 / 2) 0 = some (1 / 2) ∧
    (joinCurves exJ1 exJ2).m = 9 ∧ (joinCurves exJ1 exJ2).n = 4 ∧
    (joinCurves exJ1 exJ2).evaluate 9 3 0 ≠ exJ2.evaluate 9 2 0 :=
  ⟨clamped_check exJ1 (by decide +kernel), clamped_check exJ2 (by decide +kernel), by decide +kernel, by decide +kernel, rfl, rfl,
    by decide +kernel⟩

end Verif.Knot
