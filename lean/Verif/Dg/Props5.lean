import Verif.Dg.Props4

set_option linter.unusedSectionVars false

/-!
# `solve3x2` on arrays, the curvature of a section, the normal at a singular point
-/

namespace Verif.Dg

open Verif.Prim

theorem entries_getD (c : P) (i : ℕ) (hi : i < 3) : (entries c).getD i 0 = |ent c i| := by
  interval_cases i <;> rfl

/-- The place looked for: an entry of the sum that is not smaller than the others. -/
theorem sum_place (c0 c1 : P) : argmax (entries (add c0 c1)) < 3 ∧
    ∀ j < 3, |ent (add c0 c1) j| ≤ |ent (add c0 c1) (argmax (entries (add c0 c1)))| := by
  obtain ⟨h1, h2⟩ := argmax_spec (entries (add c0 c1)) (by simp [entries])
  refine ⟨h1, fun j hj => ?_⟩
  rw [← entries_getD _ _ h1, ← entries_getD _ _ hj]
  apply h2
  interval_cases j <;> simp [entries]

/-- C188, what holds.  With arrays the answer is right when the columns do not cancel and the first column is not zero
in the rows where the sum of the columns is largest. -/
theorem C188_arrays_partial (c0 c1 : P) (hs : add c0 c1 ≠ ⟨0, 0, 0⟩)
    (hp : ∀ i < 3, (∀ j < 3, |ent (add c0 c1) j| ≤ |ent (add c0 c1) i|) → ent c0 i ≠ 0) (d : P) :
    ∃ s, solveArrays c0 c1 d = some s ∧ (s.code = 1 ↔ cross c0 c1 = ⟨0, 0, 0⟩) ∧
      (s.code = 2 ↔ cross c0 c1 ≠ ⟨0, 0, 0⟩) ∧
      ∀ a b, cross c0 c1 ≠ ⟨0, 0, 0⟩ → d = add (smul a c0) (smul b c1) → s.x = a ∧ s.y = b ∧ s.err = some 0 := by
  obtain ⟨h1, h2⟩ := sum_place c0 c1
  have hne := hp _ h1 h2
  have hpos : 0 < (entries (add c0 c1)).getD (argmax (entries (add c0 c1))) 0 := by
    rw [entries_getD _ _ h1]
    refine lt_of_le_of_ne (abs_nonneg _) ?_
    intro hz
    apply hs
    have z : ∀ j < 3, ent (add c0 c1) j = 0 := fun j hj =>
      abs_eq_zero.mp (le_antisymm ((h2 j hj).trans hz.symm.le) (abs_nonneg _))
    ext
    · exact z 0 (by norm_num)
    · exact z 1 (by norm_num)
    · exact z 2 (by norm_num)
  refine ⟨?_, ?_, ?_⟩
  · exact eliminate (swapRow (argmax (entries (add c0 c1))) c0) (swapRow (argmax (entries (add c0 c1))) c1)
      (swapRow (argmax (entries (add c0 c1))) d) ((entries (add c0 c1)).getD (argmax (entries (add c0 c1))) 0)
  · unfold solveArrays
    dsimp only
    rw [if_neg hpos.ne', if_neg hne]
  generalize argmax (entries (add c0 c1)) = i at *
  generalize (entries (add c0 c1)).getD i 0 = piv at *
  obtain ⟨-, -, e1, e2⟩ := eliminate_spec (swapRow i c0) (swapRow i c1) (swapRow i d) piv
    (by rw [swapRow_x]; exact hne) hpos
  rw [cross_swap] at e1
  rw [Ne, cross_swap] at e2
  by_cases hc : cross c0 c1 = ⟨0, 0, 0⟩
  · rw [e1 hc]
    exact ⟨⟨fun _ => hc, fun _ => rfl⟩, ⟨by simp, fun h => absurd hc h⟩, fun a b h => absurd hc h⟩
  · obtain ⟨f1, -, -, e, f4, f5⟩ := e2 hc
    rw [swapRow_residual] at f5
    have f6 := rows_one _ _ _ _ _ f5
    rw [f1]
    refine ⟨⟨by simp, fun h => absurd h hc⟩, ⟨fun _ => hc, fun _ => rfl⟩, fun a b _ hd => ?_⟩
    subst hd
    obtain ⟨g0, g1, g2⟩ := one_span c0 c1 a b _ _ e hc f6
    exact ⟨g1, g2, by rw [f4, g0]⟩

/-- Two columns of this sort, the largest entry in the second. -/
example : add ⟨1, 2, 3⟩ ⟨4, -1, 5⟩ ≠ ⟨0, 0, 0⟩ ∧ ∀ i < 3, ent (⟨1, 2, 3⟩ : P) i ≠ 0 := by
  constructor
  · unfold add
    norm_num
  · intro i hi
    interval_cases i <;> simp [ent]

/-- C188, refuted.  With arrays the pivot is looked for in the sum of the columns but taken from the first one: whenever
the first column is zero in the first row and the sum is largest there, the answer is NaN. -/
theorem C188_pivot_refuted (c0 c1 d : P) (h0 : c0.x = 0) (h1 : c1.x ≠ 0) (hy : |c0.y + c1.y| ≤ |c1.x|)
    (hz : |c0.z + c1.z| ≤ |c1.x|) : solveArrays c0 c1 d = none := by
  have hall : entries (add c0 c1) = [|c1.x|, |c0.y + c1.y|, |c0.z + c1.z|] := by
    unfold entries add
    rw [h0, zero_add]
  have hi : argmax (entries (add c0 c1)) = 0 := by
    rw [hall, argmax, if_pos]
    intro y h
    rcases List.mem_cons.mp h with rfl | h
    · exact hy
    · rcases List.mem_cons.mp h with rfl | h
      · exact hz
      · exact absurd h (by simp)
  unfold solveArrays
  dsimp only
  rw [hi, hall]
  show (if |c1.x| = 0 then _ else if c0.x = 0 then none else _) = none
  rw [if_neg (abs_ne_zero.mpr h1), if_pos h0]

/-- Independent columns along the axes, not in order. -/
example : cross ⟨0, 2, 0⟩ ⟨3, 0, 0⟩ ≠ ⟨0, 0, 0⟩ ∧ (⟨0, 2, 0⟩ : P).x = 0 ∧ (⟨3, 0, 0⟩ : P).x ≠ 0 ∧
    |(⟨0, 2, 0⟩ : P).y + (⟨3, 0, 0⟩ : P).y| ≤ |(⟨3, 0, 0⟩ : P).x| ∧
    |(⟨0, 2, 0⟩ : P).z + (⟨3, 0, 0⟩ : P).z| ≤ |(⟨3, 0, 0⟩ : P).x| := by
  unfold cross
  norm_num

/-- C188, refuted.  Opposite columns are reported as rank zero, whatever they are. -/
theorem C188_opposite_refuted (c d : P) : ∃ s, solveArrays c (smul (-1) c) d = some s ∧ s.code = 0 := by
  have hall : entries (add c (smul (-1) c)) = [0, 0, 0] := by
    unfold entries add smul
    norm_num
  refine ⟨⟨0, 0, 0, none, 0, c, smul (-1) c⟩, ?_, rfl⟩
  unfold solveArrays
  dsimp only
  rw [hall, if_pos]
  obtain ⟨h1, -⟩ := argmax_spec [0, 0, 0] (by simp)
  have h3 : argmax [0, 0, 0] < 3 := h1
  generalize argmax [0, 0, 0] = i at h3
  interval_cases i <;> rfl

/-- The conditions that single out the curvature vector of the section: perpendicular to the tangent `D1`, in the
plane, and with the normal component that the second derivatives of the surface give.  `a` and `b` are the velocities of
the parameters along `D1`. -/
def IsSectionK (S10 S01 S20 S11 S02 n K : P) : Prop :=
  ∃ a b, cross (cross S10 S01) n = add (smul a S10) (smul b S01) ∧
    dot K (cross (cross S10 S01) n) = 0 ∧ dot K n = 0 ∧
    dot K (cross S10 S01) * dot (cross (cross S10 S01) n) (cross (cross S10 S01) n)
      = dot (cross S10 S01) (add (smul (a ^ 2) S20) (add (smul (2 * a * b) S11) (smul (b ^ 2) S02)))

theorem sectionK_spec (small : ℝ) (hsm : 0 ≤ small) (S10 S01 S20 S11 S02 n : P) (a b : ℝ)
    (hab : cross (cross S10 S01) n = add (smul a S10) (smul b S01))
    (hq : small < dot (cross (cross S10 S01) n) (cross (cross S10 S01) n)) :
    ∃ K, sectionK small (cross (cross S10 S01) n) S10 S01 S20 S11 S02 n a b = some K ∧
      IsSectionK S10 S01 S20 S11 S02 n K := by
  have hq0 : dot (cross (cross S10 S01) n) (cross (cross S10 S01) n) ≠ 0 := (lt_of_le_of_lt hsm hq).ne'
  refine ⟨?_, ?_, a, b, hab, ?_, ?_, ?_⟩
  · exact smul (1 / dot (cross (cross S10 S01) n) (cross (cross S10 S01) n))
      (add (cross (add (cross (add (smul a S20) (smul b S11)) S01) (cross S10 (add (smul a S11) (smul b S02)))) n)
        (smul (-(1 / dot (cross (cross S10 S01) n) (cross (cross S10 S01) n)) *
          dot (cross (add (cross (add (smul a S20) (smul b S11)) S01) (cross S10 (add (smul a S11) (smul b S02)))) n)
            (cross (cross S10 S01) n)) (cross (cross S10 S01) n)))
  · unfold sectionK
    dsimp only
    rw [if_neg (not_le.mpr hq)]
  · generalize cross (add (cross (add (smul a S20) (smul b S11)) S01) (cross S10 (add (smul a S11) (smul b S02)))) n = D2
    generalize cross (cross S10 S01) n = D1 at hq0
    have : dot (smul (1 / dot D1 D1) (add D2 (smul (-(1 / dot D1 D1) * dot D2 D1) D1))) D1
        = 1 / dot D1 D1 * (dot D2 D1 - 1 / dot D1 D1 * dot D2 D1 * dot D1 D1) := by
      generalize 1 / dot D1 D1 = r
      generalize hw : dot D2 D1 = w
      unfold dot at hw ⊢
      unfold smul add
      dsimp only
      linear_combination r * hw
    rw [this]
    field_simp
    ring
  · generalize add (cross (add (smul a S20) (smul b S11)) S01) (cross S10 (add (smul a S11) (smul b S02))) = M'
    generalize -(1 / dot (cross (cross S10 S01) n) (cross (cross S10 S01) n)) *
      dot (cross M' n) (cross (cross S10 S01) n) = t
    generalize 1 / dot (cross (cross S10 S01) n) (cross (cross S10 S01) n) = r
    generalize cross S10 S01 = M
    unfold dot smul add cross
    ring
  · generalize hM' : add (cross (add (smul a S20) (smul b S11)) S01) (cross S10 (add (smul a S11) (smul b S02))) = M'
    have key : dot (cross M' n) (cross S10 S01)
        = dot (cross S10 S01) (add (smul (a ^ 2) S20) (add (smul (2 * a * b) S11) (smul (b ^ 2) S02))) := by
      have k1 : dot (cross M' n) (cross S10 S01) = -dot M' (cross (cross S10 S01) n) := by
        generalize cross S10 S01 = M
        unfold dot cross
        ring
      rw [k1, hab, ← hM']
      unfold dot add smul cross
      ring
    have k2 : dot (cross (cross S10 S01) n) (cross S10 S01) = 0 := by
      generalize cross S10 S01 = M
      unfold dot cross
      ring
    generalize hD1 : cross (cross S10 S01) n = D1 at *
    generalize cross M' n = D2 at *
    generalize -(1 / dot D1 D1) * dot D2 D1 = t
    have k3 : dot (smul (1 / dot D1 D1) (add D2 (smul t D1))) (cross S10 S01)
        = 1 / dot D1 D1 * (dot D2 (cross S10 S01) + t * dot D1 (cross S10 S01)) := by
      generalize cross S10 S01 = M
      generalize 1 / dot D1 D1 = r
      unfold dot smul add
      ring
    rw [k3, k2, key]
    field_simp
    ring

/-- C189, what holds.  When the first derivative is the unit vector of the first axis (so that `solve3x2` changes
neither array), the result is the curvature vector of the section. -/
theorem C189_sectional_partial (small : ℝ) (hsm : 0 ≤ small) (q r s : ℝ) (hrs : (r, s) ≠ (0, 0)) (h1 : |r| ≤ |1 + q|)
    (h2 : |s| ≤ |1 + q|) (S20 S11 S02 n : P)
    (hq : small < dot (cross (cross ⟨1, 0, 0⟩ ⟨q, r, s⟩) n) (cross (cross ⟨1, 0, 0⟩ ⟨q, r, s⟩) n)) :
    ∃ K, sectional small ⟨1, 0, 0⟩ ⟨q, r, s⟩ S20 S11 S02 n = some K ∧
      IsSectionK ⟨1, 0, 0⟩ ⟨q, r, s⟩ S20 S11 S02 n K := by
  have hall : entries (add ⟨1, 0, 0⟩ ⟨q, r, s⟩) = [|1 + q|, |r|, |s|] := by
    unfold entries add
    norm_num
  have hi : argmax (entries (add ⟨1, 0, 0⟩ ⟨q, r, s⟩)) = 0 := by
    rw [hall, argmax, if_pos]
    intro y h
    rcases List.mem_cons.mp h with rfl | h
    · exact h1
    · rcases List.mem_cons.mp h with rfl | h
      · exact h2
      · exact absurd h (by simp)
  have hpos : 0 < |1 + q| := by
    refine lt_of_le_of_ne (abs_nonneg _) ?_
    intro hz
    rw [← hz] at h1 h2
    apply hrs
    rw [abs_eq_zero.mp (le_antisymm h1 (abs_nonneg _)), abs_eq_zero.mp (le_antisymm h2 (abs_nonneg _))]
  have hc : cross ⟨1, 0, 0⟩ ⟨q, r, s⟩ ≠ ⟨0, 0, 0⟩ := by
    unfold cross
    intro hc
    injection hc with _ e2 e3
    apply hrs
    rw [show r = 0 by linarith, show s = 0 by linarith]
  have hsol : ∀ d, solveArrays ⟨1, 0, 0⟩ ⟨q, r, s⟩ d = some (eliminate ⟨1, 0, 0⟩ ⟨q, r, s⟩ d |1 + q|) := by
    intro d
    unfold solveArrays
    dsimp only
    rw [hi, hall]
    show (if |1 + q| = 0 then _ else if (1 : ℝ) = 0 then none else _) = _
    rw [if_neg hpos.ne', if_neg one_ne_zero]
    rfl
  generalize hD1 : cross (cross ⟨1, 0, 0⟩ ⟨q, r, s⟩) n = D1 at *
  obtain ⟨e0, e1, -, e2⟩ := eliminate_spec ⟨1, 0, 0⟩ ⟨q, r, s⟩ D1 |1 + q| one_ne_zero hpos
  obtain ⟨f1, -, -, e, f4, f5⟩ := e2 hc
  have hspan : dot (cross ⟨1, 0, 0⟩ ⟨q, r, s⟩) D1 = 0 := by
    rw [← hD1]
    unfold dot cross
    ring
  have he : e = 0 := by
    refine one_dot _ _ e f5 (Eq.trans ?_ hspan)
    generalize (eliminate ⟨1, 0, 0⟩ ⟨q, r, s⟩ D1 |1 + q|).x = x
    generalize (eliminate ⟨1, 0, 0⟩ ⟨q, r, s⟩ D1 |1 + q|).y = y
    unfold residual dot cross sub add smul
    ring
  subst he
  have hz : residual ⟨1, 0, 0⟩ ⟨q, r, s⟩ D1 (eliminate ⟨1, 0, 0⟩ ⟨q, r, s⟩ D1 |1 + q|).x
      (eliminate ⟨1, 0, 0⟩ ⟨q, r, s⟩ D1 |1 + q|).y = ⟨0, 0, 0⟩ := by
    rcases f5 with g | g | g <;> exact g.1
  have hab : D1 = add (smul (eliminate ⟨1, 0, 0⟩ ⟨q, r, s⟩ D1 |1 + q|).x ⟨1, 0, 0⟩)
      (smul (eliminate ⟨1, 0, 0⟩ ⟨q, r, s⟩ D1 |1 + q|).y ⟨q, r, s⟩) := by
    generalize (eliminate ⟨1, 0, 0⟩ ⟨q, r, s⟩ D1 |1 + q|).x = x at *
    generalize (eliminate ⟨1, 0, 0⟩ ⟨q, r, s⟩ D1 |1 + q|).y = y at *
    unfold residual sub at hz
    injection hz with g1 g2 g3
    ext <;> linarith
  have hb : sectional small ⟨1, 0, 0⟩ ⟨q, r, s⟩ S20 S11 S02 n
      = sectionK small D1 ⟨1, 0, 0⟩ ⟨q, r, s⟩ S20 S11 S02 n (eliminate ⟨1, 0, 0⟩ ⟨q, r, s⟩ D1 |1 + q|).x
        (eliminate ⟨1, 0, 0⟩ ⟨q, r, s⟩ D1 |1 + q|).y := by
    unfold sectional
    rw [hD1]
    dsimp only
    rw [hsol]
    show (if (eliminate ⟨1, 0, 0⟩ ⟨q, r, s⟩ D1 |1 + q|).code < 2 then none else _) = _
    rw [f1, if_neg (by norm_num), e0, e1]
    congr 2
    · norm_num
    · norm_num
    · norm_num
  rw [hb]
  have := sectionK_spec small hsm ⟨1, 0, 0⟩ ⟨q, r, s⟩ S20 S11 S02 n _ _ (hD1.trans hab) (by rw [hD1]; exact hq)
  rw [hD1] at this
  exact this

/-- A slanted second derivative, a plane that is not vertical. -/
example : ((1 : ℝ), (1 : ℝ)) ≠ (0, 0) ∧ |(1 : ℝ)| ≤ |1 + 2| ∧
    (0 : ℝ) < dot (cross (cross ⟨1, 0, 0⟩ ⟨2, 1, 1⟩) ⟨1, 1, 0⟩) (cross (cross ⟨1, 0, 0⟩ ⟨2, 1, 1⟩) ⟨1, 1, 0⟩) := by
  unfold dot cross
  norm_num

/-- C189, refuted.  `solve3x2` works in the caller's arrays, and the curvature is computed from what it leaves there.
For the graph `z = (A x² + C y²) / 2` with slanted parameters — derivatives `(p, 0, 0)` and `(q, r, 0)`, with `p ≠ 1` and
`q ≠ 0` — the vector returned is not the curvature vector of the section by a vertical plane, for almost all planes. -/
theorem C189_sectional_refuted (small : ℝ) (hsm : 0 ≤ small) (p q r A C n1 n2 : ℝ) (hp : p ≠ 0) (hp1 : p ≠ 1)
    (hq : q ≠ 0) (hr : r ≠ 0) (hpq : |r| ≤ |p + q|) (hA : A ≠ 0) (hn : n1 ≠ 0) (ha : r * n2 + q * n1 ≠ 0)
    (hs : small < (p * r) ^ 2 * (n1 ^ 2 + n2 ^ 2)) :
    ∃ K, sectional small ⟨p, 0, 0⟩ ⟨q, r, 0⟩ ⟨0, 0, A⟩ ⟨0, 0, 0⟩ ⟨0, 0, C⟩ ⟨n1, n2, 0⟩ = some K ∧
      ¬ IsSectionK ⟨p, 0, 0⟩ ⟨q, r, 0⟩ ⟨0, 0, A⟩ ⟨0, 0, 0⟩ ⟨0, 0, C⟩ ⟨n1, n2, 0⟩ K := by
  have hall : entries (add ⟨p, 0, 0⟩ ⟨q, r, 0⟩) = [|p + q|, |r|, 0] := by
    unfold entries add
    norm_num
  have hi : argmax (entries (add ⟨p, 0, 0⟩ ⟨q, r, 0⟩)) = 0 := by
    rw [hall, argmax, if_pos]
    intro y h
    rcases List.mem_cons.mp h with rfl | h
    · exact hpq
    · rcases List.mem_cons.mp h with rfl | h
      · exact abs_nonneg _
      · exact absurd h (by simp)
  have hpos : 0 < |p + q| := lt_of_lt_of_le (abs_pos.mpr hr) hpq
  have hc : cross ⟨p, 0, 0⟩ ⟨q, r, 0⟩ = ⟨0, 0, p * r⟩ := by
    unfold cross
    norm_num
  have hpr : p * r ≠ 0 := mul_ne_zero hp hr
  have hc0 : cross ⟨p, 0, 0⟩ ⟨q, r, 0⟩ ≠ ⟨0, 0, 0⟩ := by
    rw [hc]
    intro h
    injection h with _ _ h3
    exact hpr h3
  have hD1 : cross ⟨0, 0, p * r⟩ ⟨n1, n2, 0⟩ = ⟨-(p * r * n2), p * r * n1, 0⟩ := by
    unfold cross
    norm_num
  have hspan : (⟨-(p * r * n2), p * r * n1, 0⟩ : P)
      = add (smul (-(r * n2 + q * n1)) ⟨p, 0, 0⟩) (smul (p * n1) ⟨q, r, 0⟩) := by
    unfold add smul
    ext <;> dsimp only <;> ring
  have hsol : ∀ d, solveArrays ⟨p, 0, 0⟩ ⟨q, r, 0⟩ d = some (eliminate ⟨p, 0, 0⟩ ⟨q, r, 0⟩ d |p + q|) := by
    intro d
    unfold solveArrays
    dsimp only
    rw [hi, hall]
    show (if |p + q| = 0 then _ else if p = 0 then none else _) = _
    rw [if_neg hpos.ne', if_neg hp]
    rfl
  obtain ⟨e0, e1, -, e2⟩ := eliminate_spec ⟨p, 0, 0⟩ ⟨q, r, 0⟩ ⟨-(p * r * n2), p * r * n1, 0⟩ |p + q| hp hpos
  obtain ⟨f1, -, -, e, f4, f5⟩ := e2 hc0
  have f5' := f5
  rw [hspan] at f5'
  obtain ⟨-, gx, gy⟩ := one_span _ _ _ _ _ _ e hc0 f5'
  rw [← hspan] at gx gy
  have hb : sectional small ⟨p, 0, 0⟩ ⟨q, r, 0⟩ ⟨0, 0, A⟩ ⟨0, 0, 0⟩ ⟨0, 0, C⟩ ⟨n1, n2, 0⟩
      = sectionK small ⟨-(p * r * n2), p * r * n1, 0⟩ ⟨p, 0, 0⟩ ⟨q / p, r, 0⟩ ⟨0, 0, A⟩ ⟨0, 0, 0⟩ ⟨0, 0, C⟩
        ⟨n1, n2, 0⟩ (-(r * n2 + q * n1)) (p * n1) := by
    unfold sectional
    rw [hc, hD1]
    dsimp only
    rw [hsol]
    show (if (eliminate ⟨p, 0, 0⟩ ⟨q, r, 0⟩ ⟨-(p * r * n2), p * r * n1, 0⟩ |p + q|).code < 2 then none else _) = _
    rw [f1, if_neg (by norm_num), e0, e1, gx, gy]
    congr 2
    · norm_num
    · norm_num
  have hQ : dot ⟨-(p * r * n2), p * r * n1, 0⟩ ⟨-(p * r * n2), p * r * n1, 0⟩ = (p * r) ^ 2 * (n1 ^ 2 + n2 ^ 2) := by
    unfold dot
    ring
  have hQ0 : (p * r) ^ 2 * (n1 ^ 2 + n2 ^ 2) ≠ 0 := (lt_of_le_of_lt hsm hs).ne'
  refine ⟨⟨0, 0, (A * (r * n2 + q * n1) * (r * n2 + q / p * n1) + C * (p * n1) ^ 2) / ((p * r) ^ 2 * (n1 ^ 2 + n2 ^ 2))⟩,
    ?_, ?_⟩
  · rw [hb]
    unfold sectionK
    dsimp only
    rw [hQ, if_neg (not_le.mpr hs)]
    generalize (p * r) ^ 2 * (n1 ^ 2 + n2 ^ 2) = Q at hQ0
    generalize q / p = w
    congr 1
    unfold cross add smul dot
    ext <;> dsimp only <;> field_simp <;> ring
  · rintro ⟨a, b, hab, -, -, h4⟩
    rw [hc, hD1] at hab h4
    rw [hQ] at h4
    have hab' := hspan.symm.trans hab
    unfold add smul at hab'
    injection hab' with g1 g2 _
    have hb2 : b = p * n1 := by
      apply mul_right_cancel₀ hr
      linarith
    have ha2 : a = -(r * n2 + q * n1) := by
      rw [hb2] at g1
      apply mul_right_cancel₀ hp
      linarith
    rw [ha2, hb2] at h4
    have h5 : (A * (r * n2 + q * n1) * (r * n2 + q / p * n1) + C * (p * n1) ^ 2) * (p * r)
        = p * r * (A * (r * n2 + q * n1) ^ 2 + C * (p * n1) ^ 2) := by
      have : dot ⟨0, 0, (A * (r * n2 + q * n1) * (r * n2 + q / p * n1) + C * (p * n1) ^ 2) /
          ((p * r) ^ 2 * (n1 ^ 2 + n2 ^ 2))⟩ ⟨0, 0, p * r⟩ * ((p * r) ^ 2 * (n1 ^ 2 + n2 ^ 2))
          = (A * (r * n2 + q * n1) * (r * n2 + q / p * n1) + C * (p * n1) ^ 2) * (p * r) := by
        generalize (p * r) ^ 2 * (n1 ^ 2 + n2 ^ 2) = Q at hQ0
        unfold dot
        generalize q / p = w
        field_simp
        ring
      rw [← this, h4]
      unfold dot add smul
      ring
    have h6 : A * (r * n2 + q * n1) * (p * r) * (n1 * (q / p - q)) = 0 := by linear_combination h5
    have h7 : q / p - q ≠ 0 := by
      intro hz
      have : q / p = q := by linarith
      rw [div_eq_iff hp] at this
      have : p = 1 := mul_left_cancel₀ hq (by linarith)
      exact hp1 this
    exact mul_ne_zero (mul_ne_zero (mul_ne_zero hA ha) hpr) (mul_ne_zero hn h7) h6

/-- Such a graph. -/
example : (2 : ℝ) ≠ 0 ∧ (2 : ℝ) ≠ 1 ∧ (1 : ℝ) ≠ 0 ∧ |(1 : ℝ)| ≤ |2 + 1| ∧ (1 : ℝ) * 1 + 1 * 1 ≠ 0 ∧
    (1e-15 : ℝ) < (2 * 1) ^ 2 * (1 ^ 2 + 1 ^ 2) := by norm_num

/-- C190.  When `evaluate_jacobian` reports success, the determinant is the squared area of the two derivatives and is
positive, so that the cross product that `evaluate_normal` returns is a normal of that length. -/
theorem C190_regular (eps root : ℝ) (hr : 0 ≤ root) (du dv duu duv dvv : P) (limit : ℕ)
    (h : (jacobian eps root (dot du du) (dot du dv) (dot dv dv)).2 = true) :
    (jacobian eps root (dot du du) (dot du dv) (dot dv dv)).1 = norm (cross du dv) ^ 2 ∧ 0 < norm (cross du dv) ∧
    ∃ N, evaluateNormal eps root du dv duu duv dvv limit = some N ∧ dot N du = 0 ∧ dot N dv = 0 ∧
      norm N = norm (cross du dv) := by
  have hdet : (jacobian eps root (dot du du) (dot du dv) (dot dv dv)).1 = norm (cross du dv) ^ 2 := by
    rw [norm_sq, cross_sq]
    unfold jacobian
    ring
  refine ⟨hdet, ?_, cross du dv, ?_, ?_, ?_, rfl⟩
  · refine lt_of_le_of_ne (norm_nonneg _) ?_
    intro h0
    unfold jacobian at h hdet
    dsimp only at h hdet
    rw [← h0] at hdet
    split_ifs at h with h1 h2
    apply h2
    rw [hdet]
    norm_num
    refine mul_nonneg (le_max_of_le_right ?_) hr
    exact mul_self_nonneg _
  · unfold evaluateNormal
    rw [if_pos h]
  · unfold dot cross
    ring
  · unfold dot cross
    ring

/-- C190.  Two derivatives of comparable length that are not close to parallel are reported as regular: it is enough
that neither is `eps` times shorter (squared) and that the sine of the angle squared exceeds `root`. -/
theorem C190_success (eps root : ℝ) (du dv : P) (h1 : dot dv dv * eps < dot du du) (h2 : dot du du * eps < dot dv dv)
    (h3 : dot du du * dot dv dv * root < dot (cross du dv) (cross du dv)) :
    (jacobian eps root (dot du du) (dot du dv) (dot dv dv)).2 = true := by
  unfold jacobian
  dsimp only
  rw [if_neg (by rintro (h | h) <;> linarith), if_neg]
  rw [cross_sq] at h3
  have hle : dot du dv * dot du dv ≤ dot du du * dot dv dv := by
    have := dot_sq_le du dv
    linarith
  rw [max_eq_left hle, not_le]
  refine lt_of_lt_of_le ?_ (le_abs_self _)
  linarith

/-- C190.  At a point where the two derivatives are parallel the normal is taken as the derivative of the cross product
towards the quadrant asked for: it has length one and is the direction in which the normal leaves zero, and NaN exactly
when that derivative vanishes. -/
theorem C190_singular (eps root : ℝ) (hr : 0 ≤ root) (du dv duu duv dvv : P) (limit : ℕ)
    (h : cross du dv = ⟨0, 0, 0⟩) :
    ∃ V W : P, (∀ t : ℝ, cross (add du (smul t (add (smul (quadrant limit).1 duu) (smul (quadrant limit).2 duv))))
        (add dv (smul t (add (smul (quadrant limit).1 duv) (smul (quadrant limit).2 dvv))))
        = add (smul t V) (smul (t ^ 2) W)) ∧
      (V = ⟨0, 0, 0⟩ → evaluateNormal eps root du dv duu duv dvv limit = none) ∧
      (V ≠ ⟨0, 0, 0⟩ → ∃ N, evaluateNormal eps root du dv duu duv dvv limit = some N ∧ norm N = 1 ∧ V = smul (norm V) N) := by
  have hj : ¬ (jacobian eps root (dot du du) (dot du dv) (dot dv dv)).2 = true := by
    intro hc
    have := (C190_regular eps root hr du dv duu duv dvv limit hc).2.1
    rw [h, (norm_zero_iff _).mpr rfl] at this
    exact absurd this (lt_irrefl _)
  have hev : evaluateNormal eps root du dv duu duv dvv limit
      = div (add (cross du (add (smul (quadrant limit).1 duv) (smul (quadrant limit).2 dvv)))
          (cross (add (smul (quadrant limit).1 duu) (smul (quadrant limit).2 duv)) dv))
        (norm (add (cross du (add (smul (quadrant limit).1 duv) (smul (quadrant limit).2 dvv)))
          (cross (add (smul (quadrant limit).1 duu) (smul (quadrant limit).2 duv)) dv))) := by
    unfold evaluateNormal
    rw [if_neg hj]
  generalize add (smul (quadrant limit).1 duv) (smul (quadrant limit).2 dvv) = b at *
  generalize add (smul (quadrant limit).1 duu) (smul (quadrant limit).2 duv) = a at *
  refine ⟨add (cross du b) (cross a dv), cross a b, fun t => ?_, fun hV => ?_, fun hV => ?_⟩
  · unfold cross at h ⊢
    injection h with g1 g2 g3
    unfold add smul
    ext <;> dsimp only
    · linear_combination g1
    · linear_combination g2
    · linear_combination g3
  · rw [hev]
    exact (div_norm_none _).mpr hV
  · rw [hev]
    rcases hd : div (add (cross du b) (cross a dv)) (norm (add (cross du b) (cross a dv))) with _ | N
    · exact absurd ((div_norm_none _).mp hd) hV
    · obtain ⟨-, g1, g2⟩ := div_norm _ _ hd
      exact ⟨N, rfl, g1, g2⟩

/-- The quadrants. -/
theorem C190_quadrants : quadrant 1 = (1, 1) ∧ quadrant 2 = (-1, 1) ∧ quadrant 3 = (-1, -1) ∧ quadrant 4 = (1, -1) :=
  ⟨rfl, rfl, rfl, rfl⟩

/-- The pole of a sphere: one derivative is zero. -/
example : cross ⟨0, 1, 0⟩ ⟨0, 0, 0⟩ = ⟨0, 0, 0⟩ := by
  unfold cross
  norm_num

end Verif.Dg
