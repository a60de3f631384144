import Verif.Pip.Lemmas
import Mathlib.Algebra.Order.Ring.Rat
import Mathlib.Algebra.Order.Field.Rat
import Mathlib.Tactic.NormNum

/-! The crossing test of two segments. -/

set_option linter.unusedSectionVars false

namespace Verif.Pip
variable {K : Type} [Field K] [LinearOrder K] [IsStrictOrderedRing K]

/-- The test in terms of sides. -/
theorem plain_iff (a b c d : K × K) : intersectsPlain a b c d = true ↔
    ((0 < orient c d a) ≠ (0 < orient c d b) ∧ (0 < orient a b c) ≠ (0 < orient a b d)) := by
  have e : ∀ u v w x y z : K × K, (ccw u v w != ccw x y z) = true ↔ (0 < orient u v w) ≠ (0 < orient x y z) := by
    intro u v w x y z
    rw [bne_iff_ne, ne_eq, ne_eq, ← ccw_iff, ← ccw_iff, not_iff_not]
    cases ccw u v w <;> cases ccw x y z <;> simp
  unfold intersectsPlain
  rw [Bool.and_eq_true, e, e, ← orient_cycle a c d, ← orient_cycle b c d]

/-- **C200.** The test with boxes (polygon.py) and the one without (features.py) always agree. -/
theorem C200_boxes (a b c d : K × K) : intersectsSegments a b c d = intersectsPlain a b c d := by
  unfold intersectsSegments
  by_cases h : intersectsPlain a b c d = true
  · obtain ⟨x, h1, h2⟩ := common_of_sides a b c d ((plain_iff a b c d).mp h).1 ((plain_iff a b c d).mp h).2
    rw [overlap_of_common a b c d x h1 h2]
    rfl
  · split_ifs
    · rw [Bool.not_eq_true] at h; exact h.symm
    · rfl

/-- **C200.** If the answer is yes, the segments have a common point. -/
theorem C200_sound (a b c d : K × K) (h : intersectsSegments a b c d = true) : ∃ x, OnSegment a b x ∧ OnSegment c d x := by
  rw [C200_boxes, plain_iff] at h
  exact common_of_sides a b c d h.1 h.2

/-- **C200, the part that holds.** If the segments have a common point and no end of one is on the line of the other, the
answer is yes. -/
theorem C200_complete_partial (a b c d x : K × K) (h1 : OnSegment a b x) (h2 : OnSegment c d x) (n1 : orient c d a ≠ 0)
    (n2 : orient c d b ≠ 0) (n3 : orient a b c ≠ 0) (n4 : orient a b d ≠ 0) : intersectsSegments a b c d = true := by
  rw [C200_boxes, plain_iff]
  have key : ∀ (u v w y : K × K) (hx : OnSegment u v x) (hy : OnSegment w y x), orient w y u ≠ 0 → orient w y v ≠ 0 →
      (0 < orient w y u) ≠ (0 < orient w y v) := by
    rintro u v w y ⟨t, t0, t1, e⟩ ⟨s, s0, s1, e'⟩ nu nv h
    have z : (1 - t) * orient w y u + t * orient w y v = 0 := by
      rw [← orient_lerp, ← e, e', orient_lerp]
      unfold orient; ring
    by_cases hu : 0 < orient w y u
    · have hv : 0 < orient w y v := by rw [← h]; exact hu
      rcases lt_or_eq_of_le t0 with g | g
      · nlinarith [mul_pos g hv, mul_nonneg (sub_nonneg.mpr t1) hu.le]
      · rw [← g] at z; linarith
    · have hv : ¬ 0 < orient w y v := by rw [← h]; exact hu
      have hu' : orient w y u < 0 := lt_of_le_of_ne (not_lt.mp hu) nu
      have hv' : orient w y v < 0 := lt_of_le_of_ne (not_lt.mp hv) nv
      rcases lt_or_eq_of_le t0 with g | g
      · nlinarith [mul_pos g (neg_pos.mpr hv'), mul_nonneg (sub_nonneg.mpr t1) (neg_pos.mpr hu').le]
      · rw [← g] at z; linarith
  exact ⟨key a b c d h1 h2 n1 n2, key c d a b h2 h1 n3 n4⟩

/-- **C200, refuted.** Segments on one line never intersect by this test, also when they overlap or are equal. -/
theorem C200_collinear_refuted (a b c d : K × K) (h1 : orient a b c = 0) (h2 : orient a b d = 0) :
    intersectsSegments a b c d = false := by
  rw [C200_boxes, ← Bool.not_eq_true, plain_iff]
  rintro ⟨_, h⟩
  apply h
  rw [h1, h2]

/-- **C200, refuted.** When an end of the first segment lies inside the second, the answer changes with the order in which
the ends of the second are given. -/
theorem C200_touch_refuted (b c d : K × K) (t : K) (h0 : 0 < t) (h1 : t < 1) (hb : orient c d b ≠ 0) :
    intersectsSegments (lerp c d t) b c d = !intersectsSegments (lerp c d t) b d c := by
  have ha : orient c d (lerp c d t) = 0 := by rw [orient_lerp]; unfold orient; ring
  have e1 : orient (lerp c d t) b c = t * orient c d b := by unfold orient lerp; ring
  have e2 : orient (lerp c d t) b d = -((1 - t) * orient c d b) := by unfold orient lerp; ring
  have sides : (0 < t * orient c d b) ≠ (0 < -((1 - t) * orient c d b)) := by
    rcases lt_or_gt_of_ne hb with g | g
    · have p1 : ¬ 0 < t * orient c d b := not_lt.mpr (mul_nonpos_of_nonneg_of_nonpos h0.le g.le)
      have p2 : 0 < -((1 - t) * orient c d b) := by nlinarith
      simp [p1, p2]
    · have p1 : 0 < t * orient c d b := mul_pos h0 g
      have p2 : ¬ 0 < -((1 - t) * orient c d b) := by nlinarith
      simp [p1, p2]
  rw [C200_boxes, C200_boxes]
  by_cases g : 0 < orient c d b
  · have y : intersectsPlain (lerp c d t) b c d = true := by
      rw [plain_iff, ha, e1, e2]; exact ⟨by simp [g], sides⟩
    have n : intersectsPlain (lerp c d t) b d c = false := by
      rw [← Bool.not_eq_true, plain_iff, orient_swap c d, orient_swap c d, ha]
      rintro ⟨h, _⟩; apply h; simp [g.le]
    rw [y, n]; rfl
  · have g' : orient c d b < 0 := lt_of_le_of_ne (not_lt.mp g) hb
    have y : intersectsPlain (lerp c d t) b d c = true := by
      rw [plain_iff, orient_swap c d, orient_swap c d, ha, e1, e2]; exact ⟨by simp [g'], sides.symm⟩
    have n : intersectsPlain (lerp c d t) b c d = false := by
      rw [← Bool.not_eq_true, plain_iff, ha]
      rintro ⟨h, _⟩; apply h; simp [g]
    rw [y, n]; rfl

example : intersectsSegments ((0, 0) : ℚ × ℚ) (2, 2) (0, 2) (3, 0) = true := by decide +kernel
example : intersectsSegments ((0, 0) : ℚ × ℚ) (2, 2) (1, 1) (3, 3) = false :=
  C200_collinear_refuted _ _ _ _ (by norm_num [orient]) (by norm_num [orient])
example : intersectsSegments (lerp ((0, 0) : ℚ × ℚ) (2, 0) (1/2)) (1, 5) (0, 0) (2, 0) =
    !intersectsSegments (lerp ((0, 0) : ℚ × ℚ) (2, 0) (1/2)) (1, 5) (2, 0) (0, 0) :=
  C200_touch_refuted _ _ _ _ (by norm_num) (by norm_num) (by norm_num [orient])
example : intersectsSegments ((0, 0) : ℚ × ℚ) (2, 2) (0, 2) (3, 0) = true :=
  C200_complete_partial _ _ _ _ (6/5, 6/5) ⟨3/5, by norm_num, by norm_num, by norm_num [lerp]⟩
    ⟨2/5, by norm_num, by norm_num, by norm_num [lerp]⟩ (by norm_num [orient]) (by norm_num [orient]) (by norm_num [orient])
    (by norm_num [orient])

end Verif.Pip
