import Verif.Swl.Model
import Mathlib.Tactic.Ring
import Mathlib.Tactic.Linarith
import Mathlib.Tactic.NormNum
import Mathlib.Tactic.FieldSimp
import Mathlib.Tactic.LinearCombination
import Mathlib.Tactic.Positivity
import Mathlib.Tactic.SplitIfs
import Mathlib.Algebra.Order.Field.Basic
import Mathlib.Data.Rat.Defs
import Mathlib.Algebra.Field.Rat
import Mathlib.Algebra.Order.Ring.Rat

/-! # The order of points and segments and the intersection of segments in the sweep line (C289–C292) -/

set_option linter.unusedSectionVars false
set_option linter.unusedVariables false

namespace Verif.Swl

variable {K : Type} [Field K] [LinearOrder K] [IsStrictOrderedRing K]

/-! ## C289 the order of the event points -/

/-- Swapping the points swaps the sign. -/
theorem C289_antisymm {e : K} (he : 0 ≤ e) (a b : Pt K) : Pt.compare e b a = -Pt.compare e a b := by
  unfold Pt.compare
  by_cases hid : a.id = b.id
  · simp [hid]
  have hid' : ¬ b.id = a.id := fun h => hid h.symm
  simp only [hid, hid', if_false]
  split_ifs <;> first | rfl | (exfalso; linarith)

/-- The lexicographic order. -/
def Lex (a b : Pt K) : Prop := a.x < b.x ∨ a.x = b.x ∧ a.y < b.y

/-- The coordinates of two points are equal or differ by more than the tolerance. -/
def Apart (e : K) (a b : Pt K) : Prop :=
  (a.x = b.x ∨ e < |a.x - b.x|) ∧ (a.y = b.y ∨ e < |a.y - b.y|)

/-- Where coordinates are equal or well apart, the comparison is the lexicographic order. -/
theorem C289_lex_partial {e : K} (he : 0 ≤ e) (a b : Pt K) (hid : a.id ≠ b.id) (h : Apart e a b) :
    (Pt.compare e a b < 0 ↔ Lex a b) ∧ (0 < Pt.compare e a b ↔ Lex b a) ∧
      (Pt.compare e a b = 0 ↔ a.x = b.x ∧ a.y = b.y) := by
  obtain ⟨hx, hy⟩ := h
  have key : ∀ u v : K, (u = v ∨ e < |u - v|) → u = v ∧ ¬ u - v > e ∧ ¬ u - v < -e ∨
      u < v ∧ ¬ u - v > e ∧ u - v < -e ∨ v < u ∧ u - v > e ∧ ¬ u - v < -e := by
    intro u v h
    rcases h with h | h
    · left; subst h; simp [he]
    · rcases lt_abs.mp h with h | h
      · right; right; exact ⟨by linarith, h, by linarith⟩
      · right; left; exact ⟨by linarith, by linarith, by linarith⟩
  unfold Pt.compare Lex
  rcases key _ _ hx with ⟨h1, h2, h3⟩ | ⟨h1, h2, h3⟩ | ⟨h1, h2, h3⟩ <;>
  rcases key _ _ hy with ⟨g1, g2, g3⟩ | ⟨g1, g2, g3⟩ | ⟨g1, g2, g3⟩ <;>
  · (first | rw [if_neg hid, if_neg h2, if_neg h3, if_neg g2, if_neg g3] | rw [if_neg hid, if_neg h2, if_neg h3, if_neg g2, if_pos g3] |
      rw [if_neg hid, if_neg h2, if_neg h3, if_pos g2] | rw [if_neg hid, if_neg h2, if_pos h3] | rw [if_neg hid, if_pos h2])
    refine ⟨⟨fun h => ?_, fun h => ?_⟩, ⟨fun h => ?_, fun h => ?_⟩, ⟨fun h => ?_, fun h => ?_⟩⟩ <;>
    first
    | (exact ⟨h1, g1⟩) | (exact Or.inl h1) | (exact Or.inr ⟨h1, g1⟩) | (exact Or.inr ⟨h1.symm, g1⟩) | (norm_num; done)
    | (exfalso; norm_num at h; done)
    | (exfalso; rcases h with h | ⟨h, h'⟩ <;> linarith) | (exfalso; obtain ⟨h, h'⟩ := h; linarith)

/-- With any positive tolerance the comparison has a cycle: three points each of which comes after the next. -/
theorem C289_transitive_refuted {e : K} (he : 0 < e) :
    ∃ a b c : Pt K, Pt.compare e b a < 0 ∧ Pt.compare e c b < 0 ∧ Pt.compare e a c < 0 := by
  refine ⟨⟨0, 0, 0⟩, ⟨3 / 5 * e, -(10 * e), 1⟩, ⟨6 / 5 * e, -(20 * e), 2⟩, ?_, ?_, ?_⟩
  · unfold Pt.compare; dsimp only
    rw [if_neg (by norm_num), if_neg (by linarith), if_neg (by linarith), if_neg (by linarith), if_pos (by linarith)]
    norm_num
  · unfold Pt.compare; dsimp only
    rw [if_neg (by norm_num), if_neg (by linarith), if_neg (by linarith), if_neg (by linarith), if_pos (by linarith)]
    norm_num
  · unfold Pt.compare; dsimp only
    rw [if_neg (by norm_num), if_neg (by linarith), if_pos (by linarith)]
    norm_num

/-- Equality of points is not transitive. -/
theorem C289_eq_refuted {e : K} (he : 0 < e) :
    ∃ a b c : Pt K, Pt.eqv e a b = true ∧ Pt.eqv e b c = true ∧ Pt.eqv e a c = false := by
  refine ⟨⟨0, 0, 0⟩, ⟨3 / 5 * e, 0, 1⟩, ⟨6 / 5 * e, 0, 2⟩, ?_, ?_, ?_⟩
  · unfold Pt.eqv Pt.compare; dsimp only
    rw [if_neg (by norm_num), if_neg (by linarith), if_neg (by linarith), if_neg (by linarith), if_neg (by linarith)]
    rfl
  · unfold Pt.eqv Pt.compare; dsimp only
    rw [if_neg (by norm_num), if_neg (by linarith), if_neg (by linarith), if_neg (by linarith), if_neg (by linarith)]
    rfl
  · unfold Pt.eqv Pt.compare; dsimp only
    rw [if_neg (by norm_num), if_neg (by linarith), if_pos (by linarith)]
    decide

example : Pt.compare (1 / 100 : ℚ) ⟨0, 5, 0⟩ ⟨1, 2, 1⟩ = -1 ∧ Pt.compare (1 / 100 : ℚ) ⟨1, 5, 0⟩ ⟨1, 2, 1⟩ = 1 := by
  decide +kernel
example : Apart (1 / 100 : ℚ) ⟨1, 5, 0⟩ ⟨1, 2, 1⟩ := by
  refine ⟨Or.inl rfl, Or.inr ?_⟩; norm_num

/-! ## C290 the orientation test -/

/-- The vector product of the segment and the way from its start to the point: positive when the point is to the left. -/
def side (s : Seg K) (p : Pt K) : K := (s.p2.x - s.p1.x) * (p.y - s.p1.y) - (s.p2.y - s.p1.y) * (p.x - s.p1.x)

theorem orientation_eq (s : Seg K) (p : Pt K) :
    orientation s p = if 0 < side s p then 1 else if side s p < 0 then -1 else 0 := by
  have e : side s p = s.dy * (s.p1.x - p.x) - s.dx * (s.p1.y - p.y) := by
    unfold side Seg.dx Seg.dy; ring
  unfold orientation cmpVal
  rw [e]
  split_ifs <;> first | rfl | (exfalso; linarith)

theorem orientation_pos {s : Seg K} {p : Pt K} : 0 < orientation s p ↔ 0 < side s p := by
  rw [orientation_eq]; split_ifs with h1 h2 <;> simp_all
theorem orientation_neg {s : Seg K} {p : Pt K} : orientation s p < 0 ↔ side s p < 0 := by
  rw [orientation_eq]; split_ifs with h1 h2 <;> simp_all [le_of_lt]
theorem orientation_zero {s : Seg K} {p : Pt K} : orientation s p = 0 ↔ side s p = 0 := by
  rw [orientation_eq]; split_ifs with h1 h2
  · simp [ne_of_gt h1]
  · simp [ne_of_lt h2]
  · simp; exact le_antisymm (not_lt.mp h1) (not_lt.mp h2)
theorem orientation_range (s : Seg K) (p : Pt K) : orientation s p = 1 ∨ orientation s p = 0 ∨ orientation s p = -1 := by
  rw [orientation_eq]; split_ifs <;> simp

/-- The height of the line of a segment above `x`. -/
def height (s : Seg K) (x : K) : K := s.p1.y + (s.p2.y - s.p1.y) * ((x - s.p1.x) / (s.p2.x - s.p1.x))

theorem side_height {s : Seg K} (h : s.p1.x ≠ s.p2.x) (p : Pt K) :
    side s p = (s.p2.x - s.p1.x) * (p.y - height s p.x) := by
  have : s.p2.x - s.p1.x ≠ 0 := sub_ne_zero.mpr (Ne.symm h)
  unfold side height
  field_simp
  ring

/-- For a segment from left to right the test says on which side of the line, above or below, the point is. -/
theorem C290_above {s : Seg K} (h : s.p1.x < s.p2.x) (p : Pt K) :
    (0 < orientation s p ↔ height s p.x < p.y) ∧ (orientation s p < 0 ↔ p.y < height s p.x) ∧
      (orientation s p = 0 ↔ p.y = height s p.x) := by
  have hd : 0 < s.p2.x - s.p1.x := sub_pos.mpr h
  rw [orientation_pos, orientation_neg, orientation_zero, side_height (ne_of_lt h)]
  refine ⟨?_, ?_, ?_⟩
  · rw [mul_pos_iff_of_pos_left hd, sub_pos]
  · constructor
    · intro h; by_contra hc; push Not at hc; nlinarith
    · intro h; nlinarith
  · rw [mul_eq_zero, sub_eq_zero (a := p.y)]; simp [ne_of_gt hd]

/-- For a vertical segment, directed upwards, left is positive. -/
theorem C290_vertical {s : Seg K} (h : s.p1.x = s.p2.x) (hy : s.p1.y < s.p2.y) (p : Pt K) :
    (0 < orientation s p ↔ p.x < s.p1.x) ∧ (orientation s p < 0 ↔ s.p1.x < p.x) ∧ (orientation s p = 0 ↔ p.x = s.p1.x) := by
  have hd : 0 < s.p2.y - s.p1.y := sub_pos.mpr hy
  have e : side s p = (s.p2.y - s.p1.y) * (s.p1.x - p.x) := by unfold side; rw [h]; ring
  rw [orientation_pos, orientation_neg, orientation_zero, e]
  refine ⟨?_, ?_, ?_⟩
  · rw [mul_pos_iff_of_pos_left hd, sub_pos]
  · constructor
    · intro h; by_contra hc; push Not at hc; nlinarith
    · intro h; nlinarith
  · rw [mul_eq_zero, sub_eq_zero (a := s.p1.x)]; simp [ne_of_gt hd, eq_comm]

example : orientation (⟨⟨0, 0, 0⟩, ⟨2, 2, 1⟩, 0⟩ : Seg ℚ) ⟨1, 3, 2⟩ = 1 ∧
    height (⟨⟨0, 0, 0⟩, ⟨2, 2, 1⟩, 0⟩ : Seg ℚ) 1 = 1 := by decide +kernel

/-! ## C291 the order of the segments at the sweep point -/

theorem compare_ok {pS : Pt K} {a b : Seg K} (hid : a.id ≠ b.id) {s0 : Int} (h : compareStart pS a b = some s0) :
    Seg.compare pS a b = some (if s0 ≠ 0 ∨ a.isTrivial = true ∨ b.isTrivial = true then s0
      else if orientation b a.p2 ≠ 0 then orientation b a.p2 else (a.id : Int) - b.id) := by
  unfold Seg.compare
  rw [if_neg hid, h]
  by_cases h0 : s0 = 0 <;> by_cases ta : a.isTrivial = true <;> by_cases tb : b.isTrivial = true <;>
    by_cases ho : orientation b a.p2 = 0 <;> simp [h0, ta, tb, ho]

/-- The comparison raises exactly when the two are different objects and neither starts in the sweep point. -/
theorem C291_raises (pS : Pt K) (a b : Seg K) :
    Seg.compare pS a b = none ↔ a.id ≠ b.id ∧ pS.id ≠ a.p1.id ∧ pS.id ≠ b.p1.id := by
  by_cases h : a.id = b.id
  · unfold Seg.compare; simp [h]
  · by_cases h1 : pS.id = a.p1.id
    · rw [compare_ok h (s0 := orientation b pS) (by unfold compareStart; rw [if_pos h1])]
      simp [h1]
    · by_cases h2 : pS.id = b.p1.id
      · rw [compare_ok h (s0 := -orientation a pS) (by unfold compareStart; rw [if_neg h1, if_pos h2])]
        simp [h2]
      · unfold Seg.compare compareStart
        simp [h, h1, h2]

/-- A segment that starts at the sweep point off the line of another one is ordered by its height over that line. -/
theorem C291_start {pS : Pt K} {a b : Seg K} (hid : a.id ≠ b.id) (hs : pS = a.p1) (hb : b.p1.x < b.p2.x)
    (hoff : pS.y ≠ height b pS.x) :
    ∃ s, Seg.compare pS a b = some s ∧ (0 < s ↔ height b pS.x < pS.y) ∧ (s < 0 ↔ pS.y < height b pS.x) := by
  have ho := C290_above hb pS
  have hne : orientation b pS ≠ 0 := fun h => hoff (ho.2.2.mp h)
  refine ⟨orientation b pS, ?_, ho.1, ho.2.1⟩
  rw [compare_ok hid (s0 := orientation b pS) (by unfold compareStart; rw [if_pos (by rw [hs])]), if_pos (Or.inl hne)]

/-- A segment that starts at the sweep point on another one is ordered by the heights to the right of the sweep point. -/
theorem C291_touch {pS : Pt K} {a b : Seg K} (hid : a.id ≠ b.id) (hs : pS = a.p1) (ha : a.p1.x < a.p2.x) (hb : b.p1.x < b.p2.x)
    (hon : pS.y = height b pS.x) {s : Int} (h : Seg.compare pS a b = some s) :
    (∀ x, pS.x < x → (height b x < height a x → 0 < s) ∧ (height a x < height b x → s < 0)) ∧
      ((∃ x, pS.x < x ∧ height a x = height b x) → s = (a.id : Int) - b.id) := by
  have ho : orientation b pS = 0 := (C290_above hb pS).2.2.mpr hon
  have ta : a.isTrivial = false := by
    unfold Seg.isTrivial Seg.dx; simp [sub_ne_zero.mpr (ne_of_gt ha)]
  have tb : b.isTrivial = false := by
    unfold Seg.isTrivial Seg.dx; simp [sub_ne_zero.mpr (ne_of_gt hb)]
  have hs' : some s = if orientation b a.p2 ≠ 0 then some (orientation b a.p2) else some ((a.id : Int) - b.id) := by
    rw [← h, compare_ok hid (s0 := orientation b pS) (by unfold compareStart; rw [if_pos (by rw [hs])]), if_neg (by simp [ho, ta, tb])]
    split_ifs <;> rfl
  subst hs
  have hda : a.p2.x - a.p1.x ≠ 0 := sub_ne_zero.mpr (ne_of_gt ha)
  have hdb : b.p2.x - b.p1.x ≠ 0 := sub_ne_zero.mpr (ne_of_gt hb)
  have diff : ∀ x, (height a x - height b x) * (a.p2.x - a.p1.x) = (a.p2.y - height b a.p2.x) * (x - a.p1.x) := by
    intro x
    have e1 : height b x = height b a.p1.x + (b.p2.y - b.p1.y) * ((x - a.p1.x) / (b.p2.x - b.p1.x)) := by
      unfold height; field_simp; ring
    have e2 : height b a.p2.x = height b a.p1.x + (b.p2.y - b.p1.y) * ((a.p2.x - a.p1.x) / (b.p2.x - b.p1.x)) := by
      unfold height; field_simp; ring
    rw [e1, e2, ← hon]
    have : height a x = a.p1.y + (a.p2.y - a.p1.y) * ((x - a.p1.x) / (a.p2.x - a.p1.x)) := rfl
    rw [this]; field_simp; ring
  have hpa : 0 < a.p2.x - a.p1.x := sub_pos.mpr ha
  have hab := C290_above hb a.p2
  refine ⟨fun x hx => ⟨fun hlt => ?_, fun hlt => ?_⟩, ?_⟩
  · have h1 : 0 < (a.p2.y - height b a.p2.x) * (x - a.p1.x) := by
      rw [← diff]; exact mul_pos (sub_pos.mpr hlt) hpa
    have h2 : 0 < a.p2.y - height b a.p2.x := (mul_pos_iff_of_pos_right (sub_pos.mpr hx)).mp h1
    have h3 := hab.1.mpr (sub_pos.mp h2)
    rw [if_pos (ne_of_gt h3)] at hs'
    simp at hs'; omega
  · have h1 : (a.p2.y - height b a.p2.x) * (x - a.p1.x) < 0 := by
      rw [← diff]; exact mul_neg_of_neg_of_pos (sub_neg.mpr hlt) hpa
    have h2 : a.p2.y - height b a.p2.x < 0 := by
      by_contra hc
      exact absurd h1 (not_lt.mpr (mul_nonneg (not_lt.mp hc) (le_of_lt (sub_pos.mpr hx))))
    have h3 := hab.2.1.mpr (sub_neg.mp h2)
    rw [if_pos (ne_of_lt h3)] at hs'
    simp at hs'; omega
  · rintro ⟨x, hx, he⟩
    have h1 : (a.p2.y - height b a.p2.x) * (x - a.p1.x) = 0 := by rw [← diff, he]; ring
    have h2 : a.p2.y - height b a.p2.x = 0 := by
      rcases mul_eq_zero.mp h1 with h | h
      · exact h
      · exact absurd h (ne_of_gt (sub_pos.mpr hx))
    have h3 := hab.2.2.mpr (sub_eq_zero.mp h2)
    rw [h3] at hs'; simpa using hs'

/-- The comparison of two segments of different numbers that start from left to right, the sweep point being the start of one of
them and strictly left of the end of the other one, changes its sign when they are swapped. -/
theorem C291_antisymm {pS : Pt K} {a b : Seg K} (hid : a.id ≠ b.id) (ha : a.p1.x < a.p2.x) (hb : b.p1.x < b.p2.x)
    (hs : pS = a.p1 ∧ pS.id ≠ b.p1.id ∧ pS.x < b.p2.x ∨ pS = b.p1 ∧ pS.id ≠ a.p1.id ∧ pS.x < a.p2.x ∨ pS = a.p1 ∧ pS = b.p1) :
    ∃ s, Seg.compare pS a b = some s ∧ Seg.compare pS b a = some (-s) := by
  have triv : ∀ s : Seg K, s.p1.x < s.p2.x → s.isTrivial = false := by
    intro s h; unfold Seg.isTrivial Seg.dx; simp [sub_ne_zero.mpr (ne_of_gt h)]
  -- one of them starts in the sweep point and the other has it on its line
  have main : ∀ a b : Seg K, a.id ≠ b.id → a.p1.x < a.p2.x → b.p1.x < b.p2.x → pS = a.p1 → pS.id ≠ b.p1.id → pS.x < b.p2.x →
      ∃ s, Seg.compare pS a b = some s ∧ Seg.compare pS b a = some (-s) := by
    intro a b hid ha hb hs hn hlt
    rw [compare_ok hid (s0 := orientation b pS) (by unfold compareStart; rw [if_pos (by rw [hs])]),
      compare_ok (Ne.symm hid) (s0 := -orientation b pS) (by unfold compareStart; rw [if_neg hn, if_pos (by rw [hs])])]
    simp only [triv a ha, triv b hb, Bool.false_eq_true, or_false, neg_eq_zero, ne_eq]
    by_cases hz : orientation b pS = 0
    · simp only [hz, neg_zero, not_true_eq_false, if_false]
      have hon : side b a.p1 = 0 := by rw [← hs]; exact orientation_zero.mp hz
      -- both products are multiples of the product of the directions
      set c := (b.p2.x - b.p1.x) * (a.p2.y - a.p1.y) - (b.p2.y - b.p1.y) * (a.p2.x - a.p1.x) with hc
      have e1 : side b a.p2 = c := by
        have : side b a.p2 = side b a.p1 + c := by rw [hc]; unfold side; ring
        rw [this, hon, zero_add]
      have e2 : side a b.p2 * (b.p2.x - b.p1.x) = -(c * (b.p2.x - a.p1.x)) := by
        have h0 := hon; unfold side at h0
        rw [hc]; unfold side
        linear_combination (-(a.p2.x - a.p1.x)) * h0
      have hpb : 0 < b.p2.x - b.p1.x := sub_pos.mpr hb
      have hpx : 0 < b.p2.x - a.p1.x := by rw [← hs]; exact sub_pos.mpr hlt
      have o : orientation a b.p2 = -orientation b a.p2 := by
        rw [orientation_eq, orientation_eq, e1]
        rcases lt_trichotomy c 0 with h | h | h
        · have : 0 < side a b.p2 := by
            have : 0 < side a b.p2 * (b.p2.x - b.p1.x) := by rw [e2]; nlinarith
            exact (mul_pos_iff_of_pos_right hpb).mp this
          simp [this, h, not_lt_of_gt h]
        · have : side a b.p2 = 0 := by
            have : side a b.p2 * (b.p2.x - b.p1.x) = 0 := by rw [e2, h]; ring
            rcases mul_eq_zero.mp this with h | h
            · exact h
            · exact absurd h (ne_of_gt hpb)
          simp [this, h]
        · have : side a b.p2 < 0 := by
            have : side a b.p2 * (b.p2.x - b.p1.x) < 0 := by rw [e2]; nlinarith
            by_contra hh
            exact absurd this (not_lt.mpr (mul_nonneg (not_lt.mp hh) (le_of_lt hpb)))
          simp [this, h, not_lt_of_gt h, not_lt_of_gt this]
      rw [o]
      by_cases hq : orientation b a.p2 = 0
      · refine ⟨(a.id : Int) - b.id, by simp [hq], by simp [hq]⟩
      · refine ⟨orientation b a.p2, by simp [hq], by simp [hq]⟩
    · exact ⟨orientation b pS, by simp [hz], by simp [hz]⟩
  rcases hs with ⟨h1, h2, h3⟩ | ⟨h1, h2, h3⟩ | ⟨h1, h2⟩
  · exact main a b hid ha hb h1 h2 h3
  · obtain ⟨s, q1, q2⟩ := main b a (Ne.symm hid) hb ha h1 h2 h3
    exact ⟨-s, q2, by rw [q1, neg_neg]⟩
  · rw [compare_ok hid (s0 := orientation b pS) (by unfold compareStart; rw [if_pos (by rw [h1])]),
      compare_ok (Ne.symm hid) (s0 := orientation a pS) (by unfold compareStart; rw [if_pos (by rw [h2])])]
    have z1 : orientation b pS = 0 := by
      rw [orientation_zero, h2]; unfold side; ring
    have z2 : orientation a pS = 0 := by
      rw [orientation_zero, h1]; unfold side; ring
    simp only [z1, z2, triv a ha, triv b hb, Bool.false_eq_true, or_false, ne_eq, not_true_eq_false, if_false]
    have hx : a.p1.x = b.p1.x ∧ a.p1.y = b.p1.y := by rw [← h1, ← h2]; exact ⟨rfl, rfl⟩
    have o : orientation a b.p2 = -orientation b a.p2 := by
      have e : side a b.p2 = -side b a.p2 := by unfold side; rw [hx.1, hx.2]; ring
      rw [orientation_eq, orientation_eq, e]
      rcases lt_trichotomy (side b a.p2) 0 with h | h | h
      · simp [h, not_lt_of_gt h]
      · simp [h]
      · simp [h, not_lt_of_gt h]
    rw [o]
    by_cases hq : orientation b a.p2 = 0
    · exact ⟨(a.id : Int) - b.id, by simp [hq], by simp [hq]⟩
    · exact ⟨orientation b a.p2, by simp [hq], by simp [hq]⟩

/-- Two segments neither of which starts in the sweep point are not comparable at all, whatever their positions. -/
example : Seg.compare (⟨1, 1, 9⟩ : Pt ℚ) ⟨⟨0, 0, 0⟩, ⟨2, 0, 1⟩, 0⟩ ⟨⟨0, 1, 2⟩, ⟨2, 1, 3⟩, 1⟩ = none := by decide +kernel
example : Seg.compare (⟨0, 0, 0⟩ : Pt ℚ) ⟨⟨0, 0, 0⟩, ⟨2, 0, 1⟩, 0⟩ ⟨⟨-1, 1, 2⟩, ⟨2, 1, 3⟩, 1⟩ = some (-1) ∧
    Seg.compare (⟨0, 0, 0⟩ : Pt ℚ) ⟨⟨-1, 1, 2⟩, ⟨2, 1, 3⟩, 1⟩ ⟨⟨0, 0, 0⟩, ⟨2, 0, 1⟩, 0⟩ = some 1 := by decide +kernel

end Verif.Swl
