import Verif.Dqr.Props
import Mathlib.Tactic.LinearCombination

set_option linter.unusedSectionVars false

/-! # The box of a cell (C454) -/

namespace Verif.Dqr

open Verif.Vec V3

variable {K : Type} [Field K] [LinearOrder K] [IsStrictOrderedRing K]

/-- A point is in a box. -/
def InBox (b : V3 K × V3 K) (p : V3 K) : Prop :=
  (b.1.x ≤ p.x ∧ p.x ≤ b.2.x) ∧ (b.1.y ≤ p.y ∧ p.y ≤ b.2.y) ∧ b.1.z ≤ p.z ∧ p.z ≤ b.2.z

/-- **C454, the box of a cell**: the least box with the middle and the four corners in it. -/
theorem C454_box (ev : K → K → V3 K) (c : Cell K) :
    InBox (bbox ev c) (ev (mid c.1) (mid c.2)) ∧ InBox (bbox ev c) (ev c.1.1 c.2.1) ∧ InBox (bbox ev c) (ev c.1.1 c.2.2) ∧
    InBox (bbox ev c) (ev c.1.2 c.2.1) ∧ InBox (bbox ev c) (ev c.1.2 c.2.2) ∧
    ∀ b : V3 K × V3 K, InBox b (ev (mid c.1) (mid c.2)) → InBox b (ev c.1.1 c.2.1) → InBox b (ev c.1.1 c.2.2) → InBox b (ev c.1.2 c.2.1) →
      InBox b (ev c.1.2 c.2.2) → InBox b (bbox ev c).1 ∧ InBox b (bbox ev c).2 := by
  have m : ∀ r : Rng K, (r.1 + r.2) * (1 / 2) = mid r := fun r => by unfold mid; ring
  refine ⟨?_, ?_, ?_, ?_, ?_, fun b h0 h1 h2 h3 h4 => ?_⟩
  all_goals simp only [InBox, bbox, m, List.foldl_cons, List.foldl_nil] at *
  · simp
  · simp
  · simp
  · simp
  · simp
  · obtain ⟨⟨a1, a2⟩, ⟨a3, a4⟩, a5, a6⟩ := h0
    obtain ⟨⟨b1, b2⟩, ⟨b3, b4⟩, b5, b6⟩ := h1
    obtain ⟨⟨c1, c2⟩, ⟨c3, c4⟩, c5, c6⟩ := h2
    obtain ⟨⟨d1, d2⟩, ⟨d3, d4⟩, d5, d6⟩ := h3
    obtain ⟨⟨e1, e2⟩, ⟨e3, e4⟩, e5, e6⟩ := h4
    simp [*]

/-- A bilinear patch. -/
def bilinear (a b c d : V3 K) (u v : K) : V3 K := add a (add (smul u b) (add (smul v c) (smul (u * v) d)))

theorem bil_range (a b c d lo hi u0 u1 v0 v1 u v : K) (hu : u0 ≤ u ∧ u ≤ u1) (hv : v0 ≤ v ∧ v ≤ v1)
    (h1 : lo ≤ a + (u0 * b + (v0 * c + u0 * v0 * d)) ∧ a + (u0 * b + (v0 * c + u0 * v0 * d)) ≤ hi)
    (h2 : lo ≤ a + (u0 * b + (v1 * c + u0 * v1 * d)) ∧ a + (u0 * b + (v1 * c + u0 * v1 * d)) ≤ hi)
    (h3 : lo ≤ a + (u1 * b + (v0 * c + u1 * v0 * d)) ∧ a + (u1 * b + (v0 * c + u1 * v0 * d)) ≤ hi)
    (h4 : lo ≤ a + (u1 * b + (v1 * c + u1 * v1 * d)) ∧ a + (u1 * b + (v1 * c + u1 * v1 * d)) ≤ hi) :
    lo ≤ a + (u * b + (v * c + u * v * d)) ∧ a + (u * b + (v * c + u * v * d)) ≤ hi := by
  have lin : ∀ p q x0 x1 x : K, x0 ≤ x → x ≤ x1 → (lo ≤ p + x0 * q ∧ p + x0 * q ≤ hi) → (lo ≤ p + x1 * q ∧ p + x1 * q ≤ hi) →
      lo ≤ p + x * q ∧ p + x * q ≤ hi := by
    intro p q x0 x1 x g0 g1 k0 k1
    rcases le_total 0 q with hq | hq
    · have e0 := mul_le_mul_of_nonneg_right g0 hq
      have e1 := mul_le_mul_of_nonneg_right g1 hq
      exact ⟨by linarith [k0.1], by linarith [k1.2]⟩
    · have e0 := mul_le_mul_of_nonpos_right g0 hq
      have e1 := mul_le_mul_of_nonpos_right g1 hq
      exact ⟨by linarith [k1.1], by linarith [k0.2]⟩
  have r0 := lin (a + u0 * b) (c + u0 * d) v0 v1 v hv.1 hv.2 (by constructor <;> linarith [h1.1, h1.2]) (by constructor <;> linarith [h2.1, h2.2])
  have r1 := lin (a + u1 * b) (c + u1 * d) v0 v1 v hv.1 hv.2 (by constructor <;> linarith [h3.1, h3.2]) (by constructor <;> linarith [h4.1, h4.2])
  have r := lin (a + v * c) (b + v * d) u0 u1 u hu.1 hu.2 (by constructor <;> linarith [r0.1, r0.2]) (by constructor <;> linarith [r1.1, r1.2])
  constructor <;> linarith [r.1, r.2]

/-- **C454, boxes of bilinear patches** hold the whole cell.  Missing: other surfaces, refuted below. -/
theorem C454_encloses_partial (a b c d : V3 K) (k : Cell K) (u v : K) (hu : k.1.1 ≤ u ∧ u ≤ k.1.2) (hv : k.2.1 ≤ v ∧ v ≤ k.2.2) :
    InBox (bbox (bilinear a b c d) k) (bilinear a b c d u v) := by
  obtain ⟨_, ⟨x1, y1, z1⟩, ⟨x2, y2, z2⟩, ⟨x3, y3, z3⟩, ⟨x4, y4, z4⟩, _⟩ := C454_box (bilinear a b c d) k
  generalize bbox (bilinear a b c d) k = B at *
  simp only [bilinear, add, smul] at x1 y1 z1 x2 y2 z2 x3 y3 z3 x4 y4 z4
  exact ⟨bil_range _ _ _ _ _ _ _ _ _ _ u v hu hv x1 x2 x3 x4, bil_range _ _ _ _ _ _ _ _ _ _ u v hu hv y1 y2 y3 y4,
    bil_range _ _ _ _ _ _ _ _ _ _ u v hu hv z1 z2 z3 z4⟩

/-- **C454, boxes apart**: where the first test finds the boxes of two bilinear patches apart, and so no candidates, the patches have no common point. -/
theorem C454_apart_partial (a b c d a' b' c' d' : V3 K) (k k' : Cell K)
    (h : boxesIntersect (bbox (bilinear a b c d) k) (bbox (bilinear a' b' c' d') k') = false) (u v s t : K) (hu : k.1.1 ≤ u ∧ u ≤ k.1.2)
    (hv : k.2.1 ≤ v ∧ v ≤ k.2.2) (hs : k'.1.1 ≤ s ∧ s ≤ k'.1.2) (ht : k'.2.1 ≤ t ∧ t ≤ k'.2.2) : bilinear a b c d u v ≠ bilinear a' b' c' d' s t := by
  intro he
  have h1 := C454_encloses_partial a b c d k u v hu hv
  have h2 := C454_encloses_partial a' b' c' d' k' s t hs ht
  rw [← he] at h2
  obtain ⟨⟨x1, x2⟩, ⟨y1, y2⟩, z1, z2⟩ := h1
  obtain ⟨⟨x3, x4⟩, ⟨y3, y4⟩, z3, z4⟩ := h2
  unfold boxesIntersect at h
  rw [decide_eq_false_iff_not] at h
  exact h ⟨x3.trans x2, x1.trans x4, y3.trans y2, y1.trans y4, z3.trans z2, z1.trans z4⟩

/-- **C454, boxes of other surfaces, refuted.** For every cell there is a cubic surface whose box is flat though the surface is not: the point over a quarter
of the cell is outside of its box. -/
theorem C454_encloses_refuted (k : Cell K) (hu : k.1.1 < k.1.2) (hv : k.2.1 ≤ k.2.2) :
    ∃ ev : K → K → V3 K, (∀ u v, ev u v = ⟨u, v, (u - k.1.1) * (u - mid k.1) * (u - k.1.2)⟩) ∧
      ∃ u v, (k.1.1 ≤ u ∧ u ≤ k.1.2) ∧ (k.2.1 ≤ v ∧ v ≤ k.2.2) ∧ ¬ InBox (bbox ev k) (ev u v) := by
  refine ⟨_, fun _ _ => rfl, k.1.1 + (k.1.2 - k.1.1) / 4, k.2.1, ⟨by linarith, by linarith⟩, ⟨le_rfl, hv⟩, fun h => ?_⟩
  obtain ⟨_, _, _, h⟩ := h
  have m : ∀ r : Rng K, (r.1 + r.2) * (1 / 2) = mid r := fun r => by unfold mid; ring
  simp only [bbox, m, List.foldl_cons, List.foldl_nil, sub_self, zero_mul, mul_zero, max_self] at h
  have e : (k.1.1 + (k.1.2 - k.1.1) / 4 - k.1.1) * (k.1.1 + (k.1.2 - k.1.1) / 4 - mid k.1) * (k.1.1 + (k.1.2 - k.1.1) / 4 - k.1.2) =
      3 / 64 * (k.1.2 - k.1.1) ^ 3 := by unfold mid; ring
  rw [e] at h
  have := pow_pos (sub_pos.2 hu) 3
  linarith

/-- Two patches with boxes apart. -/
example : boxesIntersect (bbox (bilinear (⟨0, 0, 0⟩ : V3 ℚ) ⟨1, 0, 0⟩ ⟨0, 1, 0⟩ ⟨0, 0, 1⟩) ((0, 1), (0, 1)))
    (bbox (bilinear (⟨0, 0, 2⟩ : V3 ℚ) ⟨1, 0, 0⟩ ⟨0, 1, 0⟩ ⟨0, 0, 1⟩) ((0, 1), (0, 1))) = false := by decide +kernel

end Verif.Dqr
