import Verif.Bvh.Model2
import Verif.Bvh.Props
import Mathlib.Tactic.Ring
import Mathlib.Tactic.Linarith
import Mathlib.Tactic.NormNum
import Mathlib.Tactic.IntervalCases

/-! # C448, C449 and more of C28 -/

set_option linter.unusedSectionVars false

namespace Verif.Bvh

open Verif.Aabb (Pt Box pt)

variable {K : Type} [Field K] [LinearOrder K] [IsStrictOrderedRing K]

/-- **C448**, corners.  For a box with `min ≤ max` the corners are the points each of whose coordinates is the least or the greatest one. -/
theorem C448_corners (b : BB K) (hb : ∀ i < 3, b.min i ≤ b.max i) (p : K × K × K) : p ∈ b.corners ↔
    (p.1 = b.min 0 ∨ p.1 = b.max 0) ∧ (p.2.1 = b.min 1 ∨ p.2.1 = b.max 1) ∧ (p.2.2 = b.min 2 ∨ p.2.2 = b.max 2) := by
  have h0 := hb 0 (by omega)
  have h1 := hb 1 (by omega)
  have h2 := hb 2 (by omega)
  obtain ⟨x, y, z⟩ := p
  simp only [BB.corners, List.mem_map, List.mem_range, corner, min_eq_left h0, min_eq_left h1, min_eq_left h2, max_eq_right h0, max_eq_right h1,
    max_eq_right h2, Prod.mk.injEq]
  constructor
  · rintro ⟨n, hn, rfl, rfl, rfl⟩
    refine ⟨?_, ?_, ?_⟩ <;> split_ifs <;> simp
  · rintro ⟨hx, hy, hz⟩
    rcases hx with rfl | rfl <;> rcases hy with rfl | rfl <;> rcases hz with rfl | rfl
    · exact ⟨0, by omega, by simp, by simp, by simp⟩
    · exact ⟨1, by omega, by simp, by simp, by simp⟩
    · exact ⟨2, by omega, by simp, by simp, by simp⟩
    · exact ⟨3, by omega, by simp, by simp, by simp⟩
    · exact ⟨4, by omega, by simp, by simp, by simp⟩
    · exact ⟨5, by omega, by simp, by simp, by simp⟩
    · exact ⟨6, by omega, by simp, by simp, by simp⟩
    · exact ⟨7, by omega, by simp, by simp, by simp⟩

/-- **C448**, edges.  They are the twelve segments from the least to the greatest value of one coordinate with the other two at an end; the first four run along
the third axis, the last four along the first. -/
theorem C448_edges (b : BB K) (hb : ∀ i < 3, b.min i ≤ b.max i) (p q : K × K × K) : (p, q) ∈ b.edges ↔
    (∃ x y, (x = b.min 0 ∨ x = b.max 0) ∧ (y = b.min 1 ∨ y = b.max 1) ∧ p = (x, y, b.min 2) ∧ q = (x, y, b.max 2)) ∨
    (∃ x z, (x = b.min 0 ∨ x = b.max 0) ∧ (z = b.min 2 ∨ z = b.max 2) ∧ p = (x, b.min 1, z) ∧ q = (x, b.max 1, z)) ∨
    ∃ y z, (y = b.min 1 ∨ y = b.max 1) ∧ (z = b.min 2 ∨ z = b.max 2) ∧ p = (b.min 0, y, z) ∧ q = (b.max 0, y, z) := by
  have h0 := hb 0 (by omega)
  have h1 := hb 1 (by omega)
  have h2 := hb 2 (by omega)
  simp only [BB.edges, edgeIdx, List.map_cons, List.map_nil, List.mem_cons, List.not_mem_nil, or_false, corner, min_eq_left h0, min_eq_left h1,
    min_eq_left h2, max_eq_right h0, max_eq_right h1, max_eq_right h2, Prod.mk.injEq]
  norm_num
  simp only [or_assoc]

/-- **C448**, faces.  For each axis and each end of it there is one face, its four corners in the order around it. -/
theorem C448_faces (b : BB K) (hb : ∀ i < 3, b.min i ≤ b.max i) (f : List (K × K × K)) : f ∈ b.faces ↔
    (∃ x, (x = b.min 0 ∨ x = b.max 0) ∧ f = [(x, b.min 1, b.min 2), (x, b.min 1, b.max 2), (x, b.max 1, b.max 2), (x, b.max 1, b.min 2)]) ∨
    (∃ y, (y = b.min 1 ∨ y = b.max 1) ∧ f = [(b.min 0, y, b.min 2), (b.min 0, y, b.max 2), (b.max 0, y, b.max 2), (b.max 0, y, b.min 2)]) ∨
    ∃ z, (z = b.min 2 ∨ z = b.max 2) ∧ f = [(b.min 0, b.min 1, z), (b.min 0, b.max 1, z), (b.max 0, b.max 1, z), (b.max 0, b.min 1, z)] := by
  have h0 := hb 0 (by omega)
  have h1 := hb 1 (by omega)
  have h2 := hb 2 (by omega)
  simp only [BB.faces, faceIdx, List.map_cons, List.map_nil, List.mem_cons, List.not_mem_nil, or_false, corner, min_eq_left h0, min_eq_left h1,
    min_eq_left h2, max_eq_right h0, max_eq_right h1, max_eq_right h2]
  norm_num
  tauto

/-- **C28**, refuted for all boxes.  Each half answers `intersect` like the box before the cut and has its volume; an expanded box answers `intersect` like the one
before and has its volume. -/
theorem C28_stale_all_refuted (b q : BB K) (axis : Nat) (t : K) :
    (b.split axis t).1.intersect q = (BB.mk' b.min b.max).intersect q ∧ (b.split axis t).2.intersect q = (BB.mk' b.min b.max).intersect q ∧
      (b.split axis t).1.volume = (BB.mk' b.min b.max).volume ∧ (b.split axis t).2.volume = (BB.mk' b.min b.max).volume ∧
      (b.expand q).volume = b.volume ∧ ∀ r, (b.expand q).intersect r = b.intersect r := ⟨rfl, rfl, rfl, rfl, rfl, fun _ => rfl⟩

/-- **C28**, refuted for all boxes.  The box is cut at the parameter only if this is one half or the box begins at zero. -/
theorem C28_split_parameter_all_refuted (b : BB K) (axis : Nat) (t : K) : (b.split axis t).1.max axis = b.min axis + (b.max axis - b.min axis) * t ↔
    b.min axis = 0 ∨ t = 1 / 2 := by
  simp only [BB.split, Aabb.upd, if_true]
  constructor
  · intro h
    by_cases h0 : b.min axis = 0
    · exact Or.inl h0
    · right
      have : b.min axis * (2 * t - 1) = 0 := by linarith
      rcases mul_eq_zero.1 this with h1 | h1
      · exact absurd h1 h0
      · linarith
  · rintro (h | h)
    · rw [h]; ring
    · rw [h]; ring

/-- **C28**, eight pieces.  At one half a point of the box is in one of the pieces of `split8`, for any three axes, and the pieces are in the box. -/
theorem C28_split8_partial (b : BB K) (hb : Good b) (a1 a2 a3 : Nat) (h1 : a1 < 3) (h2 : a2 < 3) (h3 : a3 < 3) (p : Pt K) :
    b.containsPoint p = true ↔ ∃ c ∈ b.split8 a1 a2 a3 (1 / 2) (1 / 2) (1 / 2), c.containsPoint p = true := by
  have hmid : ∀ {x y : K}, x ≤ y → x ≤ (x + y) * (1 / 2) ∧ (x + y) * (1 / 2) ≤ y := fun h => ⟨by linarith, by linarith⟩
  have key : ∀ (c : BB K) (a : Nat), (∀ i < 3, c.min i ≤ c.max i) → a < 3 →
      (∀ i < 3, (c.split a (1 / 2)).1.min i ≤ (c.split a (1 / 2)).1.max i) ∧ (∀ i < 3, (c.split a (1 / 2)).2.min i ≤ (c.split a (1 / 2)).2.max i) ∧
      (c.containsPoint p = true ↔ (c.split a (1 / 2)).1.containsPoint p = true ∨ (c.split a (1 / 2)).2.containsPoint p = true) := by
    intro c a hc ha
    have hm := hmid (hc a ha)
    refine ⟨fun i hi => ?_, fun i hi => ?_, ?_⟩
    · simp only [BB.split, BB.mk', Aabb.upd]
      split_ifs with e
      · rw [e]; exact hm.1
      · exact hc i hi
    · simp only [BB.split, BB.mk', Aabb.upd]
      split_ifs with e
      · rw [e]; exact hm.2
      · exact hc i hi
    · rw [contains_iff, contains_iff, contains_iff]
      simp only [BB.split, BB.mk', Aabb.upd]
      constructor
      · intro h
        rcases le_or_gt (p a) ((c.min a + c.max a) * (1 / 2)) with hp | hp
        · left
          intro i hi
          refine ⟨(h i hi).1, ?_⟩
          split_ifs with e
          · rw [e]; exact hp
          · exact (h i hi).2
        · right
          intro i hi
          refine ⟨?_, (h i hi).2⟩
          split_ifs with e
          · rw [e]; exact hp.le
          · exact (h i hi).1
      · rintro (h | h) i hi
        · refine ⟨(h i hi).1, ?_⟩
          have := (h i hi).2
          split_ifs at this with e
          · rw [e] at this ⊢; exact this.trans hm.2
          · exact this
        · refine ⟨?_, (h i hi).2⟩
          have := (h i hi).1
          split_ifs at this with e
          · rw [e] at this ⊢; exact hm.1.trans this
          · exact this
  have hb' : ∀ i < 3, b.min i ≤ b.max i := by
    first
    | exact hb.1
    | exact hb.2
    | exact fun i hi => hb.le i hi
  obtain ⟨k1, k2, k3⟩ := key b a3 hb' h3
  obtain ⟨l1, l2, l3⟩ := key _ a2 k1 h2
  obtain ⟨r1, r2, r3⟩ := key _ a2 k2 h2
  rw [k3, l3, r3, (key _ a1 l1 h1).2.2, (key _ a1 l2 h1).2.2, (key _ a1 r1 h1).2.2, (key _ a1 r2 h1).2.2]
  simp only [BB.split8, BB.split4, List.flatMap_cons, List.flatMap_nil, List.mem_append, List.mem_cons, List.not_mem_nil, or_false]
  constructor
  · rintro (((h | h) | (h | h)) | ((h | h) | (h | h)))
    · exact ⟨_, Or.inl (Or.inl rfl), h⟩
    · exact ⟨_, Or.inl (Or.inr rfl), h⟩
    · exact ⟨_, Or.inr (Or.inl (Or.inl rfl)), h⟩
    · exact ⟨_, Or.inr (Or.inl (Or.inr rfl)), h⟩
    · exact ⟨_, Or.inr (Or.inr (Or.inl (Or.inl rfl))), h⟩
    · exact ⟨_, Or.inr (Or.inr (Or.inl (Or.inr rfl))), h⟩
    · exact ⟨_, Or.inr (Or.inr (Or.inr (Or.inl rfl))), h⟩
    · exact ⟨_, Or.inr (Or.inr (Or.inr (Or.inr rfl))), h⟩
  · rintro ⟨c, (h | h) | (h | h) | (h | h) | (h | h), hc⟩ <;> rw [h] at hc
    · exact Or.inl (Or.inl (Or.inl hc))
    · exact Or.inl (Or.inl (Or.inr hc))
    · exact Or.inl (Or.inr (Or.inl hc))
    · exact Or.inl (Or.inr (Or.inr hc))
    · exact Or.inr (Or.inl (Or.inl hc))
    · exact Or.inr (Or.inl (Or.inr hc))
    · exact Or.inr (Or.inr (Or.inl hc))
    · exact Or.inr (Or.inr (Or.inr hc))

/-- **C449** (part).  Without small sides the size is the product of the three sides of the box as made, with one small side that of the other two, with two that of
the third. -/
theorem C449_partial (eps : K) (lo hi : Pt K) (h0 : eps < |hi 0 - lo 0|) :
    ((eps < |hi 1 - lo 1| → eps < |hi 2 - lo 2| → (BB.mk' lo hi).sizeMetric eps = (hi 0 - lo 0) * (hi 1 - lo 1) * (hi 2 - lo 2)) ∧
      (eps < |hi 1 - lo 1| → |hi 2 - lo 2| ≤ eps → (BB.mk' lo hi).sizeMetric eps = (hi 0 - lo 0) * (hi 1 - lo 1)) ∧
      (|hi 1 - lo 1| ≤ eps → |hi 2 - lo 2| ≤ eps → (BB.mk' lo hi).sizeMetric eps = hi 0 - lo 0)) := by
  simp only [BB.sizeMetric, BB.mk', List.foldl_cons, List.foldl_nil, if_neg (not_le.2 h0)]
  refine ⟨fun h1 h2 => ?_, fun h1 h2 => ?_, fun h1 h2 => ?_⟩
  · rw [if_neg (not_le.2 h1), if_neg (not_le.2 h2)]; ring
  · rw [if_neg (not_le.2 h1), if_pos h2]; ring
  · rw [if_pos h1, if_pos h2]; ring

/-- **C449** refuted.  A point has size one, more than every cube with a side between the tolerance and one that contains it; and a box keeps its size when it is
expanded. -/
theorem C449_refuted (eps : K) (he : 0 ≤ eps) (lo : Pt K) (a : K) (h1 : eps < a) (h2 : a < 1) (b q : BB K) :
    (BB.mk' lo fun i => lo i + a).containsPoint lo = true ∧
      (BB.mk' lo fun i => lo i + a).sizeMetric eps < (BB.mk' lo lo).sizeMetric eps ∧ (b.expand q).sizeMetric eps = b.sizeMetric eps := by
  have ha : 0 < a := lt_of_le_of_lt he h1
  refine ⟨?_, ?_, rfl⟩
  · rw [contains_iff]
    intro i _
    simp only [BB.mk']
    exact ⟨le_refl _, by linarith⟩
  · simp only [BB.sizeMetric, BB.mk', List.foldl_cons, List.foldl_nil, sub_self, abs_zero, if_pos he, add_sub_cancel_left, abs_of_pos ha,
      if_neg (not_le.2 h1), one_mul]
    nlinarith

/-- **C449**, `evaluate`, refuted: the point at `uvh` is the one between the corners only where the box begins at zero or the parameter is one half. -/
theorem C449_evaluate_refuted (b : BB K) (u : Pt K) (i : Nat) : b.evaluate u i = b.min i + (b.max i - b.min i) * u i ↔ b.min i = 0 ∨ u i = 1 / 2 := by
  simp only [BB.evaluate]
  constructor
  · intro h
    by_cases h0 : b.min i = 0
    · exact Or.inl h0
    · right
      have : b.min i * (2 * u i - 1) = 0 := by linarith
      rcases mul_eq_zero.1 this with h1 | h1
      · exact absurd h1 h0
      · linarith
  · rintro (h | h)
    · rw [h]; ring
    · rw [h]; ring

/-- **C449**, `intersect_disjoint`: for boxes with positive sides the answer is whether a point is in the interior of both. -/
theorem C449_disjoint (a b : BB K) (ha : ∀ i < 3, a.min i < a.max i) (hb : ∀ i < 3, b.min i < b.max i) : a.intersectDisjoint b = true ↔
    ∃ p : Pt K, ∀ i < 3, (a.min i < p i ∧ p i < a.max i) ∧ b.min i < p i ∧ p i < b.max i := by
  simp only [BB.intersectDisjoint, Bool.and_eq_true, decide_eq_true_eq]
  constructor
  · rintro ⟨⟨⟨⟨⟨h1, h2⟩, h3⟩, h4⟩, h5⟩, h6⟩
    refine ⟨fun i => (Max.max (a.min i) (b.min i) + Min.min (a.max i) (b.max i)) / 2, fun i hi => ?_⟩
    have h : Max.max (a.min i) (b.min i) < Min.min (a.max i) (b.max i) := by
      rw [max_lt_iff, lt_min_iff, lt_min_iff]
      have e1 : a.min i < b.max i := by interval_cases i <;> assumption
      have e2 : b.min i < a.max i := by interval_cases i <;> assumption
      exact ⟨⟨ha i hi, e1⟩, e2, hb i hi⟩
    have m1 := le_max_left (a.min i) (b.min i)
    have m2 := le_max_right (a.min i) (b.min i)
    have m3 := min_le_left (a.max i) (b.max i)
    have m4 := min_le_right (a.max i) (b.max i)
    dsimp only
    refine ⟨⟨by linarith, by linarith⟩, by linarith, by linarith⟩
  · rintro ⟨p, hp⟩
    have p0 := hp 0 (by omega)
    have p1 := hp 1 (by omega)
    have p2 := hp 2 (by omega)
    refine ⟨⟨⟨⟨⟨?_, ?_⟩, ?_⟩, ?_⟩, ?_⟩, ?_⟩
    · exact p0.1.1.trans p0.2.2
    · exact p0.2.1.trans p0.1.2
    · exact p1.1.1.trans p1.2.2
    · exact p1.2.1.trans p1.1.2
    · exact p2.1.1.trans p2.2.2
    · exact p2.2.1.trans p2.1.2

/-- The box from `(1, 2, 3)` to `(2, 4, 3)`: its size is an area, its first edge and first face degenerate. -/
example : (BB.mk' (pt [1, 2, 3]) (pt [2, 4, 3])).sizeMetric (1 / 100) = 2 ∧ (BB.mk' (pt [1, 2, 3]) (pt [2, 4, 3])).corners.length = 8 ∧
    (BB.mk' (pt [1, 2, 3]) (pt [2, 4, 4])).edges.head? = some ((1, 2, 3), (1, 2, 4)) ∧
    (BB.mk' (pt [1, 2, 3]) (pt [2, 4, 4])).faces.head? = some [(1, 2, 3), (1, 2, 4), (1, 4, 4), (1, 4, 3)] := by
  refine ⟨?_, ?_, ?_, ?_⟩ <;> decide +kernel

end Verif.Bvh
