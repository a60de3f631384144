import Verif.Swl.Props
import Mathlib.Algebra.Order.Archimedean.Basic
import Mathlib.Data.List.Nodup

/-! # Intersections of segments, their order along a segment, and the sentinels of the sweep line (C292–C296) -/

set_option linter.unusedSectionVars false
set_option linter.unusedVariables false

namespace Verif.Swl

variable {K : Type} [Field K] [LinearOrder K] [IsStrictOrderedRing K]

/-! ## C292 the intersection of two lines -/

/-- The segment has two different ends. -/
def Proper (s : Seg K) : Prop := s.p1.x ≠ s.p2.x ∨ s.p1.y ≠ s.p2.y

/-- The directions are parallel. -/
def Parallel (a s : Seg K) : Prop := (a.p2.x - a.p1.x) * (s.p2.y - s.p1.y) = (a.p2.y - a.p1.y) * (s.p2.x - s.p1.x)

theorem slope_eq_iff {a s : Seg K} (ha : Proper a) (hs : Proper s) : a.slope = s.slope ↔ Parallel a s := by
  unfold Seg.slope Parallel Seg.dx Seg.dy
  by_cases h1 : a.p2.x = a.p1.x <;> by_cases h2 : s.p2.x = s.p1.x
  · simp [h1, h2]
  · have hd : s.p2.x - s.p1.x ≠ 0 := sub_ne_zero.mpr h2
    have : a.p2.y - a.p1.y ≠ 0 := by
      rcases ha with h | h
      · exact absurd h1.symm h
      · exact sub_ne_zero.mpr (Ne.symm h)
    simp [h1, h2, hd, this]
  · have hd : a.p2.x - a.p1.x ≠ 0 := sub_ne_zero.mpr h1
    have : s.p2.y - s.p1.y ≠ 0 := by
      rcases hs with h | h
      · exact absurd h2.symm h
      · exact sub_ne_zero.mpr (Ne.symm h)
    simp [h1, h2, hd, this]
  · have hd : s.p2.x - s.p1.x ≠ 0 := sub_ne_zero.mpr h2
    have hd' : a.p2.x - a.p1.x ≠ 0 := sub_ne_zero.mpr h1
    simp only [ne_eq, h1, h2, not_false_eq_true, if_true, Option.some.injEq]
    rw [div_eq_div_iff hd' hd]
    constructor <;> intro h <;> linear_combination -h

theorem slope_cases (s : Seg K) :
    s.p1.x = s.p2.x ∧ s.slope = none ∧ s.yShift = none ∨
      s.p1.x ≠ s.p2.x ∧ ∃ m h, s.slope = some m ∧ s.yShift = some h ∧ ∀ p : Pt K, p.y = m * p.x + h → side s p = 0 := by
  unfold Seg.slope Seg.yShift
  by_cases h1 : s.p2.x = s.p1.x
  · left; simp [h1]
  · right
    refine ⟨Ne.symm h1, s.dy / s.dx, s.p1.y - s.dy / s.dx * s.p1.x, by simp [h1], by simp [h1], ?_⟩
    intro p hp
    have hd : s.p2.x - s.p1.x ≠ 0 := sub_ne_zero.mpr h1
    unfold side; rw [hp]; unfold Seg.dx Seg.dy
    field_simp; ring

/-- `None` is returned exactly for parallel segments. -/
theorem C292_none {e : K} {fresh : ℕ} {a s : Seg K} (ha : Proper a) (hs : Proper s) :
    intersectionOfLines e fresh a s = none ↔ Parallel a s := by
  rw [← slope_eq_iff ha hs]
  unfold intersectionOfLines
  by_cases h : a.slope = s.slope
  · simp [h]
  · rw [if_neg h]
    simp only [h, iff_false]
    split_ifs
    · simp
    · simp
    · rcases slope_cases a with ⟨_, q1, q2⟩ | ⟨_, m, k, q1, q2, _⟩ <;>
      rcases slope_cases s with ⟨_, r1, r2⟩ | ⟨_, m', k', r1, r2, _⟩
      · exact absurd (q1.trans r1.symm) h
      · rw [q1, q2, r1, r2]; simp
      · rw [q1, q2, r1, r2]; simp
      · rw [q1, q2, r1, r2]; simp

/-- Two points are within the tolerance of each other. -/
def Near (e : K) (p q : Pt K) : Prop := |p.x - q.x| ≤ e ∧ |p.y - q.y| ≤ e

theorem eqv_near {e : K} (he : 0 ≤ e) {p q : Pt K} (hu : p.id = q.id → p = q) (h : p.eqv e q = true) : Near e p q := by
  unfold Pt.eqv Pt.compare at h
  by_cases hid : p.id = q.id
  · have := hu hid; subst this
    constructor <;> simpa using he
  · rw [if_neg hid] at h
    constructor <;> rw [abs_le] <;> split_ifs at h <;> simp_all <;> constructor <;> linarith

theorem near_eqv {e : K} {p q : Pt K} (h : Near e p q) : p.eqv e q = true := by
  unfold Pt.eqv Pt.compare
  obtain ⟨h1, h2⟩ := h
  rw [abs_le] at h1 h2
  split_ifs <;> first | rfl | (exfalso; linarith)

/-- A point that is returned is on the line of the first segment.  It is on the line of the second segment too, except when it is an
end of the first segment that is within the tolerance of an end of the second one. -/
theorem C292_point {e : K} (he : 0 ≤ e) {fresh : ℕ} {a s : Seg K}
    (hu : ∀ p ∈ [a.p1, a.p2], ∀ q ∈ [s.p1, s.p2], p.id = q.id → p = q) {q : Pt K}
    (h : intersectionOfLines e fresh a s = some q) :
    side a q = 0 ∧ (side s q = 0 ∨ (q = a.p1 ∨ q = a.p2) ∧ (Near e q s.p1 ∨ Near e q s.p2)) := by
  unfold intersectionOfLines at h
  split_ifs at h with h0 h1 h2
  · simp only [Option.some.injEq] at h; subst h
    refine ⟨by unfold side; ring, Or.inr ⟨Or.inl rfl, ?_⟩⟩
    rcases Bool.or_eq_true_iff.mp h1 with h | h
    · exact Or.inl (eqv_near he (hu _ (by simp) _ (by simp)) h)
    · exact Or.inr (eqv_near he (hu _ (by simp) _ (by simp)) h)
  · simp only [Option.some.injEq] at h; subst h
    refine ⟨by unfold side; ring, Or.inr ⟨Or.inr rfl, ?_⟩⟩
    rcases Bool.or_eq_true_iff.mp h2 with h | h
    · exact Or.inl (eqv_near he (hu _ (by simp) _ (by simp)) h)
    · exact Or.inr (eqv_near he (hu _ (by simp) _ (by simp)) h)
  · rcases slope_cases a with ⟨ax, q1, q2⟩ | ⟨ax, m, k, q1, q2, qa⟩ <;>
    rcases slope_cases s with ⟨sx, r1, r2⟩ | ⟨sx, m', k', r1, r2, qs⟩
    · exact absurd (q1.trans r1.symm) h0
    · rw [q1, q2, r1, r2] at h
      simp only [Option.some.injEq] at h; subst h
      refine ⟨?_, Or.inl (qs _ rfl)⟩
      unfold side; rw [← ax]; ring
    · rw [q1, q2, r1, r2] at h
      simp only [Option.some.injEq] at h; subst h
      refine ⟨qa _ rfl, Or.inl ?_⟩
      unfold side; rw [← sx]; ring
    · rw [q1, q2, r1, r2] at h
      simp only [Option.some.injEq] at h; subst h
      refine ⟨qa _ rfl, Or.inl (qs _ ?_)⟩
      have hm : m - m' ≠ 0 := by
        intro hc; apply h0; rw [q1, r1, sub_eq_zero.mp hc]
      dsimp only
      field_simp; ring

/-- Within the tolerance an end of one segment is taken as the intersection though the lines meet elsewhere: for every
tolerance there are two segments, crossing in their inner points, for which a point off the second segment is returned. -/
theorem C292_exact_refuted {e : K} (he : 0 < e) :
    ∃ a s : Seg K, Proper a ∧ Proper s ∧ ∃ q, intersectionOfLines e 99 a s = some q ∧ side s q ≠ 0 ∧
      ∃ p : Pt K, side a p = 0 ∧ side s p = 0 ∧ a.p1.x < p.x ∧ p.x < a.p2.x ∧ s.p1.x < p.x ∧ p.x < s.p2.x := by
  refine ⟨⟨⟨0, 0, 0⟩, ⟨2 * e, 2 * e, 1⟩, 0⟩, ⟨⟨0, e, 2⟩, ⟨2 * e, 0, 3⟩, 1⟩, ?_, ?_, ⟨0, 0, 0⟩, ?_, ?_, ⟨2 * e / 3, 2 * e / 3, 9⟩, ?_, ?_, ?_, ?_, ?_, ?_⟩
  · left; simp; exact ne_of_gt he
  · left; simp; exact ne_of_gt he
  · have hd : (2 * e : K) ≠ 0 := by positivity
    have hne : Seg.slope (⟨⟨0, 0, 0⟩, ⟨2 * e, 2 * e, 1⟩, 0⟩ : Seg K) ≠ Seg.slope ⟨⟨0, e, 2⟩, ⟨2 * e, 0, 3⟩, 1⟩ := by
      intro hc
      rw [slope_eq_iff (Or.inl (by simpa using (ne_of_gt he))) (Or.inl (by simpa using (ne_of_gt he)))] at hc
      unfold Parallel at hc; dsimp only at hc
      nlinarith
    have hq : Pt.eqv e (⟨0, 0, 0⟩ : Pt K) ⟨0, e, 2⟩ = true := by
      apply near_eqv; constructor <;> simp [le_of_lt he, abs_of_pos he]
    unfold intersectionOfLines
    rw [if_neg hne, hq]; simp
  · unfold side; dsimp only; intro h; nlinarith
  · unfold side; dsimp only; ring
  · unfold side; dsimp only; ring
  · dsimp only; linarith
  · dsimp only; linarith
  · dsimp only; linarith
  · dsimp only; linarith

example : intersectionOfLines (1 / 1000 : ℚ) 7 ⟨⟨0, 0, 0⟩, ⟨4, 4, 1⟩, 0⟩ ⟨⟨0, 4, 2⟩, ⟨4, 0, 3⟩, 1⟩ = some ⟨2, 2, 7⟩ := by
  decide +kernel
example : intersectionOfLines (1 / 1000 : ℚ) 7 ⟨⟨1, -1, 0⟩, ⟨1, 4, 1⟩, 0⟩ ⟨⟨0, 4, 2⟩, ⟨4, 0, 3⟩, 1⟩ = some ⟨1, 3, 7⟩ := by
  decide +kernel

/-! ## C293 the test for an intersection to the right of the sweep line -/

theorem height_end {s : Seg K} (h : s.p1.x ≠ s.p2.x) : height s s.p2.x = s.p2.y := by
  have : s.p2.x - s.p1.x ≠ 0 := sub_ne_zero.mpr (Ne.symm h)
  unfold height; field_simp; ring

theorem height_affine (s : Seg K) (x y : K) :
    height s y - height s x = (s.p2.y - s.p1.y) / (s.p2.x - s.p1.x) * (y - x) := by
  unfold height; ring

/-- Let `s0` be strictly below `s1` at the abscissa `X`, which is not to the right of either end.  The test is passed exactly when the segments meet
at some abscissa from `X` on to the first of the two ends. -/
theorem C293_test {s0 s1 : Seg K} (h0 : s0.p1.x < s0.p2.x) (h1 : s1.p1.x < s1.p2.x) {X : K} (hX0 : X ≤ s0.p2.x) (hX1 : X ≤ s1.p2.x)
    (hlt : height s0 X < height s1 X) :
    mayMeet s0 s1 = true ↔ ∃ x, X ≤ x ∧ x ≤ s0.p2.x ∧ x ≤ s1.p2.x ∧ height s0 x = height s1 x := by
  have t : mayMeet s0 s1 = true ↔ s1.p2.y ≤ height s0 s1.p2.x ∧ height s1 s0.p2.x ≤ s0.p2.y := by
    have a0 := C290_above h0 s1.p2
    have a1 := C290_above h1 s0.p2
    unfold mayMeet
    rw [Bool.and_eq_true, decide_eq_true_eq, decide_eq_true_eq]
    constructor
    · rintro ⟨p, q⟩
      constructor
      · by_contra hc; push Not at hc; have := a0.1.mpr hc; omega
      · by_contra hc; push Not at hc; have := a1.2.1.mpr hc; omega
    · rintro ⟨p, q⟩
      constructor
      · by_contra hc; push Not at hc; have := a0.1.mp hc; linarith
      · by_contra hc; push Not at hc; have := a1.2.1.mp hc; linarith
  rw [t]
  have e0 := height_end (ne_of_lt h0)
  have e1 := height_end (ne_of_lt h1)
  set m0 := (s0.p2.y - s0.p1.y) / (s0.p2.x - s0.p1.x) with hm0
  set m1 := (s1.p2.y - s1.p1.y) / (s1.p2.x - s1.p1.x) with hm1
  have A0 : ∀ x, height s0 x = height s0 X + m0 * (x - X) := fun x => by
    have := height_affine s0 X x; rw [← hm0] at this; linarith
  have A1 : ∀ x, height s1 x = height s1 X + m1 * (x - X) := fun x => by
    have := height_affine s1 X x; rw [← hm1] at this; linarith
  clear_value m0 m1
  constructor
  · rintro ⟨p, q⟩
    rw [← e1, A0, A1] at p
    rw [← e0, A0, A1] at q
    have hm : 0 < m0 - m1 := by
      by_contra hc; push Not at hc
      have : (m0 - m1) * (s1.p2.x - X) ≤ 0 := mul_nonpos_of_nonpos_of_nonneg hc (by linarith)
      nlinarith
    have hq : (height s1 X - height s0 X) / (m0 - m1) * (m0 - m1) = height s1 X - height s0 X :=
      div_mul_cancel₀ _ (ne_of_gt hm)
    refine ⟨X + (height s1 X - height s0 X) / (m0 - m1), ?_, ?_, ?_, ?_⟩
    · have : 0 ≤ (height s1 X - height s0 X) / (m0 - m1) := div_nonneg (by linarith) (le_of_lt hm)
      linarith
    · have : (height s1 X - height s0 X) / (m0 - m1) ≤ s0.p2.x - X := by
        rw [div_le_iff₀ hm]; nlinarith
      linarith
    · have : (height s1 X - height s0 X) / (m0 - m1) ≤ s1.p2.x - X := by
        rw [div_le_iff₀ hm]; nlinarith
      linarith
    · rw [A0 (X + _), A1 (X + _)]; linear_combination hq
  · rintro ⟨x, hx, hx0, hx1, he⟩
    have hlt' : X < x := by
      rcases lt_or_eq_of_le hx with h | h
      · exact h
      · subst h; exact absurd he (ne_of_lt hlt)
    rw [A0, A1] at he
    have hm : 0 < m0 - m1 := by
      by_contra hc; push Not at hc
      have : (m0 - m1) * (x - X) ≤ 0 := mul_nonpos_of_nonpos_of_nonneg hc (by linarith)
      nlinarith
    constructor
    · rw [← e1, A0, A1]; nlinarith
    · rw [← e0, A0, A1]; nlinarith

/-- When the test is passed and no ends coincide, the point that is inserted in the queue is a point of both segments, not left of `X`. -/
theorem C293_inserted {e : K} (he : 0 ≤ e) {fresh : ℕ} {s0 s1 : Seg K} (h0 : s0.p1.x < s0.p2.x) (h1 : s1.p1.x < s1.p2.x) {X : K}
    (hX : s0.p1.x ≤ X ∧ s1.p1.x ≤ X) (hX0 : X ≤ s0.p2.x) (hX1 : X ≤ s1.p2.x) (hlt : height s0 X < height s1 X)
    (hu : ∀ p ∈ [s0.p1, s0.p2], ∀ q ∈ [s1.p1, s1.p2], p.id = q.id → p = q)
    (hf : ∀ p ∈ [s0.p1, s0.p2], ∀ q ∈ [s1.p1, s1.p2], ¬ Near e p q)
    (ht : mayMeet s0 s1 = true) :
    ∃ q, intersectionOfLines e fresh s0 s1 = some q ∧ X ≤ q.x ∧ s0.p1.x ≤ q.x ∧ q.x ≤ s0.p2.x ∧ s1.p1.x ≤ q.x ∧ q.x ≤ s1.p2.x ∧
      q.y = height s0 q.x ∧ q.y = height s1 q.x := by
  obtain ⟨x, a1, a2, a3, a4⟩ := (C293_test h0 h1 hX0 hX1 hlt).mp ht
  have p0 : Proper s0 := Or.inl (ne_of_lt h0)
  have p1 : Proper s1 := Or.inl (ne_of_lt h1)
  have hd0 : s0.p2.x - s0.p1.x ≠ 0 := sub_ne_zero.mpr (ne_of_gt h0)
  have hd1 : s1.p2.x - s1.p1.x ≠ 0 := sub_ne_zero.mpr (ne_of_gt h1)
  have np : ¬ Parallel s0 s1 := by
    intro hp
    have hm : (s0.p2.y - s0.p1.y) / (s0.p2.x - s0.p1.x) = (s1.p2.y - s1.p1.y) / (s1.p2.x - s1.p1.x) := by
      rw [div_eq_div_iff hd0 hd1]; unfold Parallel at hp; linear_combination -hp
    have b0 := height_affine s0 X x
    have b1 := height_affine s1 X x
    rw [hm] at b0
    linarith
  cases hq : intersectionOfLines e fresh s0 s1 with
  | none => exact absurd ((C292_none p0 p1).mp hq) np
  | some q =>
    obtain ⟨c1, c2⟩ := C292_point he hu hq
    have c2 : side s1 q = 0 := by
      rcases c2 with c2 | ⟨c3, c4⟩
      · exact c2
      · exfalso
        rcases c3 with c3 | c3 <;> subst c3 <;> rcases c4 with c4 | c4 <;> exact hf _ (by simp) _ (by simp) c4
    have y0 : q.y = height s0 q.x := by
      rw [side_height (ne_of_lt h0)] at c1
      rcases mul_eq_zero.mp c1 with h | h
      · exact absurd h hd0
      · linarith
    have y1 : q.y = height s1 q.x := by
      rw [side_height (ne_of_lt h1)] at c2
      rcases mul_eq_zero.mp c2 with h | h
      · exact absurd h hd1
      · linarith
    have ex : q.x = x := by
      by_contra hne
      have b0 := height_affine s0 x q.x
      have b1 := height_affine s1 x q.x
      have : ((s0.p2.y - s0.p1.y) / (s0.p2.x - s0.p1.x) - (s1.p2.y - s1.p1.y) / (s1.p2.x - s1.p1.x)) * (q.x - x) = 0 := by
        rw [sub_mul, ← b0, ← b1, a4, ← y0, ← y1]; ring
      rcases mul_eq_zero.mp this with h | h
      · apply np
        rw [sub_eq_zero, div_eq_div_iff hd0 hd1] at h
        unfold Parallel; linear_combination -h
      · exact hne (sub_eq_zero.mp h)
    refine ⟨q, rfl, ?_, ?_, ?_, ?_, ?_, y0, y1⟩ <;> rw [ex] <;> linarith [hX.1, hX.2]

example : mayMeet (⟨⟨0, 0, 0⟩, ⟨4, 4, 1⟩, 0⟩ : Seg ℚ) ⟨⟨0, 4, 2⟩, ⟨4, 0, 3⟩, 1⟩ = true ∧
    height (⟨⟨0, 0, 0⟩, ⟨4, 4, 1⟩, 0⟩ : Seg ℚ) 1 < height (⟨⟨0, 4, 2⟩, ⟨4, 0, 3⟩, 1⟩ : Seg ℚ) 1 := by decide +kernel
example : mayMeet (⟨⟨0, 0, 0⟩, ⟨1, 1, 1⟩, 0⟩ : Seg ℚ) ⟨⟨0, 4, 2⟩, ⟨4, 0, 3⟩, 1⟩ = false := by decide +kernel

/-! ## C294 the points of a segment in their order -/

/-- What is put in front of the end point. -/
def ins (v1 : K × K) (t : List (K × K)) (p : K × K) : List (K × K) := if p = v1 ∨ p ∈ t then t else p :: t

theorem foldl_ins (v1 : K × K) (l t : List (K × K)) : l.foldl (addPt 1) (v1 :: t) = v1 :: l.foldl (ins v1) t := by
  induction l generalizing t with
  | nil => rfl
  | cons p l ih =>
    have : addPt 1 (v1 :: t) p = v1 :: ins v1 t p := by
      unfold addPt ins
      by_cases h : p = v1 ∨ p ∈ t
      · rw [if_pos (by simpa using h), if_pos h]
      · rw [if_neg (by simpa using h), if_neg h]; simp
    rw [List.foldl_cons, List.foldl_cons, this, ih]

theorem mem_ins (v1 : K × K) (l t : List (K × K)) (q : K × K) :
    q ∈ l.foldl (ins v1) t ↔ q ∈ t ∨ q ∈ l ∧ q ≠ v1 := by
  induction l generalizing t with
  | nil => simp
  | cons p l ih =>
    rw [List.foldl_cons, ih]
    unfold ins
    by_cases h : p = v1 ∨ p ∈ t
    · rw [if_pos h]
      constructor
      · rintro (h' | ⟨h', h''⟩)
        · exact Or.inl h'
        · exact Or.inr ⟨by simp [h'], h''⟩
      · rintro (h' | ⟨h', h''⟩)
        · exact Or.inl h'
        · rcases List.mem_cons.mp h' with e | e
          · subst e; exact Or.inl (h.resolve_left h'')
          · exact Or.inr ⟨e, h''⟩
    · rw [if_neg h]; push Not at h
      simp only [List.mem_cons]
      constructor
      · rintro ((h' | h') | ⟨h', h''⟩)
        · right; exact ⟨Or.inl h', by rw [h']; exact h.1⟩
        · exact Or.inl h'
        · exact Or.inr ⟨Or.inr h', h''⟩
      · rintro (h' | ⟨h' | h', h''⟩)
        · exact Or.inl (Or.inr h')
        · exact Or.inl (Or.inl h')
        · exact Or.inr ⟨h', h''⟩

theorem nodup_ins (v1 : K × K) (l t : List (K × K)) (ht : t.Nodup) : (l.foldl (ins v1) t).Nodup := by
  induction l generalizing t with
  | nil => exact ht
  | cons p l ih =>
    rw [List.foldl_cons]; apply ih
    unfold ins
    by_cases h : p = v1 ∨ p ∈ t
    · rw [if_pos h]; exact ht
    · rw [if_neg h]; push Not at h; exact List.nodup_cons.mpr ⟨h.2, ht⟩

theorem sorted_ins (r : K × K → K × K → Prop) (v1 : K × K) (l t : List (K × K)) (ht : t.Pairwise r)
    (hl : l.Pairwise (fun p q => r q p)) (hlt : ∀ p ∈ l, ∀ q ∈ t, r p q) : (l.foldl (ins v1) t).Pairwise r := by
  induction l generalizing t with
  | nil => exact ht
  | cons p l ih =>
    rw [List.foldl_cons]
    rw [List.pairwise_cons] at hl
    apply ih
    · unfold ins
      by_cases h : p = v1 ∨ p ∈ t
      · rw [if_pos h]; exact ht
      · rw [if_neg h]; exact List.pairwise_cons.mpr ⟨hlt p (by simp), ht⟩
    · exact hl.2
    · intro q hq z hz
      unfold ins at hz
      by_cases h : p = v1 ∨ p ∈ t
      · rw [if_pos h] at hz; exact hlt q (by simp [hq]) z hz
      · rw [if_neg h] at hz
        rcases List.mem_cons.mp hz with e | e
        · subst e; exact hl.1 q hq
        · exact hlt q (by simp [hq]) z e

theorem last_ins (v1 v2 : K × K) (l t : List (K × K)) : ∃ m, l.foldl (ins v1) (t ++ [v2]) = m ++ [v2] := by
  induction l generalizing t with
  | nil => exact ⟨t, rfl⟩
  | cons p l ih =>
    rw [List.foldl_cons]; unfold ins
    by_cases h : p = v1 ∨ p ∈ t ++ [v2]
    · rw [if_pos h]; exact ih t
    · rw [if_neg h]; exact ih (p :: t)

theorem mem_sortedBy (bx rev : Bool) (l : List (K × K)) (q : K × K) : q ∈ sortedBy bx rev l ↔ q ∈ l := by
  unfold sortedBy
  split_ifs <;> exact List.mem_insertionSort _

theorem extend_eq {v1 v2 : K × K} (h : v1 ≠ v2) (points : List (K × K)) :
    inorderExtend [v1, v2] v1 v2 points =
      some (v1 :: (sortedBy (keyRev v1 v2).1 (keyRev v1 v2).2 points).foldl (ins v1) [v2]) := by
  unfold inorderExtend
  have : [v1, v2].findIdx? (fun p => decide (p = v2)) = some 1 := by
    simp [List.findIdx?_cons, h]
  rw [this]; dsimp only
  rw [foldl_ins]

/-- The list begins with the start, ends with the end, has every given point once and no others. -/
theorem C294_members {v1 v2 : K × K} (h : v1 ≠ v2) (points : List (K × K)) :
    ∃ m, inorderExtend [v1, v2] v1 v2 points = some (v1 :: m ++ [v2]) ∧ (v1 :: m ++ [v2]).Nodup ∧
      (∀ q, q ∈ m ↔ q ∈ points ∧ q ≠ v1 ∧ q ≠ v2) ∧ report v1 v2 points = some m := by
  obtain ⟨m, hm⟩ := last_ins v1 v2 (sortedBy (keyRev v1 v2).1 (keyRev v1 v2).2 points) []
  rw [List.nil_append] at hm
  have he := extend_eq h points
  rw [hm] at he
  have hnd : (m ++ [v2]).Nodup := by rw [← hm]; exact nodup_ins _ _ _ (by simp)
  have hmem : ∀ q, q ∈ m ++ [v2] ↔ q = v2 ∨ q ∈ points ∧ q ≠ v1 := by
    intro q
    rw [← hm, mem_ins, mem_sortedBy]; simp
  have hv2 : v2 ∉ m := by
    intro hc
    have := List.nodup_append.mp hnd
    exact this.2.2 v2 hc v2 (by simp) rfl
  refine ⟨m, by rw [he, List.cons_append], ?_, ?_, ?_⟩
  · rw [List.cons_append, List.nodup_cons]
    refine ⟨?_, hnd⟩
    rw [hmem]; push Not; exact ⟨h, fun _ => rfl⟩
  · intro q
    have := hmem q
    rw [List.mem_append, List.mem_singleton] at this
    constructor
    · intro hq
      have hne : q ≠ v2 := fun hc => hv2 (hc ▸ hq)
      rcases this.mp (Or.inl hq) with h' | h'
      · exact absurd h' hne
      · exact ⟨h'.1, h'.2, hne⟩
    · rintro ⟨h1, h2, h3⟩
      rcases this.mpr (Or.inr ⟨h1, h2⟩) with h' | h'
      · exact h'
      · exact absurd h' h3
  · unfold report; rw [he]; simp

/-- The point of the segment at the parameter `t`. -/
def at' (v1 v2 : K × K) (t : K) : K × K := (v1.1 + t * (v2.1 - v1.1), v1.2 + t * (v2.2 - v1.2))

/-- Points of the segment are returned in their order from the start to the end. -/
theorem C294_order {v1 v2 : K × K} (h : v1 ≠ v2) (points : List (K × K))
    (hp : ∀ p ∈ points, ∃ t, 0 ≤ t ∧ t ≤ 1 ∧ p = at' v1 v2 t) {l : List (K × K)}
    (hl : inorderExtend [v1, v2] v1 v2 points = some l) :
    l.Pairwise (fun p q => ∃ t u, 0 ≤ t ∧ t ≤ u ∧ u ≤ 1 ∧ p = at' v1 v2 t ∧ q = at' v1 v2 u) := by
  set on : K × K → Prop := fun p => ∃ t, 0 ≤ t ∧ t ≤ 1 ∧ p = at' v1 v2 t with hon
  set r : K × K → K × K → Prop := fun p q => ∃ t u, 0 ≤ t ∧ t ≤ u ∧ u ≤ 1 ∧ p = at' v1 v2 t ∧ q = at' v1 v2 u with hr
  have o1 : v1 = at' v1 v2 0 := by unfold at'; simp
  have o2 : v2 = at' v1 v2 1 := by unfold at'; ext <;> simp
  -- the sorting is an ordering by the parameter, the later points first
  have key : (sortedBy (keyRev v1 v2).1 (keyRev v1 v2).2 points).Pairwise (fun p q => r q p) := by
    have lift : ∀ (c : K × K → K × K → Prop) (hc : ∀ p q, on p → on q → c p q → r q p) (L : List (K × K)),
        (∀ p ∈ L, on p) → L.Pairwise c → L.Pairwise (fun p q => r q p) := by
      intro c hc L hL hP
      refine List.Pairwise.imp_of_mem ?_ hP
      intro p q hp hq h
      exact hc p q (hL p hp) (hL q hq) h
    have hmem : ∀ bx rev, ∀ p ∈ sortedBy bx rev points, on p := by
      intro bx rev p hp'; exact hp p ((mem_sortedBy _ _ _ _).mp hp')
    have hne : v1.1 < v2.1 ∨ v1.1 > v2.1 ∨ v1.1 = v2.1 ∧ v1.2 < v2.2 ∨ v1.1 = v2.1 ∧ v1.2 > v2.2 := by
      rcases lt_trichotomy v1.1 v2.1 with g | g | g
      · exact Or.inl g
      · rcases lt_trichotomy v1.2 v2.2 with g' | g' | g'
        · exact Or.inr (Or.inr (Or.inl ⟨g, g'⟩))
        · exact absurd (Prod.ext g g') h
        · exact Or.inr (Or.inr (Or.inr ⟨g, g'⟩))
      · exact Or.inr (Or.inl g)
    rcases hne with g | g | ⟨g, g'⟩ | ⟨g, g'⟩
    · have hk : keyRev v1 v2 = (true, true) := by unfold keyRev; rw [if_pos g]
      rw [hk]
      refine lift (fun p q => q.1 ≤ p.1) ?_ _ (hmem _ _) ?_
      · rintro p q ⟨t, a1, a2, rfl⟩ ⟨u, b1, b2, rfl⟩ hc
        unfold at' at hc; dsimp only at hc
        have : u ≤ t := by
          by_contra hh; push Not at hh
          have := mul_lt_mul_of_pos_right hh (sub_pos.mpr g); linarith
        exact ⟨u, t, b1, this, a2, rfl, rfl⟩
      · unfold sortedBy keyOf; simp only [if_true]
        haveI : Std.Total (fun p q : K × K => q.1 ≤ p.1) := ⟨fun p q => le_total _ _⟩
        haveI : IsTrans (K × K) (fun p q : K × K => q.1 ≤ p.1) := ⟨fun a b c h1 h2 => le_trans h2 h1⟩
        exact List.pairwise_insertionSort (fun p q : K × K => q.1 ≤ p.1) points
    · have hk : keyRev v1 v2 = (true, false) := by unfold keyRev; rw [if_neg (not_lt.mpr (le_of_lt g)), if_pos g]
      rw [hk]
      refine lift (fun p q => p.1 ≤ q.1) ?_ _ (hmem _ _) ?_
      · rintro p q ⟨t, a1, a2, rfl⟩ ⟨u, b1, b2, rfl⟩ hc
        unfold at' at hc; dsimp only at hc
        have : u ≤ t := by
          by_contra hh; push Not at hh
          have := mul_lt_mul_of_pos_right hh (sub_pos.mpr g); linarith
        exact ⟨u, t, b1, this, a2, rfl, rfl⟩
      · unfold sortedBy keyOf; simp only [Bool.false_eq_true, if_true, if_false]
        haveI : Std.Total (fun p q : K × K => p.1 ≤ q.1) := ⟨fun p q => le_total _ _⟩
        haveI : IsTrans (K × K) (fun p q : K × K => p.1 ≤ q.1) := ⟨fun a b c h1 h2 => le_trans h1 h2⟩
        exact List.pairwise_insertionSort (fun p q : K × K => p.1 ≤ q.1) points
    · have hk : keyRev v1 v2 = (false, true) := by
        unfold keyRev; rw [if_neg (by rw [g]; exact lt_irrefl _), if_neg (by rw [g]; exact lt_irrefl _), if_pos g']
      rw [hk]
      refine lift (fun p q => q.2 ≤ p.2) ?_ _ (hmem _ _) ?_
      · rintro p q ⟨t, a1, a2, rfl⟩ ⟨u, b1, b2, rfl⟩ hc
        unfold at' at hc; dsimp only at hc
        have : u ≤ t := by
          by_contra hh; push Not at hh
          have := mul_lt_mul_of_pos_right hh (sub_pos.mpr g'); linarith
        exact ⟨u, t, b1, this, a2, rfl, rfl⟩
      · unfold sortedBy keyOf; simp only [Bool.false_eq_true, if_true, if_false]
        haveI : Std.Total (fun p q : K × K => q.2 ≤ p.2) := ⟨fun p q => le_total _ _⟩
        haveI : IsTrans (K × K) (fun p q : K × K => q.2 ≤ p.2) := ⟨fun a b c h1 h2 => le_trans h2 h1⟩
        exact List.pairwise_insertionSort (fun p q : K × K => q.2 ≤ p.2) points
    · have hk : keyRev v1 v2 = (false, false) := by
        unfold keyRev
        rw [if_neg (by rw [g]; exact lt_irrefl _), if_neg (by rw [g]; exact lt_irrefl _), if_neg (not_lt.mpr (le_of_lt g'))]
      rw [hk]
      refine lift (fun p q => p.2 ≤ q.2) ?_ _ (hmem _ _) ?_
      · rintro p q ⟨t, a1, a2, rfl⟩ ⟨u, b1, b2, rfl⟩ hc
        unfold at' at hc; dsimp only at hc
        have : u ≤ t := by
          by_contra hh; push Not at hh
          have := mul_lt_mul_of_pos_right hh (sub_pos.mpr g'); linarith
        exact ⟨u, t, b1, this, a2, rfl, rfl⟩
      · unfold sortedBy keyOf; simp only [Bool.false_eq_true, if_false]
        haveI : Std.Total (fun p q : K × K => p.2 ≤ q.2) := ⟨fun p q => le_total _ _⟩
        haveI : IsTrans (K × K) (fun p q : K × K => p.2 ≤ q.2) := ⟨fun a b c h1 h2 => le_trans h1 h2⟩
        exact List.pairwise_insertionSort (fun p q : K × K => p.2 ≤ q.2) points
  rw [extend_eq h, Option.some.injEq] at hl
  subst hl
  have ht : (List.foldl (ins v1) [v2] (sortedBy (keyRev v1 v2).1 (keyRev v1 v2).2 points)).Pairwise r := by
    apply sorted_ins r _ _ _ (by simp) key
    intro p hp' q hq
    rw [List.mem_singleton] at hq; subst hq
    obtain ⟨t, a1, a2, a3⟩ := hp p ((mem_sortedBy _ _ _ _).mp hp')
    exact ⟨t, 1, a1, a2, le_refl _, a3, o2⟩
  rw [List.pairwise_cons]
  refine ⟨?_, ht⟩
  intro q hq
  rw [mem_ins, mem_sortedBy] at hq
  rcases hq with hq | hq
  · rw [List.mem_singleton] at hq; subst hq
    exact ⟨0, 1, le_refl _, zero_le_one, le_refl _, o1, o2⟩
  · obtain ⟨t, a1, a2, a3⟩ := hp q hq.1
    exact ⟨0, t, le_refl _, a1, a2, o1, a3⟩

/-- A segment given several times has one entry, the points found for the last of its copies. -/
theorem C294_copies_refuted (key : (K × K) × (K × K)) (i j : ℕ) (p q : List (K × K))
    (rest : List (((K × K) × (K × K)) × ℕ × List (K × K))) :
    collect (rest ++ [(key, i, p), (key, j, q)]) key = some (inorderExtend [key.1, key.2] key.1 key.2 q) := by
  unfold collect
  rw [List.foldl_append]
  simp

example : inorderExtend [((4 : ℚ), (0 : ℚ)), (0, 0)] (4, 0) (0, 0) [(1, 0), (3, 0), (1, 0), (0, 0), (2, 0)] =
    some [(4, 0), (3, 0), (2, 0), (1, 0), (0, 0)] := by decide +kernel
example : report ((0 : ℚ), (0 : ℚ)) (0, 5) [(0, 1), (0, 3)] = some [(0, 1), (0, 3)] := by decide +kernel

/-! ## C295 the sentinels -/

theorem grow_spec {v1 v2 : K × K} {n : ℕ} {inf r : K} (h0 : 0 < inf) (h : grow v1 v2 n inf = some r) :
    (∃ k, r = inf * 2 ^ k) ∧ |v1.1| < r ∧ |v1.2| < r ∧ |v2.1| < r ∧ |v2.2| < r := by
  induction n generalizing inf with
  | zero => simp [grow] at h
  | succ n ih =>
    rw [grow] at h
    split_ifs at h with hc
    · obtain ⟨⟨k, hk⟩, rest⟩ := ih (by linarith) h
      exact ⟨⟨k + 1, by rw [hk]; ring⟩, rest⟩
    · simp only [Option.some.injEq] at h; subst h
      unfold outside at hc; push Not at hc
      exact ⟨⟨0, by simp⟩, hc.1, hc.2.1, hc.2.2.1, hc.2.2.2⟩

theorem growAll_spec {n : ℕ} {segs : List ((K × K) × (K × K))} {inf r : K} (h0 : 0 < inf) (h : growAll n segs inf = some r) :
    (∃ k, r = inf * 2 ^ k) ∧ ∀ s ∈ segs, |s.1.1| < r ∧ |s.1.2| < r ∧ |s.2.1| < r ∧ |s.2.2| < r := by
  induction segs generalizing inf with
  | nil => simp [growAll] at h; subst h; exact ⟨⟨0, by simp⟩, by simp⟩
  | cons s l ih =>
    rw [growAll] at h
    cases hg : grow s.1 s.2 n inf with
    | none => rw [hg] at h; simp at h
    | some i =>
      rw [hg, Option.bind_some] at h
      obtain ⟨⟨k, hk⟩, b⟩ := grow_spec h0 hg
      have hi : 0 < i := lt_of_le_of_lt (abs_nonneg _) b.1
      obtain ⟨⟨k', hk'⟩, rest⟩ := ih hi h
      have hle : i ≤ r := by
        rw [hk']; exact le_mul_of_one_le_right (le_of_lt hi) (one_le_pow₀ (by norm_num))
      refine ⟨⟨k + k', by rw [hk', hk, pow_add]; ring⟩, ?_⟩
      intro t ht
      rcases List.mem_cons.mp ht with e | e
      · subst e
        exact ⟨lt_of_lt_of_le b.1 hle, lt_of_lt_of_le b.2.1 hle, lt_of_lt_of_le b.2.2.1 hle, lt_of_lt_of_le b.2.2.2 hle⟩
      · exact rest t e

/-- The bound is a power of two and every coordinate is strictly inside: all segments are strictly between the two sentinels and
left of the stopper. -/
theorem C295_between {n : ℕ} {segs : List ((K × K) × (K × K))} {r : K} (h : growAll n segs 1 = some r) :
    (∃ k, r = 2 ^ k) ∧ ∀ s ∈ segs, ∀ p ∈ [s.1, s.2], ∀ i j,
      orientation (⟨⟨-r, -r, i⟩, ⟨r, -r, i + 1⟩, j⟩ : Seg K) ⟨p.1, p.2, i + 4⟩ = 1 ∧
      orientation (⟨⟨-r, r, i + 2⟩, ⟨r, r, i + 3⟩, j + 1⟩ : Seg K) ⟨p.1, p.2, i + 4⟩ = -1 ∧ -r < p.1 ∧ p.1 < r := by
  obtain ⟨⟨k, hk⟩, hb⟩ := growAll_spec zero_lt_one h
  refine ⟨⟨k, by rw [hk, one_mul]⟩, ?_⟩
  intro s hs p hp i j
  have hr : 0 < r := lt_of_le_of_lt (abs_nonneg _) (hb s hs).1
  have hpp : |p.1| < r ∧ |p.2| < r := by
    rcases List.mem_pair.mp hp with e | e <;> subst e
    · exact ⟨(hb s hs).1, (hb s hs).2.1⟩
    · exact ⟨(hb s hs).2.2.1, (hb s hs).2.2.2⟩
  rw [abs_lt, abs_lt] at hpp
  refine ⟨?_, ?_, hpp.1.1, hpp.1.2⟩
  · rw [orientation_eq, if_pos]
    unfold side; dsimp only; nlinarith [hpp.2.1, hpp.2.2]
  · have : side (⟨⟨-r, r, i + 2⟩, ⟨r, r, i + 3⟩, j + 1⟩ : Seg K) ⟨p.1, p.2, i + 4⟩ < 0 := by
      unfold side; dsimp only; nlinarith [hpp.2.1, hpp.2.2]
    rw [orientation_eq, if_neg (not_lt.mpr (le_of_lt this)), if_pos this]

/-- The loops end. -/
theorem C295_ends [Archimedean K] (segs : List ((K × K) × (K × K))) : ∃ n r, growAll n segs (1 : K) = some r := by
  have mono : ∀ (v1 v2 : K × K) (n m : ℕ) (inf r : K), n ≤ m → grow v1 v2 n inf = some r → grow v1 v2 m inf = some r := by
    intro v1 v2 n
    induction n with
    | zero => intro m inf r _ h; simp [grow] at h
    | succ n ih =>
      intro m inf r hm h
      obtain ⟨m', rfl⟩ : ∃ m', m = m' + 1 := ⟨m - 1, by omega⟩
      rw [grow] at h ⊢
      split_ifs at h ⊢ with hc
      · exact ih m' _ r (by omega) h
      · exact h
  have monoA : ∀ (l : List ((K × K) × (K × K))) (n m : ℕ) (inf r : K), n ≤ m → growAll n l inf = some r →
      growAll m l inf = some r := by
    intro l
    induction l with
    | nil => intro n m inf r _ h; simpa [growAll] using h
    | cons s l ih =>
      intro n m inf r hm h
      rw [growAll] at h ⊢
      cases hg : grow s.1 s.2 n inf with
      | none => rw [hg] at h; simp at h
      | some i =>
        rw [hg, Option.bind_some] at h
        rw [mono _ _ _ _ _ _ hm hg, Option.bind_some]
        exact ih n m i r hm h
  have one : ∀ (v1 v2 : K × K) (inf : K), 1 ≤ inf → ∃ n r, grow v1 v2 n inf = some r ∧ 1 ≤ r := by
    intro v1 v2
    obtain ⟨k, hk⟩ := pow_unbounded_of_one_lt (|v1.1| + |v1.2| + |v2.1| + |v2.2|) (one_lt_two (α := K))
    have : ∀ (d : ℕ) (inf : K), 1 ≤ inf → |v1.1| + |v1.2| + |v2.1| + |v2.2| < inf * 2 ^ d →
        ∃ n r, grow v1 v2 n inf = some r ∧ 1 ≤ r := by
      intro d
      induction d with
      | zero =>
        intro inf h1 h2
        refine ⟨1, inf, ?_, h1⟩
        rw [grow, if_neg]
        unfold outside
        have := abs_nonneg v1.1; have := abs_nonneg v1.2; have := abs_nonneg v2.1; have := abs_nonneg v2.2
        simp only [pow_zero, mul_one] at h2
        rintro (h | h | h | h) <;> linarith
      | succ d ih =>
        intro inf h1 h2
        by_cases hc : outside inf v1 v2
        · obtain ⟨n, r, q1, q2⟩ := ih (inf * 2) (by linarith) (by rw [pow_succ] at h2; linarith)
          exact ⟨n + 1, r, by rw [grow, if_pos hc, q1], q2⟩
        · exact ⟨1, inf, by rw [grow, if_neg hc], h1⟩
    intro inf h1
    exact this k inf h1 (lt_of_lt_of_le hk (le_mul_of_one_le_left (by positivity) h1))
  have all : ∀ (l : List ((K × K) × (K × K))) (inf : K), 1 ≤ inf → ∃ n r, growAll n l inf = some r := by
    intro l
    induction l with
    | nil => intro inf _; exact ⟨0, inf, rfl⟩
    | cons s l ih =>
      intro inf h1
      obtain ⟨n, i, q1, q2⟩ := one s.1 s.2 inf h1
      obtain ⟨m, r, q3⟩ := ih i q2
      refine ⟨max n m, r, ?_⟩
      rw [growAll, mono _ _ _ _ _ _ (le_max_left n m) q1, Option.bind_some]
      exact monoA _ _ _ _ _ (le_max_right n m) q3
  exact all segs 1 (le_refl _)

example : growAll 10 [(((1 : ℚ), (1 : ℚ)), ((5 : ℚ), (6 : ℚ))), ((1, 4), (-9, 0))] 1 = some 16 := by decide +kernel

/-! ## C296 the edges of a polygon -/

/-- The edges run through the vertices in a ring: edge `i` ends where the next edge begins, the last one where the first begins. -/
theorem C296_ring {P : Type} (polygon : List P) (i : ℕ) (hi : i < polygon.length) :
    (polygonSegments polygon).length = polygon.length ∧
    ∃ a b c, (polygonSegments polygon)[i]? = some (some a, some b) ∧ polygon[i]? = some a ∧
      (polygonSegments polygon)[(i + 1) % polygon.length]? = some (some b, some c) := by
  have hpos : 0 < polygon.length := by omega
  have h1 : (i + 1) % polygon.length < polygon.length := Nat.mod_lt _ hpos
  have h2 : ((i + 1) % polygon.length + 1) % polygon.length < polygon.length := Nat.mod_lt _ hpos
  refine ⟨by simp [polygonSegments], polygon[i], polygon[(i + 1) % polygon.length],
    polygon[((i + 1) % polygon.length + 1) % polygon.length], ?_, by simp, ?_⟩
  · unfold polygonSegments
    rw [List.getElem?_map, List.getElem?_range hi]
    simp [h1]
  · unfold polygonSegments
    rw [List.getElem?_map, List.getElem?_range h1]
    simp only [Option.map_some, List.getElem?_eq_getElem h1, List.getElem?_eq_getElem h2]

example : polygonSegments ["a", "b", "c"] = [(some "a", some "b"), (some "b", some "c"), (some "c", some "a")] := by decide +kernel

end Verif.Swl
