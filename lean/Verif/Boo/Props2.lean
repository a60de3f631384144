import Verif.Boo.Ray
import Mathlib.Tactic.Ring
import Mathlib.Tactic.Linarith
import Mathlib.Tactic.FieldSimp
import Mathlib.Tactic.LinearCombination
import Mathlib.Tactic.Positivity

/-! # Inside or outside (C218) -/

set_option linter.unusedSectionVars false

namespace Verif.Boo

/-- The circle in the plane `z = c.z`. -/
def circle (c : Pt) (r : ℝ) : Set Pt := {p | p.z = c.z ∧ (p.x - c.x) ^ 2 + (p.y - c.y) ^ 2 = r ^ 2}

/-- The open disc it bounds. -/
def disc (c : Pt) (r : ℝ) : Set Pt := {p | p.z = c.z ∧ (p.x - c.x) ^ 2 + (p.y - c.y) ^ 2 < r ^ 2}

/-- A box around the circle. -/
def BoxAround (c : Pt) (r : ℝ) (mn mx : Pt) : Prop :=
  mn.x ≤ c.x - r ∧ c.x + r ≤ mx.x ∧ mn.y ≤ c.y - r ∧ c.y + r ≤ mx.y

theorem length_ge (mn mx : Pt) : 2 * (mx.x - mn.x) ≤ rayLength mn mx := by
  have : mx.x - mn.x ≤ Real.sqrt ((mx.x - mn.x) ^ 2 + (mx.y - mn.y) ^ 2 + (mx.z - mn.z) ^ 2) :=
    Real.le_sqrt_of_sq_le (by nlinarith [sq_nonneg (mx.y - mn.y), sq_nonneg (mx.z - mn.z)])
  unfold rayLength
  linarith

theorem length_box (c : Pt) (r : ℝ) (mn mx : Pt) (h : BoxAround c r mn mx) : 4 * r ≤ rayLength mn mx := by
  have := length_ge mn mx
  linarith [h.1, h.2.1]

/-- What the ray meets, in terms of the distance `w` along the axis: `w ^ 2 = r ^ 2 - d ^ 2`. -/
theorem meets_circle (c : Pt) (r len : ℝ) (mid : Pt) (hz : mid.z = c.z) (t : ℝ) :
    t ∈ meets (circle c r) mid len ↔ 0 ≤ t ∧ t ≤ 1 ∧ (mid.x + t * len - c.x) ^ 2 = r ^ 2 - (mid.y - c.y) ^ 2 := by
  unfold meets circle rayAt
  simp only [Set.mem_setOf_eq]
  constructor
  · rintro ⟨h0, h1, -, h3⟩
    exact ⟨h0, h1, by linarith⟩
  · rintro ⟨h0, h1, h3⟩
    exact ⟨h0, h1, hz, by linarith⟩

/-- The two solutions. -/
theorem meets_roots (c : Pt) (r len : ℝ) (hl : 0 < len) (mid : Pt) (hz : mid.z = c.z) (w : ℝ)
    (hw : w ^ 2 = r ^ 2 - (mid.y - c.y) ^ 2) (t : ℝ) :
    t ∈ meets (circle c r) mid len ↔ 0 ≤ t ∧ t ≤ 1 ∧ (t = (c.x - mid.x + w) / len ∨ t = (c.x - mid.x - w) / len) := by
  rw [meets_circle c r len mid hz, ← hw]
  have : (mid.x + t * len - c.x) ^ 2 = w ^ 2 ↔ (t = (c.x - mid.x + w) / len ∨ t = (c.x - mid.x - w) / len) := by
    rw [sq_eq_sq_iff_eq_or_eq_neg, eq_div_iff hl.ne', eq_div_iff hl.ne']
    constructor
    · rintro (h | h)
      · left; linarith
      · right; linarith
    · rintro (h | h)
      · left; linarith
      · right; linarith
  rw [this]

/-- **C218.** A middle inside the circle is said to be inside. -/
theorem C218_inside (c : Pt) (r : ℝ) (hr : 0 < r) (mn mx mid : Pt) (hb : BoxAround c r mn mx) (h : mid ∈ disc c r) :
    saysInside (circle c r) mn mx mid := by
  obtain ⟨hz, hd⟩ := h
  have hl := length_box c r mn mx hb
  unfold saysInside
  generalize rayLength mn mx = L at *
  have hL : 0 < L := by linarith
  have hpos : 0 < r ^ 2 - (mid.y - c.y) ^ 2 := by nlinarith [sq_nonneg (mid.x - c.x)]
  set w := Real.sqrt (r ^ 2 - (mid.y - c.y) ^ 2) with hw
  have hw2 : w ^ 2 = r ^ 2 - (mid.y - c.y) ^ 2 := Real.sq_sqrt hpos.le
  have hw0 : 0 < w := Real.sqrt_pos.mpr hpos
  have hwr : w ≤ r := by nlinarith [sq_nonneg (mid.y - c.y)]
  have habs : |mid.x - c.x| < w := by
    rw [← abs_of_pos hw0]
    exact sq_lt_sq.mp (by rw [hw2]; linarith)
  obtain ⟨a1, a2⟩ := abs_lt.mp habs
  have e : meets (circle c r) mid L = {(c.x - mid.x + w) / L} := by
    ext t
    rw [meets_roots c r L hL mid hz w hw2, Set.mem_singleton_iff]
    constructor
    · rintro ⟨h0, h1, h2 | h2⟩
      · exact h2
      · exfalso
        have : (c.x - mid.x - w) / L < 0 := div_neg_of_neg_of_pos (by linarith) hL
        linarith
    · intro h2
      refine ⟨?_, ?_, Or.inl h2⟩
      · rw [h2]; exact div_nonneg (by linarith) hL.le
      · rw [h2, div_le_one hL]; linarith
  rw [e, Set.ncard_singleton]

/-- **C218, the part that holds outside.** A middle outside the circle is said to be outside if the ray ends outside the
circle and does not touch it. -/
theorem C218_outside_partial (c : Pt) (r : ℝ) (hr : 0 < r) (mn mx mid : Pt) (hb : BoxAround c r mn mx) (hz : mid.z = c.z)
    (hout : r ^ 2 < (mid.x - c.x) ^ 2 + (mid.y - c.y) ^ 2)
    (hend : r ^ 2 < (mid.x + rayLength mn mx - c.x) ^ 2 + (mid.y - c.y) ^ 2) (hside : (mid.y - c.y) ^ 2 ≠ r ^ 2) :
    ¬ saysInside (circle c r) mn mx mid := by
  have hl := length_box c r mn mx hb
  unfold saysInside
  generalize rayLength mn mx = L at *
  have hL : 0 < L := by linarith
  by_cases hd : (mid.y - c.y) ^ 2 < r ^ 2
  · have hpos : 0 < r ^ 2 - (mid.y - c.y) ^ 2 := by linarith
    set w := Real.sqrt (r ^ 2 - (mid.y - c.y) ^ 2) with hw
    have hw2 : w ^ 2 = r ^ 2 - (mid.y - c.y) ^ 2 := Real.sq_sqrt hpos.le
    have hw0 : 0 < w := Real.sqrt_pos.mpr hpos
    have b1 : w < |mid.x - c.x| := by
      rw [← abs_of_pos hw0]
      exact sq_lt_sq.mp (by rw [hw2]; linarith)
    have b2 : w < |mid.x + L - c.x| := by
      rw [← abs_of_pos hw0]
      exact sq_lt_sq.mp (by rw [hw2]; linarith)
    have roots := meets_roots c r L hL mid hz w hw2
    by_cases hin : mid.x - c.x < 0 ∧ 0 < mid.x + L - c.x
    · rw [abs_of_neg hin.1] at b1
      rw [abs_of_pos hin.2] at b2
      have e : meets (circle c r) mid L = {(c.x - mid.x + w) / L, (c.x - mid.x - w) / L} := by
        ext t
        rw [roots, Set.mem_insert_iff, Set.mem_singleton_iff]
        refine ⟨fun h => h.2.2, fun h => ?_⟩
        rcases h with h | h
        · exact ⟨by rw [h]; exact div_nonneg (by linarith) hL.le, by rw [h, div_le_one hL]; linarith, Or.inl h⟩
        · exact ⟨by rw [h]; exact div_nonneg (by linarith) hL.le, by rw [h, div_le_one hL]; linarith, Or.inr h⟩
      rw [e, Set.ncard_pair]
      · omega
      · intro h
        rw [div_left_inj' hL.ne'] at h
        linarith
    · have e : meets (circle c r) mid L = ∅ := by
        ext t
        rw [roots]
        simp only [Set.mem_empty_iff_false, iff_false]
        rintro ⟨h0, h1, h2⟩
        have h3 : t * L = c.x - mid.x + w ∨ t * L = c.x - mid.x - w := by
          rcases h2 with h2 | h2
          · left; rw [h2]; field_simp
          · right; rw [h2]; field_simp
        have t0 : 0 ≤ t * L := mul_nonneg h0 hL.le
        have t1 : t * L ≤ L := by nlinarith
        rcases not_and_or.mp hin with g | g
        · push Not at g
          rw [abs_of_nonneg g] at b1
          rcases h3 with h3 | h3 <;> linarith
        · push Not at g
          rw [abs_of_nonpos g] at b2
          rcases h3 with h3 | h3 <;> linarith
      rw [e, Set.ncard_empty]
      omega
  · have hgt : r ^ 2 < (mid.y - c.y) ^ 2 := lt_of_le_of_ne (not_lt.mp hd) (Ne.symm hside)
    have e : meets (circle c r) mid L = ∅ := by
      ext t
      rw [meets_circle c r L mid hz]
      simp only [Set.mem_empty_iff_false, iff_false]
      rintro ⟨-, -, h2⟩
      nlinarith [sq_nonneg (mid.x + t * L - c.x)]
    rw [e, Set.ncard_empty]
    omega

/-- **C218, refuted.** The ray has a fixed length: for every circle, every box around it and every point `q` of the disc, the
middle whose ray ends at `q` lies outside the box and is said to be inside. -/
theorem C218_far_refuted (c : Pt) (r : ℝ) (hr : 0 < r) (mn mx q : Pt) (hb : BoxAround c r mn mx) (hq : q ∈ disc c r) :
    (q.x - rayLength mn mx < mn.x) ∧ saysInside (circle c r) mn mx ⟨q.x - rayLength mn mx, q.y, q.z⟩ := by
  obtain ⟨hz, hd⟩ := hq
  have hl := length_box c r mn mx hb
  have hl2 := length_ge mn mx
  have hx : |q.x - c.x| < r := by
    rw [← abs_of_pos hr]
    exact sq_lt_sq.mp (by nlinarith [sq_nonneg (q.y - c.y)])
  obtain ⟨x1, x2⟩ := abs_lt.mp hx
  refine ⟨by linarith [hb.1, hb.2.1], ?_⟩
  unfold saysInside
  generalize rayLength mn mx = L at *
  have hL : 0 < L := by linarith
  have hpos : 0 < r ^ 2 - (q.y - c.y) ^ 2 := by nlinarith [sq_nonneg (q.x - c.x)]
  set w := Real.sqrt (r ^ 2 - (q.y - c.y) ^ 2) with hw
  have hw2 : w ^ 2 = r ^ 2 - (q.y - c.y) ^ 2 := Real.sq_sqrt hpos.le
  have hw0 : 0 < w := Real.sqrt_pos.mpr hpos
  have hwr : w ≤ r := by nlinarith [sq_nonneg (q.y - c.y)]
  have habs : |q.x - c.x| < w := by
    rw [← abs_of_pos hw0]
    exact sq_lt_sq.mp (by rw [hw2]; linarith)
  obtain ⟨a1, a2⟩ := abs_lt.mp habs
  have e : meets (circle c r) ⟨q.x - L, q.y, q.z⟩ L = {(c.x - (q.x - L) - w) / L} := by
    ext t
    rw [meets_roots c r L hL ⟨q.x - L, q.y, q.z⟩ hz w hw2, Set.mem_singleton_iff]
    constructor
    · rintro ⟨h0, h1, h2 | h2⟩
      · exfalso
        have h2' : t = (c.x - (q.x - L) + w) / L := h2
        have : 1 < (c.x - (q.x - L) + w) / L := by rw [lt_div_iff₀ hL]; linarith
        linarith
      · exact h2
    · intro h2
      refine ⟨?_, ?_, Or.inr h2⟩
      · rw [h2]; exact div_nonneg (by linarith) hL.le
      · rw [h2, div_le_one hL]; linarith
  rw [e, Set.ncard_singleton]

/-- **C218, refuted.** A ray which touches the circle is counted as one crossing: the middle is said to be inside. -/
theorem C218_touch_refuted (c : Pt) (r : ℝ) (hr : 0 < r) (mn mx mid : Pt) (hb : BoxAround c r mn mx) (hz : mid.z = c.z)
    (hy : mid.y = c.y + r) (hx : mid.x < c.x) (hx' : c.x - mid.x ≤ 4 * r) : saysInside (circle c r) mn mx mid := by
  have hl := length_box c r mn mx hb
  unfold saysInside
  generalize rayLength mn mx = L at *
  have hL : 0 < L := by linarith
  have e : meets (circle c r) mid L = {(c.x - mid.x) / L} := by
    ext t
    rw [meets_roots c r L hL mid hz 0 (by rw [hy]; ring), Set.mem_singleton_iff, add_zero, sub_zero, or_self]
    refine ⟨fun h => h.2.2, fun h => ⟨?_, ?_, h⟩⟩
    · rw [h]; exact div_nonneg (by linarith) hL.le
    · rw [h, div_le_one hL]; linarith
  rw [e, Set.ncard_singleton]

/-- **C218, refuted.** The ray always runs along the x axis: in a plane `x = a` every middle off the curve is said to be
outside, also of a curve around it. -/
theorem C218_plane_refuted (curve : Set Pt) (a : ℝ) (hc : ∀ p ∈ curve, p.x = a) (mn mx mid : Pt) (hm : mid.x = a)
    (hoff : mid ∉ curve) (hbox : mn.y < mx.y) : ¬ saysInside curve mn mx mid := by
  have hL : 0 < rayLength mn mx := by
    unfold rayLength
    have : 0 < Real.sqrt ((mx.x - mn.x) ^ 2 + (mx.y - mn.y) ^ 2 + (mx.z - mn.z) ^ 2) := Real.sqrt_pos.mpr (by
      have : 0 < (mx.y - mn.y) ^ 2 := pow_pos (by linarith) 2
      nlinarith [sq_nonneg (mx.x - mn.x), sq_nonneg (mx.z - mn.z)])
    linarith
  unfold saysInside
  have e : meets curve mid (rayLength mn mx) = ∅ := by
    ext t
    simp only [Set.mem_empty_iff_false, iff_false]
    rintro ⟨-, -, h⟩
    have h1 := hc _ h
    unfold rayAt at h h1
    dsimp only at h1
    have ht : t * rayLength mn mx = 0 := by linarith
    rcases mul_eq_zero.mp ht with g | g
    · rw [g, zero_mul, add_zero] at h
      exact hoff h
    · exact absurd g hL.ne'
  rw [e, Set.ncard_empty]
  omega

/-! ### Examples -/

example : saysInside (circle ⟨0, 0, 0⟩ 1) ⟨-1, -1, 0⟩ ⟨1, 1, 0⟩ ⟨1/2, 1/3, 0⟩ :=
  C218_inside _ 1 one_pos _ _ _ ⟨by norm_num, by norm_num, by norm_num, by norm_num⟩ ⟨rfl, by norm_num⟩

example : saysInside (circle ⟨0, 0, 0⟩ 1) ⟨-1, -1, 0⟩ ⟨1, 1, 0⟩ ⟨0 - rayLength ⟨-1, -1, 0⟩ ⟨1, 1, 0⟩, 0, 0⟩ :=
  (C218_far_refuted ⟨0, 0, 0⟩ 1 one_pos ⟨-1, -1, 0⟩ ⟨1, 1, 0⟩ ⟨0, 0, 0⟩ ⟨by norm_num, by norm_num, by norm_num, by norm_num⟩
    ⟨rfl, by norm_num⟩).2

example : saysInside (circle ⟨0, 0, 0⟩ 1) ⟨-1, -1, 0⟩ ⟨1, 1, 0⟩ ⟨-2, 1, 0⟩ :=
  C218_touch_refuted ⟨0, 0, 0⟩ 1 one_pos _ _ _ ⟨by norm_num, by norm_num, by norm_num, by norm_num⟩ rfl (by norm_num)
    (by norm_num) (by norm_num)

-- Far to the right the hypotheses of the positive part hold.
example : ¬ saysInside (circle ⟨0, 0, 0⟩ 1) ⟨-1, -1, 0⟩ ⟨1, 1, 0⟩ ⟨5, 1/2, 0⟩ := by
  have hl := length_ge ⟨-1, -1, 0⟩ ⟨1, 1, 0⟩
  refine C218_outside_partial _ 1 one_pos _ _ _ ⟨by norm_num, by norm_num, by norm_num, by norm_num⟩ rfl (by norm_num) ?_ (by norm_num)
  dsimp only at hl ⊢
  nlinarith

example : ¬ saysInside {p | p.x = 3 ∧ p.y ^ 2 + p.z ^ 2 = 1} ⟨3, -1, -1⟩ ⟨3, 1, 1⟩ ⟨3, 0, 0⟩ :=
  C218_plane_refuted _ 3 (fun p h => h.1) _ _ _ rfl (by rintro ⟨-, h⟩; norm_num at h) (by norm_num)

end Verif.Boo
