import Verif.Circ.Model
import Mathlib.Tactic.LinearCombination
import Mathlib.Tactic.Linarith
import Mathlib.Tactic.FieldSimp

/-! Theorems about circles in the plane. -/

namespace Verif.Circ

/-- Distance of two points. -/
noncomputable def dist (p q : V2) : ℝ := Real.sqrt ((p.x - q.x) ^ 2 + (p.y - q.y) ^ 2)

/-- The circle as a set: points at the distance `r` from the centre. -/
def Circle.On (c : Circle) (p : V2) : Prop := dist p ⟨c.ox, c.oy⟩ = c.r

theorem on_iff (c : Circle) (hr : 0 ≤ c.r) (p : V2) : c.On p ↔ (p.x - c.ox) ^ 2 + (p.y - c.oy) ^ 2 = c.r ^ 2 := by
  unfold Circle.On dist
  exact Real.sqrt_eq_iff_eq_sq (by positivity) hr

/-- A unit vector has an angle. -/
theorem exists_angle (a b : ℝ) (h : a ^ 2 + b ^ 2 = 1) : ∃ t, Real.cos t = a ∧ Real.sin t = b ∧ 0 ≤ t ∧ t < 2 * Real.pi := by
  have ha1 : -1 ≤ a := by nlinarith [sq_nonneg b]
  have ha2 : a ≤ 1 := by nlinarith [sq_nonneg b]
  have hs : Real.sqrt (1 - a ^ 2) = |b| := by rw [show 1 - a ^ 2 = b ^ 2 by linarith, Real.sqrt_sq_eq_abs]
  by_cases hb : 0 ≤ b
  · refine ⟨Real.arccos a, Real.cos_arccos ha1 ha2, ?_, Real.arccos_nonneg a, ?_⟩
    · rw [Real.sin_arccos, hs, abs_of_nonneg hb]
    · linarith [Real.arccos_le_pi a, Real.pi_pos]
  · refine ⟨2 * Real.pi - Real.arccos a, ?_, ?_, ?_, ?_⟩
    · rw [Real.cos_two_pi_sub, Real.cos_arccos ha1 ha2]
    · rw [Real.sin_two_pi_sub, Real.sin_arccos, hs, abs_of_neg (not_le.mp hb), neg_neg]
    · linarith [Real.arccos_le_pi a, Real.pi_pos]
    · have : 0 < Real.arccos a := by
        rw [Real.arccos_pos]
        rcases lt_or_eq_of_le ha2 with h1 | h1
        · exact h1
        · exfalso; rw [h1] at h; nlinarith [not_le.mp hb]
      linarith

/-- **C195.** `evaluate` runs through exactly the points of the circle, once per turn of the interval. -/
theorem C195_evaluate (c : Circle) (hr : 0 < c.r) :
    (∀ t, c.On (c.evaluate t)) ∧ (∀ p, c.On p → ∃ t, 0 ≤ t ∧ t < 2 * Real.pi ∧ c.evaluate t = p) ∧
    c.evaluate 0 = c.evaluate (2 * Real.pi) := by
  refine ⟨fun t => ?_, fun p hp => ?_, ?_⟩
  · rw [on_iff c hr.le]
    unfold Circle.evaluate
    linear_combination c.r ^ 2 * Real.sin_sq_add_cos_sq t
  · rw [on_iff c hr.le] at hp
    obtain ⟨t, h1, h2, h3, h4⟩ := exists_angle ((p.x - c.ox) / c.r) ((p.y - c.oy) / c.r) (by field_simp; linarith)
    refine ⟨t, h3, h4, ?_⟩
    unfold Circle.evaluate
    rw [h1, h2, mul_div_cancel₀ _ hr.ne', mul_div_cancel₀ _ hr.ne']
    cases p
    congr 1 <;> ring
  · unfold Circle.evaluate; rw [Real.cos_two_pi, Real.sin_two_pi, Real.cos_zero, Real.sin_zero]

theorem len_sq (v : V2) : len v ^ 2 = v.x ^ 2 + v.y ^ 2 := Real.sq_sqrt (by positivity)
theorem len_nonneg (v : V2) : 0 ≤ len v := Real.sqrt_nonneg _

/-- Cauchy inequality in the plane. -/
theorem dot_le (p q : V2) : p.x * q.x + p.y * q.y ≤ len p * len q := by
  refine (abs_le_of_sq_le_sq' ?_ (mul_nonneg (len_nonneg p) (len_nonneg q))).2
  rw [mul_pow, len_sq, len_sq]
  nlinarith [sq_nonneg (p.x * q.y - p.y * q.x)]

/-- The distance from a point to a point of the circle is at least `| |v - o| - r |`. -/
theorem dist_ge (c : Circle) (hr : 0 ≤ c.r) (v p : V2) (hp : c.On p) : |len (c.implicitNormal v) - c.r| ≤ dist v p := by
  rw [on_iff c hr] at hp
  unfold dist
  apply Real.abs_le_sqrt
  have h1 := dot_le (c.implicitNormal v) ⟨p.x - c.ox, p.y - c.oy⟩
  have h2 := len_sq (c.implicitNormal v)
  have h3 : len ⟨p.x - c.ox, p.y - c.oy⟩ = c.r := by
    unfold len; rw [hp]; exact Real.sqrt_sq hr
  rw [h3] at h1
  unfold Circle.implicitNormal at h1 h2 ⊢
  dsimp only at h1 h2 ⊢
  nlinarith

/-- **C195.** `implicit` is the signed distance: zero exactly on the circle, negative exactly inside, its absolute value
not larger than the distance to any point of the circle and attained. -/
theorem C195_implicit (c : Circle) (hr : 0 < c.r) (v : V2) :
    (c.implicit v = 0 ↔ c.On v) ∧ (c.implicit v < 0 ↔ dist v ⟨c.ox, c.oy⟩ < c.r) ∧
    (∀ p, c.On p → |c.implicit v| ≤ dist v p) ∧ ∃ p, c.On p ∧ dist v p = |c.implicit v| := by
  refine ⟨sub_eq_zero, sub_neg, fun p hp => dist_ge c hr.le v p hp, ?_⟩
  by_cases h0 : len (c.implicitNormal v) = 0
  · refine ⟨⟨c.ox + c.r, c.oy⟩, ?_, ?_⟩
    · rw [on_iff c hr.le]; ring
    · have h1 := len_sq (c.implicitNormal v)
      rw [h0] at h1
      unfold Circle.implicitNormal at h1
      dsimp only at h1
      have hx : v.x - c.ox = 0 := by nlinarith [sq_nonneg (v.x - c.ox), sq_nonneg (v.y - c.oy)]
      have hy : v.y - c.oy = 0 := by nlinarith [sq_nonneg (v.x - c.ox), sq_nonneg (v.y - c.oy)]
      unfold dist Circle.implicit
      rw [h0, zero_sub, abs_neg, ← Real.sqrt_sq_eq_abs]
      congr 1
      dsimp only
      rw [hy, show v.x - (c.ox + c.r) = (v.x - c.ox) - c.r by ring, hx]; ring
  · refine ⟨⟨c.ox + c.r * ((v.x - c.ox) / len (c.implicitNormal v)), c.oy + c.r * ((v.y - c.oy) / len (c.implicitNormal v))⟩, ?_, ?_⟩
    · rw [on_iff c hr.le]
      have h1 := len_sq (c.implicitNormal v)
      unfold Circle.implicitNormal at h0 h1 ⊢
      dsimp only at h1 ⊢
      generalize len _ = L at *
      field_simp
      linear_combination -c.r ^ 2 * h1
    · unfold dist Circle.implicit
      rw [← Real.sqrt_sq_eq_abs]
      congr 1
      have h1 := len_sq (c.implicitNormal v)
      unfold Circle.implicitNormal at h0 h1 ⊢
      dsimp only at h1 ⊢
      generalize len _ = L at *
      field_simp
      linear_combination (-(L - c.r) ^ 2) * h1

/-- **C196.** Away from the centre `point_on_curve` returns the point of the circle closest to `v`; at the centre NaN. -/
theorem C196_closest (c : Circle) (hr : 0 < c.r) (v : V2) :
    (c.pointOnCurve v = none ↔ v = ⟨c.ox, c.oy⟩) ∧
    ∀ p t, c.pointOnCurve v = some (p, t) → c.On p ∧ ∀ q, c.On q → dist v p ≤ dist v q := by
  have h1 := len_sq (c.implicitNormal v)
  constructor
  · unfold Circle.pointOnCurve
    dsimp only
    split_ifs with h
    · simp only [true_iff]
      rw [h] at h1
      unfold Circle.implicitNormal at h1
      dsimp only at h1
      have hx : v.x - c.ox = 0 := by nlinarith [sq_nonneg (v.x - c.ox), sq_nonneg (v.y - c.oy)]
      have hy : v.y - c.oy = 0 := by nlinarith [sq_nonneg (v.x - c.ox), sq_nonneg (v.y - c.oy)]
      cases v
      simp only [V2.mk.injEq]
      constructor <;> (dsimp only at hx hy; linarith)
    · simp only [reduceCtorEq, false_iff]
      rintro rfl
      apply h
      unfold len Circle.implicitNormal
      simp
  · intro p t h
    unfold Circle.pointOnCurve at h
    dsimp only at h
    split_ifs at h with h0
    simp only [Option.some.injEq, Prod.mk.injEq] at h
    obtain ⟨rfl, rfl⟩ := h
    constructor
    · rw [on_iff c hr.le]
      unfold Circle.implicitNormal at h0 h1 ⊢
      dsimp only at h1 ⊢
      generalize len _ = L at *
      field_simp
      have e1 : (L * (v.x - c.ox) - (v.x - c.ox) * (L - c.r)) = (v.x - c.ox) * c.r := by ring
      have e2 : (L * (v.y - c.oy) - (v.y - c.oy) * (L - c.r)) = (v.y - c.oy) * c.r := by ring
      linear_combination (-c.r ^ 2) * h1
    · intro q hq
      refine le_trans (le_of_eq ?_) (dist_ge c hr.le v q hq)
      unfold dist
      rw [← Real.sqrt_sq_eq_abs]
      congr 1
      unfold Circle.implicitNormal at h0 h1 ⊢
      dsimp only at h1 ⊢
      generalize len _ = L at *
      field_simp
      linear_combination (-(L - c.r) ^ 2) * h1

/-- **C196, refuted.** The parameter returned with it belongs to that point exactly for points not below the centre. -/
theorem C196_parameter_refuted (c : Circle) (hr : 0 < c.r) (v p : V2) (t : ℝ) (h : c.pointOnCurve v = some (p, t)) :
    c.evaluate t = p ↔ c.oy ≤ v.y := by
  have h1 := len_sq (c.implicitNormal v)
  have h2 := len_nonneg (c.implicitNormal v)
  unfold Circle.pointOnCurve at h
  dsimp only at h
  split_ifs at h with h0
  simp only [Option.some.injEq, Prod.mk.injEq] at h
  obtain ⟨rfl, rfl⟩ := h
  have hL : 0 < len (c.implicitNormal v) := lt_of_le_of_ne h2 (Ne.symm h0)
  unfold Circle.implicitNormal at h0 h1 hL ⊢
  dsimp only at h1 hL ⊢
  generalize len _ = L at *
  have hu : ((v.x - c.ox) / L) ^ 2 + ((v.y - c.oy) / L) ^ 2 = 1 := by field_simp; linarith
  have ha1 : -1 ≤ (v.x - c.ox) / L := by nlinarith [sq_nonneg ((v.y - c.oy) / L)]
  have ha2 : (v.x - c.ox) / L ≤ 1 := by nlinarith [sq_nonneg ((v.y - c.oy) / L)]
  unfold Circle.evaluate
  rw [Real.cos_arccos ha1 ha2, Real.sin_arccos, show 1 - ((v.x - c.ox) / L) ^ 2 = ((v.y - c.oy) / L) ^ 2 by linarith,
    Real.sqrt_sq_eq_abs]
  simp only [V2.mk.injEq]
  have ex : c.ox + c.r * ((v.x - c.ox) / L) = v.x - (v.x - c.ox) / L * (L - c.r) := by field_simp; ring
  have ey : v.y - (v.y - c.oy) / L * (L - c.r) = c.oy + c.r * ((v.y - c.oy) / L) := by field_simp; ring
  rw [ey]
  constructor
  · rintro ⟨_, h⟩
    have : |(v.y - c.oy) / L| = (v.y - c.oy) / L := mul_left_cancel₀ hr.ne' (by linarith)
    have h3 := abs_eq_self.mp this
    have := (div_nonneg_iff_of_pos hL).mp h3
    linarith
  · intro h
    exact ⟨ex, by rw [abs_of_nonneg (div_nonneg (by linarith) hL.le)]⟩
where
  div_nonneg_iff_of_pos {a b : ℝ} (hb : 0 < b) : 0 ≤ a / b ↔ 0 ≤ a :=
    ⟨fun h => by have := mul_nonneg h hb.le; rwa [div_mul_cancel₀ _ hb.ne'] at this, fun h => div_nonneg h hb.le⟩

/-- **C196, refuted.** The parameter returned by `closest_point_on_circle_2d` is that of the closest point for one direction
only, the diagonal to the right and below. -/
theorem C196_closest_parameter_refuted (c : Circle) (hr : 0 < c.r) (v : V2) (t : ℝ)
    (h : closestPointOnCircle2d c v = some t) :
    (∀ q, c.On q → dist v (c.evaluate t) ≤ dist v q) ↔ (v.x - c.ox = -(v.y - c.oy) ∧ c.ox < v.x) := by
  have h1 := len_sq (c.implicitNormal v)
  have h2 := len_nonneg (c.implicitNormal v)
  have hcl := C196_closest c hr v
  unfold closestPointOnCircle2d Circle.unitNormal at h
  dsimp only at h
  split_ifs at h with h0
  · simp at h
  simp only [Option.map_some, Option.some.injEq] at h
  subst h
  have hL : 0 < len (c.implicitNormal v) := lt_of_le_of_ne h2 (Ne.symm h0)
  have hge := fun q => dist_ge c hr.le v q
  have hatt := (C195_implicit c hr v).2.2.2
  unfold Circle.implicit at hatt
  -- closest means the distance is `|L - r|`
  have key : (∀ q, c.On q → dist v (c.evaluate (Real.arccos ((c.implicitNormal v).x / len (c.implicitNormal v)) - Real.pi / 2))
      ≤ dist v q) ↔ dist v (c.evaluate (Real.arccos ((c.implicitNormal v).x / len (c.implicitNormal v)) - Real.pi / 2)) ^ 2 =
      (len (c.implicitNormal v) - c.r) ^ 2 := by
    constructor
    · intro h
      obtain ⟨q, hq1, hq2⟩ := hatt
      have a1 := h q hq1
      have a2 := hge _ ((C195_evaluate c hr).1 (Real.arccos ((c.implicitNormal v).x / len (c.implicitNormal v)) - Real.pi / 2))
      rw [hq2] at a1
      rw [le_antisymm a1 a2, sq_abs]
    · intro h q hq
      refine le_trans (le_of_eq ?_) (hge q hq)
      rw [← Real.sqrt_sq_eq_abs, ← h]
      exact (Real.sqrt_sq (Real.sqrt_nonneg _)).symm
  rw [key]
  unfold dist
  rw [Real.sq_sqrt (by positivity)]
  unfold Circle.evaluate
  rw [Real.cos_sub_pi_div_two, Real.sin_sub_pi_div_two]
  unfold Circle.implicitNormal at h0 h1 hL ⊢
  dsimp only at h1 hL ⊢
  generalize len _ = L at *
  have hu : ((v.x - c.ox) / L) ^ 2 + ((v.y - c.oy) / L) ^ 2 = 1 := by field_simp; linarith
  have ha1 : -1 ≤ (v.x - c.ox) / L := by nlinarith [sq_nonneg ((v.y - c.oy) / L)]
  have ha2 : (v.x - c.ox) / L ≤ 1 := by nlinarith [sq_nonneg ((v.y - c.oy) / L)]
  rw [Real.cos_arccos ha1 ha2, Real.sin_arccos, show 1 - ((v.x - c.ox) / L) ^ 2 = ((v.y - c.oy) / L) ^ 2 by linarith,
    Real.sqrt_sq_eq_abs]
  obtain ⟨u, hu'⟩ : ∃ u, u = (v.x - c.ox) / L := ⟨_, rfl⟩
  obtain ⟨w, hw'⟩ : ∃ w, w = (v.y - c.oy) / L := ⟨_, rfl⟩
  rw [← hu', ← hw'] at hu ⊢
  have hx : v.x - c.ox = u * L := by rw [hu']; field_simp
  have hy : v.y - c.oy = w * L := by rw [hw']; field_simp
  have hxx : c.ox < v.x ↔ 0 < u := by
    constructor
    · intro h; rw [hu']; exact div_pos (by linarith) hL
    · intro h; nlinarith
  rw [hxx, hx, hy, show v.x - (c.ox + c.r * |w|) = u * L - c.r * |w| by linarith,
    show v.y - (c.oy + c.r * -u) = w * L + c.r * u by linarith]
  have hw2 : |w| ^ 2 = w ^ 2 := sq_abs w
  -- the condition is u |w| - u w = 1
  have red : (u * L - c.r * |w|) ^ 2 + (w * L + c.r * u) ^ 2 = (L - c.r) ^ 2 ↔ u * |w| - u * w = 1 := by
    constructor
    · intro h
      have : L * c.r * (u * |w| - u * w - 1) = 0 := by
        linear_combination (-1 / 2) * h + (L ^ 2 / 2) * hu + (c.r ^ 2 / 2) * hu + (c.r ^ 2 / 2) * hw2
      have h3 := (mul_eq_zero.mp this).resolve_left (mul_ne_zero hL.ne' hr.ne')
      linarith
    · intro h
      linear_combination L ^ 2 * hu + c.r ^ 2 * hu + c.r ^ 2 * hw2 - 2 * L * c.r * h
  rw [red]
  constructor
  · intro h
    by_cases hw0 : 0 ≤ w
    · rw [abs_of_nonneg hw0] at h; linarith
    · have hwn := not_le.mp hw0
      rw [abs_of_neg hwn] at h
      have hs : (u + w) ^ 2 = 0 := by nlinarith
      have hs' : u + w = 0 := by simpa using hs
      exact ⟨by linear_combination L * hs', by linarith⟩
  · rintro ⟨h, hu0⟩
    have : u = -w := mul_right_cancel₀ hL.ne' (by linarith)
    have hwn : w < 0 := by linarith
    rw [abs_of_neg hwn]
    nlinarith

/-- **C197.** For circles with different centres: an error is raised exactly when they have no common point; otherwise the
common points are exactly the two points returned. -/
theorem C197_intersection_partial (c1 c2 : Circle) (h1 : 0 ≤ c1.r) (h2 : 0 ≤ c2.r) (hne : ¬ (c1.ox = c2.ox ∧ c1.oy = c2.oy)) :
    (circleIntersection2d c1 c2 = .raises ∧ ∀ p, ¬ (c1.On p ∧ c2.On p)) ∨
    ∃ p1 z1 p2 z2, circleIntersection2d c1 c2 = .points p1 z1 p2 z2 ∧ ∀ p, (c1.On p ∧ c2.On p) ↔ (p = p1 ∨ p = p2) := by
  set X := c2.ox - c1.ox with hX
  set Y := c2.oy - c1.oy with hY
  have hd2 : Real.sqrt (X ^ 2 + Y ^ 2) ^ 2 = X ^ 2 + Y ^ 2 := Real.sq_sqrt (by positivity)
  have hdn : 0 ≤ Real.sqrt (X ^ 2 + Y ^ 2) := Real.sqrt_nonneg _
  have hd0 : Real.sqrt (X ^ 2 + Y ^ 2) ≠ 0 := by
    intro h
    rw [h] at hd2
    have hx : X = 0 := by nlinarith [sq_nonneg X, sq_nonneg Y]
    have hy : Y = 0 := by nlinarith [sq_nonneg X, sq_nonneg Y]
    exact hne ⟨by linarith, by linarith⟩
  unfold circleIntersection2d
  dsimp only
  rw [← hX, ← hY]
  generalize Real.sqrt (X ^ 2 + Y ^ 2) = d at *
  have hdp : 0 < d := lt_of_le_of_ne hdn (Ne.symm hd0)
  -- coordinates of a point along the line of centres
  have coord : ∀ p : V2, c1.On p ∧ c2.On p ↔
      ((p.x - c1.ox) * X + (p.y - c1.oy) * Y) * 2 = c1.r ^ 2 - c2.r ^ 2 + d ^ 2 ∧
      (p.x - c1.ox) ^ 2 + (p.y - c1.oy) ^ 2 = c1.r ^ 2 := by
    intro p
    rw [on_iff c1 h1, on_iff c2 h2]
    have e : (p.x - c2.ox) ^ 2 + (p.y - c2.oy) ^ 2 =
        (p.x - c1.ox) ^ 2 + (p.y - c1.oy) ^ 2 - ((p.x - c1.ox) * X + (p.y - c1.oy) * Y) * 2 + d ^ 2 := by
      rw [hd2, hX, hY]; ring
    rw [e]
    constructor
    · rintro ⟨a, b⟩; exact ⟨by linarith, a⟩
    · rintro ⟨a, b⟩; exact ⟨b, by linarith⟩
  by_cases hc : d > c1.r + c2.r ∨ d < |c2.r - c1.r|
  · left
    rw [if_pos hc]
    refine ⟨rfl, fun p hp => ?_⟩
    obtain ⟨e1, e2⟩ := (coord p).mp hp
    -- |(p - o1) · (o2 - o1)| ≤ r1 d
    have cs : ((p.x - c1.ox) * X + (p.y - c1.oy) * Y) ^ 2 ≤ c1.r ^ 2 * d ^ 2 := by
      rw [hd2, ← e2]; nlinarith [sq_nonneg ((p.x - c1.ox) * Y - (p.y - c1.oy) * X)]
    have hb : -(c1.r * d) ≤ (p.x - c1.ox) * X + (p.y - c1.oy) * Y ∧ (p.x - c1.ox) * X + (p.y - c1.oy) * Y ≤ c1.r * d :=
      abs_le_of_sq_le_sq' (by rw [mul_pow]; exact cs) (mul_nonneg h1 hdn)
    rcases hc with h | h
    · have := mul_pos (show 0 < d - c1.r - c2.r by linarith) (show 0 < d - c1.r + c2.r by linarith)
      nlinarith [hb.2]
    · rcases abs_cases (c2.r - c1.r) with ⟨e, _⟩ | ⟨e, _⟩ <;> rw [e] at h
      · have := mul_pos (show 0 < c2.r - c1.r - d by linarith) (show 0 < c2.r + c1.r + d by linarith)
        nlinarith [hb.1]
      · have := mul_pos (show 0 < c1.r - d - c2.r by linarith) (show 0 < c1.r - d + c2.r by linarith)
        nlinarith [hb.2]
  · right
    rw [if_neg hc, if_neg hd0]
    push Not at hc
    have hab := abs_le.mp hc.2
    have hq : ¬ c1.r ^ 2 - ((c1.r ^ 2 - c2.r ^ 2 + d ^ 2) / (2 * d)) ^ 2 < 0 := by
      rw [not_lt, div_pow, sub_nonneg, div_le_iff₀ (by positivity)]
      have f1 : 0 ≤ 2 * d * c1.r - (c1.r ^ 2 - c2.r ^ 2 + d ^ 2) := by nlinarith
      have f2 : 0 ≤ 2 * d * c1.r + (c1.r ^ 2 - c2.r ^ 2 + d ^ 2) := by nlinarith
      nlinarith [mul_nonneg f1 f2]
    rw [if_neg hq]
    obtain ⟨a, ha⟩ : ∃ a, a = (c1.r ^ 2 - c2.r ^ 2 + d ^ 2) / (2 * d) := ⟨_, rfl⟩
    rw [← ha] at hq ⊢
    have ha' : a * (2 * d) = c1.r ^ 2 - c2.r ^ 2 + d ^ 2 := by rw [ha]; field_simp
    have hh2 : Real.sqrt (c1.r ^ 2 - a ^ 2) ^ 2 = c1.r ^ 2 - a ^ 2 := Real.sq_sqrt (not_lt.mp hq)
    generalize Real.sqrt (c1.r ^ 2 - a ^ 2) = h at *
    refine ⟨_, _, _, _, rfl, fun p => ?_⟩
    rw [coord p, ← ha']
    constructor
    · rintro ⟨e1, e2⟩
      -- the component across
      have hu : (p.x - c1.ox) * X + (p.y - c1.oy) * Y = a * d := by linarith
      obtain ⟨g, hg⟩ : ∃ g, g = (p.y - c1.oy) * X - (p.x - c1.ox) * Y := ⟨_, rfl⟩
      have hgg : g ^ 2 = (h * d) ^ 2 := by
        have : g ^ 2 + (a * d) ^ 2 = c1.r ^ 2 * d ^ 2 := by rw [← hu, hg, hd2, ← e2]; ring
        linear_combination this - d ^ 2 * hh2
      have px : (p.x - c1.ox) * d ^ 2 = a * d * X - g * Y := by rw [hd2, ← hu, hg]; ring
      have py : (p.y - c1.oy) * d ^ 2 = a * d * Y + g * X := by rw [hd2, ← hu, hg]; ring
      rcases sq_eq_sq_iff_eq_or_eq_neg.mp hgg with e | e
      · left
        rw [e, ← eq_div_iff (pow_ne_zero 2 hd0)] at px py
        have qx : (a * d * X - h * d * Y) / d ^ 2 = a * X / d - h * Y / d := by field_simp
        have qy : (a * d * Y + h * d * X) / d ^ 2 = a * Y / d + h * X / d := by field_simp
        cases p; simp only [V2.mk.injEq]; dsimp only at px py; exact ⟨by linarith, by linarith⟩
      · right
        rw [e, ← eq_div_iff (pow_ne_zero 2 hd0)] at px py
        have qx : (a * d * X - -(h * d) * Y) / d ^ 2 = a * X / d + h * Y / d := by field_simp; ring
        have qy : (a * d * Y + -(h * d) * X) / d ^ 2 = a * Y / d - h * X / d := by field_simp; ring
        cases p; simp only [V2.mk.injEq]; dsimp only at px py; exact ⟨by linarith, by linarith⟩
    · rintro (rfl | rfl)
      · dsimp only
        constructor
        · have : (c1.ox + a * X / d - h * Y / d - c1.ox) * X + (c1.oy + a * Y / d + h * X / d - c1.oy) * Y =
              a * (X ^ 2 + Y ^ 2) / d := by field_simp; ring
          rw [this, ← hd2]; field_simp
        · have : (c1.ox + a * X / d - h * Y / d - c1.ox) ^ 2 + (c1.oy + a * Y / d + h * X / d - c1.oy) ^ 2 =
              (a ^ 2 + h ^ 2) * (X ^ 2 + Y ^ 2) / d ^ 2 := by field_simp; ring
          rw [this, ← hd2, mul_div_assoc, div_self (pow_ne_zero 2 hd0), mul_one]; linarith
      · dsimp only
        constructor
        · have : (c1.ox + a * X / d + h * Y / d - c1.ox) * X + (c1.oy + a * Y / d - h * X / d - c1.oy) * Y =
              a * (X ^ 2 + Y ^ 2) / d := by field_simp; ring
          rw [this, ← hd2]; field_simp
        · have : (c1.ox + a * X / d + h * Y / d - c1.ox) ^ 2 + (c1.oy + a * Y / d - h * X / d - c1.oy) ^ 2 =
              (a ^ 2 + h ^ 2) * (X ^ 2 + Y ^ 2) / d ^ 2 := by field_simp; ring
          rw [this, ← hd2, mul_div_assoc, div_self (pow_ne_zero 2 hd0), mul_one]; linarith

/-- **C197, refuted.** For two copies of one circle, which have all their points in common, the result is NaN. -/
theorem C197_same_refuted (c : Circle) (hr : 0 ≤ c.r) : circleIntersection2d c c = .nan := by
  unfold circleIntersection2d
  simp only [sub_self, abs_zero, ne_eq, OfNat.ofNat_ne_zero, not_false_eq_true, zero_pow, add_zero, Real.sqrt_zero]
  rw [if_neg (by rintro (h | h) <;> linarith), if_pos trivial]

/-- **C197, refuted.** For circles given by two coordinates the third coordinate of the points is not zero but the second
coordinate of the centres. -/
theorem C197_height_refuted (c1 c2 : Circle) (h1 : c1.oz = none) (h2 : c2.oz = none) (p1 p2 : V2) (z1 z2 : ℝ)
    (h : circleIntersection2d c1 c2 = .points p1 z1 p2 z2) : z1 = c1.oy ∧ z2 = c2.oy := by
  unfold circleIntersection2d at h
  dsimp only at h
  split_ifs at h
  simp only [Inter.points.injEq] at h
  rw [← h.2.1, ← h.2.2.2]
  unfold Circle.last
  rw [h1, h2]
  exact ⟨rfl, rfl⟩

/-- The line from `pt` to `q`, a point of the circle, touches the circle there. -/
def Touches (c : Circle) (pt q : V2) : Prop :=
  c.On q ∧ (q.x - c.ox) * (pt.x - q.x) + (q.y - c.oy) * (pt.y - q.y) = 0

theorem sin_cos_arctan2 (x y : ℝ) (h : len ⟨x, y⟩ ≠ 0) :
    Real.sin (arctan2 x y) = x / len ⟨x, y⟩ ∧ Real.cos (arctan2 x y) = y / len ⟨x, y⟩ := by
  have hn : ‖(⟨y, x⟩ : ℂ)‖ = len ⟨x, y⟩ := by
    rw [Complex.norm_def, Complex.normSq_mk]; unfold len; congr 1; ring
  have h0 : (⟨y, x⟩ : ℂ) ≠ 0 := by
    intro e
    rw [e, norm_zero] at hn
    exact h hn.symm
  unfold arctan2
  rw [Complex.sin_arg, Complex.cos_arg h0, hn]
  exact ⟨rfl, rfl⟩

/-- **C198, refuted.** For a point outside the circle the two results are the points of contact of the tangents exactly
when the point lies on the diagonal through the centre: the arguments of `arctan2` are exchanged. -/
theorem C198_tangents_refuted (c : Circle) (hr : 0 < c.r) (pt : V2) (hout : c.r < dist pt ⟨c.ox, c.oy⟩) :
    ∃ t1 t2, tangentsLines c pt = some (t1, t2) ∧ c.On t1 ∧ c.On t2 ∧
      ((Touches c pt t1 ∧ Touches c pt t2) ↔ pt.x - c.ox = pt.y - c.oy) := by
  have hb : c.r < len ⟨pt.x - c.ox, pt.y - c.oy⟩ := hout
  have hsq := len_sq ⟨pt.x - c.ox, pt.y - c.oy⟩
  unfold tangentsLines
  dsimp only at hsq ⊢
  have hbp : 0 < len ⟨pt.x - c.ox, pt.y - c.oy⟩ := lt_trans hr hb
  obtain ⟨hs, hc⟩ := sin_cos_arctan2 (pt.x - c.ox) (pt.y - c.oy) hbp.ne'
  have hq : c.r / len ⟨pt.x - c.ox, pt.y - c.oy⟩ < 1 := (div_lt_one hbp).mpr hb
  have hq0 : 0 < c.r / len ⟨pt.x - c.ox, pt.y - c.oy⟩ := div_pos hr hbp
  rw [if_neg (by rintro (h | h | h) <;> linarith)]
  have hth : Real.cos (Real.arccos (c.r / len ⟨pt.x - c.ox, pt.y - c.oy⟩)) = c.r / len ⟨pt.x - c.ox, pt.y - c.oy⟩ :=
    Real.cos_arccos (by linarith) hq.le
  have hthp : 0 < Real.sin (Real.arccos (c.r / len ⟨pt.x - c.ox, pt.y - c.oy⟩)) := by
    apply Real.sin_pos_of_pos_of_lt_pi
    · exact Real.arccos_pos.mpr hq
    · have := Real.arccos_lt_pi_div_two.mpr hq0
      linarith [Real.pi_pos]
  have hths := Real.sin_sq_add_cos_sq (Real.arccos (c.r / len ⟨pt.x - c.ox, pt.y - c.oy⟩))
  generalize Real.arccos (c.r / len ⟨pt.x - c.ox, pt.y - c.oy⟩) = th at *
  generalize arctan2 (pt.x - c.ox) (pt.y - c.oy) = d at *
  generalize len ⟨pt.x - c.ox, pt.y - c.oy⟩ = b at *
  have hx : pt.x - c.ox = b * Real.sin d := by rw [hs]; field_simp
  have hy : pt.y - c.oy = b * Real.cos d := by rw [hc]; field_simp
  have hrb : c.r = b * Real.cos th := by rw [hth]; field_simp
  have hdd := Real.sin_sq_add_cos_sq d
  have on1 : ∀ s, c.On ⟨c.ox + c.r * Real.cos s, c.oy + c.r * Real.sin s⟩ := (C195_evaluate c hr).1
  refine ⟨_, _, rfl, on1 _, on1 _, ?_⟩
  unfold Touches
  simp only [on1, true_and]
  -- (q - o)·(pt - q) = r b (sin (2d ± θ) - cos θ)
  have expand : ∀ s, (c.ox + c.r * Real.cos s - c.ox) * (pt.x - (c.ox + c.r * Real.cos s)) +
      (c.oy + c.r * Real.sin s - c.oy) * (pt.y - (c.oy + c.r * Real.sin s)) =
      c.r * b * (Real.cos s * Real.sin d + Real.sin s * Real.cos d - Real.cos th) := by
    intro s
    have := Real.sin_sq_add_cos_sq s
    linear_combination c.r * Real.cos s * hx + c.r * Real.sin s * hy - c.r * hrb - c.r ^ 2 * this
  have hne : ¬ c.r * b = 0 := mul_ne_zero hr.ne' hbp.ne'
  have cancel : ∀ z, c.r * b * z = 0 ↔ z = 0 := fun z => by rw [mul_eq_zero]; exact or_iff_right hne
  rw [expand, expand, cancel, cancel]
  simp only [Real.cos_add, Real.sin_add, Real.cos_sub, Real.sin_sub]
  rw [hx, hy]
  have hcth : 0 < Real.cos th := by nlinarith
  generalize Real.sin d = S at *
  generalize Real.cos d = C at *
  generalize Real.sin th = s at *
  generalize Real.cos th = k at *
  constructor
  · rintro ⟨e1, e2⟩
    -- sum of both: 2 k (2 S C) = 2 k
    have : k * (2 * S * C - 1) = 0 := by linear_combination (1 / 2) * e1 + (1 / 2) * e2
    have h2 : 2 * S * C = 1 := by
      have := (mul_eq_zero.mp this).resolve_left hcth.ne'; linarith
    have h3 : (S - C) ^ 2 = 0 := by nlinarith
    have h4 : S - C = 0 := by simpa using h3
    rw [sub_eq_zero.mp h4]
  · intro e
    have e' : S = C := mul_left_cancel₀ hbp.ne' e
    subst e'
    have : 2 * S ^ 2 = 1 := by linarith
    constructor <;> linear_combination k * this

/-- The unit circle and a circle of radius two around `(2, 1)` meet in two points. -/
example : ∃ p1 z1 p2 z2, circleIntersection2d ⟨0, 0, none, 1⟩ ⟨2, 1, none, 2⟩ = .points p1 z1 p2 z2 ∧ z2 = 1 := by
  have h := C197_intersection_partial ⟨0, 0, none, 1⟩ ⟨2, 1, none, 2⟩ (by norm_num) (by norm_num) (by norm_num)
  rcases h with ⟨_, h⟩ | ⟨p1, z1, p2, z2, h, _⟩
  · exact absurd ⟨(on_iff _ (by norm_num) ⟨0, 1⟩).mpr (by norm_num), (on_iff _ (by norm_num) ⟨0, 1⟩).mpr (by norm_num)⟩
      (h ⟨0, 1⟩)
  · exact ⟨p1, z1, p2, z2, h, (C197_height_refuted _ _ rfl rfl _ _ _ _ h).2⟩
/-- From `(3, 0)` the lines to the two results do not both touch the unit circle. -/
example : ∃ t1 t2, tangentsLines ⟨0, 0, none, 1⟩ ⟨3, 0⟩ = some (t1, t2) ∧
    ¬ (Touches ⟨0, 0, none, 1⟩ ⟨3, 0⟩ t1 ∧ Touches ⟨0, 0, none, 1⟩ ⟨3, 0⟩ t2) := by
  obtain ⟨t1, t2, h, _, _, h2⟩ := C198_tangents_refuted ⟨0, 0, none, 1⟩ (by norm_num) ⟨3, 0⟩
    (by unfold dist; rw [Real.lt_sqrt] <;> norm_num)
  exact ⟨t1, t2, h, fun h3 => by have := h2.mp h3; norm_num at this⟩
/-- Below the centre the parameter returned is wrong. -/
example : ∃ p t, (⟨0, 0, none, 1⟩ : Circle).pointOnCurve ⟨0, -2⟩ = some (p, t) ∧
    (⟨0, 0, none, 1⟩ : Circle).evaluate t ≠ p := by
  rcases h : (⟨0, 0, none, 1⟩ : Circle).pointOnCurve ⟨0, -2⟩ with _ | ⟨p, t⟩
  · have := (C196_closest ⟨0, 0, none, 1⟩ (by norm_num) ⟨0, -2⟩).1.mp h
    simp at this
  · refine ⟨p, t, rfl, fun e => ?_⟩
    have := (C196_parameter_refuted ⟨0, 0, none, 1⟩ (by norm_num) ⟨0, -2⟩ p t h).mp e
    norm_num at this
/-- On the positive axis the parameter of `closest_point_on_circle_2d` is not that of the closest point. -/
example : ∃ t, closestPointOnCircle2d ⟨0, 0, none, 1⟩ ⟨2, 0⟩ = some t ∧
    ¬ ∀ q, (⟨0, 0, none, 1⟩ : Circle).On q → dist ⟨2, 0⟩ ((⟨0, 0, none, 1⟩ : Circle).evaluate t) ≤ dist ⟨2, 0⟩ q := by
  rcases h : closestPointOnCircle2d ⟨0, 0, none, 1⟩ ⟨2, 0⟩ with _ | t
  · unfold closestPointOnCircle2d Circle.unitNormal len Circle.implicitNormal at h
    norm_num at h
    exact absurd h (by simp)
  · refine ⟨t, rfl, fun e => ?_⟩
    have := ((C196_closest_parameter_refuted ⟨0, 0, none, 1⟩ (by norm_num) ⟨2, 0⟩ t h).mp e).1
    norm_num at this

end Verif.Circ
