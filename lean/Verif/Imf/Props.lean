import Mathlib.Analysis.SpecialFunctions.Trigonometric.Inverse
import Mathlib.Analysis.SpecialFunctions.Complex.Arg
import Mathlib.Tactic.Linarith
import Mathlib.Tactic.NormNum
import Mathlib.Tactic.LinearCombination
import Mathlib.Tactic.Positivity
import Verif.Imf.Model

/-! # C483–C485: ovals of Cassini, a surface of genus two, the ellipsoid -/

namespace Verif.Imf

variable {K : Type} [Field K] [LinearOrder K] [IsStrictOrderedRing K]

/-- **C483** (the curve).  `cassini` is zero, negative or positive where the product of the squared distances from `(c, 0)` and `(-c, 0)` is equal to,
less or greater than the fourth power of `a`. -/
theorem C483_product (x y a c : K) :
    (cassini x y a c = 0 ↔ ((x - c) ^ 2 + y ^ 2) * ((x + c) ^ 2 + y ^ 2) = a ^ 4) ∧
    (cassini x y a c < 0 ↔ ((x - c) ^ 2 + y ^ 2) * ((x + c) ^ 2 + y ^ 2) < a ^ 4) ∧
    (0 < cassini x y a c ↔ a ^ 4 < ((x - c) ^ 2 + y ^ 2) * ((x + c) ^ 2 + y ^ 2)) := by
  have h : cassini x y a c = ((x - c) ^ 2 + y ^ 2) * ((x + c) ^ 2 + y ^ 2) - a ^ 4 := by unfold cassini; ring
  rw [h]
  exact ⟨sub_eq_zero, sub_neg, sub_pos⟩

/-- **C483** (bounds).  The region where the function is not positive lies in the disk of squared radius `a² + c²`. -/
theorem C483_bounded (x y a c : K) (h : cassini x y a c ≤ 0) : x ^ 2 + y ^ 2 ≤ a ^ 2 + c ^ 2 := by
  have h1 : (x ^ 2 + y ^ 2 - c ^ 2) ^ 2 ≤ (a ^ 2) ^ 2 := by
    unfold cassini at h
    nlinarith [mul_nonneg (sq_nonneg c) (sq_nonneg y)]
  have := abs_le_of_sq_le_sq' h1 (sq_nonneg a)
  linarith [this.2]

/-- **C483** (one oval or two).  For `0 ≤ c < a` the segment between the foci is inside; for `0 ≤ a < c` the whole line midway between the foci is outside,
while both foci are inside if `a` is not zero. -/
theorem C483_parts (a c : K) :
    (0 ≤ c → c < a → ∀ t, -c ≤ t → t ≤ c → cassini t 0 a c < 0) ∧
    (0 < a → a < c → (∀ y, 0 < cassini 0 y a c) ∧ cassini c 0 a c < 0 ∧ cassini (-c) 0 a c < 0) := by
  refine ⟨fun hc ha t h1 h2 => ?_, fun h0 ha => ⟨fun y => ?_, ?_, ?_⟩⟩
  · rw [(C483_product t 0 a c).2.1]
    have ht : t ^ 2 ≤ c ^ 2 := sq_le_sq' h1 h2
    have hac : c ^ 2 < a ^ 2 := pow_lt_pow_left₀ ha hc (by norm_num)
    have e : ((t - c) ^ 2 + 0 ^ 2) * ((t + c) ^ 2 + 0 ^ 2) = (c ^ 2 - t ^ 2) ^ 2 := by ring
    have e2 : a ^ 4 = (a ^ 2) ^ 2 := by ring
    rw [e, e2]
    exact pow_lt_pow_left₀ (by nlinarith [sq_nonneg t]) (by linarith) (by norm_num)
  · rw [(C483_product 0 y a c).2.2]
    have hac : a ^ 2 < c ^ 2 := pow_lt_pow_left₀ ha h0.le (by norm_num)
    have e : ((0 - c) ^ 2 + y ^ 2) * ((0 + c) ^ 2 + y ^ 2) = (c ^ 2 + y ^ 2) ^ 2 := by ring
    have e2 : a ^ 4 = (a ^ 2) ^ 2 := by ring
    rw [e, e2]
    exact pow_lt_pow_left₀ (by nlinarith [sq_nonneg y]) (sq_nonneg a) (by norm_num)
  · rw [(C483_product c 0 a c).2.1]
    have : (0 : K) < a ^ 4 := by positivity
    simpa using this
  · rw [(C483_product (-c) 0 a c).2.1]
    have : (0 : K) < a ^ 4 := by positivity
    simpa using this

/-- The defaults `a = 1.1`, `c = 1` give one oval, `a = 1/2` two. -/
example : cassini (0 : ℚ) 0 (11 / 10) 1 < 0 ∧ 0 < cassini (0 : ℚ) 0 (1 / 2) 1 ∧ cassini (1 : ℚ) 0 (1 / 2) 1 < 0 ∧
    cassini (3 : ℚ) 0 1 1 > 0 := by norm_num [cassini]

/-- **C484** (symmetry).  The function does not change under the reflections in the planes `x = 0` and `z = 0`, nor under a turn by a third about the
`z`-axis. -/
theorem C484_symmetric (x y z : ℝ) : genus2 (-x) y z = genus2 x y z ∧ genus2 x y (-z) = genus2 x y z ∧
    genus2 (Real.cos (2 * Real.pi / 3) * x - Real.sin (2 * Real.pi / 3) * y) (Real.sin (2 * Real.pi / 3) * x + Real.cos (2 * Real.pi / 3) * y) z =
      genus2 x y z := by
  refine ⟨by unfold genus2; ring, by unfold genus2; ring, ?_⟩
  have h1 : 4 * Real.cos (2 * Real.pi / 3) ^ 3 - 3 * Real.cos (2 * Real.pi / 3) = 1 := by
    rw [← Real.cos_three_mul, show 3 * (2 * Real.pi / 3) = 2 * Real.pi by ring, Real.cos_two_pi]
  have h2 : 3 * Real.sin (2 * Real.pi / 3) - 4 * Real.sin (2 * Real.pi / 3) ^ 3 = 0 := by
    rw [← Real.sin_three_mul, show 3 * (2 * Real.pi / 3) = 2 * Real.pi by ring, Real.sin_two_pi]
  have h3 := Real.sin_sq_add_cos_sq (2 * Real.pi / 3)
  generalize Real.cos (2 * Real.pi / 3) = C at *
  generalize Real.sin (2 * Real.pi / 3) = S at *
  have e1 : (C * x - S * y) ^ 2 + (S * x + C * y) ^ 2 = x ^ 2 + y ^ 2 := by linear_combination (x ^ 2 + y ^ 2) * h3
  have hA : C ^ 3 - 3 * C * S ^ 2 = 1 := by linear_combination h1 - 3 * C * h3
  have hB : 3 * C ^ 2 * S - S ^ 3 = 0 := by linear_combination h2 + 3 * S * h3
  have e2 : (S * x + C * y) * ((S * x + C * y) ^ 2 - 3 * (C * x - S * y) ^ 2) = y * (y ^ 2 - 3 * x ^ 2) := by
    linear_combination (y ^ 3 - 3 * x ^ 2 * y) * hA + (3 * x * y ^ 2 - x ^ 3) * hB
  unfold genus2
  rw [e1]
  linear_combination 2 * (1 - z ^ 2) * e2

/-- **C484** (bounds, part).  Between the planes `z = -1` and `z = 1` the points where the function is not positive are at most 3 from the `z`-axis. -/
theorem C484_bounded_partial (x y z : ℝ) (hz : z ^ 2 ≤ 1) (h : genus2 x y z ≤ 0) : x ^ 2 + y ^ 2 ≤ 9 := by
  by_contra hc
  push Not at hc
  set r := Real.sqrt (x ^ 2 + y ^ 2) with hr
  have hr2 : r ^ 2 = x ^ 2 + y ^ 2 := Real.sq_sqrt (by positivity)
  have hr0 : 0 ≤ r := Real.sqrt_nonneg _
  have hr3 : 3 < r := by nlinarith
  have hq : (y * (y ^ 2 - 3 * x ^ 2)) ^ 2 ≤ (r ^ 3) ^ 2 := by
    have : (r ^ 3) ^ 2 = (y * (y ^ 2 - 3 * x ^ 2)) ^ 2 + (x ^ 3 - 3 * x * y ^ 2) ^ 2 := by
      rw [show (r ^ 3) ^ 2 = (r ^ 2) ^ 3 by ring, hr2]; ring
    rw [this]; nlinarith [sq_nonneg (x ^ 3 - 3 * x * y ^ 2)]
  have hq' := (abs_le_of_sq_le_sq' hq (by positivity)).1
  have e : genus2 x y z = 2 * (1 - z ^ 2) * (y * (y ^ 2 - 3 * x ^ 2)) + r ^ 4 - (9 * z ^ 2 - 1) * (1 - z ^ 2) := by
    unfold genus2; rw [show r ^ 4 = (r ^ 2) ^ 2 by ring, hr2]; ring
  rw [e] at h
  have hs0 : 0 ≤ 1 - z ^ 2 := by linarith
  have hs1 : 1 - z ^ 2 ≤ 1 := by nlinarith [sq_nonneg z]
  have p1 : -(2 * (1 - z ^ 2) * r ^ 3) ≤ 2 * (1 - z ^ 2) * (y * (y ^ 2 - 3 * x ^ 2)) := by nlinarith
  have p2 : 2 * (1 - z ^ 2) * r ^ 3 ≤ 2 * r ^ 3 := by nlinarith [pow_nonneg hr0 3]
  have p3 : (9 * z ^ 2 - 1) * (1 - z ^ 2) ≤ 8 := by nlinarith
  have p4 : 27 ≤ r ^ 3 := by nlinarith [sq_nonneg (r - 3)]
  have p5 : r ^ 4 = r * r ^ 3 := by ring
  nlinarith

/-- **C484** refuted, bounds.  The region is not bounded: on the line `x = 0`, `z = y` all points with `y ≥ 6` are inside, besides the surface that is
meant. -/
theorem C484_bounded_refuted (y : K) (hy : 6 ≤ y) : genus2 0 y y < 0 := by
  have e : genus2 0 y y = -2 * y ^ 4 * (y - 5) + 2 * y ^ 3 - 10 * y ^ 2 + 1 := by unfold genus2; ring
  rw [e]
  have h2 : 36 ≤ y ^ 2 := by nlinarith
  have h3 : 0 ≤ y ^ 3 := by positivity
  have h4 : y ^ 4 = y * y ^ 3 := by ring
  have h5 : 6 * y ^ 3 ≤ y ^ 4 := by rw [h4]; exact mul_le_mul_of_nonneg_right hy h3
  have h6 : y ^ 4 ≤ y ^ 4 * (y - 5) := le_mul_of_one_le_right (by positivity) (by linarith)
  linarith

/-- **C484** refuted, distance.  The function is no signed distance, as its documentation says: no multiple of it by a positive number changes by at most
the distance of the points. -/
theorem C484_distance_refuted (k : K) (hk : 0 < k) : ∃ x x' : K, x < x' ∧ x' - x < |k * genus2 x' 0 0 - k * genus2 x 0 0| := by
  have e : ∀ x : K, genus2 x 0 0 = x ^ 4 + 1 := fun x => by unfold genus2; ring
  refine ⟨0, 1 + 1 / k, by positivity, ?_⟩
  rw [e, e]
  have h1 : (1 : K) < 1 + 1 / k := by simpa using hk
  have h0 : 0 < 1 + 1 / k := by linarith
  have hkw : k * (1 + 1 / k) = k + 1 := by field_simp
  have h2 : 1 < (1 + 1 / k) ^ 2 := by nlinarith
  have key : k * ((1 + 1 / k) ^ 4 + 1) - k * (0 ^ 4 + 1) = (k + 1) * ((1 + 1 / k) * (1 + 1 / k) ^ 2) := by
    rw [← hkw]; ring
  rw [key, sub_zero]
  refine lt_of_lt_of_le ?_ (le_abs_self _)
  have h3 : 1 + 1 / k < (1 + 1 / k) * (1 + 1 / k) ^ 2 := lt_mul_of_one_lt_right h0 h2
  have h4 : (1 + 1 / k) * (1 + 1 / k) ^ 2 ≤ (k + 1) * ((1 + 1 / k) * (1 + 1 / k) ^ 2) := le_mul_of_one_le_left (by positivity) (by linarith)
  linarith

/-- Inside and outside: the first hole is outside, a point of the ring inside. -/
example : genus2 (0 : ℚ) 0 0 = 1 ∧ genus2 (0 : ℚ) (-1) 0 = 0 ∧ genus2 (0 : ℚ) (-3 / 2) 0 < 0 ∧ genus2 (0 : ℚ) 6 6 < 0 := by
  norm_num [genus2]

/-- **C485.**  The points of `ellipsoid` are exactly those of the ellipsoid with the given half axes about the given centre; all are reached with
`u` in `[0, π]` and `v` in `(-π, π]`. -/
theorem C485_ellipsoid (a b c ox oy oz : ℝ) (ha : a ≠ 0) (hb : b ≠ 0) (hc : c ≠ 0) (x y z : ℝ) :
    (((x - ox) / a) ^ 2 + ((y - oy) / b) ^ 2 + ((z - oz) / c) ^ 2 = 1 ↔ ∃ u v, ellipsoid u v a b c ox oy oz = (x, y, z)) ∧
    (((x - ox) / a) ^ 2 + ((y - oy) / b) ^ 2 + ((z - oz) / c) ^ 2 = 1 →
      ∃ u v, (0 ≤ u ∧ u ≤ Real.pi) ∧ (-Real.pi < v ∧ v ≤ Real.pi) ∧ ellipsoid u v a b c ox oy oz = (x, y, z)) := by
  have onto : ((x - ox) / a) ^ 2 + ((y - oy) / b) ^ 2 + ((z - oz) / c) ^ 2 = 1 →
      ∃ u v, (0 ≤ u ∧ u ≤ Real.pi) ∧ (-Real.pi < v ∧ v ≤ Real.pi) ∧ ellipsoid u v a b c ox oy oz = (x, y, z) := by
    intro h
    set p := (x - ox) / a with hp
    set q := (y - oy) / b with hq
    set w := (z - oz) / c with hw
    have hw1 : w ^ 2 ≤ 1 := by nlinarith [sq_nonneg p, sq_nonneg q]
    have hw2 := abs_le_of_sq_le_sq' (by simpa using hw1 : w ^ 2 ≤ 1 ^ 2) zero_le_one
    have hcos := Real.cos_arccos hw2.1 hw2.2
    have hsin : Real.sin (Real.arccos w) = ‖(⟨p, q⟩ : ℂ)‖ := by
      rw [Real.sin_arccos, Complex.norm_def, Complex.normSq_mk]
      congr 1; linear_combination -h
    refine ⟨Real.arccos w, Complex.arg ⟨p, q⟩, ⟨Real.arccos_nonneg _, Real.arccos_le_pi _⟩, ⟨Complex.neg_pi_lt_arg _, Complex.arg_le_pi _⟩, ?_⟩
    have h1 : ‖(⟨p, q⟩ : ℂ)‖ * Real.cos (Complex.arg ⟨p, q⟩) = p := Complex.norm_mul_cos_arg _
    have h2 : ‖(⟨p, q⟩ : ℂ)‖ * Real.sin (Complex.arg ⟨p, q⟩) = q := Complex.norm_mul_sin_arg _
    unfold ellipsoid
    rw [hsin, hcos, mul_assoc, mul_assoc, h1, h2, hp, hq, hw, mul_div_cancel₀ _ ha, mul_div_cancel₀ _ hb, mul_div_cancel₀ _ hc]
    simp
  refine ⟨⟨fun h => ?_, ?_⟩, onto⟩
  · obtain ⟨u, v, -, -, h⟩ := onto h
    exact ⟨u, v, h⟩
  · rintro ⟨u, v, h⟩
    unfold ellipsoid at h
    simp only [Prod.mk.injEq] at h
    obtain ⟨rfl, rfl, rfl⟩ := h
    have e1 : (ox + a * Real.sin u * Real.cos v - ox) / a = Real.sin u * Real.cos v := by field_simp; ring
    have e2 : (oy + b * Real.sin u * Real.sin v - oy) / b = Real.sin u * Real.sin v := by field_simp; ring
    have e3 : (oz + c * Real.cos u - oz) / c = Real.cos u := by field_simp; ring
    rw [e1, e2, e3]
    linear_combination Real.sin u ^ 2 * Real.sin_sq_add_cos_sq v + Real.sin_sq_add_cos_sq u

/-- The top of an ellipsoid with half axes 1, 2, 3 about `(1, 1, 1)`. -/
example : ellipsoid 0 0 1 2 3 1 1 1 = (1, 1, 4) := by norm_num [ellipsoid]

end Verif.Imf
