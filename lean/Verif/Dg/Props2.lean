import Verif.Dg.Props
import Mathlib.Tactic.LinearCombination
import Mathlib.Algebra.Order.BigOperators.Group.List

set_option linter.unusedSectionVars false

/-!
# Curvature of surfaces
-/

namespace Verif.Dg

open Verif.Prim

/-- The first form is positive. -/
def Regular (f : Forms) : Prop := 0 < f.E ∧ 0 < f.E * f.G - f.F ^ 2

/-- The quadratic whose roots are the principal curvatures. -/
def quad (f : Forms) (k : ℝ) : ℝ := (f.L - k * f.E) * (f.N - k * f.G) - (f.M - k * f.F) ^ 2

theorem regular_G (f : Forms) (h : Regular f) : 0 < f.G := by
  by_contra hc
  have h1 := h.1
  have h2 := h.2
  nlinarith [sq_nonneg f.F, mul_nonneg h1.le (neg_nonneg.mpr (not_lt.mp hc))]

theorem first_pos (f : Forms) (h : Regular f) (du dv : ℝ) (hd : (du, dv) ≠ (0, 0)) :
    0 < f.E * du ^ 2 + 2 * f.F * du * dv + f.G * dv ^ 2 := by
  have h1 := h.1
  have h2 := h.2
  have key : f.E * (f.E * du ^ 2 + 2 * f.F * du * dv + f.G * dv ^ 2)
      = (f.E * du + f.F * dv) ^ 2 + (f.E * f.G - f.F ^ 2) * dv ^ 2 := by ring
  have : 0 < f.E * (f.E * du ^ 2 + 2 * f.F * du * dv + f.G * dv ^ 2) := by
    rw [key]
    by_cases hv : dv = 0
    · subst hv
      have hu : du ≠ 0 := fun hu => hd (by rw [hu])
      have : 0 < (f.E * du) ^ 2 := by positivity
      nlinarith
    · have : 0 < dv ^ 2 := by positivity
      nlinarith [sq_nonneg (f.E * du + f.F * dv), mul_pos h2 this]
  exact pos_of_mul_pos_right this h1.le

theorem disc_nonneg (f : Forms) (h : Regular f) :
    0 ≤ (2 * f.M * f.F - f.E * f.N - f.G * f.L) ^ 2 - 4 * (f.E * f.G - f.F ^ 2) * (f.L * f.N - f.M ^ 2) := by
  have h1 := h.1
  have h2 := h.2
  have key : f.E ^ 2 * ((2 * f.M * f.F - f.E * f.N - f.G * f.L) ^ 2
      - 4 * (f.E * f.G - f.F ^ 2) * (f.L * f.N - f.M ^ 2))
      = 4 * (f.E * f.G - f.F ^ 2) * (f.E * f.M - f.F * f.L) ^ 2
        + (f.E * (f.E * f.N - f.G * f.L) - 2 * f.F * (f.E * f.M - f.F * f.L)) ^ 2 := by ring
  have hp : 0 < f.E ^ 2 := by positivity
  refine nonneg_of_mul_nonneg_right ?_ hp
  rw [key]
  have := mul_nonneg (mul_nonneg (by norm_num : (0 : ℝ) ≤ 4) h2.le) (sq_nonneg (f.E * f.M - f.F * f.L))
  nlinarith [sq_nonneg (f.E * (f.E * f.N - f.G * f.L) - 2 * f.F * (f.E * f.M - f.F * f.L))]

/-- The pair computed: ordered, with the right sum and product. -/
theorem principal_spec (f : Forms) (h : Regular f) : ∃ k1 k2, principal f = some (k1, k2) ∧ k2 ≤ k1 ∧
    (f.E * f.G - f.F ^ 2) * (k1 + k2) = f.E * f.N + f.G * f.L - 2 * f.M * f.F ∧
    (f.E * f.G - f.F ^ 2) * (k1 * k2) = f.L * f.N - f.M ^ 2 := by
  have hd := disc_nonneg f h
  have ha := h.2
  have hsq := Real.sq_sqrt hd
  have hs0 := Real.sqrt_nonneg ((2 * f.M * f.F - f.E * f.N - f.G * f.L) ^ 2
    - 4 * (f.E * f.G - f.F ^ 2) * (f.L * f.N - f.M ^ 2))
  have hp : principal f = some ((-(2 * f.M * f.F - f.E * f.N - f.G * f.L) + √((2 * f.M * f.F - f.E * f.N - f.G * f.L) ^ 2
        - 4 * (f.E * f.G - f.F ^ 2) * (f.L * f.N - f.M ^ 2))) / (2 * (f.E * f.G - f.F ^ 2)),
      (-(2 * f.M * f.F - f.E * f.N - f.G * f.L) - √((2 * f.M * f.F - f.E * f.N - f.G * f.L) ^ 2
        - 4 * (f.E * f.G - f.F ^ 2) * (f.L * f.N - f.M ^ 2))) / (2 * (f.E * f.G - f.F ^ 2))) := by
    unfold principal
    dsimp only
    exact if_neg (by rintro (hc | hc); exacts [ha.ne' hc, absurd hd (not_le.mpr hc)])
  refine ⟨_, _, hp, ?_, ?_, ?_⟩
  · generalize √((2 * f.M * f.F - f.E * f.N - f.G * f.L) ^ 2
      - 4 * (f.E * f.G - f.F ^ 2) * (f.L * f.N - f.M ^ 2)) = r at hsq hs0 ⊢
    exact div_le_div_of_nonneg_right (by linarith) (by linarith)
  · generalize √((2 * f.M * f.F - f.E * f.N - f.G * f.L) ^ 2
      - 4 * (f.E * f.G - f.F ^ 2) * (f.L * f.N - f.M ^ 2)) = r at hsq hs0 ⊢
    generalize f.E * f.G - f.F ^ 2 = a at *
    have := ha.ne'
    field_simp
    ring
  · generalize √((2 * f.M * f.F - f.E * f.N - f.G * f.L) ^ 2
      - 4 * (f.E * f.G - f.F ^ 2) * (f.L * f.N - f.M ^ 2)) = r at hsq hs0 ⊢
    generalize f.E * f.G - f.F ^ 2 = a at *
    have := ha.ne'
    field_simp
    linear_combination -hsq

theorem quad_factor (f : Forms) (k1 k2 k : ℝ)
    (hs : (f.E * f.G - f.F ^ 2) * (k1 + k2) = f.E * f.N + f.G * f.L - 2 * f.M * f.F)
    (hp : (f.E * f.G - f.F ^ 2) * (k1 * k2) = f.L * f.N - f.M ^ 2) :
    quad f k = (f.E * f.G - f.F ^ 2) * ((k - k1) * (k - k2)) := by
  unfold quad
  linear_combination k * hs - hp

/-- A principal curvature is the normal curvature of a direction. -/
theorem attained (f : Forms) (h : Regular f) (k : ℝ) (hq : quad f k = 0) :
    ∃ du dv, (du, dv) ≠ (0, 0) ∧ normalCurvature f du dv = some k := by
  unfold quad at hq
  have fin : ∀ du dv : ℝ, (du, dv) ≠ (0, 0) →
      (f.L - k * f.E) * du ^ 2 + 2 * (f.M - k * f.F) * du * dv + (f.N - k * f.G) * dv ^ 2 = 0 →
      normalCurvature f du dv = some k := by
    intro du dv hd h0
    have hI := (first_pos f h du dv hd).ne'
    unfold normalCurvature
    dsimp only
    rw [if_neg hI]
    congr 1
    rw [div_eq_iff hI]
    linarith
  by_cases hz : (-(f.M - k * f.F), f.L - k * f.E) = (0, 0)
  · refine ⟨1, 0, by simp, fin 1 0 (by simp) ?_⟩
    have : f.L - k * f.E = 0 := congrArg Prod.snd hz
    rw [this]
    ring
  · refine ⟨_, _, hz, fin _ _ hz ?_⟩
    linear_combination (f.L - k * f.E) * hq

theorem one_side (A B C : ℝ) (hA : A ≤ 0) (hC : C ≤ 0) (h : A * C = B ^ 2) (u v : ℝ) :
    A * u ^ 2 + 2 * B * u * v + C * v ^ 2 ≤ 0 := by
  rcases eq_or_lt_of_le hA with h0 | h0
  · have hB : B = 0 := by
      rw [h0, zero_mul] at h
      exact pow_eq_zero_iff (two_ne_zero) |>.mp h.symm
    rw [h0, hB]
    nlinarith [sq_nonneg v]
  · have key : A * (A * u ^ 2 + 2 * B * u * v + C * v ^ 2) = (A * u + B * v) ^ 2 := by
      linear_combination v ^ 2 * h
    by_contra hc
    have := mul_neg_of_neg_of_pos h0 (not_le.mp hc)
    rw [key] at this
    exact absurd this (not_lt.mpr (sq_nonneg _))

/-- C180.  On a surface with a positive first form the principal curvatures are real, come in decreasing order, have
the product and the mean that `gaussian_curvature` and `mean_curvature` give, and are the largest and the smallest of
all normal curvatures. -/
theorem C180_principal (f : Forms) (h : Regular f) : ∃ k1 k2, principal f = some (k1, k2) ∧ k2 ≤ k1 ∧
    gaussian f = some (k1 * k2) ∧ mean f = some ((k1 + k2) / 2) ∧
    (∀ du dv, (du, dv) ≠ (0, 0) → ∃ k, normalCurvature f du dv = some k ∧ k2 ≤ k ∧ k ≤ k1) ∧
    (∃ du dv, (du, dv) ≠ (0, 0) ∧ normalCurvature f du dv = some k1) ∧
    (∃ du dv, (du, dv) ≠ (0, 0) ∧ normalCurvature f du dv = some k2) := by
  obtain ⟨k1, k2, hp, hle, hs, hm⟩ := principal_spec f h
  have ha := h.2
  have hE := h.1
  have hG := regular_G f h
  have hfac := fun k => quad_factor f k1 k2 k hs hm
  have q1 : quad f k1 = 0 := by rw [hfac]; ring
  have q2 : quad f k2 = 0 := by rw [hfac]; ring
  refine ⟨k1, k2, hp, hle, ?_, ?_, ?_, attained f h k1 q1, attained f h k2 q2⟩
  · unfold gaussian
    dsimp only
    rw [if_neg ha.ne']
    congr 1
    rw [div_eq_iff ha.ne']
    linarith
  · unfold mean
    dsimp only
    rw [if_neg (by linarith)]
    congr 1
    rw [div_eq_iff (by linarith : 2 * (f.E * f.G - f.F ^ 2) ≠ 0)]
    linarith
  · have between : ∀ x : ℝ, quad f x ≤ 0 → k2 ≤ x ∧ x ≤ k1 := by
      intro x hx
      rw [hfac] at hx
      have hx' : (x - k1) * (x - k2) ≤ 0 := by
        by_contra hc
        exact absurd hx (not_le.mpr (mul_pos ha (not_le.mp hc)))
      constructor
      · by_contra hc
        have a1 := not_le.mp hc
        nlinarith
      · by_contra hc
        have a1 := not_le.mp hc
        nlinarith
    have bE := between (f.L / f.E) (by
      unfold quad
      rw [div_mul_cancel₀ _ hE.ne', sub_self, zero_mul, zero_sub]
      exact neg_nonpos.mpr (sq_nonneg _))
    have bG := between (f.N / f.G) (by
      unfold quad
      rw [div_mul_cancel₀ _ hG.ne', sub_self, mul_zero, zero_sub]
      exact neg_nonpos.mpr (sq_nonneg _))
    rw [le_div_iff₀ hE, div_le_iff₀ hE] at bE
    rw [le_div_iff₀ hG, div_le_iff₀ hG] at bG
    unfold quad at q1 q2
    intro du dv hd
    have hI := first_pos f h du dv hd
    have s1 := one_side (f.L - k1 * f.E) (f.M - k1 * f.F) (f.N - k1 * f.G) (by linarith [bE.2]) (by linarith [bG.2])
      (by linarith) du dv
    have s2 := one_side (-(f.L - k2 * f.E)) (-(f.M - k2 * f.F)) (-(f.N - k2 * f.G)) (by linarith [bE.1])
      (by linarith [bG.1]) (by linear_combination q2) du dv
    refine ⟨_, by unfold normalCurvature; dsimp only; rw [if_neg hI.ne'], ?_, ?_⟩
    · rw [le_div_iff₀ hI]
      linarith
    · rw [div_le_iff₀ hI]
      linarith

/-- The forms of a slanted parametrisation of a saddle. -/
example : Regular ⟨2, 1, 3, 1, 2, -1⟩ := by
  unfold Regular
  norm_num

theorem unit2_some (a b : ℝ) (d : ℝ × ℝ) (h : unit2 a b = some d) :
    0 < √(a ^ 2 + b ^ 2) ∧ d = (a / √(a ^ 2 + b ^ 2), b / √(a ^ 2 + b ^ 2)) ∧ d.1 ^ 2 + d.2 ^ 2 = 1 := by
  unfold unit2 at h
  dsimp only at h
  by_cases h0 : √(a ^ 2 + b ^ 2) = 0
  · rw [if_pos h0] at h
    exact absurd h (by simp)
  · rw [if_neg h0] at h
    have hs := Real.sq_sqrt (show 0 ≤ a ^ 2 + b ^ 2 by positivity)
    have hd := (Option.some.inj h).symm
    refine ⟨lt_of_le_of_ne (Real.sqrt_nonneg _) (Ne.symm h0), hd, ?_⟩
    rw [hd]
    dsimp only
    rw [div_pow, div_pow, hs, ← add_div, div_self]
    rw [← hs]
    exact pow_ne_zero 2 h0

theorem unit2_none (a b : ℝ) : unit2 a b = none ↔ a = 0 ∧ b = 0 := by
  unfold unit2
  dsimp only
  constructor
  · intro h
    by_cases h0 : √(a ^ 2 + b ^ 2) = 0
    · have := (Real.sqrt_eq_zero (by positivity)).mp h0
      constructor
      · nlinarith [sq_nonneg a, sq_nonneg b]
      · nlinarith [sq_nonneg a, sq_nonneg b]
    · rw [if_neg h0] at h
      exact absurd h (by simp)
  · rintro ⟨rfl, rfl⟩
    rw [if_pos (by norm_num)]

/-- C181, what holds.  A principal direction that is a number has length one, and its normal curvature is the
principal curvature.  When both are numbers, they are perpendicular on the surface. -/
theorem C181_directions_partial (f : Forms) (h : Regular f) (k1 k2 : ℝ) (hp : principal f = some (k1, k2)) :
    let d := principalDirections f k1 k2
    (∀ x, d.1 = some x → x.1 ^ 2 + x.2 ^ 2 = 1 ∧ normalCurvature f x.1 x.2 = some k1) ∧
    (∀ x, d.2 = some x → x.1 ^ 2 + x.2 ^ 2 = 1 ∧ normalCurvature f x.1 x.2 = some k2) ∧
    ∀ x y, d.1 = some x → d.2 = some y →
      f.E * x.1 * y.1 + f.F * (x.1 * y.2 + x.2 * y.1) + f.G * x.2 * y.2 = 0 := by
  obtain ⟨k1', k2', hp', hle, hs, hm⟩ := principal_spec f h
  obtain ⟨rfl, rfl⟩ := Prod.mk.inj (Option.some.inj (hp.symm.trans hp'))
  have hfac := fun k => quad_factor f k1 k2 k hs hm
  have q1 : quad f k1 = 0 := by rw [hfac]; ring
  have q2 : quad f k2 = 0 := by rw [hfac]; ring
  have gen : ∀ k, quad f k = 0 → ∀ x, unit2 (-(f.M - k * f.F)) (f.L - k * f.E) = some x →
      x.1 ^ 2 + x.2 ^ 2 = 1 ∧ normalCurvature f x.1 x.2 = some k := by
    intro k hk x hx
    obtain ⟨hr, hd, h1⟩ := unit2_some _ _ _ hx
    refine ⟨h1, ?_⟩
    have hI := (first_pos f h x.1 x.2 (by
      intro hc
      have e1 : x.1 = 0 := congrArg Prod.fst hc
      have e2 : x.2 = 0 := congrArg Prod.snd hc
      rw [e1, e2] at h1
      norm_num at h1)).ne'
    unfold normalCurvature
    dsimp only
    rw [if_neg hI]
    congr 1
    rw [div_eq_iff hI]
    generalize √((-(f.M - k * f.F)) ^ 2 + (f.L - k * f.E) ^ 2) = r at hr hd
    have hr' := hr.ne'
    rw [hd]
    dsimp only
    unfold quad at hk
    field_simp
    linear_combination (f.L - k * f.E) * hk
  refine ⟨gen k1 q1, gen k2 q2, fun x y hx hy => ?_⟩
  obtain ⟨hr1, hd1, -⟩ := unit2_some _ _ _ hx
  obtain ⟨hr2, hd2, -⟩ := unit2_some _ _ _ hy
  generalize √((-(f.M - k1 * f.F)) ^ 2 + (f.L - k1 * f.E) ^ 2) = r1 at hr1 hd1
  generalize √((-(f.M - k2 * f.F)) ^ 2 + (f.L - k2 * f.E) ^ 2) = r2 at hr2 hd2
  have h1' := hr1.ne'
  have h2' := hr2.ne'
  rw [hd1, hd2]
  dsimp only
  field_simp
  linear_combination f.E * hm - f.L * hs

/-- A slanted saddle whose two directions are numbers: no principal curvature makes the direction vanish. -/
example (k : ℝ) : ¬ ((2 : ℝ) - k * 1 = 0 ∧ (1 : ℝ) - k * 2 = 0) := by
  rintro ⟨h1, h2⟩
  linarith

/-- C181, refuted.  Whenever the parameter lines are perpendicular and are themselves the lines of curvature — every
surface of revolution, every cylinder, every torus with its usual parameters — the direction of the larger (or of the
smaller) principal curvature is NaN; at an umbilic both are. -/
theorem C181_orthogonal_refuted (E G L N : ℝ) (hE : 0 < E) (hG : 0 < G) :
    ∃ k1 k2, principal ⟨E, 0, G, L, 0, N⟩ = some (k1, k2) ∧
      (N * E ≤ L * G → (principalDirections ⟨E, 0, G, L, 0, N⟩ k1 k2).1 = none) ∧
      (L * G ≤ N * E → (principalDirections ⟨E, 0, G, L, 0, N⟩ k1 k2).2 = none) := by
  have hreg : Regular ⟨E, 0, G, L, 0, N⟩ := by
    refine ⟨hE, ?_⟩
    show 0 < E * G - (0 : ℝ) ^ 2
    have := mul_pos hE hG
    linarith
  obtain ⟨k1, k2, hp, hle, hs, hm⟩ := principal_spec _ hreg
  dsimp only at hs hm
  have hEG := mul_pos hE hG
  have f1 : (E * k1 - L) * (G * k1 - N) = 0 := by linear_combination k1 * hs - hm
  have f2 : (E * k2 - L) * (G * k2 - N) = 0 := by linear_combination k2 * hs - hm
  refine ⟨k1, k2, hp, fun hc => ?_, fun hc => ?_⟩
  · show unit2 (-(0 - k1 * 0)) (L - k1 * E) = none
    rw [unit2_none]
    refine ⟨by ring, ?_⟩
    rcases mul_eq_zero.mp f1 with h1 | h1
    · linarith
    · have hk1 : k1 = N / G := by rw [eq_div_iff hG.ne']; linarith
      have hk2 : E * k2 = L := by
        have : G * (E * k2) = G * L := by
          have e : G * k1 = N := by linarith
          linear_combination hs - E * e
        exact mul_left_cancel₀ hG.ne' this
      have h3 : G * L ≤ E * N := by
        have := mul_le_mul_of_nonneg_left hle hEG.le
        have e : G * k1 = N := by linarith
        calc G * L = E * G * k2 := by rw [← hk2]; ring
          _ ≤ E * G * k1 := this
          _ = E * N := by rw [← e]; ring
      have h4 : E * N = G * L := by linarith
      have : G * (L - k1 * E) = 0 := by
        have e : G * k1 = N := by linarith
        linear_combination -h4 - E * e
      rcases mul_eq_zero.mp this with h5 | h5
      · exact absurd h5 hG.ne'
      · exact h5
  · show unit2 (-(0 - k2 * 0)) (L - k2 * E) = none
    rw [unit2_none]
    refine ⟨by ring, ?_⟩
    rcases mul_eq_zero.mp f2 with h1 | h1
    · linarith
    · have hk1 : E * k1 = L := by
        have : G * (E * k1) = G * L := by
          have e : G * k2 = N := by linarith
          linear_combination hs - E * e
        exact mul_left_cancel₀ hG.ne' this
      have h3 : E * N ≤ G * L := by
        have := mul_le_mul_of_nonneg_left hle hEG.le
        have e : G * k2 = N := by linarith
        calc E * N = E * G * k2 := by rw [← e]; ring
          _ ≤ E * G * k1 := this
          _ = G * L := by rw [← hk1]; ring
      have h4 : E * N = G * L := by linarith
      have : G * (L - k2 * E) = 0 := by
        have e : G * k2 = N := by linarith
        linear_combination -h4 - E * e
      rcases mul_eq_zero.mp this with h5 | h5
      · exact absurd h5 hG.ne'
      · exact h5

end Verif.Dg
