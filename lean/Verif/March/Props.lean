import Verif.March.Model
import Mathlib.Tactic.Linarith
import Mathlib.Tactic.LinearCombination
import Mathlib.Tactic.FieldSimp
import Mathlib.Tactic.Positivity
import Mathlib.Algebra.Order.Archimedean.Basic
import Mathlib.Tactic.Abel
import Mathlib.Tactic.Module

/-! # C219: `curve_point` and `surface_point` return a point on the curve or surface -/

set_option linter.unusedSectionVars false

noncomputable section

open scoped InnerProductSpace Classical

namespace Verif.March

variable {E : Type*} [NormedAddCommGroup E] [InnerProductSpace ℝ E]

theorem inner_self_pos' {v : E} (h : v ≠ 0) : ⟪v, v⟫_ℝ > 0 := real_inner_self_pos.2 h

theorem descend_of_ne (f : E → ℝ) (g : E → E) (p : E) (h : g p ≠ 0) :
    descend f g p = p + (-f p / ⟪g p, g p⟫_ℝ) • g p := by
  have h' := inner_self_pos' h
  unfold descend
  simp only [if_pos h']

theorem descend_of_zero (f : E → ℝ) (g : E → E) (p : E) (h : g p = 0) : descend f g p = p := by
  unfold descend
  simp [h]

/-- After a step the linear part of the function vanishes. -/
theorem descend_linear (f : E → ℝ) (g : E → E) (p : E) (h : g p ≠ 0) :
    f p + ⟪g p, descend f g p - p⟫_ℝ = 0 := by
  rw [descend_of_ne f g p h, add_sub_cancel_left, inner_smul_right]
  have := inner_self_pos' h
  field_simp
  ring

theorem curveLoop_spec (f : E → ℝ) (g : E → E) (delta : ℝ) (fuel : ℕ) : ∀ (p q r : E), q = descend f g p →
    curveLoop f g delta fuel p q = some r → ∃ s, r = descend f g s ∧ ‖s - r‖ ≤ delta := by
  induction fuel with
  | zero =>
    intro p q r hq h
    unfold curveLoop at h
    by_cases hd : delta < ‖p - q‖
    · rw [if_pos hd] at h; cases h
    · rw [if_neg hd] at h
      obtain rfl : q = r := by simpa using h
      exact ⟨p, hq, not_lt.1 hd⟩
  | succ n ih =>
    intro p q r hq h
    unfold curveLoop at h
    by_cases hd : delta < ‖p - q‖
    · rw [if_pos hd] at h
      exact ih q _ r rfl h
    · rw [if_neg hd] at h
      obtain rfl : q = r := by simpa using h
      exact ⟨p, hq, not_lt.1 hd⟩

theorem surfacePoint_spec (f : E → ℝ) (g : E → E) (tol : ℝ) (fuel : ℕ) : ∀ (p r : E),
    surfacePoint f g tol fuel p = some r → ∃ s, r = descend f g s ∧ ‖s - r‖ < tol := by
  induction fuel with
  | zero =>
    intro p r h
    unfold surfacePoint at h
    by_cases hd : ‖descend f g p - p‖ < tol
    · simp only [if_pos hd, Option.some.injEq] at h
      exact ⟨p, h.symm, by rw [← h, norm_sub_rev]; exact hd⟩
    · simp [if_neg hd] at h
  | succ n ih =>
    intro p r h
    unfold surfacePoint at h
    by_cases hd : ‖descend f g p - p‖ < tol
    · simp only [if_pos hd, Option.some.injEq] at h
      exact ⟨p, h.symm, by rw [← h, norm_sub_rev]; exact hd⟩
    · simp only [if_neg hd] at h
      exact ih _ r h

theorem remainder_bound (f : E → ℝ) (g : E → E) (L : ℝ) (hL : 0 ≤ L)
    (hf : ∀ x y, |f y - f x - ⟪g x, y - x⟫_ℝ| ≤ L * ‖y - x‖ ^ 2) (s : E) (hs : g s ≠ 0) (delta : ℝ)
    (hd : ‖s - descend f g s‖ ≤ delta) : |f (descend f g s)| ≤ L * delta ^ 2 := by
  have h1 := hf s (descend f g s)
  have h2 := descend_linear f g s hs
  have h3 : f (descend f g s) - f s - ⟪g s, descend f g s - s⟫_ℝ = f (descend f g s) := by linarith
  rw [h3] at h1
  refine h1.trans (mul_le_mul_of_nonneg_left ?_ hL)
  rw [norm_sub_rev] at hd
  exact pow_le_pow_left₀ (norm_nonneg _) hd 2

/-- **C219 (partial).**  Full claim: the point returned lies on the curve up to an error quadratic in `delta`.  If the
function has no critical point and a quadratic remainder (`L` is half a Lipschitz constant of the gradient) then the value
at the returned point is at most `L * delta²`.  Missing: functions with critical points. -/
theorem C219_near_partial (f : E → ℝ) (g : E → E) (L : ℝ) (hL : 0 ≤ L)
    (hf : ∀ x y, |f y - f x - ⟪g x, y - x⟫_ℝ| ≤ L * ‖y - x‖ ^ 2) (hg : ∀ x, g x ≠ 0) (delta : ℝ) (fuel : ℕ) (p q : E) :
    (curvePoint f g delta fuel p = some q → |f q| ≤ L * delta ^ 2) ∧
    (surfacePoint f g delta fuel p = some q → |f q| ≤ L * delta ^ 2) := by
  constructor
  · intro h
    obtain ⟨s, rfl, hs⟩ := curveLoop_spec f g delta fuel p _ q rfl h
    exact remainder_bound f g L hL hf s (hg s) delta hs
  · intro h
    obtain ⟨s, rfl, hs⟩ := surfacePoint_spec f g delta fuel p q h
    exact remainder_bound f g L hL hf s (hg s) delta hs.le

/-- **C219, refuted at critical points.**  Starting where the gradient vanishes both functions return the start, whatever
the value of the function there: the centre of a sphere is returned as a point of the sphere. -/
theorem C219_critical_refuted (f : E → ℝ) (g : E → E) (delta : ℝ) (fuel : ℕ) (p : E) (hg : g p = 0) :
    (0 ≤ delta → curvePoint f g delta fuel p = some p) ∧ (0 < delta → surfacePoint f g delta fuel p = some p) := by
  constructor
  · intro hd
    unfold curvePoint curveLoop
    rw [descend_of_zero f g p hg, sub_self, norm_zero, if_neg (not_lt.2 hd)]
  · intro hd
    unfold surfacePoint
    simp only [descend_of_zero f g p hg, sub_self, norm_zero, if_pos hd]

/-! ## Planes -/

/-- The linear function of a plane. -/
def lin (n : E) (c : ℝ) (x : E) : ℝ := ⟪n, x⟫_ℝ - c

theorem descend_lin (n : E) (hn : n ≠ 0) (c : ℝ) (p : E) : lin n c (descend (lin n c) (fun _ => n) p) = 0 := by
  have h := descend_linear (lin n c) (fun _ => n) p hn
  unfold lin at h ⊢
  rw [inner_sub_right] at h
  linarith

theorem descend_on (f : E → ℝ) (g : E → E) (p : E) (h : f p = 0) : descend f g p = p := by
  unfold descend
  simp [h]

/-- **C219 for planes.**  Both functions return the point of the plane (line) closest to the start. -/
theorem C219_plane (n : E) (hn : n ≠ 0) (c : ℝ) (delta : ℝ) (fuel : ℕ) (hf : 1 ≤ fuel) (p : E) :
    ∃ q, lin n c q = 0 ∧ (∀ x, lin n c x = 0 → ‖p - q‖ ≤ ‖p - x‖) ∧
      (0 ≤ delta → curvePoint (lin n c) (fun _ => n) delta fuel p = some q) ∧
      (0 < delta → surfacePoint (lin n c) (fun _ => n) delta fuel p = some q) := by
  refine ⟨descend (lin n c) (fun _ => n) p, descend_lin n hn c p, ?_, ?_, ?_⟩
  · intro x hx
    rw [descend_of_ne _ _ _ hn]
    have h1 : p - (p + (-lin n c p / ⟪n, n⟫_ℝ) • n) = (lin n c p / ⟪n, n⟫_ℝ) • n := by
      rw [neg_div]; module
    rw [h1, norm_smul]
    have h2 : lin n c p = ⟪n, p - x⟫_ℝ := by
      unfold lin at hx ⊢
      rw [inner_sub_right]; linarith
    have h3 : |⟪n, p - x⟫_ℝ| ≤ ‖n‖ * ‖p - x‖ := abs_real_inner_le_norm _ _
    have h4 : 0 < ‖n‖ := norm_pos_iff.2 hn
    rw [h2, Real.norm_eq_abs, abs_div, real_inner_self_eq_norm_sq, abs_of_pos (by positivity : (0:ℝ) < ‖n‖ ^ 2)]
    rw [div_mul_eq_mul_div, div_le_iff₀ (by positivity)]
    nlinarith
  · intro hd
    obtain ⟨m, rfl⟩ : ∃ m, fuel = m + 1 := ⟨fuel - 1, by omega⟩
    have hz := descend_on (lin n c) (fun _ => n) _ (descend_lin n hn c p)
    unfold curvePoint curveLoop
    split_ifs with h
    · dsimp only
      unfold curveLoop
      rw [hz, sub_self, norm_zero, if_neg (not_lt.2 hd)]
    · rfl
  · intro hd
    obtain ⟨m, rfl⟩ : ∃ m, fuel = m + 1 := ⟨fuel - 1, by omega⟩
    have hz := descend_on (lin n c) (fun _ => n) _ (descend_lin n hn c p)
    unfold surfacePoint
    dsimp only
    split_ifs with h
    · rfl
    · unfold surfacePoint
      dsimp only
      rw [hz, sub_self, norm_zero, if_pos hd]

/-! ## Spheres and circles -/

/-- The quadratic function of a sphere (circle) and its gradient. -/
def sph (c : E) (r : ℝ) (x : E) : ℝ := ‖x - c‖ ^ 2 - r ^ 2
def sphGrad (c : E) (x : E) : E := (2 : ℝ) • (x - c)

theorem descend_sph (c : E) (r ρ : ℝ) (u : E) (hu : ‖u‖ = 1) (hρ : 0 < ρ) :
    descend (sph c r) (sphGrad c) (c + ρ • u) = c + ((ρ + r ^ 2 / ρ) / 2) • u := by
  have hne : sphGrad c (c + ρ • u) ≠ 0 := by
    unfold sphGrad
    rw [add_sub_cancel_left, smul_smul]
    intro h
    have : ‖(2 * ρ) • u‖ = 0 := by rw [h, norm_zero]
    rw [norm_smul, hu, Real.norm_eq_abs, mul_one, abs_of_pos (by linarith)] at this
    linarith
  rw [descend_of_ne _ _ _ hne]
  unfold sph sphGrad
  rw [add_sub_cancel_left, norm_smul, hu, Real.norm_eq_abs, abs_of_pos hρ, mul_one]
  rw [inner_smul_left, inner_smul_right, inner_smul_left, inner_smul_right, real_inner_self_eq_norm_sq, hu]
  rw [add_assoc, smul_smul, smul_smul, ← add_smul]
  congr 2
  simp only [RCLike.conj_to_real]
  field_simp
  ring

theorem ray_dist (c u : E) (hu : ‖u‖ = 1) (a b : ℝ) : ‖(c + a • u) - (c + b • u)‖ = |a - b| := by
  rw [add_sub_add_left_eq_sub, ← sub_smul, norm_smul, hu, mul_one, Real.norm_eq_abs]

/-- The loop on a ray, from a point outside the sphere: it ends, and close to the sphere. -/
theorem sphere_loop (c u : E) (hu : ‖u‖ = 1) (r : ℝ) (hr : 0 < r) (delta : ℝ) (hd : 0 < delta) (k : ℕ) :
    ∀ ρ : ℝ, r ≤ ρ → ρ ≤ r + k * delta → ∀ fuel, k ≤ fuel →
      ∃ σ, curveLoop (sph c r) (sphGrad c) delta fuel (c + ρ • u) (c + ((ρ + r ^ 2 / ρ) / 2) • u) = some (c + σ • u) ∧
        r ≤ σ ∧ σ - r ≤ delta ^ 2 / (2 * r) := by
  induction k with
  | zero =>
    intro ρ h1 h2 fuel _
    have : ρ = r := by
      have : ρ ≤ r := by simpa using h2
      linarith
    subst this
    refine ⟨ρ, ?_, le_rfl, by rw [sub_self]; positivity⟩
    have e : (ρ + ρ ^ 2 / ρ) / 2 = ρ := by field_simp; ring
    unfold curveLoop
    rw [e, sub_self, norm_zero, if_neg (not_lt.2 hd.le)]
  | succ k ih =>
    intro ρ h1 h2 fuel hk
    have hρ : 0 < ρ := by linarith
    set ρ' := (ρ + r ^ 2 / ρ) / 2 with hρ'
    have key : ρ' - r = (ρ - r) ^ 2 / (2 * ρ) := by rw [hρ']; field_simp; ring
    have key2 : ρ - ρ' = (ρ - r) * (ρ + r) / (2 * ρ) := by rw [hρ']; field_simp; ring
    have hge : r ≤ ρ' := by
      have : 0 ≤ (ρ - r) ^ 2 / (2 * ρ) := by positivity
      linarith
    have hge2 : 0 ≤ ρ - ρ' := by
      rw [key2]
      have : 0 ≤ ρ - r := by linarith
      positivity
    unfold curveLoop
    rw [ray_dist c u hu, abs_of_nonneg hge2]
    by_cases h : delta < ρ - ρ'
    · rw [if_pos h]
      obtain ⟨m, rfl⟩ : ∃ m, fuel = m + 1 := ⟨fuel - 1, by omega⟩
      dsimp only
      rw [descend_sph c r ρ' u hu (by linarith)]
      apply ih ρ' hge _ m (by omega)
      push_cast at h2
      nlinarith
    · rw [if_neg h]
      refine ⟨ρ', rfl, hge, ?_⟩
      rw [key]
      have h3 : (ρ - r) * (ρ + r) ≤ delta * (2 * ρ) := by
        have := not_lt.1 h
        rw [key2, div_le_iff₀ (by positivity)] at this
        exact this
      rw [div_le_div_iff₀ (by positivity) (by positivity)]
      have h4 : 0 ≤ (ρ - r) * (ρ + r) := mul_nonneg (by linarith) (by linarith)
      have h5 : ((ρ - r) * (ρ + r)) ^ 2 ≤ (delta * (2 * ρ)) ^ 2 := pow_le_pow_left₀ h4 h3 2
      have h6 : 4 * ρ * r ≤ (ρ + r) ^ 2 := by nlinarith [sq_nonneg (ρ - r)]
      have h7 : (ρ - r) ^ 2 * (4 * ρ * r) ≤ (ρ - r) ^ 2 * (ρ + r) ^ 2 := mul_le_mul_of_nonneg_left h6 (sq_nonneg _)
      have h8 : (ρ - r) ^ 2 * (4 * ρ * r) ≤ 4 * ρ ^ 2 * delta ^ 2 := by nlinarith
      have h9 : ρ * ((ρ - r) ^ 2 * (2 * r)) ≤ ρ * (delta ^ 2 * (2 * ρ)) := by nlinarith
      exact le_of_mul_le_mul_left h9 hρ

/-- **C219 for spheres and circles.**  From every start other than the centre `curve_point` ends, and returns a point on
the ray from the centre through the start, outside the sphere by at most `delta² / (2 r)`. -/
theorem C219_sphere (c p : E) (hp : p ≠ c) (r : ℝ) (hr : 0 < r) (delta : ℝ) (hd : 0 < delta) :
    ∃ N, ∀ fuel, N ≤ fuel → ∃ (q : E) (t : ℝ), curvePoint (sph c r) (sphGrad c) delta fuel p = some q ∧ 0 < t ∧ q - c = t • (p - c) ∧
      r ≤ ‖q - c‖ ∧ ‖q - c‖ ≤ r + delta ^ 2 / (2 * r) := by
  have hpos : 0 < ‖p - c‖ := norm_pos_iff.2 (sub_ne_zero.2 hp)
  set ρ := ‖p - c‖ with hρ
  set u : E := ρ⁻¹ • (p - c) with hu'
  have hu : ‖u‖ = 1 := by rw [hu', norm_smul, Real.norm_eq_abs, abs_of_pos (inv_pos.2 hpos), ← hρ]; field_simp
  have hpu : p = c + ρ • u := by
    rw [hu', smul_smul, mul_inv_cancel₀ hpos.ne', one_smul]; abel
  set ρ' := (ρ + r ^ 2 / ρ) / 2 with hρ'
  have hge : r ≤ ρ' := by
    have key : ρ' - r = (ρ - r) ^ 2 / (2 * ρ) := by rw [hρ']; field_simp; ring
    have : 0 ≤ (ρ - r) ^ 2 / (2 * ρ) := by positivity
    linarith
  obtain ⟨k, hk⟩ := exists_nat_ge ((ρ' - r) / delta)
  have hk' : ρ' ≤ r + k * delta := by
    rw [div_le_iff₀ hd] at hk; linarith
  refine ⟨k + 1, fun fuel hf => ?_⟩
  have fin : ∀ σ, r ≤ σ → σ - r ≤ delta ^ 2 / (2 * r) →
      ∃ t : ℝ, 0 < t ∧ (c + σ • u) - c = t • (p - c) ∧ r ≤ ‖(c + σ • u) - c‖ ∧ ‖(c + σ • u) - c‖ ≤ r + delta ^ 2 / (2 * r) := by
    intro σ h1 h2
    have hσ : 0 < σ := by linarith
    refine ⟨σ * ρ⁻¹, by positivity, ?_, ?_, ?_⟩
    · rw [add_sub_cancel_left, hu', smul_smul]
    all_goals rw [add_sub_cancel_left, norm_smul, hu, mul_one, Real.norm_eq_abs, abs_of_pos hσ]; linarith
  have hstep : curvePoint (sph c r) (sphGrad c) delta fuel p =
      curveLoop (sph c r) (sphGrad c) delta fuel (c + ρ • u) (c + ρ' • u) := by
    unfold curvePoint
    rw [hpu, descend_sph c r ρ u hu hpos]
  obtain ⟨m, rfl⟩ : ∃ m, fuel = m + 1 := ⟨fuel - 1, by omega⟩
  by_cases h : delta < ‖(c + ρ • u) - (c + ρ' • u)‖
  · obtain ⟨σ, h1, h2, h3⟩ := sphere_loop c u hu r hr delta hd k ρ' hge hk' m (by omega)
    obtain ⟨t, ht⟩ := fin σ h2 h3
    refine ⟨_, t, ?_, ht⟩
    rw [hstep]
    unfold curveLoop
    rw [if_pos h]
    dsimp only
    rw [descend_sph c r ρ' u hu (by linarith)]
    exact h1
  · have hd' := not_lt.1 h
    rw [ray_dist c u hu] at hd'
    have h3 : ρ' - r ≤ delta ^ 2 / (2 * r) := by
      have key : ρ' - r = (ρ - r) ^ 2 / (2 * ρ) := by rw [hρ']; field_simp; ring
      have key2 : ρ - ρ' = (ρ - r) * (ρ + r) / (2 * ρ) := by rw [hρ']; field_simp; ring
      have h4 : (ρ - ρ') ^ 2 ≤ delta ^ 2 := by
        rw [← sq_abs]; exact pow_le_pow_left₀ (abs_nonneg _) hd' 2
      have h6 : 4 * ρ * r ≤ (ρ + r) ^ 2 := by nlinarith [sq_nonneg (ρ - r)]
      have h7 : (ρ - r) ^ 2 * (4 * ρ * r) ≤ (ρ - r) ^ 2 * (ρ + r) ^ 2 := mul_le_mul_of_nonneg_left h6 (sq_nonneg _)
      rw [key2, div_pow, div_le_iff₀ (by positivity)] at h4
      have h8 : (ρ - r) ^ 2 * (4 * ρ * r) ≤ 4 * ρ ^ 2 * delta ^ 2 := by nlinarith
      rw [key, div_le_div_iff₀ (by positivity) (by positivity)]
      have h9 : ρ * ((ρ - r) ^ 2 * (2 * r)) ≤ ρ * (delta ^ 2 * (2 * ρ)) := by nlinarith
      exact le_of_mul_le_mul_left h9 hpos
    obtain ⟨t, ht⟩ := fin ρ' hge h3
    refine ⟨_, t, ?_, ht⟩
    rw [hstep]
    unfold curveLoop
    rw [if_neg h]

/-- The centre of a sphere of radius 2 about 1 on the line is returned, where the function is -4. -/
example : curvePoint (sph (1 : ℝ) 2) (sphGrad 1) 0.001 10 1 = some 1 ∧ sph (1 : ℝ) 2 1 = -4 := by
  refine ⟨(C219_critical_refuted _ _ _ _ _ (by simp [sphGrad])).1 (by norm_num), by norm_num [sph]⟩

/-- A function with quadratic remainder and no critical point. -/
example : (∀ x y : ℝ, |(lin (3 : ℝ) 1) y - (lin (3 : ℝ) 1) x - ⟪(3 : ℝ), y - x⟫_ℝ| ≤ 0 * ‖y - x‖ ^ 2) ∧ ∀ _ : ℝ, (3:ℝ) ≠ 0 := by
  refine ⟨fun x y => ?_, fun _ => by norm_num⟩
  unfold lin
  rw [inner_sub_right]
  simp

example : (5 : ℝ) ≠ 1 ∧ (0 : ℝ) < 2 ∧ (0 : ℝ) < 0.001 := by norm_num

end Verif.March
