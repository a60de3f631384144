import Verif.Epl.Model
import Verif.Cbb.Props

/-! # C420: the parameter at a given length -/

set_option linter.unusedSectionVars false

namespace Verif.Epl

variable {K : Type} [Field K] [LinearOrder K] [IsStrictOrderedRing K]

/-- The distance to a root `z`, times a speed. -/
def cone (v z : K) (t : K) : K := |v * (t - z)|

theorem cone_eq {v : K} (hv : 0 < v) (z t : K) : cone v z t = v * |t - z| := by
  rw [cone, abs_mul, abs_of_pos hv]

theorem fdm_cone {v h : K} (hv : 0 < v) (z t : K) :
    fdm h (cone v z) t = v * (|t - z + h| - |t - z - h|) / (2 * h) := by
  unfold fdm
  rw [cone_eq hv, cone_eq hv]
  rw [show t + h - z = t - z + h by ring, show t - h - z = t - z - h by ring]
  ring

/-- Far from the root the difference is the slope. -/
theorem fdm_far {v h : K} (hv : 0 < v) (hh : 0 < h) {z t : K} (hd : h ≤ |t - z|) :
    fdm h (cone v z) t = if z ≤ t then v else - v := by
  rw [fdm_cone hv]
  split_ifs with hzt
  · rw [abs_of_nonneg (by linarith)] at hd
    rw [abs_of_nonneg (by linarith), abs_of_nonneg (by linarith)]
    field_simp
    ring
  · rw [abs_of_neg (by linarith)] at hd
    rw [abs_of_nonpos (by linarith), abs_of_nonpos (by linarith)]
    field_simp
    ring

/-- Near the root it is in proportion to the distance. -/
theorem fdm_near {v h : K} (hv : 0 < v) (hh : 0 < h) {z t : K} (hd : |t - z| ≤ h) :
    fdm h (cone v z) t = v * (t - z) / h := by
  rw [fdm_cone hv]
  obtain ⟨h1, h2⟩ := abs_le.1 hd
  rw [abs_of_nonneg (by linarith), abs_of_nonpos (by linarith)]
  field_simp
  ring

/-- A Newton step is never shorter than the step of the difference. -/
theorem step_ge {v h : K} (hv : 0 < v) (hh : 0 < h) {z t : K} (hne : t ≠ z) :
    h ≤ |cone v z t / fdm h (cone v z) t| := by
  have hpos : 0 < |t - z| := abs_pos.2 (sub_ne_zero.2 hne)
  rw [abs_div, cone_eq hv, abs_mul, abs_abs, abs_of_pos hv]
  rcases le_total h |t - z| with hd | hd
  · rw [fdm_far hv hh hd]
    have : |if z ≤ t then v else - v| = v := by split_ifs <;> simp [abs_of_pos hv]
    rw [this, mul_comm, mul_div_assoc, div_self hv.ne', mul_one]
    exact hd
  · rw [fdm_near hv hh hd, abs_div, abs_mul, abs_of_pos hv, abs_of_pos hh]
    rw [div_div_eq_mul_div, mul_comm (v * |t - z|) h, mul_div_assoc, div_self (by positivity), mul_one]

theorem halley_ge {v h f2 : K} (hv : 0 < v) (hh : 0 < h) {z t : K} (hne : t ≠ z) :
    h / 2 < |halleyStep (cone v z t) (fdm h (cone v z) t) f2| := by
  have hs := step_ge hv hh hne (v := v)
  unfold halleyStep
  dsimp only
  generalize cone v z t / fdm h (cone v z) t = s at hs ⊢
  generalize s * f2 / fdm h (cone v z) t / 2 = a
  split_ifs with ha
  · obtain ⟨a1, a2⟩ := abs_lt.1 ha
    rw [abs_div, abs_of_pos (show 0 < 1 - a by linarith), lt_div_iff₀ (by linarith)]
    have : h / 2 * (1 - a) < h / 2 * 2 := mul_lt_mul_of_pos_left (by linarith) (by linarith)
    linarith
  · linarith

theorem newton_exact {v h tol : K} (hv : 0 < v) (hh : 0 < h) (ht : 2 * tol ≤ h) {z : K} {f2 : K → K} (k : Nat) :
    ∀ {p r : K}, newton (cone v z) (fdm h (cone v z)) f2 tol k p = some r → r = z := by
  induction k with
  | zero => intro p r e; simp [newton] at e
  | succ k ih =>
    intro p r e
    rw [newton] at e
    split_ifs at e with h1 h2
    · cases e
      rw [cone_eq hv] at h1
      have := abs_eq_zero.1 ((mul_eq_zero.1 h1).resolve_left hv.ne')
      linarith
    · dsimp only at e
      have hne : p ≠ z := by rintro rfl; exact h1 (by simp [cone])
      have := halley_ge (f2 := f2 p) hv hh hne
      rw [if_neg (by rw [sub_sub_cancel_left, abs_neg]; linarith)] at e
      exact ih e

/-- From twice the step on, the first step ends at the root. -/
theorem newton_far {v h tol : K} (hv : 0 < v) (hh : 0 < h) (ht : 2 * tol ≤ h) {z p : K} (hd : 2 * h ≤ |p - z|) (k : Nat) :
    newton (cone v z) (fdm h (cone v z)) (fdm h (fdm h (cone v z))) tol (k + 2) p = some z := by
  have hne : p ≠ z := by rintro rfl; simp at hd; linarith
  have hz : ∀ q, q = z → newton (cone v z) (fdm h (cone v z)) (fdm h (fdm h (cone v z))) tol (k + 1) q = some z := by
    rintro q rfl
    rw [newton, if_pos (by simp [cone])]
  have hc : cone v z p ≠ 0 := by
    rw [cone_eq hv]
    exact mul_ne_zero hv.ne' (abs_ne_zero.2 (sub_ne_zero.2 hne))
  have h1 := fdm_far hv hh (show h ≤ |p - z| by linarith)
  have h2 : fdm h (fdm h (cone v z)) p = 0 := by
    have hs : fdm h (cone v z) (p + h) = fdm h (cone v z) (p - h) := by
      rcases le_total z p with hzp | hzp
      · rw [abs_of_nonneg (by linarith)] at hd
        rw [fdm_far hv hh (by rw [abs_of_nonneg (by linarith)]; linarith),
          fdm_far hv hh (by rw [abs_of_nonneg (by linarith)]; linarith), if_pos (by linarith), if_pos (by linarith)]
      · rw [abs_of_nonpos (by linarith)] at hd
        rw [fdm_far hv hh (by rw [abs_of_nonpos (by linarith)]; linarith),
          fdm_far hv hh (by rw [abs_of_nonpos (by linarith)]; linarith), if_neg (by linarith), if_neg (by linarith)]
    rw [fdm, hs, sub_self, zero_div]
  have hder : fdm h (cone v z) p ≠ 0 := by rw [h1]; split_ifs <;> simp [hv.ne']
  rw [newton, if_neg hc, if_neg hder]
  dsimp only
  have hstep : p - halleyStep (cone v z p) (fdm h (cone v z) p) (fdm h (fdm h (cone v z)) p) = z := by
    unfold halleyStep
    dsimp only
    rw [h2]
    simp only [mul_zero, zero_div, abs_zero, zero_lt_one, if_true, sub_zero, div_one]
    rw [h1, cone_eq hv]
    split_ifs with hzt
    · rw [abs_of_nonneg (by linarith)]; field_simp; ring
    · rw [abs_of_neg (by linarith)]; field_simp; ring
  have := halley_ge (f2 := fdm h (fdm h (cone v z)) p) hv hh hne
  rw [if_neg (by rw [sub_sub_cancel_left, abs_neg]; linarith)]
  exact hz _ hstep

theorem cone_of_length {v : K} (hv : 0 < v) (t0 l : K) :
    (fun t => |v * (t - t0) - l|) = cone v (t0 + l / v) := by
  funext t
  rw [cone]
  congr 1
  field_simp
  ring

/-- On a curve of constant speed every answer of `evaluate_parameter_from_length` is exact: the length from `t0` to it
is `l`. The steps never get short, so it only ever returns at a point where the computed length is right.
`_partial`: speeds that vary are not covered, and it may raise. -/
theorem C420_exact_partial (v t0 l : K) (limit : Option K) (tol sq h : K) (maxiter fuel : Nat) (hv : 0 < v) (hh : 0 < h)
    (ht : 2 * tol ≤ h) (p : K) (e : paramFromLength (fun t => v * (t - t0)) l t0 limit tol sq h maxiter fuel = some p) :
    v * (p - t0) = l := by
  unfold paramFromLength at e
  cases limit with
  | none => cases e
  | some t1 =>
    simp only [Option.bind_eq_bind, Option.bind_some] at e
    obtain ⟨r, _, e⟩ := Option.bind_eq_some_iff.1 e
    rw [cone_of_length hv] at e
    rw [newton_exact hv hh ht maxiter e]
    field_simp
    ring

/-- The step of Newton's method is at least half the step of the differences, whatever the point: the criterion with the
tolerance never applies. -/
theorem C420_steps (v z t h f2 : K) (hv : 0 < v) (hh : 0 < h) (hne : t ≠ z) :
    h / 2 < |halleyStep (cone v z t) (fdm h (cone v z) t) f2| := halley_ge hv hh hne

/-- The limit is not respected: for every length that is reached only beyond the limit (by twice the step of the
differences), the parameter beyond the limit is returned. -/
theorem C420_limit_refuted [Archimedean K] (v t0 t1 l tol sq h : K) (hv : 0 < v) (hh : 0 < h) (ht : 2 * tol ≤ h) (hsq : 0 < sq)
    (h01 : t0 ≤ t1) (hl : v * (t1 + 2 * h - t0) ≤ l) (k : Nat) :
    ∃ N, ∀ fuel ≥ N, ∃ p, paramFromLength (fun t => v * (t - t0)) l t0 (some t1) tol sq h (k + 2) fuel = some p ∧ t1 < p := by
  obtain ⟨n, hn⟩ := DnC.enough (t1 - t0) hsq (3 / 4) (by norm_num) (by norm_num)
  refine ⟨n + 1, fun fuel hf => ?_⟩
  obtain ⟨r, hr⟩ := Cbb.minIter_some (fun t => |v * (t - t0) - l|) h01 n fuel hn hf
  have hrange := Cbb.minIter_range h01 hr
  have hz : t1 + 2 * h ≤ t0 + l / v := by
    have : t1 + 2 * h - t0 ≤ l / v := by rw [le_div_iff₀ hv]; linarith
    linarith
  refine ⟨t0 + l / v, ?_, by linarith⟩
  unfold paramFromLength
  simp only [Option.bind_eq_bind, Option.bind_some]
  rw [hr, Option.bind_some, cone_of_length hv]
  exact newton_far hv hh ht (by rw [abs_of_nonpos (by linarith [hrange.2])]; linarith [hrange.2]) k

/-- Without a limit, the default, it raises for every curve and length. -/
theorem C420_default_refuted (len : K → K) (l t0 tol sq h : K) (maxiter fuel : Nat) :
    paramFromLength len l t0 none tol sq h maxiter fuel = none := rfl

/-! Cases: an exact answer, an answer beyond the limit, and no answer with few steps. -/
example : paramFromLength (fun t : ℚ => 2 * (t - 0)) 1 0 (some 1) (1 / 100000000) (1 / 10) (1 / 1000) 50 60 = some (1 / 2) := by
  decide +kernel
example : (paramFromLength (fun t : ℚ => 2 * (t - 0)) 1 0 (some 1) (1 / 100000000) (1 / 10000) (1 / 1000) 8 60).isNone = true := by
  decide +kernel
example : paramFromLength (fun t : ℚ => 2 * (t - 0)) 6 0 (some 1) (1 / 100000000) (1 / 100) (1 / 1000) 50 60 = some 3 := by
  decide +kernel

end Verif.Epl
