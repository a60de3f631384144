import Verif.March.Props3
import Mathlib.Analysis.SpecialFunctions.Trigonometric.Arctan
import Mathlib.Analysis.SpecialFunctions.Trigonometric.Bounds
import Mathlib.Algebra.Order.Floor.Semiring

/-! # C221 on a closed curve

The curve is the circle with radius `r` about 0 in the plane `ℂ` (a plane through the centre of a sphere, say).
`intersection_curve_point` is replaced by its exact limit, the closest point of the circle; the gradient of the sphere there
is the radius vector, and its cross product with the normal of the plane is the radius vector turned by a right angle. -/

set_option linter.unusedSectionVars false

noncomputable section

open scoped InnerProductSpace Classical

namespace Verif.March

open Complex

/-- The closest point of the circle. -/
def circleSolver (r : ℝ) (x : ℂ) : Option (Hit ℂ) :=
  let q := ((r / ‖x‖ : ℝ) : ℂ) * x
  some ⟨true, q, 0, 0, q, 0⟩

/-- Turning by a right angle. -/
def turn (g _ : ℂ) : ℂ := I * g

/-- The point reached after the angle `x`. -/
def rot (p : ℂ) (x : ℝ) : ℂ := p * exp (I * x)

theorem norm_rot (p : ℂ) (x : ℝ) : ‖rot p x‖ = ‖p‖ := by
  unfold rot
  rw [norm_mul, mul_comm I, norm_exp_ofReal_mul_I, mul_one]

theorem rot_add (p : ℂ) (x y : ℝ) : rot (rot p x) y = rot p (x + y) := by
  unfold rot
  rw [mul_assoc, ← exp_add]
  push_cast
  ring_nf

theorem rot_dist (p : ℂ) (x y : ℝ) : ‖rot p x - rot p y‖ = ‖p‖ * |2 * Real.sin ((x - y) / 2)| := by
  have : rot p x - rot p y = rot p y * (exp (I * ((x - y : ℝ) : ℂ)) - 1) := by
    unfold rot
    rw [mul_sub, mul_one, mul_assoc p, ← exp_add]
    push_cast
    ring_nf
  rw [this, norm_mul, norm_rot, norm_exp_I_mul_ofReal_sub_one, Real.norm_eq_abs]

variable (r step : ℝ)

/-- The angle of one step. -/
def ang : ℝ := Real.arctan (step / r)

variable {r step}

theorem ang_pos (hr : 0 < r) (hs : 0 < step) : 0 < ang r step := Real.arctan_pos.2 (by positivity)

theorem ang_le (hr : 0 < r) (hsr : step ≤ r) : ang r step ≤ Real.pi / 4 := by
  unfold ang
  rw [← Real.arctan_one]
  exact Real.arctan_strictMono.monotone (by rw [div_le_one hr]; exact hsr)

theorem cos_ang_pos (r step : ℝ) : 0 < Real.cos (ang r step) := Real.cos_arctan_pos _

theorem step_eq (hr : 0 < r) : step * Real.cos (ang r step) = r * Real.sin (ang r step) := by
  have h : Real.tan (ang r step) = step / r := Real.tan_arctan _
  rw [Real.tan_eq_sin_div_cos, div_eq_div_iff (cos_ang_pos r step).ne' hr.ne'] at h
  linarith

/-- One step of the march turns by `ang`. -/
theorem circle_step (hr : 0 < r) (p : ℂ) (hp : ‖p‖ = r) :
    circleSolver r (p + step • (‖turn p 0‖⁻¹ • turn p 0)) =
      some ⟨true, rot p (ang r step), 0, 0, rot p (ang r step), 0⟩ := by
  have hc := cos_ang_pos r step
  have ht : ‖turn p 0‖ = r := by unfold turn; rw [norm_mul, norm_I, one_mul, hp]
  have hx : p + step • (‖turn p 0‖⁻¹ • turn p 0) = (((Real.cos (ang r step))⁻¹ : ℝ) : ℂ) * rot p (ang r step) := by
    rw [ht]
    unfold turn rot
    rw [mul_comm I (ang r step : ℂ), exp_mul_I, ← ofReal_cos, ← ofReal_sin]
    have hs : (step : ℂ) * (Real.cos (ang r step) : ℂ) = r * (Real.sin (ang r step) : ℂ) := by
      exact_mod_cast step_eq hr
    have hc' : (Real.cos (ang r step) : ℂ) ≠ 0 := by exact_mod_cast hc.ne'
    have hr' : (r : ℂ) ≠ 0 := by exact_mod_cast hr.ne'
    simp only [real_smul, ofReal_inv]
    field_simp
    linear_combination p * I * hs
  unfold circleSolver
  dsimp only
  have hq : ((r / ‖p + step • (‖turn p 0‖⁻¹ • turn p 0)‖ : ℝ) : ℂ) * (p + step • (‖turn p 0‖⁻¹ • turn p 0)) = rot p (ang r step) := by
    rw [hx, norm_mul, norm_rot, hp, norm_real, Real.norm_eq_abs, abs_of_pos (inv_pos.2 hc), ← mul_assoc, ← ofReal_mul]
    have : r / ((Real.cos (ang r step))⁻¹ * r) * (Real.cos (ang r step))⁻¹ = 1 := by field_simp
    rw [this, ofReal_one, one_mul]
  rw [hq]

/-- The points after `0, 1, …, k - 1` steps. -/
def circlePts (p : ℂ) (a : ℝ) (k : ℕ) : List ℂ := (List.range k).map fun j : ℕ => rot p (j * a)

theorem circlePts_succ (p : ℂ) (a : ℝ) (k : ℕ) : circlePts p a (k + 1) = circlePts p a k ++ [rot p (k * a)] := by
  simp [circlePts, List.range_succ]

/-- Half a step is at most the chord of one step, and of two. -/
theorem half_step_le (hr : 0 < r) (hs : 0 < step) (hsr : step ≤ r) :
    step / 2 ≤ r * (2 * Real.sin (ang r step / 2)) ∧ step / 2 ≤ r * (2 * Real.sin (ang r step)) := by
  have ha := ang_pos hr hs
  have hle := ang_le hr hsr
  have hpi := Real.pi_pos
  have hc : √2 / 2 ≤ Real.cos (ang r step) := by
    rw [← Real.cos_pi_div_four]
    exact Real.cos_le_cos_of_nonneg_of_le_pi ha.le (by linarith) hle
  have h2 : (1.4 : ℝ) ≤ √2 := by
    rw [show (1.4 : ℝ) = √(1.4 ^ 2) by rw [Real.sqrt_sq]; norm_num]
    exact Real.sqrt_le_sqrt (by norm_num)
  have e := step_eq (step := step) hr
  have s1 : 0 < Real.sin (ang r step) := Real.sin_pos_of_pos_of_lt_pi ha (by linarith)
  have s2 : 0 < Real.sin (ang r step / 2) := Real.sin_pos_of_pos_of_lt_pi (by linarith) (by linarith)
  have hd : Real.sin (ang r step) ≤ 2 * Real.sin (ang r step / 2) := by
    have := Real.sin_two_mul (ang r step / 2)
    rw [show 2 * (ang r step / 2) = ang r step by ring] at this
    rw [this]
    nlinarith [Real.cos_le_one (ang r step / 2)]
  have hc' : 0.7 ≤ Real.cos (ang r step) := by linarith
  have h3 : step * 0.7 ≤ r * Real.sin (ang r step) := by nlinarith
  have h4 : r * Real.sin (ang r step) ≤ r * (2 * Real.sin (ang r step / 2)) := mul_le_mul_of_nonneg_left hd hr.le
  constructor <;> nlinarith

/-- One round of the loop on the circle. -/
theorem circle_round (hr : 0 < r) (hs : 0 < step) (hsr : step ≤ r) (p : ℂ) (hp : ‖p‖ = r) (e : ℂ) (fuel i : ℕ) :
    marchLoop (circleSolver r) turn step (fun _ => False) none e fuel (circlePts p (ang r step) (i + 1)) (rot p (i * ang r step))
      (rot p (i * ang r step)) 0 =
    if ‖rot p (((i + 1 : ℕ) : ℝ) * ang r step) - e‖ < step / 2 then .done (circlePts p (ang r step) (i + 1))
    else match fuel with
      | 0 => .running
      | n + 1 => marchLoop (circleSolver r) turn step (fun _ => False) none e n (circlePts p (ang r step) (i + 2))
          (rot p (((i + 1 : ℕ) : ℝ) * ang r step)) (rot p (((i + 1 : ℕ) : ℝ) * ang r step)) 0 := by
  set a := ang r step with ha
  set q := rot p (i * a) with hq
  have hnq : ‖q‖ = r := by rw [hq, norm_rot, hp]
  have hlen : (circlePts p a (i + 1)).length = i + 1 := by simp [circlePts]
  have hcr : ¬⟪turn q 0, turn q 0⟫_ℝ = 0 := by
    apply (inner_self_pos' ?_).ne'
    unfold turn
    apply mul_ne_zero I_ne_zero
    rw [← norm_ne_zero_iff, hnq]
    exact hr.ne'
  have hst : rot q a = rot p (((i + 1 : ℕ) : ℝ) * a) := by
    rw [hq, rot_add]; congr 1; push_cast; ring
  have hsol := circle_step (step := step) hr q hnq
  rw [← ha, hst] at hsol
  have hb : ¬((circlePts p a (i + 1)).length > 1 ∧
      ‖rot p (((i + 1 : ℕ) : ℝ) * a) - (circlePts p a (i + 1)).getD ((circlePts p a (i + 1)).length - 2) 0‖ < step / 2) := by
    rintro ⟨g1, g2⟩
    rw [hlen] at g1 g2
    have : (circlePts p a (i + 1)).getD (i + 1 - 2) 0 = rot p (((i - 1 : ℕ) : ℝ) * a) := by
      rw [List.getD_eq_getElem?_getD]
      simp [circlePts, List.getElem?_range (show i + 1 - 2 < i + 1 by omega)]
    have hi : ((i - 1 : ℕ) : ℝ) = (i : ℝ) - 1 := by
      rw [Nat.cast_sub (by omega)]; simp
    rw [this, rot_dist, hp, hi] at g2
    push_cast at g2
    rw [show (((i : ℝ) + 1) * a - ((i : ℝ) - 1) * a) / 2 = a by ring] at g2
    have := (half_step_le hr hs hsr).2
    have h2 : r * (2 * Real.sin a) ≤ r * |2 * Real.sin a| := mul_le_mul_of_nonneg_left (le_abs_self _) hr.le
    rw [← ha] at this
    linarith
  conv_lhs => unfold marchLoop
  dsimp only
  rw [if_pos (by simp), if_neg (by simp), if_neg hcr, hsol]
  dsimp only
  rw [if_neg hb]
  dsimp only
  rw [← circlePts_succ]
  cases fuel <;> rfl

/-- **C221 on a circle.**  With a step of at most the radius and no end point the march ends; it returns points of the
circle at equal angles `a`, which go once around: from the last one it takes less than two steps (and at least half a step)
to be back at the start. -/
theorem C221_circle (hr : 0 < r) (hs : 0 < step) (hsr : step ≤ r) (p : ℂ) (hp : ‖p‖ = r) :
    ∃ (k : ℕ) (a : ℝ), 0 < a ∧ r * a < step ∧ (k : ℝ) * a ≤ 2 * Real.pi + a / 2 ∧ 2 * Real.pi - a < k * a ∧
      ∀ fuel, k ≤ fuel → march (circleSolver r) turn step (fun _ => False) none p none fuel =
        .done ((List.range k).map fun j : ℕ => p * exp (I * ((j * a : ℝ) : ℂ))) := by
  have ha := ang_pos hr hs
  have hle := ang_le hr hsr
  have hpi := Real.pi_pos
  have hlt : r * ang r step < step := by
    have h := Real.lt_tan ha (by linarith)
    have ht : Real.tan (ang r step) = step / r := Real.tan_arctan _
    rw [ht, lt_div_iff₀ hr] at h
    linarith
  set a := ang r step with hadef
  -- the steps whose point is close to the start
  have hex : ∃ k : ℕ, 1 ≤ k ∧ ‖rot p (k * a) - rot p 0‖ < step / 2 ∧ (k : ℝ) * a ≤ 2 * Real.pi + a / 2 := by
    obtain ⟨k, hk⟩ : ∃ k : ℕ, k = ⌊2 * Real.pi / a + 1 / 2⌋₊ := ⟨_, rfl⟩
    have h1 : (k : ℝ) ≤ 2 * Real.pi / a + 1 / 2 := by rw [hk]; exact Nat.floor_le (by positivity)
    have h2 : 2 * Real.pi / a + 1 / 2 < k + 1 := by rw [hk]; exact Nat.lt_floor_add_one _
    have e1 : (k : ℝ) * a ≤ 2 * Real.pi + a / 2 := by
      have := mul_le_mul_of_nonneg_right h1 ha.le
      rw [add_mul, div_mul_cancel₀ _ ha.ne'] at this
      linarith
    have e2 : 2 * Real.pi - a / 2 < k * a := by
      have := mul_lt_mul_of_pos_right h2 ha
      rw [add_mul, div_mul_cancel₀ _ ha.ne', add_mul] at this
      linarith
    refine ⟨k, ?_, ?_, e1⟩
    · by_contra h0
      have : k = 0 := by omega
      rw [this] at e2
      push_cast at e2
      linarith
    · rw [rot_dist, hp, sub_zero]
      have hsin : Real.sin ((k : ℝ) * a / 2) = -Real.sin ((k : ℝ) * a / 2 - Real.pi) := by
        rw [Real.sin_sub_pi, neg_neg]
      have habs : |2 * Real.sin ((k : ℝ) * a / 2)| ≤ a / 2 := by
        rw [hsin, abs_mul, abs_neg]
        have h3 : |Real.sin ((k : ℝ) * a / 2 - Real.pi)| ≤ |(k : ℝ) * a / 2 - Real.pi| := Real.abs_sin_le_abs
        have h4 : |(k : ℝ) * a / 2 - Real.pi| ≤ a / 4 := by rw [abs_le]; constructor <;> linarith
        rw [abs_of_pos (by norm_num : (0:ℝ) < 2)]
        linarith
      calc r * |2 * Real.sin ((k : ℝ) * a / 2)| ≤ r * (a / 2) := mul_le_mul_of_nonneg_left habs hr.le
        _ < step / 2 := by linarith
  let P : ℕ → Prop := fun k => 1 ≤ k ∧ ‖rot p (k * a) - rot p 0‖ < step / 2
  have hP : ∃ k, P k := by obtain ⟨k, h1, h2, -⟩ := hex; exact ⟨k, h1, h2⟩
  set K := Nat.find hP with hK
  obtain ⟨K1, K2⟩ : P K := Nat.find_spec hP
  have Kmin : ∀ j, j < K → ¬P j := fun j hj => Nat.find_min hP hj
  have Kle : (K : ℝ) * a ≤ 2 * Real.pi + a / 2 := by
    obtain ⟨k, h1, h2, h3⟩ := hex
    have : K ≤ k := Nat.find_min' hP ⟨h1, h2⟩
    have : (K : ℝ) ≤ k := by exact_mod_cast this
    nlinarith
  have Kge : 2 * Real.pi - a < K * a := by
    by_contra hc
    have hc := not_lt.1 hc
    rw [rot_dist, hp, sub_zero] at K2
    have h1 : (1 : ℝ) ≤ K := by exact_mod_cast K1
    have h2 : a ≤ K * a := by nlinarith
    have hge : Real.sin (a / 2) ≤ Real.sin ((K : ℝ) * a / 2) := by
      rcases le_total ((K : ℝ) * a / 2) (Real.pi / 2) with h | h
      · exact Real.sin_le_sin_of_le_of_le_pi_div_two (by linarith) h (by linarith)
      · rw [← Real.sin_pi_sub ((K : ℝ) * a / 2)]
        exact Real.sin_le_sin_of_le_of_le_pi_div_two (by linarith) (by linarith) (by linarith)
    have h3 := (half_step_le hr hs hsr).1
    rw [← hadef] at h3
    have h4 : r * (2 * Real.sin (a / 2)) ≤ r * |2 * Real.sin ((K : ℝ) * a / 2)| := by
      apply mul_le_mul_of_nonneg_left _ hr.le
      exact (mul_le_mul_of_nonneg_left hge (by norm_num)).trans (le_abs_self _)
    linarith
  refine ⟨K, a, ha, hlt, Kle, Kge, fun fuel hf => ?_⟩
  -- running to the first return
  have hrun : ∀ d i fuel, i + 1 + d = K → d ≤ fuel →
      marchLoop (circleSolver r) turn step (fun _ => False) none (rot p 0) fuel (circlePts p a (i + 1)) (rot p (i * a))
        (rot p (i * a)) 0 = .done (circlePts p a K) := by
    intro d
    induction d with
    | zero =>
      intro i fuel h1 h2
      rw [hadef, circle_round hr hs hsr p hp, ← hadef, if_pos]
      · rw [← h1]
      · have : i + 1 = K := by omega
        rw [this]; exact K2
    | succ d ih =>
      intro i fuel h1 h2
      rw [hadef, circle_round hr hs hsr p hp, ← hadef, if_neg]
      · obtain ⟨f, rfl⟩ : ∃ f, fuel = f + 1 := ⟨fuel - 1, by omega⟩
        dsimp only
        exact ih (i + 1) f (by omega) (by omega)
      · intro h
        exact Kmin (i + 1) (by omega) ⟨by omega, h⟩
  have h0 : rot p 0 = p := by simp [rot]
  have hstart : circleSolver r p = some ⟨true, p, 0, 0, p, 0⟩ := by
    unfold circleSolver
    rw [hp, div_self hr.ne']
    simp
  have := hrun (K - 1) 0 fuel (by omega) (by omega)
  unfold march
  rw [hstart]
  dsimp only
  rw [Option.getD_none]
  have e1 : circlePts p a (0 + 1) = [p] := by simp [circlePts, rot]
  have e2 : rot p (((0 : ℕ) : ℝ) * a) = p := by simp [rot]
  rw [e1, e2, h0] at this
  exact this

/-- Radius 2, step 0.1, start 2i. -/
example : (0 : ℝ) < 2 ∧ (0 : ℝ) < 0.1 ∧ (0.1 : ℝ) ≤ 2 ∧ ‖2 * I‖ = (2 : ℝ) := by norm_num

end Verif.March
