import Verif.March.Props

/-! # C220: `intersection_curve_point` returns a point on both surfaces -/

set_option linter.unusedSectionVars false

noncomputable section

open scoped InnerProductSpace Classical

namespace Verif.March

variable {E : Type*} [NormedAddCommGroup E] [InnerProductSpace ℝ E]

/-- The determinant of the matrix `J`. -/
def gram (a b : E) : ℝ := ⟪a, a⟫_ℝ * ⟪b, b⟫_ℝ - ⟪b, a⟫_ℝ * ⟪a, b⟫_ℝ

theorem gram_ne_zero {a b : E} (hb : b ≠ 0) (h : ∀ t : ℝ, a ≠ t • b) : gram a b ≠ 0 := by
  intro h0
  have hbb := inner_self_pos' hb
  have hv : ⟪⟪b, b⟫_ℝ • a - ⟪a, b⟫_ℝ • b, ⟪b, b⟫_ℝ • a - ⟪a, b⟫_ℝ • b⟫_ℝ = ⟪b, b⟫_ℝ * gram a b := by
    rw [inner_sub_left, inner_sub_right, inner_sub_right]
    simp only [inner_smul_left, inner_smul_right, RCLike.conj_to_real]
    rw [real_inner_comm a b]
    unfold gram
    rw [real_inner_comm a b]
    ring
  rw [h0, mul_zero, inner_self_eq_zero, sub_eq_zero] at hv
  apply h (⟪a, b⟫_ℝ / ⟪b, b⟫_ℝ)
  rw [div_eq_inv_mul, mul_smul, ← hv, smul_smul, inv_mul_cancel₀ hbb.ne', one_smul]

theorem gram_parallel (t : ℝ) (b : E) : gram (t • b) b = 0 := by
  unfold gram
  simp only [inner_smul_left, inner_smul_right, RCLike.conj_to_real]
  ring

theorem gram_comm (a b : E) : gram a b = gram b a := by unfold gram; ring

/-- A step cancels the linear parts of both functions. -/
theorem step_linear (f1 f2 : E → ℝ) (g1 g2 : E → E) (s : E) (ab : ℝ × ℝ) (h : gram (g1 s) (g2 s) ≠ 0) :
    f1 s + ⟪g1 s, delta2 g1 g2 s (coeffs f1 f2 g1 g2 s ab)⟫_ℝ = 0 ∧
    f2 s + ⟪g2 s, delta2 g1 g2 s (coeffs f1 f2 g1 g2 s ab)⟫_ℝ = 0 := by
  unfold delta2 coeffs solve2
  dsimp only
  unfold gram at h
  rw [if_neg h]
  dsimp only
  simp only [inner_add_right, inner_smul_right]
  rw [real_inner_comm (g1 s) (g2 s)] at h ⊢
  have key : ∀ a b d y0 y1 : ℝ, a * d - b * b ≠ 0 →
      y0 + ((-y0 * d - b * -y1) / (a * d - b * b) * a + (a * -y1 - -y0 * b) / (a * d - b * b) * b) = 0 ∧
      y1 + ((-y0 * d - b * -y1) / (a * d - b * b) * b + (a * -y1 - -y0 * b) / (a * d - b * b) * d) = 0 := by
    intro a b d y0 y1 hd
    constructor <;> rw [div_mul_eq_mul_div, div_mul_eq_mul_div, ← add_div, add_div' _ _ _ hd, div_eq_zero_iff] <;> left <;> ring
  exact key _ _ _ _ _ h

theorem coeffs_singular (f1 f2 : E → ℝ) (g1 g2 : E → E) (s : E) (ab : ℝ × ℝ) (h : gram (g1 s) (g2 s) = 0) :
    coeffs f1 f2 g1 g2 s ab = ab := by
  unfold coeffs solve2
  unfold gram at h
  simp only [if_pos h]

theorem interLoop_spec (f1 f2 : E → ℝ) (g1 g2 : E → E) (tol : ℝ) (noErr : Bool) (left : ℕ) :
    ∀ (old : ℝ × ℝ) (qk qn : E) (d : ℝ) (r : Hit E), d = ‖qn - qk‖ →
      qn = delta2 g1 g2 qk (coeffs f1 f2 g1 g2 qk old) + qk →
      interLoop f1 f2 g1 g2 tol noErr left (coeffs f1 f2 g1 g2 qk old) qk qn d = some r → ∃ s ab,
        r.q = delta2 g1 g2 s (coeffs f1 f2 g1 g2 s ab) + s ∧ (r.success = true → ‖r.q - s‖ ≤ tol) ∧
        (r.success = false → noErr = true ∧ ‖r.q - s‖ > tol) ∧
        r.f1 = f1 s ∧ r.f2 = f2 s ∧ r.g1 = g1 s ∧ r.g2 = g2 s := by
  induction left with
  | zero =>
    intro old qk qn d r hd hq h
    unfold interLoop at h
    by_cases ht : d > tol
    · simp only [if_pos ht] at h
      cases noErr with
      | false => simp at h
      | true =>
        obtain rfl : _ = r := by simpa using h
        exact ⟨qk, old, hq, by simp, fun _ => ⟨rfl, by rw [← hd]; exact ht⟩, rfl, rfl, rfl, rfl⟩
    · simp only [if_neg ht] at h
      obtain rfl : _ = r := by simpa using h
      exact ⟨qk, old, hq, fun _ => by rw [← hd]; exact not_lt.1 ht, by simp, rfl, rfl, rfl, rfl⟩
  | succ n ih =>
    intro old qk qn d r hd hq h
    unfold interLoop at h
    by_cases ht : d > tol
    · simp only [if_pos ht] at h
      exact ih (coeffs f1 f2 g1 g2 qk old) qn _ _ r (by rw [add_sub_cancel_right]) rfl h
    · simp only [if_neg ht] at h
      obtain rfl : _ = r := by simpa using h
      exact ⟨qk, old, hq, fun _ => by rw [← hd]; exact not_lt.1 ht, by simp, rfl, rfl, rfl, rfl⟩

theorem interPoint_spec (f1 f2 : E → ℝ) (g1 g2 : E → E) (tol : ℝ) (maxIter : ℕ) (noErr : Bool) (q0 : E) (r : Hit E)
    (h : interPoint f1 f2 g1 g2 tol maxIter noErr q0 = some r) : ∃ s ab,
      r.q = delta2 g1 g2 s (coeffs f1 f2 g1 g2 s ab) + s ∧ (r.success = true → ‖r.q - s‖ ≤ tol) ∧
      (r.success = false → noErr = true ∧ ‖r.q - s‖ > tol) ∧
      r.f1 = f1 s ∧ r.f2 = f2 s ∧ r.g1 = g1 s ∧ r.g2 = g2 s :=
  interLoop_spec f1 f2 g1 g2 tol noErr (maxIter + 1) (0, 0) q0 _ _ r rfl rfl h

/-- **C220 (partial).**  Full claim: a point returned with success is on both surfaces up to an error quadratic in `tol`.
Proved for functions with quadratic remainder whose gradients are nowhere parallel.  Missing: parallel gradients. -/
theorem C220_near_partial (f1 f2 : E → ℝ) (g1 g2 : E → E) (L : ℝ) (hL : 0 ≤ L)
    (h1 : ∀ x y, |f1 y - f1 x - ⟪g1 x, y - x⟫_ℝ| ≤ L * ‖y - x‖ ^ 2)
    (h2 : ∀ x y, |f2 y - f2 x - ⟪g2 x, y - x⟫_ℝ| ≤ L * ‖y - x‖ ^ 2)
    (hg : ∀ x, g2 x ≠ 0 ∧ ∀ t : ℝ, g1 x ≠ t • g2 x) (tol : ℝ) (maxIter : ℕ) (noErr : Bool) (q0 : E) (r : Hit E)
    (h : interPoint f1 f2 g1 g2 tol maxIter noErr q0 = some r) (hs : r.success = true) :
    |f1 r.q| ≤ L * tol ^ 2 ∧ |f2 r.q| ≤ L * tol ^ 2 := by
  obtain ⟨s, ab, hq, ht, -⟩ := interPoint_spec f1 f2 g1 g2 tol maxIter noErr q0 r h
  have hd := ht hs
  obtain ⟨e1, e2⟩ := step_linear f1 f2 g1 g2 s ab (gram_ne_zero (hg s).1 (hg s).2)
  have hq' : r.q - s = delta2 g1 g2 s (coeffs f1 f2 g1 g2 s ab) := by rw [hq, add_sub_cancel_right]
  rw [← hq'] at e1 e2
  have hb : L * ‖r.q - s‖ ^ 2 ≤ L * tol ^ 2 :=
    mul_le_mul_of_nonneg_left (pow_le_pow_left₀ (norm_nonneg _) hd 2) hL
  constructor
  · have := h1 s r.q
    rw [show f1 r.q - f1 s - ⟪g1 s, r.q - s⟫_ℝ = f1 r.q by linarith] at this
    exact this.trans hb
  · have := h2 s r.q
    rw [show f2 r.q - f2 s - ⟪g2 s, r.q - s⟫_ℝ = f2 r.q by linarith] at this
    exact this.trans hb

/-- **C220, the values returned.**  Values and gradients returned with `return_grads` are those of a point within `tol` of
the point returned with success. -/
theorem C220_values (f1 f2 : E → ℝ) (g1 g2 : E → E) (tol : ℝ) (maxIter : ℕ) (noErr : Bool) (q0 : E) (r : Hit E)
    (h : interPoint f1 f2 g1 g2 tol maxIter noErr q0 = some r) (hs : r.success = true) :
    ∃ s, ‖r.q - s‖ ≤ tol ∧ r.f1 = f1 s ∧ r.f2 = f2 s ∧ r.g1 = g1 s ∧ r.g2 = g2 s := by
  obtain ⟨s, ab, -, ht, -, h'⟩ := interPoint_spec f1 f2 g1 g2 tol maxIter noErr q0 r h
  exact ⟨s, ht hs, h'⟩

/-- **C220, failure is reported.**  With `no_err` the function always returns; without, it never returns a failure. -/
theorem C220_report (f1 f2 : E → ℝ) (g1 g2 : E → E) (tol : ℝ) (maxIter : ℕ) (q0 : E) :
    (interPoint f1 f2 g1 g2 tol maxIter true q0).isSome = true ∧
    ∀ r, interPoint f1 f2 g1 g2 tol maxIter false q0 = some r → r.success = true := by
  constructor
  · have : ∀ left ab qk qn d, (interLoop f1 f2 g1 g2 tol true left ab qk qn d).isSome = true := by
      intro left
      induction left with
      | zero =>
        intro ab qk qn d
        unfold interLoop
        by_cases hd : d > tol
        · rw [if_pos hd]; rfl
        · rw [if_neg hd]; rfl
      | succ n ih =>
        intro ab qk qn d
        unfold interLoop
        by_cases hd : d > tol
        · rw [if_pos hd]; exact ih _ _ _ _
        · rw [if_neg hd]; rfl
    exact this _ _ _ _ _
  · intro r h
    obtain ⟨s, ab, -, -, hf, -⟩ := interPoint_spec f1 f2 g1 g2 tol maxIter false q0 r h
    cases hs : r.success with
    | true => rfl
    | false => exact absurd (hf hs).1 (by simp)

theorem delta2_zero (g1 g2 : E → E) (q : E) : delta2 g1 g2 q (0, 0) = 0 := by simp [delta2]

/-- **C220, refuted for parallel gradients.**  If the gradients at the start are parallel the start is returned with
success, wherever it is. -/
theorem C220_parallel_refuted (f1 f2 : E → ℝ) (g1 g2 : E → E) (tol : ℝ) (ht : 0 ≤ tol) (maxIter : ℕ) (noErr : Bool) (q0 : E)
    (h : ∃ t : ℝ, g1 q0 = t • g2 q0 ∨ g2 q0 = t • g1 q0) :
    interPoint f1 f2 g1 g2 tol maxIter noErr q0 = some ⟨true, q0, f1 q0, f2 q0, g1 q0, g2 q0⟩ := by
  have hs : gram (g1 q0) (g2 q0) = 0 := by
    obtain ⟨t, h | h⟩ := h
    · rw [h, gram_parallel]
    · rw [gram_comm, h, gram_parallel]
  unfold interPoint interLoop
  simp only [coeffs_singular f1 f2 g1 g2 q0 _ hs, delta2_zero, zero_add, sub_self, norm_zero, gt_iff_lt, not_lt.2 ht,
    if_false]

/-- **C220, refuted for concentric spheres.**  They have no common point, but every start is returned with success. -/
theorem C220_concentric_refuted (c : E) (r1 r2 : ℝ) (hr : r1 ≠ r2) (tol : ℝ) (ht : 0 ≤ tol) (maxIter : ℕ)
    (noErr : Bool) (q0 : E) :
    let f := fun (r : ℝ) (x : E) => ‖x - c‖ - r
    let g := fun x : E => ‖x - c‖⁻¹ • (x - c)
    ∃ h : Hit E, interPoint (f r1) (f r2) g g tol maxIter noErr q0 = some h ∧ h.success = true ∧ h.q = q0 ∧
      ¬∃ x, f r1 x = 0 ∧ f r2 x = 0 := by
  intro f g
  refine ⟨_, C220_parallel_refuted (f r1) (f r2) g g tol ht maxIter noErr q0 ⟨1, Or.inl (one_smul ℝ _).symm⟩, rfl, rfl, ?_⟩
  rintro ⟨x, h1, h2⟩
  apply hr
  have e1 : ‖x - c‖ - r1 = 0 := h1
  have e2 : ‖x - c‖ - r2 = 0 := h2
  linarith

/-! ## Planes -/

theorem lin_add (n : E) (c : ℝ) (x d : E) : lin n c (d + x) = lin n c x + ⟪n, d⟫_ℝ := by
  unfold lin
  rw [inner_add_right]
  ring

theorem coeffs_on (f1 f2 : E → ℝ) (g1 g2 : E → E) (s : E) (ab : ℝ × ℝ) (h : gram (g1 s) (g2 s) ≠ 0) (h1 : f1 s = 0)
    (h2 : f2 s = 0) : coeffs f1 f2 g1 g2 s ab = (0, 0) := by
  unfold coeffs solve2
  unfold gram at h
  simp only [if_neg h, h1, h2, neg_zero, zero_mul, mul_zero, sub_zero, zero_div]

/-- **C220 for planes.**  For two planes with a common line the point of the line closest to the start is returned with
success, together with values at a point within `tol` (see `C220_values`). -/
theorem C220_planes (n1 n2 : E) (h2 : n2 ≠ 0) (h1 : ∀ t : ℝ, n1 ≠ t • n2) (c1 c2 tol : ℝ) (ht : 0 ≤ tol) (maxIter : ℕ)
    (noErr : Bool) (q0 : E) :
    ∃ r : Hit E, interPoint (lin n1 c1) (lin n2 c2) (fun _ => n1) (fun _ => n2) tol maxIter noErr q0 = some r ∧
      r.success = true ∧ lin n1 c1 r.q = 0 ∧ lin n2 c2 r.q = 0 ∧ r.g1 = n1 ∧ r.g2 = n2 ∧
      ∀ x, lin n1 c1 x = 0 → lin n2 c2 x = 0 → ‖q0 - r.q‖ ≤ ‖q0 - x‖ := by
  have hg := gram_ne_zero h2 h1
  obtain ⟨e1, e2⟩ := step_linear (lin n1 c1) (lin n2 c2) (fun _ => n1) (fun _ => n2) q0 (0, 0) hg
  obtain ⟨a, b, hab⟩ : ∃ a b, coeffs (lin n1 c1) (lin n2 c2) (fun _ => n1) (fun _ => n2) q0 (0, 0) = (a, b) := ⟨_, _, rfl⟩
  have hdl : delta2 (fun _ => n1) (fun _ => n2) q0 (a, b) = a • n1 + b • n2 := rfl
  rw [hab] at e1 e2
  set dl := delta2 (fun _ => n1) (fun _ => n2) q0 (a, b) with hdl'
  have z1 : lin n1 c1 (dl + q0) = 0 := by rw [lin_add]; exact e1
  have z2 : lin n2 c2 (dl + q0) = 0 := by rw [lin_add]; exact e2
  have hmin : ∀ x, lin n1 c1 x = 0 → lin n2 c2 x = 0 → ‖q0 - (dl + q0)‖ ≤ ‖q0 - x‖ := by
    intro x x1 x2
    have o1 : ⟪n1, x - (dl + q0)⟫_ℝ = 0 := by
      rw [inner_sub_right]; unfold lin at x1 z1; linarith
    have o2 : ⟪n2, x - (dl + q0)⟫_ℝ = 0 := by
      rw [inner_sub_right]; unfold lin at x2 z2; linarith
    have o : ⟪dl, x - (dl + q0)⟫_ℝ = 0 := by
      have : ∀ y : E, ⟪n1, y⟫_ℝ = 0 → ⟪n2, y⟫_ℝ = 0 → ⟪a • n1 + b • n2, y⟫_ℝ = 0 := by
        intro y y1 y2
        rw [inner_add_left, inner_smul_left, inner_smul_left, y1, y2]; simp
      exact this _ o1 o2
    have e : q0 - x = -(dl + (x - (dl + q0))) := by abel
    have e' : q0 - (dl + q0) = -dl := by abel
    rw [e, e', norm_neg, norm_neg]
    have hp := norm_add_sq_eq_norm_sq_add_norm_sq_of_inner_eq_zero _ _ o
    nlinarith [norm_nonneg dl, norm_nonneg (dl + (x - (dl + q0))), norm_nonneg (x - (dl + q0)),
      mul_self_nonneg ‖x - (dl + q0)‖]
  unfold interPoint
  dsimp only
  rw [hab, ← hdl']
  unfold interLoop
  by_cases h : ‖dl + q0 - q0‖ > tol
  · rw [if_pos h]
    dsimp only
    rw [coeffs_on (lin n1 c1) (lin n2 c2) (fun _ => n1) (fun _ => n2) (dl + q0) (a, b) hg z1 z2, delta2_zero]
    unfold interLoop
    rw [norm_zero, if_neg (not_lt.2 ht), zero_add]
    exact ⟨_, rfl, rfl, z1, z2, rfl, rfl, hmin⟩
  · rw [if_neg h]
    exact ⟨_, rfl, rfl, z1, z2, rfl, rfl, hmin⟩

/-- Two lines of the plane `ℂ`: real part 3 and imaginary part 4. -/
example : Complex.I ≠ 0 ∧ ∀ t : ℝ, (1 : ℂ) ≠ t • Complex.I := by
  refine ⟨Complex.I_ne_zero, fun t h => ?_⟩
  have := congrArg Complex.re h
  simp at this

/-- The hypotheses of `C220_near_partial` hold for them. -/
example : (∀ x y : ℂ, |lin (1 : ℂ) 3 y - lin (1 : ℂ) 3 x - ⟪(1 : ℂ), y - x⟫_ℝ| ≤ 0 * ‖y - x‖ ^ 2) ∧
    (∀ x y : ℂ, |lin Complex.I 4 y - lin Complex.I 4 x - ⟪Complex.I, y - x⟫_ℝ| ≤ 0 * ‖y - x‖ ^ 2) := by
  constructor <;> intro x y <;> unfold lin <;> rw [inner_sub_right] <;> simp

/-- **C220, the values returned are not those of the point returned.**  Starting within `tol` of the common line of two
planes the values returned are those of the start, for every start off the first plane. -/
theorem C220_values_refuted (n1 n2 : E) (h2 : n2 ≠ 0) (h1 : ∀ t : ℝ, n1 ≠ t • n2) (c1 c2 tol : ℝ) (ht : 0 ≤ tol)
    (maxIter : ℕ) (noErr : Bool) (q0 x : E) (hx1 : lin n1 c1 x = 0) (hx2 : lin n2 c2 x = 0) (hx : ‖q0 - x‖ ≤ tol)
    (hoff : lin n1 c1 q0 ≠ 0) :
    ∃ r : Hit E, interPoint (lin n1 c1) (lin n2 c2) (fun _ => n1) (fun _ => n2) tol maxIter noErr q0 = some r ∧
      lin n1 c1 r.q = 0 ∧ r.f1 ≠ 0 := by
  obtain ⟨r, h, hs, z1, -, -, -, hmin⟩ := C220_planes n1 n2 h2 h1 c1 c2 tol ht maxIter noErr q0
  refine ⟨r, h, z1, ?_⟩
  have hg := gram_ne_zero h2 h1
  obtain ⟨e1, e2⟩ := step_linear (lin n1 c1) (lin n2 c2) (fun _ => n1) (fun _ => n2) q0 (0, 0) hg
  have z1' := lin_add n1 c1 q0 (delta2 (fun _ => n1) (fun _ => n2) q0
    (coeffs (lin n1 c1) (lin n2 c2) (fun _ => n1) (fun _ => n2) q0 (0, 0)))
  have z2' := lin_add n2 c2 q0 (delta2 (fun _ => n1) (fun _ => n2) q0
    (coeffs (lin n1 c1) (lin n2 c2) (fun _ => n1) (fun _ => n2) q0 (0, 0)))
  rw [e1] at z1'
  rw [e2] at z2'
  unfold interPoint interLoop at h
  dsimp only at h
  by_cases hd : ‖delta2 (fun _ => n1) (fun _ => n2) q0
      (coeffs (lin n1 c1) (lin n2 c2) (fun _ => n1) (fun _ => n2) q0 (0, 0)) + q0 - q0‖ > tol
  · exfalso
    rw [if_pos hd] at h
    rw [coeffs_on (lin n1 c1) (lin n2 c2) (fun _ => n1) (fun _ => n2) _ _ hg z1' z2', delta2_zero] at h
    unfold interLoop at h
    rw [norm_zero, if_neg (not_lt.2 ht), zero_add] at h
    obtain rfl : _ = r := by simpa using h
    have := hmin x hx1 hx2
    rw [norm_sub_rev] at this
    dsimp only at this
    linarith
  · rw [if_neg hd] at h
    obtain rfl : _ = r := by simpa using h
    exact hoff

end Verif.March
