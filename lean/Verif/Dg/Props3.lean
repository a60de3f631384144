import Verif.Dg.Props2
import Mathlib.Algebra.Order.Archimedean.Basic
import Mathlib.Algebra.Order.Archimedean.Real.Basic

set_option linter.unusedSectionVars false

/-!
# Curvature of surfaces from the derivatives
-/

namespace Verif.Dg

open Verif.Prim

theorem forms_eq (j : Jet) (h : cross j.du j.dv ≠ ⟨0, 0, 0⟩) :
    formsOf j = some ⟨dot j.du j.du, dot j.du j.dv, dot j.dv j.dv,
      dot (cross j.du j.dv) j.duu / norm (cross j.du j.dv), dot (cross j.du j.dv) j.duv / norm (cross j.du j.dv),
      dot (cross j.du j.dv) j.dvv / norm (cross j.du j.dv)⟩ := by
  have hn := norm_ne_zero _ h
  unfold formsOf div
  rw [if_neg hn]
  show some (Forms.mk _ _ _ _ _ _) = _
  congr 1
  ext
  · rfl
  · rfl
  · rfl
  all_goals
    unfold secondForm
    dsimp only
    generalize cross j.du j.dv = w at hn
    generalize norm w = n at hn
    unfold dot
    field_simp

theorem area_sq (a b : P) : dot a a * dot b b - dot a b ^ 2 = norm (cross a b) ^ 2 := by
  rw [norm_sq, cross_sq]

/-- C182.  The six coefficients are NaN exactly when the two derivatives are parallel; otherwise the first form is
positive, so that everything said about the principal curvatures applies. -/
theorem C182_regular (j : Jet) : (formsOf j = none ↔ cross j.du j.dv = ⟨0, 0, 0⟩) ∧
    ∀ f, formsOf j = some f → Regular f := by
  constructor
  · constructor
    · intro h
      by_contra hc
      rw [forms_eq j hc] at h
      exact absurd h (by simp)
    · intro h
      unfold formsOf
      rw [(div_norm_none _).mpr h]
      rfl
  · intro f hf
    by_cases hc : cross j.du j.dv = ⟨0, 0, 0⟩
    · unfold formsOf at hf
      rw [(div_norm_none _).mpr hc] at hf
      exact absurd hf (by simp)
    · rw [forms_eq j hc] at hf
      rw [← Option.some.inj hf]
      have hn := norm_ne_zero _ hc
      have ha : 0 < norm (cross j.du j.dv) ^ 2 := by positivity
      refine ⟨?_, ?_⟩
      · dsimp only
        refine dot_pos _ ?_
        intro h0
        apply hc
        rw [h0]
        unfold cross
        ext <;> dsimp only <;> ring
      · dsimp only
        rw [area_sq]
        exact ha

/-- The derivatives after a change of parameters: `(p, q)` and `(r, s)` are the derivatives of the old parameters with
respect to the new ones, the six other numbers their second derivatives. -/
def reparam (j : Jet) (p q r s a1 b1 a2 b2 a3 b3 : ℝ) : Jet where
  du := add (smul p j.du) (smul q j.dv)
  dv := add (smul r j.du) (smul s j.dv)
  duu := add (add (smul (p ^ 2) j.duu) (add (smul (2 * p * q) j.duv) (smul (q ^ 2) j.dvv)))
    (add (smul a1 j.du) (smul b1 j.dv))
  duv := add (add (smul (p * r) j.duu) (add (smul (p * s + q * r) j.duv) (smul (q * s) j.dvv)))
    (add (smul a2 j.du) (smul b2 j.dv))
  dvv := add (add (smul (r ^ 2) j.duu) (add (smul (2 * r * s) j.duv) (smul (s ^ 2) j.dvv)))
    (add (smul a3 j.du) (smul b3 j.dv))

/-- C182.  The Gaussian curvature is the same for every parametrisation of the surface, the mean curvature for every
parametrisation with the same orientation; it changes its sign with the orientation. -/
theorem C182_parameters (j : Jet) (h : cross j.du j.dv ≠ ⟨0, 0, 0⟩) (p q r s a1 b1 a2 b2 a3 b3 : ℝ)
    (hD : p * s - q * r ≠ 0) :
    ∃ f f', formsOf j = some f ∧ formsOf (reparam j p q r s a1 b1 a2 b2 a3 b3) = some f' ∧
      gaussian f' = gaussian f ∧ (0 < p * s - q * r → mean f' = mean f) ∧
      (p * s - q * r < 0 → mean f' = (mean f).map (fun x => -x)) := by
  have hw : cross (add (smul p j.du) (smul q j.dv)) (add (smul r j.du) (smul s j.dv))
      = smul (p * s - q * r) (cross j.du j.dv) := by
    unfold cross add smul
    ext <;> dsimp only <;> ring
  have hne : cross (reparam j p q r s a1 b1 a2 b2 a3 b3).du (reparam j p q r s a1 b1 a2 b2 a3 b3).dv ≠ ⟨0, 0, 0⟩ := by
    show cross (add (smul p j.du) (smul q j.dv)) (add (smul r j.du) (smul s j.dv)) ≠ _
    rw [hw]
    exact smul_ne _ _ hD h
  have hn := norm_ne_zero _ h
  have ha : dot j.du j.du * dot j.dv j.dv - dot j.du j.dv ^ 2 ≠ 0 := by
    rw [area_sq]
    exact pow_ne_zero 2 hn
  refine ⟨_, _, forms_eq j h, forms_eq _ hne, ?_⟩
  have wdu : dot (cross j.du j.dv) j.du = 0 := by
    unfold dot cross
    ring
  have wdv : dot (cross j.du j.dv) j.dv = 0 := by
    unfold dot cross
    ring
  have lin : ∀ (w x y z u v : P) (c1 c2 c3 c4 c5 t : ℝ), dot w u = 0 → dot w v = 0 →
      dot (smul t w) (add (add (smul c1 x) (add (smul c2 y) (smul c3 z))) (add (smul c4 u) (smul c5 v)))
        = t * (c1 * dot w x + c2 * dot w y + c3 * dot w z) := by
    intro w x y z u v c1 c2 c3 c4 c5 t hu hv
    unfold dot at hu hv ⊢
    unfold add smul
    dsimp only
    linear_combination t * c4 * hu + t * c5 * hv
  have e0 : ∀ (c1 c2 c3 c4 : ℝ), dot (add (smul c1 j.du) (smul c2 j.dv)) (add (smul c3 j.du) (smul c4 j.dv))
      = c1 * c3 * dot j.du j.du + (c1 * c4 + c2 * c3) * dot j.du j.dv + c2 * c4 * dot j.dv j.dv := by
    intro c1 c2 c3 c4
    unfold dot add smul
    ring
  unfold reparam
  dsimp only
  rw [hw, lin _ _ _ _ _ _ _ _ _ _ _ _ wdu wdv, lin _ _ _ _ _ _ _ _ _ _ _ _ wdu wdv,
    lin _ _ _ _ _ _ _ _ _ _ _ _ wdu wdv, Prim.norm_smul]
  simp only [e0]
  generalize dot (cross j.du j.dv) j.duu = l
  generalize dot (cross j.du j.dv) j.duv = m
  generalize dot (cross j.du j.dv) j.dvv = n
  generalize norm (cross j.du j.dv) = W at hn
  generalize dot j.du j.du = E at ha
  generalize dot j.du j.dv = F at ha
  generalize dot j.dv j.dv = G at ha
  have hD2 : (p * s - q * r) ^ 2 ≠ 0 := pow_ne_zero 2 hD
  have area : (p * p * E + (p * q + q * p) * F + q * q * G) * (r * r * E + (r * s + s * r) * F + s * s * G)
      - (p * r * E + (p * s + q * r) * F + q * s * G) ^ 2 = (p * s - q * r) ^ 2 * (E * G - F ^ 2) := by ring
  have habs : |p * s - q * r| ≠ 0 := abs_ne_zero.mpr hD
  have habs2 : |p * s - q * r| ^ 2 = (p * s - q * r) ^ 2 := sq_abs _
  refine ⟨?_, fun h0 => ?_, fun h0 => ?_⟩
  · unfold gaussian
    dsimp only
    rw [area, if_neg (mul_ne_zero hD2 ha), if_neg ha]
    congr 1
    rw [div_eq_div_iff (mul_ne_zero hD2 ha) ha]
    generalize |p * s - q * r| = d at habs habs2
    field_simp
    rw [habs2]
    ring
  · unfold mean
    dsimp only
    rw [area, if_neg (mul_ne_zero two_ne_zero (mul_ne_zero hD2 ha)), if_neg (mul_ne_zero two_ne_zero ha)]
    congr 1
    rw [div_eq_div_iff (mul_ne_zero two_ne_zero (mul_ne_zero hD2 ha)) (mul_ne_zero two_ne_zero ha), abs_of_pos h0]
    field_simp
    ring
  · unfold mean
    dsimp only
    rw [area, if_neg (mul_ne_zero two_ne_zero (mul_ne_zero hD2 ha)), if_neg (mul_ne_zero two_ne_zero ha)]
    show some _ = some _
    congr 1
    dsimp only
    rw [abs_of_neg h0, ← neg_div, div_eq_div_iff (mul_ne_zero two_ne_zero (mul_ne_zero hD2 ha)) (mul_ne_zero two_ne_zero ha)]
    have : -(p * s - q * r) ≠ 0 := neg_ne_zero.mpr hD
    field_simp
    ring

/-- C182.  On a sphere, with any parameters, the Gaussian curvature is `1 / R²` and both principal curvatures are the
same number, `1 / R` or `-1 / R`. -/
theorem C182_sphere (j : Jet) (h : cross j.du j.dv ≠ ⟨0, 0, 0⟩) (r : P) (R : ℝ) (hR : 0 < R) (h0 : dot r r = R ^ 2)
    (hu : dot r j.du = 0) (hv : dot r j.dv = 0) (huu : dot r j.duu = -dot j.du j.du)
    (huv : dot r j.duv = -dot j.du j.dv) (hvv : dot r j.dvv = -dot j.dv j.dv) :
    ∃ f k, formsOf j = some f ∧ (k = 1 / R ∨ k = -(1 / R)) ∧ gaussian f = some (1 / R ^ 2) ∧ mean f = some k ∧
      principal f = some (k, k) := by
  have hreg := (C182_regular j).2 _ (forms_eq j h)
  obtain ⟨k1, k2, hp, hle, hs, hm⟩ := principal_spec _ hreg
  obtain ⟨k1', k2', hp', -, hg, hme, -⟩ := C180_principal _ hreg
  obtain ⟨rfl, rfl⟩ := Prod.mk.inj (Option.some.inj (hp.symm.trans hp'))
  have hn := norm_ne_zero _ h
  have hR2 : R ^ 2 ≠ 0 := by positivity
  have par : ∀ c : P, dot (cross j.du j.dv) c * R ^ 2 = dot (cross j.du j.dv) r * dot r c := by
    intro c
    have id : dot (cross j.du j.dv) c * dot r r = dot (cross j.du j.dv) r * dot r c
        + dot r j.du * dot (cross r j.dv) c - dot r j.dv * dot (cross r j.du) c := by
      unfold dot cross
      ring
    rw [← h0, id, hu, hv]
    ring
  have hw2 : norm (cross j.du j.dv) ^ 2 * R ^ 2 = dot (cross j.du j.dv) r ^ 2 := by
    have := par (cross j.du j.dv)
    rw [dot_comm r] at this
    rw [norm_sq, this]
    ring
  have eL := par j.duu
  have eM := par j.duv
  have eN := par j.dvv
  rw [huu] at eL
  rw [huv] at eM
  rw [hvv] at eN
  have ha : dot j.du j.du * dot j.dv j.dv - dot j.du j.dv ^ 2 ≠ 0 := by
    rw [area_sq]
    exact pow_ne_zero 2 hn
  dsimp only at hs hm
  generalize dot (cross j.du j.dv) r = t at *
  generalize hk : -t / (R ^ 2 * norm (cross j.du j.dv)) = k
  have gL : dot (cross j.du j.dv) j.duu / norm (cross j.du j.dv) = k * dot j.du j.du := by
    rw [← hk]
    generalize dot (cross j.du j.dv) j.duu = l at *
    field_simp
    linarith
  have gM : dot (cross j.du j.dv) j.duv / norm (cross j.du j.dv) = k * dot j.du j.dv := by
    rw [← hk]
    generalize dot (cross j.du j.dv) j.duv = l at *
    field_simp
    linarith
  have gN : dot (cross j.du j.dv) j.dvv / norm (cross j.du j.dv) = k * dot j.dv j.dv := by
    rw [← hk]
    generalize dot (cross j.du j.dv) j.dvv = l at *
    field_simp
    linarith
  have hk2 : k ^ 2 = (1 / R) ^ 2 := by
    rw [← hk]
    generalize norm (cross j.du j.dv) = W at *
    field_simp
    linarith
  rw [gL, gM, gN] at hs hm
  have hsum : k1 + k2 = 2 * k := by
    apply mul_left_cancel₀ ha
    rw [hs]
    ring
  have hprod : k1 * k2 = k ^ 2 := by
    apply mul_left_cancel₀ ha
    rw [hm]
    ring
  have hz : (k1 - k) ^ 2 = 0 := by
    have : k2 = 2 * k - k1 := by linarith
    rw [this] at hprod
    linarith
  have e1 : k1 = k := by
    have := pow_eq_zero_iff (two_ne_zero) |>.mp hz
    linarith
  have e2 : k2 = k := by linarith
  subst e1
  subst e2
  refine ⟨_, _, forms_eq j h, ?_, ?_, ?_, hp⟩
  · exact sq_eq_sq_iff_eq_or_eq_neg.mp hk2
  · rw [hg, hprod, hk2]
    congr 1
    ring
  · rw [hme]
    congr 1
    ring

/-- A sphere of radius 2 on the equator, with the longitude and latitude for parameters. -/
example : dot ⟨2, 0, 0⟩ ⟨2, 0, 0⟩ = (2 : ℝ) ^ 2 ∧ dot ⟨2, 0, 0⟩ ⟨0, 2, 0⟩ = 0 ∧ dot ⟨2, 0, 0⟩ ⟨0, 0, 2⟩ = 0 ∧
    dot ⟨2, 0, 0⟩ ⟨-2, 0, 0⟩ = -dot ⟨0, 2, 0⟩ ⟨0, 2, 0⟩ ∧ dot ⟨2, 0, 0⟩ ⟨0, 0, 0⟩ = -dot ⟨0, 2, 0⟩ ⟨0, 0, 2⟩ ∧
    dot ⟨2, 0, 0⟩ ⟨-2, 0, 0⟩ = -dot ⟨0, 0, 2⟩ ⟨0, 0, 2⟩ := by
  unfold dot
  norm_num

/-- C183.  `classify_point` never fails, and says elliptic or hyperbolic by the sign of the Gaussian curvature as soon as
that is outside the tolerance; inside it, flat or parabolic by the mean curvature. -/
theorem C183_classify (tol K H : ℝ) (ht : 0 ≤ tol) :
    (classify tol K H = some .elliptic ↔ tol < K) ∧ (classify tol K H = some .hyperbolic ↔ K < -tol) ∧
    (classify tol K H = some .parabolic ↔ |K| ≤ tol ∧ tol < |H|) ∧
    (classify tol K H = some .flat ↔ |K| ≤ tol ∧ |H| ≤ tol) := by
  unfold classify
  by_cases h1 : |K| ≤ tol
  · have a1 := abs_le.mp h1
    by_cases h2 : |H| ≤ tol
    · rw [if_pos ⟨h1, h2⟩]
      simp [h1, h2, a1.1, a1.2]
    · rw [if_neg (fun h => h2 h.2), if_pos ⟨h1, h2⟩]
      simp [h1, not_le.mp h2, a1.1, a1.2]
  · rw [if_neg (fun h => h1 h.1), if_neg (fun h => h1 h.1)]
    have h1' := lt_abs.mp (not_le.mp h1)
    rcases h1' with h2 | h2
    · have h0 : 0 < K := lt_of_le_of_lt ht h2
      rw [if_pos h0]
      simp only [h1, false_and, iff_false]
      refine ⟨⟨fun _ => h2, fun _ => trivial⟩, ⟨fun h => absurd h (by simp), fun h => by linarith⟩, by simp, by simp⟩
    · have h0 : K < 0 := by linarith
      rw [if_neg (not_lt.mpr h0.le), if_pos h0]
      simp only [h1, false_and, iff_false]
      refine ⟨⟨fun h => absurd h (by simp), fun h => by linarith⟩, ⟨fun _ => by linarith, fun _ => trivial⟩, by simp, by simp⟩

/-- The kind of a point by its principal curvatures. -/
noncomputable def kindOf (k1 k2 : ℝ) : Kind :=
  open Classical in
  if 0 < k1 * k2 then .elliptic else if k1 * k2 < 0 then .hyperbolic else if k1 = 0 ∧ k2 = 0 then .flat else .parabolic

/-- C183, refuted.  `classify_point_dupin` calls a point flat when the larger principal curvature is zero and the
smaller is not: every point of a cylinder seen from outside. -/
theorem C183_dupin_refuted (k1 k2 : ℝ) : classifyDupin k1 k2 ≠ kindOf k1 k2 ↔ k1 = 0 ∧ k2 ≠ 0 := by
  unfold classifyDupin kindOf
  by_cases h1 : 0 < k1 * k2
  · rw [if_pos h1, if_pos h1]
    constructor
    · intro h
      exact absurd rfl h
    · rintro ⟨rfl, -⟩
      rw [zero_mul] at h1
      exact absurd h1 (lt_irrefl _)
  · rw [if_neg h1, if_neg h1]
    by_cases h2 : k1 * k2 < 0
    · rw [if_pos h2, if_pos h2]
      constructor
      · intro h
        exact absurd rfl h
      · rintro ⟨rfl, -⟩
        rw [zero_mul] at h2
        exact absurd h2 (lt_irrefl _)
    · rw [if_neg h2, if_neg h2]
      by_cases h3 : k1 = 0
      · by_cases h4 : k2 = 0
        · simp [h3, h4]
        · simp [h3, h4]
      · simp [h3]

/-- The derivatives of `z = (a u² + c v²) / 2` at the origin. -/
def graphJet (a c : ℝ) : Jet := ⟨⟨1, 0, 0⟩, ⟨0, 1, 0⟩, ⟨0, 0, a⟩, ⟨0, 0, c⟩, ⟨0, 0, 0⟩⟩

theorem graph_norm : norm (⟨0, 0, 1⟩ : P) = 1 := norm_eq_of_sq _ _ zero_le_one (by unfold dot; norm_num)

theorem graph_cross (a c : ℝ) : cross (graphJet a c).du (graphJet a c).dv = ⟨0, 0, 1⟩ := by
  unfold graphJet cross
  norm_num

theorem graph_called (a c : ℝ) : formsCalled (graphJet a c) = some ⟨1, 0, 1, c, a * c, 0⟩ := by
  unfold formsCalled
  rw [graph_cross, graph_norm]
  unfold div graphJet secondForm firstForm dot
  norm_num
  ring

theorem graph_forms (a c : ℝ) : formsOf (graphJet a c) = some ⟨1, 0, 1, a, 0, c⟩ := by
  unfold formsOf
  rw [graph_cross, graph_norm]
  unfold div graphJet secondForm firstForm dot
  norm_num

/-- C183, refuted.  `classify_point_on_surface` passes the normal in the place of a second derivative: the origin of
every elliptic paraboloid `z = (a u² + c v²) / 2` with the product of the curvatures not too small is called
hyperbolic, and the origin of every cylinder `z = a u² / 2` flat. -/
theorem C183_surface_refuted (tol a c : ℝ) (ht : 0 ≤ tol) :
    (∃ f, formsOf (graphJet a c) = some f ∧ gaussian f = some (a * c)) ∧
    (tol < (a * c) ^ 2 → classifyOnSurface tol (graphJet a c) = some .hyperbolic) ∧
    classifyOnSurface tol (graphJet a 0) = some .flat := by
  have gen : ∀ c, classifyOnSurface tol (graphJet a c) = classify tol (-(a * c) ^ 2) (c / 2) := by
    intro c
    unfold classifyOnSurface
    rw [graph_called]
    have hm : mean ⟨1, 0, 1, c, a * c, 0⟩ = some (c / 2) := by
      unfold mean
      norm_num
    have hg : gaussian ⟨1, 0, 1, c, a * c, 0⟩ = some (-(a * c) ^ 2) := by
      unfold gaussian
      norm_num
    show (do let H ← mean ⟨1, 0, 1, c, a * c, 0⟩; let K ← gaussian ⟨1, 0, 1, c, a * c, 0⟩; classify tol K H) = _
    rw [hm, hg]
    rfl
  refine ⟨⟨_, graph_forms a c, ?_⟩, fun h => ?_, ?_⟩
  · unfold gaussian
    norm_num
  · rw [gen]
    exact (C183_classify tol _ _ ht).2.1.mpr (by linarith)
  · rw [gen]
    refine (C183_classify tol _ _ ht).2.2.2.mpr ⟨?_, ?_⟩
    · rw [mul_zero]
      norm_num
      exact ht
    · norm_num
      exact ht

/-- An elliptic paraboloid. -/
example : (0 : ℝ) < 2 * 3 ∧ (1e-8 : ℝ) < (2 * 3) ^ 2 := by norm_num

theorem sqrt_inv_sq (k : ℝ) : √|1 / k| ^ 2 = 1 / |k| := by
  rw [Real.sq_sqrt (abs_nonneg _), abs_div, abs_one]

/-- C184.  The curve of an elliptic point lies on the ellipse `k1 x² + k2 y² = ± 1`, that of a hyperbolic point on the
hyperbola `k1 x² + k2 y² = ± 1`, with the sign of `k1`. -/
theorem C184_indicatrix (k1 k2 a b : ℝ) :
    (0 < k1 * k2 → a ^ 2 + b ^ 2 = 1 → let p := indicatrixElliptic k1 k2 a b
      k1 * p.1 ^ 2 + k2 * p.2 ^ 2 = SignType.sign k1) ∧
    (k1 * k2 < 0 → a ^ 2 - b ^ 2 = 1 → let p := indicatrixHyperbolic k1 k2 a b
      k1 * p.1 ^ 2 + k2 * p.2 ^ 2 = SignType.sign k1) := by
  unfold indicatrixElliptic indicatrixHyperbolic
  dsimp only
  simp only [mul_pow, sqrt_inv_sq]
  constructor
  · intro h hab
    rcases pos_and_pos_or_neg_and_neg_of_mul_pos h with ⟨h1, h2⟩ | ⟨h1, h2⟩
    · rw [abs_of_pos h1, abs_of_pos h2, sign_pos h1]
      have := h1.ne'
      have := h2.ne'
      field_simp
      simpa using hab
    · rw [abs_of_neg h1, abs_of_neg h2, sign_neg h1]
      have := h1.ne
      have := h2.ne
      have e1 : k1 * (1 / -k1 * a ^ 2) = -a ^ 2 := by field_simp
      have e2 : k2 * (1 / -k2 * b ^ 2) = -b ^ 2 := by field_simp
      rw [e1, e2]
      simp
      linarith
  · intro h hab
    rcases mul_neg_iff.mp h with ⟨h1, h2⟩ | ⟨h1, h2⟩
    · rw [abs_of_pos h1, abs_of_neg h2, sign_pos h1]
      have := h1.ne'
      have := h2.ne
      have e1 : k1 * (1 / k1 * a ^ 2) = a ^ 2 := by field_simp
      have e2 : k2 * (1 / -k2 * b ^ 2) = -b ^ 2 := by field_simp
      rw [e1, e2]
      simp
      linarith
    · rw [abs_of_neg h1, abs_of_pos h2, sign_neg h1]
      have := h1.ne
      have := h2.ne'
      have e1 : k1 * (1 / -k1 * a ^ 2) = -a ^ 2 := by field_simp
      have e2 : k2 * (1 / k2 * b ^ 2) = b ^ 2 := by field_simp
      rw [e1, e2]
      simp
      linarith

/-- C184, refuted.  The indicatrix of a parabolic point is the pair of lines `k1 x² = ± 1`; the curve given is a
parabola, which meets them in two points only. -/
theorem C184_parabolic_refuted (k1 t : ℝ) (hk : k1 ≠ 0) :
    |k1 * (indicatrixParabolic k1 t).1 ^ 2| = 1 ↔ t = 1 / √|k1| ∨ t = -(1 / √|k1|) := by
  have hp : 0 < |k1| := abs_pos.mpr hk
  have hs : 0 < √|k1| := Real.sqrt_pos.mpr hp
  have hsq : √|k1| ^ 2 = |k1| := Real.sq_sqrt hp.le
  show |k1 * t ^ 2| = 1 ↔ _
  rw [abs_mul, abs_of_nonneg (sq_nonneg t), ← sq_eq_sq_iff_eq_or_eq_neg, div_pow, hsq]
  constructor
  · intro h
    field_simp
    linarith
  · intro h
    rw [h]
    field_simp

/-- The distance of two parameter points on a surface whose first form is the same everywhere. -/
noncomputable def flatDistance (E F G u1 v1 u2 v2 : ℝ) : ℝ :=
  √(E * (u2 - u1) ^ 2 + 2 * F * (u2 - u1) * (v2 - v1) + G * (v2 - v1) ^ 2)

theorem arc_scale (E F G du dv : ℝ) (n : ℕ) (hn : 0 < n) :
    (n : ℝ) * arcLength E F G (du / n) (dv / n) = √(E * du ^ 2 + 2 * F * du * dv + G * dv ^ 2) := by
  have hn' : (0 : ℝ) < n := by exact_mod_cast hn
  unfold arcLength
  have : E * (du / n) ^ 2 + 2 * F * (du / n) * (dv / n) + G * (dv / n) ^ 2
      = (E * du ^ 2 + 2 * F * du * dv + G * dv ^ 2) / (n : ℝ) ^ 2 := by
    field_simp
  rw [this, Real.sqrt_div' _ (sq_nonneg _), Real.sqrt_sq hn'.le]
  field_simp

theorem zip_sum (c d : ℝ) (f : ℝ → ℝ → ℝ) (n : ℕ) :
    (List.zipWith f ((List.range n).map (fun _ => c)) ((List.range n).map (fun _ => d))).sum = n * f c d := by
  rw [List.zipWith_map, List.zipWith_self, List.map_const', List.sum_replicate, List.length_range, nsmul_eq_mul]

/-- C185, refuted.  On a surface whose first form is the same everywhere (a plane, a cylinder) the distance given is
the true distance times the number of steps: 99 times too much with the default. -/
theorem C185_distance_refuted (E F G u1 v1 u2 v2 : ℝ) (n : ℕ) (hn : 0 < n) :
    surfaceDistance E F G u1 v1 u2 v2 (n + 1) = n * flatDistance E F G u1 v1 u2 v2 := by
  unfold surfaceDistance
  dsimp only
  rw [Nat.add_sub_cancel, List.map_map]
  have : (List.sum ∘ fun _ : ℕ => List.zipWith (arcLength E F G)
      ((List.range n).map (fun _ => (u2 - u1) / (n : ℝ))) ((List.range n).map (fun _ => (v2 - v1) / (n : ℝ))))
      = fun _ : ℕ => flatDistance E F G u1 v1 u2 v2 := by
    funext i
    show (List.zipWith _ _ _).sum = _
    rw [zip_sum, arc_scale E F G _ _ n hn]
    rfl
  rw [this, List.map_const', List.sum_replicate, List.length_range, nsmul_eq_mul]

/-- C185, what holds: two sampled parameters. -/
theorem C185_two_steps_partial (E F G u1 v1 u2 v2 : ℝ) :
    surfaceDistance E F G u1 v1 u2 v2 2 = flatDistance E F G u1 v1 u2 v2 := by
  rw [C185_distance_refuted E F G u1 v1 u2 v2 1 (by norm_num)]
  norm_num

theorem predict_loop (E F G du dv D step len : ℝ) (hl : len = √(E * du ^ 2 + 2 * F * du * dv + G * dv ^ 2))
    (h0 : 0 < len) : ∀ (fuel : ℕ) (t u v : ℝ), D < t + fuel * len → t ≤ D →
    predictLoop E F G du dv D step (fuel + 1) t u v
      = some (u + du * step * ((D - t) / len), v + dv * step * ((D - t) / len)) := by
  intro fuel
  induction fuel with
  | zero =>
    intro t u v h1 h2
    norm_num at h1
    linarith
  | succ n ih =>
    intro t u v h1 h2
    rw [predictLoop]
    dsimp only
    rw [← hl]
    by_cases h3 : t < D
    · rw [if_pos h3]
      by_cases h4 : D < t + len
      · rw [if_pos h4]
      · rw [if_neg h4, ih _ _ _ (by push_cast at h1; linarith) (not_lt.mp h4)]
        congr 2
        · field_simp
          ring
        · field_simp
          ring
    · rw [if_neg h3]
      have : t = D := le_antisymm h2 (not_lt.mp h3)
      rw [this]
      norm_num

/-- C185, refuted.  On such a surface `predict_point` ends, but the point it gives is at `|step_size|` times the
distance asked for, in the direction asked for: one hundredth with the default. -/
theorem C185_predict_refuted (E F G du dv D step u v : ℝ) (hD : 0 ≤ D)
    (hl : 0 < E * du ^ 2 + 2 * F * du * dv + G * dv ^ 2) :
    ∃ (fuel : ℕ) (u' v' : ℝ), predictLoop E F G du dv D step fuel 0 u v = some (u', v') ∧
      flatDistance E F G u v u' v' = |step| * D ∧ ∃ t, t * step ≥ 0 ∧ u' - u = t * du ∧ v' - v = t * dv := by
  have h0 := Real.sqrt_pos.mpr hl
  obtain ⟨n, hn⟩ := exists_nat_gt (D / √(E * du ^ 2 + 2 * F * du * dv + G * dv ^ 2))
  have hn' := (div_lt_iff₀ h0).mp hn
  refine ⟨n + 1, _, _, predict_loop E F G du dv D step _ rfl h0 n 0 u v (by linarith) hD, ?_,
    step * (D / √(E * du ^ 2 + 2 * F * du * dv + G * dv ^ 2)), ?_, ?_, ?_⟩
  · unfold flatDistance
    rw [sub_zero]
    have hsq := Real.sq_sqrt hl.le
    generalize √(E * du ^ 2 + 2 * F * du * dv + G * dv ^ 2) = len at *
    have : E * (u + du * step * (D / len) - u) ^ 2
        + 2 * F * (u + du * step * (D / len) - u) * (v + dv * step * (D / len) - v)
        + G * (v + dv * step * (D / len) - v) ^ 2 = (step * D) ^ 2 := by
      have e : E * (u + du * step * (D / len) - u) ^ 2
        + 2 * F * (u + du * step * (D / len) - u) * (v + dv * step * (D / len) - v)
        + G * (v + dv * step * (D / len) - v) ^ 2
        = (step * (D / len)) ^ 2 * (E * du ^ 2 + 2 * F * du * dv + G * dv ^ 2) := by ring
      rw [e, ← hsq]
      field_simp
    rw [this, Real.sqrt_sq_eq_abs, abs_mul, abs_of_nonneg hD]
  · have : 0 ≤ D / √(E * du ^ 2 + 2 * F * du * dv + G * dv ^ 2) := div_nonneg hD h0.le
    nlinarith [sq_nonneg step]
  · rw [sub_zero]
    ring
  · rw [sub_zero]
    ring

/-- A plane with slanted parameters. -/
example : (0 : ℝ) ≤ 5 ∧ (0 : ℝ) < 2 * 1 ^ 2 + 2 * 1 * 1 * 0 + 3 * 0 ^ 2 := by norm_num

/-- The value of a form on two directions. -/
def form (a b c : ℝ) (x y : ℝ × ℝ) : ℝ := a * x.1 * y.1 + b * (x.1 * y.2 + x.2 * y.1) + c * x.2 * y.2

/-- C186.  Euler's formula: with the first principal direction and a perpendicular one, both of length one on the
surface, the normal curvature at an angle is the value of `euler_curvature`. -/
theorem C186_euler (f : Forms) (h : Regular f) (k1 k2 : ℝ) (hp : principal f = some (k1, k2)) (x y : ℝ × ℝ)
    (hx : form f.E f.F f.G x x = 1) (hy : form f.E f.F f.G y y = 1) (hxy : form f.E f.F f.G x y = 0)
    (hk : normalCurvature f x.1 x.2 = some k1) (co si : ℝ) (hcs : co ^ 2 + si ^ 2 = 1) :
    normalCurvature f (co * x.1 + si * y.1) (co * x.2 + si * y.2) = some (euler k1 k2 co si) := by
  obtain ⟨k1', k2', hp', hle, hs, hm⟩ := principal_spec f h
  obtain ⟨rfl, rfl⟩ := Prod.mk.inj (Option.some.inj (hp.symm.trans hp'))
  have q1 : quad f k1 = 0 := by rw [quad_factor f k1 k2 k1 hs hm]; ring
  unfold quad at q1
  unfold form at hx hy hxy
  have dx : f.E * x.1 ^ 2 + 2 * f.F * x.1 * x.2 + f.G * x.2 ^ 2 = 1 := by linarith
  have hII : f.L * x.1 ^ 2 + 2 * f.M * x.1 * x.2 + f.N * x.2 ^ 2 = k1 := by
    unfold normalCurvature at hk
    dsimp only at hk
    rw [dx, if_neg one_ne_zero, div_one] at hk
    exact Option.some.inj hk
  have z0 : (f.L - k1 * f.E) * x.1 ^ 2 + 2 * (f.M - k1 * f.F) * x.1 * x.2 + (f.N - k1 * f.G) * x.2 ^ 2 = 0 := by
    linear_combination hII - k1 * dx
  have z1 : (f.L - k1 * f.E) * x.1 + (f.M - k1 * f.F) * x.2 = 0 := by
    apply pow_eq_zero_iff (two_ne_zero) |>.mp
    linear_combination (f.L - k1 * f.E) * z0 - x.2 ^ 2 * q1
  have z2 : (f.M - k1 * f.F) * x.1 + (f.N - k1 * f.G) * x.2 = 0 := by
    apply pow_eq_zero_iff (two_ne_zero) |>.mp
    linear_combination (f.N - k1 * f.G) * z0 - x.1 ^ 2 * q1
  have hXY : f.L * x.1 * y.1 + f.M * (x.1 * y.2 + x.2 * y.1) + f.N * x.2 * y.2 = 0 := by
    linear_combination y.1 * z1 + y.2 * z2 + k1 * hxy
  have area : (x.1 * y.2 - x.2 * y.1) ^ 2 * (f.E * f.G - f.F ^ 2) = 1 := by
    have : (x.1 * y.2 - x.2 * y.1) ^ 2 * (f.E * f.G - f.F ^ 2)
        = (f.E * x.1 * x.1 + f.F * (x.1 * x.2 + x.2 * x.1) + f.G * x.2 * x.2) *
          (f.E * y.1 * y.1 + f.F * (y.1 * y.2 + y.2 * y.1) + f.G * y.2 * y.2)
          - (f.E * x.1 * y.1 + f.F * (x.1 * y.2 + x.2 * y.1) + f.G * x.2 * y.2) ^ 2 := by ring
    rw [this, hx, hy, hxy]
    ring
  have hYY : f.L * y.1 ^ 2 + 2 * f.M * y.1 * y.2 + f.N * y.2 ^ 2 = k2 := by
    have tr : (f.E * x.1 * x.1 + f.F * (x.1 * x.2 + x.2 * x.1) + f.G * x.2 * x.2) *
          (f.L * y.1 ^ 2 + 2 * f.M * y.1 * y.2 + f.N * y.2 ^ 2)
        + (f.E * y.1 * y.1 + f.F * (y.1 * y.2 + y.2 * y.1) + f.G * y.2 * y.2) *
          (f.L * x.1 ^ 2 + 2 * f.M * x.1 * x.2 + f.N * x.2 ^ 2)
        - 2 * (f.E * x.1 * y.1 + f.F * (x.1 * y.2 + x.2 * y.1) + f.G * x.2 * y.2) *
          (f.L * x.1 * y.1 + f.M * (x.1 * y.2 + x.2 * y.1) + f.N * x.2 * y.2)
        = (x.1 * y.2 - x.2 * y.1) ^ 2 * (f.E * f.N + f.G * f.L - 2 * f.M * f.F) := by ring
    rw [hx, hy, hxy, hII, ← hs] at tr
    have : (x.1 * y.2 - x.2 * y.1) ^ 2 * ((f.E * f.G - f.F ^ 2) * (k1 + k2)) = k1 + k2 := by
      rw [← mul_assoc, area, one_mul]
    rw [this] at tr
    linarith
  have den : f.E * (co * x.1 + si * y.1) ^ 2 + 2 * f.F * (co * x.1 + si * y.1) * (co * x.2 + si * y.2)
      + f.G * (co * x.2 + si * y.2) ^ 2 = 1 := by
    linear_combination co ^ 2 * hx + si ^ 2 * hy + 2 * co * si * hxy + hcs
  unfold normalCurvature euler
  dsimp only
  rw [den, if_neg one_ne_zero, div_one]
  congr 1
  linear_combination co ^ 2 * hII + si ^ 2 * hYY + 2 * co * si * hXY

/-- The graph of a quadric: the parameter lines are such directions. -/
example : form 1 0 1 (1, 0) (1, 0) = 1 ∧ form 1 0 1 (0, 1) (0, 1) = 1 ∧ form 1 0 1 (1, 0) (0, 1) = 0 ∧
    normalCurvature ⟨1, 0, 1, 3, 0, 2⟩ 1 0 = some 3 := by
  unfold form normalCurvature
  norm_num

end Verif.Dg
