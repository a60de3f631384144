import Verif.Par.Lemmas
import Verif.Dg.Props

/-! `ParametricCurve`: the numerical derivatives and what is computed from them. -/

set_option linter.unusedSectionVars false

namespace Verif.Par
open Verif.Prim Verif.Dg Set

/-- The central difference. -/
noncomputable def cd (h : ℝ) (f : ℝ → P) (t : ℝ) : P := smul (1 / (2 * h)) (sub (f (t + h)) (f (t - h)))

/-- The central difference of the central difference. -/
noncomputable def cdd (h : ℝ) (f : ℝ → P) (t : ℝ) : P := cd h (cd h f) t

theorem derivative_eq (h : ℝ) (hh : h ≠ 0) (f : ℝ → P) (t : ℝ) : curveDerivative h f t = smul (h ^ 2) (cd h f t) := by
  unfold curveDerivative cd smul sub
  ext <;> dsimp only <;> field_simp <;> ring

theorem second_eq (h : ℝ) (hh : h ≠ 0) (f : ℝ → P) (t : ℝ) : curveSecond h f t = smul (h ^ 4) (cdd h f t) := by
  unfold curveSecond cdd
  rw [derivative_eq h hh, derivative_eq h hh]
  generalize cd h f = g
  unfold cd smul sub
  ext <;> dsimp only <;> field_simp <;> ring

/-- **C202, refuted.** Every coordinate of `derivative(t)` is `h ^ 2` (a millionth) of the derivative of the curve at some
parameter within `h` of `t`. -/
theorem C202_scale_refuted (h : ℝ) (hh : 0 < h) (f f' : ℝ → P) (t : ℝ) (hf : ∀ s ∈ Icc (t - h) (t + h), HasDer f (f' s) s) :
    (∃ ξ ∈ Ioo (t - h) (t + h), (curveDerivative h f t).x = h ^ 2 * (f' ξ).x) ∧
    (∃ ξ ∈ Ioo (t - h) (t + h), (curveDerivative h f t).y = h ^ 2 * (f' ξ).y) ∧
    (∃ ξ ∈ Ioo (t - h) (t + h), (curveDerivative h f t).z = h ^ 2 * (f' ξ).z) := by
  have key : ∀ g g' : ℝ → ℝ, (∀ s ∈ Icc (t - h) (t + h), HasDerivAt g (g' s) s) →
      ∃ ξ ∈ Ioo (t - h) (t + h), (g (t + h) - g (t - h)) * (0.5 * h) = h ^ 2 * g' ξ := by
    intro g g' hg
    obtain ⟨ξ, hξ, e⟩ := mvt' g g' (t - h) (t + h) (by linarith) hg
    refine ⟨ξ, hξ, ?_⟩
    rw [e]; ring
  exact ⟨key _ _ fun s hs => (hf s hs).1, key _ _ fun s hs => (hf s hs).2.1, key _ _ fun s hs => (hf s hs).2.2⟩

/-- **C202, refuted.** So when the speed along an axis varies around `t` by a factor less than `1 / h ^ 2`, the number
returned is smaller than the derivative. -/
theorem C202_derivative_refuted (h : ℝ) (hh : 0 < h) (f f' : ℝ → P) (t m M : ℝ) (hm : 0 < m) (hM : h ^ 2 * M < m)
    (hf : ∀ s ∈ Icc (t - h) (t + h), HasDer f (f' s) s) (hb : ∀ s ∈ Icc (t - h) (t + h), m ≤ (f' s).x ∧ (f' s).x ≤ M) :
    (curveDerivative h f t).x < (f' t).x := by
  obtain ⟨ξ, hξ, e⟩ := (C202_scale_refuted h hh f f' t hf).1
  rw [e]
  have h1 := (hb ξ (Ioo_subset_Icc_self hξ)).2
  have h2 := (hb t ⟨by linarith, by linarith⟩).1
  have h3 := mul_le_mul_of_nonneg_left h1 (sq_nonneg h)
  linarith

/-- **C202, refuted.** Every coordinate of `second_derivative(t)` is `h ^ 4` of the second derivative at some parameter
within `2 * h` of `t`. -/
theorem C202_second_refuted (h : ℝ) (hh : 0 < h) (f f' f'' : ℝ → P) (t : ℝ)
    (hf : ∀ s ∈ Icc (t - 2 * h) (t + 2 * h), HasDer f (f' s) s)
    (hf' : ∀ s ∈ Icc (t - 2 * h) (t + 2 * h), HasDer f' (f'' s) s) :
    (∃ ξ ∈ Ioo (t - 2 * h) (t + 2 * h), (curveSecond h f t).x = h ^ 4 * (f'' ξ).x) ∧
    (∃ ξ ∈ Ioo (t - 2 * h) (t + 2 * h), (curveSecond h f t).y = h ^ 4 * (f'' ξ).y) ∧
    (∃ ξ ∈ Ioo (t - 2 * h) (t + 2 * h), (curveSecond h f t).z = h ^ 4 * (f'' ξ).z) := by
  have key : ∀ g g' g'' : ℝ → ℝ, (∀ s ∈ Icc (t - 2 * h) (t + 2 * h), HasDerivAt g (g' s) s) →
      (∀ s ∈ Icc (t - 2 * h) (t + 2 * h), HasDerivAt g' (g'' s) s) →
      ∃ ξ ∈ Ioo (t - 2 * h) (t + 2 * h), ((g (t + h + h) - g (t + h - h)) * (0.5 * h) -
        (g (t - h + h) - g (t - h - h)) * (0.5 * h)) * (0.5 * h) = h ^ 4 * g'' ξ := by
    intro g g' g'' hg hg'
    obtain ⟨ξ, hξ, e⟩ := mvt2 g g' g'' t (2 * h) (by linarith) hg hg'
    refine ⟨ξ, hξ, ?_⟩
    rw [show t + h + h = t + 2 * h by ring, show t + h - h = t by ring, show t - h + h = t by ring,
      show t - h - h = t - 2 * h by ring]
    linear_combination (h ^ 2 / 4) * e
  exact ⟨key _ _ _ (fun s hs => (hf s hs).1) fun s hs => (hf' s hs).1,
    key _ _ _ (fun s hs => (hf s hs).2.1) fun s hs => (hf' s hs).2.1,
    key _ _ _ (fun s hs => (hf s hs).2.2) fun s hs => (hf' s hs).2.2⟩

/-- A parabola. -/
def quad (a b c : P) (t : ℝ) : P := add a (add (smul t b) (smul (t ^ 2) c))

/-- Its derivative. -/
def quad' (b c : P) (t : ℝ) : P := add b (smul (2 * t) c)

theorem quad_der (a b c : P) (t : ℝ) : HasDer (quad a b c) (quad' b c t) t := by
  have key : ∀ a b c : ℝ, HasDerivAt (fun s : ℝ => a + (s * b + s ^ 2 * c)) (b + 2 * t * c) t := by
    intro a b c
    have h1 := ((hasDerivAt_id t).mul_const b).add (((hasDerivAt_id t).pow 2).mul_const c)
    have h2 := h1.const_add a
    refine HasDerivAt.congr_deriv (f := fun s : ℝ => a + (s * b + s ^ 2 * c)) h2 ?_
    simp
  exact ⟨key _ _ _, key _ _ _, key _ _ _⟩

theorem cd_quad (h : ℝ) (hh : h ≠ 0) (a b c : P) (t : ℝ) : cd h (quad a b c) t = quad' b c t := by
  unfold cd quad quad' smul sub add
  ext <;> dsimp only <;> field_simp <;> ring

theorem cdd_quad (h : ℝ) (hh : h ≠ 0) (a b c : P) (t : ℝ) : cdd h (quad a b c) t = smul 2 c := by
  unfold cdd
  have : cd h (quad a b c) = quad' b c := funext fun s => cd_quad h hh a b c s
  rw [this]
  unfold cd quad' smul sub add
  ext <;> dsimp only <;> field_simp <;> ring

/-- **C202, refuted, for parabolas and lines:** the result is `h ^ 2` times the derivative, so it is wrong unless the
derivative is zero. -/
theorem C202_parabola_refuted (h : ℝ) (hh : 0 < h) (h1 : h < 1) (a b c : P) (t : ℝ) :
    curveDerivative h (quad a b c) t = quad' b c t ↔ quad' b c t = ⟨0, 0, 0⟩ := by
  rw [derivative_eq h hh.ne', cd_quad h hh.ne']
  generalize quad' b c t = d
  constructor
  · intro e
    have hz : ∀ x : ℝ, h ^ 2 * x = x → x = 0 := by
      intro x hx
      have hlt : h ^ 2 < 1 := by nlinarith
      by_contra hne
      have : (1 - h ^ 2) * x = 0 := by linarith
      rcases mul_eq_zero.mp this with g | g
      · linarith
      · exact hne g
    have ex := congrArg P.x e
    have ey := congrArg P.y e
    have ez := congrArg P.z e
    ext
    · exact hz _ ex
    · exact hz _ ey
    · exact hz _ ez
  · intro e
    rw [e]; unfold smul; simp

/-! ### Scaling -/

theorem div_scale (k : ℝ) (hk : 0 < k) (d : P) : div (smul k d) (norm (smul k d)) = div d (norm d) := by
  rw [Prim.norm_smul, abs_of_pos hk]
  unfold div
  by_cases h0 : norm d = 0
  · rw [if_pos (by rw [h0, mul_zero]), if_pos h0]
  · rw [if_neg (mul_ne_zero hk.ne' h0), if_neg h0]
    unfold smul
    dsimp only
    rw [mul_div_mul_left _ _ hk.ne', mul_div_mul_left _ _ hk.ne', mul_div_mul_left _ _ hk.ne']

theorem tangentNormal_scale (k l : ℝ) (hk : 0 < k) (hl : 0 < l) (d1 d2 : P) :
    tangentNormal (smul k d1) (smul l d2) = tangentNormal d1 d2 := by
  unfold tangentNormal
  rw [div_scale k hk]
  cases e : div d1 (norm d1) with
  | none => rfl
  | some a =>
    have : sub (smul l d2) (smul (dot (smul l d2) a) a) = smul l (sub d2 (smul (dot d2 a) a)) := by
      unfold sub smul dot
      ext <;> dsimp only <;> ring
    simp only [Option.bind_eq_bind, Option.bind_some, this, div_scale l hl]

/-- The frame is that of `frenet` (area `Dg`), whose correctness is C178. -/
theorem tangentNormal_frenet (d1 d2 : P) :
    (tangentNormal d1 d2).map (fun tn => (tn.1, tn.2, cross tn.1 tn.2)) = frenet d1 d2 := by
  unfold tangentNormal frenet
  dsimp only
  by_cases h0 : norm d1 = 0
  · unfold div
    rw [if_pos h0, if_pos h0]
    rfl
  · have e : div d1 (norm d1) = some (smul (1 / norm d1) d1) := by
      unfold div smul
      rw [if_neg h0]
      congr 1
      ext <;> dsimp only <;> ring
    rw [e, if_neg h0]
    simp only [Option.bind_eq_bind, Option.bind_some]
    generalize smul (1 / norm d1) d1 = a
    generalize sub d2 (smul (dot d2 a) a) = b
    have hpos : 0 < 1 / norm d1 := one_div_pos.mpr (lt_of_le_of_ne (norm_nonneg _) (Ne.symm h0))
    have hs := div_scale (1 / norm d1) hpos b
    by_cases hb : norm b = 0
    · rw [if_pos (by rw [Prim.norm_smul, hb, mul_zero])]
      unfold div
      rw [if_pos hb]
      rfl
    · have hb' : norm (smul (1 / norm d1) b) ≠ 0 := by
        rw [Prim.norm_smul, abs_of_pos hpos]
        exact mul_ne_zero hpos.ne' hb
      rw [if_neg hb', ← hs]
      have e2 : div (smul (1 / norm d1) b) (norm (smul (1 / norm d1) b)) =
          some (smul (1 / norm (smul (1 / norm d1) b)) (smul (1 / norm d1) b)) := by
        unfold div
        rw [if_neg hb']
        generalize norm (smul (1 / norm d1) b) = m
        congr 1
        ext <;> dsimp only [smul] <;> ring
      rw [e2]
      rfl

/-- **C203.** The curvature vector is that of the central differences: the factors `h ^ 2` and `h ^ 4` cancel. For a
parabola it is the curvature vector of the curve. -/
theorem C203_curvature (h : ℝ) (hh : 0 < h) (f : ℝ → P) (t : ℝ) (hd : cd h f t ≠ ⟨0, 0, 0⟩) :
    curveCurvature h f t = (evaluateCurvature (cd h f t) (cdd h f t)).curvature := by
  unfold curveCurvature
  rw [derivative_eq h hh.ne', second_eq h hh.ne']
  have hne := smul_ne (h ^ 2) _ (pow_pos hh 2).ne' hd
  have e : cEvaluateCurvature ⟨0, 0, 0⟩ (smul (h ^ 2) (cd h f t)) (smul (h ^ 4) (cdd h f t)) =
      evaluateCurvature (smul (h ^ 2) (cd h f t)) (smul (h ^ 4) (cdd h f t)) := by
    unfold cEvaluateCurvature evaluateCurvature
    rfl
  rw [e]
  have := (C176_parameter (cd h f t) (cdd h f t) hd (h ^ 2) 0 (pow_pos hh 2).ne').1
  rw [← this]
  congr 2
  unfold add smul
  ext <;> dsimp only <;> ring

theorem C203_curvature_parabola (h : ℝ) (hh : 0 < h) (a b c : P) (t : ℝ) (hd : quad' b c t ≠ ⟨0, 0, 0⟩) :
    curveCurvature h (quad a b c) t = (evaluateCurvature (quad' b c t) (smul 2 c)).curvature := by
  rw [C203_curvature h hh _ _ (by rwa [cd_quad h hh.ne']), cd_quad h hh.ne', cdd_quad h hh.ne']

/-- **C203.** `plane_at` and `normal` give the frame of Frenet of the central differences, for a parabola the frame of the
curve; NaN exactly where that frame does not exist. -/
theorem C203_plane (h : ℝ) (hh : 0 < h) (f : ℝ → P) (t : ℝ) :
    curvePlane h f t = (frenet (cd h f t) (cdd h f t)).map (fun r => (f t, r)) ∧
    curveNormal h f t = (frenet (cd h f t) (cdd h f t)).map (fun r => r.2.1) := by
  unfold curvePlane curveNormal
  rw [derivative_eq h hh.ne', second_eq h hh.ne', tangentNormal_scale _ _ (pow_pos hh 2) (pow_pos hh 4),
    ← tangentNormal_frenet]
  rcases tangentNormal (cd h f t) (cdd h f t) with _ | ⟨a, n⟩ <;> exact ⟨rfl, rfl⟩

theorem C203_plane_parabola (h : ℝ) (hh : 0 < h) (a b c : P) (t : ℝ) :
    curvePlane h (quad a b c) t = (frenet (quad' b c t) (smul 2 c)).map (fun r => (quad a b c t, r)) := by
  rw [(C203_plane h hh _ _).1, cd_quad h hh.ne', cdd_quad h hh.ne']

/-- **C203, the part that holds.** Where the speed is above `small / h ^ 2` (1e-9), `tangent` is the unit tangent of the
parabola. -/
theorem C203_tangent_partial (small h : ℝ) (hs : 0 ≤ small) (hh : 0 < h) (a b c : P) (t : ℝ)
    (hd : small < h ^ 2 * norm (quad' b c t)) :
    curveTangent small h (quad a b c) t = smul (1 / norm (quad' b c t)) (quad' b c t) := by
  unfold curveTangent cTangent
  rw [derivative_eq h hh.ne', cd_quad h hh.ne', Prim.norm_smul, abs_of_pos (pow_pos hh 2)]
  have hpos : 0 < h ^ 2 * norm (quad' b c t) := lt_of_le_of_lt hs hd
  rw [abs_of_pos hpos, if_neg (not_le.mpr hd)]
  have h2 := (pow_pos hh 2).ne'
  have hn : norm (quad' b c t) ≠ 0 := by
    intro e; rw [e, mul_zero] at hpos; exact lt_irrefl _ hpos
  generalize norm (quad' b c t) = m at *
  unfold quot smul
  ext <;> dsimp only <;> field_simp

/-- **C203, refuted.** On a line run through at a speed up to `small / h ^ 2` the tangent is the zero vector. -/
theorem C203_slow_refuted (small h : ℝ) (hh : 0 < h) (a b : P) (t : ℝ) (hd : h ^ 2 * norm b ≤ small) :
    curveTangent small h (quad a b ⟨0, 0, 0⟩) t = ⟨0, 0, 0⟩ := by
  unfold curveTangent cTangent
  have e : quad' b ⟨0, 0, 0⟩ t = b := by unfold quad' add smul; simp
  have e2 : curveSecond h (quad a b ⟨0, 0, 0⟩) t = ⟨0, 0, 0⟩ := by
    rw [second_eq h hh.ne', cdd_quad h hh.ne']; unfold smul; simp
  rw [derivative_eq h hh.ne', cd_quad h hh.ne', e, Prim.norm_smul, abs_of_pos (pow_pos hh 2),
    abs_of_nonneg (mul_nonneg (pow_pos hh 2).le (norm_nonneg _)), if_pos hd, e2]
  have : norm (⟨0, 0, 0⟩ : P) = 0 := (norm_zero_iff _).mpr rfl
  rw [this, if_neg (lt_irrefl _)]

/-- **C204, refuted.** A `ReparametrizedCurve` gives the origin for every parameter; whatever the change of parameter, this
is wrong wherever the curve is not at the origin. -/
theorem C204_reparametrized_refuted (curve : ℝ → P) (interval : ℝ × ℝ) (φ : ℝ → ℝ) (t : ℝ) :
    reparametrizedEvaluate curve interval t = curve (φ t) ↔ curve (φ t) = ⟨0, 0, 0⟩ := by
  unfold reparametrizedEvaluate
  exact eq_comm

/-! ### Examples -/

example : curveDerivative (1/1000) (quad ⟨0, 0, 0⟩ ⟨1, 0, 0⟩ ⟨0, 1, 0⟩) 2 ≠ quad' ⟨1, 0, 0⟩ ⟨0, 1, 0⟩ 2 := by
  rw [ne_eq, C202_parabola_refuted (1/1000) (by norm_num) (by norm_num)]
  intro h
  have := congrArg P.x h
  norm_num [quad', add, smul] at this

example : (curveDerivative (1/1000) (quad ⟨0, 0, 0⟩ ⟨1, 0, 0⟩ ⟨1, 1, 0⟩) 2).x < (quad' ⟨1, 0, 0⟩ ⟨1, 1, 0⟩ 2).x :=
  C202_derivative_refuted (1/1000) (by norm_num) _ (quad' ⟨1, 0, 0⟩ ⟨1, 1, 0⟩) 2 1 100 (by norm_num) (by norm_num)
    (fun s _ => quad_der _ _ _ s) (fun s hs => by
      have h1 := hs.1
      have h2 := hs.2
      norm_num [quad', add, smul] at h1 h2 ⊢
      constructor <;> linarith)

example : curvePlane (1/1000) (quad ⟨0, 0, 0⟩ ⟨1, 0, 0⟩ ⟨0, 1, 0⟩) 0 =
    some (⟨0, 0, 0⟩, ⟨1, 0, 0⟩, ⟨0, 1, 0⟩, ⟨0, 0, 1⟩) := by
  rw [C203_plane_parabola (1/1000) (by norm_num)]
  have n1 : Prim.norm ⟨1, 0, 0⟩ = 1 := norm_eq_of_sq _ _ (by norm_num) (by norm_num [dot])
  have n2 : Prim.norm ⟨0, 2, 0⟩ = 2 := norm_eq_of_sq _ _ (by norm_num) (by norm_num [dot])
  have e1 : quad' ⟨1, 0, 0⟩ ⟨0, 1, 0⟩ 0 = ⟨1, 0, 0⟩ := by norm_num [quad', add, smul]
  have e2 : smul 2 ⟨0, 1, 0⟩ = ⟨0, 2, 0⟩ := by norm_num [smul]
  have e3 : smul (1 / 1) (sub ⟨0, 2, 0⟩ (smul (dot ⟨0, 2, 0⟩ (smul (1 / 1) ⟨1, 0, 0⟩)) (smul (1 / 1) ⟨1, 0, 0⟩))) = ⟨0, 2, 0⟩ := by
    norm_num [smul, sub, dot]
  rw [e1, e2]
  unfold frenet
  dsimp only
  rw [n1, e3, n2]
  norm_num [smul, cross, quad, add]

example : curveTangent (1/10^15) (1/1000) (quad ⟨0, 0, 0⟩ ⟨1/10^10, 0, 0⟩ ⟨0, 0, 0⟩) 5 = ⟨0, 0, 0⟩ :=
  C203_slow_refuted _ _ (by norm_num) _ _ _ (by
    rw [norm_eq_of_sq ⟨1/10^10, 0, 0⟩ (1/10^10) (by norm_num) (by norm_num [dot])]; norm_num)

end Verif.Par
