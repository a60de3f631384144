import Verif.Par.Props
import Mathlib.Analysis.SpecialFunctions.Trigonometric.Basic

/-! # Closed curves and the normal of a surface (C240, C241) -/

set_option linter.unusedVariables false

namespace Verif.Par

open Verif.Prim Verif.Dg

/-! ## C240: `is_closed` -/

/-- C240: a curve whose ends coincide is closed, for every tolerance. -/
theorem C240_closed (tol : ℝ) (h0 : 0 ≤ tol) (f : ℝ → P) (a b : ℝ) (h : f b = f a) : isClosed tol f a b = true := by
  unfold isClosed
  rw [h]
  simp [h0]

/-- C240: ends at a distance up to the tolerance make the curve closed. -/
theorem C240_near (tol : ℝ) (f : ℝ → P) (a b : ℝ) (h : norm (sub (f b) (f a)) ≤ tol) : isClosed tol f a b = true := by
  have h0 : 0 ≤ tol := le_trans (Real.sqrt_nonneg _) h
  unfold Prim.norm at h
  rw [Real.sqrt_le_left h0] at h
  unfold sub at h
  dsimp only at h
  unfold isClosed
  rw [decide_eq_true_iff]
  refine ⟨abs_le_of_sq_le_sq ?_ h0, abs_le_of_sq_le_sq ?_ h0, abs_le_of_sq_le_sq ?_ h0⟩ <;>
    nlinarith [sq_nonneg ((f b).x - (f a).x), sq_nonneg ((f b).y - (f a).y), sq_nonneg ((f b).z - (f a).z)]

/-- C240: the ends of a closed curve are at a distance of at most √3 times the tolerance. -/
theorem C240_bound (tol : ℝ) (h0 : 0 ≤ tol) (f : ℝ → P) (a b : ℝ) (h : isClosed tol f a b = true) :
    norm (sub (f b) (f a)) ≤ √3 * tol := by
  unfold isClosed at h
  rw [decide_eq_true_iff] at h
  obtain ⟨h1, h2, h3⟩ := h
  have e : √3 * tol = √(3 * tol ^ 2) := by
    rw [Real.sqrt_mul (by norm_num), Real.sqrt_sq h0]
  rw [e]
  unfold Prim.norm sub
  dsimp only
  apply Real.sqrt_le_sqrt
  have k : ∀ x : ℝ, |x| ≤ tol → x ^ 2 ≤ tol ^ 2 := fun x hx => by
    rw [← sq_abs]
    exact pow_le_pow_left₀ (abs_nonneg x) hx 2
  linarith [k _ h1, k _ h2, k _ h3]

/-- A circle is closed. -/
example : isClosed (1 / 10000000) (fun t => ⟨Real.cos t, Real.sin t, 0⟩) 0 (2 * Real.pi) = true :=
  C240_closed _ (by norm_num) _ _ _ (by simp)

/-- A helix is not. -/
example : isClosed (1 / 10000000) (fun t => ⟨0, 0, t⟩) 0 1 = false := by
  unfold isClosed
  rw [decide_eq_false_iff_not]
  rintro ⟨-, -, h⟩
  norm_num at h

example : isClosed (1 / 10000000) (fun t => ⟨t, 0, 0⟩) 0 1 = false := by
  unfold isClosed
  rw [decide_eq_false_iff_not]
  rintro ⟨h, -, -⟩
  norm_num at h

/-! ## C241: `normal` of a surface -/

theorem central_quad (h : ℝ) (hh : h ≠ 0) (a b c : P) (t : ℝ) : central h (quad a b c) t = quad' b c t := by
  unfold central quot quad quad' smul sub add
  ext <;> dsimp only <;> field_simp <;> ring

theorem central_eq_cd (h : ℝ) (hh : h ≠ 0) (f : ℝ → P) (t : ℝ) : central h f t = cd h f t := by
  unfold central quot cd smul sub
  ext <;> dsimp only <;> field_simp

/-- C241: for a surface whose parameter lines through the point are parabolas (or lines), the normal is the cross product of the two
derivatives, the one in the direction of the first parameter first. -/
theorem C241_quadratic (h : ℝ) (hh : h ≠ 0) (f : ℝ → ℝ → P) (u v : ℝ) (a b c a' b' c' : P) (hu : ∀ s, f s v = quad a b c s)
    (hv : ∀ s, f u s = quad a' b' c' s) : surfaceNormal h f u v = cross (quad' b c u) (quad' b' c' v) := by
  unfold surfaceNormal
  rw [show (fun s => f s v) = quad a b c from funext hu, show (fun s => f u s) = quad a' b' c' from funext hv, central_quad h hh,
    central_quad h hh]

/-- C241: on any surface the normal is orthogonal to the two chords from which the derivatives are computed. -/
theorem C241_orthogonal (h : ℝ) (f : ℝ → ℝ → P) (u v : ℝ) : dot (surfaceNormal h f u v) (sub (f (u + h) v) (f (u - h) v)) = 0 ∧
    dot (surfaceNormal h f u v) (sub (f u (v + h)) (f u (v - h))) = 0 := by
  unfold surfaceNormal central quot cross dot sub
  constructor <;> dsimp only <;> ring

/-- C241: each factor consists of derivatives at parameters within the step (mean values). -/
theorem C241_mean (h : ℝ) (hh : 0 < h) (f fu fv : ℝ → ℝ → P) (u v : ℝ)
    (hu : ∀ s ∈ Set.Icc (u - h) (u + h), HasDer (fun r => f r v) (fu s v) s)
    (hv : ∀ s ∈ Set.Icc (v - h) (v + h), HasDer (fun r => f u r) (fv u s) s) :
    ∃ d e : P, surfaceNormal h f u v = cross d e ∧
      (∃ s1 ∈ Set.Ioo (u - h) (u + h), d.x = (fu s1 v).x) ∧ (∃ s2 ∈ Set.Ioo (u - h) (u + h), d.y = (fu s2 v).y) ∧
      (∃ s3 ∈ Set.Ioo (u - h) (u + h), d.z = (fu s3 v).z) ∧ (∃ s1 ∈ Set.Ioo (v - h) (v + h), e.x = (fv u s1).x) ∧
      (∃ s2 ∈ Set.Ioo (v - h) (v + h), e.y = (fv u s2).y) ∧ ∃ s3 ∈ Set.Ioo (v - h) (v + h), e.z = (fv u s3).z := by
  have key : ∀ (t : ℝ) (g g' : ℝ → ℝ), (∀ s ∈ Set.Icc (t - h) (t + h), HasDerivAt g (g' s) s) →
      ∃ s ∈ Set.Ioo (t - h) (t + h), (g (t + h) - g (t - h)) / (2 * h) = g' s := by
    intro t g g' hd
    obtain ⟨s, hs, e⟩ := exists_hasDerivAt_eq_slope g g' (show t - h < t + h by linarith)
      (fun x hx => (hd x hx).continuousAt.continuousWithinAt) (fun x hx => hd x ⟨hx.1.le, hx.2.le⟩)
    refine ⟨s, hs, ?_⟩
    rw [e]
    congr 1
    ring
  refine ⟨_, _, rfl, ?_⟩
  unfold central quot sub
  dsimp only
  exact ⟨key u _ _ fun s hs => (hu s hs).1, key u _ _ fun s hs => (hu s hs).2.1, key u _ _ fun s hs => (hu s hs).2.2,
    key v _ _ fun s hs => (hv s hs).1, key v _ _ fun s hs => (hv s hs).2.1, key v _ _ fun s hs => (hv s hs).2.2⟩

/-- The paraboloid z = u² + v² at (1, 2). -/
example : surfaceNormal (1 / 10) (fun u v => ⟨u, v, u ^ 2 + v ^ 2⟩) 1 2 = ⟨-2, -4, 1⟩ := by
  rw [C241_quadratic (1 / 10) (by norm_num) _ 1 2 ⟨0, 2, 4⟩ ⟨1, 0, 0⟩ ⟨0, 0, 1⟩ ⟨1, 0, 1⟩ ⟨0, 1, 0⟩ ⟨0, 0, 1⟩]
  · unfold quad' cross smul add
    ext <;> norm_num
  · intro s
    unfold quad smul add
    ext <;> norm_num
    ring
  · intro s
    unfold quad smul add
    ext <;> norm_num

end Verif.Par
