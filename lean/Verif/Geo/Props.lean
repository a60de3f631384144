import Verif.Geo.Model
import Verif.Vec.Props
import Mathlib.Tactic.Ring
import Mathlib.Tactic.FieldSimp
import Mathlib.Tactic.LinearCombination
import Mathlib.Tactic.Linarith
import Mathlib.Tactic.Positivity
import Mathlib.Tactic.NormNum
import Mathlib.Algebra.Order.Field.Rat
import Mathlib.Analysis.Calculus.MeanValue
import Mathlib.Analysis.Calculus.Deriv.Mul
import Mathlib.Analysis.Calculus.Deriv.Add
import Mathlib.Analysis.SpecialFunctions.Trigonometric.Deriv

/-! # C351–C354: the geodesic equations -/

set_option linter.unusedSectionVars false

namespace Verif.Geo

open Verif.Vec V3

variable {K : Type} [Field K] [LinearOrder K] [IsStrictOrderedRing K]

/-- The velocity in space of a path on the surface with parameter velocity `(p, q)`. -/
def velocity (j : Jet K) (p q : K) : V3 K := add (smul p j.ru) (smul q j.rv)

/-- The acceleration in space of a path on the surface with parameter velocity `(p, q)` and parameter acceleration `(p', q')`. -/
def accel (j : Jet K) (p q p' q' : K) : V3 K :=
  add (add (smul (p ^ 2) j.ruu) (add (smul (2 * (p * q)) j.ruv) (smul (q ^ 2) j.rvv))) (add (smul p' j.ru) (smul q' j.rv))

theorem denom_eq (j : Jet K) :
    (metric j).1 * (metric j).2.2 - (metric j).2.1 ^ 2 = dot (cross j.ru j.rv) (cross j.ru j.rv) := by
  rw [← gram_pos]; simp only [metric]; ring

/-- The right-hand side exists exactly where the surface has a normal. -/
theorem christoffel_none (j : Jet K) : christoffel j = none ↔ cross j.ru j.rv = zero := by
  rw [← dot_self_eq_zero, ← denom_eq]
  by_cases h : (metric j).1 * (metric j).2.2 - (metric j).2.1 ^ 2 = 0
  · simp only [christoffel, h, if_true]
  · simp only [christoffel, h, if_false]; simp

/-- What the code solves: the parameter acceleration in terms of the metric. -/
theorem equations_spec (jet : K → K → Jet K) (u v p q a b c d : K) (h : equations jet (u, v, p, q) = some (a, b, c, d)) :
    a = p ∧ b = q ∧
    2 * (dot (jet u v).ru (jet u v).ru * c + dot (jet u v).ru (jet u v).rv * d)
      = -((metricD (jet u v)).Eu * p ^ 2 + 2 * (metricD (jet u v)).Fu * p * q + (metricD (jet u v)).Gu * q ^ 2) ∧
    2 * (dot (jet u v).ru (jet u v).rv * c + dot (jet u v).rv (jet u v).rv * d)
      = -((metricD (jet u v)).Ev * p ^ 2 + 2 * (metricD (jet u v)).Fv * p * q + (metricD (jet u v)).Gv * q ^ 2) := by
  unfold equations at h
  simp only [christoffel, metric] at h
  set j := jet u v
  set m := metricD j
  by_cases hd : dot j.ru j.ru * dot j.rv j.rv - dot j.ru j.rv ^ 2 = 0
  · simp only [hd, if_true] at h; simp at h
  · simp only [hd, if_false] at h
    simp only [Option.some.injEq, Prod.mk.injEq] at h
    obtain ⟨ha, hb, hc, hd'⟩ := h
    subst ha hb hc hd'
    generalize m.Eu = Eu
    generalize m.Ev = Ev
    generalize m.Fu = Fu
    generalize m.Fv = Fv
    generalize m.Gu = Gu
    generalize m.Gv = Gv
    generalize dot j.ru j.ru = E at *
    generalize dot j.ru j.rv = F at *
    generalize dot j.rv j.rv = G at *
    have ht := mul_inv_cancel₀ hd
    simp only [div_eq_mul_inv]
    generalize (E * G - F ^ 2)⁻¹ = t at *
    have e2 : (2 : K) * 2⁻¹ = 1 := mul_inv_cancel₀ two_ne_zero
    generalize (2 : K)⁻¹ = r at *
    refine ⟨trivial, trivial, ?_, ?_⟩
    · linear_combination (-(Eu * p ^ 2 + 2 * Fu * p * q + Gu * q ^ 2)) * ht
        - (E * G - F ^ 2) * t * (Eu * p ^ 2 + 2 * Fu * p * q + Gu * q ^ 2) * e2
    · linear_combination (-(Ev * p ^ 2 + 2 * Fv * p * q + Gv * q ^ 2)) * ht
        - (E * G - F ^ 2) * t * (Ev * p ^ 2 + 2 * Fv * p * q + Gv * q ^ 2) * e2

/-- How far the turning of the parametrisation is from being balanced in the direction `(p, q)`. -/
def twist (m : MD K) (p q : K) : K := p * (m.Ev - m.Fu) + q * (m.Fv - m.Gu)

/-- The tangential acceleration of the solutions, for every surface and every state. -/
theorem tangential (jet : K → K → Jet K) (u v p q a b c d : K) (h : equations jet (u, v, p, q) = some (a, b, c, d)) :
    dot (accel (jet u v) p q c d) (jet u v).ru = q * twist (metricD (jet u v)) p q ∧
    dot (accel (jet u v) p q c d) (jet u v).rv = -(p * twist (metricD (jet u v)) p q) := by
  obtain ⟨-, -, h1, h2⟩ := equations_spec jet u v p q a b c d h
  simp only [metricD] at h1 h2
  simp only [twist, metricD, accel, dot, add, smul] at *
  constructor
  · linear_combination h1 / 2
  · linear_combination h2 / 2

/-- **C351** (pointwise) Solutions of the equations have no acceleration along the path: `γ'' · γ' = 0`. -/
theorem C351_no_change_of_speed (jet : K → K → Jet K) (u v p q a b c d : K) (h : equations jet (u, v, p, q) = some (a, b, c, d)) :
    dot (accel (jet u v) p q c d) (velocity (jet u v) p q) = 0 := by
  obtain ⟨h1, h2⟩ := tangential jet u v p q a b c d h
  have e : dot (accel (jet u v) p q c d) (velocity (jet u v) p q)
      = p * dot (accel (jet u v) p q c d) (jet u v).ru + q * dot (accel (jet u v) p q c d) (jet u v).rv := by
    simp only [velocity, dot, add, smul]; ring
  rw [e, h1, h2]; ring

/-- **C352** (characterisation) A moving solution is accelerated along the normal only, as a geodesic is, exactly if
`p (E_v - F_u) + q (F_v - G_u) = 0`. -/
theorem C352_geodesic_iff (jet : K → K → Jet K) (u v p q a b c d : K) (h : equations jet (u, v, p, q) = some (a, b, c, d))
    (hpq : p ≠ 0 ∨ q ≠ 0) :
    (dot (accel (jet u v) p q c d) (jet u v).ru = 0 ∧ dot (accel (jet u v) p q c d) (jet u v).rv = 0)
      ↔ twist (metricD (jet u v)) p q = 0 := by
  obtain ⟨h1, h2⟩ := tangential jet u v p q a b c d h
  rw [h1, h2]
  constructor
  · rintro ⟨k1, k2⟩
    rcases hpq with hp | hq
    · have : p * twist (metricD (jet u v)) p q = 0 := by linarith
      exact (mul_eq_zero.mp this).resolve_left hp
    · exact (mul_eq_zero.mp k1).resolve_left hq
  · intro k; rw [k]; simp

/-- **C352** (part) Right on generalised cylinders `c(u) + v d` with `c'' ⟂ d`: in every direction the acceleration is normal.
Missing: all other surfaces, see `C352_refuted`. -/
theorem C352_cylinder_partial (jet : K → K → Jet K) (u v p q a b c d : K) (h : equations jet (u, v, p, q) = some (a, b, c, d))
    (h1 : (jet u v).ruv = zero) (h2 : (jet u v).rvv = zero) (h3 : dot (jet u v).ruu (jet u v).rv = 0) :
    dot (accel (jet u v) p q c d) (jet u v).ru = 0 ∧ dot (accel (jet u v) p q c d) (jet u v).rv = 0 := by
  obtain ⟨k1, k2⟩ := tangential jet u v p q a b c d h
  have : twist (metricD (jet u v)) p q = 0 := by
    simp only [twist, metricD, h1, h2, h3]
    simp [dot, zero]
  rw [k1, k2, this]; simp

/-- The plane in polar coordinates `(u cos v, u sin v, 0)`, by its derivatives. -/
def polar (cos sin : K → K) (u v : K) : Jet K where
  ru := ⟨cos v, sin v, 0⟩
  rv := ⟨-(u * sin v), u * cos v, 0⟩
  ruu := zero
  ruv := ⟨-sin v, cos v, 0⟩
  rvv := ⟨-(u * cos v), -(u * sin v), 0⟩

/-- **C352** (negation) On the plane in polar coordinates the solutions are not straight: away from the centre every solution that is
not radial has an acceleration in the plane. -/
theorem C352_refuted (cos sin : K → K) (hcs : ∀ t, cos t ^ 2 + sin t ^ 2 = 1) (u v p q : K) (hu : u ≠ 0) (hq : q ≠ 0) :
    ∃ c d, equations (polar cos sin) (u, v, p, q) = some (p, q, c, d) ∧ accel (polar cos sin u v) p q c d ≠ zero ∧
      dot (accel (polar cos sin u v) p q c d) (polar cos sin u v).ru = -(2 * u * q ^ 2) := by
  have hne : christoffel (polar cos sin u v) ≠ none := by
    rw [Ne, christoffel_none]
    intro h
    have := congrArg V3.z h
    simp only [polar, cross, zero] at this
    have h1 : u = 0 := by linear_combination this - u * hcs v
    exact hu h1
  obtain ⟨g, hg⟩ := Option.ne_none_iff_exists'.mp hne
  have he : ∃ c d, equations (polar cos sin) (u, v, p, q) = some (p, q, c, d) := by
    simp only [equations, hg]
    exact ⟨_, _, rfl⟩
  obtain ⟨c, d, he⟩ := he
  have ht := (tangential _ u v p q p q c d he).1
  have e : dot (accel (polar cos sin u v) p q c d) (polar cos sin u v).ru = -(2 * u * q ^ 2) := by
    rw [ht]
    simp only [twist, metricD, polar, dot, zero]
    linear_combination (-2 * u * q ^ 2) * hcs v
  refine ⟨c, d, he, ?_, e⟩
  intro h0
  rw [h0] at e
  have : u * q ^ 2 = 0 := by
    have e0 : dot (zero : V3 K) (polar cos sin u v).ru = 0 := by simp [dot, zero]
    rw [e0] at e; linarith
  rcases mul_eq_zero.mp this with h | h
  · exact hu h
  · exact hq (pow_eq_zero_iff (two_ne_zero) |>.mp h)

/-- The hypotheses of C352 on a tilted cylinder with curved generator. -/
example : equations (fun _ _ : ℚ => ⟨⟨1, 2, 0⟩, ⟨0, 0, 3⟩, ⟨0, 5, 0⟩, zero, zero⟩) (0, 0, 1, 2) = some (1, 2, -2, 0)
    ∧ dot (⟨0, 5, 0⟩ : V3 ℚ) ⟨0, 0, 3⟩ = 0 := by decide +kernel

/-- A surface where the answer is off: the paraboloid-like jet with `r_uv ≠ 0`. -/
example : equations (fun _ _ : ℚ => ⟨⟨1, 0, 2⟩, ⟨0, 1, 1⟩, ⟨0, 0, 2⟩, ⟨0, 0, 1⟩, zero⟩) (0, 0, 1, 1) = some (1, 1, -2, 1 / 2)
    ∧ twist (metricD (⟨⟨1, 0, 2⟩, ⟨0, 1, 1⟩, ⟨0, 0, 2⟩, ⟨0, 0, 1⟩, zero⟩ : Jet ℚ)) 1 1 = -1 := by decide +kernel

/-! ## Along solutions -/

/-- A path in space has the derivative `d` at `t`, component by component. -/
def HasD (f : ℝ → V3 ℝ) (d : V3 ℝ) (t : ℝ) : Prop :=
  HasDerivAt (fun s => (f s).x) d.x t ∧ HasDerivAt (fun s => (f s).y) d.y t ∧ HasDerivAt (fun s => (f s).z) d.z t

theorem HasD.dot {f g : ℝ → V3 ℝ} {d e : V3 ℝ} {t : ℝ} (hf : HasD f d t) (hg : HasD g e t) :
    HasDerivAt (fun s => V3.dot (f s) (g s)) (V3.dot d (g t) + V3.dot (f t) e) t := by
  have h := ((hf.1.mul hg.1).add (hf.2.1.mul hg.2.1)).add (hf.2.2.mul hg.2.2)
  have e1 : (fun s => V3.dot (f s) (g s)) = (((fun s => (f s).x) * fun s => (g s).x) + (fun s => (f s).y) * fun s => (g s).y)
      + (fun s => (f s).z) * fun s => (g s).z := by
    funext s; simp [V3.dot]
  rw [e1]
  refine h.congr_deriv ?_
  simp only [V3.dot]; ring

theorem HasD.lin {f g : ℝ → V3 ℝ} {d e : V3 ℝ} {a b : ℝ → ℝ} {a' b' t : ℝ} (hf : HasD f d t) (hg : HasD g e t)
    (ha : HasDerivAt a a' t) (hb : HasDerivAt b b' t) :
    HasD (fun s => add (smul (a s) (f s)) (smul (b s) (g s)))
      (add (add (smul a' (f t)) (smul (a t) d)) (add (smul b' (g t)) (smul (b t) e))) t := by
  refine ⟨?_, ?_, ?_⟩
  · exact ((ha.mul hf.1).add (hb.mul hg.1))
  · exact ((ha.mul hf.2.1).add (hb.mul hg.2.1))
  · exact ((ha.mul hf.2.2).add (hb.mul hg.2.2))

/-- A path of states `(u, v, p, q)` is a solution of the equations of the code over a surface whose tangents vary along the path as
their partial derivatives say. -/
structure Solution (jet : ℝ → ℝ → Jet ℝ) (u v p q : ℝ → ℝ) : Prop where
  ode : ∀ s, ∃ a b c d, equations jet (u s, v s, p s, q s) = some (a, b, c, d) ∧ HasDerivAt u a s ∧ HasDerivAt v b s
    ∧ HasDerivAt p c s ∧ HasDerivAt q d s
  chainU : ∀ s, HasD (fun s => (jet (u s) (v s)).ru)
    (add (smul (p s) (jet (u s) (v s)).ruu) (smul (q s) (jet (u s) (v s)).ruv)) s
  chainV : ∀ s, HasD (fun s => (jet (u s) (v s)).rv)
    (add (smul (p s) (jet (u s) (v s)).ruv) (smul (q s) (jet (u s) (v s)).rvv)) s

/-- **C351** Every exact solution of `geodesic_equations` runs with constant speed in space. -/
theorem C351_constant_speed (jet : ℝ → ℝ → Jet ℝ) (u v p q : ℝ → ℝ) (h : Solution jet u v p q) (s t : ℝ) :
    dot (velocity (jet (u s) (v s)) (p s) (q s)) (velocity (jet (u s) (v s)) (p s) (q s))
      = dot (velocity (jet (u t) (v t)) (p t) (q t)) (velocity (jet (u t) (v t)) (p t) (q t)) := by
  have hd : ∀ s, HasDerivAt (fun s => dot (velocity (jet (u s) (v s)) (p s) (q s)) (velocity (jet (u s) (v s)) (p s) (q s))) 0 s := by
    intro s
    obtain ⟨a, b, c, d, he, -, -, hp, hq⟩ := h.ode s
    have hv := HasD.lin (h.chainU s) (h.chainV s) hp hq
    have h2 := HasD.dot hv hv
    refine h2.congr_deriv ?_
    have h0 := C351_no_change_of_speed jet _ _ _ _ _ _ _ _ he
    simp only [accel, velocity, dot, add, smul] at h0 ⊢
    linear_combination 2 * h0
  exact is_const_of_deriv_eq_zero (fun s => (hd s).differentiableAt) (fun s => (hd s).deriv) s t

/-- The hypotheses of C351: circles on the unit cylinder `(cos u, sin u, v)`. -/
example : Solution (fun u _ => ⟨⟨-Real.sin u, Real.cos u, 0⟩, ⟨0, 0, 1⟩, ⟨-Real.cos u, -Real.sin u, 0⟩, zero, zero⟩)
    (fun s => s) (fun _ => 0) (fun _ => 1) (fun _ => 0) := by
  refine ⟨fun s => ?_, fun s => ?_, fun s => ?_⟩
  · refine ⟨1, 0, 0, 0, ?_, hasDerivAt_id s, hasDerivAt_const _ _, hasDerivAt_const _ _, hasDerivAt_const _ _⟩
    have e : Real.sin s * Real.sin s + Real.cos s * Real.cos s = 1 := by
      have := Real.sin_sq_add_cos_sq s; nlinarith
    simp [equations, christoffel, metric, metricD, dot, zero, e, mul_comm]
  · refine ⟨?_, ?_, ?_⟩
    · exact (Real.hasDerivAt_sin s).neg.congr_deriv (by simp [add, smul, zero])
    · exact (Real.hasDerivAt_cos s).congr_deriv (by simp [add, smul, zero])
    · exact (hasDerivAt_const s (0 : ℝ)).congr_deriv (by simp [add, smul, zero])
  · refine ⟨?_, ?_, ?_⟩ <;> exact (hasDerivAt_const s _).congr_deriv (by simp [add, smul, zero])

/-! ## The metric -/

/-- **C353** `compute_metric_derivatives` gives the partial derivatives of the three numbers of `compute_metric`. -/
theorem C353_metric_derivatives (jet : ℝ → ℝ → Jet ℝ) (u v : ℝ)
    (huu : HasD (fun x => (jet x v).ru) (jet u v).ruu u) (huv : HasD (fun x => (jet x v).rv) (jet u v).ruv u)
    (hvu : HasD (fun y => (jet u y).ru) (jet u v).ruv v) (hvv : HasD (fun y => (jet u y).rv) (jet u v).rvv v) :
    let m := metricD (jet u v)
    HasDerivAt (fun x => (metric (jet x v)).1) m.Eu u ∧ HasDerivAt (fun y => (metric (jet u y)).1) m.Ev v ∧
    HasDerivAt (fun x => (metric (jet x v)).2.1) m.Fu u ∧ HasDerivAt (fun y => (metric (jet u y)).2.1) m.Fv v ∧
    HasDerivAt (fun x => (metric (jet x v)).2.2) m.Gu u ∧ HasDerivAt (fun y => (metric (jet u y)).2.2) m.Gv v := by
  refine ⟨(huu.dot huu).congr_deriv ?_, (hvu.dot hvu).congr_deriv ?_, (huu.dot huv).congr_deriv ?_, (hvu.dot hvv).congr_deriv ?_,
    (huv.dot huv).congr_deriv ?_, (hvv.dot hvv).congr_deriv ?_⟩ <;> simp only [metricD, dot] <;> ring

/-- The hypotheses of C353 on a saddle `(u, v, u v)`. -/
example (u v : ℝ) : HasD (fun _ => (⟨1, 0, v⟩ : V3 ℝ)) zero u ∧ HasD (fun x => (⟨0, 1, x⟩ : V3 ℝ)) ⟨0, 0, 1⟩ u :=
  ⟨⟨hasDerivAt_const _ _, hasDerivAt_const _ _, hasDerivAt_const _ _⟩, ⟨hasDerivAt_const _ _, hasDerivAt_const _ _, hasDerivAt_id _⟩⟩

/-- **C354** The equations have a value exactly where the surface is regular, and then whatever the velocity. -/
theorem C354_defined_iff (jet : K → K → Jet K) (u v p q : K) :
    (equations jet (u, v, p, q)).isSome ↔ cross (jet u v).ru (jet u v).rv ≠ zero := by
  rw [Ne, ← christoffel_none]
  unfold equations
  cases h : christoffel (jet u v) <;> simp [h]

/-- A pole of a sphere-like parametrisation has no value, another point has. -/
example : equations (fun _ _ : ℚ => ⟨⟨1, 0, 0⟩, zero, ⟨0, 0, 1⟩, zero, zero⟩) (0, 0, 1, 2) = none
    ∧ (equations (fun _ _ : ℚ => ⟨⟨1, 0, 0⟩, ⟨1, 1, 1⟩, ⟨0, 0, 1⟩, zero, zero⟩) (0, 0, 1, 2)).isSome = true := by decide +kernel

end Verif.Geo
