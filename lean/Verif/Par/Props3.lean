import Verif.Par.Props2

/-! # Ruled surfaces, bilinear patches and cubic Bézier curves (C209-C211) -/

set_option linter.unusedSectionVars false

namespace Verif.Par

open Verif.Prim Verif.Dg Set

/-! ### `Ruled` -/

/-- **C209.** On `v = 0` and `v = 1` the surface is the two curves, each at the parameter in proportion to its own interval;
for any `v` the point lies on the segment between them. -/
theorem C209_edges (c0 c1 : RCurve) (u v : ℝ) :
    ruledEval c0 c1 u 0 = c0.eval (c0.a + u * (c0.b - c0.a)) ∧ ruledEval c0 c1 u 1 = c1.eval (c1.a + u * (c1.b - c1.a)) ∧
    ruledEval c0 c1 u v = add (smul (1 - v) (ruledEval c0 c1 u 0)) (smul v (ruledEval c0 c1 u 1)) := by
  have e0 : c0.at u = c0.a + u * (c0.b - c0.a) := by unfold RCurve.at; ring
  have e1 : c1.at u = c1.a + u * (c1.b - c1.a) := by unfold RCurve.at; ring
  unfold ruledEval
  rw [e0, e1]
  refine ⟨?_, ?_, ?_⟩ <;> unfold blend <;> (try unfold add smul) <;> ext <;> dsimp only <;> ring

/-- **C209.** `derivative_v` is the derivative along `v`. -/
theorem C209_derivative_v (c0 c1 : RCurve) (u v : ℝ) : HasDer (fun r => ruledEval c0 c1 u r) (ruledV c0 c1 u) v := by
  have key : ∀ a b : ℝ, HasDerivAt (fun r : ℝ => (1 - r) * a + r * b) (b - a) v := by
    intro a b
    have h := (((hasDerivAt_const v (1 : ℝ)).sub (hasDerivAt_id v)).mul_const a).add ((hasDerivAt_id v).mul_const b)
    refine HasDerivAt.congr_deriv (f := fun r : ℝ => (1 - r) * a + r * b) h ?_
    ring
  exact ⟨key _ _, key _ _, key _ _⟩

/-- The derivative of a curve at the parameter of the ruled surface. -/
theorem at_deriv (g g' : ℝ → ℝ) (a b u : ℝ) (h : HasDerivAt g (g' (u * (b - a) + a)) (u * (b - a) + a)) :
    HasDerivAt (fun s => g (s * (b - a) + a)) ((b - a) * g' (u * (b - a) + a)) u := by
  have hi : HasDerivAt (fun s : ℝ => s * (b - a) + a) (b - a) u := by
    have := ((hasDerivAt_id u).mul_const (b - a)).add_const a
    refine HasDerivAt.congr_deriv (f := fun s : ℝ => s * (b - a) + a) this ?_
    ring
  have := HasDerivAt.comp u (h₂ := g) h hi
  exact HasDerivAt.congr_deriv (f := fun s => g (s * (b - a) + a)) this (by ring)

theorem blend_deriv (g0 g1 : ℝ → ℝ) (d0 d1 v u : ℝ) (h0 : HasDerivAt g0 d0 u) (h1 : HasDerivAt g1 d1 u) :
    HasDerivAt (fun s => (1 - v) * g0 s + v * g1 s) ((1 - v) * d0 + v * d1) u :=
  (h0.const_mul (1 - v)).add (h1.const_mul v)

/-- The derivative along `u`, with the lengths of the intervals. -/
theorem ruled_hasDer (c0 c1 : RCurve) (u v : ℝ) (h0 : HasDer c0.eval (c0.deriv (c0.at u)) (c0.at u))
    (h1 : HasDer c1.eval (c1.deriv (c1.at u)) (c1.at u)) :
    HasDer (fun s => ruledEval c0 c1 s v)
      (blend v (smul (c0.b - c0.a) (c0.deriv (c0.at u))) (smul (c1.b - c1.a) (c1.deriv (c1.at u)))) u :=
  ⟨blend_deriv _ _ _ _ v u (at_deriv (fun t => (c0.eval t).x) (fun t => (c0.deriv t).x) _ _ u h0.1)
      (at_deriv (fun t => (c1.eval t).x) (fun t => (c1.deriv t).x) _ _ u h1.1),
    blend_deriv _ _ _ _ v u (at_deriv (fun t => (c0.eval t).y) (fun t => (c0.deriv t).y) _ _ u h0.2.1)
      (at_deriv (fun t => (c1.eval t).y) (fun t => (c1.deriv t).y) _ _ u h1.2.1),
    blend_deriv _ _ _ _ v u (at_deriv (fun t => (c0.eval t).z) (fun t => (c0.deriv t).z) _ _ u h0.2.2)
      (at_deriv (fun t => (c1.eval t).z) (fun t => (c1.deriv t).z) _ _ u h1.2.2)⟩

theorem hasDer_unique (f : ℝ → P) (d e : P) (t : ℝ) (h1 : HasDer f d t) (h2 : HasDer f e t) : d = e :=
  P.ext (h1.1.unique h2.1) (h1.2.1.unique h2.2.1) (h1.2.2.unique h2.2.2)

/-- **C209, the part that holds.** When both curves are parametrised over intervals of length one, `derivative_u` is the
derivative along `u`. -/
theorem C209_derivative_u_partial (c0 c1 : RCurve) (u v : ℝ) (l0 : c0.b - c0.a = 1) (l1 : c1.b - c1.a = 1)
    (h0 : HasDer c0.eval (c0.deriv (c0.at u)) (c0.at u)) (h1 : HasDer c1.eval (c1.deriv (c1.at u)) (c1.at u)) :
    HasDer (fun s => ruledEval c0 c1 s v) (ruledU c0 c1 u v) u := by
  have := ruled_hasDer c0 c1 u v h0 h1
  rw [l0, l1] at this
  unfold ruledU
  have e : ∀ p : P, smul 1 p = p := fun p => by unfold smul; ext <;> dsimp only <;> ring
  rwa [e, e] at this

/-- **C209, refuted.** When both intervals have the same length `L`, the derivative along `u` is `L` times what
`derivative_u` returns: the factor is left out, and the result is wrong whenever it is not zero and `L` is not one. -/
theorem C209_derivative_u_refuted (c0 c1 : RCurve) (u v L : ℝ) (l0 : c0.b - c0.a = L) (l1 : c1.b - c1.a = L)
    (h0 : HasDer c0.eval (c0.deriv (c0.at u)) (c0.at u)) (h1 : HasDer c1.eval (c1.deriv (c1.at u)) (c1.at u)) :
    HasDer (fun s => ruledEval c0 c1 s v) (smul L (ruledU c0 c1 u v)) u ∧
    (L ≠ 1 → ruledU c0 c1 u v ≠ ⟨0, 0, 0⟩ → ¬ HasDer (fun s => ruledEval c0 c1 s v) (ruledU c0 c1 u v) u) := by
  have h := ruled_hasDer c0 c1 u v h0 h1
  rw [l0, l1] at h
  have e : blend v (smul L (c0.deriv (c0.at u))) (smul L (c1.deriv (c1.at u))) = smul L (ruledU c0 c1 u v) := by
    unfold ruledU blend smul
    ext <;> dsimp only <;> ring
  rw [e] at h
  refine ⟨h, fun hL hne hc => hne ?_⟩
  have := hasDer_unique _ _ _ _ h hc
  generalize ruledU c0 c1 u v = w at *
  have hl : L - 1 ≠ 0 := sub_ne_zero.mpr hL
  unfold smul at this
  ext
  · have := congrArg P.x this
    dsimp only at this
    exact (mul_eq_zero.mp (by linear_combination this : (L - 1) * w.x = 0)).resolve_left hl
  · have := congrArg P.y this
    dsimp only at this
    exact (mul_eq_zero.mp (by linear_combination this : (L - 1) * w.y = 0)).resolve_left hl
  · have := congrArg P.z this
    dsimp only at this
    exact (mul_eq_zero.mp (by linear_combination this : (L - 1) * w.z = 0)).resolve_left hl

/-- **C209, refuted.** `second_derivative_uu` is the derivative along `u` of what `derivative_u` returns divided by the
length of the intervals: over intervals of length `L` the second derivative is `L ^ 2` times the result. -/
theorem C209_second_uu_refuted (c0 c1 : RCurve) (u v L : ℝ) (l0 : c0.b - c0.a = L) (l1 : c1.b - c1.a = L)
    (h0 : HasDer c0.deriv (c0.second (c0.at u)) (c0.at u)) (h1 : HasDer c1.deriv (c1.second (c1.at u)) (c1.at u)) :
    HasDer (fun s => smul L (ruledU c0 c1 s v)) (smul (L ^ 2) (ruledUU c0 c1 u v)) u := by
  have h := ruled_hasDer ⟨c0.deriv, c0.second, c0.second, c0.a, c0.b⟩ ⟨c1.deriv, c1.second, c1.second, c1.a, c1.b⟩ u v h0 h1
  dsimp only at h
  rw [l0, l1] at h
  refine ⟨?_, ?_, ?_⟩
  · refine HasDerivAt.congr_deriv (f := fun s => L * (ruledU c0 c1 s v).x) (h.1.const_mul L) ?_
    dsimp only [blend, smul, ruledUU, RCurve.at]; ring
  · refine HasDerivAt.congr_deriv (f := fun s => L * (ruledU c0 c1 s v).y) (h.2.1.const_mul L) ?_
    dsimp only [blend, smul, ruledUU, RCurve.at]; ring
  · refine HasDerivAt.congr_deriv (f := fun s => L * (ruledU c0 c1 s v).z) (h.2.2.const_mul L) ?_
    dsimp only [blend, smul, ruledUU, RCurve.at]; ring

/-! ### `BiLinear` -/

/-- **C210.** The patch passes through its four points at the corners and is a straight segment along each parameter. -/
theorem C210_corners (s : BiL) (u v : ℝ) :
    s.eval 0 0 = s.b00 ∧ s.eval 1 0 = s.b10 ∧ s.eval 1 1 = s.b11 ∧ s.eval 0 1 = s.b01 ∧
    s.eval u v = blend v (blend u s.b00 s.b10) (blend u s.b01 s.b11) ∧
    s.eval u v = blend u (blend v s.b00 s.b01) (blend v s.b10 s.b11) := by
  refine ⟨?_, ?_, ?_, ?_, ?_, ?_⟩ <;> unfold BiL.eval bil <;> (try unfold blend) <;> ext <;> dsimp only <;> ring

/-- **C210.** All the derivatives are exact. -/
theorem C210_derivatives (s : BiL) (u v : ℝ) :
    HasDer (fun r => s.eval r v) (s.du v) u ∧ HasDer (fun r => s.eval u r) (s.dv u) v ∧
    HasDer (fun r => s.du r) s.duv v ∧ HasDer (fun r => s.dv r) s.duv u ∧
    HasDer (fun _ => s.du v) s.dpure u ∧ HasDer (fun _ => s.dv u) s.dpure v := by
  have lin : ∀ (p q t : ℝ), HasDerivAt (fun r : ℝ => p + r * q) q t := by
    intro p q t
    have h := ((hasDerivAt_id t).mul_const q).const_add p
    refine HasDerivAt.congr_deriv (f := fun r : ℝ => p + r * q) h ?_
    ring
  have go : ∀ (f : ℝ → ℝ) (p q t : ℝ), (∀ r, f r = p + r * q) → HasDerivAt f q t := by
    intro f p q t hf
    rw [show f = fun r => p + r * q from funext hf]
    exact lin p q t
  refine ⟨⟨?_, ?_, ?_⟩, ⟨?_, ?_, ?_⟩, ⟨?_, ?_, ?_⟩, ⟨?_, ?_, ?_⟩, ?_, ?_⟩
  · exact go _ (bil s.b00.x s.b10.x s.b11.x s.b01.x 0 v) _ _ fun r => by dsimp only [BiL.eval, BiL.du, bil]; ring
  · exact go _ (bil s.b00.y s.b10.y s.b11.y s.b01.y 0 v) _ _ fun r => by dsimp only [BiL.eval, BiL.du, bil]; ring
  · exact go _ (bil s.b00.z s.b10.z s.b11.z s.b01.z 0 v) _ _ fun r => by dsimp only [BiL.eval, BiL.du, bil]; ring
  · exact go _ (bil s.b00.x s.b10.x s.b11.x s.b01.x u 0) _ _ fun r => by dsimp only [BiL.eval, BiL.dv, bil]; ring
  · exact go _ (bil s.b00.y s.b10.y s.b11.y s.b01.y u 0) _ _ fun r => by dsimp only [BiL.eval, BiL.dv, bil]; ring
  · exact go _ (bil s.b00.z s.b10.z s.b11.z s.b01.z u 0) _ _ fun r => by dsimp only [BiL.eval, BiL.dv, bil]; ring
  · exact go _ (s.du 0).x _ _ fun r => by dsimp only [BiL.duv, BiL.du]; ring
  · exact go _ (s.du 0).y _ _ fun r => by dsimp only [BiL.duv, BiL.du]; ring
  · exact go _ (s.du 0).z _ _ fun r => by dsimp only [BiL.duv, BiL.du]; ring
  · exact go _ (s.dv 0).x _ _ fun r => by dsimp only [BiL.duv, BiL.dv]; ring
  · exact go _ (s.dv 0).y _ _ fun r => by dsimp only [BiL.duv, BiL.dv]; ring
  · exact go _ (s.dv 0).z _ _ fun r => by dsimp only [BiL.duv, BiL.dv]; ring
  · exact ⟨hasDerivAt_const _ _, hasDerivAt_const _ _, hasDerivAt_const _ _⟩
  · exact ⟨hasDerivAt_const _ _, hasDerivAt_const _ _, hasDerivAt_const _ _⟩

/-! ### `CubicSpline` -/

/-- **C211.** The curve is the cubic Bézier curve of the four points: the value is what de Casteljau's construction gives. -/
theorem C211_bezier (c : Cubic) (t : ℝ) :
    c.eval t = blend t (blend t (blend t c.p0 c.c0) (blend t c.c0 c.c1)) (blend t (blend t c.c0 c.c1) (blend t c.c1 c.p1)) ∧
    c.eval 0 = c.p0 ∧ c.eval 1 = c.p1 := by
  refine ⟨?_, ?_, ?_⟩ <;> unfold Cubic.eval cub <;> (try unfold blend) <;> ext <;> dsimp only <;> ring

theorem poly3 (p q r s t : ℝ) :
    HasDerivAt (fun t : ℝ => p + t * q + t ^ 2 * r + t ^ 3 * s) (q + 2 * t * r + 3 * t ^ 2 * s) t := by
  have h := ((((hasDerivAt_id t).mul_const q).const_add p).add ((hasDerivAt_pow 2 t).mul_const r)).add
    ((hasDerivAt_pow 3 t).mul_const s)
  refine HasDerivAt.congr_deriv (f := fun t : ℝ => p + t * q + t ^ 2 * r + t ^ 3 * s) h ?_
  norm_num

/-- **C211.** `derivative` and `second_derivative` are the derivatives. -/
theorem C211_derivatives (c : Cubic) (t : ℝ) : HasDer c.eval (c.deriv t) t ∧ HasDer c.deriv (c.second t) t := by
  have k1 : ∀ p0 c0 c1 p1 : ℝ, HasDerivAt (fun t => cub p0 c0 c1 p1 t) (cubD p0 c0 c1 p1 t) t := by
    intro p0 c0 c1 p1
    have e : (fun t => cub p0 c0 c1 p1 t) = fun t =>
        p0 + t * (3 * (c0 - p0)) + t ^ 2 * (3 * (p0 - 2 * c0 + c1)) + t ^ 3 * (p1 - 3 * c1 + 3 * c0 - p0) := by
      funext t; unfold cub; ring
    rw [e]
    refine (poly3 _ _ _ _ t).congr_deriv ?_
    unfold cubD; ring
  have k2 : ∀ p0 c0 c1 p1 : ℝ, HasDerivAt (fun t => cubD p0 c0 c1 p1 t) (cubDD p0 c0 c1 p1 t) t := by
    intro p0 c0 c1 p1
    have e : (fun t => cubD p0 c0 c1 p1 t) = fun t =>
        3 * (c0 - p0) + t * (6 * (p0 - 2 * c0 + c1)) + t ^ 2 * (3 * (p1 - 3 * c1 + 3 * c0 - p0)) + t ^ 3 * 0 := by
      funext t; unfold cubD; ring
    rw [e]
    refine (poly3 _ _ _ _ t).congr_deriv ?_
    unfold cubDD; ring
  exact ⟨⟨k1 _ _ _ _, k1 _ _ _ _, k1 _ _ _ _⟩, ⟨k2 _ _ _ _, k2 _ _ _ _, k2 _ _ _ _⟩⟩

/-- **C211.** The end tangents point to the control points, with length three times the distance to them; in particular the
derivative at the start is not the second argument. -/
theorem C211_tangents (c : Cubic) :
    c.deriv 0 = smul 3 (sub c.c0 c.p0) ∧ c.deriv 1 = smul 3 (sub c.p1 c.c1) ∧
    (c.deriv 0 = c.c0 ↔ smul 2 c.c0 = smul 3 c.p0) := by
  have e : c.deriv 0 = smul 3 (sub c.c0 c.p0) := by
    unfold Cubic.deriv cubD smul sub
    ext <;> dsimp only <;> ring
  refine ⟨e, ?_, ?_⟩
  · unfold Cubic.deriv cubD smul sub
    ext <;> dsimp only <;> ring
  · rw [e]
    unfold smul sub
    constructor
    · intro h
      have hx := congrArg P.x h
      have hy := congrArg P.y h
      have hz := congrArg P.z h
      dsimp only at hx hy hz
      ext <;> dsimp only <;> linarith
    · intro h
      have hx := congrArg P.x h
      have hy := congrArg P.y h
      have hz := congrArg P.z h
      dsimp only at hx hy hz
      ext <;> dsimp only <;> linarith

/-! ### Examples -/

/-- A segment over `[0, 2]`. -/
def seg02 (p q : P) : RCurve := ⟨fun t => add p (smul t q), fun _ => q, fun _ => ⟨0, 0, 0⟩, 0, 2⟩

theorem seg02_der (p q : P) (t : ℝ) : HasDer (seg02 p q).eval ((seg02 p q).deriv t) t := by
  have lin : ∀ (p q t : ℝ), HasDerivAt (fun r : ℝ => p + r * q) q t := by
    intro p q t
    have h := ((hasDerivAt_id t).mul_const q).const_add p
    refine HasDerivAt.congr_deriv (f := fun r : ℝ => p + r * q) h ?_
    ring
  exact ⟨lin _ _ _, lin _ _ _, lin _ _ _⟩

example : ¬ HasDer (fun s => ruledEval (seg02 ⟨0, 0, 0⟩ ⟨1, 0, 0⟩) (seg02 ⟨0, 5, 0⟩ ⟨2, 0, 1⟩) s (1/2))
    (ruledU (seg02 ⟨0, 0, 0⟩ ⟨1, 0, 0⟩) (seg02 ⟨0, 5, 0⟩ ⟨2, 0, 1⟩) (1/3) (1/2)) (1/3) :=
  (C209_derivative_u_refuted _ _ (1/3) (1/2) 2 (by norm_num [seg02]) (by norm_num [seg02]) (seg02_der _ _ _)
    (seg02_der _ _ _)).2 (by norm_num) (by
      intro h; have := congrArg P.x h; norm_num [ruledU, blend, seg02] at this)

example : (⟨⟨0, 0, 0⟩, ⟨1, 0, 0⟩, ⟨2, 1, 0⟩, ⟨3, 3, 3⟩⟩ : Cubic).deriv 0 ≠ ⟨1, 0, 0⟩ := by
  intro h
  have := congrArg P.x ((C211_tangents ⟨⟨0, 0, 0⟩, ⟨1, 0, 0⟩, ⟨2, 1, 0⟩, ⟨3, 3, 3⟩⟩).2.2.mp h)
  norm_num [smul] at this

example : (⟨⟨0, 0, 0⟩, ⟨1, 0, 0⟩, ⟨1, 1, 1⟩, ⟨0, 1, 0⟩⟩ : BiL).eval 1 1 = ⟨1, 1, 1⟩ := (C210_corners _ 0 0).2.2.1

end Verif.Par
