import Verif.Srf.Props2

set_option linter.unusedSectionVars false

/-!
# Python surfaces: curvature of an intersection curve, lines through two points, linear maps (C277, C278)
-/

namespace Verif.Srf

open Verif.Vec Verif.Vec.V3 Verif.Pinv

variable {K : Type} [Field K] [LinearOrder K] [IsStrictOrderedRing K]

/-! ## C277: `compute_intersection_curvature` -/

/-- The second fundamental form at the tangent vector `a Su + b Sv`. -/
def form2 (s : Jet K) (n : V3 K) (a b : K) : K := a ^ 2 * dot s.suu n + 2 * (a * b) * dot s.suv n + b ^ 2 * dot s.svv n

/-- `k` is the curvature vector at a point of a curve with unit tangent `t` that lies on both surfaces: it is orthogonal to `t`, and
along each of the normals it has the normal curvature in the direction `t` (Meusnier). -/
structure IsCurvature (s1 s2 : Jet K) (n1 n2 t k : V3 K) : Prop where
  perp : dot k t = 0
  first : ∀ a b, t = add (smul a s1.su) (smul b s1.sv) → dot k n1 = form2 s1 n1 a b
  second : ∀ a b, t = add (smul a s2.su) (smul b s2.sv) → dot k n2 = form2 s2 n2 a b

/-- The parameter directions are orthonormal at the point. -/
def Orthonormal (s : Jet K) : Prop := dot s.su s.su = 1 ∧ dot s.sv s.sv = 1 ∧ dot s.su s.sv = 0

theorem normCurv_form (s : Jet K) (n t : V3 K) (h : Orthonormal s) (a b : K) (ht : t = add (smul a s.su) (smul b s.sv)) :
    normCurv s n t = form2 s n a b := by
  have e1 : dot s.su t = a := by rw [ht, dot_add_r, dot_smul_r, dot_smul_r, h.1, h.2.2]; ring
  have e2 : dot s.sv t = b := by rw [ht, dot_add_r, dot_smul_r, dot_smul_r, h.2.1, dot_comm' s.sv s.su, h.2.2]; ring
  rw [normCurv, form2, e1, e2]; ring

theorem interCurvature_some {nrm : V3 K → K} (isOne : K → Bool) (s1 s2 : Jet K) (k t : V3 K)
    (h : interCurvature nrm isOne s1 s2 = some (k, t)) :
    ∃ n1 n2, normalOf nrm s1.su s1.sv = some n1 ∧ normalOf nrm s2.su s2.sv = some n2 ∧ normalOf nrm n1 n2 = some t ∧
      1 - dot n1 n2 ^ 2 ≠ 0 ∧
      k = smul (1 / (1 - dot n1 n2 ^ 2)) (add (smul (normCurv s1 n1 t) n1) (smul (normCurv s2 n2 t) n2)) := by
  unfold interCurvature at h
  cases h1 : normalOf nrm s1.su s1.sv with
  | none => rw [h1] at h; cases h
  | some n1 =>
    cases h2 : normalOf nrm s2.su s2.sv with
    | none => rw [h1, h2] at h; cases h
    | some n2 =>
      rw [h1, h2] at h
      simp only [Option.bind_eq_bind, Option.bind_some] at h
      cases h3 : normalOf nrm n1 n2 with
      | none => rw [h3] at h; split_ifs at h <;> cases h
      | some t' =>
        rw [h3] at h
        simp only [Option.bind_some] at h
        split_ifs at h with h5 h4
        simp only [pure, Option.some.injEq, Prod.mk.injEq] at h
        obtain ⟨rfl, rfl⟩ := h
        exact ⟨n1, n2, rfl, rfl, h3, h4, rfl⟩

/-- **C277.** The tangent returned has length one and touches both surfaces, and the vector returned is orthogonal to it. -/
theorem C277_tangent {nrm : V3 K → K} (hn : Nrm nrm) (isOne : K → Bool) (s1 s2 : Jet K) (k t : V3 K)
    (h : interCurvature nrm isOne s1 s2 = some (k, t)) :
    dot t t = 1 ∧ dot t (cross s1.su s1.sv) = 0 ∧ dot t (cross s2.su s2.sv) = 0 ∧ dot k t = 0 := by
  obtain ⟨n1, n2, h1, h2, h3, h4, rfl⟩ := interCurvature_some isOne s1 s2 k t h
  obtain ⟨t1, t2, t3, _, _⟩ := normalOf_spec hn _ _ _ h3
  obtain ⟨_, _, _, a1, a2⟩ := normalOf_spec hn _ _ _ h1
  obtain ⟨_, _, _, b1, b2⟩ := normalOf_spec hn _ _ _ h2
  refine ⟨t1, ?_, ?_, ?_⟩
  · rw [a2, dot_smul_r] at t2
    exact (mul_eq_zero.1 t2).resolve_left (div_ne_zero one_ne_zero a1)
  · rw [b2, dot_smul_r] at t3
    exact (mul_eq_zero.1 t3).resolve_left (div_ne_zero one_ne_zero b1)
  · rw [dot_smul_l, dot_add_l, dot_smul_l, dot_smul_l, dot_comm' n1 t, dot_comm' n2 t, t2, t3]; ring

/-- **C277, in part.** When the parameter directions of both surfaces are orthonormal and the surfaces meet at a right angle, the result
is the curvature vector. -/
theorem C277_curvature_partial {nrm : V3 K → K} (hn : Nrm nrm) (isOne : K → Bool) (s1 s2 : Jet K) (k t n1 n2 : V3 K)
    (h : interCurvature nrm isOne s1 s2 = some (k, t)) (h1 : normalOf nrm s1.su s1.sv = some n1)
    (h2 : normalOf nrm s2.su s2.sv = some n2) (o1 : Orthonormal s1) (o2 : Orthonormal s2) (hc : dot n1 n2 = 0) :
    IsCurvature s1 s2 n1 n2 t k := by
  have ht := (C277_tangent hn isOne s1 s2 k t h).2.2.2
  obtain ⟨m1, m2, q1, q2, q3, q4, rfl⟩ := interCurvature_some isOne s1 s2 k t h
  rw [h1] at q1; rw [h2] at q2
  cases q1; cases q2
  have u1 := (normalOf_spec hn _ _ _ h1).1
  have u2 := (normalOf_spec hn _ _ _ h2).1
  refine ⟨ht, fun a b e => ?_, fun a b e => ?_⟩
  · rw [dot_smul_l, dot_add_l, dot_smul_l, dot_smul_l, u1, dot_comm' n2 n1, hc, normCurv_form s1 n1 t o1 a b e]; norm_num
  · rw [dot_smul_l, dot_add_l, dot_smul_l, dot_smul_l, u2, hc, normCurv_form s2 n2 t o2 a b e]; norm_num

/-- **C277, refuted.** With orthonormal parameter directions but at an angle with cosine `c`, the normal part of the result is
`(k1 + c k2) / (1 - c²)`, and it is the normal curvature `k1` only when `c = 0` or `c k1 + k2 = 0`: the mixed terms are left out. -/
theorem C277_angle_refuted {nrm : V3 K → K} (hn : Nrm nrm) (isOne : K → Bool) (s1 s2 : Jet K) (k t n1 n2 : V3 K)
    (h : interCurvature nrm isOne s1 s2 = some (k, t)) (h1 : normalOf nrm s1.su s1.sv = some n1)
    (h2 : normalOf nrm s2.su s2.sv = some n2) (o1 : Orthonormal s1) (o2 : Orthonormal s2)
    (a1 b1 a2 b2 : K) (e1 : t = add (smul a1 s1.su) (smul b1 s1.sv)) (e2 : t = add (smul a2 s2.su) (smul b2 s2.sv)) :
    dot k n1 = (form2 s1 n1 a1 b1 + dot n1 n2 * form2 s2 n2 a2 b2) / (1 - dot n1 n2 ^ 2) ∧
    (dot n1 n2 ≠ 0 → dot n1 n2 * form2 s1 n1 a1 b1 + form2 s2 n2 a2 b2 ≠ 0 → ¬ IsCurvature s1 s2 n1 n2 t k) := by
  obtain ⟨m1, m2, q1, q2, q3, q4, rfl⟩ := interCurvature_some isOne s1 s2 k t h
  rw [h1] at q1; rw [h2] at q2
  cases q1; cases q2
  have u1 := (normalOf_spec hn _ _ _ h1).1
  have e : dot (smul (1 / (1 - dot n1 n2 ^ 2)) (add (smul (normCurv s1 n1 t) n1) (smul (normCurv s2 n2 t) n2))) n1 =
      (form2 s1 n1 a1 b1 + dot n1 n2 * form2 s2 n2 a2 b2) / (1 - dot n1 n2 ^ 2) := by
    rw [dot_smul_l, dot_add_l, dot_smul_l, dot_smul_l, u1, dot_comm' n2 n1, normCurv_form s1 n1 t o1 a1 b1 e1,
      normCurv_form s2 n2 t o2 a2 b2 e2]
    ring
  refine ⟨e, fun hc hk hi => hk ?_⟩
  have := hi.first a1 b1 e1
  rw [e, div_eq_iff q4] at this
  have : dot n1 n2 * (dot n1 n2 * form2 s1 n1 a1 b1 + form2 s2 n2 a2 b2) = 0 := by linear_combination this
  exact (mul_eq_zero.1 this).resolve_left hc

/-- The same surface with both parameters run through `l` times as fast. -/
def Jet.scale (l : K) (s : Jet K) : Jet K := ⟨smul l s.su, smul l s.sv, smul (l ^ 2) s.suu, smul (l ^ 2) s.suv, smul (l ^ 2) s.svv⟩

/-- The tangent direction has components `l` times smaller in the faster parameters, and the normal curvature is the same. -/
theorem form2_scale (l : K) (hl : l ≠ 0) (s : Jet K) (n : V3 K) (a b : K) : form2 (s.scale l) n (a / l) (b / l) = form2 s n a b := by
  unfold form2 Jet.scale
  dsimp only
  rw [dot_smul_l, dot_smul_l, dot_smul_l]
  field_simp

/-- **C277, refuted.** The result depends on how fast the parameters run: running both parameters of the first surface `l` times as fast
multiplies the normal curvature that enters the result by `l⁴`, though the surface is the same. -/
theorem C277_speed_refuted {nrm : V3 K → K} (hn : Nrm nrm) (isOne : K → Bool) (s1 s2 : Jet K) (k t n1 n2 : V3 K) (l : K) (hl : 0 < l)
    (h : interCurvature nrm isOne (s1.scale l) s2 = some (k, t)) (h1 : normalOf nrm (s1.scale l).su (s1.scale l).sv = some n1)
    (h2 : normalOf nrm s2.su s2.sv = some n2) (o1 : Orthonormal s1) (hc : dot n1 n2 = 0)
    (a b : K) (e1 : t = add (smul a s1.su) (smul b s1.sv)) :
    dot k n1 = l ^ 4 * form2 s1 n1 a b ∧
    (l ≠ 1 → form2 s1 n1 a b ≠ 0 → ¬ IsCurvature (s1.scale l) s2 n1 n2 t k) := by
  obtain ⟨m1, m2, q1, q2, q3, q4, rfl⟩ := interCurvature_some isOne (s1.scale l) s2 k t h
  rw [h1] at q1; rw [h2] at q2
  cases q1; cases q2
  have u1 := (normalOf_spec hn _ _ _ h1).1
  have sc : normCurv (s1.scale l) n1 t = l ^ 4 * normCurv s1 n1 t := by
    unfold normCurv Jet.scale
    dsimp only
    simp only [dot_smul_l]
    ring
  have e : dot (smul (1 / (1 - dot n1 n2 ^ 2)) (add (smul (normCurv (s1.scale l) n1 t) n1) (smul (normCurv s2 n2 t) n2))) n1 =
      l ^ 4 * form2 s1 n1 a b := by
    rw [dot_smul_l, dot_add_l, dot_smul_l, dot_smul_l, u1, dot_comm' n2 n1, hc, sc, normCurv_form s1 n1 t o1 a b e1]
    norm_num
  refine ⟨e, fun h1l hf hi => ?_⟩
  have hl0 : l ≠ 0 := ne_of_gt hl
  have q := hi.first (a / l) (b / l) (by
    rw [e1]; unfold Jet.scale add smul; ext <;> dsimp only <;> field_simp)
  rw [e, form2_scale l hl0] at q
  have : (l ^ 4 - 1) * form2 s1 n1 a b = 0 := by linear_combination q
  rcases mul_eq_zero.1 this with w | w
  · have : (l - 1) * ((l + 1) * (l ^ 2 + 1)) = 0 := by linear_combination w
    rcases mul_eq_zero.1 this with z | z
    · exact h1l (by linear_combination z)
    · have : 0 < (l + 1) * (l ^ 2 + 1) := by positivity
      exact absurd z (ne_of_gt this)
  · exact hf w

/-- A concrete pair: the surfaces meet along the second axis at an angle with cosine 4/5. -/
noncomputable def exN : V3 ℝ → ℝ := fun v => Real.sqrt (dot v v)

theorem exN_eq (v : V3 ℝ) (r : ℝ) (hr : 0 ≤ r) (h : dot v v = r ^ 2) : exN v = r := by
  rw [exN, h, Real.sqrt_sq hr]

noncomputable def j1 : Jet ℝ := ⟨⟨1, 0, 0⟩, ⟨0, 1, 0⟩, ⟨0, 0, 0⟩, ⟨0, 0, 0⟩, ⟨0, 0, 1⟩⟩
noncomputable def j2 : Jet ℝ := ⟨⟨0, 1, 0⟩, ⟨-4 / 5, 0, 3 / 5⟩, ⟨3 / 5, 0, 4 / 5⟩, ⟨0, 0, 0⟩, ⟨0, 0, 0⟩⟩

theorem ex_n1 : normalOf exN j1.su j1.sv = some ⟨0, 0, 1⟩ := by
  have h : exN (cross j1.su j1.sv) = 1 := exN_eq _ _ (by norm_num) (by norm_num [dot, cross, j1])
  simp only [normalOf, h]
  rw [if_neg one_ne_zero]
  norm_num [smul, cross, j1]

theorem ex_n2 : normalOf exN j2.su j2.sv = some ⟨3 / 5, 0, 4 / 5⟩ := by
  have h : exN (cross j2.su j2.sv) = 1 := exN_eq _ _ (by norm_num) (by norm_num [dot, cross, j2])
  simp only [normalOf, h]
  rw [if_neg one_ne_zero]
  norm_num [smul, cross, j2]

theorem ex_t : normalOf exN (⟨0, 0, 1⟩ : V3 ℝ) ⟨3 / 5, 0, 4 / 5⟩ = some ⟨0, 1, 0⟩ := by
  have h : exN (cross (⟨0, 0, 1⟩ : V3 ℝ) ⟨3 / 5, 0, 4 / 5⟩) = 3 / 5 := exN_eq _ _ (by norm_num) (by norm_num [dot, cross])
  simp only [normalOf, h]
  rw [if_neg (by norm_num)]
  norm_num [smul, cross]

/-- There the function returns a vector that is not the curvature vector. -/
example : ∃ k, interCurvature exN (fun _ => false) j1 j2 = some (k, ⟨0, 1, 0⟩) ∧
    ¬ IsCurvature j1 j2 ⟨0, 0, 1⟩ ⟨3 / 5, 0, 4 / 5⟩ ⟨0, 1, 0⟩ k := by
  have hs : ∃ k, interCurvature exN (fun _ => false) j1 j2 = some (k, ⟨0, 1, 0⟩) := by
    unfold interCurvature
    rw [ex_n1, ex_n2]
    simp only [Option.bind_eq_bind, Option.bind_some, Bool.false_eq_true, if_false]
    rw [ex_t]
    simp only [Option.bind_some]
    rw [if_neg (by norm_num [dot])]
    exact ⟨_, rfl⟩
  obtain ⟨k, hk⟩ := hs
  refine ⟨k, hk, (C277_angle_refuted nrm_real _ j1 j2 k _ _ _ hk ex_n1 ex_n2 ?_ ?_ 0 1 1 0 ?_ ?_).2 ?_ ?_⟩
  · norm_num [Orthonormal, dot, j1]
  · norm_num [Orthonormal, dot, j2]
  · norm_num [add, smul, j1]
  · norm_num [add, smul, j2]
  · norm_num [dot]
  · norm_num [dot, form2, j1, j2]

/-! ## C278: `TwoPointForm` and `LinearMap` -/

/-- The point lies on the line through the two points. -/
def OnLine (l : TwoPoint K) (x y : K) : Prop := ∃ s, x = l.x1 + s * (l.x2 - l.x1) ∧ y = l.y1 + s * (l.y2 - l.y1)

/-- **C278.** For two different points, calling the form gives zero on the line through them and nowhere else. -/
theorem C278_call (l : TwoPoint K) (h : ¬ (l.x1 = l.x2 ∧ l.y1 = l.y2)) (x y : K) : l.call x y = 0 ↔ OnLine l x y := by
  unfold TwoPoint.call OnLine
  constructor
  · intro e
    by_cases hx : l.x1 = l.x2
    · have hy : l.y2 - l.y1 ≠ 0 := fun q => h ⟨hx, by linear_combination -q⟩
      refine ⟨(y - l.y1) / (l.y2 - l.y1), ?_, ?_⟩
      · have := (mul_eq_zero.1 (by linear_combination e + (y - l.y1) * -hx : (x - l.x1) * (l.y2 - l.y1) = 0)).resolve_right hy
        rw [hx] at this ⊢
        linear_combination this
      · field_simp; ring
    · have hx' : l.x2 - l.x1 ≠ 0 := fun q => hx (by linear_combination -q)
      refine ⟨(x - l.x1) / (l.x2 - l.x1), ?_, ?_⟩
      · field_simp; ring
      · field_simp; linear_combination -e
  · rintro ⟨s, rfl, rfl⟩; ring

/-- **C278.** `y` gives the one point of the line over `x`, and it gives nothing exactly for vertical lines. -/
theorem C278_y (l : TwoPoint K) (x : K) :
    (l.y x = none ↔ l.x1 = l.x2) ∧ ∀ y, l.x1 ≠ l.x2 → (l.y x = some y ↔ OnLine l x y) := by
  unfold TwoPoint.y
  constructor
  · split_ifs with h
    · exact ⟨fun _ => by linear_combination h, fun _ => rfl⟩
    · exact ⟨fun q => absurd q (by simp), fun q => absurd (sub_eq_zero.2 q) h⟩
  · intro y hne
    have h0 : l.x1 - l.x2 ≠ 0 := sub_ne_zero.2 hne
    rw [if_neg h0, Option.some.injEq, ← C278_call l (fun q => hne q.1), div_eq_iff h0]
    unfold TwoPoint.call
    constructor <;> intro e <;> linear_combination -e

/-- **C278.** `x` likewise. -/
theorem C278_x (l : TwoPoint K) (y : K) :
    (l.x y = none ↔ l.y1 = l.y2) ∧ ∀ x, l.y1 ≠ l.y2 → (l.x y = some x ↔ OnLine l x y) := by
  unfold TwoPoint.x
  constructor
  · split_ifs with h
    · exact ⟨fun _ => by linear_combination h, fun _ => rfl⟩
    · exact ⟨fun q => absurd q (by simp), fun q => absurd (sub_eq_zero.2 q) h⟩
  · intro x hne
    have h0 : l.y1 - l.y2 ≠ 0 := sub_ne_zero.2 hne
    rw [if_neg h0, Option.some.injEq, ← C278_call l (fun q => hne q.2), div_eq_iff h0]
    unfold TwoPoint.call
    constructor <;> intro e <;> linear_combination e

example : (⟨1, 2, 3, 8⟩ : TwoPoint ℚ).y 2 = some 5 ∧ (⟨1, 2, 1, 8⟩ : TwoPoint ℚ).y 2 = none := by decide +kernel

/-- **C278, refuted.** A `LinearMap` from (0, 1) takes the ends to the ends of the target only if the target begins at 0; and applying the
inverse after the map gives the number back only at 0 or when the slope has square one. -/
theorem C278_linear_map_refuted (m : LMap K) :
    (m.s0 = 0 → m.s1 = 1 → ((m.call 0 = m.t0 ∧ m.call 1 = m.t1) ↔ m.t0 = 0)) ∧
    (∀ t, m.inv.call (m.call t) = t ↔ t = 0 ∨ (m.s0 * m.t0 + m.s1 * m.t1) ^ 2 = 1) := by
  constructor
  · intro h0 h1
    unfold LMap.call
    rw [h0, h1]
    constructor
    · rintro ⟨a, _⟩; linear_combination -a
    · intro q; rw [q]; constructor <;> ring
  · intro t
    unfold LMap.call LMap.inv
    dsimp only
    constructor
    · intro e
      have : t * ((m.s0 * m.t0 + m.s1 * m.t1) ^ 2 - 1) = 0 := by linear_combination e
      rcases mul_eq_zero.1 this with q | q
      · exact Or.inl q
      · exact Or.inr (by linear_combination q)
    · rintro (q | q)
      · rw [q]; ring
      · linear_combination t * q

/-- **C278, in part.** From (0, 1) to a target that begins at 0 the map is the linear one. -/
theorem C278_linear_map_partial (b t : K) : (⟨0, 1, 0, b⟩ : LMap K).call t = b * t := by
  unfold LMap.call; ring

example : (⟨0, 1, 0, 2⟩ : LMap ℚ).inv.call ((⟨0, 1, 0, 2⟩ : LMap ℚ).call 3) = 12 := by decide +kernel

end Verif.Srf
