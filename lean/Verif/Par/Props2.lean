import Verif.Par.Props

/-! `ParametricSurface` and `surface_evaluator`. -/

set_option linter.unusedSectionVars false

namespace Verif.Par
open Verif.Prim Verif.Dg Set

open Classical in
/-- One coordinate of `edge`. -/
noncomputable def edge1 (h : ℝ) (g : ℝ → ℝ) (u : ℝ) : ℝ :=
  if 1 - h ≥ u ∧ u ≥ h then (g (u + h) - g (u - h)) / (2 * h)
  else if u < h then (g (u + h) - g u) / h
  else (g u - g (u - h)) / h

theorem edge_x (h : ℝ) (g : ℝ → P) (u : ℝ) : (edge h g u).x = edge1 h (fun s => (g s).x) u := by
  unfold edge edge1; split_ifs <;> rfl

theorem edge_y (h : ℝ) (g : ℝ → P) (u : ℝ) : (edge h g u).y = edge1 h (fun s => (g s).y) u := by
  unfold edge edge1; split_ifs <;> rfl

theorem edge_z (h : ℝ) (g : ℝ → P) (u : ℝ) : (edge h g u).z = edge1 h (fun s => (g s).z) u := by
  unfold edge edge1; split_ifs <;> rfl

/-- The quotient is the derivative at a point of the domain close by. -/
theorem edge1_mvt (h : ℝ) (h0 : 0 < h) (h1 : h ≤ 1 / 2) (g g' : ℝ → ℝ) (hc : ContinuousOn g (Icc 0 1))
    (hd : ∀ s ∈ Ioo (0 : ℝ) 1, HasDerivAt g (g' s) s) (u : ℝ) (u0 : 0 ≤ u) (u1 : u ≤ 1) :
    ∃ ξ ∈ Ioo (0 : ℝ) 1, |ξ - u| < h ∧ edge1 h g u = g' ξ := by
  have key : ∀ a b : ℝ, 0 ≤ a → b ≤ 1 → a < b → ∃ ξ ∈ Ioo a b, (g b - g a) / (b - a) = g' ξ := by
    intro a b ha hb hab
    obtain ⟨ξ, hξ, e⟩ := mvt g g' a b hab (hc.mono (Icc_subset_Icc ha hb))
      (fun x hx => hd x ⟨lt_of_le_of_lt ha hx.1, lt_of_lt_of_le hx.2 hb⟩)
    refine ⟨ξ, hξ, ?_⟩
    rw [e, mul_div_assoc, div_self (sub_pos.mpr hab).ne', mul_one]
  unfold edge1
  split_ifs with c1 c2
  · obtain ⟨ξ, hξ, e⟩ := key (u - h) (u + h) (by linarith [c1.2]) (by linarith [c1.1]) (by linarith)
    refine ⟨ξ, ⟨by linarith [hξ.1, c1.2], by linarith [hξ.2, c1.1]⟩, abs_lt.mpr ⟨by linarith [hξ.1], by linarith [hξ.2]⟩, ?_⟩
    rw [← e]; congr 1; ring
  · obtain ⟨ξ, hξ, e⟩ := key u (u + h) u0 (by linarith) (by linarith)
    refine ⟨ξ, ⟨by linarith [hξ.1], by linarith [hξ.2]⟩, abs_lt.mpr ⟨by linarith [hξ.1], by linarith [hξ.2]⟩, ?_⟩
    rw [← e]; congr 1; ring
  · obtain ⟨ξ, hξ, e⟩ := key (u - h) u (by linarith [not_lt.mp c2]) u1 (by linarith)
    refine ⟨ξ, ⟨by linarith [hξ.1, not_lt.mp c2], by linarith [hξ.2]⟩,
      abs_lt.mpr ⟨by linarith [hξ.1], by linarith [hξ.2]⟩, ?_⟩
    rw [← e]; congr 1; ring

/-- It depends on the values in the domain only. -/
theorem edge_congr (h : ℝ) (h0 : 0 < h) (h1 : h ≤ 1 / 2) (f g : ℝ → P) (he : ∀ s ∈ Icc (0 : ℝ) 1, f s = g s) (u : ℝ)
    (u0 : 0 ≤ u) (u1 : u ≤ 1) : edge h f u = edge h g u := by
  unfold edge
  split_ifs with c1 c2
  · rw [he (u + h) ⟨by linarith, by linarith [c1.1]⟩, he (u - h) ⟨by linarith [c1.2], by linarith⟩]
  · rw [he (u + h) ⟨by linarith, by linarith⟩, he u ⟨u0, u1⟩]
  · rw [he (u - h) ⟨by linarith [not_lt.mp c2], by linarith⟩, he u ⟨u0, u1⟩]

/-- **C205.** On a surface with the domain `[0,1] × [0,1]` each coordinate of `derivative_u` is the partial derivative at a
parameter of the domain less than `h` away; the same for `derivative_v`. -/
theorem C205_first (h : ℝ) (h0 : 0 < h) (h1 : h ≤ 1 / 2) (f fu fv : ℝ → ℝ → P) (u v : ℝ) (hu : u ∈ Icc (0 : ℝ) 1)
    (hv : v ∈ Icc (0 : ℝ) 1) (cu : Cont (fun s => f s v) (Icc 0 1)) (cv : Cont (fun s => f u s) (Icc 0 1))
    (du : ∀ s ∈ Ioo (0 : ℝ) 1, HasDer (fun r => f r v) (fu s v) s) (dv : ∀ s ∈ Ioo (0 : ℝ) 1, HasDer (fun r => f u r) (fv u s) s) :
    ((∃ ξ ∈ Ioo (0 : ℝ) 1, |ξ - u| < h ∧ (surfaceU h f u v).x = (fu ξ v).x) ∧
     (∃ ξ ∈ Ioo (0 : ℝ) 1, |ξ - u| < h ∧ (surfaceU h f u v).y = (fu ξ v).y) ∧
     (∃ ξ ∈ Ioo (0 : ℝ) 1, |ξ - u| < h ∧ (surfaceU h f u v).z = (fu ξ v).z)) ∧
    ((∃ ξ ∈ Ioo (0 : ℝ) 1, |ξ - v| < h ∧ (surfaceV h f u v).x = (fv u ξ).x) ∧
     (∃ ξ ∈ Ioo (0 : ℝ) 1, |ξ - v| < h ∧ (surfaceV h f u v).y = (fv u ξ).y) ∧
     (∃ ξ ∈ Ioo (0 : ℝ) 1, |ξ - v| < h ∧ (surfaceV h f u v).z = (fv u ξ).z)) := by
  unfold surfaceU surfaceV
  simp only [edge_x, edge_y, edge_z]
  exact ⟨⟨edge1_mvt h h0 h1 _ (fun s => (fu s v).x) cu.1 (fun s hs => (du s hs).1) u hu.1 hu.2,
    edge1_mvt h h0 h1 _ (fun s => (fu s v).y) cu.2.1 (fun s hs => (du s hs).2.1) u hu.1 hu.2,
    edge1_mvt h h0 h1 _ (fun s => (fu s v).z) cu.2.2 (fun s hs => (du s hs).2.2) u hu.1 hu.2⟩,
    edge1_mvt h h0 h1 _ (fun s => (fv u s).x) cv.1 (fun s hs => (dv s hs).1) v hv.1 hv.2,
    edge1_mvt h h0 h1 _ (fun s => (fv u s).y) cv.2.1 (fun s hs => (dv s hs).2.1) v hv.1 hv.2,
    edge1_mvt h h0 h1 _ (fun s => (fv u s).z) cv.2.2 (fun s hs => (dv s hs).2.2) v hv.1 hv.2⟩

/-- **C205.** None of the five derivatives looks at the surface outside `[0,1] × [0,1]`. -/
theorem C205_domain (h : ℝ) (h0 : 0 < h) (h1 : h ≤ 1 / 2) (f g : ℝ → ℝ → P)
    (he : ∀ s ∈ Icc (0 : ℝ) 1, ∀ r ∈ Icc (0 : ℝ) 1, f s r = g s r) (u v : ℝ) (hu : u ∈ Icc (0 : ℝ) 1) (hv : v ∈ Icc (0 : ℝ) 1) :
    surfaceU h f u v = surfaceU h g u v ∧ surfaceV h f u v = surfaceV h g u v ∧ surfaceUU h f u v = surfaceUU h g u v ∧
      surfaceVV h f u v = surfaceVV h g u v ∧ surfaceUV h f u v = surfaceUV h g u v := by
  have hU : ∀ s ∈ Icc (0 : ℝ) 1, ∀ r ∈ Icc (0 : ℝ) 1, surfaceU h f s r = surfaceU h g s r := fun s hs r hr =>
    edge_congr h h0 h1 _ _ (fun x hx => he x hx r hr) s hs.1 hs.2
  have hV : ∀ s ∈ Icc (0 : ℝ) 1, ∀ r ∈ Icc (0 : ℝ) 1, surfaceV h f s r = surfaceV h g s r := fun s hs r hr =>
    edge_congr h h0 h1 _ _ (fun x hx => he s hs x hx) r hr.1 hr.2
  exact ⟨hU u hu v hv, hV u hu v hv, edge_congr h h0 h1 _ _ (fun x hx => hU x hx v hv) u hu.1 hu.2,
    edge_congr h h0 h1 _ _ (fun x hx => hV u hu x hx) v hv.1 hv.2,
    edge_congr h h0 h1 _ _ (fun x hx => hU u hu x hx) v hv.1 hv.2⟩

/-- **C205, refuted for other intervals.** The limits 0 and 1 are fixed: if the interval of the surface starts above
`1 - h`, the derivative at its start depends on values outside the interval. -/
theorem C205_interval_refuted (h a : ℝ) (h0 : 0 < h) (h1 : h ≤ 1 / 2) (ha : 1 - h < a) :
    ∃ f g : ℝ → ℝ → P, (∀ s, a ≤ s → ∀ r, f s r = g s r) ∧ ∀ v, surfaceU h f a v ≠ surfaceU h g a v := by
  classical
  refine ⟨fun _ _ => ⟨0, 0, 0⟩, fun s _ => if s < a then ⟨1, 0, 0⟩ else ⟨0, 0, 0⟩, fun s hs r => ?_, fun v e => ?_⟩
  · dsimp only
    rw [if_neg (not_lt.mpr hs)]
  · have := congrArg P.x e
    unfold surfaceU edge at this
    rw [if_neg (by rintro ⟨c, _⟩; linarith), if_neg (by linarith), if_neg (by rintro ⟨c, _⟩; linarith),
      if_neg (by linarith)] at this
    unfold quot sub at this
    dsimp only at this
    rw [if_neg (lt_irrefl a), if_pos (by linarith)] at this
    dsimp only at this
    rw [sub_self, zero_div, zero_sub] at this
    have h2 : (-1 : ℝ) / h < 0 := div_neg_of_neg_of_pos (by norm_num) h0
    linarith

/-! ### Second derivatives -/

/-- The factor by which the second derivative of a quadratic function comes out. -/
noncomputable def factor (h u : ℝ) : ℝ :=
  open Classical in
  if u < h ∨ 1 - h < u then 1 / 2 else if u < 2 * h ∨ 1 - 2 * h < u then 3 / 4 else 1

theorem edge1_quad (h : ℝ) (h0 : 0 < h) (a b c u : ℝ) : edge1 h (fun s => a + s * b + s ^ 2 * c) u =
    if 1 - h ≥ u ∧ u ≥ h then b + 2 * u * c else if u < h then b + (2 * u + h) * c else b + (2 * u - h) * c := by
  have := h0.ne'
  unfold edge1
  split_ifs
  · field_simp; ring
  · field_simp; ring
  · field_simp; ring

theorem edge1_edge1_quad (h : ℝ) (h0 : 0 < h) (h1 : h ≤ 1 / 4) (a b c u : ℝ) (u0 : 0 ≤ u) (u1 : u ≤ 1) :
    edge1 h (edge1 h (fun s => a + s * b + s ^ 2 * c)) u = factor h u * (2 * c) := by
  have hne := h0.ne'
  have e := fun s => edge1_quad h h0 a b c s
  have cen : ∀ s, h ≤ s → s ≤ 1 - h → edge1 h (fun s => a + s * b + s ^ 2 * c) s = b + 2 * s * c := fun s g1 g2 => by
    rw [e, if_pos ⟨g2, g1⟩]
  have fwd : ∀ s, s < h → edge1 h (fun s => a + s * b + s ^ 2 * c) s = b + (2 * s + h) * c := fun s g => by
    rw [e, if_neg (fun g' => by linarith [g'.2]), if_pos g]
  have bwd : ∀ s, 1 - h < s → edge1 h (fun s => a + s * b + s ^ 2 * c) s = b + (2 * s - h) * c := fun s g => by
    rw [e, if_neg (fun g' => by linarith [g'.1]), if_neg (by linarith)]
  generalize edge1 h (fun s => a + s * b + s ^ 2 * c) = D at *
  unfold factor edge1
  by_cases c1 : u < h
  · rw [if_pos (Or.inl c1), if_neg (fun g => by linarith [g.2]), if_pos c1, cen _ (by linarith) (by linarith), fwd _ c1]
    field_simp; ring
  by_cases c2 : 1 - h < u
  · rw [if_pos (Or.inr c2), if_neg (fun g => by linarith [g.1]), if_neg c1, cen (u - h) (by linarith) (by linarith), bwd _ c2]
    field_simp; ring
  rw [if_pos ⟨by linarith, by linarith⟩, if_neg (by rintro (g | g) <;> linarith)]
  by_cases c3 : u < 2 * h
  · rw [if_pos (Or.inl c3), cen (u + h) (by linarith) (by linarith), fwd (u - h) (by linarith)]
    field_simp; ring
  by_cases c4 : 1 - 2 * h < u
  · rw [if_pos (Or.inr c4), cen (u - h) (by linarith) (by linarith), bwd (u + h) (by linarith)]
    field_simp; ring
  · rw [if_neg (by rintro (g | g) <;> linarith), cen (u - h) (by linarith) (by linarith), cen (u + h) (by linarith) (by linarith)]
    field_simp; ring

/-- **C206, refuted near the ends of the domain.** For a surface quadratic in `u` the result of `second_derivative_uu` is
the second derivative times `factor`: one half within `h` of the ends, three quarters up to `2 * h`, one further inside.
The same for `second_derivative_vv`. -/
theorem C206_quadratic_refuted (h : ℝ) (h0 : 0 < h) (h1 : h ≤ 1 / 4) (a b c : P) (u v : ℝ) (hu : u ∈ Icc (0 : ℝ) 1)
    (hv : v ∈ Icc (0 : ℝ) 1) :
    surfaceUU h (fun s _ => quad a b c s) u v = smul (factor h u) (smul 2 c) ∧
    surfaceVV h (fun _ r => quad a b c r) u v = smul (factor h v) (smul 2 c) := by
  have key : ∀ t, t ∈ Icc (0 : ℝ) 1 → edge h (fun s => edge h (fun s => quad a b c s) s) t = smul (factor h t) (smul 2 c) := by
    intro t ht
    have k : ∀ a b c : ℝ, edge1 h (fun s => edge1 h (fun s => a + (s * b + s ^ 2 * c)) s) t = factor h t * (2 * c) := by
      intro a b c
      have := edge1_edge1_quad h h0 h1 a b c t ht.1 ht.2
      simpa only [add_assoc] using this
    ext
    · rw [edge_x]; simp only [edge_x]; exact k _ _ _
    · rw [edge_y]; simp only [edge_y]; exact k _ _ _
    · rw [edge_z]; simp only [edge_z]; exact k _ _ _
  exact ⟨key u hu, key v hv⟩

/-- **C206, the part that holds.** Further than `2 * h` from the ends each coordinate of `second_derivative_uu` is the second
partial derivative at a parameter less than `2 * h` away. (`second_derivative_vv` is the same function of the other
parameter.) -/
theorem C206_pure_partial (h : ℝ) (h0 : 0 < h) (f fu fuu : ℝ → ℝ → P) (u v : ℝ) (hu : 2 * h ≤ u) (hu' : u ≤ 1 - 2 * h)
    (du : ∀ s ∈ Icc (u - 2 * h) (u + 2 * h), HasDer (fun r => f r v) (fu s v) s)
    (duu : ∀ s ∈ Icc (u - 2 * h) (u + 2 * h), HasDer (fun r => fu r v) (fuu s v) s) :
    (∃ ξ ∈ Ioo (u - 2 * h) (u + 2 * h), (surfaceUU h f u v).x = (fuu ξ v).x) ∧
    (∃ ξ ∈ Ioo (u - 2 * h) (u + 2 * h), (surfaceUU h f u v).y = (fuu ξ v).y) ∧
    (∃ ξ ∈ Ioo (u - 2 * h) (u + 2 * h), (surfaceUU h f u v).z = (fuu ξ v).z) := by
  have key : ∀ g g' g'' : ℝ → ℝ, (∀ s ∈ Icc (u - 2 * h) (u + 2 * h), HasDerivAt g (g' s) s) →
      (∀ s ∈ Icc (u - 2 * h) (u + 2 * h), HasDerivAt g' (g'' s) s) →
      ∃ ξ ∈ Ioo (u - 2 * h) (u + 2 * h), edge1 h (edge1 h g) u = g'' ξ := by
    intro g g' g'' hg hg'
    obtain ⟨ξ, hξ, e⟩ := mvt2 g g' g'' u (2 * h) (by linarith) hg hg'
    refine ⟨ξ, hξ, ?_⟩
    have cen : ∀ (k : ℝ → ℝ) (s : ℝ), h ≤ s → s ≤ 1 - h → edge1 h k s = (k (s + h) - k (s - h)) / (2 * h) := fun k s g1 g2 => by
      unfold edge1; rw [if_pos ⟨g2, g1⟩]
    rw [cen _ _ (by linarith) (by linarith), cen _ _ (by linarith) (by linarith), cen _ _ (by linarith) (by linarith),
      show u + h + h = u + 2 * h by ring, show u + h - h = u by ring, show u - h + h = u by ring,
      show u - h - h = u - 2 * h by ring]
    have hne := h0.ne'
    field_simp
    linear_combination e
  unfold surfaceUU surfaceU
  simp only [edge_x, edge_y, edge_z]
  exact ⟨key _ (fun s => (fu s v).x) (fun s => (fuu s v).x) (fun s hs => (du s hs).1) (fun s hs => (duu s hs).1),
    key _ (fun s => (fu s v).y) (fun s => (fuu s v).y) (fun s hs => (du s hs).2.1) (fun s hs => (duu s hs).2.1),
    key _ (fun s => (fu s v).z) (fun s => (fuu s v).z) (fun s hs => (du s hs).2.2) (fun s hs => (duu s hs).2.2)⟩

/-- The derivative of the quotient with respect to another parameter. -/
theorem edge1_hasDeriv (h : ℝ) (h0 : 0 < h) (h1 : h ≤ 1 / 2) (F F' : ℝ → ℝ → ℝ) (u : ℝ) (hu : u ∈ Icc (0 : ℝ) 1) (s : ℝ)
    (hF : ∀ r ∈ Icc (0 : ℝ) 1, HasDerivAt (fun s => F r s) (F' r s) s) :
    HasDerivAt (fun s => edge1 h (fun r => F r s) u) (edge1 h (fun r => F' r s) u) s := by
  have u0 := hu.1
  have u1 := hu.2
  unfold edge1
  split_ifs with c1 c2
  · exact ((hF (u + h) ⟨by linarith, by linarith [c1.1]⟩).sub (hF (u - h) ⟨by linarith [c1.2], by linarith⟩)).div_const _
  · exact ((hF (u + h) ⟨by linarith, by linarith⟩).sub (hF u hu)).div_const _
  · exact ((hF u hu).sub (hF (u - h) ⟨by linarith [not_lt.mp c2], by linarith⟩)).div_const _

theorem edge1_contOn (h : ℝ) (h0 : 0 < h) (h1 : h ≤ 1 / 2) (F : ℝ → ℝ → ℝ) (u : ℝ) (hu : u ∈ Icc (0 : ℝ) 1)
    (hF : ∀ r ∈ Icc (0 : ℝ) 1, ContinuousOn (fun s => F r s) (Icc 0 1)) :
    ContinuousOn (fun s => edge1 h (fun r => F r s) u) (Icc 0 1) := by
  have u0 := hu.1
  have u1 := hu.2
  unfold edge1
  split_ifs with c1 c2
  · exact ((hF (u + h) ⟨by linarith, by linarith [c1.1]⟩).sub (hF (u - h) ⟨by linarith [c1.2], by linarith⟩)).div_const _
  · exact ((hF (u + h) ⟨by linarith, by linarith⟩).sub (hF u hu)).div_const _
  · exact ((hF u hu).sub (hF (u - h) ⟨by linarith [not_lt.mp c2], by linarith⟩)).div_const _

/-- **C206.** Everywhere in the domain each coordinate of `second_derivative_uv` is the mixed derivative at parameters less
than `h` away. -/
theorem C206_mixed (h : ℝ) (h0 : 0 < h) (h1 : h ≤ 1 / 2) (f fv fvu : ℝ → ℝ → P) (u v : ℝ) (hu : u ∈ Icc (0 : ℝ) 1)
    (hv : v ∈ Icc (0 : ℝ) 1) (c : ∀ r ∈ Icc (0 : ℝ) 1, Cont (fun s => f r s) (Icc 0 1))
    (dv : ∀ r ∈ Icc (0 : ℝ) 1, ∀ s ∈ Ioo (0 : ℝ) 1, HasDer (fun s => f r s) (fv r s) s)
    (c' : ∀ s ∈ Ioo (0 : ℝ) 1, Cont (fun r => fv r s) (Icc 0 1))
    (dvu : ∀ r ∈ Ioo (0 : ℝ) 1, ∀ s ∈ Ioo (0 : ℝ) 1, HasDer (fun r => fv r s) (fvu r s) r) :
    (∃ ξ ∈ Ioo (0 : ℝ) 1, ∃ η ∈ Ioo (0 : ℝ) 1, |ξ - u| < h ∧ |η - v| < h ∧ (surfaceUV h f u v).x = (fvu ξ η).x) ∧
    (∃ ξ ∈ Ioo (0 : ℝ) 1, ∃ η ∈ Ioo (0 : ℝ) 1, |ξ - u| < h ∧ |η - v| < h ∧ (surfaceUV h f u v).y = (fvu ξ η).y) ∧
    (∃ ξ ∈ Ioo (0 : ℝ) 1, ∃ η ∈ Ioo (0 : ℝ) 1, |ξ - u| < h ∧ |η - v| < h ∧ (surfaceUV h f u v).z = (fvu ξ η).z) := by
  have key : ∀ F F' F'' : ℝ → ℝ → ℝ, (∀ r ∈ Icc (0 : ℝ) 1, ContinuousOn (fun s => F r s) (Icc 0 1)) →
      (∀ r ∈ Icc (0 : ℝ) 1, ∀ s ∈ Ioo (0 : ℝ) 1, HasDerivAt (fun s => F r s) (F' r s) s) →
      (∀ s ∈ Ioo (0 : ℝ) 1, ContinuousOn (fun r => F' r s) (Icc 0 1)) →
      (∀ r ∈ Ioo (0 : ℝ) 1, ∀ s ∈ Ioo (0 : ℝ) 1, HasDerivAt (fun r => F' r s) (F'' r s) r) →
      ∃ ξ ∈ Ioo (0 : ℝ) 1, ∃ η ∈ Ioo (0 : ℝ) 1, |ξ - u| < h ∧ |η - v| < h ∧
        edge1 h (fun s => edge1 h (fun r => F r s) u) v = F'' ξ η := by
    intro F F' F'' k1 k2 k3 k4
    obtain ⟨η, hη, a1, e⟩ := edge1_mvt h h0 h1 (fun s => edge1 h (fun r => F r s) u) (fun s => edge1 h (fun r => F' r s) u)
      (edge1_contOn h h0 h1 F u hu k1) (fun s hs => edge1_hasDeriv h h0 h1 F F' u hu s fun r hr => k2 r hr s hs) v hv.1 hv.2
    obtain ⟨ξ, hξ, a2, e'⟩ := edge1_mvt h h0 h1 (fun r => F' r η) (fun r => F'' r η) (k3 η hη) (fun r hr => k4 r hr η hη) u
      hu.1 hu.2
    exact ⟨ξ, hξ, η, hη, a2, a1, by rw [e, e']⟩
  unfold surfaceUV surfaceU
  simp only [edge_x, edge_y, edge_z]
  exact ⟨key (fun r s => (f r s).x) (fun r s => (fv r s).x) (fun r s => (fvu r s).x) (fun r hr => (c r hr).1)
      (fun r hr s hs => (dv r hr s hs).1) (fun s hs => (c' s hs).1) (fun r hr s hs => (dvu r hr s hs).1),
    key (fun r s => (f r s).y) (fun r s => (fv r s).y) (fun r s => (fvu r s).y) (fun r hr => (c r hr).2.1)
      (fun r hr s hs => (dv r hr s hs).2.1) (fun s hs => (c' s hs).2.1) (fun r hr s hs => (dvu r hr s hs).2.1),
    key (fun r s => (f r s).z) (fun r s => (fv r s).z) (fun r s => (fvu r s).z) (fun r hr => (c r hr).2.2)
      (fun r hr s hs => (dv r hr s hs).2.2) (fun s hs => (c' s hs).2.2) (fun r hr s hs => (dvu r hr s hs).2.2)⟩

/-! ### The plane -/

/-- **C207.** `plane_at` gives a right-handed orthonormal frame at the point: the first axis along the first derivative, the
third perpendicular to both derivatives on the side of their cross product. NaN exactly when the derivatives are
parallel. -/
theorem C207_plane (o du dv : P) :
    (cross du dv = ⟨0, 0, 0⟩ → surfacePlane o du dv = none) ∧
    (cross du dv ≠ ⟨0, 0, 0⟩ → ∃ x y n, surfacePlane o du dv = some (o, x, y, n) ∧ dot x x = 1 ∧ dot y y = 1 ∧ dot n n = 1 ∧
      dot x y = 0 ∧ dot y n = 0 ∧ dot x n = 0 ∧ cross x y = n ∧ smul (norm du) x = du ∧ dot n dv = 0 ∧
      smul (norm (cross du dv)) n = cross du dv) := by
  by_cases hd : du = ⟨0, 0, 0⟩
  · have hz : cross du dv = ⟨0, 0, 0⟩ := by rw [hd]; unfold cross; simp
    refine ⟨fun _ => ?_, fun h => absurd hz h⟩
    unfold surfacePlane div
    rw [if_pos ((norm_zero_iff du).mpr hd)]
    rfl
  · have hn : norm du ≠ 0 := fun e => hd ((norm_zero_iff du).mp e)
    have hpos : 0 < norm du := lt_of_le_of_ne (norm_nonneg _) (Ne.symm hn)
    have ex : div du (norm du) = some (smul (1 / norm du) du) := by
      unfold div smul
      rw [if_neg hn]
      congr 1
      ext <;> dsimp only <;> ring
    have ec : cross (smul (1 / norm du) du) dv = smul (1 / norm du) (cross du dv) := by
      unfold cross smul
      ext <;> dsimp only <;> ring
    have en : div (cross (smul (1 / norm du) du) dv) (norm (cross (smul (1 / norm du) du) dv)) =
        div (cross du dv) (norm (cross du dv)) := by
      rw [ec, div_scale _ (one_div_pos.mpr hpos)]
    unfold surfacePlane
    rw [ex]
    simp only [Option.bind_eq_bind, Option.bind_some]
    rw [en]
    constructor
    · intro hz
      rw [hz]
      unfold div
      rw [if_pos ((norm_zero_iff _).mpr rfl)]
      rfl
    · intro hz
      have hc : norm (cross du dv) ≠ 0 := fun e => hz ((norm_zero_iff _).mp e)
      have e3 : div (cross du dv) (norm (cross du dv)) = some (smul (1 / norm (cross du dv)) (cross du dv)) := by
        unfold div smul
        rw [if_neg hc]
        congr 1
        ext <;> dsimp only <;> ring
      rw [e3]
      have hx1 : dot (smul (1 / norm du) du) (smul (1 / norm du) du) = 1 := by
        rw [dot_smul, smul_dot, ← norm_sq]; field_simp
      have hn1 : dot (smul (1 / norm (cross du dv)) (cross du dv)) (smul (1 / norm (cross du dv)) (cross du dv)) = 1 := by
        rw [dot_smul, smul_dot, ← norm_sq]; field_simp
      have hxn : dot (smul (1 / norm du) du) (smul (1 / norm (cross du dv)) (cross du dv)) = 0 := by
        rw [dot_smul, smul_dot]
        have : dot du (cross du dv) = 0 := by unfold dot cross; ring
        rw [this]; ring
      have hnv : dot (smul (1 / norm (cross du dv)) (cross du dv)) dv = 0 := by
        rw [smul_dot]
        have : dot (cross du dv) dv = 0 := by unfold dot cross; ring
        rw [this]; ring
      have back : ∀ a : P, norm a ≠ 0 → smul (norm a) (smul (1 / norm a) a) = a := by
        intro a ha
        unfold smul
        ext <;> dsimp only <;> field_simp
      have hb1 := back du hn
      have hb2 := back (cross du dv) hc
      generalize smul (1 / norm du) du = x at *
      generalize smul (1 / norm (cross du dv)) (cross du dv) = n at *
      refine ⟨x, cross n x, n, rfl, hx1, ?_, hn1, ?_, ?_, hxn, ?_, hb1, hnv, hb2⟩
      · rw [cross_sq, hn1, hx1, dot_comm, hxn]; ring
      · unfold dot cross; ring
      · unfold dot cross; ring
      · unfold dot at hx1 hxn
        unfold cross
        ext
        · dsimp only; linear_combination n.x * hx1 - x.x * hxn
        · dsimp only; linear_combination n.y * hx1 - x.y * hxn
        · dsimp only; linear_combination n.z * hx1 - x.z * hxn

/-! ### `surface_evaluator` -/

/-- **C208.** The rows of `second_derivatives` are the point and, coordinate by coordinate, the derivatives in the order
u, v, uu, vv, uv at parameters less than `h` away. Stated for one coordinate function; it holds for each. -/
theorem C208_rows (h : ℝ) (h0 : 0 < h) (f : ℝ → ℝ → P) (u v : ℝ) (co : P → ℝ) (hco : co = P.x ∨ co = P.y ∨ co = P.z)
    (fu fv fuu fvv fvu : ℝ → ℝ → ℝ)
    (du : ∀ s ∈ Icc (u - h) (u + h), ∀ r ∈ Icc (v - h) (v + h), HasDerivAt (fun s => co (f s r)) (fu s r) s)
    (dv : ∀ s ∈ Icc (u - h) (u + h), ∀ r ∈ Icc (v - h) (v + h), HasDerivAt (fun r => co (f s r)) (fv s r) r)
    (duu : ∀ s ∈ Icc (u - h) (u + h), ∀ r ∈ Icc (v - h) (v + h), HasDerivAt (fun s => fu s r) (fuu s r) s)
    (dvv : ∀ s ∈ Icc (u - h) (u + h), ∀ r ∈ Icc (v - h) (v + h), HasDerivAt (fun r => fv s r) (fvv s r) r)
    (dvu : ∀ s ∈ Icc (u - h) (u + h), ∀ r ∈ Icc (v - h) (v + h), HasDerivAt (fun s => fv s r) (fvu s r) s) :
    ∃ ξ₁ ξ₂ ξ₃ ξ₄ ξ η, ξ₁ ∈ Ioo (u - h) (u + h) ∧ ξ₂ ∈ Ioo (v - h) (v + h) ∧ ξ₃ ∈ Ioo (u - h) (u + h) ∧
      ξ₄ ∈ Ioo (v - h) (v + h) ∧ ξ ∈ Ioo (u - h) (u + h) ∧ η ∈ Ioo (v - h) (v + h) ∧
      (secondDerivatives h f u v).map co = [co (f u v), fu ξ₁ v, fv u ξ₂, fuu ξ₃ v, fvv u ξ₄, fvu ξ η] := by
  have hne := h0.ne'
  have mu : u ∈ Icc (u - h) (u + h) := ⟨by linarith, by linarith⟩
  have mv : v ∈ Icc (v - h) (v + h) := ⟨by linarith, by linarith⟩
  obtain ⟨ξ₁, m1, e1⟩ := mvt' (fun s => co (f s v)) (fun s => fu s v) (u - h) (u + h) (by linarith) (fun s hs => du s hs v mv)
  obtain ⟨ξ₂, m2, e2⟩ := mvt' (fun r => co (f u r)) (fun r => fv u r) (v - h) (v + h) (by linarith) (fun s hs => dv u mu s hs)
  obtain ⟨ξ₃, m3, e3⟩ := mvt2 (fun s => co (f s v)) (fun s => fu s v) (fun s => fuu s v) u h h0 (fun s hs => du s hs v mv)
    (fun s hs => duu s hs v mv)
  obtain ⟨ξ₄, m4, e4⟩ := mvt2 (fun r => co (f u r)) (fun r => fv u r) (fun r => fvv u r) v h h0 (fun s hs => dv u mu s hs)
    (fun s hs => dvv u mu s hs)
  obtain ⟨η, m5, e5⟩ := mvt' (fun r => co (f (u + h) r) - co (f (u - h) r)) (fun r => fv (u + h) r - fv (u - h) r) (v - h) (v + h)
    (by linarith) (fun r hr => (dv (u + h) ⟨by linarith, le_refl _⟩ r hr).sub (dv (u - h) ⟨le_refl _, by linarith⟩ r hr))
  obtain ⟨ξ, m6, e6⟩ := mvt' (fun s => fv s η) (fun s => fvu s η) (u - h) (u + h) (by linarith)
    (fun s hs => dvu s hs η (Ioo_subset_Icc_self m5))
  refine ⟨ξ₁, ξ₂, ξ₃, ξ₄, ξ, η, m1, m2, m3, m4, m6, m5, ?_⟩
  have r1 : co (central h (fun s => f s v) u) = fu ξ₁ v := by
    have : co (central h (fun s => f s v) u) = (co (f (u + h) v) - co (f (u - h) v)) / (2 * h) := by
      rcases hco with g | g | g <;> rw [g] <;> rfl
    rw [this, e1]; field_simp; ring
  have r2 : co (central h (fun s => f u s) v) = fv u ξ₂ := by
    have : co (central h (fun s => f u s) v) = (co (f u (v + h)) - co (f u (v - h))) / (2 * h) := by
      rcases hco with g | g | g <;> rw [g] <;> rfl
    rw [this, e2]; field_simp; ring
  have r3 : co (second h (fun s => f s v) u) = fuu ξ₃ v := by
    have : co (second h (fun s => f s v) u) = (co (f (u + h) v) - 2 * co (f u v) + co (f (u - h) v)) / h ^ 2 := by
      rcases hco with g | g | g <;> rw [g] <;> rfl
    rw [this, e3]; field_simp
  have r4 : co (second h (fun s => f u s) v) = fvv u ξ₄ := by
    have : co (second h (fun s => f u s) v) = (co (f u (v + h)) - 2 * co (f u v) + co (f u (v - h))) / h ^ 2 := by
      rcases hco with g | g | g <;> rw [g] <;> rfl
    rw [this, e4]; field_simp
  have r5 : co (mixed h f u v) = fvu ξ η := by
    have : co (mixed h f u v) = (co (f (u + h) (v + h)) - co (f (u + h) (v - h)) - co (f (u - h) (v + h)) +
        co (f (u - h) (v - h))) / (4 * h ^ 2) := by
      rcases hco with g | g | g <;> rw [g] <;> rfl
    rw [e6] at e5
    rw [this]
    field_simp
    linear_combination e5
  unfold secondDerivatives
  simp only [List.map_cons, List.map_nil, r1, r2, r3, r4, r5]

/-- **C208.** `derivatives_normal`: the third row is the unit normal of the two derivatives; NaN exactly when they are
parallel. -/
theorem C208_normal (h : ℝ) (f : ℝ → ℝ → P) (u v : ℝ) :
    let c := cross (central h (fun s => f s v) u) (central h (fun s => f u s) v)
    (c = ⟨0, 0, 0⟩ → derivativesNormal h f u v = none) ∧
    (c ≠ ⟨0, 0, 0⟩ → ∃ n, derivativesNormal h f u v = some (central h (fun s => f s v) u, central h (fun s => f u s) v, n) ∧
      norm n = 1 ∧ smul (norm c) n = c) := by
  intro c
  unfold derivativesNormal
  dsimp only
  constructor
  · intro hz
    have e : div c (norm c) = none := by
      unfold div; rw [if_pos ((norm_zero_iff c).mpr hz)]
    change (div c (norm c)).bind _ = _
    rw [e]; rfl
  · intro hz
    have hn : norm c ≠ 0 := fun e => hz ((norm_zero_iff c).mp e)
    have e : div c (norm c) = some (quot c (norm c)) := by
      unfold div quot; rw [if_neg hn]
    refine ⟨quot c (norm c), ?_, ?_, ?_⟩
    · change (div c (norm c)).bind _ = _
      rw [e]; rfl
    · have : quot c (norm c) = smul (1 / norm c) c := by
        unfold quot smul
        ext <;> dsimp only <;> ring
      rw [this, Prim.norm_smul, abs_of_pos (one_div_pos.mpr (lt_of_le_of_ne (norm_nonneg _) (Ne.symm hn)))]
      field_simp
    · generalize norm c = m at *
      unfold quot smul
      ext <;> dsimp only <;> field_simp

/-! ### Examples -/

example : surfaceUU (1/1000) (fun s _ => quad ⟨0, 0, 0⟩ ⟨1, 0, 0⟩ ⟨0, 3, 0⟩ s) 0 (1/2) = ⟨0, 3, 0⟩ := by
  rw [(C206_quadratic_refuted (1/1000) (by norm_num) (by norm_num) ⟨0, 0, 0⟩ ⟨1, 0, 0⟩ ⟨0, 3, 0⟩ 0 (1/2) (by norm_num)
    (by norm_num)).1]
  norm_num [factor, smul]

example : ∃ f g : ℝ → ℝ → P, (∀ s, 5 ≤ s → ∀ r, f s r = g s r) ∧ ∀ v, surfaceU (1/1000) f 5 v ≠ surfaceU (1/1000) g 5 v :=
  C205_interval_refuted (1/1000) 5 (by norm_num) (by norm_num) (by norm_num)

/-- A surface for the examples: quadratic in `u`, linear in `v`. -/
def sample (s r : ℝ) : P := quad ⟨0, 0, r⟩ ⟨1, 0, 0⟩ ⟨0, 1, 0⟩ s

theorem sample_u (s r : ℝ) : HasDer (fun s => sample s r) (quad' ⟨1, 0, 0⟩ ⟨0, 1, 0⟩ s) s := quad_der _ _ _ s

theorem sample_v (s r : ℝ) : HasDer (fun r => sample s r) ⟨0, 0, 1⟩ r := by
  refine ⟨?_, ?_, ?_⟩
  · simpa [sample, quad, add, smul] using hasDerivAt_const r s
  · simpa [sample, quad, add, smul] using hasDerivAt_const r (s ^ 2)
  · simpa [sample, quad, add, smul] using hasDerivAt_id' r

theorem cont_of_der (f f' : ℝ → P) (h : ∀ s, HasDer f (f' s) s) (S : Set ℝ) : Cont f S :=
  ⟨fun s _ => (h s).1.continuousAt.continuousWithinAt, fun s _ => (h s).2.1.continuousAt.continuousWithinAt,
    fun s _ => (h s).2.2.continuousAt.continuousWithinAt⟩

example : ∃ ξ ∈ Ioo (0 : ℝ) 1, |ξ - 1| < 1/1000 ∧ (surfaceU (1/1000) sample 1 0).y = (quad' ⟨1, 0, 0⟩ ⟨0, 1, 0⟩ ξ).y :=
  (C205_first (1/1000) (by norm_num) (by norm_num) sample (fun s _ => quad' ⟨1, 0, 0⟩ ⟨0, 1, 0⟩ s) (fun _ _ => ⟨0, 0, 1⟩) 1 0
    (by norm_num) (by norm_num) (cont_of_der _ _ (fun s => sample_u s 0) _) (cont_of_der _ _ (fun s => sample_v 1 s) _)
    (fun s _ => sample_u s 0) (fun s _ => sample_v 1 s)).1.2.1

example : ∃ x y n, surfacePlane ⟨0, 0, 0⟩ ⟨2, 0, 0⟩ ⟨1, 3, 0⟩ = some (⟨0, 0, 0⟩, x, y, n) ∧ dot x x = 1 := by
  obtain ⟨x, y, n, h1, h2, -⟩ := (C207_plane ⟨0, 0, 0⟩ ⟨2, 0, 0⟩ ⟨1, 3, 0⟩).2 (by
    intro h; have := congrArg P.z h; norm_num [cross] at this)
  exact ⟨x, y, n, h1, h2⟩

end Verif.Par
