import Verif.Vec.Props

/-! # Rays, triangles, projections and row products -/

set_option linter.unusedSectionVars false

namespace Verif.Vec

open V3 Finset

variable {K : Type} [Field K] [LinearOrder K] [IsStrictOrderedRing K]

/-- A vector orthogonal to three independent vectors is zero. -/
theorem zero_of_orth {a b c w : V3 K} (hne : dot (cross a b) c ≠ 0) (w1 : dot w a = 0)
    (w2 : dot w b = 0) (w3 : dot w c = 0) : w = zero := by
  have c1 : dot (cross a b) c * w.x = 0 := by
    simp only [dot, cross] at w1 w2 w3 ⊢
    linear_combination (b.y * c.z - b.z * c.y) * w1 +
      (c.y * a.z - c.z * a.y) * w2 + (a.y * b.z - a.z * b.y) * w3
  have c2 : dot (cross a b) c * w.y = 0 := by
    simp only [dot, cross] at w1 w2 w3 ⊢
    linear_combination (b.z * c.x - b.x * c.z) * w1 +
      (c.z * a.x - c.x * a.z) * w2 + (a.z * b.x - a.x * b.z) * w3
  have c3 : dot (cross a b) c * w.z = 0 := by
    simp only [dot, cross] at w1 w2 w3 ⊢
    linear_combination (b.x * c.y - b.y * c.x) * w1 +
      (c.x * a.y - c.y * a.x) * w2 + (a.x * b.y - a.y * b.x) * w3
  ext
  · exact (mul_eq_zero.1 c1).resolve_left hne
  · exact (mul_eq_zero.1 c2).resolve_left hne
  · exact (mul_eq_zero.1 c3).resolve_left hne

theorem ne_zero_of_abs_ge {eps x : K} (he : 0 < eps) (h : ¬ |x| < eps) : x ≠ 0 := by
  rintro rfl
  exact h (by simpa using he)

/-! ## C45: rays, planes, triangles and segments -/

/-- A ray hit is on the plane and on the ray; a ray that meets the plane, and is not within the
tolerance of being parallel, is hit at that point. -/
theorem C45_ray_plane (eps : K) (he : 0 < eps) (po pn ro rd : V3 K) :
    (∀ p, rayPlane eps po pn ro rd = some p →
      OnPlane p po pn ∧ ∃ t, 0 ≤ t ∧ p = ro.add (smul t rd)) ∧
    (∀ t, eps ≤ |dot pn rd| → 0 ≤ t → OnPlane (ro.add (smul t rd)) po pn →
      rayPlane eps po pn ro rd = some (ro.add (smul t rd))) := by
  unfold rayPlane
  dsimp only
  constructor
  · intro p h
    split_ifs at h with c1 c2
    cases h
    have hd := ne_zero_of_abs_ge he c1
    refine ⟨?_, _, not_lt.1 c2, rfl⟩
    have e : dot pn (po.sub ro) / dot pn rd * dot pn rd = dot pn (po.sub ro) := div_mul_cancel₀ _ hd
    generalize dot pn (po.sub ro) / dot pn rd = t at e
    unfold OnPlane
    simp only [dot, sub, add, smul] at e ⊢
    linear_combination e
  · intro t h1 h2 h3
    have hd := ne_zero_of_abs_ge he (not_lt.2 h1)
    have e : dot pn (po.sub ro) / dot pn rd = t := by
      rw [div_eq_iff hd]
      unfold OnPlane at h3
      simp only [dot, sub, add, smul] at h3 ⊢
      linear_combination -h3
    rw [if_neg (not_lt.2 h1), e, if_neg (not_lt.2 h2)]

example : rayPlane (1 / 10 ^ 15) (⟨0, 0, 0⟩ : V3 ℚ) ⟨0, 1, 0⟩ ⟨0, -1, 0⟩ ⟨0, 1, 0⟩ =
    some ⟨0, 0, 0⟩ := by decide +kernel

/-- When both axes are orthogonal to the normal, the reported parameters give the reported point. -/
theorem C45_ray_param (eps : K) (he : 0 < eps) (po px py pn ro rd p : V3 K) (u v : K)
    (hx : dot px pn = 0) (hy : dot py pn = 0)
    (h : rayParamPlane eps po px py pn ro rd = some (p, (u, v))) :
    OnPlane p po pn ∧ (∃ t, 0 ≤ t ∧ p = ro.add (smul t rd)) ∧
    p = po.add ((smul u px).add (smul v py)) := by
  unfold rayParamPlane at h
  cases hr : rayPlane eps po pn ro rd with
  | none => rw [hr] at h; cases h
  | some i =>
    rw [hr] at h
    dsimp only at h
    split_ifs at h with c
    have hi := (C45_ray_plane eps he po pn ro rd).1 i hr
    have hn : pn ≠ zero := by
      rintro rfl
      unfold rayPlane at hr
      dsimp only at hr
      rw [if_pos] at hr
      · cases hr
      · have : dot (zero : V3 K) rd = 0 := by simp [dot, zero]
        rw [this]; simpa using he
    cases h
    refine ⟨hi.1, hi.2, ?_⟩
    have hdet := ne_zero_of_abs_ge he c
    have hnn : dot pn pn ≠ 0 := fun h0 => hn (dot_self_eq_zero.1 h0)
    have htriple : dot (cross px py) pn ≠ 0 := by
      intro h0
      have e : dot (cross px py) pn * dot (cross px py) pn =
          dot px px * (dot py py * dot pn pn - dot py pn * dot py pn) -
          dot px py * (dot px py * dot pn pn - dot py pn * dot px pn) +
          dot px pn * (dot px py * dot py pn - dot py py * dot px pn) := by
        simp only [dot, cross]; ring
      rw [h0, hx, hy] at e
      have : (dot px px * dot py py - dot px py * dot px py) * dot pn pn = 0 := by
        linear_combination -e
      rcases mul_eq_zero.1 this with h1 | h1
      · exact hdet h1
      · exact hnn h1
    have hu : (dot px (p.sub po) * dot py py - dot px py * dot py (p.sub po)) /
        (dot px px * dot py py - dot px py * dot px py) *
        (dot px px * dot py py - dot px py * dot px py) =
        dot px (p.sub po) * dot py py - dot px py * dot py (p.sub po) := div_mul_cancel₀ _ hdet
    have hv : (-dot px py * dot px (p.sub po) + dot px px * dot py (p.sub po)) /
        (dot px px * dot py py - dot px py * dot px py) *
        (dot px px * dot py py - dot px py * dot px py) =
        -dot px py * dot px (p.sub po) + dot px px * dot py (p.sub po) := div_mul_cancel₀ _ hdet
    generalize (dot px (p.sub po) * dot py py - dot px py * dot py (p.sub po)) /
        (dot px px * dot py py - dot px py * dot px py) = u at hu ⊢
    generalize (-dot px py * dot px (p.sub po) + dot px px * dot py (p.sub po)) /
        (dot px px * dot py py - dot px py * dot px py) = v at hv ⊢
    have hw : (p.sub po).sub ((smul u px).add (smul v py)) = zero := by
      have lin : ∀ a : V3 K, dot ((p.sub po).sub ((smul u px).add (smul v py))) a =
          dot a (p.sub po) - u * dot px a - v * dot py a := by
        intro a; simp only [dot, sub, add, smul]; ring
      refine zero_of_orth htriple ?_ ?_ ?_
      · rw [lin]
        refine mul_left_cancel₀ hdet ?_
        have s : dot py px = dot px py := by simp only [dot]; ring
        rw [s]
        linear_combination -(dot px px) * hu - dot px py * hv
      · rw [lin]
        refine mul_left_cancel₀ hdet ?_
        linear_combination -(dot px py) * hu - dot py py * hv
      · rw [lin, hx, hy]
        have := hi.1
        unfold OnPlane at this
        have s : dot pn (p.sub po) = dot (p.sub po) pn := by simp only [dot]; ring
        rw [s, this]; ring
    have h1 := congrArg V3.x hw
    have h2 := congrArg V3.y hw
    have h3 := congrArg V3.z hw
    simp only [sub, add, smul, zero] at h1 h2 h3
    ext <;> simp only [add, smul] <;> linarith

example : rayParamPlane (1 / 10 ^ 15) (⟨0, 0, 1⟩ : V3 ℚ) ⟨2, 0, 0⟩ ⟨1, 1, 0⟩ ⟨0, 0, 1⟩ ⟨3, 1, 0⟩
    ⟨0, 0, 2⟩ = some (⟨3, 1, 1⟩, (1, 1)) := by decide +kernel

/-- The tolerance on the axes is absolute: with orthogonal axes of length `1/10000` every ray is
reported as missing the plane. -/
theorem C45_small_axes_refuted (ro rd : V3 ℚ) :
    rayParamPlane (1 / 10 ^ 15) zero ⟨1 / 10 ^ 4, 0, 0⟩ ⟨0, 1 / 10 ^ 4, 0⟩ ⟨0, 0, 1⟩ ro rd = none := by
  unfold rayParamPlane
  cases rayPlane (1 / 10 ^ 15) zero (⟨0, 0, 1⟩ : V3 ℚ) ro rd with
  | none => rfl
  | some i =>
    dsimp only
    rw [if_pos]
    norm_num [dot]

/-- Everything a reported triangle/segment intersection says: the point is at parameter `t` of the
segment and at `u`, `v` of the triangle, and the parameters are in range up to the tolerance. -/
theorem C45_triangle_sound (eps : K) (he : 0 < eps) (v0 v1 v2 s e p : V3 K) (u v t : K)
    (h : triSeg eps v0 v1 v2 s e = some (u, v, t, p)) :
    p = s.add (smul t (e.sub s)) ∧
    p = v0.add ((smul u (v1.sub v0)).add (smul v (v2.sub v0))) ∧
    -eps ≤ u ∧ u ≤ 1 + eps ∧ -eps ≤ v ∧ u + v ≤ 1 + eps ∧ -eps ≤ t ∧ t ≤ 1 + eps := by
  unfold triSeg at h
  dsimp only at h
  split_ifs at h with c1 c2 c3 c4
  cases h
  push Not at c2 c3 c4
  have ha : dot (v1.sub v0) (cross (e.sub s) (v2.sub v0)) ≠ 0 := by
    intro h0
    rw [h0] at c1
    exact c1 ⟨by linarith, he⟩
  generalize hd : e.sub s = d at *
  generalize he1 : v1.sub v0 = e1 at *
  generalize he2 : v2.sub v0 = e2 at *
  refine ⟨rfl, ?_, c2.1, c2.2, c3.1, c3.2, c4.1, c4.2⟩
  obtain ⟨sx, sy, sz⟩ := s
  obtain ⟨v0x, v0y, v0z⟩ := v0
  generalize hA : dot e1 (cross d e2) = A at ha ⊢
  ext <;> simp only [add, smul, sub] <;> field_simp <;> rw [← hA] <;> simp only [dot, cross] <;> ring

/-- Every crossing inside the triangle and the segment is reported, unless the determinant is within
the tolerance of zero. -/
theorem C45_triangle_complete (eps : K) (he : 0 < eps) (v0 v1 v2 s e : V3 K) (u v t : K)
    (ha : eps ≤ |dot (v1.sub v0) (cross (e.sub s) (v2.sub v0))|)
    (hu : 0 ≤ u) (hv : 0 ≤ v) (huv : u + v ≤ 1) (ht : 0 ≤ t) (ht1 : t ≤ 1)
    (hp : s.add (smul t (e.sub s)) = v0.add ((smul u (v1.sub v0)).add (smul v (v2.sub v0)))) :
    triSeg eps v0 v1 v2 s e = some (u, v, t, s.add (smul t (e.sub s))) := by
  have hx := congrArg V3.x hp
  have hy := congrArg V3.y hp
  have hz := congrArg V3.z hp
  have hne : dot (v1.sub v0) (cross (e.sub s) (v2.sub v0)) ≠ 0 :=
    ne_zero_of_abs_ge he (not_lt.2 ha)
  have eu : 1 / dot (v1.sub v0) (cross (e.sub s) (v2.sub v0)) *
      dot (s.sub v0) (cross (e.sub s) (v2.sub v0)) = u := by
    rw [one_div, inv_mul_eq_iff_eq_mul₀ hne]
    simp only [dot, cross, sub, add, smul] at hx hy hz ⊢
    linear_combination
      ((e.y - s.y) * (v2.z - v0.z) - (e.z - s.z) * (v2.y - v0.y)) * hx +
      ((e.z - s.z) * (v2.x - v0.x) - (e.x - s.x) * (v2.z - v0.z)) * hy +
      ((e.x - s.x) * (v2.y - v0.y) - (e.y - s.y) * (v2.x - v0.x)) * hz
  have ev : 1 / dot (v1.sub v0) (cross (e.sub s) (v2.sub v0)) *
      dot (e.sub s) (cross (s.sub v0) (v1.sub v0)) = v := by
    rw [one_div, inv_mul_eq_iff_eq_mul₀ hne]
    simp only [dot, cross, sub, add, smul] at hx hy hz ⊢
    linear_combination
      ((v1.y - v0.y) * (e.z - s.z) - (v1.z - v0.z) * (e.y - s.y)) * hx +
      ((v1.z - v0.z) * (e.x - s.x) - (v1.x - v0.x) * (e.z - s.z)) * hy +
      ((v1.x - v0.x) * (e.y - s.y) - (v1.y - v0.y) * (e.x - s.x)) * hz
  have et : 1 / dot (v1.sub v0) (cross (e.sub s) (v2.sub v0)) *
      dot (v2.sub v0) (cross (s.sub v0) (v1.sub v0)) = t := by
    rw [one_div, inv_mul_eq_iff_eq_mul₀ hne]
    simp only [dot, cross, sub, add, smul] at hx hy hz ⊢
    linear_combination
      ((v1.y - v0.y) * (v2.z - v0.z) - (v1.z - v0.z) * (v2.y - v0.y)) * hx +
      ((v1.z - v0.z) * (v2.x - v0.x) - (v1.x - v0.x) * (v2.z - v0.z)) * hy +
      ((v1.x - v0.x) * (v2.y - v0.y) - (v1.y - v0.y) * (v2.x - v0.x)) * hz
  unfold triSeg
  dsimp only
  rw [eu, ev, et, if_neg, if_neg, if_neg, if_neg]
  · rintro (h | h) <;> linarith
  · rintro (h | h) <;> linarith
  · rintro (h | h) <;> linarith
  · rintro ⟨h1, h2⟩
    exact absurd (abs_lt.2 ⟨h1, h2⟩) (not_lt.2 ha)

example : triSeg (1 / 10 ^ 8) (⟨0, 0, 0⟩ : V3 ℚ) ⟨4, 0, 0⟩ ⟨0, 4, 0⟩ ⟨1, 1, -1⟩ ⟨1, 1, 1⟩ =
    some (1 / 4, 1 / 4, 1 / 2, ⟨1, 1, 0⟩) := by decide +kernel

/-- The tolerance is absolute: a segment of length 2 through the middle of a right triangle with legs
`1/100000` is reported as missing it. -/
theorem C45_small_triangle_refuted :
    triSeg (1 / 10 ^ 8) (⟨0, 0, 0⟩ : V3 ℚ) ⟨1 / 10 ^ 5, 0, 0⟩ ⟨0, 1 / 10 ^ 5, 0⟩
      ⟨1 / (4 * 10 ^ 5), 1 / (4 * 10 ^ 5), -1⟩ ⟨1 / (4 * 10 ^ 5), 1 / (4 * 10 ^ 5), 1⟩ = none := by
  decide +kernel

/-- `intersect_triangles_segment_one`: nothing exactly when no triangle is hit; otherwise the hit of
the first one. -/
theorem C45_first_hit (eps : K) (s e : V3 K) (ts : List (Tri K)) :
    (firstHit eps s e ts = none ↔ ∀ t ∈ ts, triSeg eps t.1 t.2.1 t.2.2 s e = none) ∧
    ∀ p, firstHit eps s e ts = some p → ∃ l t r, ts = l ++ t :: r ∧
      (∀ t' ∈ l, triSeg eps t'.1 t'.2.1 t'.2.2 s e = none) ∧
      ∃ q, triSeg eps t.1 t.2.1 t.2.2 s e = some q ∧ q.2.2.2 = p := by
  induction ts with
  | nil => simp [firstHit]
  | cons t ts ih =>
    rw [firstHit]
    cases ht : triSeg eps t.1 t.2.1 t.2.2 s e with
    | some q =>
      refine ⟨by simp [ht], ?_⟩
      intro p hp
      cases hp
      exact ⟨[], t, ts, rfl, by simp, q, ht, rfl⟩
    | none =>
      dsimp only
      refine ⟨by simp [ht, ih.1], ?_⟩
      intro p hp
      obtain ⟨l, t', r, h1, h2, h3⟩ := ih.2 p hp
      refine ⟨t :: l, t', r, by rw [h1]; rfl, ?_, h3⟩
      intro t'' ht''
      rcases List.mem_cons.1 ht'' with rfl | h'
      · exact ht
      · exact h2 t'' h'

/-! ## C94: `plane_line_intersection` -/

/-- The returned point is on the plane and on the line at the returned parameter; a line that is not
within the tolerance of being parallel is always intersected. -/
theorem C94_plane_line (tol : K) (ht : 0 < tol) (po pn lo ld : V3 K) :
    (planeLine tol po pn lo ld = none ↔ |dot pn ld| < tol) ∧
    ∀ si p, planeLine tol po pn lo ld = some (si, p) →
      OnPlane p po pn ∧ p = lo.add (smul si ld) ∧
      ∀ s', OnPlane (lo.add (smul s' ld)) po pn → s' = si := by
  unfold planeLine
  dsimp only
  by_cases c : |dot pn ld| < tol
  · simp [c]
  · rw [if_neg c]
    refine ⟨by simp [c], ?_⟩
    intro si p h
    have hd := ne_zero_of_abs_ge ht c
    cases h
    have e : -dot pn (lo.sub po) / dot pn ld * dot pn ld = -dot pn (lo.sub po) :=
      div_mul_cancel₀ _ hd
    generalize -dot pn (lo.sub po) / dot pn ld = t at e
    refine ⟨?_, ?_, ?_⟩
    · unfold OnPlane
      simp only [dot, sub, add, smul] at e ⊢
      linear_combination e
    · ext <;> simp only [sub, add, smul] <;> ring
    · intro s' hs'
      unfold OnPlane at hs'
      refine mul_right_cancel₀ hd ?_
      rw [e]
      simp only [dot, sub, add, smul] at hs' ⊢
      linear_combination hs'

/-! ## C88: projections -/

theorem proj_eq (a b : V3 K) (hb : b ≠ zero) :
    vectorProjection a b = smul (dot a b / dot b b) b := by
  have h0 : dot b b ≠ 0 := fun h => hb (dot_self_eq_zero.1 h)
  have e : b.x ^ 2 + b.y ^ 2 + b.z ^ 2 = dot b b := by simp only [dot]; ring
  unfold vectorProjection
  dsimp only
  rw [e]
  ext <;> simp only [smul] <;> field_simp <;> simp only [dot] <;> ring

/-- The projection on a nonzero vector is a multiple of it, what is left is orthogonal to it, and no
multiple is closer. -/
theorem C88_projection (a b : V3 K) (hb : b ≠ zero) :
    (∃ t, vectorProjection a b = smul t b) ∧ dot (a.sub (vectorProjection a b)) b = 0 ∧
    ∀ t, dot (a.sub (vectorProjection a b)) (a.sub (vectorProjection a b)) ≤
      dot (a.sub (smul t b)) (a.sub (smul t b)) := by
  have h0 : dot b b ≠ 0 := fun h => hb (dot_self_eq_zero.1 h)
  rw [proj_eq a b hb]
  have e : dot a b / dot b b * dot b b = dot a b := div_mul_cancel₀ _ h0
  generalize dot a b / dot b b = r at e
  refine ⟨⟨r, rfl⟩, ?_, ?_⟩
  · simp only [dot, sub, smul] at e ⊢
    linear_combination -e
  · intro t
    have key : dot (a.sub (smul t b)) (a.sub (smul t b)) =
        dot (a.sub (smul r b)) (a.sub (smul r b)) + (r - t) ^ 2 * dot b b := by
      simp only [dot, sub, smul] at e ⊢
      linear_combination (2 * t - 2 * r) * e
    rw [key]
    have := mul_nonneg (sq_nonneg (r - t)) (dot_self_nonneg b)
    linarith

/-- The foot of the perpendicular is the returned vector plus the start of the line.

`_partial`: the closest point itself is returned only for lines through the origin,
`C88_closest_refuted`. -/
theorem C88_closest_partial (start stop p : V3 K) (h : stop ≠ start) :
    let q := start.add (closestPointOnLine start stop p)
    (∃ t, q = start.add (smul t (stop.sub start))) ∧
    ∀ t, dot (p.sub q) (p.sub q) ≤
      dot (p.sub (start.add (smul t (stop.sub start)))) (p.sub (start.add (smul t (stop.sub start)))) := by
  have hb : stop.sub start ≠ zero := by
    intro h0
    apply h
    have h1 := congrArg V3.x h0
    have h2 := congrArg V3.y h0
    have h3 := congrArg V3.z h0
    simp only [sub, zero] at h1 h2 h3
    ext <;> linarith
  obtain ⟨⟨t, ht⟩, -, h3⟩ := C88_projection (p.sub start) (stop.sub start) hb
  dsimp only
  have e : ∀ w : V3 K, p.sub (start.add w) = (p.sub start).sub w := by
    intro w; ext <;> simp only [sub, add] <;> ring
  refine ⟨⟨t, by rw [closestPointOnLine, ht]⟩, ?_⟩
  intro t
  rw [e, e]
  exact h3 t

/-- What is returned is off by the start point: it is the closest point only if the line starts at
the origin. -/
theorem C88_closest_refuted (start stop p : V3 K) (h : stop ≠ start)
    (hc : dot (p.sub (closestPointOnLine start stop p)) (stop.sub start) = 0) :
    dot start (stop.sub start) = 0 := by
  have hb : stop.sub start ≠ zero := by
    intro h0
    apply h
    have h1 := congrArg V3.x h0
    have h2 := congrArg V3.y h0
    have h3 := congrArg V3.z h0
    simp only [sub, zero] at h1 h2 h3
    ext <;> linarith
  have h2 := (C88_projection (p.sub start) (stop.sub start) hb).2.1
  unfold closestPointOnLine at hc
  generalize vectorProjection (p.sub start) (stop.sub start) = w at hc h2
  simp only [dot, sub] at hc h2 ⊢
  linear_combination hc - h2

/-- The line `x = 1 + t`, `y = 1`: the answer for `(3, 5, 0)` is `(2, 0, 0)`, which is not on it. -/
example : closestPointOnLine (⟨1, 1, 0⟩ : V3 ℚ) ⟨2, 1, 0⟩ ⟨3, 5, 0⟩ = ⟨2, 0, 0⟩ := by decide +kernel

/-! ## C89: Gram–Schmidt -/

/-- With a unit first vector the result is orthogonal to it and spans the same plane with it; the
in-place variant agrees. -/
theorem C89_scalar (a b : V3 K) (ha : dot a a = 1) :
    dot (scalarGramSchmidt a b) a = 0 ∧ (∃ t, b = (scalarGramSchmidt a b).add (smul t a)) ∧
    gramSchmidtEmplace a b = scalarGramSchmidt a b := by
  refine ⟨?_, ⟨dot b a, ?_⟩, ?_⟩
  · simp only [scalarGramSchmidt, dot, sub, smul] at ha ⊢
    linear_combination -(b.x * a.x + b.y * a.y + b.z * a.z) * ha
  · ext <;> simp only [scalarGramSchmidt, sub, add, smul] <;> ring
  · ext <;> simp only [scalarGramSchmidt, gramSchmidtEmplace, sub, smul] <;> ring

/-- A first vector that is not a unit vector: not orthogonal, unless the vectors already were. -/
theorem C89_not_unit_refuted (a b : V3 K) (ha : dot a a ≠ 1) (hab : dot b a ≠ 0) :
    dot (scalarGramSchmidt a b) a ≠ 0 := by
  intro h
  have : dot b a * (1 - dot a a) = 0 := by
    simp only [scalarGramSchmidt, dot, sub, smul] at h ⊢
    linear_combination h
  rcases mul_eq_zero.1 this with h1 | h1
  · exact hab h1
  · exact ha (by linarith)

/-- Writing the result over the second argument gives the zero vector, always. -/
theorem C89_aliased_refuted (a b : V3 K) : scalarGramSchmidtInto a b = zero := by
  ext <;> simp [scalarGramSchmidtInto, sub, zero]

/-- The array version fills each row with one number, so a row is orthogonal to the first vector only
if that number is zero or the components of the vector sum to zero. -/
theorem C89_rows_refuted (a b : V3 K) :
    dot (gramSchmidtRow a b) a = (b.z - a.z * dot b a) * (a.x + a.y + a.z) := by
  simp only [gramSchmidtRow, dot]; ring

example : dot (⟨1, 0, 0⟩ : V3 ℚ) ⟨1, 0, 0⟩ = 1 ∧ gramSchmidtRow (⟨1, 0, 0⟩ : V3 ℚ) ⟨1, 1, 1⟩ = ⟨1, 1, 1⟩ ∧
    scalarGramSchmidt (⟨1, 0, 0⟩ : V3 ℚ) ⟨1, 1, 1⟩ = ⟨0, 1, 1⟩ := by decide +kernel

/-! ## C90: row products -/

theorem rowDot_eq (a b : Nat → K) (n : Nat) : rowDot a b n = ∑ j ∈ range n, a j * b j := by
  induction n with
  | zero => simp [rowDot]
  | succ n ih => rw [rowDot, sum_range_succ, ih]

/-- `dot` gives the row products. -/
theorem C90_dot (a b : Nat → Nat → K) (n i : Nat) :
    dotRows a b n i = ∑ j ∈ range n, a i j * b i j := rowDot_eq _ _ _

/-- The other products are right when the freshly allocated array happens to hold zeros.

`_partial`: it is not initialised, `C90_uninitialised_refuted`. -/
theorem C90_products_partial (a b : Nat → Nat → K) (v : Nat → K) (n i j : Nat) :
    dotArrayArray (fun _ => 0) a b n i = ∑ c ∈ range n, a i c * b i c ∧
    dotVecArray (fun _ => 0) v b n i = ∑ c ∈ range n, v c * b i c ∧
    dotArrayVec (fun _ => 0) a v n i = ∑ c ∈ range n, a i c * v c ∧
    matmul (fun _ _ => 0) a b n i j = ∑ c ∈ range n, a i c * b c j := by
  simp [dotArrayArray, dotVecArray, dotArrayVec, matmul, rowDot_eq]

/-- Two different contents of the array give two different answers for the same arguments, in every
position. -/
theorem C90_uninitialised_refuted (a b : Nat → Nat → K) (v : Nat → K) (n i j : Nat) (u u' : K)
    (h : u ≠ u') :
    dotArrayArray (fun _ => u) a b n i ≠ dotArrayArray (fun _ => u') a b n i ∧
    dotVecArray (fun _ => u) v b n i ≠ dotVecArray (fun _ => u') v b n i ∧
    dotArrayVec (fun _ => u) a v n i ≠ dotArrayVec (fun _ => u') a v n i ∧
    matmul (fun _ _ => u) a b n i j ≠ matmul (fun _ _ => u') a b n i j := by
  simp [dotArrayArray, dotVecArray, dotArrayVec, matmul, h]

/-! ## C98: `support_vector` -/

theorem supportLoop_spec (d : V3 K) (vs : List (V3 K)) : ∀ (hi : Option K) (s : V3 K),
    (∀ h, hi = some h → h = dot s d) →
    (supportLoop d vs hi s = s ∨ supportLoop d vs hi s ∈ vs) ∧
    (∀ v ∈ vs, dot v d ≤ dot (supportLoop d vs hi s) d) ∧
    (∀ h, hi = some h → h ≤ dot (supportLoop d vs hi s) d) ∧
    (hi = none → vs ≠ [] → supportLoop d vs hi s ∈ vs) := by
  induction vs with
  | nil =>
    intro hi s hh
    refine ⟨Or.inl rfl, by simp, ?_, by simp⟩
    intro h he
    rw [hh h he]; exact le_rfl
  | cons v vs ih =>
    intro hi s hh
    rw [supportLoop.eq_def]
    dsimp only
    have take : ∀ hi' : Option K, (∀ h, hi' = some h → h ≤ dot v d) →
        (supportLoop d vs (some (dot v d)) v = s ∨ supportLoop d vs (some (dot v d)) v ∈ v :: vs) ∧
        (∀ w ∈ v :: vs, dot w d ≤ dot (supportLoop d vs (some (dot v d)) v) d) ∧
        (∀ h, hi' = some h → h ≤ dot (supportLoop d vs (some (dot v d)) v) d) ∧
        supportLoop d vs (some (dot v d)) v ∈ v :: vs := by
      intro hi' hle
      obtain ⟨h1, h2, h3, -⟩ := ih (some (dot v d)) v (by intro h he; cases he; rfl)
      have h3' := h3 _ rfl
      have hm : supportLoop d vs (some (dot v d)) v ∈ v :: vs := by
        rcases h1 with h1 | h1
        · rw [h1]; simp
        · exact List.mem_cons_of_mem _ h1
      refine ⟨Or.inr hm, ?_, fun h he => (hle h he).trans h3', hm⟩
      intro w hw
      rcases List.mem_cons.1 hw with rfl | hw
      · exact h3'
      · exact h2 w hw
    cases hi with
    | none =>
      obtain ⟨t1, t2, t3, t4⟩ := take none (by simp)
      simp only [if_true]
      exact ⟨t1, t2, t3, fun _ _ => t4⟩
    | some h =>
      dsimp only
      by_cases c : dot v d > h
      · rw [if_pos (by simpa using c)]
        obtain ⟨t1, t2, t3, t4⟩ := take (some h) (by intro h' he; cases he; exact c.le)
        exact ⟨t1, t2, t3, fun _ _ => t4⟩
      · rw [if_neg (by simpa using c)]
        obtain ⟨h1, h2, h3, -⟩ := ih (some h) s hh
        have hle : dot v d ≤ h := by simpa using c
        refine ⟨?_, ?_, h3, by simp⟩
        · rcases h1 with h1 | h1
          · exact Or.inl h1
          · exact Or.inr (List.mem_cons_of_mem _ h1)
        · intro w hw
          rcases List.mem_cons.1 hw with rfl | hw
          · exact hle.trans (h3 h rfl)
          · exact h2 w hw

/-- The support vector of a nonempty list is one of the vertices, and none is further in the
direction. -/
theorem C98_support (vs : List (V3 K)) (d : V3 K) (h : vs ≠ []) :
    supportVector vs d ∈ vs ∧ ∀ v ∈ vs, dot v d ≤ dot (supportVector vs d) d := by
  obtain ⟨-, h2, -, h4⟩ := supportLoop_spec d vs none zero (by simp)
  exact ⟨h4 rfl h, h2⟩

example : supportVector [(⟨0, 0, 0⟩ : V3 ℚ), ⟨2, 1, 0⟩, ⟨1, 3, 0⟩] ⟨1, 0, 0⟩ = ⟨2, 1, 0⟩ := by
  decide +kernel

/-! ## C99: orientation of a closed chain -/

theorem cdet_append (p q : K × K) (l : List (K × K)) (r : K × K) :
    cdet (p :: (l ++ [q, r])) = cdet (p :: (l ++ [q])) + (r.1 - q.1) * (r.2 + q.2) := by
  induction l generalizing p with
  | nil => simp [cdet]
  | cons x xs ih =>
    simp only [List.cons_append, cdet]
    rw [ih x]; ring

/-- For a triangle given as a closed chain the value is minus twice the signed area, so the order is 1
for counterclockwise and 0 for clockwise triangles. -/
theorem C99_triangle (p q r : K × K) :
    let area := (q.1 - p.1) * (r.2 - p.2) - (q.2 - p.2) * (r.1 - p.1)
    cdet [p, q, r, p] = -area ∧ (pointsOrder [p, q, r, p] = 1 ↔ 0 < area) ∧
    (pointsOrder [p, q, r, p] = 0 ↔ area < 0) ∧ (pointsOrder [p, q, r, p] = -1 ↔ area = 0) := by
  dsimp only
  have e : cdet [p, q, r, p] =
      -((q.1 - p.1) * (r.2 - p.2) - (q.2 - p.2) * (r.1 - p.1)) := by
    simp only [cdet]; ring
  refine ⟨e, ?_⟩
  unfold pointsOrder
  rw [e]
  generalize (q.1 - p.1) * (r.2 - p.2) - (q.2 - p.2) * (r.1 - p.1) = A
  rcases lt_trichotomy A 0 with h | h | h
  · simp [h, not_lt.2 h.le, h.ne]
  · simp [h]
  · simp [h, not_lt.2 h.le, h.ne']

/-- Shifting a chain changes the value by twice the vertical shift times the horizontal extent. -/
theorem cdet_shift (l : List (K × K)) : ∀ (p : K × K) (s t : K),
    cdet ((p :: l).map (fun q => (q.1 + s, q.2 + t))) =
      cdet (p :: l) + 2 * t * ((p :: l).getLast (by simp)).1 - 2 * t * p.1 := by
  induction l with
  | nil => intro p s t; simp [cdet]
  | cons q l ih =>
    intro p s t
    have := ih q s t
    simp only [List.map_cons] at this ⊢
    simp only [cdet]
    rw [this, List.getLast_cons (a := p) (List.cons_ne_nil q l)]
    ring

/-- The order of a closed chain does not depend on where it is. -/
theorem C99_shift (p : K × K) (l : List (K × K)) (h : ((p :: l).getLast (by simp)).1 = p.1)
    (s t : K) :
    pointsOrder ((p :: l).map (fun q => (q.1 + s, q.2 + t))) = pointsOrder (p :: l) := by
  have : cdet ((p :: l).map (fun q => (q.1 + s, q.2 + t))) = cdet (p :: l) := by
    rw [cdet_shift, h]; ring
  unfold pointsOrder
  rw [this]

/-- A polygon without its closing point has an order that depends on where it is. -/
theorem C99_open_refuted :
    pointsOrder [((0 : ℚ), (0 : ℚ)), (1, 0), (1, 1)] ≠
      pointsOrder ([((0 : ℚ), (0 : ℚ)), (1, 0), (1, 1)].map (fun q => (q.1 + 0, q.2 - 5))) := by
  decide +kernel

end Verif.Vec
