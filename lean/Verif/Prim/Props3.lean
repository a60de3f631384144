import Verif.Prim.Props2
import Mathlib.Tactic.LinearCombination

set_option linter.unusedSectionVars false

/-!
# The cylinder as a parametric surface
-/

namespace Verif.Prim

/-- The three vectors form a right-handed frame of unit vectors. -/
def Frame (d u v : P) : Prop := dot d d = 1 ∧ dot u u = 1 ∧ dot d u = 0 ∧ v = cross d u

theorem frame_v (d u v : P) (h : Frame d u v) : dot v v = 1 ∧ dot v d = 0 ∧ dot v u = 0 := by
  obtain ⟨h1, h2, h3, rfl⟩ := h
  refine ⟨?_, ?_, ?_⟩
  · have e : dot (cross d u) (cross d u) = dot d d * dot u u - dot d u ^ 2 := by
      unfold dot cross
      ring
    rw [e, h1, h2, h3]
    norm_num
  · unfold dot cross
    ring
  · unfold dot cross
    ring

/-- Every vector is the sum of its parts along the frame. -/
theorem frame_span (d u v w : P) (h : Frame d u v) :
    w = ⟨dot w d * d.x + dot w u * u.x + dot w v * v.x, dot w d * d.y + dot w u * u.y + dot w v * v.y,
      dot w d * d.z + dot w u * u.z + dot w v * v.z⟩ := by
  obtain ⟨h1, h2, h3, hv⟩ := h
  -- the difference is perpendicular to the three vectors, and so its square is zero
  obtain ⟨h4, h5, h6⟩ := frame_v d u v ⟨h1, h2, h3, hv⟩
  have hz : sub w ⟨dot w d * d.x + dot w u * u.x + dot w v * v.x, dot w d * d.y + dot w u * u.y + dot w v * v.y,
      dot w d * d.z + dot w u * u.z + dot w v * v.z⟩ = ⟨0, 0, 0⟩ := by
    rw [← norm_zero_iff, norm_eq]
    have e1 : dot (sub w ⟨dot w d * d.x + dot w u * u.x + dot w v * v.x, dot w d * d.y + dot w u * u.y + dot w v * v.y,
        dot w d * d.z + dot w u * u.z + dot w v * v.z⟩) (sub w ⟨dot w d * d.x + dot w u * u.x + dot w v * v.x,
        dot w d * d.y + dot w u * u.y + dot w v * v.y, dot w d * d.z + dot w u * u.z + dot w v * v.z⟩) =
        dot w w - (2 - dot d d) * dot w d ^ 2 - (2 - dot u u) * dot w u ^ 2 - (2 - dot v v) * dot w v ^ 2
        + 2 * dot w d * dot w u * dot d u + 2 * dot w d * dot w v * dot v d + 2 * dot w u * dot w v * dot v u := by
      generalize hA : dot w d = A
      generalize hB : dot w u = B
      generalize hC : dot w v = C
      unfold dot at hA hB hC
      unfold dot sub
      dsimp only
      linear_combination (-2 * A) * hA + (-2 * B) * hB + (-2 * C) * hC
    have e2 : dot w v ^ 2 = dot w w * (dot d d * dot u u - dot d u ^ 2)
        - (dot w d ^ 2 * dot u u - 2 * dot w d * dot w u * dot d u + dot w u ^ 2 * dot d d) := by
      rw [hv]
      unfold dot cross
      ring
    rw [e1, h4, h5, h6, h1, h2, h3]
    rw [h1, h2, h3] at e2
    rw [e2, Real.sqrt_eq_zero']
    nlinarith
  have : dist w _ = 0 := (norm_zero_iff _).mpr hz
  exact (dist_zero_iff _ _).mp this

/-- What the constructor leaves. -/
theorem surf_init (o e : P) (r : ℝ) (s : Surf) (h : Surf.init o e r = some s) :
    o ≠ e ∧ s.start = o ∧ s.radius = r ∧ s.prim = Cyl.init o e r ∧ s.dNorm = dist e o ∧
      sub e o = smul s.dNorm s.dHat ∧ Frame s.dHat s.uHat s.v ∧ 0 < s.dNorm := by
  unfold Surf.init at h
  dsimp only at h
  rcases h1 : div (sub e o) (norm (sub e o)) with _ | dh
  · rw [h1] at h
    exact absurd h (by simp)
  · rw [h1] at h
    simp only [Option.bind_eq_bind, Option.bind_some] at h
    generalize hw : (open Classical in if closeToX dh then (⟨0, 1, 0⟩ : P) else ⟨1, 0, 0⟩) = w at h
    rcases h2 : div (cross dh w) (norm (cross dh w)) with _ | uh
    · rw [h2] at h
      exact absurd h (by simp)
    · rw [h2] at h
      simp only [Option.bind_some, Option.pure_def, Option.some.injEq] at h
      obtain ⟨a1, a2, a3⟩ := div_norm _ _ h1
      obtain ⟨b1, b2, b3⟩ := div_norm _ _ h2
      have hne : o ≠ e := by
        rintro rfl
        exact a1 ((dist_zero_iff o o).mpr rfl)
      have hpos : 0 < norm (sub e o) := lt_of_le_of_ne (norm_nonneg _) (Ne.symm a1)
      subst h
      refine ⟨hne, rfl, rfl, rfl, rfl, a3, ⟨?_, ?_, ?_, rfl⟩, hpos⟩
      · show dot dh dh = 1
        rw [← norm_sq, a2]
        norm_num
      · show dot uh uh = 1
        rw [← norm_sq, b2]
        norm_num
      · show dot dh uh = 0
        have hz : dot dh (cross dh w) = 0 := by
          unfold dot cross
          ring
        rw [b3] at hz
        have : dot dh (smul (norm (cross dh w)) uh) = norm (cross dh w) * dot dh uh := by
          generalize norm (cross dh w) = n
          unfold dot smul
          ring
        rw [this] at hz
        exact (mul_eq_zero.mp hz).resolve_left b1

theorem frame_norm (d u v : P) (h : Frame d u v) (r co si : ℝ) (hc : co ^ 2 + si ^ 2 = 1) :
    norm ⟨r * (co * u.x + si * v.x), r * (co * u.y + si * v.y), r * (co * u.z + si * v.z)⟩ = |r| := by
  obtain ⟨h4, h5, h6⟩ := frame_v d u v h
  obtain ⟨h1, h2, h3, -⟩ := h
  refine norm_eq_of_sq _ _ (abs_nonneg r) ?_
  rw [sq_abs]
  have e : dot ⟨r * (co * u.x + si * v.x), r * (co * u.y + si * v.y), r * (co * u.z + si * v.z)⟩
      ⟨r * (co * u.x + si * v.x), r * (co * u.y + si * v.y), r * (co * u.z + si * v.z)⟩ =
      r ^ 2 * (co ^ 2 * dot u u + si ^ 2 * dot v v + 2 * co * si * dot v u) := by
    unfold dot
    ring
  rw [e, h2, h4, h6]
  rw [show co ^ 2 * 1 + si ^ 2 * 1 + 2 * co * si * 0 = co ^ 2 + si ^ 2 by ring, hc, mul_one]

/-- The value of the implicit function of the constructor's cylinder at a point of the surface, whatever radius the
surface has now. -/
theorem surf_value (o e : P) (r r' : ℝ) (s : Surf) (h : Surf.init o e r = some s) (co si v : ℝ)
    (hc : co ^ 2 + si ^ 2 = 1) :
    (s.setRadius r').implicit ((s.setRadius r').evaluate co si v) = some (|r'| - r) ∧
      footAt o (sub e o) ((s.setRadius r').evaluate co si v) = v / s.dNorm := by
  obtain ⟨hne, hs, hr, hp, hn, hd, hf, hpos⟩ := surf_init o e r s h
  have hd0 := sub_ne o e hne
  obtain ⟨h4, h5, h6⟩ := frame_v _ _ _ hf
  have e1 : sub ((s.setRadius r').evaluate co si v) (along o (sub e o) (v / s.dNorm)) =
      ⟨r' * (co * s.uHat.x + si * s.v.x), r' * (co * s.uHat.y + si * s.v.y), r' * (co * s.uHat.z + si * s.v.z)⟩ := by
    have hcan := div_mul_cancel₀ v hpos.ne'
    have hx : (sub e o).x = s.dNorm * s.dHat.x := congrArg P.x hd
    have hy : (sub e o).y = s.dNorm * s.dHat.y := congrArg P.y hd
    have hz : (sub e o).z = s.dNorm * s.dHat.z := congrArg P.z hd
    generalize sub e o = d at hx hy hz
    rw [← hs]
    unfold Surf.evaluate Surf.setRadius along sub
    ext <;> dsimp only
    · rw [hx]; linear_combination (-s.dHat.x) * hcan
    · rw [hy]; linear_combination (-s.dHat.y) * hcan
    · rw [hz]; linear_combination (-s.dHat.z) * hcan
  have hperp : dot (sub ((s.setRadius r').evaluate co si v) (along o (sub e o) (v / s.dNorm))) (sub e o) = 0 := by
    rw [e1, hd]
    have : dot ⟨r' * (co * s.uHat.x + si * s.v.x), r' * (co * s.uHat.y + si * s.v.y),
        r' * (co * s.uHat.z + si * s.v.z)⟩ (smul s.dNorm s.dHat) =
        r' * s.dNorm * (co * dot s.dHat s.uHat + si * dot s.v s.dHat) := by
      unfold dot smul
      ring
    rw [this, hf.2.2.1, h5]
    ring
  refine ⟨?_, foot_unique o _ _ hd0 _ hperp⟩
  have hv := cyl_implicit_foot (Cyl.init o e r) ((s.setRadius r').evaluate co si v) hd0 (v / s.dNorm) hperp
  have hq : (s.setRadius r').implicit ((s.setRadius r').evaluate co si v)
      = (Cyl.init o e r).implicit ((s.setRadius r').evaluate co si v) := by
    show s.prim.implicit _ = _
    rw [hp]
  rw [hq, hv]
  congr 1
  show norm (sub ((s.setRadius r').evaluate co si v) (along o (sub e o) (v / s.dNorm))) - r = _
  rw [e1, frame_norm _ _ _ hf r' co si hc]

/-- C173.  Every point the surface evaluates to is on the zero set of its own implicit function, and (for `v` in the
interval) between the end planes and in `bounds()`. -/
theorem C173_on_surface (o e : P) (r : ℝ) (s : Surf) (h : Surf.init o e r = some s) (hr : 0 ≤ r) (co si v : ℝ)
    (hc : co ^ 2 + si ^ 2 = 1) :
    s.implicit (s.evaluate co si v) = some 0 ∧
    (0 ≤ v → v ≤ dist e o → Between o e (s.evaluate co si v) ∧
      ∃ b, s.prim.bounds = some b ∧ b.mem (s.evaluate co si v)) := by
  obtain ⟨hne, hs, hrr, hp, hn, hd, hf, hpos⟩ := surf_init o e r s h
  have he : s.setRadius r = s := by rw [← hrr]; rfl
  obtain ⟨h1, h2⟩ := surf_value o e r r s h co si v hc
  rw [he, abs_of_nonneg hr, sub_self] at h1
  rw [he] at h2
  refine ⟨h1, fun hv0 hv1 => ?_⟩
  have hb : Between o e (s.evaluate co si v) := by
    rw [between_iff _ _ _ (sub_ne o e hne), h2]
    rw [← hn] at hv1
    exact ⟨div_nonneg hv0 hpos.le, (div_le_one hpos).mpr hv1⟩
  obtain ⟨b, hb1, -, hb3⟩ := C171_bounds_partial o e r [] o e r rfl hne hr
  refine ⟨hb, b, by rw [hp]; exact hb1, hb3.1 _ ⟨hb, ?_⟩⟩
  have : s.prim.implicit (s.evaluate co si v) = some 0 := h1
  rw [hp] at this
  exact this

/-- C173.  And conversely: every point of the zero set is evaluated at some parameters, at `v` in the interval when it
lies between the end planes. -/
theorem C173_covers (o e : P) (r : ℝ) (s : Surf) (h : Surf.init o e r = some s) (hr : 0 < r) (p : P)
    (hp0 : s.implicit p = some 0) :
    ∃ co si v, co ^ 2 + si ^ 2 = 1 ∧ s.evaluate co si v = p ∧ (Between o e p → 0 ≤ v ∧ v ≤ dist e o) := by
  obtain ⟨hne, hs, hrr, hp, hn, hd, hf, hpos⟩ := surf_init o e r s h
  have hd0 := sub_ne o e hne
  obtain ⟨h4, h5, h6⟩ := frame_v _ _ _ hf
  have hval : (Cyl.init o e r).implicit p = some 0 := by
    rw [← hp]
    exact hp0
  rw [cyl_implicit (Cyl.init o e r) p hd0] at hval
  have hdist : dist p (along o (sub e o) (footAt o (sub e o) p)) = r := by
    have := Option.some.inj hval
    have h2 : dist p (along o (sub e o) (footAt o (sub e o) p)) - r = 0 := this
    linarith
  set t := footAt o (sub e o) p with ht
  set w := sub p (along o (sub e o) t) with hw
  have hwd : dot w s.dHat = 0 := by
    have := foot_perp o (sub e o) p hd0
    rw [← ht, ← hw, hd] at this
    have e1 : dot w (smul s.dNorm s.dHat) = s.dNorm * dot w s.dHat := by
      unfold dot smul
      ring
    rw [e1] at this
    exact (mul_eq_zero.mp this).resolve_left hpos.ne'
  have hspan := frame_span _ _ _ w hf
  rw [hwd] at hspan
  have hww : dot w w = r ^ 2 := by
    rw [← norm_sq]
    show (norm w) ^ 2 = r ^ 2
    rw [show norm w = r from hdist]
  have hsq : dot w w = dot w s.uHat ^ 2 + dot w s.v ^ 2 := by
    have e1 : dot w w = dot w ⟨0 * s.dHat.x + dot w s.uHat * s.uHat.x + dot w s.v * s.v.x,
        0 * s.dHat.y + dot w s.uHat * s.uHat.y + dot w s.v * s.v.y,
        0 * s.dHat.z + dot w s.uHat * s.uHat.z + dot w s.v * s.v.z⟩ := by
      rw [← hspan]
    rw [e1]
    generalize hA : dot w s.uHat = A
    generalize hB : dot w s.v = B
    unfold dot at hA hB ⊢
    dsimp only
    linear_combination A * hA + B * hB
  refine ⟨dot w s.uHat / r, dot w s.v / r, t * s.dNorm, ?_, ?_, ?_⟩
  · rw [div_pow, div_pow, ← add_div, ← hsq, hww, div_self (by positivity)]
  · have hx : (sub e o).x = s.dNorm * s.dHat.x := congrArg P.x hd
    have hy : (sub e o).y = s.dNorm * s.dHat.y := congrArg P.y hd
    have hz : (sub e o).z = s.dNorm * s.dHat.z := congrArg P.z hd
    have wx : p.x - (o.x + t * (sub e o).x) = 0 * s.dHat.x + dot w s.uHat * s.uHat.x + dot w s.v * s.v.x :=
      congrArg P.x hspan
    have wy : p.y - (o.y + t * (sub e o).y) = 0 * s.dHat.y + dot w s.uHat * s.uHat.y + dot w s.v * s.v.y :=
      congrArg P.y hspan
    have wz : p.z - (o.z + t * (sub e o).z) = 0 * s.dHat.z + dot w s.uHat * s.uHat.z + dot w s.v * s.v.z :=
      congrArg P.z hspan
    rw [hx] at wx
    rw [hy] at wy
    rw [hz] at wz
    have hA := mul_div_cancel₀ (dot w s.uHat) hr.ne'
    have hB := mul_div_cancel₀ (dot w s.v) hr.ne'
    have hA : r * (dot w s.uHat / r) = dot w s.uHat := by field_simp
    have hB : r * (dot w s.v / r) = dot w s.v := by field_simp
    unfold Surf.evaluate
    rw [hs, hrr]
    ext <;> dsimp only
    · linear_combination s.uHat.x * hA + s.v.x * hB - wx
    · linear_combination s.uHat.y * hA + s.v.y * hB - wy
    · linear_combination s.uHat.z * hA + s.v.z * hB - wz
  · intro hb
    have := (between_iff o e p hd0).mp hb
    rw [← ht] at this
    rw [← hn]
    exact ⟨mul_nonneg this.1 hpos.le, by nlinarith [this.2]⟩

/-- C174, refuted in part.  The constructor gives NaN for equal ends, and for every axis that points exactly against
the first coordinate axis; for all other ends it gives numbers. -/
theorem C174_nan (o e : P) (r : ℝ) :
    Surf.init o e r = none ↔ o = e ∨ (e.x < o.x ∧ e.y = o.y ∧ e.z = o.z) := by
  by_cases hne : o = e
  · subst hne
    have : div (sub o o) (norm (sub o o)) = none := by
      rw [div_norm_none]
      unfold sub
      simp
    refine ⟨fun _ => Or.inl rfl, fun _ => ?_⟩
    unfold Surf.init
    dsimp only
    rw [this]
    rfl
  · rcases h1 : div (sub e o) (norm (sub e o)) with _ | dh
    · rw [div_norm_none] at h1
      exact absurd h1 (sub_ne o e hne)
    · obtain ⟨a1, a2, a3⟩ := div_norm _ _ h1
      have hpos : 0 < norm (sub e o) := lt_of_le_of_ne (norm_nonneg _) (Ne.symm a1)
      have hx : e.x - o.x = norm (sub e o) * dh.x := congrArg P.x a3
      have hy : e.y - o.y = norm (sub e o) * dh.y := congrArg P.y a3
      have hz : e.z - o.z = norm (sub e o) * dh.z := congrArg P.z a3
      have hdh : dot dh dh = 1 := by
        rw [← norm_sq, a2]
        norm_num
      have hinit : Surf.init o e r = none ↔
          div (cross dh (open Classical in if closeToX dh then ⟨0, 1, 0⟩ else ⟨1, 0, 0⟩))
            (norm (cross dh (open Classical in if closeToX dh then ⟨0, 1, 0⟩ else ⟨1, 0, 0⟩))) = none := by
        unfold Surf.init
        dsimp only
        rw [h1]
        simp only [Option.bind_eq_bind, Option.bind_some]
        generalize div _ _ = q
        rcases q with _ | q <;> simp
      rw [hinit, div_norm_none]
      by_cases hcl : closeToX dh
      · rw [if_pos hcl]
        obtain ⟨c1, c2, c3⟩ := hcl
        have hpx : 0 < dh.x := by
          have := (abs_le.mp c1).1
          norm_num at this
          linarith
        constructor
        · intro h
          have : dh.x * 1 - dh.y * 0 = 0 := congrArg P.z h
          linarith
        · rintro (h | ⟨h, -⟩)
          · exact absurd h hne
          · have := mul_pos hpos hpx
            linarith
      · rw [if_neg hcl]
        constructor
        · intro h
          right
          have h2 : dh.z * 1 - dh.x * 0 = 0 := congrArg P.y h
          have h3 : dh.x * 0 - dh.y * 1 = 0 := congrArg P.z h
          have hy0 : dh.y = 0 := by linarith
          have hz0 : dh.z = 0 := by linarith
          unfold dot at hdh
          rw [hy0, hz0] at hdh
          rw [hy0] at hy
          rw [hz0] at hz
          have hx1 : (dh.x - 1) * (dh.x + 1) = 0 := by linarith
          have hx2 : dh.x = -1 := by
            rcases mul_eq_zero.mp hx1 with h4 | h4
            · refine absurd ?_ hcl
              unfold closeToX
              rw [h4, hy0, hz0]
              norm_num
            · linarith
          refine ⟨?_, by linarith, by linarith⟩
          rw [hx2] at hx
          linarith
        · rintro (h | ⟨h, h2, h3⟩)
          · exact absurd h hne
          · have hy0 : dh.y = 0 := by
              rw [h2, sub_self] at hy
              exact (mul_eq_zero.mp hy.symm).resolve_left hpos.ne'
            have hz0 : dh.z = 0 := by
              rw [h3, sub_self] at hz
              exact (mul_eq_zero.mp hz.symm).resolve_left hpos.ne'
            unfold cross
            rw [hy0, hz0]
            ext <;> dsimp only <;> ring

/-- C174, refuted.  A cylinder from any point against the first axis has no numbers. -/
theorem C174_against_x_refuted (o : P) (L r : ℝ) (hL : 0 < L) : Surf.init o ⟨o.x - L, o.y, o.z⟩ r = none := by
  rw [C174_nan]
  right
  exact ⟨by dsimp only; linarith, rfl, rfl⟩

/-- C174, refuted.  `radius` of the surface can be assigned, and then every point of the surface is off the zero set of
its own implicit function, by the change of radius. -/
theorem C174_radius_refuted (o e : P) (r r' : ℝ) (s : Surf) (h : Surf.init o e r = some s) (hr : 0 ≤ r') (hne : r' ≠ r)
    (co si v : ℝ) (hc : co ^ 2 + si ^ 2 = 1) :
    ∃ d, (s.setRadius r').implicit ((s.setRadius r').evaluate co si v) = some d ∧ d = r' - r ∧ d ≠ 0 := by
  have := (surf_value o e r r' s h co si v hc).1
  rw [abs_of_nonneg hr] at this
  exact ⟨_, this, rfl, sub_ne_zero.mpr hne⟩

/-- A slanted cylinder is built. -/
example : ∃ s, Surf.init ⟨0, 0, 0⟩ ⟨1, 2, 2⟩ 1 = some s := by
  rcases h : Surf.init ⟨0, 0, 0⟩ ⟨1, 2, 2⟩ 1 with _ | s
  · rw [C174_nan] at h
    rcases h with h | ⟨h, -⟩
    · have := congrArg P.x h
      norm_num at this
    · norm_num at h
  · exact ⟨s, rfl⟩

theorem gradient_eq (f : P → ℝ) (p g : P)
    (h : (⟨(f ⟨p.x + 1e-3, p.y, p.z⟩ - f ⟨p.x - 1e-3, p.y, p.z⟩) / 2 / 1e-3,
        (f ⟨p.x, p.y + 1e-3, p.z⟩ - f ⟨p.x, p.y - 1e-3, p.z⟩) / 2 / 1e-3,
        (f ⟨p.x, p.y, p.z + 1e-3⟩ - f ⟨p.x, p.y, p.z - 1e-3⟩) / 2 / 1e-3⟩ : P) = g) :
    gradient f p = if norm g > 0 then ⟨g.x / norm g, g.y / norm g, g.z / norm g⟩ else g := by
  subst h
  rfl

/-- C175.  The gradient of the base class has length 1 or is the zero vector, and for an affine function it is the
unit normal. -/
theorem C175_base_gradient (f : P → ℝ) (p : P) :
    (norm (gradient f p) = 1 ∨ gradient f p = ⟨0, 0, 0⟩) ∧
    (∀ (n : P) (c : ℝ), (∀ q, f q = dot n q + c) → n ≠ ⟨0, 0, 0⟩ → gradient f p = smul (1 / norm n) n) := by
  have gen : ∀ g : P, norm g > 0 → norm ⟨g.x / norm g, g.y / norm g, g.z / norm g⟩ = 1 := by
    intro g hg
    have : (⟨g.x / norm g, g.y / norm g, g.z / norm g⟩ : P) = smul (1 / norm g) g := by
      unfold smul
      ext <;> dsimp only <;> ring
    rw [this, norm_smul, abs_of_nonneg (by positivity), one_div, inv_mul_cancel₀ hg.ne']
  constructor
  · unfold gradient
    dsimp only
    split_ifs with h
    · exact Or.inl (gen _ h)
    · right
      refine (norm_zero_iff _).mp (le_antisymm ?_ (norm_nonneg _))
      exact not_lt.mp h
  · intro n c hf hn
    have hg : (⟨(f ⟨p.x + 1e-3, p.y, p.z⟩ - f ⟨p.x - 1e-3, p.y, p.z⟩) / 2 / 1e-3,
        (f ⟨p.x, p.y + 1e-3, p.z⟩ - f ⟨p.x, p.y - 1e-3, p.z⟩) / 2 / 1e-3,
        (f ⟨p.x, p.y, p.z + 1e-3⟩ - f ⟨p.x, p.y, p.z - 1e-3⟩) / 2 / 1e-3⟩ : P) = n := by
      ext <;> dsimp only <;> rw [hf, hf] <;> unfold dot <;> dsimp only <;> norm_num <;> ring
    rw [gradient_eq f p n hg]
    have hpos : norm n > 0 := lt_of_le_of_ne (norm_nonneg _) (Ne.symm (fun h => hn ((norm_zero_iff n).mp h)))
    rw [if_pos hpos]
    unfold smul
    ext <;> dsimp only <;> ring

/-- A plane. -/
example : (⟨3, 0, 4⟩ : P) ≠ ⟨0, 0, 0⟩ := by simp

end Verif.Prim
