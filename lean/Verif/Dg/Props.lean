import Verif.Dg.Model
import Verif.Prim.Axis

set_option linter.unusedSectionVars false

/-!
# Curvature of curves
-/

namespace Verif.Dg

open Verif.Prim

theorem norm_ne_zero (d : P) (h : d ≠ ⟨0, 0, 0⟩) : norm d ≠ 0 := fun hc => h ((norm_zero_iff d).mp hc)

/-- The curvature vector in terms of products. -/
noncomputable def kvec (d1 d2 : P) : P :=
  smul (1 / dot d1 d1) (sub d2 (smul (dot d2 d1 / dot d1 d1) d1))

theorem dot_smul (a b : P) (t : ℝ) : dot a (smul t b) = t * dot a b := by
  unfold dot smul
  ring

theorem smul_dot (a b : P) (t : ℝ) : dot (smul t a) b = t * dot a b := by
  unfold dot smul
  ring

theorem curv_eq (d1 d2 : P) (h : d1 ≠ ⟨0, 0, 0⟩) :
    evaluateCurvature d1 d2 = ⟨smul (1 / norm d1) d1, kvec d1 d2, true⟩ := by
  have hn := norm_ne_zero d1 h
  unfold evaluateCurvature kvec
  dsimp only
  rw [if_neg hn, dot_smul, ← norm_sq]
  congr 1
  generalize dot d2 d1 = s
  unfold add smul sub
  ext <;> dsimp only <;> field_simp <;> ring

theorem kvec_perp (d1 d2 : P) (h : d1 ≠ ⟨0, 0, 0⟩) : dot (kvec d1 d2) d1 = 0 := by
  have hN := (dot_pos d1 h).ne'
  unfold kvec
  rw [smul_dot]
  have : dot (sub d2 (smul (dot d2 d1 / dot d1 d1) d1)) d1 = dot d2 d1 - dot d2 d1 / dot d1 d1 * dot d1 d1 := by
    generalize dot d2 d1 / dot d1 d1 = t
    unfold dot sub smul
    ring
  rw [this, div_mul_cancel₀ _ hN, sub_self, mul_zero]

/-- C176.  At a regular point the tangent is the unit vector of the first derivative, the curvature vector is
perpendicular to it, and the second derivative is the curvature vector times the squared speed plus a multiple of the
tangent.  These conditions leave no other vector. -/
theorem C176_curvature (d1 d2 : P) (h : d1 ≠ ⟨0, 0, 0⟩) :
    let c := evaluateCurvature d1 d2
    c.ok = true ∧ norm c.tangent = 1 ∧ smul (norm d1) c.tangent = d1 ∧ dot c.curvature c.tangent = 0 ∧
    (∃ s, d2 = add (smul (norm d1 ^ 2) c.curvature) (smul s c.tangent)) ∧
    ∀ k s, dot k c.tangent = 0 → d2 = add (smul (norm d1 ^ 2) k) (smul s c.tangent) → k = c.curvature := by
  have hn := norm_ne_zero d1 h
  have hN := (dot_pos d1 h).ne'
  rw [curv_eq d1 d2 h]
  dsimp only
  have ht : norm (smul (1 / norm d1) d1) = 1 := by
    rw [Prim.norm_smul, abs_of_nonneg (div_nonneg zero_le_one (norm_nonneg _)), one_div, inv_mul_cancel₀ hn]
  have hsm : smul (norm d1) (smul (1 / norm d1) d1) = d1 := by
    unfold smul
    ext <;> dsimp only <;> field_simp
  have hp : dot (kvec d1 d2) (smul (1 / norm d1) d1) = 0 := by
    rw [dot_smul, kvec_perp d1 d2 h, mul_zero]
  have hex : d2 = add (smul (norm d1 ^ 2) (kvec d1 d2)) (smul (dot d2 d1 / norm d1) (smul (1 / norm d1) d1)) := by
    unfold kvec
    rw [← norm_sq]
    generalize dot d2 d1 = s
    unfold add smul sub
    ext <;> dsimp only <;> field_simp <;> ring
  refine ⟨rfl, ht, hsm, hp, ⟨_, hex⟩, fun k s hk hd => ?_⟩
  generalize smul (1 / norm d1) d1 = t at ht hp hex hk hd
  have htt : dot t t = 1 := by
    rw [← norm_sq, ht]
    norm_num
  have h1 : dot d2 t = s := by
    have : dot (add (smul (norm d1 ^ 2) k) (smul s t)) t = norm d1 ^ 2 * dot k t + s * dot t t := by
      unfold dot add smul
      ring
    rw [← hd, hk, htt] at this
    linarith
  have h2 : dot d2 t = dot d2 d1 / norm d1 := by
    have : dot (add (smul (norm d1 ^ 2) (kvec d1 d2)) (smul (dot d2 d1 / norm d1) t)) t
        = norm d1 ^ 2 * dot (kvec d1 d2) t + dot d2 d1 / norm d1 * dot t t := by
      generalize kvec d1 d2 = w
      generalize dot d2 d1 / norm d1 = r
      unfold dot add smul
      ring
    rw [← hex, hp, htt] at this
    linarith
  rw [← h2, h1] at hex
  rw [hex] at hd
  have hq : norm d1 ^ 2 ≠ 0 := pow_ne_zero 2 hn
  have e1 := congrArg P.x hd
  have e2 := congrArg P.y hd
  have e3 := congrArg P.z hd
  unfold add smul at e1 e2 e3
  dsimp only at e1 e2 e3
  ext
  · exact mul_left_cancel₀ hq (by linarith)
  · exact mul_left_cancel₀ hq (by linarith)
  · exact mul_left_cancel₀ hq (by linarith)

theorem kvec_reparam (d1 d2 : P) (h : d1 ≠ ⟨0, 0, 0⟩) (c e : ℝ) (hc : c ≠ 0) :
    kvec (smul c d1) (add (smul (c ^ 2) d2) (smul e d1)) = kvec d1 d2 := by
  have hN := (dot_pos d1 h).ne'
  have e1 : dot (smul c d1) (smul c d1) = c ^ 2 * dot d1 d1 := by
    unfold dot smul
    ring
  have e2 : dot (add (smul (c ^ 2) d2) (smul e d1)) (smul c d1) = c ^ 3 * dot d2 d1 + c * e * dot d1 d1 := by
    unfold dot smul add
    ring
  unfold kvec
  rw [e1, e2]
  generalize dot d1 d1 = n at hN
  generalize dot d2 d1 = s
  unfold smul sub add
  ext <;> dsimp only <;> field_simp <;> ring

theorem smul_ne (c : ℝ) (d : P) (hc : c ≠ 0) (h : d ≠ ⟨0, 0, 0⟩) : smul c d ≠ ⟨0, 0, 0⟩ := by
  intro hz
  have := (norm_zero_iff _).mpr hz
  rw [Prim.norm_smul] at this
  rcases mul_eq_zero.mp this with h1 | h1
  · exact hc (abs_eq_zero.mp h1)
  · exact h ((norm_zero_iff _).mp h1)

/-- C176.  The curvature vector does not depend on how the curve is run through: when the parameter is a function of
another one, with derivative `c` and second derivative `e`, the curvature vector stays the same, and the tangent keeps
or changes its sign with `c`. -/
theorem C176_parameter (d1 d2 : P) (h : d1 ≠ ⟨0, 0, 0⟩) (c e : ℝ) (hc : c ≠ 0) :
    let k := evaluateCurvature d1 d2
    let k' := evaluateCurvature (smul c d1) (add (smul (c ^ 2) d2) (smul e d1))
    k'.curvature = k.curvature ∧ (0 < c → k'.tangent = k.tangent) ∧ (c < 0 → k'.tangent = smul (-1) k.tangent) := by
  have hn := norm_ne_zero d1 h
  rw [curv_eq d1 d2 h, curv_eq _ _ (smul_ne c d1 hc h)]
  dsimp only
  refine ⟨kvec_reparam d1 d2 h c e hc, fun h0 => ?_, fun h0 => ?_⟩
  · rw [Prim.norm_smul, abs_of_pos h0]
    unfold smul
    ext <;> dsimp only <;> field_simp
  · rw [Prim.norm_smul, abs_of_neg h0]
    unfold smul
    ext <;> dsimp only <;> field_simp

/-- C177.  For any regular motion along a circle, the circle of curvature is that circle. -/
theorem C177_circle (m u v : P) (hu : dot u u = 1) (hv : dot v v = 1) (huv : dot u v = 0) (R : ℝ) (hR : 0 < R)
    (co si : ℝ) (hcs : co ^ 2 + si ^ 2 = 1) (w a : ℝ) (hw : w ≠ 0) :
    let radial := add (smul co u) (smul si v)
    let along := add (smul (-si) u) (smul co v)
    ∃ c, circleOfCurvature (add m (smul R radial)) (smul (w * R) along)
        (add (smul (-(w ^ 2 * R)) radial) (smul a along)) = some c ∧
      c.radius = R ∧ c.centre = m ∧ c.normal = smul (-1) radial ∧ dot c.binormal u = 0 ∧ dot c.binormal v = 0 := by
  intro radial along
  have haa : dot along along = 1 := by
    have : dot along along = si ^ 2 * dot u u - 2 * si * co * dot u v + co ^ 2 * dot v v := by
      show dot (add (smul (-si) u) (smul co v)) (add (smul (-si) u) (smul co v)) = _
      unfold dot add smul
      ring
    rw [this, hu, hv, huv]
    linarith
  have hrr : dot radial radial = 1 := by
    have : dot radial radial = co ^ 2 * dot u u + 2 * si * co * dot u v + si ^ 2 * dot v v := by
      show dot (add (smul co u) (smul si v)) (add (smul co u) (smul si v)) = _
      unfold dot add smul
      ring
    rw [this, hu, hv, huv]
    linarith
  have hra : dot radial along = 0 := by
    have : dot radial along = co * si * (dot v v - dot u u) + (co ^ 2 - si ^ 2) * dot u v := by
      show dot (add (smul co u) (smul si v)) (add (smul (-si) u) (smul co v)) = _
      unfold dot add smul
      ring
    rw [this, hu, hv, huv]
    ring
  have hne : along ≠ ⟨0, 0, 0⟩ := by
    intro hz
    rw [hz] at haa
    unfold dot at haa
    norm_num at haa
  have hwR : w * R ≠ 0 := mul_ne_zero hw hR.ne'
  have hk : kvec (smul (w * R) along) (add (smul (-(w ^ 2 * R)) radial) (smul a along)) = smul (-(1 / R)) radial := by
    unfold kvec
    have e1 : dot (smul (w * R) along) (smul (w * R) along) = (w * R) ^ 2 * dot along along := by
      generalize along = q
      unfold dot smul
      ring
    have e2 : dot (add (smul (-(w ^ 2 * R)) radial) (smul a along)) (smul (w * R) along)
        = w * R * (-(w ^ 2 * R) * dot radial along + a * dot along along) := by
      generalize along = q
      generalize radial = r
      unfold dot smul add
      ring
    rw [e1, e2, haa, hra]
    generalize along = q
    generalize radial = r
    have hR' := hR.ne'
    unfold smul sub add
    ext <;> dsimp only <;> field_simp <;> ring
  have hnk : norm (smul (-(1 / R)) radial) = 1 / R := by
    rw [Prim.norm_smul, abs_neg, abs_of_pos (by positivity), norm_eq, hrr, Real.sqrt_one, mul_one]
  have hR' := hR.ne'
  have hne1 : (1 / R) ≠ 0 := by positivity
  unfold circleOfCurvature
  rw [curv_eq _ _ (smul_ne _ _ hwR hne), hk]
  dsimp only
  rw [hnk, if_neg hne1]
  refine ⟨_, rfl, ?_, ?_, ?_, ?_, ?_⟩
  · dsimp only
    field_simp
  · dsimp only
    generalize radial = r
    unfold smul add
    ext <;> dsimp only <;> field_simp <;> ring
  · dsimp only
    generalize radial = r
    unfold smul
    ext <;> dsimp only <;> field_simp
  · dsimp only
    have : dot (cross (smul (1 / norm (smul (w * R) along)) (smul (w * R) along))
        (smul (1 / (1 / R)) (smul (-(1 / R)) radial))) u = 0 := by
      generalize 1 / norm (smul (w * R) along) = s
      show dot (cross (smul s (smul (w * R) (add (smul (-si) u) (smul co v))))
        (smul (1 / (1 / R)) (smul (-(1 / R)) (add (smul co u) (smul si v))))) u = 0
      unfold dot cross smul add
      ring
    exact this
  · dsimp only
    have : dot (cross (smul (1 / norm (smul (w * R) along)) (smul (w * R) along))
        (smul (1 / (1 / R)) (smul (-(1 / R)) radial))) v = 0 := by
      generalize 1 / norm (smul (w * R) along) = s
      show dot (cross (smul s (smul (w * R) (add (smul (-si) u) (smul co v))))
        (smul (1 / (1 / R)) (smul (-(1 / R)) (add (smul co u) (smul si v))))) v = 0
      unfold dot cross smul add
      ring
    exact this

/-- A circle of radius 2 in a slanted plane, at `(3/5, 4/5)`. -/
example : dot ⟨3 / 5, 4 / 5, 0⟩ ⟨3 / 5, 4 / 5, 0⟩ = 1 ∧ dot ⟨0, 0, 1⟩ ⟨0, 0, 1⟩ = 1 ∧
    dot ⟨3 / 5, 4 / 5, 0⟩ ⟨0, 0, 1⟩ = 0 ∧ (0 : ℝ) < 2 ∧ ((3 : ℝ) / 5) ^ 2 + (4 / 5) ^ 2 = 1 := by
  unfold dot
  norm_num

theorem cross_sq (a b : P) : dot (cross a b) (cross a b) = dot a a * dot b b - dot a b ^ 2 := by
  unfold dot cross
  ring

theorem kvec_norm (d1 d2 : P) (h : d1 ≠ ⟨0, 0, 0⟩) : norm (kvec d1 d2) = norm (cross d1 d2) / norm d1 ^ 3 := by
  have hn := norm_ne_zero d1 h
  have hN := (dot_pos d1 h).ne'
  refine norm_eq_of_sq _ _ (div_nonneg (norm_nonneg _) (pow_nonneg (norm_nonneg _) 3)) ?_
  have e1 : dot (kvec d1 d2) (kvec d1 d2) = (1 / dot d1 d1) ^ 2 *
      (dot d2 d2 - 2 * (dot d2 d1 / dot d1 d1) * dot d2 d1 + (dot d2 d1 / dot d1 d1) ^ 2 * dot d1 d1) := by
    unfold kvec
    generalize dot d2 d1 / dot d1 d1 = t
    generalize (1 / dot d1 d1) = r
    unfold dot smul sub
    ring
  rw [e1, div_pow (norm (cross d1 d2)), norm_sq, cross_sq, ← pow_mul, show 3 * 2 = 2 * 3 by norm_num, pow_mul, norm_sq, dot_comm d1 d2]
  generalize dot d1 d1 = n at hN
  field_simp
  ring

/-- C178.  The frame of Frenet is a right-handed frame of unit vectors whose first vector is the tangent and whose
second has the direction of the curvature vector; it is NaN exactly where the two derivatives are parallel. -/
theorem C178_frenet (d1 d2 : P) :
    (cross d1 d2 = ⟨0, 0, 0⟩ → frenet d1 d2 = none) ∧
    (cross d1 d2 ≠ ⟨0, 0, 0⟩ → ∃ t n b, frenet d1 d2 = some (t, n, b) ∧
      norm t = 1 ∧ norm n = 1 ∧ norm b = 1 ∧ dot t n = 0 ∧ dot t b = 0 ∧ dot n b = 0 ∧ b = cross t n ∧
      t = (evaluateCurvature d1 d2).tangent ∧
      smul (norm (evaluateCurvature d1 d2).curvature) n = (evaluateCurvature d1 d2).curvature) := by
  by_cases h : d1 = ⟨0, 0, 0⟩
  · subst h
    constructor
    · intro _
      unfold frenet
      dsimp only
      rw [if_pos ((norm_zero_iff _).mpr rfl)]
    · intro hc
      refine absurd ?_ hc
      unfold cross
      ext <;> dsimp only <;> ring
  · have hn := norm_ne_zero d1 h
    have hN := (dot_pos d1 h).ne'
    have e1 : smul (1 / norm d1) (sub d2 (smul (dot d2 (smul (1 / norm d1) d1)) (smul (1 / norm d1) d1)))
        = smul (norm d1) (kvec d1 d2) := by
      rw [dot_smul]
      unfold kvec
      rw [← norm_sq]
      generalize dot d2 d1 = s
      unfold smul sub
      ext <;> dsimp only <;> field_simp
    have e2 : norm (smul (norm d1) (kvec d1 d2)) = norm (cross d1 d2) / norm d1 ^ 2 := by
      rw [Prim.norm_smul, kvec_norm d1 d2 h, abs_of_nonneg (norm_nonneg _)]
      field_simp
    have hfr : frenet d1 d2 = if norm (cross d1 d2) / norm d1 ^ 2 = 0 then none else
        some (smul (1 / norm d1) d1, smul (1 / (norm (cross d1 d2) / norm d1 ^ 2)) (smul (norm d1) (kvec d1 d2)),
          cross (smul (1 / norm d1) d1) (smul (1 / (norm (cross d1 d2) / norm d1 ^ 2)) (smul (norm d1) (kvec d1 d2)))) := by
      unfold frenet
      dsimp only
      rw [if_neg hn, e1, e2]
    constructor
    · intro hc
      rw [hfr, if_pos (by rw [(norm_zero_iff _).mpr hc, zero_div])]
    · intro hc
      have hcn := norm_ne_zero _ hc
      have hq : norm (cross d1 d2) / norm d1 ^ 2 ≠ 0 := div_ne_zero hcn (pow_ne_zero 2 hn)
      rw [hfr, if_neg hq, curv_eq d1 d2 h]
      dsimp only
      have ht : norm (smul (1 / norm d1) d1) = 1 := by
        rw [Prim.norm_smul, abs_of_nonneg (div_nonneg zero_le_one (norm_nonneg _)), one_div, inv_mul_cancel₀ hn]
      have hnn : norm (smul (1 / (norm (cross d1 d2) / norm d1 ^ 2)) (smul (norm d1) (kvec d1 d2))) = 1 := by
        rw [Prim.norm_smul, e2, abs_of_nonneg
          (div_nonneg zero_le_one (div_nonneg (norm_nonneg _) (pow_nonneg (norm_nonneg _) 2))), one_div, inv_mul_cancel₀ hq]
      have htn : dot (smul (1 / norm d1) d1)
          (smul (1 / (norm (cross d1 d2) / norm d1 ^ 2)) (smul (norm d1) (kvec d1 d2))) = 0 := by
        rw [dot_smul, dot_smul, smul_dot, dot_comm, kvec_perp d1 d2 h]
        ring
      have hlast : smul (norm (kvec d1 d2))
          (smul (1 / (norm (cross d1 d2) / norm d1 ^ 2)) (smul (norm d1) (kvec d1 d2))) = kvec d1 d2 := by
        rw [kvec_norm d1 d2 h]
        generalize kvec d1 d2 = k
        unfold smul
        ext <;> dsimp only <;> field_simp
      generalize smul (1 / (norm (cross d1 d2) / norm d1 ^ 2)) (smul (norm d1) (kvec d1 d2)) = n at hnn htn hlast
      generalize smul (1 / norm d1) d1 = t at ht htn
      have htt : dot t t = 1 := by rw [← norm_sq, ht]; norm_num
      have hn1 : dot n n = 1 := by rw [← norm_sq, hnn]; norm_num
      refine ⟨t, n, _, rfl, ht, hnn, ?_, htn, ?_, ?_, rfl, rfl, hlast⟩
      · rw [norm_eq, cross_sq, htt, hn1, htn]
        norm_num
      · unfold dot cross
        ring
      · unfold dot cross
        ring

/-- Derivatives that are not parallel. -/
example : cross ⟨1, 0, 0⟩ ⟨5, 2, 0⟩ ≠ ⟨0, 0, 0⟩ := by
  intro h
  have := congrArg P.z h
  unfold cross at this
  norm_num at this

/-- C178.  The plane formula gives the length of the curvature vector. -/
theorem C178_plane_curvature (dx dy ddx ddy : ℝ) :
    ((dx, dy) ≠ (0, 0) → curvature2d dx dy ddx ddy = some (norm (evaluateCurvature ⟨dx, dy, 0⟩ ⟨ddx, ddy, 0⟩).curvature)) ∧
    curvature2d 0 0 ddx ddy = none := by
  constructor
  · intro h
    have h3 : (⟨dx, dy, 0⟩ : P) ≠ ⟨0, 0, 0⟩ := by
      intro hc
      injection hc with h1 h2 _
      exact h (by rw [h1, h2])
    have hs : dx ^ 2 + dy ^ 2 = norm (⟨dx, dy, 0⟩ : P) ^ 2 := by
      rw [norm_sq]
      unfold dot
      ring
    have hn := norm_ne_zero _ h3
    have hc : norm (cross ⟨dx, dy, 0⟩ ⟨ddx, ddy, 0⟩) = |dx * ddy - dy * ddx| := by
      refine norm_eq_of_sq _ _ (abs_nonneg _) ?_
      rw [sq_abs]
      unfold dot cross
      ring
    rw [curv_eq _ _ h3]
    dsimp only
    rw [kvec_norm _ _ h3, hc]
    unfold curvature2d
    dsimp only
    have hq : (dx ^ 2 + dy ^ 2) * √(dx ^ 2 + dy ^ 2) = norm (⟨dx, dy, 0⟩ : P) ^ 3 := by
      rw [hs, Real.sqrt_sq (norm_nonneg _)]
      ring
    rw [hq, if_neg (pow_ne_zero 3 hn)]
  · unfold curvature2d
    dsimp only
    rw [if_pos (by norm_num)]

/-- C179, refuted.  The compiled version does not write the curvature vector when the first derivative vanishes: it
keeps whatever the caller's array held, where the Python version gives zero. -/
theorem C179_stale_refuted (k0 d2 : P) (hk : k0 ≠ ⟨0, 0, 0⟩) :
    (cEvaluateCurvature k0 ⟨0, 0, 0⟩ d2).curvature = k0 ∧
    (cEvaluateCurvature k0 ⟨0, 0, 0⟩ d2).curvature ≠ (evaluateCurvature ⟨0, 0, 0⟩ d2).curvature := by
  unfold cEvaluateCurvature evaluateCurvature
  dsimp only
  rw [if_pos ((norm_zero_iff _).mpr rfl), if_pos ((norm_zero_iff _).mpr rfl)]
  exact ⟨rfl, hk⟩

/-- C179, what holds: everything else is the same, and for an array of zeros (as in `ccurvature`) all of it. -/
theorem C179_same_partial (k0 d1 d2 : P) :
    (cEvaluateCurvature k0 d1 d2).tangent = (evaluateCurvature d1 d2).tangent ∧
    (cEvaluateCurvature k0 d1 d2).ok = (evaluateCurvature d1 d2).ok ∧
    ((cEvaluateCurvature k0 d1 d2).ok = true ∨ k0 = ⟨0, 0, 0⟩ →
      (cEvaluateCurvature k0 d1 d2).curvature = (evaluateCurvature d1 d2).curvature) := by
  unfold cEvaluateCurvature evaluateCurvature
  dsimp only
  by_cases h : norm d1 = 0
  · rw [if_pos h, if_pos h]
    refine ⟨rfl, rfl, ?_⟩
    rintro (hc | hc)
    · exact absurd hc (by simp)
    · exact hc
  · rw [if_neg h, if_neg h]
    exact ⟨rfl, rfl, fun _ => rfl⟩

/-- C179.  `evaluate_tangent` gives a unit vector (flag true) or, only when the second derivative is zero and the
first is within the tolerance, the zero vector (flag false).  It agrees with `evaluate_curvature` unless the first
derivative is small but not zero. -/
theorem C179_tangent (tol : ℝ) (ht : 0 ≤ tol) (d1 d2 : P) :
    ((evaluateTangent tol d1 d2).2 = true ∧ norm (evaluateTangent tol d1 d2).1 = 1 ∨
      (evaluateTangent tol d1 d2).2 = false ∧ (evaluateTangent tol d1 d2).1 = ⟨0, 0, 0⟩ ∧ d2 = ⟨0, 0, 0⟩ ∧ norm d1 ≤ tol) ∧
    (d1 = ⟨0, 0, 0⟩ ∨ tol < norm d1 → (evaluateTangent tol d1 d2).1 = (evaluateCurvature d1 d2).tangent) := by
  have gen : ∀ d : P, 0 < norm d → norm (smul (1 / norm d) d) = 1 := by
    intro d hd
    rw [Prim.norm_smul, abs_of_nonneg (by positivity), one_div, inv_mul_cancel₀ hd.ne']
  constructor
  · unfold evaluateTangent
    split_ifs with h1 h2
    · exact Or.inl ⟨rfl, gen d2 h2⟩
    · refine Or.inr ⟨rfl, rfl, ?_, h1⟩
      exact (norm_zero_iff d2).mp (le_antisymm (not_lt.mp h2) (norm_nonneg _))
    · have : 0 < norm d1 := lt_of_le_of_lt ht (not_le.mp h1)
      exact Or.inl ⟨by simpa using this.ne', gen d1 this⟩
  · rintro (rfl | h)
    · have h0 : norm (⟨0, 0, 0⟩ : P) = 0 := (norm_zero_iff _).mpr rfl
      unfold evaluateTangent evaluateCurvature
      dsimp only
      rw [h0, if_pos ht, if_pos rfl]
      dsimp only
      split_ifs <;> rfl
    · have hn : norm d1 ≠ 0 := (lt_of_le_of_lt ht h).ne'
      unfold evaluateTangent evaluateCurvature
      dsimp only
      rw [if_neg (not_le.mpr h), if_neg hn]

/-- A curve that stops: the second derivative gives the tangent. -/
example : (⟨0, 0, 0⟩ : P) = ⟨0, 0, 0⟩ ∨ (1e-8 : ℝ) < norm (⟨0, 0, 0⟩ : P) := Or.inl rfl

end Verif.Dg
