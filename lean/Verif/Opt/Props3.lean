import Verif.Opt.Model2
import Verif.Opt.Props2
import Verif.Pinv.Props

set_option linter.unusedSectionVars false

/-! # Tangents of intersections of surfaces along the curve (C478) -/

namespace Verif.Opt

open Verif.Vec V3

variable {K : Type} [Field K] [LinearOrder K] [IsStrictOrderedRing K]

/-- **C478, the tangent of a step**: a unit vector perpendicular to the normals of both surfaces at the new parameters; the derivatives returned are those at the new parameters. -/
theorem C478_tangent {nrm : V3 K → K} (hn : ∀ v, nrm v * nrm v = dot v v) (s1 s2 : DSurf K) (prev : V3 K) (u1 u2 : K × K)
    (du1 dv1 du2 dv2 : V3 K) (l : Local K) (h : sectionalTangentLocal nrm s1 s2 prev u1 u2 du1 dv1 du2 dv2 = some l) :
    l.du1 = s1.du l.uv1 ∧ l.dv1 = s1.dv l.uv1 ∧ l.du2 = s2.du l.uv2 ∧ l.dv2 = s2.dv l.uv2 ∧
    dot l.T (cross l.du1 l.dv1) = 0 ∧ dot l.T (cross l.du2 l.dv2) = 0 ∧ dot l.T l.T = 1 := by
  unfold sectionalTangentLocal at h
  dsimp only at h
  obtain ⟨T, hT, rfl⟩ := Option.map_eq_some_iff.1 h
  obtain ⟨h1, h2, h3⟩ := (C323_tangent hn _ _).2 T hT
  exact ⟨rfl, rfl, rfl, rfl, h1, h2, h3⟩

/-- A plane with its derivatives. -/
def planeS (o a b : V3 K) : DSurf K := ⟨fun uv => add o (add (smul uv.1 a) (smul uv.2 b)), fun _ => a, fun _ => b⟩

/-- **C478, planes.** Where the systems chosen are regular, a step along a vector in both planes moves the points of both planes by that vector: points that
were the same stay the same.  Missing: the systems may be singular, refuted below. -/
theorem C478_planes_partial {nrm : V3 K → K} (hn : ∀ v, nrm v * nrm v = dot v v) (o1 a1 b1 o2 a2 b2 prev : V3 K) (u1 u2 : K × K)
    (x1 y1 x2 y2 : K) (e1 : prev = add (smul x1 a1) (smul y1 b1)) (e2 : prev = add (smul x2 a2) (smul y2 b2))
    (r1 : (chosen a1 b1 prev).a * (chosen a1 b1 prev).d - (chosen a1 b1 prev).b * (chosen a1 b1 prev).c ≠ 0)
    (r2 : (chosen a2 b2 prev).a * (chosen a2 b2 prev).d - (chosen a2 b2 prev).b * (chosen a2 b2 prev).c ≠ 0)
    (hx : cross (cross a1 b1) (cross a2 b2) ≠ zero) :
    ∃ l, sectionalTangentLocal nrm (planeS o1 a1 b1) (planeS o2 a2 b2) prev u1 u2 a1 b1 a2 b2 = some l ∧
      (planeS o1 a1 b1).ev l.uv1 = add ((planeS o1 a1 b1).ev u1) prev ∧ (planeS o2 a2 b2).ev l.uv2 = add ((planeS o2 a2 b2).ev u2) prev := by
  have i1 : improveUV a1 b1 prev = (x1, y1) := by
    rw [e1] at r1 ⊢; exact C322_exact_partial a1 b1 x1 y1 r1
  have i2 : improveUV a2 b2 prev = (x2, y2) := by
    rw [e2] at r2 ⊢; exact C322_exact_partial a2 b2 x2 y2 r2
  cases hT : sectionalTangent nrm (cross a1 b1) (cross a2 b2) with
  | none => exact absurd ((C323_tangent hn _ _).1.1 hT) hx
  | some T =>
    unfold sectionalTangentLocal
    refine ⟨_, by dsimp only [planeS]; rw [hT]; rfl, ?_, ?_⟩
    · dsimp only [planeS]
      rw [i1]
      rw [e1]
      ext <;> simp only [add, smul] <;> ring
    · dsimp only [planeS]
      rw [i2]
      rw [e2]
      ext <;> simp only [add, smul] <;> ring

/-- **C478, planes, refuted.** On a horizontal plane whose parameters run along the axes the parameters never change, whatever the other surface and the
step: the point stays where it is. -/
theorem C478_still_refuted (nrm : V3 K → K) (o : V3 K) (a b : K) (ha : 0 < a) (hb : 0 < b) (s2 : DSurf K) (prev : V3 K) (u1 u2 : K × K)
    (du2 dv2 : V3 K) (l : Local K)
    (h : sectionalTangentLocal nrm (planeS o ⟨a, 0, 0⟩ ⟨0, b, 0⟩) s2 prev u1 u2 ⟨a, 0, 0⟩ ⟨0, b, 0⟩ du2 dv2 = some l) : l.uv1 = u1 := by
  unfold sectionalTangentLocal at h
  dsimp only at h
  obtain ⟨T, _, rfl⟩ := Option.map_eq_some_iff.1 h
  dsimp only
  rw [C322_plane_refuted a b ha hb]
  simp

theorem nrm_smul {nrm : V3 K → K} (hn : Pinv.Nrm nrm) (c : K) (v : V3 K) (hv : dot v v = 1) : nrm (smul c v) = |c| := by
  have h : nrm (smul c v) ^ 2 = |c| ^ 2 := by
    rw [hn.sq, sq_abs]
    have : dot (smul c v) (smul c v) = c ^ 2 * dot v v := by simp only [dot, smul]; ring
    rw [this, hv, mul_one]
  have h0 := hn.nonneg (smul c v)
  nlinarith [abs_nonneg c, sq_nonneg (nrm (smul c v) - |c|), sq_nonneg (nrm (smul c v) + |c|)]

/-- **C478, the difference**: for a step above zero the second result is the central difference of the tangent along the tangent; a step of the other sign
gives the opposite vector. -/
theorem C478_difference {nrm : V3 K → K} (hn : Pinv.Nrm nrm) (tang : K → V3 K → Option (V3 K)) (tol0 tol eps : K) (he : 0 < eps) (p T a b : V3 K)
    (hT : tang tol p = some T) (h1 : dot T T = 1) (ha : tang tol0 (add p (smul eps T)) = some a) (hb : tang tol0 (sub p (smul eps T)) = some b) :
    sectionalDer nrm tang tol0 tol eps p = some (T, smul (1 / (2 * eps)) (sub a b)) ∧
    sectionalDer nrm tang tol0 tol (-eps) p = some (T, smul (-(1 / (2 * eps))) (sub a b)) := by
  have hs : nrm (smul eps T) = eps := by rw [nrm_smul hn _ _ h1, abs_of_pos he]
  have hs' : nrm (smul (-eps) T) = eps := by rw [nrm_smul hn _ _ h1, abs_neg, abs_of_pos he]
  have e1 : add p (smul (-eps) T) = sub p (smul eps T) := by ext <;> simp only [add, sub, smul] <;> ring
  have e2 : sub p (smul (-eps) T) = add p (smul eps T) := by ext <;> simp only [add, sub, smul] <;> ring
  constructor
  · simp only [sectionalDer, hT, Option.bind_eq_bind, Option.bind_some, ha, hb, hs, he.ne', if_false]
    rfl
  · simp only [sectionalDer, hT, Option.bind_eq_bind, Option.bind_some, e1, e2, ha, hb, hs', he.ne', if_false]
    congr 2
    ext <;> simp only [sub, smul] <;> ring

/-- **C478, straight intersections**: where the tangent is the same everywhere the curvature is zero. -/
theorem C478_straight {nrm : V3 K → K} (hn : Pinv.Nrm nrm) (T : V3 K) (h1 : dot T T = 1) (tol0 tol eps : K) (he : eps ≠ 0) (p : V3 K) :
    sectionalDer nrm (fun _ _ => some T) tol0 tol eps p = some (T, zero) := by
  have hs : nrm (smul eps T) ≠ 0 := by rw [nrm_smul hn _ _ h1]; exact abs_ne_zero.2 he
  simp only [sectionalDer, Option.bind_eq_bind, Option.bind_some, hs, if_false]
  have : smul (1 / (2 * nrm (smul eps T))) (sub T T) = zero := by ext <;> simp [sub, smul, zero]
  rw [this]; rfl

/-- The tangent of the circle in which the cylinder about the third axis meets a horizontal plane, from the normals at the nearest points. -/
def circleTang (nrm : V3 K → K) (_ : K) (p : V3 K) : Option (V3 K) :=
  sectionalTangent nrm (smul (1 / nrm ⟨p.x, p.y, 0⟩) ⟨p.x, p.y, 0⟩) ⟨0, 0, 1⟩

theorem circleTang_eq {nrm : V3 K → K} (hn : Pinv.Nrm nrm) (t : K) (p : V3 K) (ρ : K) (h0 : 0 < ρ) (h : p.x ^ 2 + p.y ^ 2 = ρ ^ 2) :
    circleTang nrm t p = some ⟨p.y / ρ, -(p.x / ρ), 0⟩ := by
  have hr : nrm ⟨p.x, p.y, 0⟩ = ρ := by
    have h1 := hn.sq ⟨p.x, p.y, 0⟩
    have h2 := hn.nonneg ⟨p.x, p.y, 0⟩
    simp only [dot] at h1
    have h3 : nrm ⟨p.x, p.y, 0⟩ ^ 2 = ρ ^ 2 := by rw [h1, ← h]; ring
    exact (pow_left_inj₀ h2 h0.le two_ne_zero).1 h3
  have hc : cross (smul (1 / ρ) ⟨p.x, p.y, 0⟩) (⟨0, 0, 1⟩ : V3 K) = ⟨p.y / ρ, -(p.x / ρ), 0⟩ := by
    ext <;> simp [cross, smul] <;> ring
  have h1 : nrm ⟨p.y / ρ, -(p.x / ρ), 0⟩ = 1 := by
    have h1 := hn.sq ⟨p.y / ρ, -(p.x / ρ), 0⟩
    have h2 := hn.nonneg ⟨p.y / ρ, -(p.x / ρ), 0⟩
    have h3 : dot (⟨p.y / ρ, -(p.x / ρ), 0⟩ : V3 K) ⟨p.y / ρ, -(p.x / ρ), 0⟩ = 1 := by
      simp only [dot]
      field_simp
      linear_combination h
    rw [h3] at h1
    exact (pow_left_inj₀ h2 zero_le_one two_ne_zero).1 (by rw [h1, one_pow])
  unfold circleTang sectionalTangent
  rw [hr, hc]
  simp only [h1, one_ne_zero, if_false]
  congr 1
  ext <;> simp [smul]

/-- **C478, circles.** On a circle of radius `R` the vector returned points from the point to the centre; its length is `1 / sqrt (R² + eps²)`, less than the
curvature `1 / R`. -/
theorem C478_circle {nrm : V3 K → K} (hn : Pinv.Nrm nrm) (tol0 tol eps R : K) (he : 0 < eps) (hR : 0 < R) (p : V3 K) (hp : p.x ^ 2 + p.y ^ 2 = R ^ 2) :
    ∃ T k c, sectionalDer nrm (circleTang nrm) tol0 tol eps p = some (T, k) ∧ 0 < c ∧ k = smul (-c) ⟨p.x, p.y, 0⟩ ∧
      dot k k * (R ^ 2 + eps ^ 2) = 1 ∧ dot k k < (1 / R) ^ 2 := by
  have hρ := hn.sq ⟨R, eps, 0⟩
  have hρ0 := hn.nonneg ⟨R, eps, 0⟩
  generalize nrm ⟨R, eps, 0⟩ = ρ at hρ hρ0
  have hρ2 : ρ ^ 2 = R ^ 2 + eps ^ 2 := by rw [hρ]; simp only [dot]; ring
  have hpos : 0 < ρ := by
    refine lt_of_le_of_ne hρ0 fun h => ?_
    rw [← h] at hρ2
    have := pow_pos hR 2
    have := pow_pos he 2
    have h2 : (0 : K) ^ 2 = 0 := by ring
    linarith
  have hT := circleTang_eq hn tol p R hR hp
  set T : V3 K := ⟨p.y / R, -(p.x / R), 0⟩ with hTd
  have h1 : dot T T = 1 := by
    rw [hTd]; simp only [dot]; field_simp; linear_combination hp
  have hR' := hR.ne'
  have ha := circleTang_eq hn tol0 (add p (smul eps T)) ρ hpos (by
    rw [hρ2, hTd]; simp only [add, smul]; field_simp; linear_combination (R ^ 2 + eps ^ 2) * hp)
  have hb := circleTang_eq hn tol0 (sub p (smul eps T)) ρ hpos (by
    rw [hρ2, hTd]; simp only [sub, smul]; field_simp; linear_combination (R ^ 2 + eps ^ 2) * hp)
  obtain ⟨hd, _⟩ := C478_difference hn (circleTang nrm) tol0 tol eps he p T _ _ hT h1 ha hb
  have hk : smul (1 / (2 * eps)) (sub (⟨(add p (smul eps T)).y / ρ, -((add p (smul eps T)).x / ρ), 0⟩ : V3 K)
      ⟨(sub p (smul eps T)).y / ρ, -((sub p (smul eps T)).x / ρ), 0⟩) = smul (-(1 / (R * ρ))) ⟨p.x, p.y, 0⟩ := by
    have he' := he.ne'
    have hp' := hpos.ne'
    rw [hTd]
    ext
    · simp only [smul, sub, add]; field_simp; ring
    · simp only [smul, sub, add]; field_simp; ring
    · simp only [smul, sub, add]; ring
  have hkk : dot (smul (-(1 / (R * ρ))) (⟨p.x, p.y, 0⟩ : V3 K)) (smul (-(1 / (R * ρ))) ⟨p.x, p.y, 0⟩) = 1 / ρ ^ 2 := by
    have hp' := hpos.ne'
    simp only [dot, smul]
    field_simp
    linear_combination hp
  refine ⟨T, _, 1 / (R * ρ), hd, by positivity, hk, ?_, ?_⟩
  · rw [hk, hkk, ← hρ2]
    exact one_div_mul_cancel (pow_pos hpos 2).ne'
  · rw [hk, hkk, one_div_pow]
    exact one_div_lt_one_div_of_lt (pow_pos hR 2) (by rw [hρ2]; have := pow_pos he 2; linarith)

/-- Two upright planes with regular systems; the points go along the line of intersection. -/
example : (chosen (⟨0, 1, 0⟩ : V3 ℚ) ⟨3, 0, 1⟩ ⟨3, 0, 1⟩).a * (chosen (⟨0, 1, 0⟩ : V3 ℚ) ⟨3, 0, 1⟩ ⟨3, 0, 1⟩).d -
    (chosen (⟨0, 1, 0⟩ : V3 ℚ) ⟨3, 0, 1⟩ ⟨3, 0, 1⟩).b * (chosen (⟨0, 1, 0⟩ : V3 ℚ) ⟨3, 0, 1⟩ ⟨3, 0, 1⟩).c ≠ 0 ∧
    improveUV (⟨0, 1, 0⟩ : V3 ℚ) ⟨3, 0, 1⟩ ⟨3, 0, 1⟩ = (0, 1) ∧ cross (cross (⟨0, 1, 0⟩ : V3 ℚ) ⟨3, 0, 1⟩) (cross ⟨0, 1, 1⟩ ⟨3, 0, 1⟩) ≠ zero := by
  decide +kernel

/-- The norm is the real one. -/
example : Pinv.Nrm (fun v : V3 ℝ => Real.sqrt (dot v v)) := Pinv.nrm_real

/-- A circle of radius five through `(3, 4)`. -/
example : (3 : ℝ) ^ 2 + 4 ^ 2 = 5 ^ 2 := by norm_num

end Verif.Opt
