import Verif.Vec.Props2
import Mathlib.Analysis.SpecialFunctions.Sqrt
import Mathlib.Tactic.LinearCombination

/-! # Frames, plane equations, distances and the parallel triangle test -/

set_option linter.unusedSectionVars false

namespace Verif.Vec

open V3

variable {K : Type} [Field K] [LinearOrder K] [IsStrictOrderedRing K]

/-- What is used of the length: not negative, and its square is the sum of squares. -/
structure NormSpec (nrm : V3 K → K) : Prop where
  nonneg : ∀ v, 0 ≤ nrm v
  sq : ∀ v, nrm v * nrm v = dot v v

/-- The square root of the sum of squares is such a length. -/
theorem normSpec_sqrt : NormSpec (fun v : V3 ℝ => Real.sqrt (v.x * v.x + v.y * v.y + v.z * v.z)) where
  nonneg v := Real.sqrt_nonneg _
  sq v := by
    rw [Real.mul_self_sqrt]
    · rfl
    · nlinarith [mul_self_nonneg v.x, mul_self_nonneg v.y, mul_self_nonneg v.z]

theorem nrm_eq_zero {nrm : V3 K → K} (hn : NormSpec nrm) (v : V3 K) : nrm v = 0 ↔ v = zero := by
  rw [← dot_self_eq_zero, ← hn.sq]
  simp

theorem unit_none {nrm : V3 K → K} (hn : NormSpec nrm) (v : V3 K) : unit nrm v = none ↔ v = zero := by
  rw [← nrm_eq_zero hn]
  unfold unit
  by_cases h : nrm v = 0 <;> simp [h]

theorem unit_spec {nrm : V3 K → K} (hn : NormSpec nrm) (v u : V3 K) (h : unit nrm v = some u) :
    dot u u = 1 ∧ v = smul (nrm v) u ∧ 0 < nrm v := by
  unfold unit at h
  split_ifs at h with c
  cases h
  have hs := hn.sq v
  refine ⟨?_, ?_, lt_of_le_of_ne (hn.nonneg v) (Ne.symm c)⟩
  · have : dot v v / (nrm v * nrm v) = 1 := by rw [← hs]; exact div_self (mul_ne_zero c c)
    rw [← this]
    simp only [dot]
    field_simp
  · ext <;> simp only [smul] <;> field_simp

/-- Normalising: a unit vector in the same direction, and `none` only for the zero vector. -/
theorem C91_unit {nrm : V3 K → K} (hn : NormSpec nrm) (v : V3 K) :
    (unit nrm v = none ↔ v = zero) ∧
    ∀ u, unit nrm v = some u → dot u u = 1 ∧ ∃ t, 0 < t ∧ v = smul t u :=
  ⟨unit_none hn v, fun u h => ⟨(unit_spec hn v u h).1, _, (unit_spec hn v u h).2.2,
    (unit_spec hn v u h).2.1⟩⟩

/-- `perp_to_vector` is orthogonal to its argument, and is not zero unless the argument is short. -/
theorem C91_perp (tol : K) (ht : 0 < tol) (ht1 : tol ≤ 1 / 2) (v : V3 K) :
    dot (perpToVector tol v) v = 0 ∧ (tol ≤ dot v v → perpToVector tol v ≠ zero) := by
  unfold perpToVector
  by_cases c : dot v v ≥ tol
  · rw [if_pos c]
    by_cases c2 : |v.x| ≥ tol ∨ |v.y| ≥ tol
    · rw [if_pos c2]
      refine ⟨by simp only [dot, cross]; ring, ?_⟩
      intro _ h0
      have h1 := congrArg V3.x h0
      have h2 := congrArg V3.y h0
      simp only [cross, zero] at h1 h2
      have hy : v.y = 0 := by linarith
      have hx : v.x = 0 := by linarith
      rw [hx, hy] at c2
      simp only [abs_zero] at c2
      rcases c2 with c2 | c2 <;> linarith
    · rw [if_neg c2]
      refine ⟨by simp only [dot, cross]; ring, ?_⟩
      intro _ h0
      have h1 := congrArg V3.y h0
      have h2 := congrArg V3.z h0
      simp only [cross, zero] at h1 h2
      have hz : v.z = 0 := by linarith
      have hy : v.y = 0 := by linarith
      push Not at c2
      have hx : v.x * v.x < tol := by
        rw [← abs_mul_abs_self]
        have := c2.1
        nlinarith [abs_nonneg v.x]
      simp only [dot] at c
      rw [hy, hz] at c
      linarith
  · rw [if_neg c]
    exact ⟨by simp [dot, zero], fun h => absurd h c⟩

example : (0 : ℚ) < 1 / 10 ^ 5 ∧ (1 / 10 ^ 5 : ℚ) ≤ 1 / 2 ∧
    perpToVector (1 / 10 ^ 5) (⟨1, 2, 3⟩ : V3 ℚ) = ⟨2, -1, 0⟩ := by decide +kernel

theorem cross_orth (a b : V3 K) : dot a (cross a b) = 0 ∧ dot b (cross a b) = 0 := by
  constructor <;> simp only [dot, cross] <;> ring

theorem lagrange (a b : V3 K) :
    dot (cross a b) (cross a b) = dot a a * dot b b - dot a b * dot a b := by
  simp only [dot, cross]; ring

/-- `plane_from_normal2` always gives an orthonormal frame at the origin with the normal along the
given one.

`_partial`: the frame is left-handed, `C91_handedness_refuted`. -/
theorem C91_from_normal_partial {nrm : V3 K → K} (hn : NormSpec nrm) (tol : K) (ht : 0 < tol)
    (ht1 : tol ≤ 1 / 2) (o n : V3 K) :
    ∃ P, planeFromNormal2 nrm tol o n = some P ∧ Ortho P ∧ P.o = o ∧
      (tol < dot n n → ∃ t, 0 < t ∧ n = smul t P.n) ∧ cross P.x P.y = smul (-1) P.n := by
  have hn' : ∃ n', (if dot n n ≤ tol then some (⟨0, 0, 1⟩ : V3 K) else unit nrm n) = some n' ∧
      dot n' n' = 1 ∧ (tol < dot n n → ∃ t, 0 < t ∧ n = smul t n') := by
    by_cases c : dot n n ≤ tol
    · rw [if_pos c]
      exact ⟨_, rfl, by simp [dot], fun h => absurd h (not_lt.2 c)⟩
    · rw [if_neg c]
      cases hu : unit nrm n with
      | none =>
        rw [unit_none hn] at hu
        rw [hu] at c
        exact absurd (by simpa [dot, zero] using ht.le) c
      | some u =>
        have := unit_spec hn n u hu
        exact ⟨u, rfl, this.1, fun _ => ⟨_, this.2.2, this.2.1⟩⟩
  obtain ⟨n', e1, e2, e3⟩ := hn'
  have hp := C91_perp tol ht ht1 n'
  cases hx : unit nrm (perpToVector tol n') with
  | none =>
    rw [unit_none hn] at hx
    exact absurd hx (hp.2 (by rw [e2]; linarith))
  | some x =>
    obtain ⟨x1, x2, x3⟩ := unit_spec hn _ _ hx
    have hxn : dot x n' = 0 := by
      have := hp.1
      rw [x2] at this
      have h2 : nrm (perpToVector tol n') * dot x n' = 0 := by
        rw [← this]; simp only [dot, smul]; ring
      exact (mul_eq_zero.1 h2).resolve_left x3.ne'
    have hc1 : dot (cross x n') (cross x n') = 1 := by
      rw [lagrange, x1, e2, hxn]; ring
    cases hy : unit nrm (cross x n') with
    | none =>
      rw [unit_none hn] at hy
      rw [hy] at hc1
      simp [dot, zero] at hc1
    | some y =>
      obtain ⟨y1, y2, y3⟩ := unit_spec hn _ _ hy
      have hone : nrm (cross x n') = 1 := by
        have := hn.sq (cross x n')
        rw [hc1] at this
        nlinarith [hn.nonneg (cross x n')]
      have hyc : y = cross x n' := by
        rw [hone] at y2
        rw [y2]; ext <;> simp [smul]
      refine ⟨⟨o, x, y, n'⟩, ?_, ?_, rfl, e3, ?_⟩
      · unfold planeFromNormal2
        rw [e1]
        simp [hx, hy]
      · have c := cross_orth x n'
        refine ⟨x1, y1, e2, ?_, hxn, ?_⟩
        · rw [hyc]; exact c.1
        · rw [hyc]
          have := c.2
          simp only [dot] at this ⊢
          linear_combination this
      · dsimp only
        rw [hyc]
        have e : cross x (cross x n') = (smul (dot x n') x).sub (smul (dot x x) n') := by
          ext <;> simp only [cross, dot, smul, sub] <;> ring
        rw [e, hxn, x1]
        ext <;> simp [smul, sub]

/-- So the frame is never right-handed. -/
theorem C91_handedness_refuted {nrm : V3 K → K} (hn : NormSpec nrm) (tol : K) (ht : 0 < tol)
    (ht1 : tol ≤ 1 / 2) (o n : V3 K) (P : Plane K) (h : planeFromNormal2 nrm tol o n = some P) :
    cross P.x P.y ≠ P.n := by
  obtain ⟨P', h1, h2, -, -, h5⟩ := C91_from_normal_partial hn tol ht ht1 o n
  rw [h] at h1
  cases h1
  rw [h5]
  intro h0
  have h3 := h2.nn
  have a := congrArg V3.x h0
  have b := congrArg V3.y h0
  have c := congrArg V3.z h0
  simp only [smul] at a b c
  have a' : P.n.x = 0 := by linarith
  have b' : P.n.y = 0 := by linarith
  have c' : P.n.z = 0 := by linarith
  simp [dot, a', b', c'] at h3

/-- `plane_from_normal_origin` with a unit normal: a right-handed orthonormal frame at the origin,
whenever there is one.

`_partial`: there is none when the origin is along the normal,
`C91_normal_origin_refuted`. -/
theorem C91_normal_origin_partial {nrm : V3 K → K} (hn : NormSpec nrm) (n o : V3 K)
    (h1 : dot n n = 1) (P : Plane K) (h : planeFromNormalOrigin nrm n o = some P) :
    Ortho P ∧ P.o = o ∧ P.n = n ∧ cross P.x P.y = P.n := by
  unfold planeFromNormalOrigin at h
  dsimp only at h
  have hxa : dot ((projectPoint zero n o).sub o) n = 0 := by
    simp only [projectPoint, dot, sub, smul, zero] at h1 ⊢
    linear_combination (o.x * n.x + o.y * n.y + o.z * n.z) * h1
  generalize (projectPoint zero n o).sub o = xa at h hxa
  split_ifs at h with c
  cases h
  have hu : unit nrm xa = some ⟨xa.x / nrm xa, xa.y / nrm xa, xa.z / nrm xa⟩ := by
    unfold unit; rw [if_neg c]
  obtain ⟨x1, x2, x3⟩ := unit_spec hn _ _ hu
  generalize (⟨xa.x / nrm xa, xa.y / nrm xa, xa.z / nrm xa⟩ : V3 K) = x at x1 x2
  have hxn : dot x n = 0 := by
    rw [x2] at hxa
    have h2 : nrm xa * dot x n = 0 := by rw [← hxa]; simp only [dot, smul]; ring
    exact (mul_eq_zero.1 h2).resolve_left x3.ne'
  have hc1 : dot (cross n x) (cross n x) = 1 := by
    rw [lagrange, x1, h1]
    have : dot n x = 0 := by rw [← hxn]; simp only [dot]; ring
    rw [this]; ring
  have hc := cross_orth n x
  refine ⟨⟨x1, hc1, h1, hc.2, hxn, ?_⟩, rfl, rfl, ?_⟩
  · have := hc.1
    simp only [dot] at this ⊢
    linear_combination this
  · dsimp only
    have e : cross x (cross n x) = (smul (dot x x) n).sub (smul (dot x n) x) := by
      ext <;> simp only [cross, dot, smul, sub] <;> ring
    rw [e, hxn, x1]
    ext <;> simp [smul, sub]

/-- No frame for a plane whose origin is along its normal, the world origin in particular. -/
theorem C91_normal_origin_refuted {nrm : V3 K → K} (hn : NormSpec nrm) (n : V3 K)
    (h1 : dot n n = 1) (t : K) : planeFromNormalOrigin nrm n (smul t n) = none := by
  unfold planeFromNormalOrigin
  dsimp only
  rw [if_pos]
  rw [nrm_eq_zero hn]
  ext <;> simp only [projectPoint, dot, sub, smul, zero] at h1 ⊢
  · linear_combination t * n.x * h1
  · linear_combination t * n.y * h1
  · linear_combination t * n.z * h1

/-- `plane_from_3pt` on points that are not collinear: a right-handed orthonormal frame of the plane
through them, with the first axis towards the second point. -/
theorem C91_from_points {nrm : V3 K → K} (hn : NormSpec nrm) (p0 p1 p2 : V3 K)
    (h : cross (p1.sub p0) (p2.sub p0) ≠ zero) :
    ∃ P, planeFrom3pt nrm p0 p1 p2 = some P ∧ Ortho P ∧ cross P.x P.y = P.n ∧ P.o = p0 ∧
      (∃ t, 0 < t ∧ p1.sub p0 = smul t P.x) ∧ (∃ t, 0 < t ∧ cross (p1.sub p0) (p2.sub p0) = smul t P.n) ∧
      dot (p2.sub p0) P.n = 0 ∧ 0 < dot (p2.sub p0) P.y := by
  have e0 : (⟨(planeEq p0 p1 p2).1, (planeEq p0 p1 p2).2.1, (planeEq p0 p1 p2).2.2.1⟩ : V3 K) =
      cross (p1.sub p0) (p2.sub p0) := by
    ext <;> simp only [planeEq, cross, sub] <;> ring
  have hx0 : p1.sub p0 ≠ zero := by
    intro h0
    apply h
    rw [h0]
    ext <;> simp [cross, zero]
  generalize ha : p1.sub p0 = a at *
  generalize hb : p2.sub p0 = b at *
  cases hN : unit nrm (cross a b) with
  | none => exact absurd ((unit_none hn _).1 hN) h
  | some n =>
    cases hX : unit nrm a with
    | none => exact absurd ((unit_none hn _).1 hX) hx0
    | some x =>
      obtain ⟨n1, n2, n3⟩ := unit_spec hn _ _ hN
      obtain ⟨x1, x2, x3⟩ := unit_spec hn _ _ hX
      have hc := cross_orth a b
      have han : dot a n = 0 := by
        have := hc.1
        rw [n2] at this
        have h2 : nrm (cross a b) * dot a n = 0 := by rw [← this]; simp only [dot, smul]; ring
        exact (mul_eq_zero.1 h2).resolve_left n3.ne'
      have hbn : dot b n = 0 := by
        have := hc.2
        rw [n2] at this
        have h2 : nrm (cross a b) * dot b n = 0 := by rw [← this]; simp only [dot, smul]; ring
        exact (mul_eq_zero.1 h2).resolve_left n3.ne'
      have hxn : dot x n = 0 := by
        rw [x2] at han
        have h2 : nrm a * dot x n = 0 := by rw [← han]; simp only [dot, smul]; ring
        exact (mul_eq_zero.1 h2).resolve_left x3.ne'
      have hc1 : dot (cross n x) (cross n x) = 1 := by
        rw [lagrange, x1, n1]
        have : dot n x = 0 := by rw [← hxn]; simp only [dot]; ring
        rw [this]; ring
      have hcn := cross_orth n x
      refine ⟨⟨p0, x, cross n x, n⟩, ?_, ⟨x1, hc1, n1, hcn.2, hxn, ?_⟩, ?_, rfl, ⟨_, x3, x2⟩,
        ⟨_, n3, n2⟩, hbn, ?_⟩
      · unfold planeFrom3pt
        dsimp only
        rw [e0, hN, ha, hX]
        rfl
      · have := hcn.1
        simp only [dot] at this ⊢
        linear_combination this
      · dsimp only
        have e : cross x (cross n x) = (smul (dot x x) n).sub (smul (dot x n) x) := by
          ext <;> simp only [cross, dot, smul, sub] <;> ring
        rw [e, hxn, x1]
        ext <;> simp [smul, sub]
      · -- dot b (n × x) = n · (x × b), and a × b = |a| x × b = |a × b| n
        have e1 : nrm a * dot b (cross n x) = dot n (cross (smul (nrm a) x) b) := by
          simp only [dot, cross, smul]; ring
        rw [← x2, n2] at e1
        have e2 : dot n (smul (nrm (cross a b)) n) = nrm (cross a b) := by
          have : dot n (smul (nrm (cross a b)) n) = nrm (cross a b) * dot n n := by
            simp only [dot, smul]; ring
          rw [this, n1, mul_one]
        rw [e2] at e1
        dsimp only
        by_contra hneg
        push Not at hneg
        have := mul_nonpos_of_nonneg_of_nonpos x3.le hneg
        linarith

example : cross ((⟨1, 0, 0⟩ : V3 ℚ).sub ⟨0, 0, 0⟩) ((⟨1, 2, 0⟩ : V3 ℚ).sub ⟨0, 0, 0⟩) ≠ zero := by
  decide +kernel

/-! ## C92: the plane equation -/

/-- The equation evaluates to the inner product with the normal of the three points, so it vanishes
exactly on their plane. -/
theorem C92_equation (p0 p1 p2 p : V3 K) :
    signedDistance (planeEq p0 p1 p2) p = dot (p.sub p0) (cross (p1.sub p0) (p2.sub p0)) ∧
    signedDistance (planeEq p0 p1 p2) p0 = 0 ∧ signedDistance (planeEq p0 p1 p2) p1 = 0 ∧
    signedDistance (planeEq p0 p1 p2) p2 = 0 := by
  refine ⟨?_, ?_, ?_, ?_⟩ <;> simp only [signedDistance, planeEq, dot, cross, sub] <;> ring

/-- It is not a distance: doubling the triangle multiplies it by four. -/
theorem C92_distance_refuted (a b p : V3 K) :
    signedDistance (planeEq zero (smul 2 a) (smul 2 b)) p = 4 * signedDistance (planeEq zero a b) p := by
  simp only [signedDistance, planeEq, zero, smul]; ring

/-- `plane_from_eq` on an equation with a unit normal: the normal is right, and the returned origin is
on the other side of the world origin, at distance `2d` from the plane.

`_partial`: so the origin is on the plane only for `d = 0`. -/
theorem C92_from_equation_partial {nrm : V3 K → K} (hn : NormSpec nrm) (a b c d : K)
    (h : a * a + b * b + c * c = 1) :
    ∃ o n, planeFromEq nrm (a, b, c, d) = some (o, n) ∧ n = ⟨a, b, c⟩ ∧
      signedDistance (a, b, c, d) o = 2 * d := by
  have h1 : nrm ⟨a, b, c⟩ = 1 := by
    have := hn.sq ⟨a, b, c⟩
    have h2 : dot (⟨a, b, c⟩ : V3 K) ⟨a, b, c⟩ = 1 := h
    rw [h2] at this
    nlinarith [hn.nonneg ⟨a, b, c⟩]
  refine ⟨smul d ⟨a, b, c⟩, ⟨a, b, c⟩, ?_, rfl, ?_⟩
  · unfold planeFromEq unit
    dsimp only
    rw [h1, if_neg one_ne_zero]
    simp
  · simp only [signedDistance, smul]
    linear_combination d * h

/-- The origin is off the plane whenever the plane does not pass through the world origin. -/
theorem C92_origin_refuted {nrm : V3 K → K} (hn : NormSpec nrm) (a b c d : K)
    (h : a * a + b * b + c * c = 1) (hd : d ≠ 0) (o n : V3 K)
    (hp : planeFromEq nrm (a, b, c, d) = some (o, n)) : signedDistance (a, b, c, d) o ≠ 0 := by
  obtain ⟨o', n', h1, -, h3⟩ := C92_from_equation_partial hn a b c d h
  rw [hp] at h1
  cases h1
  rw [h3]
  exact mul_ne_zero two_ne_zero hd

example : (0 : ℚ) * 0 + (3 / 5) * (3 / 5) + (4 / 5) * (4 / 5) = 1 := by norm_num

/-! ## C93: projection on a plane and distance -/

/-- With a unit normal: the projection is on the plane, the correction is along the normal, points of
the plane stay, and no point of the plane is closer. -/
theorem C93_project (p n o : V3 K) (h : dot n n = 1) :
    OnPlane (projectPoint p n o) o n ∧ (∃ t, p = (projectPoint p n o).add (smul t n)) ∧
    (OnPlane p o n → projectPoint p n o = p) ∧
    ∀ q, OnPlane q o n →
      dot (p.sub (projectPoint p n o)) (p.sub (projectPoint p n o)) ≤ dot (p.sub q) (p.sub q) := by
  have hon : OnPlane (projectPoint p n o) o n := by
    unfold OnPlane
    simp only [projectPoint, dot, sub, smul] at h ⊢
    linear_combination -((p.x - o.x) * n.x + (p.y - o.y) * n.y + (p.z - o.z) * n.z) * h
  refine ⟨hon, ⟨dot (p.sub o) n, ?_⟩, ?_, ?_⟩
  · ext <;> simp only [projectPoint, add, sub, smul] <;> ring
  · intro hp
    have hp' : dot (p.sub o) n = 0 := by
      unfold OnPlane at hp
      simp only [dot, sub] at hp ⊢
      linear_combination hp
    unfold projectPoint
    rw [hp']
    ext <;> simp [sub, smul]
  · intro q hq
    have key : dot (p.sub q) (p.sub q) =
        dot (p.sub (projectPoint p n o)) (p.sub (projectPoint p n o)) +
        dot ((projectPoint p n o).sub q) ((projectPoint p n o).sub q) := by
      unfold OnPlane at hon hq
      have e : p.sub (projectPoint p n o) = smul (dot (p.sub o) n) n := by
        ext <;> simp only [projectPoint, sub, smul] <;> ring
      generalize projectPoint p n o = r at *
      generalize dot (p.sub o) n = t at e
      have ex := congrArg V3.x e
      have ey := congrArg V3.y e
      have ez := congrArg V3.z e
      simp only [dot, sub, smul] at *
      have px : p.x = r.x + t * n.x := by linarith
      have py : p.y = r.y + t * n.y := by linarith
      have pz : p.z = r.z + t * n.z := by linarith
      rw [px, py, pz]
      linear_combination 2 * t * (hon - hq)
    rw [key]
    have := dot_self_nonneg ((projectPoint p n o).sub q)
    linarith

/-- `distance` is the length of the correction, for a unit normal; for any nonzero normal it is the
inner product with the normalised one. -/
theorem C93_distance {nrm : V3 K → K} (hn : NormSpec nrm) (o n p : V3 K) :
    (distance nrm o n p = none ↔ n = zero) ∧
    ∀ d, distance nrm o n p = some d → 0 ≤ d ∧ d * nrm n = |dot n (p.sub o)| ∧
      (dot n n = 1 → d = nrm (p.sub (projectPoint p n o))) := by
  rw [← nrm_eq_zero hn]
  unfold distance
  by_cases c : nrm n = 0
  · simp [c]
  · rw [if_neg c]
    refine ⟨by simp [c], ?_⟩
    intro d hd
    cases hd
    have e : n.x * (p.x - o.x) / nrm n + n.y * (p.y - o.y) / nrm n + n.z * (p.z - o.z) / nrm n =
        dot n (p.sub o) / nrm n := by
      simp only [dot, sub]; ring
    rw [e]
    refine ⟨abs_nonneg _, ?_, ?_⟩
    · rw [abs_div, abs_of_nonneg (hn.nonneg n), div_mul_cancel₀ _ c]
    · intro h1
      have hone : nrm n = 1 := by
        have := hn.sq n
        rw [h1] at this
        nlinarith [hn.nonneg n]
      rw [hone, div_one]
      have e2 : p.sub (projectPoint p n o) = smul (dot (p.sub o) n) n := by
        ext <;> simp only [projectPoint, sub, smul] <;> ring
      have s : dot n (p.sub o) = dot (p.sub o) n := by simp only [dot]; ring
      rw [e2, s]
      generalize dot (p.sub o) n = t
      have h3 : nrm (smul t n) * nrm (smul t n) = |t| * |t| := by
        rw [hn.sq, abs_mul_abs_self]
        have : dot (smul t n) (smul t n) = t * t * dot n n := by simp only [dot, smul]; ring
        rw [this, h1, mul_one]
      exact ((mul_self_inj (hn.nonneg _) (abs_nonneg t)).1 h3).symm

/-- A normal that is not a unit vector: the projected point misses the plane, unless the point was on
it. -/
theorem C93_not_unit_refuted (p n o : V3 K) (h : dot n n ≠ 1) (hp : ¬ OnPlane p o n) :
    ¬ OnPlane (projectPoint p n o) o n := by
  intro h0
  unfold OnPlane at h0 hp
  have : dot (p.sub o) n * (1 - dot n n) = 0 := by
    simp only [projectPoint, dot, sub, smul] at h0 ⊢
    linear_combination h0
  rcases mul_eq_zero.1 this with h1 | h1
  · exact hp h1
  · exact h (by linarith)

/-! ## C95: the parallel loop -/

theorem prun_append (eps : K) (s e : V3 K) (tris : Nat → Tri K) (l1 l2 : List Nat) :
    ∀ st, prun eps s e tris (l1 ++ l2) st = prun eps s e tris l2 (prun eps s e tris l1 st) := by
  induction l1 with
  | nil => intro st; rfl
  | cons i l1 ih => intro st; exact ih _

theorem one_iter (eps : K) (s e : V3 K) (tris : Nat → Tri K) (st : PState K) (i : Nat)
    (h : st.pc i = .start) :
    let st' := prun eps s e tris [i, i, i] st
    st'.flags i = some (hitOf eps s e (tris i)).1 ∧
    (∀ p, (hitOf eps s e (tris i)).2 = some p → st'.outs i = some p) ∧
    (∀ j, j ≠ i → st'.flags j = st.flags j ∧ st'.outs j = st.outs j ∧ st'.pc j = st.pc j) := by
  unfold hitOf
  cases ht : triSeg eps (tris i).1 (tris i).2.1 (tris i).2.2 s e with
  | none =>
    refine ⟨?_, ?_, ?_⟩
    · simp [prun, pstep, h, ht]
    · simp
    · intro j hj
      simp [prun, pstep, h, ht, hj]
  | some r =>
    refine ⟨?_, ?_, ?_⟩
    · simp [prun, pstep, h, ht]
    · intro p hp
      cases hp
      simp [prun, pstep, h, ht]
    · intro j hj
      simp [prun, pstep, h, ht, hj]

/-- If iterations do not overlap, in whatever order they run, each writes what the sequential
function writes for its triangle.

`_partial`: overlapping iterations share the working arrays, `C95_race_refuted`. -/
theorem C95_no_overlap_partial (eps : K) (s e : V3 K) (tris : Nat → Tri K) (b : Tri K) (p0 : V3 K)
    (order : List Nat) (hn : order.Nodup) (i : Nat) (hi : i ∈ order) :
    let st := prun eps s e tris (order.flatMap (fun i => [i, i, i])) (pinit b p0)
    st.flags i = some (hitOf eps s e (tris i)).1 ∧
    ∀ p, (hitOf eps s e (tris i)).2 = some p → st.outs i = some p := by
  have gen : ∀ (order : List Nat) (st : PState K), order.Nodup → (∀ j ∈ order, st.pc j = .start) →
      (∀ i ∈ order, (prun eps s e tris (order.flatMap (fun i => [i, i, i])) st).flags i =
        some (hitOf eps s e (tris i)).1 ∧
        ∀ p, (hitOf eps s e (tris i)).2 = some p →
          (prun eps s e tris (order.flatMap (fun i => [i, i, i])) st).outs i = some p) ∧
      (∀ j, j ∉ order → (prun eps s e tris (order.flatMap (fun i => [i, i, i])) st).flags j = st.flags j ∧
        (prun eps s e tris (order.flatMap (fun i => [i, i, i])) st).outs j = st.outs j) := by
    intro order
    induction order with
    | nil => intro st _ _; exact ⟨by simp, fun j _ => ⟨rfl, rfl⟩⟩
    | cons a order ih =>
      intro st hnd hpc
      rw [List.nodup_cons] at hnd
      have h1 := one_iter eps s e tris st a (hpc a (by simp))
      dsimp only at h1
      obtain ⟨f1, f2, f3⟩ := h1
      have e0 : prun eps s e tris ((a :: order).flatMap (fun i => [i, i, i])) st =
          prun eps s e tris (order.flatMap (fun i => [i, i, i])) (prun eps s e tris [a, a, a] st) := by
        rw [List.flatMap_cons, prun_append]
      rw [e0]
      generalize prun eps s e tris [a, a, a] st = st1 at *
      obtain ⟨g1, g2⟩ := ih st1 hnd.2 (by
        intro j hj
        rw [(f3 j (by rintro rfl; exact hnd.1 hj)).2.2]
        exact hpc j (by simp [hj]))
      refine ⟨?_, ?_⟩
      · intro i hi
        rcases List.mem_cons.1 hi with rfl | hi
        · obtain ⟨k1, k2⟩ := g2 i hnd.1
          rw [k1, k2]
          exact ⟨f1, f2⟩
        · exact g1 i hi
      · intro j hj
        simp only [List.mem_cons, not_or] at hj
        obtain ⟨k1, k2⟩ := g2 j hj.2
        rw [k1, k2]
        exact ⟨(f3 j hj.1).1, (f3 j hj.1).2.1⟩
  exact (gen order (pinit b p0) hn (fun _ _ => rfl)).1 i hi

/-- Triangle 0 is hit in its interior, triangle 1 is missed; with the second iteration copying its
triangle before the first one intersects, triangle 0 is reported as missed. -/
theorem C95_race_refuted :
    ∃ (tris : Nat → Tri ℚ) (s e : V3 ℚ) (sched : List Nat),
      let st := prun (1 / 10 ^ 8) s e tris sched (pinit (zero, zero, zero) zero)
      (∀ i < 2, st.pc i = .done) ∧ (hitOf (1 / 10 ^ 8) s e (tris 0)).1 = 1 ∧ st.flags 0 = some 0 := by
  refine ⟨fun i => if i = 0 then (⟨0, 0, 0⟩, ⟨4, 0, 0⟩, ⟨0, 4, 0⟩)
    else (⟨10, 0, 0⟩, ⟨14, 0, 0⟩, ⟨10, 4, 0⟩), ⟨1, 1, -1⟩, ⟨1, 1, 1⟩, [0, 1, 0, 0, 1, 1], ?_⟩
  decide +kernel

/-! ## C96: classification of a hit -/

/-- 2 exactly for points within the tolerance of a vertex in every coordinate; points of an edge that
are not are classified 3. -/
theorem C96_classify (eps : K) (he : 0 < eps) (p v0 v1 v2 : V3 K) :
    (classify eps p v0 v1 v2 = 2 ↔ ∃ v, (v = v0 ∨ v = v1 ∨ v = v2) ∧
      |p.x - v.x| < eps ∧ |p.y - v.y| < eps ∧ |p.z - v.z| < eps) ∧
    (∀ a b t, (a, b) ∈ [(v0, v1), (v1, v2), (v2, v0)] → 0 ≤ t → t ≤ 1 →
      p = a.add (smul t (b.sub a)) → classify eps p v0 v1 v2 = 2 ∨ classify eps p v0 v1 v2 = 3) := by
  have pe : ∀ q, pointEquals eps p q = true ↔
      |p.x - q.x| < eps ∧ |p.y - q.y| < eps ∧ |p.z - q.z| < eps := by
    intro q; simp [pointEquals, isClose, and_assoc]
  have on : ∀ (a b : V3 K) (t : K), 0 ≤ t → t ≤ 1 → p = a.add (smul t (b.sub a)) →
      pointOnEdge eps p a b = true := by
    intro a b t h0 h1 hp
    have hvp : p.sub a = smul t (b.sub a) := by
      rw [hp]; ext <;> simp only [add, sub, smul] <;> ring
    unfold pointOnEdge
    dsimp only
    rw [hvp]
    generalize b.sub a = d
    have hc : cross (smul t d) d = zero := by
      ext <;> simp only [cross, smul, zero] <;> ring
    have hd : dot (smul t d) d = t * dot d d := by simp only [dot, smul]; ring
    have hdd := dot_self_nonneg d
    rw [hc, hd]
    have hz : isClose eps (zero : V3 K).x 0 = true ∧ isClose eps (zero : V3 K).y 0 = true ∧
        isClose eps (zero : V3 K).z 0 = true := by
      simp [isClose, zero, he]
    rw [hz.1, hz.2.1, hz.2.2]
    have l1 : ¬ t * dot d d < -eps := by
      have := mul_nonneg h0 hdd
      intro h; linarith
    have l2 : ¬ t * dot d d > dot d d + eps := by
      have := mul_le_mul_of_nonneg_right h1 hdd
      intro h; linarith
    simp only [l1, l2, decide_false, Bool.and_self, if_true, Bool.or_self, Bool.not_false]
  constructor
  · unfold classify
    constructor
    · intro h
      split_ifs at h with c1 c2 c3 <;> try (exact absurd h (by decide))
      · exact ⟨v0, Or.inl rfl, (pe _).1 c1⟩
      · exact ⟨v1, Or.inr (Or.inl rfl), (pe _).1 c2⟩
      · exact ⟨v2, Or.inr (Or.inr rfl), (pe _).1 c3⟩
    · rintro ⟨v, hv, h⟩
      have h' := (pe v).2 h
      rcases hv with rfl | rfl | rfl
      · rw [if_pos h']
      · split_ifs <;> first | rfl | contradiction
      · split_ifs <;> first | rfl | contradiction
  · intro a b t hm h0 h1 hp
    have h' := on a b t h0 h1 hp
    have hm' : (a = v0 ∧ b = v1) ∨ (a = v1 ∧ b = v2) ∨ (a = v2 ∧ b = v0) := by simpa using hm
    unfold classify
    rcases hm' with ⟨rfl, rfl⟩ | ⟨rfl, rfl⟩ | ⟨rfl, rfl⟩ <;> split_ifs <;>
      first | exact Or.inl rfl | exact Or.inr rfl | contradiction

/-- The centroid of a right triangle with legs `1/10000` counts as a point of an edge. -/
theorem C96_small_refuted :
    classify (1 / 10 ^ 8) (⟨1 / (3 * 10 ^ 5), 1 / (3 * 10 ^ 5), 0⟩ : V3 ℚ) ⟨0, 0, 0⟩ ⟨1 / 10 ^ 5, 0, 0⟩
      ⟨0, 1 / 10 ^ 5, 0⟩ = 3 := by
  decide +kernel

end Verif.Vec
