import Verif.Crd.Model
import Verif.Vec.Props2
import Mathlib.Tactic.LinearCombination
import Mathlib.Tactic.FieldSimp
import Mathlib.Analysis.Real.Pi.Bounds
import Mathlib.LinearAlgebra.Matrix.NonsingularInverse

/-! # Theorems on coordinates, frames and functions on several planes -/

set_option linter.unusedSectionVars false

namespace Verif.Crd
open Verif.Vec Verif.Vec.V3

/-! ## C387, C388: coordinates -/

theorem sqrt_mul_cos (a b : ℝ) : Real.sqrt (a ^ 2 + b ^ 2) * Real.cos (atan2 b a) = a := by
  have h := Complex.norm_mul_cos_arg (⟨a, b⟩ : ℂ)
  rwa [Complex.norm_eq_sqrt_sq_add_sq] at h

theorem sqrt_mul_sin (a b : ℝ) : Real.sqrt (a ^ 2 + b ^ 2) * Real.sin (atan2 b a) = b := by
  have h := Complex.norm_mul_sin_arg (⟨a, b⟩ : ℂ)
  rwa [Complex.norm_eq_sqrt_sq_add_sq] at h

theorem atan2_polar {r t : ℝ} (hr : 0 < r) (h1 : -Real.pi < t) (h2 : t ≤ Real.pi) :
    atan2 (r * Real.sin t) (r * Real.cos t) = t := by
  have h := Complex.arg_mul_cos_add_sin_mul_I hr (θ := t) ⟨h1, h2⟩
  rw [atan2]
  refine Eq.trans (congrArg Complex.arg ?_) h
  apply Complex.ext <;> simp [← Complex.ofReal_cos, ← Complex.ofReal_sin]

/-- Going to spherical coordinates and back gives every point again, poles and origin included; the radius is not negative, the angle
from the pole is between 0 and pi, the other one between -pi and pi. -/
theorem C387_there_and_back (p : V3 ℝ) :
    sphericalToCartesian (cartesianToSpherical p) = p ∧
    0 ≤ (cartesianToSpherical p).x ∧ (cartesianToSpherical p).x ^ 2 = dot p p ∧
    0 ≤ (cartesianToSpherical p).y ∧ (cartesianToSpherical p).y ≤ Real.pi ∧
    -Real.pi < (cartesianToSpherical p).z ∧ (cartesianToSpherical p).z ≤ Real.pi := by
  have hs : 0 ≤ p.x ^ 2 + p.y ^ 2 := by positivity
  have hq := Real.sq_sqrt hs
  have e1 := sqrt_mul_sin p.z (Real.sqrt (p.x ^ 2 + p.y ^ 2))
  have e2 := sqrt_mul_cos p.z (Real.sqrt (p.x ^ 2 + p.y ^ 2))
  rw [hq, add_comm] at e1 e2
  have e3 := sqrt_mul_sin p.x p.y
  have e4 := sqrt_mul_cos p.x p.y
  refine ⟨?_, Real.sqrt_nonneg _, ?_, ?_, Complex.arg_le_pi _, Complex.neg_pi_lt_arg _, Complex.arg_le_pi _⟩
  · simp only [sphericalToCartesian, cartesianToSpherical, e1, e2, e3, e4]
  · simp only [cartesianToSpherical, dot]
    rw [Real.sq_sqrt (by positivity)]; ring
  · exact Complex.arg_nonneg_iff.2 (Real.sqrt_nonneg _)

/-- Going from spherical coordinates and back gives the same coordinates, away from the poles and for angles in the usual ranges. -/
theorem C387_back_and_there (q : V3 ℝ) (hr : 0 < q.x) (h0 : 0 < q.y) (h1 : q.y < Real.pi) (h2 : -Real.pi < q.z)
    (h3 : q.z ≤ Real.pi) : cartesianToSpherical (sphericalToCartesian q) = q := by
  have hsin : 0 < Real.sin q.y := Real.sin_pos_of_pos_of_lt_pi h0 h1
  have hm : 0 < q.x * Real.sin q.y := mul_pos hr hsin
  have hc1 := Real.sin_sq_add_cos_sq q.z
  have hc2 := Real.sin_sq_add_cos_sq q.y
  have e1 : (q.x * Real.sin q.y * Real.cos q.z) ^ 2 + (q.x * Real.sin q.y * Real.sin q.z) ^ 2 = (q.x * Real.sin q.y) ^ 2 := by
    linear_combination (q.x * Real.sin q.y) ^ 2 * hc1
  have e2 : (q.x * Real.sin q.y) ^ 2 + (q.x * Real.cos q.y) ^ 2 = q.x ^ 2 := by linear_combination q.x ^ 2 * hc2
  obtain ⟨r, t, f⟩ := q
  simp only [sphericalToCartesian, cartesianToSpherical] at *
  rw [e1, e2, Real.sqrt_sq hr.le, Real.sqrt_sq hm.le, atan2_polar hr (by linarith [Real.pi_pos]) h1.le, atan2_polar hm h2 h3]

example : cartesianToSpherical (sphericalToCartesian ⟨2, 1, -1⟩) = ⟨2, 1, -1⟩ :=
  C387_back_and_there _ (by norm_num) (by norm_num) (by simpa using (show (1 : ℝ) < Real.pi by linarith [Real.pi_gt_three]))
    (by simpa using (show (1 : ℝ) < Real.pi by linarith [Real.pi_gt_three])) (by simp; linarith [Real.pi_gt_three])

/-- `cylindrical_to_xyz` keeps the height and the distance from the axis is the radius; it is the point at the given angle.

`_partial`: `courtesan_to_cylindrical` should give the coordinates back; `C388_refuted`. -/
theorem C388_partial (q : V3 ℝ) :
    (cylindricalToXyz q).z = q.z ∧ (cylindricalToXyz q).x ^ 2 + (cylindricalToXyz q).y ^ 2 = q.x ^ 2 ∧
    (0 < q.x → -Real.pi < q.y → q.y ≤ Real.pi → atan2 (cylindricalToXyz q).y (cylindricalToXyz q).x = q.y) := by
  refine ⟨rfl, ?_, fun h1 h2 h3 => atan2_polar h1 h2 h3⟩
  simp only [cylindricalToXyz]
  linear_combination q.x ^ 2 * Real.sin_sq_add_cos_sq q.y

/-- Going to cylindrical coordinates and back replaces a point by `(z, √(x² + y²), z)`: only points `(0, y, 0)` with `y ≥ 0` come back.
The first coordinate is the distance from the origin, not from the axis, and the second one the angle from the pole. -/
theorem C388_refuted (p : V3 ℝ) :
    cylindricalToXyz (cartesianToCylindrical p) = ⟨p.z, Real.sqrt (p.x ^ 2 + p.y ^ 2), p.z⟩ ∧
    (cylindricalToXyz (cartesianToCylindrical p) = p ↔ p.x = 0 ∧ p.z = 0 ∧ 0 ≤ p.y) := by
  have hs : 0 ≤ p.x ^ 2 + p.y ^ 2 := by positivity
  have hq := Real.sq_sqrt hs
  have e1 := sqrt_mul_sin p.z (Real.sqrt (p.x ^ 2 + p.y ^ 2))
  have e2 := sqrt_mul_cos p.z (Real.sqrt (p.x ^ 2 + p.y ^ 2))
  rw [hq, add_comm] at e1 e2
  have h : cylindricalToXyz (cartesianToCylindrical p) = ⟨p.z, Real.sqrt (p.x ^ 2 + p.y ^ 2), p.z⟩ := by
    simp only [cylindricalToXyz, cartesianToCylindrical, e1, e2]
  refine ⟨h, ?_⟩
  rw [h]
  obtain ⟨x, y, z⟩ := p
  simp only [V3.mk.injEq]
  constructor
  · rintro ⟨rfl, h2, -⟩
    have h3 : 0 ≤ y := h2 ▸ Real.sqrt_nonneg _
    have h4 : z ^ 2 + y ^ 2 = y ^ 2 := by rw [← Real.sq_sqrt hs]; simp only; rw [h2]
    have h5 : z = 0 := by simpa using h4
    exact ⟨h5, h5, h3⟩
  · rintro ⟨rfl, rfl, h3⟩
    refine ⟨by trivial, ?_, by trivial⟩
    rw [show (0 : ℝ) ^ 2 + y ^ 2 = y ^ 2 by ring, Real.sqrt_sq h3]

example : cylindricalToXyz (cartesianToCylindrical ⟨1, 0, 0⟩) ≠ ⟨1, 0, 0⟩ := fun h => by
  have := ((C388_refuted ⟨1, 0, 0⟩).2.1 h).1
  norm_num at this

/-! ## C390: the circle of `arbitrary` -/

/-- For a normal not along the z axis, the points `arbitrary` gives are exactly the points of the plane at distance 1 from the origin
of the plane. -/
theorem C390_partial (n o p : V3 ℝ) (h : n.x ≠ 0 ∨ n.y ≠ 0) :
    (∃ t, arbitrary t n o = some p) ↔ dot (p.sub o) n = 0 ∧ dot (p.sub o) (p.sub o) = 1 := by
  have hs : 0 < n.x ^ 2 + n.y ^ 2 := by
    rcases h with h | h
    · have := sq_nonneg n.y; have := pow_pos (abs_pos.2 h) 2; rw [sq_abs] at this; linarith
    · have := sq_nonneg n.x; have := pow_pos (abs_pos.2 h) 2; rw [sq_abs] at this; linarith
  have hr' : 0 < n.x ^ 2 * n.z ^ 2 + n.y ^ 2 * n.z ^ 2 + (n.x ^ 2 + n.y ^ 2) ^ 2 := by positivity
  obtain ⟨r, hr⟩ : ∃ r, r = Real.sqrt (n.x ^ 2 * n.z ^ 2 + n.y ^ 2 * n.z ^ 2 + (n.x ^ 2 + n.y ^ 2) ^ 2) := ⟨_, rfl⟩
  obtain ⟨q, hq⟩ : ∃ q, q = Real.sqrt (n.x ^ 2 + n.y ^ 2) := ⟨_, rfl⟩
  have r0 : 0 < r := hr ▸ Real.sqrt_pos.2 hr'
  have q0 : 0 < q := hq ▸ Real.sqrt_pos.2 hs
  have r2 : r ^ 2 = n.x ^ 2 * n.z ^ 2 + n.y ^ 2 * n.z ^ 2 + (n.x ^ 2 + n.y ^ 2) ^ 2 := by rw [hr, Real.sq_sqrt hr'.le]
  have q2 : q ^ 2 = n.x ^ 2 + n.y ^ 2 := by rw [hq, Real.sq_sqrt hs.le]
  have ha : ∀ t, arbitrary t n o = some ⟨-n.x * n.z * Real.sin t / r - n.y * Real.cos t / q + o.x,
      n.x * Real.cos t / q - n.y * n.z * Real.sin t / r + o.y, o.z + (n.x ^ 2 + n.y ^ 2) * Real.sin t / r⟩ := by
    intro t
    simp only [arbitrary, ← hr, ← hq]
    rw [if_neg (by push Not; exact ⟨r0.ne', q0.ne'⟩)]
  obtain ⟨a, b, c⟩ := n
  obtain ⟨x0, y0, z0⟩ := o
  obtain ⟨x, y, z⟩ := p
  simp only [ha, Option.some.injEq, V3.mk.injEq, dot, sub] at *
  -- inverses
  obtain ⟨i, hi⟩ : ∃ i, i = r⁻¹ := ⟨_, rfl⟩
  obtain ⟨j, hj⟩ : ∃ j, j = q⁻¹ := ⟨_, rfl⟩
  have hi2 : i ^ 2 * (a ^ 2 * c ^ 2 + b ^ 2 * c ^ 2 + (a ^ 2 + b ^ 2) ^ 2) = 1 := by
    rw [← r2, hi]; field_simp
  have hj2 : j ^ 2 * (a ^ 2 + b ^ 2) = 1 := by rw [← q2, hj]; field_simp
  simp only [div_eq_mul_inv, ← hi, ← hj]
  constructor
  · rintro ⟨t, rfl, rfl, rfl⟩
    have hc := Real.sin_sq_add_cos_sq t
    constructor
    · ring
    · linear_combination (Real.sin t) ^ 2 * hi2 + (Real.cos t) ^ 2 * hj2 + hc
  · rintro ⟨h1, h2⟩
    -- components along the two directions
    obtain ⟨u, hu⟩ : ∃ u, u = (-b * (x - x0) + a * (y - y0)) * j := ⟨_, rfl⟩
    obtain ⟨v, hv⟩ : ∃ v, v = (-a * c * (x - x0) - b * c * (y - y0) + (a ^ 2 + b ^ 2) * (z - z0)) * i := ⟨_, rfl⟩
    have s0 : a ^ 2 + b ^ 2 ≠ 0 := hs.ne'
    have n0 : a ^ 2 + b ^ 2 + c ^ 2 ≠ 0 := by positivity
    have hi3 : i ^ 2 * ((a ^ 2 + b ^ 2) * (a ^ 2 + b ^ 2 + c ^ 2)) = 1 := by linear_combination hi2
    have ex : x - x0 = -a * c * v * i - b * u * j := by
      have : (a ^ 2 + b ^ 2) * (a ^ 2 + b ^ 2 + c ^ 2) * (x - x0) =
          (a ^ 2 + b ^ 2) * (a ^ 2 + b ^ 2 + c ^ 2) * (-a * c * v * i - b * u * j) := by
        rw [hu, hv]
        linear_combination (a * c * (-a * c * (x - x0) - b * c * (y - y0) + (a ^ 2 + b ^ 2) * (z - z0))) * hi3 +
          (a ^ 2 + b ^ 2 + c ^ 2) * b * (-b * (x - x0) + a * (y - y0)) * hj2 + (a ^ 2 + b ^ 2) * a * h1
      exact mul_left_cancel₀ (mul_ne_zero s0 n0) this
    have ey : y - y0 = a * u * j - b * c * v * i := by
      have : (a ^ 2 + b ^ 2) * (a ^ 2 + b ^ 2 + c ^ 2) * (y - y0) =
          (a ^ 2 + b ^ 2) * (a ^ 2 + b ^ 2 + c ^ 2) * (a * u * j - b * c * v * i) := by
        rw [hu, hv]
        linear_combination (b * c * (-a * c * (x - x0) - b * c * (y - y0) + (a ^ 2 + b ^ 2) * (z - z0))) * hi3 -
          (a ^ 2 + b ^ 2 + c ^ 2) * a * (-b * (x - x0) + a * (y - y0)) * hj2 + (a ^ 2 + b ^ 2) * b * h1
      exact mul_left_cancel₀ (mul_ne_zero s0 n0) this
    have ez : z - z0 = (a ^ 2 + b ^ 2) * v * i := by
      have : (a ^ 2 + b ^ 2 + c ^ 2) * (z - z0) = (a ^ 2 + b ^ 2 + c ^ 2) * ((a ^ 2 + b ^ 2) * v * i) := by
        rw [hv]
        linear_combination (-(-a * c * (x - x0) - b * c * (y - y0) + (a ^ 2 + b ^ 2) * (z - z0))) * hi3 + c * h1
      exact mul_left_cancel₀ n0 this
    have huv : u ^ 2 + v ^ 2 = 1 := by
      rw [ex, ey, ez] at h2
      linear_combination h2 - v ^ 2 * hi2 - u ^ 2 * hj2
    refine ⟨atan2 v u, ?_⟩
    have hc := sqrt_mul_cos u v
    have hsn := sqrt_mul_sin u v
    rw [huv, Real.sqrt_one, one_mul] at hc hsn
    rw [hc, hsn]
    refine ⟨?_, ?_, ?_⟩
    · linear_combination -ex
    · linear_combination -ey
    · linear_combination -ez

example : ∃ t, arbitrary t ⟨1, 2, 2⟩ ⟨1, 0, 0⟩ = some ⟨1 + 2 / 3, -2 / 3, 1 / 3⟩ :=
  (C390_partial _ _ _ (Or.inl (by norm_num))).2 (by norm_num [dot, sub])

/-- For the plane most used, the horizontal one, there is no point. -/
theorem C390_refuted (t : ℝ) (n o : V3 ℝ) (h : n.x = 0 ∧ n.y = 0) : arbitrary t n o = none := by
  rw [arbitrary]
  rw [if_pos]
  right
  rw [h.1, h.2]; simp

/-! ## C391: frames -/

section ring
variable {R : Type} [CommRing R]

open Matrix in
theorem local_eq (p : Frame R) (c : Fin 3 → R) : localToWorld p c = fun i => p.o i + (c ᵥ* p.A) i := by
  funext i
  simp [localToWorld, Matrix.vecMul, dotProduct, Fin.sum_univ_three]
  ring

open Matrix in
/-- With axes of length one and orthogonal, `world_to_local` undoes `local_to_world` and the other way round. -/
theorem C391_local_partial (p : Frame R) (h : p.A * p.Aᵀ = 1) (c : Fin 3 → R) :
    localToWorldArg c (.object p) = some (localToWorld p c) ∧ worldToLocal p (localToWorld p c) = c ∧
    localToWorld p (worldToLocal p c) = c := by
  have h' : p.Aᵀ * p.A = 1 := mul_eq_one_comm.1 h
  refine ⟨rfl, ?_, ?_⟩
  · rw [local_eq, worldToLocal]
    have : (fun i => p.o i + (c ᵥ* p.A) i - p.o i) = c ᵥ* p.A := by funext i; ring
    rw [this, ← Matrix.vecMul_transpose, Matrix.vecMul_vecMul, h, Matrix.vecMul_one]
  · rw [local_eq, worldToLocal, ← Matrix.vecMul_transpose, Matrix.vecMul_vecMul, h', Matrix.vecMul_one]
    funext i; ring

/-- `local_to_world` with an array, the default one included, raises. -/
theorem C391_local_refuted (c : Fin 3 → R) (p : Frame R) : localToWorldArg c (.array p) = none := rfl

open Matrix in
/-- `orient_matrix` between planes with the same axes is the translation from one to the other.

`_partial`: the matrix should take the first plane to the second one for all pairs of planes; `C391_orient_refuted`. -/
theorem C391_orient_partial (p1 p2 : Frame R) (h : p1.A * p1.Aᵀ = 1) (ha : p1.A = p2.A) (c : Fin 3 → R) :
    applyRow (orientMatrix p1 p2) (localToWorld p1 c) = localToWorld p2 c := by
  have e : p1.A * p2.Aᵀ = 1 := by rw [← ha]; exact h
  funext i
  show (localToWorld p1 c ᵥ* (p1.A * p2.Aᵀ)) i + (p2.o i - p1.o i) = _
  rw [e, Matrix.vecMul_one, local_eq, local_eq, ha]
  ring

open Matrix in
/-- The matrix takes the first plane to the second one exactly if the squares of the two matrices of axes agree and the origin of the
first has the same product with both. -/
theorem C391_orient_refuted (p1 p2 : Frame R) (h2 : p2.A * p2.Aᵀ = 1) :
    (∀ c, applyRow (orientMatrix p1 p2) (localToWorld p1 c) = localToWorld p2 c) ↔
      p1.A * p1.A = p2.A * p2.A ∧ p1.o ᵥ* p1.A = p1.o ᵥ* p2.A := by
  have h2' : p2.Aᵀ * p2.A = 1 := mul_eq_one_comm.1 h2
  have key : ∀ c, applyRow (orientMatrix p1 p2) (localToWorld p1 c) =
      fun i => (p1.o ᵥ* (p1.A * p2.Aᵀ)) i + (c ᵥ* (p1.A * (p1.A * p2.Aᵀ))) i + (p2.o i - p1.o i) := by
    intro c
    funext i
    have e : localToWorld p1 c = p1.o + c ᵥ* p1.A := by rw [local_eq]; rfl
    simp only [applyRow, orientMatrix, e, Matrix.add_vecMul, Matrix.vecMul_vecMul, Pi.add_apply]
  constructor
  · intro h
    have h0 : p1.o ᵥ* (p1.A * p2.Aᵀ) = p1.o := by
      funext i
      have := congrFun (h 0) i
      rw [key, local_eq] at this
      simp only [Matrix.zero_vecMul, Pi.zero_apply] at this
      linear_combination this
    have h1 : ∀ c : Fin 3 → R, c ᵥ* (p1.A * (p1.A * p2.Aᵀ)) = c ᵥ* p2.A := by
      intro c
      funext i
      have := congrFun (h c) i
      rw [key, local_eq] at this
      have e := congrFun h0 i
      simp only at this
      linear_combination this - e
    have h3 : p1.A * (p1.A * p2.Aᵀ) = p2.A := by
      apply Matrix.ext_of_single_vecMul
      intro i
      exact h1 _
    constructor
    · calc p1.A * p1.A = p1.A * (p1.A * p2.Aᵀ) * p2.A := by
            rw [Matrix.mul_assoc, Matrix.mul_assoc, h2', Matrix.mul_one]
        _ = p2.A * p2.A := by rw [h3]
    · calc p1.o ᵥ* p1.A = (p1.o ᵥ* (p1.A * p2.Aᵀ)) ᵥ* p2.A := by
            rw [Matrix.vecMul_vecMul, Matrix.mul_assoc, h2', Matrix.mul_one]
        _ = p1.o ᵥ* p2.A := by rw [h0]
  · rintro ⟨h3, h4⟩ c
    have h0 : p1.o ᵥ* (p1.A * p2.Aᵀ) = p1.o := by
      rw [← Matrix.vecMul_vecMul, h4, Matrix.vecMul_vecMul, h2, Matrix.vecMul_one]
    have h1 : p1.A * (p1.A * p2.Aᵀ) = p2.A := by
      rw [← Matrix.mul_assoc, h3, Matrix.mul_assoc, h2, Matrix.mul_one]
    rw [key, local_eq, h0, h1]
    funext i; ring

end ring

/-- The axes x, y, z and the axes turned by a right angle about z. -/
def exA : Matrix (Fin 3) (Fin 3) ℚ := ![![0, 1, 0], ![-1, 0, 0], ![0, 0, 1]]

open Matrix in
example : exA * exAᵀ = 1 ∧ ¬ ((1 : Matrix (Fin 3) (Fin 3) ℚ) * 1 = exA * exA) := by decide +kernel

/-- So the matrix from the horizontal plane to the one turned by a right angle is wrong. -/
example : ¬ ∀ c, applyRow (orientMatrix ⟨0, 1⟩ ⟨0, exA⟩) (localToWorld ⟨0, 1⟩ c) = localToWorld ⟨0, exA⟩ c := fun h =>
  absurd ((C391_orient_refuted ⟨0, 1⟩ ⟨0, exA⟩ (by decide +kernel)).1 h).1 (by decide +kernel)

/-! ## C389: several planes -/

section field
variable {K : Type} [Field K] [LinearOrder K] [IsStrictOrderedRing K]

/-- The line `l` is on both planes. -/
def OnBoth (l : V3 K × V3 K) (a b : Pl K) : Prop :=
  l.2 ≠ zero ∧ ∀ t : K, OnPlane (l.1.add (smul t l.2)) a.1 a.2 ∧ OnPlane (l.1.add (smul t l.2)) b.1 b.2

theorem one_spec {a b : Pl K} {l : V3 K × V3 K} (h : one a b = some l) : OnBoth l a b := by
  obtain ⟨p, d⟩ := l
  obtain ⟨h1, -, -, h2, -⟩ := C43_two_planes_partial _ _ _ _ _ _ h
  exact ⟨h1, h2⟩

/-- A stack with a plane, in either order, two stacks and two planes: there is a row for every plane of the stack, in its order, and
a row without NaN is a line on both planes of the pair.

`_partial`: not for arrays with more dimensions as second argument (`C389_deep_refuted`) and a shorter second stack
(`C389_short_refuted`); some rows are NaN, see `C43_two_planes_refuted`. -/
theorem C389_partial (as bs : List (Pl K)) (a b : Pl K) :
    (∃ r, planePlaneIntersection (.stack as) (.plane b) = some r ∧ r.length = as.length ∧
      ∀ i (h : i < as.length) l, r[i]? = some (some l) → OnBoth l as[i] b) ∧
    (∃ r, planePlaneIntersection (.deep as) (.plane b) = some r ∧ r.length = as.length ∧
      ∀ i (h : i < as.length) l, r[i]? = some (some l) → OnBoth l as[i] b) ∧
    (∃ r, planePlaneIntersection (.plane a) (.stack bs) = some r ∧ r.length = bs.length ∧
      ∀ i (h : i < bs.length) l, r[i]? = some (some l) → OnBoth l a bs[i]) ∧
    (as.length = bs.length → ∃ r, planePlaneIntersection (.stack as) (.stack bs) = some r ∧ r.length = as.length ∧
      ∀ i (h : i < as.length) (h' : i < bs.length) l, r[i]? = some (some l) → OnBoth l as[i] bs[i]) ∧
    ∃ r, planePlaneIntersection (.plane a) (.plane b) = some [r] ∧ ∀ l, r = some l → OnBoth l a b := by
  have h1 : ∀ (as : List (Pl K)) (b : Pl K), (planesPlane as b).length = as.length ∧
      ∀ i (h : i < as.length) l, (planesPlane as b)[i]? = some (some l) → OnBoth l as[i] b := by
    intro as b
    refine ⟨by simp [planesPlane], fun i h l hl => ?_⟩
    rw [planesPlane, List.getElem?_map, List.getElem?_eq_getElem h, Option.map_some, Option.some.injEq] at hl
    exact one_spec hl
  refine ⟨⟨_, rfl, h1 as b⟩, ⟨_, rfl, h1 as b⟩, ⟨_, rfl, (h1 bs a).1, fun i h l hl => ?_⟩, fun hlen => ?_, ⟨_, rfl, fun l hl => one_spec hl⟩⟩
  · obtain ⟨e1, e2⟩ := (h1 bs a).2 i h l hl
    exact ⟨e1, fun t => (e2 t).symm⟩
  · refine ⟨List.zipWith one as bs, ?_, by simp [hlen], fun i h h' l hl => ?_⟩
    · show planesPlanes as bs = _
      rw [planesPlanes, if_pos hlen.le]
    · rw [List.getElem?_eq_getElem (by simp; omega), List.getElem_zipWith, Option.some.injEq] at hl
      exact one_spec hl

/-- Two planes that meet, in both orders of the arguments: the line runs the other way. -/
example : planePlaneIntersection (.stack [((⟨1, 0, 0⟩ : V3 ℚ), ⟨1, 1, 0⟩)]) (.plane (⟨0, 1, 0⟩, ⟨2, 1, 1⟩)) =
      some [some (⟨1 / 2, 1 / 2, -1 / 2⟩, ⟨1, -1, -1⟩)] ∧
    planePlaneIntersection (.plane ((⟨1, 0, 0⟩ : V3 ℚ), ⟨1, 1, 0⟩)) (.stack [(⟨0, 1, 0⟩, ⟨2, 1, 1⟩)]) =
      some [some (⟨1 / 6, 5 / 6, -1 / 6⟩, ⟨-1, 1, 1⟩)] := by decide +kernel

/-- With a plane first and a stack second the direction is the one of the pair in the other order: opposite to the one for a plane and
a plane. -/
theorem C389_order_refuted (a b : Pl K) (l l' : V3 K × V3 K) (h : planePlaneIntersection (.plane a) (.plane b) = some [some l])
    (h' : planePlaneIntersection (.plane a) (.stack [b]) = some [some l']) : l'.2 = smul (-1) l.2 ∧ l'.2 ≠ l.2 := by
  have e : one a b = some l := by
    have h : some [one a b] = some [some l] := h
    simpa using h
  have e' : one b a = some l' := by
    have h : some [one b a] = some [some l'] := h'
    simpa using h
  have d : l.2 = cross a.2 b.2 := by
    rw [one, intersect2] at e
    obtain ⟨x, -, rfl⟩ := Option.map_eq_some_iff.1 e
    rfl
  have d' : l'.2 = cross b.2 a.2 := by
    rw [one, intersect2] at e'
    obtain ⟨x, -, rfl⟩ := Option.map_eq_some_iff.1 e'
    rfl
  have e1 : l'.2 = smul (-1) l.2 := by
    rw [d, d']; simp only [cross, smul, V3.mk.injEq]; refine ⟨?_, ?_, ?_⟩ <;> ring
  refine ⟨e1, fun he => (one_spec e).1 ?_⟩
  rw [he] at e1
  have hx := congrArg V3.x e1
  have hy := congrArg V3.y e1
  have hz := congrArg V3.z e1
  simp only [smul] at hx hy hz
  generalize l.2 = v at *
  obtain ⟨x, y, z⟩ := v
  simp only [zero, V3.mk.injEq] at *
  refine ⟨?_, ?_, ?_⟩ <;> linarith

example : planePlaneIntersection (.plane ((⟨1, 0, 0⟩ : V3 ℚ), ⟨1, 1, 0⟩)) (.plane (⟨0, 1, 0⟩, ⟨2, 1, 1⟩)) =
      some [some (⟨1 / 2, 1 / 2, -1 / 2⟩, ⟨1, -1, -1⟩)] := by decide +kernel

/-- `planes_planes_intersect` raises, whatever the stacks. -/
theorem C389_planes_refuted (as bs : List (Pl K)) : planesPlanesIntersect as bs = none := by
  rw [planesPlanesIntersect]
  split_ifs
  · rfl
  · cases planesPlanes as bs <;> rfl

/-- A second argument with more than three dimensions: with a first argument of fewer an exception; with a first argument of the same
size the first is intersected with itself, and the second argument does not matter. -/
theorem C389_deep_refuted (as bs cs : List (Pl K)) (a : Pl K) :
    planePlaneIntersection (.plane a) (.deep bs) = none ∧ planePlaneIntersection (.stack as) (.deep bs) = none ∧
    (as.length = bs.length → as.length = cs.length →
      planePlaneIntersection (.deep as) (.deep bs) = planePlaneIntersection (.deep as) (.deep cs) ∧
      planePlaneIntersection (.deep as) (.deep bs) = some (as.map fun a => one a a) ∧
      ∀ a : Pl K, one a a = none) := by
  have hn : ∀ a : Pl K, one a a = none := by
    intro a
    rcases h : one a a with _ | l
    · rfl
    · exfalso
      have d : l.2 = cross a.2 a.2 := by
        have h' := h
        rw [one, intersect2] at h'
        obtain ⟨x, -, rfl⟩ := Option.map_eq_some_iff.1 h'
        rfl
      apply (one_spec h).1
      rw [d]; simp only [cross, zero, V3.mk.injEq]; refine ⟨?_, ?_, ?_⟩ <;> ring
  have hz : ∀ l : List (Pl K), List.zipWith one l l = l.map fun a => one a a := by
    intro l
    induction l with
    | nil => rfl
    | cons x l ih => simp
  have h : ∀ bs : List (Pl K), as.length = bs.length →
      planePlaneIntersection (.deep as) (.deep bs) = some (as.map fun a => one a a) := by
    intro bs hb
    rw [planePlaneIntersection, flattenArgs, if_pos hb]
    show planesPlanes as as = _
    rw [planesPlanes, if_pos le_rfl, hz]
  exact ⟨rfl, rfl, fun h1 h2 => ⟨by rw [h bs h1, h cs h2], h bs h1, hn⟩⟩

/-- A second stack that is shorter is read past its end. -/
theorem C389_short_refuted (as bs : List (Pl K)) (h : bs.length < as.length) :
    planePlaneIntersection (.stack as) (.stack bs) = none := by
  show planesPlanes as bs = none
  rw [planesPlanes, if_neg (by omega)]

/-! ## C392: a ray and a plane -/

/-- `plane_ray_intersection` with a plane of four rows is the intersection of the ray with the plane: an answer is on the plane and
on the ray.

`_partial`: the plane may be given by an origin and a normal according to the documentation; `C392_refuted`. -/
theorem C392_partial (eps : K) (he : 0 < eps) (a : Pl K) (ro rd : V3 K) :
    ∃ r, planeRay eps 4 a ro rd = some r ∧
      ∀ p, r = some p → OnPlane p a.1 a.2 ∧ ∃ t : K, 0 ≤ t ∧ p = ro.add (smul t rd) := by
  refine ⟨_, rfl, fun p hp => ?_⟩
  rw [rayPlane] at hp
  simp only at hp
  split_ifs at hp with h1 h2
  cases hp
  have hd : dot a.2 rd ≠ 0 := ne_zero_of_abs_ge he h1
  refine ⟨?_, _, not_lt.1 h2, rfl⟩
  have e : dot a.2 (a.1.sub ro) / dot a.2 rd * dot a.2 rd = dot a.2 (a.1.sub ro) := div_mul_cancel₀ _ hd
  generalize dot a.2 (a.1.sub ro) / dot a.2 rd = t at *
  simp only [OnPlane, dot, sub, add, smul] at *
  linear_combination e

example : planeRay (1 / 100) 4 ((⟨0, 0, 2⟩ : V3 ℚ), ⟨0, 0, 1⟩) ⟨1, 1, 0⟩ ⟨1, 0, 1⟩ = some (some ⟨3, 1, 2⟩) := by decide +kernel

/-- A plane given by an origin and a normal, two rows, is an exception. -/
theorem C392_refuted (eps : K) (a : Pl K) (ro rd : V3 K) : planeRay eps 2 a ro rd = none := rfl

/-! ## C393: several directions, several matrices -/

/-- Row `j` of `multi_support_vector` is a vertex furthest in direction `j`. -/
theorem C393_support (vs ds : List (V3 K)) (h : vs ≠ []) :
    (multiSupport vs ds).length = ds.length ∧
    ∀ j (hj : j < ds.length), ∃ s, (multiSupport vs ds)[j]? = some s ∧ s ∈ vs ∧ ∀ v ∈ vs, dot v ds[j] ≤ dot s ds[j] := by
  refine ⟨by simp [multiSupport], fun j hj => ⟨supportVector vs ds[j], ?_, C98_support vs _ h⟩⟩
  rw [multiSupport, List.getElem?_map, List.getElem?_eq_getElem hj]; rfl

example : multiSupport [(⟨0, 0, 0⟩ : V3 ℚ), ⟨2, 1, 0⟩, ⟨1, 3, 0⟩] [⟨1, 0, 0⟩, ⟨0, 1, 0⟩] = [⟨2, 1, 0⟩, ⟨1, 3, 0⟩] := by decide +kernel

/-- `invert_jacobian` of a stack raises, whatever the matrices; of one matrix it gives the inverse unless the determinant is zero. -/
theorem C393_jacobian_refuted (l : List (K × K × K × K)) (a b c d : K) :
    invertJac (.stack l) = none ∧ invertJac (.one a b c d) = some (invertJacobian a b c d) ∧
    (a * d - b * c ≠ 0 → ∃ m, invertJac (.one a b c d) = some (some m)) := by
  refine ⟨rfl, rfl, fun h => ⟨((d / (a * d - b * c), -b / (a * d - b * c)), (-c / (a * d - b * c), a / (a * d - b * c))), ?_⟩⟩
  · show some (invertJacobian a b c d) = _
    rw [invertJacobian, if_neg h]

end field

/-! ## C394: plane rotations -/

open Matrix in
/-- `rotate_matrix` of a sum of angles is the product, of the opposite angle the transposed matrix and the inverse, and the determinant
is 1. -/
theorem C394_rotation (a b : ℝ) :
    rotateMatrix (a + b) = rotateMatrix a * rotateMatrix b ∧ rotateMatrix (-a) = (rotateMatrix a)ᵀ ∧
    rotateMatrix a * (rotateMatrix a)ᵀ = 1 ∧ (rotateMatrix a).det = 1 ∧ rotateMatrix 0 = 1 := by
  have hc := Real.sin_sq_add_cos_sq a
  refine ⟨?_, ?_, ?_, ?_, ?_⟩
  · ext i j
    fin_cases i <;> fin_cases j <;>
      simp [rotateMatrix, Matrix.mul_apply, Fin.sum_univ_three, Real.cos_add, Real.sin_add] <;> ring
  · ext i j
    fin_cases i <;> fin_cases j <;> simp [rotateMatrix]
  · ext i j
    fin_cases i <;> fin_cases j <;> simp [rotateMatrix, Matrix.mul_apply, Fin.sum_univ_three] <;> first | ring1 | linear_combination hc
  · rw [Matrix.det_fin_three]
    simp [rotateMatrix]; linear_combination hc
  · ext i j
    fin_cases i <;> fin_cases j <;> simp [rotateMatrix]

/-- The column `(cos b, sin b, 0)` is turned counterclockwise by `a`. -/
theorem C394_turn (a b : ℝ) :
    Matrix.mulVec (rotateMatrix a) ![Real.cos b, Real.sin b, 0] = ![Real.cos (a + b), Real.sin (a + b), 0] := by
  ext i
  fin_cases i <;> simp [rotateMatrix, Matrix.mulVec, dotProduct, Fin.sum_univ_three, Real.cos_add, Real.sin_add] <;> ring

end Verif.Crd
