import Verif.Implicit.Model2
import Verif.Implicit.Props
import Mathlib.Algebra.BigOperators.Field
import Mathlib.Tactic.Positivity
import Mathlib.Tactic.NormNum
import Mathlib.Analysis.Real.Sqrt

/-! # C474: points inside, the gradient in space and calls with several points -/

set_option linter.unusedSectionVars false

namespace Verif.Implicit

variable {K : Type} [Field K] [LinearOrder K] [IsStrictOrderedRing K]

theorem inside_iff (atol : K) (ha : 0 ≤ atol) (x : K) : inside atol x = true ↔ x ≤ atol := by
  unfold inside
  split_ifs with h1 h2
  · simp only [true_iff]; linarith
  · simp only [true_iff]; exact (abs_le.1 h2).2
  · simp only [Bool.false_eq_true, false_iff, not_le]
    rw [abs_of_nonneg (not_lt.1 h1)] at h2
    exact not_le.1 h2

/-- Inside as a set: of a union in one, of an intersection in both, in the primitives by the test itself. -/
def Csg.In {n : Nat} (atol : K) : Csg n K → (Fin n → K) → Prop
  | .prim f _, v => f v < 0 ∨ |f v| ≤ atol
  | .union a b, v => a.In atol v ∨ b.In atol v
  | .inter a b, v => a.In atol v ∧ b.In atol v
  | .sub a b, v => a.In atol v ∧ ¬ b.In atol v

/-- **C474**: for every tree of unions and intersections `point_inside` says true exactly for the points of the set, with the
tolerance of the primitives: combining neither adds nor takes away points on the boundary. -/
theorem C474_inside {n : Nat} (atol : K) (ha : 0 ≤ atol) (t : Csg n K) (hs : t.NoSub) (v : Fin n → K) :
    inside atol (t.eval v) = true ↔ t.In atol v := by
  induction t with
  | prim f b =>
    unfold inside Csg.In Csg.eval
    split_ifs with h1 h2 <;> simp [*]
  | union a b iha ihb =>
    have := iha hs.1
    have := ihb hs.2
    rw [inside_iff atol ha] at *
    simp only [Csg.In, Csg.eval, opUnion, min_le_iff, *]
  | inter a b iha ihb =>
    have := iha hs.1
    have := ihb hs.2
    rw [inside_iff atol ha] at *
    simp only [Csg.In, Csg.eval, opInter, max_le_iff, *]
  | sub a b => exact absurd hs id

/-- **C474** (refuted for differences): for `a - b` the points strictly inside `a` and strictly outside `b`, further than the
tolerance, are never inside, and those of `b` outside of `a` are. -/
theorem C474_difference_refuted {n : Nat} (atol : K) (ha : 0 ≤ atol) (a b : Csg n K) (v : Fin n → K) :
    (a.eval v < -atol → atol < b.eval v → inside atol ((Csg.sub a b).eval v) = false) ∧
    (atol < a.eval v → b.eval v < -atol → inside atol ((Csg.sub a b).eval v) = true) := by
  constructor
  · intro h1 h2
    rw [Bool.eq_false_iff, ne_eq, inside_iff atol ha]
    simp only [Csg.eval, opSub, max_le_iff, not_and, not_le]
    intro _; exact h2
  · intro h1 h2
    rw [inside_iff atol ha]
    simp only [Csg.eval, opSub, max_le_iff]
    constructor <;> linarith

example : inside (1 / 100 : ℚ) ((Csg.union (.prim (fun v : Fin 1 → ℚ => |v 0| - 1) ⟨fun _ => -1, fun _ => 1⟩)
    (.prim (fun v => |v 0 - 3| - 1) ⟨fun _ => 2, fun _ => 4⟩)).eval fun _ => 201 / 200) = true := by decide +kernel

/-- What the norm has to satisfy. -/
structure Nrm3 (nrm : (Fin 3 → K) → K) : Prop where
  nonneg : ∀ v, 0 ≤ nrm v
  sq : ∀ v, nrm v * nrm v = ∑ i, v i * v i

/-- The Euclidean norm meets it. -/
theorem nrm3_real : Nrm3 fun v : Fin 3 → ℝ => Real.sqrt (∑ i, v i * v i) :=
  ⟨fun _ => Real.sqrt_nonneg _, fun _ => Real.mul_self_sqrt (Finset.sum_nonneg fun _ _ => mul_self_nonneg _)⟩

theorem nrm3_zero {nrm : (Fin 3 → K) → K} (h : Nrm3 nrm) (v : Fin 3 → K) : nrm v = 0 ↔ ∀ i, v i = 0 := by
  have := h.sq v
  constructor
  · intro h0
    rw [h0, mul_zero] at this
    have h2 := (Finset.sum_eq_zero_iff_of_nonneg fun i _ => mul_self_nonneg (v i)).1 this.symm
    intro i
    exact mul_self_eq_zero.1 (h2 i (Finset.mem_univ i))
  · intro h0
    have h2 : ∑ i, v i * v i = 0 := Finset.sum_eq_zero fun i _ => by rw [h0 i, mul_zero]
    rw [h2] at this
    exact mul_self_eq_zero.1 this

/-- **C474**: in space the gradient is the vector of central differences scaled to length one; it is NaN exactly where all of them
vanish. -/
theorem C474_gradient {nrm : (Fin 3 → K) → K} (hN : Nrm3 nrm) (f : (Fin 3 → K) → K) (d : K) (v : Fin 3 → K) :
    (gradient3 nrm f d v = none ↔ ∀ i, (f (shift v i d) - f (shift v i (-d))) / 2 / d = 0) ∧
    ∀ g, gradient3 nrm f d v = some g → ∑ i, g i * g i = 1 ∧
      ∃ l, 0 < l ∧ ∀ i, (f (shift v i d) - f (shift v i (-d))) / 2 / d = l * g i := by
  unfold gradient3
  dsimp only
  split_ifs with h
  · refine ⟨⟨fun _ => (nrm3_zero hN _).1 h, fun _ => rfl⟩, fun g hg => by cases hg⟩
  · refine ⟨⟨fun hg => (by cases hg), fun hg => absurd ((nrm3_zero hN _).2 hg) h⟩, ?_⟩
    intro g hg
    cases hg
    have hpos : 0 < nrm (normalFrom f d v) := lt_of_le_of_ne (hN.nonneg _) (Ne.symm h)
    refine ⟨?_, nrm (normalFrom f d v), hpos, fun i => ?_⟩
    · have e : ∀ i, normalFrom f d v i / nrm (normalFrom f d v) * (normalFrom f d v i / nrm (normalFrom f d v)) =
          (normalFrom f d v i * normalFrom f d v i) / (nrm (normalFrom f d v) * nrm (normalFrom f d v)) := by
        intro i; rw [div_mul_div_comm]
      simp only [e]
      rw [← Finset.sum_div, ← hN.sq, div_self (mul_ne_zero h h)]
    · show normalFrom f d v i = _
      rw [mul_div_cancel₀ _ h]

/-- **C474** (partial): for a plane with the coefficient vector `g`, not zero, one projection along the gradient of length one leaves the
value `f·(1 - |g|)`; so the point is on the plane exactly when it was before or `|g| = 1`, and the full claim, a point on the surface,
holds for distance functions of planes only. -/
theorem C474_project_partial {nrm : (Fin 3 → K) → K} (hN : Nrm3 nrm) (g : Fin 3 → K) (hg : nrm g ≠ 0) (c d : K) (hd : d ≠ 0)
    (v : Fin 3 → K) : ∃ n, gradient3 nrm (affine g c) d v = some n ∧
      affine g c (pointOn (affine g c) (fun _ => n) v) = affine g c v * (1 - nrm g) := by
  have hnf := (C102_unit_refuted g c d hd v).1
  refine ⟨fun i => g i / nrm g, ?_, ?_⟩
  · unfold gradient3
    dsimp only
    rw [hnf, if_neg hg]
  · unfold pointOn
    dsimp only
    generalize hA : affine g c v = A
    unfold affine at hA ⊢
    have : ∀ i, g i * (v i - g i / nrm g * A) = g i * v i - A / nrm g * (g i * g i) := by intro i; ring
    simp only [this, Finset.sum_sub_distrib, ← Finset.mul_sum]
    rw [← hN.sq, ← hA]
    field_simp
    ring

/-- Vectors along the first axis have a rational length; `x = 3` projected to the plane `2x - 2 = 0` lands at `x = -1`. -/
example : affine (fun i : Fin 3 => if i = 0 then (2 : ℚ) else 0) (-2) (fun i => if i = 0 then 3 else 0) = 4 ∧
    affine (fun i : Fin 3 => if i = 0 then (2 : ℚ) else 0) (-2) (fun i => if i = 0 then -1 else 0) = 4 * (1 - 2) := by
  norm_num [affine, Fin.sum_univ_three]

/-- **C474**: the tangent in the plane is perpendicular to the gradient, has its length, and is to the left of it. -/
theorem C474_tangent (g : Fin 2 → K) : ∑ i, tangent2 g i * g i = 0 ∧ ∑ i, tangent2 g i * tangent2 g i = ∑ i, g i * g i ∧
    g 0 * tangent2 g 1 - g 1 * tangent2 g 0 = ∑ i, g i * g i := by
  simp only [Fin.sum_univ_two, tangent2]
  refine ⟨?_, ?_, ?_⟩ <;> simp <;> ring

/-- **C474** (refuted): a call with several points.  Every implicit function that needs a point, that is, raises for a bare number,
raises for every array of points, though it has a value at each of them. -/
theorem C474_many_refuted (f : Arg K → Option K) (hf : ∀ x, f (.num x) = none) (rows : List (List K)) :
    callMany f rows = none := by
  unfold callMany
  split_ifs with h
  · rfl
  · induction rows with
    | nil => simp at h
    | cons r rows ih =>
      cases r with
      | nil =>
        have := ih (by simpa using h)
        simp [List.mapM_cons, this]
      | cons x r => simp [List.mapM_cons, hf]

/-- The circle of radius one. -/
example : (∀ x : ℚ, (fun a : Arg ℚ => match a with | .vec [x, y] => some (x ^ 2 + y ^ 2 - 1) | _ => none) (.num x) = none) ∧
    callOne (fun a : Arg ℚ => match a with | .vec [x, y] => some (x ^ 2 + y ^ 2 - 1) | _ => none) [3, 4] = some 24 :=
  ⟨fun _ => rfl, by decide +kernel⟩

end Verif.Implicit
