import Verif.Implicit.Model
import Mathlib.Algebra.Order.Ring.Rat
import Mathlib.Data.Rat.Floor
import Mathlib.Tactic.Linarith
import Mathlib.Tactic.Ring
import Mathlib.Tactic.FieldSimp
import Mathlib.Tactic.FinCases
import Mathlib.Tactic.LinearCombination

/-! # Boolean combinations of implicit solids, normals, projection and the call cache -/

set_option linter.unusedSectionVars false

namespace Verif.Implicit

variable {K : Type} [Field K] [LinearOrder K] [IsStrictOrderedRing K]

/-! ## C46 -/

/-- Strictly inside and strictly outside, for every pair of values. -/
theorem C46_ops (x y : K) :
    (opUnion x y < 0 ↔ x < 0 ∨ y < 0) ∧ (opUnion x y > 0 ↔ x > 0 ∧ y > 0) ∧
    (opInter x y < 0 ↔ x < 0 ∧ y < 0) ∧ (opInter x y > 0 ↔ x > 0 ∨ y > 0) ∧
    (opSub x y < 0 ↔ y < 0 ∧ x > 0) ∧ (opSub x y > 0 ↔ y > 0 ∨ x < 0) ∧
    (opXor x y < 0 ↔ (x < 0 ∧ y > 0) ∨ (x > 0 ∧ y < 0)) ∧
    (opInv x < 0 ↔ x > 0) ∧ (opInv x > 0 ↔ x < 0) := by
  simp only [opUnion, opInter, opSub, opXor, opInv, min_lt_iff, lt_min_iff, max_lt_iff, lt_max_iff,
    gt_iff_lt, Left.neg_neg_iff, Left.neg_pos_iff]
  refine ⟨trivial, trivial, trivial, trivial, by tauto, by tauto, ?_, trivial, trivial⟩
  constructor
  · rintro ⟨h1 | h1, h2 | h2⟩
    · exact absurd h1 (not_lt.2 h2.le)
    · exact Or.inl ⟨h1, h2⟩
    · exact Or.inr ⟨h2, h1⟩
    · exact absurd h1 (not_lt.2 h2.le)
  · rintro (⟨h1, h2⟩ | ⟨h1, h2⟩)
    · exact ⟨Or.inl h1, Or.inr h2⟩
    · exact ⟨Or.inr h2, Or.inl h1⟩

/-- The set a tree of operations stands for, when `sub a b` is read as `b` without `a`. -/
def Csg.Mem {n : Nat} : Csg n K → (Fin n → K) → Prop
  | .prim f _, v => f v < 0
  | .union a b, v => a.Mem v ∨ b.Mem v
  | .inter a b, v => a.Mem v ∧ b.Mem v
  | .sub a b, v => b.Mem v ∧ ¬ a.Mem v

/-- The point is on the boundary of no primitive. -/
def Csg.Off {n : Nat} : Csg n K → (Fin n → K) → Prop
  | .prim f _, v => f v ≠ 0
  | .union a b, v => a.Off v ∧ b.Off v
  | .inter a b, v => a.Off v ∧ b.Off v
  | .sub a b, v => a.Off v ∧ b.Off v

theorem eval_ne {n : Nat} (t : Csg n K) (v : Fin n → K) (h : t.Off v) : t.eval v ≠ 0 := by
  induction t with
  | prim f b => exact h
  | union a b iha ihb =>
    simp only [Csg.eval, opUnion]
    rcases min_choice (a.eval v) (b.eval v) with e | e <;> rw [e]
    · exact iha h.1
    · exact ihb h.2
  | inter a b iha ihb =>
    simp only [Csg.eval, opInter]
    rcases max_choice (a.eval v) (b.eval v) with e | e <;> rw [e]
    · exact iha h.1
    · exact ihb h.2
  | sub a b iha ihb =>
    simp only [Csg.eval, opSub]
    rcases max_choice (-a.eval v) (b.eval v) with e | e <;> rw [e]
    · exact neg_ne_zero.2 (iha h.1)
    · exact ihb h.2

/-- For every tree of operations and every point off the boundaries of the primitives the value is
negative exactly at the members of the set.

`_partial`: `sub a b` is `b` without `a`, not `a` without `b`: `C46_sub_refuted`. -/
theorem C46_tree_partial {n : Nat} (t : Csg n K) (v : Fin n → K) (h : t.Off v) :
    t.eval v < 0 ↔ t.Mem v := by
  induction t with
  | prim f b => exact Iff.rfl
  | union a b iha ihb =>
    simp only [Csg.eval, Csg.Mem, (C46_ops _ _).1, iha h.1, ihb h.2]
  | inter a b iha ihb =>
    simp only [Csg.eval, Csg.Mem, (C46_ops _ _).2.2.1, iha h.1, ihb h.2]
  | sub a b iha ihb =>
    simp only [Csg.eval, Csg.Mem, (C46_ops _ _).2.2.2.2.1, ihb h.2, ← iha h.1]
    have hn := eval_ne a v h.1
    constructor
    · rintro ⟨h1, h2⟩; exact ⟨h1, not_lt.2 h2.le⟩
    · rintro ⟨h1, h2⟩; exact ⟨h1, lt_of_le_of_ne (not_lt.1 h2) (Ne.symm hn)⟩

/-- At every point of `a` alone `Sub(a, b)` is positive: it is not `a` without `b`. -/
theorem C46_sub_refuted {n : Nat} (a b : Csg n K) (v : Fin n → K) (ha : a.eval v < 0)
    (hb : b.eval v > 0) :
    (Csg.sub a b).eval v > 0 ∧
      ¬ ((Csg.sub a b).eval v < 0 ↔ a.eval v < 0 ∧ ¬ b.eval v < 0) := by
  have h : (Csg.sub a b).eval v > 0 := (C46_ops _ _).2.2.2.2.2.1.2 (Or.inl hb)
  exact ⟨h, fun hc => absurd (hc.2 ⟨ha, not_lt.2 hb.le⟩) (not_lt.2 h.le)⟩

/-- The point is in the box. -/
def InB {n : Nat} (v : Fin n → K) (b : Bnd n K) : Prop := ∀ i, b.lo i ≤ v i ∧ v i ≤ b.hi i

/-- Every primitive vanishes or is negative only inside its own bounds. -/
def Csg.Good {n : Nat} : Csg n K → Prop
  | .prim f b => ∀ v, f v ≤ 0 → InB v b
  | .union a b => a.Good ∧ b.Good
  | .inter a b => a.Good ∧ b.Good
  | .sub a b => a.Good ∧ b.Good

/-- No difference is used. -/
def Csg.NoSub {n : Nat} : Csg n K → Prop
  | .prim _ _ => True
  | .union a b => a.NoSub ∧ b.NoSub
  | .inter a b => a.NoSub ∧ b.NoSub
  | .sub _ _ => False

/-- The bounds of unions and intersections contain the solid.

`_partial`: not for differences, `C46_sub_bounds_refuted`; in the plane no intersection can be
constructed, `C46_intersection2d_refuted`. -/
theorem C46_bounds_partial {n : Nat} (t : Csg n K) (hg : t.Good) (hs : t.NoSub) (b : Bnd n K)
    (hb : t.bounds = some b) (v : Fin n → K) (hv : t.eval v ≤ 0) : InB v b := by
  induction t generalizing b with
  | prim f c => cases hb; exact hg v hv
  | union p q ihp ihq =>
    rw [Csg.bounds] at hb
    split at hb
    · next x y hx hy =>
      cases hb
      simp only [Csg.eval, opUnion, min_le_iff] at hv
      rcases hv with hv | hv
      · intro i
        have := ihp hg.1 hs.1 x hx hv i
        exact ⟨(min_le_left _ _).trans this.1, this.2.trans (le_max_left _ _)⟩
      · intro i
        have := ihq hg.2 hs.2 y hy hv i
        exact ⟨(min_le_right _ _).trans this.1, this.2.trans (le_max_right _ _)⟩
    · cases hb
  | inter p q ihp ihq =>
    rw [Csg.bounds] at hb
    split at hb
    · next x y hx hy =>
      split_ifs at hb
      cases hb
      simp only [Csg.eval, opInter, max_le_iff] at hv
      intro i
      have h1 := ihp hg.1 hs.1 x hx hv.1 i
      have h2 := ihq hg.2 hs.2 y hy hv.2 i
      exact ⟨max_le h1.1 h2.1, le_min h1.2 h2.2⟩
    · cases hb
  | sub p q => exact hs.elim

/-- In three dimensions every tree has bounds. -/
theorem C46_bounds_exist (t : Csg 3 K) : ∃ b, t.bounds = some b := by
  induction t with
  | prim f b => exact ⟨b, rfl⟩
  | union a b iha ihb =>
    obtain ⟨x, hx⟩ := iha; obtain ⟨y, hy⟩ := ihb
    simp [Csg.bounds, hx, hy]
  | inter a b iha ihb =>
    obtain ⟨x, hx⟩ := iha; obtain ⟨y, hy⟩ := ihb
    simp [Csg.bounds, hx, hy]
  | sub a b iha ihb =>
    obtain ⟨x, hx⟩ := iha; obtain ⟨y, hy⟩ := ihb
    simp [Csg.bounds, hx, hy]

/-- Constructing the intersection of two planar objects always raises. -/
theorem C46_intersection2d_refuted (a b : Csg 2 K) : (Csg.inter a b).bounds = none := by
  rw [Csg.bounds]
  split <;> simp

/-- Points of `b` outside the bounds of `a` are in `Sub(a, b)` but outside its bounds. -/
theorem C46_sub_bounds_refuted {n : Nat} (a b : Csg n K) (ha : a.Good) (hsa : a.NoSub)
    (c : Bnd n K) (hc : (Csg.sub a b).bounds = some c) (v : Fin n → K) (hv : ¬ InB v c)
    (hb : b.eval v < 0) : (Csg.sub a b).eval v < 0 := by
  have hac : a.bounds = some c := by
    rw [Csg.bounds] at hc
    split at hc
    · next x y hx hy => cases hc; exact hx
    · cases hc
  have hpos : a.eval v > 0 := by
    by_contra h
    exact hv (C46_bounds_partial a ha hsa c hac v (not_lt.1 h))
  exact (C46_ops _ _).2.2.2.2.1.2 ⟨hb, hpos⟩

/-- A box of half width one about the origin and one about 3: bounds are as supposed, and 3 is a
point of the difference outside the bounds. -/
example :
    let a : Csg 1 ℚ := .prim (fun v => |v 0| - 1) ⟨fun _ => -1, fun _ => 1⟩
    let b : Csg 1 ℚ := .prim (fun v => |v 0 - 3| - 1) ⟨fun _ => 2, fun _ => 4⟩
    a.Good ∧ b.Good ∧ (Csg.union a b).Good ∧ ¬ InB (fun _ => 3) (⟨fun _ => -1, fun _ => 1⟩ : Bnd 1 ℚ) ∧
    b.eval (fun _ => 3) < 0 ∧ (Csg.sub a b).Off (fun _ => 3) := by
  intro a b
  have ga : a.Good := by
    intro v hv i
    have : |v 0| ≤ 1 := by linarith
    have := abs_le.1 this
    fin_cases i
    exact this
  have gb : b.Good := by
    intro v hv i
    have : |v 0 - 3| ≤ 1 := by linarith
    have := abs_le.1 this
    fin_cases i
    exact ⟨show (2 : ℚ) ≤ v 0 by linarith [this.1], show v 0 ≤ 4 by linarith [this.2]⟩
  refine ⟨ga, gb, ⟨ga, gb⟩, ?_, ?_, ?_⟩
  · intro h
    have := (h 0).2
    norm_num at this
  · norm_num [a, b, Csg.eval]
  · constructor
    · show |(3 : ℚ)| - 1 ≠ 0; norm_num [abs_of_pos]
    · show |(3 : ℚ) - 3| - 1 ≠ 0; norm_num

/-! ## C102: normals and projection -/

theorem shift_self {n : Nat} (v : Fin n → K) (i : Fin n) (d : K) : shift v i d i = v i + d := by
  simp [shift]

/-- Along each axis the function is a polynomial of degree two; then the result is its exact partial
derivative, for every step.

`_partial`: the result is the gradient, not a unit vector: `C102_unit_refuted`. -/
theorem C102_gradient_partial {n : Nat} (f : (Fin n → K) → K) (d : K) (hd : d ≠ 0) (v : Fin n → K)
    (i : Fin n) (p q : K) (hq : ∀ t, f (shift v i t) = f v + p * t + q * t * t) :
    normalFrom f d v i = p := by
  unfold normalFrom
  rw [hq d, hq (-d)]
  field_simp
  ring

/-- An affine function. -/
def affine {n : Nat} (g : Fin n → K) (c : K) (v : Fin n → K) : K := ∑ i, g i * v i + c

theorem affine_shift {n : Nat} (g : Fin n → K) (c : K) (v : Fin n → K) (i : Fin n) (t : K) :
    affine g c (shift v i t) = affine g c v + g i * t := by
  have : ∀ j, g j * shift v i t j = g j * v j + (if j = i then g i * t else 0) := by
    intro j
    by_cases h : j = i
    · subst h; simp [shift]; ring
    · simp [shift, h]
  unfold affine
  simp only [this, Finset.sum_add_distrib, Finset.sum_ite_eq', Finset.mem_univ, if_true]
  ring

/-- For every plane the computed normal is the coefficient vector, so it has length one only if that
has. -/
theorem C102_unit_refuted {n : Nat} (g : Fin n → K) (c d : K) (hd : d ≠ 0) (v : Fin n → K) :
    normalFrom (affine g c) d v = g ∧
    (∑ i, g i * g i ≠ 1 →
      ∑ i, normalFrom (affine g c) d v i * normalFrom (affine g c) d v i ≠ 1) := by
  have h : normalFrom (affine g c) d v = g := by
    funext i
    refine C102_gradient_partial (affine g c) d hd v i (g i) 0 ?_
    intro t
    rw [affine_shift]; ring
  exact ⟨h, by rw [h]; exact id⟩

/-- Projection onto a plane along the computed normal leaves the value `d (1 - |g|²)`: the point is
on the plane exactly when it was or the coefficient vector has length one.

`_partial`: so for general functions it is not on the surface. -/
theorem C102_project_partial {n : Nat} (g : Fin n → K) (c d : K) (hd : d ≠ 0) (v : Fin n → K) :
    affine g c (pointOn (affine g c) (normalFrom (affine g c) d) v) =
      affine g c v * (1 - ∑ i, g i * g i) := by
  have h : pointOn (affine g c) (normalFrom (affine g c) d) v =
      fun i => v i - g i * affine g c v := by
    unfold pointOn
    rw [(C102_unit_refuted g c d hd v).1]
  rw [h]
  generalize hA : affine g c v = A
  unfold affine at hA ⊢
  have : ∀ i, g i * (v i - g i * A) = g i * v i - A * (g i * g i) := by intro i; ring
  simp only [this, Finset.sum_sub_distrib, ← Finset.mul_sum]
  rw [← hA]; ring

/-- The plane `2x - 2 = 0` seen from `x = 3`: the projection lands at `x = -5`. -/
theorem C102_project_refuted :
    affine (fun _ : Fin 1 => (2 : ℚ)) (-2)
      (pointOn (affine (fun _ : Fin 1 => (2 : ℚ)) (-2))
        (normalFrom (affine (fun _ : Fin 1 => (2 : ℚ)) (-2)) (1 / 10000)) (fun _ => 3)) = -12 := by
  rw [C102_project_partial _ _ _ (by norm_num)]
  norm_num [affine]

/-! ## C103: the call cache -/

section
variable {α κ β : Type} [DecidableEq κ]

/-- If arguments with one representation have one value, then in every history of calls and clears
every call returns the value of the function.

`_partial`: the representation of an array has eight digits, `C103_repr_refuted`. -/
theorem C103_cache_partial (repr : α → κ) (f : α → β)
    (hr : ∀ x y, repr x = repr y → f x = f y) (es : List (Ev α)) :
    ∀ p ∈ runCache repr f [] es, p.2 = f p.1 := by
  have gen : ∀ (es : List (Ev α)) (c : Cache κ β),
      (∀ x r, find c (repr x) = some r → r = f x) →
      ∀ p ∈ runCache repr f c es, p.2 = f p.1 := by
    intro es
    induction es with
    | nil => intro c _ p hp; simp [runCache] at hp
    | cons e es ih =>
      intro c hc p hp
      cases e with
      | clear =>
        rw [runCache] at hp
        exact ih [] (by intro x r h; simp [find] at h) p hp
      | call x =>
        rw [runCache, List.mem_cons] at hp
        cases hx : find c (repr x) with
        | some r =>
          have e : call repr f c x = (r, c) := by simp [call, hx]
          rw [e] at hp
          rcases hp with rfl | hp
          · exact hc x r hx
          · exact ih c hc p hp
        | none =>
          have e : call repr f c x = (f x, (repr x, f x) :: c) := by simp [call, hx]
          rw [e] at hp
          rcases hp with rfl | hp
          · rfl
          · refine ih _ ?_ p hp
            intro y r hy
            simp only [find] at hy
            split_ifs at hy with hk
            · cases hy; exact hr x y hk
            · exact hc y r hy
  exact gen es [] (by intro x r h; simp [find] at h)

/-- Whenever two arguments share a representation and differ in value, calling with one after the
other gives a wrong result. -/
theorem C103_repr_refuted (repr : α → κ) (f : α → β) (x y : α) (h : repr x = repr y)
    (hf : f x ≠ f y) : ∃ p ∈ runCache repr f [] [.call x, .call y], p.2 ≠ f p.1 := by
  refine ⟨(y, f x), ?_, hf⟩
  simp [runCache, call, find, h]

end

/-- Two numbers with the same eight digits. -/
example : (fun x : ℚ => ⌊x * 100000000⌋) (1 / 1000000000) = (fun x : ℚ => ⌊x * 100000000⌋) 0 ∧
    (1 / 1000000000 : ℚ) ≠ 0 := by
  norm_num

/-- Representation equal to the argument: the supposition of `C103_cache_partial` is met. -/
example : ∀ p ∈ runCache (fun x : Nat => x) (fun x => x * x) [] [.call 3, .call 4, .clear, .call 3],
    p.2 = p.1 * p.1 := by decide +kernel

end Verif.Implicit
