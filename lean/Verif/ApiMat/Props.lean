import Verif.ApiMat.Model
import Mathlib.Algebra.BigOperators.Ring.Finset
import Mathlib.Algebra.Order.BigOperators.Ring.Finset
import Mathlib.Algebra.Field.Rat
import Mathlib.Algebra.Order.Ring.Rat
import Mathlib.Tactic.Ring
import Mathlib.Tactic.Linarith
import Mathlib.Tactic.LinearCombination
import Mathlib.Tactic.FieldSimp
import Mathlib.Tactic.NormNum
import Mathlib.Tactic.IntervalCases
import Mathlib.Tactic.Positivity
import Mathlib.Tactic.SplitIfs

set_option linter.unusedSectionVars false

/-! # Vectors and matrices of mmcore/api -/

namespace Verif.ApiMat

open Finset

variable {K : Type} [Field K]

/-! ## C116: coordinate systems -/

/-- What a user expects of `set_with_coordinate_system` followed by `get_as_coordinate_system`. -/
def RoundTrip (d : Nat) (m : Mat K) (o : Vec K) (ax : Nat → Vec K) : Prop :=
  (∀ i < d, getOrigin d (setSystem d m o ax) i = o i) ∧
  ∀ k < d, ∀ i < d, getAxis (setSystem d m o ax) k i = ax k i

/-- The round trip succeeds exactly when the origin is zero and the matrix of the axes is symmetric. -/
theorem C116_roundtrip_iff (d : Nat) (m : Mat K) (o : Vec K) (ax : Nat → Vec K) :
    RoundTrip d m o ax ↔ (∀ i < d, o i = 0) ∧ ∀ k < d, ∀ i < d, ax k i = ax i k := by
  unfold RoundTrip getOrigin getAxis setSystem constructAffine
  constructor
  · rintro ⟨h1, h2⟩
    refine ⟨fun i hi => ?_, fun k hk i hi => ?_⟩
    · have := h1 i hi
      simp [hi] at this
      exact this.symm
    · have := h2 k hk i hi
      simp [hi, hk] at this
      exact this.symm
  · rintro ⟨h1, h2⟩
    refine ⟨fun i hi => ?_, fun k hk i hi => ?_⟩
    · simp [hi, h1 i hi]
    · simp [hi, hk, h2 k hk i hi]

/-- C116 fails for every system whose origin is not zero. -/
theorem C116_roundtrip_refuted (d : Nat) (m : Mat K) (o : Vec K) (ax : Nat → Vec K) (i : Nat)
    (hi : i < d) (ho : o i ≠ 0) : ¬ RoundTrip d m o ax := fun h =>
  ho (((C116_roundtrip_iff d m o ax).1 h).1 i hi)

example : ¬ RoundTrip 2 (ident : Mat ℚ) (fun i => i) ident :=
  C116_roundtrip_refuted 2 _ _ _ 1 (by norm_num) (by norm_num)

/-- A quarter turn at the origin does not survive the round trip either. -/
example : ¬ RoundTrip 2 (ident : Mat ℚ) (fun _ => 0)
    (fun k i => if k = 0 ∧ i = 1 then 1 else if k = 1 ∧ i = 0 then -1 else 0) := fun h => by
  have := ((C116_roundtrip_iff _ _ _ _).1 h).2 0 (by norm_num) 1 (by norm_num)
  norm_num at this

/-- The matrix sends the point with local coordinates zero to the world origin, whatever the origin given. -/
theorem C116_local_refuted (d : Nat) (m : Mat K) (o : Vec K) (ax : Nat → Vec K) (i : Nat)
    (hi : i < d) (ho : o i ≠ 0) : apply d (setSystem d m o ax) (fun _ => 0) i ≠ o i := by
  intro h
  apply ho
  rw [← h]
  simp [apply, setSystem, constructAffine, hi]

example : apply 3 (setSystem 3 (ident : Mat ℚ) (fun i => i) ident) (fun _ => 0) 2 ≠ 2 :=
  C116_local_refuted 3 _ (fun i => (i : ℚ)) _ 2 (by norm_num) (by norm_num)

/-- C116 (partial): multiplied from the left by the row `(c, 1)`, the matrix gives `origin + Σ c k * axis k`, and
a last coordinate one.  Missing: neither `@` nor `get_as_coordinate_system` uses this convention. -/
theorem C116_rows_partial (d : Nat) (m : Mat K) (o : Vec K) (ax : Nat → Vec K) (c : Vec K) :
    (∀ i < d, ∑ k ∈ range d, c k * setSystem d m o ax k i + setSystem d m o ax d i
      = o i + ∑ k ∈ range d, c k * ax k i) ∧
    ∑ k ∈ range d, c k * setSystem d m o ax k d + setSystem d m o ax d d = 1 := by
  constructor
  · intro i hi
    have : ∑ k ∈ range d, c k * setSystem d m o ax k i = ∑ k ∈ range d, c k * ax k i := by
      apply sum_congr rfl
      intro k hk
      simp [setSystem, constructAffine, mem_range.1 hk, hi]
    rw [this]
    simp [setSystem, constructAffine, hi, add_comm]
  · have : ∑ k ∈ range d, c k * setSystem d m o ax k d = 0 := by
      apply sum_eq_zero
      intro k hk
      simp [setSystem, constructAffine, mem_range.1 hk]
    rw [this]
    simp [setSystem, constructAffine]

/-- `set_to_align_coordinate_systems` never returns, and the previous value of the matrix is lost: what is left
reads as the transposed axes of the second system with a zero origin. -/
theorem C116_align_refuted (d : Nat) (m : Mat K) (fo go : Vec K) (fa ta : Nat → Vec K) :
    (setAlign d m fo fa go ta).1 = false ∧
    (∀ i < d, getOrigin d (setAlign d m fo fa go ta).2 i = 0) ∧
    ∀ k < d, ∀ i < d, getAxis (setAlign d m fo fa go ta).2 k i = ta i k := by
  refine ⟨rfl, fun i hi => ?_, fun k hk i hi => ?_⟩
  · simp [setAlign, setSystem, constructAffine, getOrigin, hi]
  · simp [setAlign, setSystem, constructAffine, getAxis, hi, hk]

/-! ## C117: rotations about a point -/

section rot
variable [LinearOrder K] [IsStrictOrderedRing K]

/-- `Matrix2D.set_to_rotation(angle, origin)` leaves `origin` in place exactly when the sine is zero or the origin
is. -/
theorem C117_fix2_iff (c s : K) (o : Vec K) (m : Mat K) :
    (∀ i < 2, apply 2 (setRotation2 c s (some o) m) o i = o i) ↔ s = 0 ∨ (o 0 = 0 ∧ o 1 = 0) := by
  have e0 : apply 2 (setRotation2 c s (some o) m) o 0 = o 0 - 2 * s * o 1 := by
    simp [apply, setRotation2, sum_range_succ]; ring
  have e1 : apply 2 (setRotation2 c s (some o) m) o 1 = o 1 + 2 * s * o 0 := by
    simp [apply, setRotation2, sum_range_succ]; ring
  constructor
  · intro h
    have h0 := h 0 (by norm_num)
    have h1 := h 1 (by norm_num)
    rw [e0] at h0
    rw [e1] at h1
    by_cases hs : s = 0
    · exact .inl hs
    · refine .inr ⟨?_, ?_⟩
      · have : s * o 0 = 0 := by linarith
        exact (mul_eq_zero.1 this).resolve_left hs
      · have : s * o 1 = 0 := by linarith
        exact (mul_eq_zero.1 this).resolve_left hs
  · rintro h i hi
    have : i = 0 ∨ i = 1 := by omega
    rcases this with rfl | rfl
    · rw [e0]; rcases h with h | h
      · rw [h]; ring
      · rw [h.2]; ring
    · rw [e1]; rcases h with h | h
      · rw [h]; ring
      · rw [h.1]; ring

/-- C117 in two dimensions fails for every rotation other than by a multiple of a half turn and every centre
other than zero. -/
theorem C117_rotate2_refuted (c s : K) (o : Vec K) (m : Mat K) (hs : s ≠ 0)
    (ho : o 0 ≠ 0 ∨ o 1 ≠ 0) : ∃ i < 2, apply 2 (setRotation2 c s (some o) m) o i ≠ o i := by
  by_contra h
  have h' : ∀ i < 2, apply 2 (setRotation2 c s (some o) m) o i = o i := fun i hi => by
    by_contra hne
    exact h ⟨i, hi, hne⟩
  rcases (C117_fix2_iff c s o m).1 h' with h1 | h1
  · exact hs h1
  · rcases ho with h2 | h2
    · exact h2 h1.1
    · exact h2 h1.2

example : ∃ i < 2, apply 2 (setRotation2 (3/5) (4/5) (some fun _ => 1) (ident : Mat ℚ)) (fun _ => 1) i ≠ 1 :=
  C117_rotate2_refuted (3/5) (4/5) (fun _ => (1 : ℚ)) ident (by norm_num) (by norm_num)

/-- Square of the distance of two points. -/
def dist2 (d : Nat) (p q : Vec K) : K := ∑ i ∈ range d, (p i - q i) * (p i - q i)

/-- C117 (partial, two dimensions): distances are kept, the linear part turns by the angle, and with centre zero
the centre stays.  Missing: other centres. -/
theorem C117_rotate2_partial (c s : K) (o : Option (Vec K)) (m : Mat K) (h : c * c + s * s = 1)
    (p q : Vec K) :
    dist2 2 (apply 2 (setRotation2 c s o m) p) (apply 2 (setRotation2 c s o m) q) = dist2 2 p q ∧
    (∀ w : Vec K, w = (fun i => apply 2 (setRotation2 c s o m) p i - apply 2 (setRotation2 c s o m) q i) →
      w 0 = c * (p 0 - q 0) - s * (p 1 - q 1) ∧ w 1 = s * (p 0 - q 0) + c * (p 1 - q 1)) ∧
    ∀ i < 2, apply 2 (setRotation2 c s (some fun _ => 0) m) (fun _ => 0) i = 0 := by
  have key : ∀ x : Vec K, ∃ t : Vec K, ∀ x : Vec K,
      apply 2 (setRotation2 c s o m) x 0 = c * x 0 - s * x 1 + t 0 ∧
      apply 2 (setRotation2 c s o m) x 1 = s * x 0 + c * x 1 + t 1 := by
    intro _
    cases o with
    | none =>
      refine ⟨fun i => m i 2, fun x => ?_⟩
      constructor <;> simp [apply, setRotation2, sum_range_succ] <;> ring
    | some o =>
      refine ⟨fun i => if i = 0 then o 0 - (o 0 * c + o 1 * s) else o 1 - (o 0 * -s + o 1 * c), fun x => ?_⟩
      constructor <;> simp [apply, setRotation2, sum_range_succ] <;> ring
  obtain ⟨t, ht⟩ := key p
  refine ⟨?_, ?_, ?_⟩
  · simp only [dist2, sum_range_succ, sum_range_zero]
    rw [(ht p).1, (ht p).2, (ht q).1, (ht q).2]
    linear_combination ((p 0 - q 0) ^ 2 + (p 1 - q 1) ^ 2) * h
  · rintro w rfl
    dsimp only
    rw [(ht p).1, (ht p).2, (ht q).1, (ht q).2]
    constructor <;> ring
  · intro i hi
    simp [apply, setRotation2, sum_range_succ, hi]

example : (3/5 : ℚ) * (3/5) + (4/5) * (4/5) = 1 := by norm_num

/-- Without a centre the translation the matrix had before stays: a second `set_to_rotation(angle)` does not give
the rotation about zero. -/
theorem C117_stale_refuted (c s : K) (m : Mat K) (i : Nat) (hi : i < 2) (hm : m i 2 ≠ 0) :
    apply 2 (setRotation2 c s none m) (fun _ => 0) i ≠ 0 := by
  have : i = 0 ∨ i = 1 := by omega
  rcases this with rfl | rfl <;> simpa [apply, setRotation2, sum_range_succ] using hm

example : apply 2 (setRotation2 (3/5) (4/5) none (setTranslation 2 (ident : Mat ℚ) fun _ => 7))
    (fun _ => 0) 1 ≠ 0 :=
  C117_stale_refuted _ _ _ 1 (by norm_num) (by norm_num [setTranslation])

/-- `r` is the matrix of a rotation of scipy: its columns are orthonormal. -/
def Orthogonal (r : Mat K) : Prop :=
  ∀ i < 3, ∀ j < 3, ∑ k ∈ range 3, r k i * r k j = if i = j then 1 else 0

theorem orth_dist (r : Mat K) (h : Orthogonal r) (w : Vec K) :
    ∑ i ∈ range 3, (∑ j ∈ range 3, r i j * w j) * (∑ j ∈ range 3, r i j * w j)
      = ∑ i ∈ range 3, w i * w i := by
  have h00 := h 0 (by norm_num) 0 (by norm_num)
  have h01 := h 0 (by norm_num) 1 (by norm_num)
  have h02 := h 0 (by norm_num) 2 (by norm_num)
  have h11 := h 1 (by norm_num) 1 (by norm_num)
  have h12 := h 1 (by norm_num) 2 (by norm_num)
  have h22 := h 2 (by norm_num) 2 (by norm_num)
  simp [sum_range_succ] at h00 h01 h02 h11 h12 h22 ⊢
  linear_combination w 0 * w 0 * h00 + w 1 * w 1 * h11 + w 2 * w 2 * h22 + 2 * w 0 * w 1 * h01 +
    2 * w 0 * w 2 * h02 + 2 * w 1 * w 2 * h12

theorem apply3 (r : Mat K) (o : Vec K) (m : Mat K) (p : Vec K) (i : Nat) (hi : i < 3) :
    apply 3 (setRotation3 r o m) p i = ∑ j ∈ range 3, r i j * p j + o i := by
  simp [apply, setRotation3, sum_range_succ, hi]

/-- C117 in three dimensions fails for every rotation, also the identity, and every centre other than zero. -/
theorem C117_rotate3_refuted (r : Mat K) (h : Orthogonal r) (o : Vec K) (m : Mat K)
    (ho : ∃ i < 3, o i ≠ 0) : ∃ i < 3, apply 3 (setRotation3 r o m) o i ≠ o i := by
  by_contra hc
  have h' : ∀ i < 3, ∑ j ∈ range 3, r i j * o j = 0 := fun i hi => by
    by_contra hne
    refine hc ⟨i, hi, fun he => hne ?_⟩
    rw [apply3 r o m o i hi] at he
    linarith
  have hs := orth_dist r h o
  rw [sum_eq_zero (fun i hi => by rw [h' i (mem_range.1 hi)]; ring)] at hs
  obtain ⟨i, hi, hne⟩ := ho
  have := (sum_eq_zero_iff_of_nonneg (fun i _ => mul_self_nonneg (o i))).1 hs.symm i (mem_range.2 hi)
  exact hne (mul_self_eq_zero.1 this)

theorem orthogonal_ident : Orthogonal (ident : Mat K) := by
  intro i hi j hj
  simp only [ident, sum_range_succ, sum_range_zero]
  interval_cases i <;> interval_cases j <;> simp

example : ∃ i < 3, apply 3 (setRotation3 (ident : Mat ℚ) (fun _ => 1) ident) (fun _ => 1) i ≠ 1 :=
  C117_rotate3_refuted ident orthogonal_ident (fun _ => (1 : ℚ)) ident ⟨0, by norm_num, by norm_num⟩

/-- C117 (partial, three dimensions): the matrix keeps distances, and it is the rotation about zero followed by the
translation by the centre.  Missing: the centre is not fixed. -/
theorem C117_rotate3_partial (r : Mat K) (h : Orthogonal r) (o : Vec K) (m : Mat K) (p q : Vec K) :
    dist2 3 (apply 3 (setRotation3 r o m) p) (apply 3 (setRotation3 r o m) q) = dist2 3 p q ∧
    ∀ i < 3, apply 3 (setRotation3 r o m) (fun _ => 0) i = o i := by
  constructor
  · have := orth_dist r h fun i => p i - q i
    unfold dist2
    rw [← this]
    apply sum_congr rfl
    intro i hi
    rw [apply3 r o m p i (mem_range.1 hi), apply3 r o m q i (mem_range.1 hi)]
    simp only [sum_range_succ, sum_range_zero]
    ring
  · intro i hi
    rw [apply3 r o m _ i hi]
    simp

/-! ## C118: turning one vector to another -/

/-- The cosine and sine of `arctan2 y x`. -/
def Arctan2Spec (cosA sinA : K → K → K) : Prop :=
  ∀ y x r : K, 0 < r → r * r = x * x + y * y → cosA y x * r = x ∧ sinA y x * r = y

/-- C118 in two dimensions: after `set_to_rotate_to(a, b)` the image of `a` has the direction of `b` (and the length
of `a`), whatever translation the matrix had. -/
theorem C118_rotateTo2 (cosA sinA : K → K → K) (hs : Arctan2Spec cosA sinA) (a b : Vec K) (m : Mat K)
    (la lb : K) (hla : 0 < la) (hlb : 0 < lb) (ha : la * la = a 0 * a 0 + a 1 * a 1)
    (hb : lb * lb = b 0 * b 0 + b 1 * b 1) :
    ∀ i < 2, lb * apply 2 (setRotateTo2 cosA sinA a b m) a i = la * b i := by
  have hr : (la * lb) * (la * lb) = (a 0 * b 0 + a 1 * b 1) * (a 0 * b 0 + a 1 * b 1)
      + (a 0 * b 1 - a 1 * b 0) * (a 0 * b 1 - a 1 * b 0) := by
    linear_combination lb * lb * ha + (a 0 * a 0 + a 1 * a 1) * hb
  obtain ⟨h1, h2⟩ := hs _ _ _ (mul_pos hla hlb) hr
  have e0 : apply 2 (setRotateTo2 cosA sinA a b m) a 0
      = cosA (a 0 * b 1 - a 1 * b 0) (a 0 * b 0 + a 1 * b 1) * a 0
        - sinA (a 0 * b 1 - a 1 * b 0) (a 0 * b 0 + a 1 * b 1) * a 1 := by
    simp [apply, setRotateTo2, setRotation2, sum_range_succ]; ring
  have e1 : apply 2 (setRotateTo2 cosA sinA a b m) a 1
      = sinA (a 0 * b 1 - a 1 * b 0) (a 0 * b 0 + a 1 * b 1) * a 0
        + cosA (a 0 * b 1 - a 1 * b 0) (a 0 * b 0 + a 1 * b 1) * a 1 := by
    simp [apply, setRotateTo2, setRotation2, sum_range_succ]
  have hne : la ≠ 0 := ne_of_gt hla
  intro i hi
  have : i = 0 ∨ i = 1 := by omega
  rcases this with rfl | rfl
  · rw [e0]
    apply mul_left_cancel₀ hne
    generalize cosA (a 0 * b 1 - a 1 * b 0) (a 0 * b 0 + a 1 * b 1) = C at *
    generalize sinA (a 0 * b 1 - a 1 * b 0) (a 0 * b 0 + a 1 * b 1) = S at *
    linear_combination a 0 * h1 - a 1 * h2 - b 0 * ha
  · rw [e1]
    apply mul_left_cancel₀ hne
    generalize cosA (a 0 * b 1 - a 1 * b 0) (a 0 * b 0 + a 1 * b 1) = C at *
    generalize sinA (a 0 * b 1 - a 1 * b 0) (a 0 * b 0 + a 1 * b 1) = S at *
    linear_combination a 0 * h2 + a 1 * h1 - b 1 * ha

/-- The two vectors are not parallel. -/
def NotParallel (a b : Vec K) : Prop := ∃ i < 3, cross a b i ≠ 0

/-- C118 in three dimensions fails for all vectors that are not parallel: the method returns `False`, and from the
identity the image of `a` is no multiple of `b`. -/
theorem C118_rotateTo3_refuted (close0 : Vec K → Bool) (hc : ∀ v : Vec K, close0 v = true → ∀ i < 3, v i = 0)
    (neg : K → Bool) (rot : Vec K → K → Mat K) (a b : Vec K) (axis : Option (Vec K))
    (hp : NotParallel a b) (m : Mat K) :
    (setRotateTo3 close0 neg rot a b axis m).1 = false ∧
    ∀ k : K, ∃ i < 3, apply 3 (setRotateTo3 close0 neg rot a b axis ident).2 a i ≠ k * b i := by
  obtain ⟨i, hi, hne⟩ := hp
  have hcl : close0 (cross a b) = false := by
    cases h : close0 (cross a b) with
    | false => rfl
    | true => exact absurd (hc _ h i hi) hne
  refine ⟨by simp [setRotateTo3, hcl], fun k => ?_⟩
  by_contra h
  have h' : ∀ i < 3, a i = k * b i := fun i hi => by
    by_contra hne
    refine h ⟨i, hi, fun he => hne ?_⟩
    rw [← he]
    have : i = 0 ∨ i = 1 ∨ i = 2 := by omega
    rcases this with rfl | rfl | rfl <;>
      simp [setRotateTo3, hcl, apply, ident, sum_range_succ]
  apply hne
  have := h' 0 (by norm_num)
  have := h' 1 (by norm_num)
  have := h' 2 (by norm_num)
  have hi' : i = 0 ∨ i = 1 ∨ i = 2 := by omega
  rcases hi' with rfl | rfl | rfl <;> simp [cross, *] <;> ring

example : NotParallel (fun i => if i = 0 then (1 : ℚ) else 0) (fun i => if i = 1 then 1 else 0) :=
  ⟨2, by norm_num, by norm_num [cross]⟩

/-- Opposite vectors without an axis: the rotation of a zero rotation vector leaves `a` where it is, so its image is no
positive multiple of `b`, though the method returns `True`. -/
theorem C118_opposite_refuted (close0 : Vec K → Bool) (hc : ∀ v : Vec K, (∀ i, v i = 0) → close0 v = true)
    (neg : K → Bool) (rot : Vec K → K → Mat K) (hrot : ∀ v x, (∀ i, v i = 0) → rot v x = ident)
    (a b : Vec K) (t : K) (ht : t < 0) (hb : ∀ i, b i = t * a i) (ha : ∃ i < 3, a i ≠ 0) :
    (setRotateTo3 close0 neg rot a b none ident).1 = true ∧
    ∀ k : K, 0 < k → ∃ i < 3, apply 3 (setRotateTo3 close0 neg rot a b none ident).2 a i ≠ k * b i := by
  have hz : ∀ i, cross a b i = 0 := fun i => by simp only [cross, hb]; ring
  have hcl := hc _ hz
  refine ⟨by simp [setRotateTo3, hcl], fun k hk => ?_⟩
  obtain ⟨i, hi, hne⟩ := ha
  refine ⟨i, hi, fun he => hne ?_⟩
  have e : apply 3 (setRotateTo3 close0 neg rot a b none ident).2 a i = a i := by
    have : i = 0 ∨ i = 1 ∨ i = 2 := by omega
    rcases this with rfl | rfl | rfl <;>
      simp [setRotateTo3, hcl, hrot _ _ hz, apply, ident, sum_range_succ]
  rw [e, hb] at he
  have h1 : (1 - k * t) * a i = 0 := by linear_combination he
  have h2 : 0 < 1 - k * t := by nlinarith [mul_pos hk (neg_pos.2 ht)]
  exact (mul_eq_zero.1 h1).resolve_left (ne_of_gt h2)

end rot

/-! ## C119: composition, inverse, translation -/

/-- The last row is `(0, ..., 0, 1)`. -/
def Affine (d : Nat) (m : Mat K) : Prop := ∀ j ≤ d, m d j = if j = d then 1 else 0

/-- C119: `(A @ B) @ v = A @ (B @ v)` when `B` is affine. -/
theorem C119_comp (d : Nat) (a b : Mat K) (hb : Affine d b) (v : Vec K) (i : Nat) :
    apply d (matmul d a b) v i = apply d a (apply d b v) i := by
  have hd : ∀ j < d, b d j = 0 := fun j hj => by rw [hb j hj.le, if_neg (Nat.ne_of_lt hj)]
  have hdd : b d d = 1 := by rw [hb d le_rfl, if_pos rfl]
  simp only [apply, matmul, sum_range_succ, hdd]
  rw [sum_congr rfl (g := fun j => ∑ k ∈ range d, a i k * b k j * v j) (fun j hj => by
    rw [hd j (mem_range.1 hj), mul_zero, add_zero, sum_mul])]
  rw [sum_comm]
  simp only [mul_add, sum_add_distrib, mul_sum, mul_one]
  rw [add_assoc]
  congr 1
  apply sum_congr rfl; intro k _; apply sum_congr rfl; intro j _; ring

/-- Products of affine matrices are affine. -/
theorem C119_comp_affine (d : Nat) (a b : Mat K) (ha : Affine d a) (hb : Affine d b) :
    Affine d (matmul d a b) := by
  intro j hj
  simp only [matmul, sum_range_succ]
  rw [sum_eq_zero (fun k hk => by
    rw [ha k (mem_range.1 hk).le, if_neg (Nat.ne_of_lt (mem_range.1 hk)), zero_mul]),
    ha d le_rfl, if_pos rfl, hb j hj]
  simp

/-- `np.linalg.inv` on an invertible matrix. -/
def InvSpec (d : Nat) (inv : Nat → Mat K → Mat K) (m : Mat K) : Prop :=
  (∀ i ≤ d, ∀ j ≤ d, matmul d (inv (d + 1) m) m i j = if i = j then 1 else 0) ∧
  ∀ i ≤ d, ∀ j ≤ d, matmul d m (inv (d + 1) m) i j = if i = j then 1 else 0

theorem apply_of_ident (d : Nat) (m : Mat K) (h : ∀ i ≤ d, ∀ j ≤ d, m i j = if i = j then 1 else 0)
    (v : Vec K) (i : Nat) (hi : i < d) : apply d m v i = v i := by
  unfold apply
  rw [h i hi.le d le_rfl, if_neg (Nat.ne_of_lt hi), sum_eq_single i]
  · rw [h i hi.le i hi.le, if_pos rfl]; ring
  · intro j hj hne
    rw [h i hi.le j (mem_range.1 hj).le, if_neg (Ne.symm hne), zero_mul]
  · intro hn; exact absurd (mem_range.2 hi) hn

/-- The inverse of an affine matrix is affine. -/
theorem C119_inverse_affine (d : Nat) (inv : Nat → Mat K → Mat K) (m : Mat K) (hm : Affine d m)
    (hs : InvSpec d inv m) : Affine d (invert inv d m) := by
  intro j hj
  have := hs.2 d le_rfl j hj
  simp only [matmul, sum_range_succ] at this
  rw [sum_eq_zero (fun k hk => by
    rw [hm k (mem_range.1 hk).le, if_neg (Nat.ne_of_lt (mem_range.1 hk)), zero_mul]),
    hm d le_rfl, if_pos rfl, zero_add, one_mul] at this
  unfold invert
  rw [this]
  simp [eq_comm]

/-- C119: after `invert` the matrix undoes what it did, on both sides. -/
theorem C119_inverse (d : Nat) (inv : Nat → Mat K → Mat K) (m : Mat K) (hm : Affine d m)
    (hs : InvSpec d inv m) (v : Vec K) (i : Nat) (hi : i < d) :
    apply d (invert inv d m) (apply d m v) i = v i ∧ apply d m (apply d (invert inv d m) v) i = v i := by
  constructor
  · rw [← C119_comp d _ _ hm]
    exact apply_of_ident d _ hs.1 v i hi
  · rw [← C119_comp d _ _ (C119_inverse_affine d inv m hm hs)]
    exact apply_of_ident d _ hs.2 v i hi

/-- C119: `v.to_translation() @ p = p + v`; two of them compose to the translation by the sum, and setting the
translation is what `translation` reads back. -/
theorem C119_translation (d : Nat) (m : Mat K) (u v p : Vec K) (i : Nat) (hi : i < d) :
    apply d (setTranslation d ident v) p i = p i + v i ∧
    apply d (matmul d (setTranslation d ident u) (setTranslation d ident v)) p i = p i + v i + u i ∧
    translation d (setTranslation d m v) i = v i := by
  have h1 : ∀ w q : Vec K, apply d (setTranslation d ident w) q i = q i + w i := by
    intro w q
    unfold apply
    rw [sum_eq_single i]
    · have : ¬ i = d := Nat.ne_of_lt hi
      simp [setTranslation, ident, hi, this]
    · intro j hj hne
      have : ¬ j = d := Nat.ne_of_lt (mem_range.1 hj)
      simp [setTranslation, ident, this, Ne.symm hne]
    · intro hn; exact absurd (mem_range.2 hi) hn
  have haff : Affine d (setTranslation d ident v) := by
    intro j hj
    simp [setTranslation, ident, eq_comm]
  refine ⟨h1 v p, ?_, ?_⟩
  · rw [C119_comp d _ _ haff, h1]
    congr 1
    exact h1 v p
  · simp [translation, setTranslation, hi]

/-- Rotations of the API are affine when the matrix was. -/
theorem C119_rotation_affine (c s : K) (o : Option (Vec K)) (r : Mat K) (o' : Vec K) (m : Mat K) :
    (Affine 2 m → Affine 2 (setRotation2 c s o m)) ∧ (Affine 3 m → Affine 3 (setRotation3 r o' m)) := by
  constructor
  · intro h j hj
    cases o <;> simp [setRotation2, h j hj]
  · intro h j hj
    simp [setRotation3, h j hj]

/-- A matrix set with a coordinate system is affine only when the origin is zero: the product of two of them is not the
composition of the two maps. -/
theorem C119_system_refuted (d : Nat) (m : Mat K) (o : Vec K) (ax : Nat → Vec K) (i : Nat) (hi : i < d)
    (ho : o i ≠ 0) : ¬ Affine d (setSystem d m o ax) := fun h => by
  have := h i hi.le
  simp [setSystem, constructAffine, hi, Nat.ne_of_lt hi] at this
  exact ho this

example : Affine 3 (ident : Mat ℚ) := fun j _ => by simp [ident, eq_comm]

example : InvSpec 2 (fun _ m => m) (ident : Mat ℚ) := by
  constructor <;> intro i hi j hj <;> interval_cases i <;> interval_cases j <;>
    simp [matmul, ident, sum_range_succ]

/-! ## C120: in-place operators -/

/-- C120 fails for every statement `x += y`, `x *= y`, `x -= y`: it succeeds, and the variable is `None` afterwards, so
that the same statement then raises. -/
theorem C120_inplace_refuted (op op' : Op) (x y a b : Nat) (e : Env K) (hx : e.var x = some a)
    (hy : e.var y = some b) :
    ∃ e', inplace op x y e = some e' ∧ e'.var x = none ∧ inplace op' x y e' = none := by
  refine ⟨_, by rw [inplace, hx, hy], by simp, ?_⟩
  simp [inplace]

/-- C120 (partial): the vector itself is changed as expected, no other vector and no other variable is.  Missing: the
variable does not keep the vector. -/
theorem C120_inplace_partial (op : Op) (x y a b : Nat) (e e' : Env K) (hx : e.var x = some a)
    (hy : e.var y = some b) (h : inplace op x y e = some e') :
    (∀ i, e'.obj a i = match op with
      | .add => e.obj a i + e.obj b i
      | .mul => e.obj a i * e.obj b i
      | .sub => e.obj a i - e.obj b i) ∧
    (∀ o, o ≠ a → e'.obj o = e.obj o) ∧ ∀ v, v ≠ x → e'.var v = e.var v := by
  rw [inplace, hx, hy] at h
  obtain rfl := Option.some.inj h
  refine ⟨fun i => ?_, fun o ho => by simp [ho], fun v hv => by simp [hv]⟩
  cases op <;> simp [Op.run]

/-- The method `subtract` keeps the variable. -/
theorem C120_subtract (x y a b : Nat) (e : Env K) (hx : e.var x = some a) (hy : e.var y = some b) :
    ∃ e', subtract x y e = some e' ∧ e'.var = e.var ∧ (∀ i, e'.obj a i = e.obj a i - e.obj b i) ∧
      ∀ o, o ≠ a → e'.obj o = e.obj o := by
  refine ⟨{ e with obj := fun o => if o = a then fun i => e.obj a i - e.obj b i else e.obj o },
    by rw [subtract, hx, hy], rfl, fun i => by simp, fun o ho => by simp [ho]⟩

example : (⟨fun _ _ => 1, fun v => some v⟩ : Env ℚ).var 3 = some 3 := rfl

/-! ## C121: predicates and measures -/

section meas
variable [LinearOrder K] [IsStrictOrderedRing K]

/-- `np.isclose` with an absolute and a relative tolerance. -/
def closeTo (atol rtol : K) (x y : K) : Bool := decide (|x - y| ≤ atol + rtol * |y|)

/-- A vector whose squared length is off one by more than the tolerance is not found parallel to itself. -/
theorem C121_parallel_refuted (atol rtol : K) (d : Nat) (a : Vec K) (h : atol + rtol < |dot d a a - 1|) :
    isParallel (closeTo atol rtol) (fun x => |x|) d a a = false := by
  have hn : 0 ≤ dot d a a := sum_nonneg fun i _ => mul_self_nonneg (a i)
  simp only [isParallel, closeTo, abs_of_nonneg hn, abs_one, mul_one, decide_eq_false_iff_not, not_le]
  exact h

example : isParallel (closeTo (1/100000000 : ℚ) (1/100000)) (fun x => |x|) 3 (fun _ => 1) (fun _ => 1) = false :=
  C121_parallel_refuted _ _ _ _ (by norm_num [dot, sum_range_succ])

/-- A vector with two entries not zero is found parallel to one that is not parallel to it, whatever tolerance. -/
theorem C121_parallel_false_refuted (atol rtol : K) (ht : 0 ≤ atol) (hr : 0 ≤ rtol) (a : Vec K)
    (h0 : a 0 ≠ 0) (h1 : a 1 ≠ 0) :
    ∃ b : Vec K, isParallel (closeTo atol rtol) (fun x => |x|) 2 a b = true ∧
      isParallel2 (closeTo atol rtol) a b = true ∧ ¬ ∃ k : K, ∀ i < 2, b i = k * a i := by
  refine ⟨fun i => if i = 0 then (a 0)⁻¹ else 0, ?_, ?_, ?_⟩
  · have : dot 2 a (fun i => if i = 0 then (a 0)⁻¹ else 0) = 1 := by
      simp [dot, sum_range_succ, h0]
    simp [isParallel, closeTo, this, add_nonneg ht hr]
  · have : dot 2 a (fun i => if i = 0 then (a 0)⁻¹ else 0) = 1 := by
      simp [dot, sum_range_succ, h0]
    simp [isParallel2, closeTo, this, add_nonneg ht hr]
  · rintro ⟨k, hk⟩
    have e1 := hk 1 (by norm_num)
    simp only [one_ne_zero, if_false] at e1
    have hk0 := (mul_eq_zero.1 e1.symm).resolve_right h1
    have e0 := hk 0 (by norm_num)
    rw [hk0] at e0
    simp [h0] at e0

/-- C121 (partial): for unit vectors and zero tolerance `is_parallel` is right.  Missing: vectors of other lengths. -/
theorem C121_parallel_partial (d : Nat) (a b : Vec K) (ha : dot d a a = 1) (hb : dot d b b = 1) :
    isParallel (closeTo 0 0) (fun x => |x|) d a b = true ↔ ∃ k : K, ∀ i < d, b i = k * a i := by
  have hexp : ∀ k : K, ∑ i ∈ range d, (b i - k * a i) * (b i - k * a i)
      = dot d b b - 2 * k * dot d a b + k * k * dot d a a := by
    intro k
    simp only [dot, mul_sum]
    rw [← sum_sub_distrib, ← sum_add_distrib]
    apply sum_congr rfl; intro i _; ring
  simp only [isParallel, closeTo, zero_mul, add_zero, decide_eq_true_eq]
  constructor
  · intro h
    have h1 : |dot d a b| = 1 := by
      have := abs_nonpos_iff.1 h
      linarith
    have hk : dot d a b * dot d a b = 1 := by rw [← abs_mul_abs_self, h1]; ring
    refine ⟨dot d a b, fun i hi => ?_⟩
    have h2 := hexp (dot d a b)
    rw [ha, hb] at h2
    have h3 : ∑ i ∈ range d, (b i - dot d a b * a i) * (b i - dot d a b * a i) = 0 := by
      rw [h2]; linear_combination -hk
    have h4 := (sum_eq_zero_iff_of_nonneg (fun i _ => mul_self_nonneg (b i - dot d a b * a i))).1 h3 i
      (mem_range.2 hi)
    have := mul_self_eq_zero.1 h4
    linarith
  · rintro ⟨k, hk⟩
    have h1 : dot d a b = k := by
      have : dot d a b = k * dot d a a := by
        simp only [dot, mul_sum]
        apply sum_congr rfl; intro i hi; rw [hk i (mem_range.1 hi)]; ring
      rw [this, ha, mul_one]
    have h2 : k * k = 1 := by
      have : dot d b b = k * k * dot d a a := by
        simp only [dot, mul_sum]
        apply sum_congr rfl; intro i hi; rw [hk i (mem_range.1 hi)]; ring
      rw [hb, ha, mul_one] at this
      exact this.symm
    rw [h1]
    have h3 : |k| = 1 := by
      have : |k| * |k| = 1 := by rw [abs_mul_abs_self, h2]
      nlinarith [abs_nonneg k]
    rw [h3]; simp

example : dot 2 (fun i => if i = 0 then (3/5 : ℚ) else 4/5) (fun i => if i = 0 then (3/5 : ℚ) else 4/5) = 1 := by
  norm_num [dot, sum_range_succ]

/-- `Vector2D.is_parallel` says no for every unit vector and its opposite (tolerances below one). -/
theorem C121_opposite_refuted (atol rtol : K) (h : atol + rtol < 2) (a : Vec K) (ha : dot 2 a a = 1) :
    isParallel2 (closeTo atol rtol) a (fun i => - a i) = false := by
  have : dot 2 a (fun i => - a i) = -1 := by
    rw [← ha]; simp [dot, sum_range_succ]; try ring
  simp only [isParallel2, closeTo, this, abs_one, mul_one, decide_eq_false_iff_not, not_le]
  have : |(-1 : K) - 1| = 2 := by rw [abs_of_neg] <;> norm_num
  rw [this]; exact h

/-- `is_perpendicular` says yes for every short vector and itself. -/
theorem C121_perp_refuted (atol rtol : K) (d : Nat) (a : Vec K) (h : dot d a a ≤ atol) :
    isPerpendicular (closeTo atol rtol) d a a = true := by
  have hn : 0 ≤ dot d a a := sum_nonneg fun i _ => mul_self_nonneg (a i)
  simp only [isPerpendicular, closeTo, sub_zero, abs_zero, mul_zero, add_zero, decide_eq_true_eq,
    abs_of_nonneg hn]
  exact h

example : dot 3 (fun _ => (1/100000 : ℚ)) (fun _ => 1/100000) ≤ 1/100000000 := by
  norm_num [dot, sum_range_succ]

/-- `angle_to` depends on the lengths: for all vectors with a positive product there is a positive factor for which it
raises. -/
theorem C121_angle_refuted (arccos : K → K) (d : Nat) (a b : Vec K) (h : 0 < dot d a b) :
    ∃ t : K, 0 < t ∧ angleTo arccos d (fun i => t * a i) b = none := by
  refine ⟨2 / dot d a b, by positivity, ?_⟩
  have : dot d (fun i => 2 / dot d a b * a i) b = 2 := by
    have : dot d (fun i => 2 / dot d a b * a i) b = 2 / dot d a b * dot d a b := by
      rw [dot, dot, mul_sum]
      apply sum_congr rfl; intro i _; ring
    rw [this]; field_simp
  unfold angleTo
  rw [this]
  exact if_pos (.inr (by norm_num))

/-- C121 (partial): for unit vectors `angle_to` is the inverse cosine of the product, and it always returns.  Missing:
vectors of other lengths. -/
theorem C121_angle_partial (arccos : K → K) (d : Nat) (a b : Vec K) (ha : dot d a a = 1) (hb : dot d b b = 1) :
    angleTo arccos d a b = some (arccos (dot d a b)) := by
  have h : ∀ e : K, e * e = 1 → 0 ≤ 2 + 2 * e * dot d a b := by
    intro e he
    have : (2 : K) + 2 * e * dot d a b = ∑ i ∈ range d, (a i + e * b i) * (a i + e * b i) := by
      have h1 : ∑ i ∈ range d, (a i + e * b i) * (a i + e * b i)
          = dot d a a + 2 * e * dot d a b + e * e * dot d b b := by
        simp only [dot, mul_sum]
        rw [← sum_add_distrib, ← sum_add_distrib]
        apply sum_congr rfl; intro i _; ring
      rw [h1, ha, hb, he]; ring
    rw [this]
    exact sum_nonneg fun i _ => mul_self_nonneg _
  have h1 := h 1 (by ring)
  have h2 := h (-1) (by ring)
  unfold angleTo
  rw [if_neg]
  rintro (h3 | h3) <;> linarith

end meas

/-- `Vector3D.length` raises for every vector, while the property of `Vector2D` gives the norm. -/
theorem C121_length_refuted (sqrt : K → K) (v : Vec K) :
    length3 sqrt v = none ∧ length2 sqrt v = some (sqrt (v 0 * v 0 + v 1 * v 1)) := by
  refine ⟨rfl, ?_⟩
  simp [length2, dot, sum_range_succ]

/-- `Vector2D.transform` raises for every matrix and vector. -/
theorem C121_transform_refuted (m : Mat K) (v : Vec K) : transform2 m v = none := by
  simp [transform2, npDot]

/-! ## C122: casts and constructors -/

/-- C122: `Vector2D.cast` of a sequence of at least two numbers keeps the first two. -/
theorem C122_cast2 (n : Nat) (l : List K) (h : 2 ≤ l.length) : cast2 (n + 2) l = some (l.take 2) := by
  unfold cast2
  split_ifs with h2
  · rw [List.take_of_length_le h2.le]
  · unfold cast2
    rw [if_pos (by simp [h])]

/-- For shorter sequences the recursion has no end. -/
theorem C122_cast2_refuted (n : Nat) (l : List K) (h : l.length < 2) : cast2 n l = none := by
  induction n generalizing l with
  | zero => rfl
  | succ n ih =>
    unfold cast2
    rw [if_neg (by omega)]
    exact ih _ (by rw [List.length_take]; omega)

/-- C122: `Vector3D.cast` of any sequence has three entries: those of the sequence, then zeros. -/
theorem C122_cast3 (n : Nat) (l : List K) :
    ∃ r, cast3 (n + 2) l = some r ∧ r.length = 3 ∧ ∀ i < 3, r.getD i 0 = l.getD i 0 := by
  have hg : ∀ i < 3, ((l ++ [0, 0, 0]).take 3).getD i 0 = l.getD i 0 := by
    intro i hi
    match l with
    | [] => interval_cases i <;> rfl
    | [a] => interval_cases i <;> rfl
    | [a, b] => interval_cases i <;> rfl
    | a :: b :: c :: t => interval_cases i <;> rfl
  have hl : ((l ++ [0, 0, 0]).take 3).length = 3 := by simp
  unfold cast3
  split_ifs with h
  · exact ⟨l, rfl, h, fun _ _ => rfl⟩
  · unfold cast3
    rw [if_pos hl]
    exact ⟨_, rfl, hl, hg⟩

/-- A matrix built from cells is the identity, whatever the cells; one built from an array does not exist. -/
theorem C122_matrix_refuted (d : Nat) (m : Mat K) :
    (∃ r, newMatrix (.cells m) = some r ∧ ∀ v : Vec K, ∀ i < d, apply d r v i = v i) ∧
    newMatrix (.ndarray m) = none := by
  refine ⟨⟨_, rfl, fun v i hi => ?_⟩, rfl⟩
  exact apply_of_ident d _ (fun _ _ _ _ => rfl) v i hi

end Verif.ApiMat
