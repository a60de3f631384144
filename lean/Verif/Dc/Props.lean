import Verif.Dc.Model
import Mathlib.Tactic.Linarith
import Mathlib.Tactic.Ring
import Mathlib.Tactic.NormNum
import Mathlib.Tactic.Positivity
import Mathlib.Tactic.FieldSimp
import Mathlib.Tactic.DeriveFintype
import Mathlib.Data.Fintype.Pi

/-! # C340–C344: shapes, zeros on sides and segments of cells -/

set_option linter.unusedSectionVars false

namespace Verif.Dc
open Verif.ImplTree

variable {K : Type} [Field K] [LinearOrder K] [IsStrictOrderedRing K]

/-! ## C340 -/

/-- C340: where a point lies with respect to combined shapes (negative is inside). -/
theorem C340_shapes (a b : P K → K) (p : P K) :
    (union a b p < 0 ↔ a p < 0 ∨ b p < 0) ∧ (intersection a b p < 0 ↔ a p < 0 ∧ b p < 0) ∧ (inv a p < 0 ↔ 0 < a p) ∧
    (substract a b p < 0 ↔ a p < 0 ∧ 0 < b p) ∧ (opXor (a p) (b p) < 0 ↔ (a p < 0 ∧ 0 < b p) ∨ (0 < a p ∧ b p < 0)) := by
  refine ⟨?_, ?_, ?_, ?_, ?_⟩
  · simp only [union, opUnion, min_lt_iff]
  · simp only [intersection, opIntersection, max_lt_iff]
  · unfold inv; constructor <;> intro h <;> linarith
  · simp only [substract, opSubtraction, max_lt_iff, neg_lt_zero]
    exact and_comm
  · simp only [opXor, max_lt_iff, min_lt_iff, neg_lt_zero, lt_max_iff]
    constructor
    · rintro ⟨h1 | h1, h2 | h2⟩
      · exact absurd (h1.trans h2) (lt_irrefl _)
      · exact Or.inl ⟨h1, h2⟩
      · exact Or.inr ⟨h2, h1⟩
      · exact absurd (h1.trans h2) (lt_irrefl _)
    · rintro (⟨h1, h2⟩ | ⟨h1, h2⟩)
      · exact ⟨Or.inl h1, Or.inr h2⟩
      · exact ⟨Or.inr h2, Or.inl h1⟩

/-- The inside of `rectangle` is the open rectangle. -/
theorem C340_rectangle (mn mx p : P K) :
    rectangle mn mx p < 0 ↔ mn.1 < p.1 ∧ p.1 < mx.1 ∧ mn.2 < p.2 ∧ p.2 < mx.2 := by
  simp only [rectangle, intersection, opIntersection, max_lt_iff, right, left, upper, lower, sub_neg]

example : rectangle ((0, 0) : P ℚ) (2, 1) (1, 1 / 2) < 0 ∧ ¬rectangle ((0, 0) : P ℚ) (2, 1) (1, 3 / 2) < 0 ∧
    substract (rectangle ((0, 0) : P ℚ) (2, 1)) (left 1) (3 / 2, 1 / 2) < 0 := by decide +kernel

/-! ## C341 -/

/-- What is used of the square root. -/
def IsSqrt (sqrt : K → K) : Prop := ∀ y, 0 ≤ y → 0 ≤ sqrt y ∧ sqrt y * sqrt y = y

/-- C341, for tuples: the inside of `circle` is the open disk, and zero is exactly the circle. -/
theorem C341_tuple_partial (sqrt : K → K) (hs : IsSqrt sqrt) (c : P K) (r : K) (hr : 0 ≤ r) (p : P K) :
    (circle sqrt c r p < 0 ↔ (p.1 - c.1) ^ 2 + (p.2 - c.2) ^ 2 < r ^ 2) ∧
    (circle sqrt c r p = 0 ↔ (p.1 - c.1) ^ 2 + (p.2 - c.2) ^ 2 = r ^ 2) := by
  have h0 : 0 ≤ (c.1 - p.1) ^ 2 + (c.2 - p.2) ^ 2 := by positivity
  obtain ⟨h1, h2⟩ := hs _ h0
  unfold circle
  set d := sqrt ((c.1 - p.1) ^ 2 + (c.2 - p.2) ^ 2)
  have e : (p.1 - c.1) ^ 2 + (p.2 - c.2) ^ 2 = d * d := by rw [h2]; ring
  rw [e]
  constructor
  · rw [sub_neg, ← pow_two]
    exact ⟨fun h => by nlinarith, fun h => lt_of_pow_lt_pow_left₀ 2 hr h⟩
  · rw [sub_eq_zero, ← pow_two]
    exact ⟨fun h => by rw [h], fun h => by
      rcases sq_eq_sq_iff_eq_or_eq_neg.1 h with h' | h'
      · exact h'
      · linarith⟩

/-- For arrays it is something else: points as far away as one likes, in the direction (1, -1), are inside. -/
theorem C341_array_refuted (sqrt : K → K) (hs : IsSqrt sqrt) (c : P K) (r : K) (hr : 0 < r) (t : K) :
    circleArr sqrt c r [(c.1 + t, c.2 - t)] < 0 ∧ (∀ u, r ^ 2 < 2 * u ^ 2 → 0 < circle sqrt c r (c.1 + u, c.2 - u)) := by
  constructor
  · obtain ⟨h1, h2⟩ := hs 0 (le_refl _)
    have h3 : sqrt 0 = 0 := mul_self_eq_zero.1 h2
    have : (([(c.1 + t, c.2 - t)] : List (P K)).map fun p => (c.1 - p.1) + (c.2 - p.2)).sum ^ 2 = 0 := by
      simp
    unfold circleArr
    rw [this, h3]
    linarith
  · intro u hu
    have h := C341_tuple_partial sqrt hs c r hr.le (c.1 + u, c.2 - u)
    have e : ((c.1 + u, c.2 - u) : P K).1 - c.1 = u ∧ ((c.1 + u, c.2 - u) : P K).2 - c.2 = -u := ⟨by ring, by ring⟩
    rw [e.1, e.2] at h
    rcases lt_trichotomy (circle sqrt c r (c.1 + u, c.2 - u)) 0 with g | g | g
    · have := h.1.1 g; nlinarith
    · have := h.2.1 g; nlinarith
    · exact g

/-- And an array of several points gives one number for all of them. -/
theorem C341_many_refuted (sqrt : K → K) (c : P K) (r : K) (ps : List (P K)) (p : P K) :
    circleArr sqrt c r (ps ++ [(c.1 + (c.1 - p.1), c.2 + (c.2 - p.2)), p]) = circleArr sqrt c r ps := by
  unfold circleArr
  congr 2
  simp only [List.map_append, List.sum_append, List.map_cons, List.map_nil, List.sum_cons, List.sum_nil]
  congr 1
  ring

/-- A root on the squares of rational numbers that are needed. -/
example : let sq : ℚ → ℚ := fun y => if y = 25 then 5 else if y = 49 then 7 else 0
    circle sq (0, 0) 4 (3, 4) = 1 ∧ circleArr sq (0, 0) 4 [(3, 4)] = 3 := by decide +kernel

/-! ## C342 -/

/-- C342, values: each entry of the result is the one of the two with the larger absolute value, the first one if they are equal. -/
theorem C342_values (a b : List K) (i : Nat) (x y : K) (hx : a[i]? = some x) (hy : b[i]? = some y) :
    ∃ z, (ndMaxArr a b)[i]? = some z ∧ (z = x ∨ z = y) ∧ |x| ≤ |z| ∧ |y| ≤ |z| := by
  refine ⟨if |x| < |y| then y else x, ?_, ?_⟩
  · unfold ndMaxArr
    rw [List.getElem?_zipWith, hx, hy]
  · split_ifs with h
    · exact ⟨Or.inr rfl, h.le, le_refl _⟩
    · exact ⟨Or.inl rfl, le_refl _, not_lt.1 h⟩

theorem C342_numbers (a b : K) : (absCmp a b = a ∨ absCmp a b = b) ∧ |a| ≤ |absCmp a b| ∧ |b| ≤ |absCmp a b| := by
  unfold absCmp
  split_ifs with h
  · exact ⟨Or.inl rfl, le_refl _, by rw [h]; exact le_max_right _ _⟩
  · refine ⟨Or.inr rfl, ?_, le_refl _⟩
    by_contra hc
    exact h (max_eq_left (not_le.1 hc).le).symm

theorem C342_mixed (a : List K) (b : K) (i : Nat) (x : K) (hx : a[i]? = some x) :
    (∃ z, (ndMaxL a b)[i]? = some z ∧ (z = x ∨ z = b) ∧ |x| ≤ |z| ∧ |b| ≤ |z|) ∧
    (∃ z, (ndMaxR b a)[i]? = some z ∧ (z = x ∨ z = b) ∧ |x| ≤ |z| ∧ |b| ≤ |z|) := by
  have key : ∃ z, (a.map fun x => if |x| < |b| then b else x)[i]? = some z ∧ (z = x ∨ z = b) ∧ |x| ≤ |z| ∧ |b| ≤ |z| := by
    refine ⟨if |x| < |b| then b else x, ?_, ?_⟩
    · rw [List.getElem?_map, hx]; rfl
    · split_ifs with h
      · exact ⟨Or.inr rfl, h.le, le_refl _⟩
      · exact ⟨Or.inl rfl, le_refl _, not_lt.1 h⟩
  exact ⟨key, key⟩

/-- The first array is changed: after the call it holds the result, so it differs from what it was as soon as an entry of the second is larger. -/
theorem C342_argument_refuted (a b : List K) (i : Nat) (x y : K) (hx : a[i]? = some x) (hy : b[i]? = some y) (h : |x| < |y|) :
    ndMaxArr a b ≠ a := by
  intro e
  have : (ndMaxArr a b)[i]? = some y := by
    unfold ndMaxArr
    rw [List.getElem?_zipWith, hx, hy]
    simp [h]
  rw [e, hx, Option.some_inj] at this
  rw [this] at h
  exact lt_irrefl _ h

example : ndMaxArr [(1 : ℚ), -3, 2] [-2, 3, 1] = [-2, -3, 2] := by decide +kernel

/-! ## C343 -/

theorem zeroRec_spec (s : P K → K) (a b : P K) : ∀ (i : Nat) (f st : K), 0 ≤ st → s (pos a b (f - 2 * st)) < 0 → 0 ≤ s (pos a b (f + 2 * st)) →
    ∃ g, zeroRec s a b f st i = pos a b g ∧ f - 2 * st ≤ g ∧ g ≤ f + 2 * st ∧ s (pos a b (g - 2 * st / 2 ^ i)) < 0 ∧
      0 ≤ s (pos a b (g + 2 * st / 2 ^ i)) := by
  intro i
  induction i with
  | zero =>
    intro f st h0 h1 h2
    exact ⟨f, rfl, by linarith, by linarith, by simpa using h1, by simpa using h2⟩
  | succ i ih =>
    intro f st h0 h1 h2
    unfold zeroRec
    split_ifs with hs
    · obtain ⟨g, e, g1, g2, g3, g4⟩ := ih (f + st) (st / 2) (by linarith)
        (by rw [show f + st - 2 * (st / 2) = f by ring]; exact hs) (by rw [show f + st + 2 * (st / 2) = f + 2 * st by ring]; exact h2)
      have e2 : 2 * (st / 2) / 2 ^ i = 2 * st / 2 ^ (i + 1) := by rw [pow_succ]; field_simp
      rw [e2] at g3 g4
      exact ⟨g, e, by linarith, by linarith, g3, g4⟩
    · obtain ⟨g, e, g1, g2, g3, g4⟩ := ih (f - st) (st / 2) (by linarith)
        (by rw [show f - st - 2 * (st / 2) = f - 2 * st by ring]; exact h1)
        (by rw [show f - st + 2 * (st / 2) = f by ring]; exact not_lt.1 hs)
      have e2 : 2 * (st / 2) / 2 ^ i = 2 * st / 2 ^ (i + 1) := by rw [pow_succ]; field_simp
      rw [e2] at g3 g4
      exact ⟨g, e, by linarith, by linarith, g3, g4⟩

theorem pos_swap (a b : P K) (f : K) : pos b a f = pos a b (1 - f) := by
  unfold pos
  ext <;> ring

/-- C343: between two points with different signs, `zero` returns a point of the segment with a change of sign within 1/2048 of the length. -/
theorem C343_zero (s : P K → K) (a b : P K) (h : (s a < 0 ∧ 0 ≤ s b) ∨ (0 ≤ s a ∧ s b < 0)) (n : Nat) (hn : 2 ≤ n) :
    ∃ g, zero s n a b = some (pos a b g) ∧ 0 ≤ g ∧ g ≤ 1 ∧
      ∃ g1 g2, |g1 - g| ≤ 1 / 2048 ∧ |g2 - g| ≤ 1 / 2048 ∧ s (pos a b g1) < 0 ∧ 0 ≤ s (pos a b g2) := by
  obtain ⟨n, rfl⟩ : ∃ k, n = k + 2 := ⟨n - 2, by omega⟩
  have key : ∀ a b : P K, s a < 0 → 0 ≤ s b → ∃ g, zeroRec s a b (1 / 2) (1 / 4) 10 = pos a b g ∧ 0 ≤ g ∧ g ≤ 1 ∧
      s (pos a b (g - 1 / 2048)) < 0 ∧ 0 ≤ s (pos a b (g + 1 / 2048)) := by
    intro a b ha hb
    have p0 : pos a b (1 / 2 - 2 * (1 / 4)) = a := by unfold pos; ext <;> ring
    have p1 : pos a b (1 / 2 + 2 * (1 / 4)) = b := by unfold pos; ext <;> ring
    obtain ⟨g, e, g1, g2, g3, g4⟩ := zeroRec_spec s a b 10 (1 / 2) (1 / 4) (by norm_num) (by rw [p0]; exact ha) (by rw [p1]; exact hb)
    have e2 : (2 : K) * (1 / 4) / 2 ^ 10 = 1 / 2048 := by norm_num
    rw [e2] at g3 g4
    exact ⟨g, e, by linarith, by linarith, g3, g4⟩
  rcases h with ⟨ha, hb⟩ | ⟨ha, hb⟩
  · obtain ⟨g, e, g1, g2, g3, g4⟩ := key a b ha hb
    refine ⟨g, ?_, g1, g2, g - 1 / 2048, g + 1 / 2048, ?_, ?_, g3, g4⟩
    · unfold zero
      rw [if_neg (not_le.2 ha), e]
    · rw [abs_le]; constructor <;> linarith
    · rw [abs_le]; constructor <;> linarith
  · obtain ⟨g, e, g1, g2, g3, g4⟩ := key b a hb ha
    refine ⟨1 - g, ?_, by linarith, by linarith, 1 - (g - 1 / 2048), 1 - (g + 1 / 2048), ?_, ?_, ?_, ?_⟩
    · unfold zero
      rw [if_pos ha]
      unfold zero
      rw [if_neg (not_le.2 hb), e, pos_swap]
    · rw [abs_le]; constructor <;> linarith
    · rw [abs_le]; constructor <;> linarith
    · rw [← pos_swap]; exact g3
    · rw [← pos_swap]; exact g4

/-- Between two points that are not inside, `zero` calls itself for ever. -/
theorem C343_endless_refuted (s : P K → K) (n : Nat) : ∀ a b : P K, 0 ≤ s a → 0 ≤ s b → zero s n a b = none := by
  induction n with
  | zero => intro a b _ _; rfl
  | succ n ih =>
    intro a b ha hb
    unfold zero
    rw [if_pos ha]
    exact ih b a hb ha

example : zero (fun p : P ℚ => p.1 - 1 / 3) 2 (0, 0) (1, 2) = some (683 / 2048, 683 / 1024) := by decide +kernel

/-! ## C344 -/

/-- A shape changes sign along a side of a cell. -/
def Crossed (s : P K → K) (c : Q K) (e : Side) : Prop := ¬(s (sideEnds c e).1 < 0 ↔ s (sideEnds c e).2 < 0)

/-- The segments for given signs of the four corners. -/
def tab (a b c d : Bool) : List (Side × Side) :=
  lut.getD ((if a then 8 else 0) + (if b then 4 else 0) + (if c then 2 else 0) + (if d then 1 else 0)) []

theorem edges_tab (s : P K → K) (c : Q K) :
    edges s c = tab (decide (s (c.1.1, c.1.2) < 0)) (decide (s (c.2.1, c.1.2) < 0)) (decide (s (c.1.1, c.2.2) < 0)) (decide (s (c.2.1, c.2.2) < 0)) := by
  unfold edges index tab
  congr 1
  simp [List.zipIdx, add_assoc]

theorem tab0 : tab false false false false = [] := rfl
theorem tab1 : tab false false false true = [(.Upper, .Right)] := rfl
theorem tab2 : tab false false true false = [(.Left, .Upper)] := rfl
theorem tab3 : tab false false true true = [(.Left, .Right)] := rfl
theorem tab4 : tab false true false false = [(.Right, .Lower)] := rfl
theorem tab5 : tab false true false true = [(.Upper, .Lower)] := rfl
theorem tab6 : tab false true true false = [(.Right, .Lower), (.Left, .Upper)] := rfl
theorem tab7 : tab false true true true = [(.Left, .Lower)] := rfl
theorem tab8 : tab true false false false = [(.Lower, .Left)] := rfl
theorem tab9 : tab true false false true = [(.Lower, .Left), (.Upper, .Right)] := rfl
theorem tab10 : tab true false true false = [(.Lower, .Upper)] := rfl
theorem tab11 : tab true false true true = [(.Lower, .Right)] := rfl
theorem tab12 : tab true true false false = [(.Right, .Left)] := rfl
theorem tab13 : tab true true false true = [(.Upper, .Left)] := rfl
theorem tab14 : tab true true true false = [(.Right, .Upper)] := rfl
theorem tab15 : tab true true true true = [] := rfl

/-- The signs at the ends of a side. -/
def ends (a b c d : Bool) : Side → Bool × Bool
  | .Left => (a, c)
  | .Right => (b, d)
  | .Lower => (a, b)
  | .Upper => (c, d)

theorem ends_eq (s : P K → K) (c : Q K) (e : Side) :
    (decide (s (sideEnds c e).1 < 0), decide (s (sideEnds c e).2 < 0)) =
      ends (decide (s (c.1.1, c.1.2) < 0)) (decide (s (c.2.1, c.1.2) < 0)) (decide (s (c.1.1, c.2.2) < 0)) (decide (s (c.2.1, c.2.2) < 0)) e := by
  cases e <;> rfl

theorem tab_sides : ∀ (a b c d : Bool), ∀ e ∈ [Side.Upper, .Lower, .Left, .Right],
    ((tab a b c d).flatMap fun x => [x.1, x.2]).count e = if (ends a b c d e).1 = (ends a b c d e).2 then 0 else 1 := by decide

/-- C344: every side with a change of sign belongs to exactly one segment, and the other sides to none. -/
theorem C344_sides (s : P K → K) (c : Q K) (e : Side) :
    (Crossed s c e → ((edges s c).flatMap fun x => [x.1, x.2]).count e = 1) ∧
    (¬Crossed s c e → ((edges s c).flatMap fun x => [x.1, x.2]).count e = 0) := by
  rw [edges_tab, tab_sides _ _ _ _ e (by cases e <;> simp), ← ends_eq]
  unfold Crossed
  simp only [decide_eq_decide]
  constructor <;> intro h
  · rw [if_neg h]
  · rw [if_pos (not_not.1 h)]

/-- Twice the area of a triangle with its sign: positive if the third point lies on the left of the line from the first to the second. -/
def turn (p q r : P K) : K := (q.1 - p.1) * (r.2 - p.2) - (q.2 - p.2) * (r.1 - p.1)

/-- And every segment has the inside on its left: whatever inner points of the two sides it joins, the inner ends of both sides are on its left and
the outer ends are on its right. -/
theorem C344_left (s : P K → K) (c : Q K) (hx : c.1.1 < c.2.1) (hy : c.1.2 < c.2.2) (e : Side × Side) (he : e ∈ edges s c) (f g : K)
    (hf0 : 0 < f) (hf1 : f < 1) (hg0 : 0 < g) (hg1 : g < 1) (r : P K)
    (hr : r = (sideEnds c e.1).1 ∨ r = (sideEnds c e.1).2 ∨ r = (sideEnds c e.2).1 ∨ r = (sideEnds c e.2).2) :
    (s r < 0 → 0 < turn (pos (sideEnds c e.1).1 (sideEnds c e.1).2 f) (pos (sideEnds c e.2).1 (sideEnds c e.2).2 g) r) ∧
    (0 ≤ s r → turn (pos (sideEnds c e.1).1 (sideEnds c e.1).2 f) (pos (sideEnds c e.2).1 (sideEnds c e.2).2 g) r < 0) := by
  obtain ⟨⟨x0, y0⟩, ⟨x1, y1⟩⟩ := c
  simp only at hx hy
  obtain ⟨w, rfl⟩ : ∃ w, x1 = x0 + w := ⟨x1 - x0, by ring⟩
  obtain ⟨h, rfl⟩ : ∃ h, y1 = y0 + h := ⟨y1 - y0, by ring⟩
  have hw : 0 < w := by linarith
  have hh : 0 < h := by linarith
  have a1 : 0 < w * h * (f * g) := mul_pos (mul_pos hw hh) (mul_pos hf0 hg0)
  have a2 : 0 < w * h * (f * (1 - g)) := mul_pos (mul_pos hw hh) (mul_pos hf0 (by linarith))
  have a3 : 0 < w * h * ((1 - f) * g) := mul_pos (mul_pos hw hh) (mul_pos (by linarith) hg0)
  have a4 : 0 < w * h * ((1 - f) * (1 - g)) := mul_pos (mul_pos hw hh) (mul_pos (by linarith) (by linarith))
  rw [edges_tab] at he
  by_cases h1 : s (x0, y0) < 0 <;> by_cases h2 : s (x0 + w, y0) < 0 <;> by_cases h3 : s (x0, y0 + h) < 0 <;>
    by_cases h4 : s (x0 + w, y0 + h) < 0 <;> simp only [h1, h2, h3, h4, decide_true, decide_false, tab0, tab1, tab2, tab3, tab4, tab5, tab6, tab7, tab8, tab9, tab10, tab11, tab12, tab13, tab14, tab15, List.mem_cons, List.not_mem_nil, or_false] at he <;> (try rcases he with rfl | rfl) <;> (try subst he) <;>
    simp only [sideEnds] at hr ⊢ <;> rcases hr with rfl | rfl | rfl | rfl <;>
    refine ⟨fun hs => ?_, fun hs => ?_⟩ <;>
    first
      | exact absurd hs ‹_›
      | exact absurd (not_lt.2 hs) (not_not.2 ‹_›)
      | (simp only [turn, pos]; linarith)

example : edges (fun p : P ℚ => p.1 + p.2 - 1) ((0, 0), (2, 2)) = [(.Lower, .Left)] ∧
    contours (fun p : P ℚ => p.1 + p.2 - 1) 2 ((0, 0), (2, 2)) = some [((1023 / 1024, 0), (0, 1023 / 1024))] := by decide +kernel

end Verif.Dc
