import Verif.Sml.Model
import Mathlib.Algebra.Order.Field.Rat
import Mathlib.Data.Rat.Floor
import Mathlib.Tactic.Ring
import Mathlib.Tactic.Linarith
import Mathlib.Tactic.LinearCombination
import Mathlib.Tactic.FieldSimp
import Mathlib.Tactic.NormNum
import Mathlib.Tactic.Push
import Mathlib.Tactic.SplitIfs

/-! # C426–C429: two lines, the order of points, critical points, lengths of pieces -/

set_option linter.unusedSectionVars false

namespace Verif.Sml

open Verif.Vec (V3)
open Verif.Vec.V3

variable {K : Type} [Field K] [LinearOrder K] [IsStrictOrderedRing K]

/-! ## Two lines -/

/-- The point of a line at a parameter. -/
def Ln.at (l : Ln K) (t : K) : V3 K := add l.a (smul t (sub l.b l.a))

theorem closeZero_iff (atol : K) (v : V3 K) : closeZero atol v = true ↔ |v.x| ≤ atol ∧ |v.y| ≤ atol ∧ |v.z| ≤ atol := by
  simp [closeZero, and_assoc]

theorem dot_pos {atol : K} (h0 : 0 ≤ atol) {v : V3 K} (h : closeZero atol v = false) : 0 < dot v v := by
  have h' : ¬ (|v.x| ≤ atol ∧ |v.y| ≤ atol ∧ |v.z| ≤ atol) := by
    rw [← closeZero_iff, h]; simp
  have hx := mul_self_nonneg v.x
  have hy := mul_self_nonneg v.y
  have hz := mul_self_nonneg v.z
  have e : dot v v = v.x * v.x + v.y * v.y + v.z * v.z := rfl
  rcases lt_or_eq_of_le (show 0 ≤ dot v v by rw [e]; linarith) with h1 | h1
  · exact h1
  · exfalso
    have ex : v.x = 0 := by apply mul_self_eq_zero.1; linarith
    have ey : v.y = 0 := by apply mul_self_eq_zero.1; linarith
    have ez : v.z = 0 := by apply mul_self_eq_zero.1; linarith
    exact h' (by simp [ex, ey, ez, h0])

/-- **C426** (part).  When the function answers `(True, s1, s2)`, the points of the two lines with the parameters `-s1` and `-s2` are the
nearest ones: their difference is orthogonal to both lines. -/
theorem C426_partial {atol : K} (h0 : 0 ≤ atol) {l1 l2 : Ln K} {s1 s2 : K} (h : lineLine atol l1 l2 = some (s1, s2)) :
    dot (sub (l1.at (-s1)) (l2.at (-s2))) (sub l1.b l1.a) = 0 ∧ dot (sub (l1.at (-s1)) (l2.at (-s2))) (sub l2.b l2.a) = 0 := by
  unfold lineLine at h
  dsimp only at h
  by_cases hc : closeZero atol (cross (sub l1.b l1.a) (sub l2.b l2.a)) = true
  · simp [hc] at h
  rw [Bool.not_eq_true] at hc
  have hp := dot_pos h0 hc
  simp only [hc, Bool.false_eq_true, if_false, Option.some.injEq, Prod.mk.injEq] at h
  obtain ⟨e1, e2⟩ := h
  have hne := hp.ne'
  rw [div_eq_iff hne] at e1 e2
  obtain ⟨⟨ax, ay, az⟩, ⟨bx, b_y, bz⟩⟩ := l1
  obtain ⟨⟨cx, cy, cz⟩, ⟨dx, dy, dz⟩⟩ := l2
  simp only [dot, cross, sub, add, smul, Ln.at] at *
  constructor
  · apply (mul_eq_zero.1 _).resolve_right hne
    linear_combination ((bx - ax) * (bx - ax) + (b_y - ay) * (b_y - ay) + (bz - az) * (bz - az)) * e1 -
      ((bx - ax) * (dx - cx) + (b_y - ay) * (dy - cy) + (bz - az) * (dz - cz)) * e2
  · apply (mul_eq_zero.1 _).resolve_right hne
    linear_combination ((bx - ax) * (dx - cx) + (b_y - ay) * (dy - cy) + (bz - az) * (dz - cz)) * e1 -
      ((dx - cx) * (dx - cx) + (dy - cy) * (dy - cy) + (dz - cz) * (dz - cz)) * e2

/-- **C426** refuted: the sign.  Whenever two lines meet, at the parameters `p` and `q`, the parameters returned for them are `-p` and
`-q`. -/
theorem C426_sign_refuted {atol : K} (h0 : 0 ≤ atol) {l1 l2 : Ln K} {s1 s2 p q : K} (h : lineLine atol l1 l2 = some (s1, s2))
    (hm : l1.at p = l2.at q) : s1 = -p ∧ s2 = -q := by
  unfold lineLine at h
  dsimp only at h
  by_cases hc : closeZero atol (cross (sub l1.b l1.a) (sub l2.b l2.a)) = true
  · simp [hc] at h
  rw [Bool.not_eq_true] at hc
  have hp := dot_pos h0 hc
  simp only [hc, Bool.false_eq_true, if_false, Option.some.injEq, Prod.mk.injEq] at h
  obtain ⟨e1, e2⟩ := h
  have hne := hp.ne'
  rw [div_eq_iff hne] at e1 e2
  obtain ⟨⟨ax, ay, az⟩, ⟨bx, b_y, bz⟩⟩ := l1
  obtain ⟨⟨cx, cy, cz⟩, ⟨dx, dy, dz⟩⟩ := l2
  simp only [dot, cross, sub, add, smul, Ln.at, V3.mk.injEq] at *
  obtain ⟨mx, my, mz⟩ := hm
  have wx : ax - cx = q * (dx - cx) - p * (bx - ax) := by linear_combination mx
  have wy : ay - cy = q * (dy - cy) - p * (b_y - ay) := by linear_combination my
  have wz : az - cz = q * (dz - cz) - p * (bz - az) := by linear_combination mz
  rw [wx, wy, wz] at e1 e2
  constructor
  · apply mul_right_cancel₀ hne
    rw [← e1]; ring
  · apply mul_right_cancel₀ hne
    rw [← e2]; ring

/-- **C426** refuted: lines that do not meet.  The first component of the answer does not depend on whether the lines meet: it is `True`
for all lines whose directions have a cross product above the tolerance, wherever they are. -/
theorem C426_skew_refuted {atol : K} (h0 : 0 ≤ atol) (ha : atol < 1) (d : K) (hd : d ≠ 0) :
    ∃ l1 l2 : Ln K, (∀ p q, l1.at p ≠ l2.at q) ∧ lineLine atol l1 l2 = some (0, 0) := by
  refine ⟨⟨⟨0, 0, 0⟩, ⟨1, 0, 0⟩⟩, ⟨⟨0, 0, d⟩, ⟨0, 1, d⟩⟩, ?_, ?_⟩
  · intro p q h
    simp only [Ln.at, add, smul, sub, V3.mk.injEq] at h
    apply hd
    linear_combination -h.2.2
  · have hc : closeZero atol (⟨0, 0, 1⟩ : V3 K) = false := by
      simp [closeZero, h0, not_le.2 ha]
    have hv : cross (sub (⟨1, 0, 0⟩ : V3 K) ⟨0, 0, 0⟩) (sub (⟨0, 1, d⟩ : V3 K) ⟨0, 0, d⟩) = ⟨0, 0, 1⟩ := by
      simp [cross, sub]
    simp only [lineLine, hv, hc, Bool.false_eq_true, if_false]
    simp [cross, sub, dot]

/-- **C426** refuted: short lines.  Two lines at a right angle that meet are reported as parallel if they are short. -/
theorem C426_short_refuted {atol : K} (h0 : 0 < atol) (h1 : atol ≤ 1) :
    ∃ l1 l2 : Ln K, l1.at 0 = l2.at 0 ∧ dot (sub l1.b l1.a) (sub l2.b l2.a) = 0 ∧ l1.a ≠ l1.b ∧ l2.a ≠ l2.b ∧ lineLine atol l1 l2 = none := by
  refine ⟨⟨⟨0, 0, 0⟩, ⟨atol, 0, 0⟩⟩, ⟨⟨0, 0, 0⟩, ⟨0, atol, 0⟩⟩, ?_, ?_, ?_, ?_, ?_⟩
  · simp [Ln.at, add, smul, sub]
  · simp [dot, sub]
  · simp [h0.ne]
  · simp [h0.ne]
  · have hv : cross (sub (⟨atol, 0, 0⟩ : V3 K) ⟨0, 0, 0⟩) (sub (⟨0, atol, 0⟩ : V3 K) ⟨0, 0, 0⟩) = ⟨0, 0, atol * atol⟩ := by
      simp [cross, sub]
    have hc : closeZero atol (⟨0, 0, atol * atol⟩ : V3 K) = true := by
      simp only [closeZero, abs_zero, h0.le, decide_true, Bool.and_self, Bool.true_and, decide_eq_true_eq]
      rw [abs_of_nonneg (by nlinarith)]
      nlinarith
    simp [lineLine, hv, hc]

/-- The lines meet at the parameters `2` and `1`, the answer is `-2` and `-1`. -/
example : lineLine (1 / 100 : ℚ) ⟨⟨0, 0, 0⟩, ⟨1, 1, 0⟩⟩ ⟨⟨2, 0, 0⟩, ⟨2, 2, 0⟩⟩ = some (-2, -1) := by decide +kernel

/-! ## The order of points -/

/-- Twice the signed area, positive for a turn to the left, of the fan of triangles from `o` over the sides of an open chain. -/
def fan (o : K × K) : List (K × K) → K
  | p :: q :: l => ((p.1 - o.1) * (q.2 - o.2) - (q.1 - o.1) * (p.2 - o.2)) + fan o (q :: l)
  | _ => 0

/-- The last point. -/
def lastPt (p : K × K) : List (K × K) → K × K
  | [] => p
  | q :: l => lastPt q l

theorem det_fan (o : K × K) (p : K × K) (l : List (K × K)) :
    determinant (p :: l) = -(fan o (p :: l)) + (((lastPt p l).1 - o.1) * ((lastPt p l).2 + o.2) - (p.1 - o.1) * (p.2 + o.2)) := by
  induction l generalizing p with
  | nil => simp [determinant, fan, lastPt]
  | cons q l ih =>
    simp only [determinant, fan, lastPt]
    rw [ih q]
    ring

theorem lastPt_append (p q : K × K) (l : List (K × K)) : lastPt p (l ++ [q]) = q := by
  induction l generalizing p with
  | nil => rfl
  | cons r l ih => exact ih r

/-- **C427**.  With `close` the answer for three points or more is the sign of the area enclosed: `CCW` if the area is positive, `CW` if it
is negative, `COLLINEAR` if it is zero; the area is measured from any point `o` of the plane. -/
theorem C427_closed (o p : K × K) {l : List (K × K)} (hl : 2 ≤ l.length) :
    ∃ r, pointsOrder (p :: l) true = some r ∧
      (r = .ccw ↔ 0 < fan o (p :: l ++ [p])) ∧ (r = .cw ↔ fan o (p :: l ++ [p]) < 0) ∧ (r = .collinear ↔ fan o (p :: l ++ [p]) = 0) := by
  have e : determinant (p :: l ++ [p]) = -(fan o (p :: l ++ [p])) := by
    rw [List.cons_append, det_fan o, lastPt_append]; ring
  refine ⟨_, by simp only [pointsOrder]; rw [if_neg (by simp; omega)], ?_⟩
  simp only [if_true, List.take_succ_cons, List.take_zero, e]
  generalize fan o (p :: l ++ [p]) = x
  rcases lt_trichotomy x 0 with h | h | h
  · have h1 : -x > 0 := by linarith
    simp only [h1, if_true]
    simp [h, h.ne, h.le]
  · simp [h]
  · have h1 : ¬ -x > 0 := by linarith
    have h2 : -x < 0 := by linarith
    simp only [h1, if_false, h2, if_true]
    simp [h, h.ne', h.le]

/-- **C427**: with `close` a translation of all points does not change the answer. -/
theorem C427_translation (t : K × K) (pts : List (K × K)) :
    pointsOrder (pts.map fun p => (p.1 + t.1, p.2 + t.2)) true = pointsOrder pts true := by
  by_cases hlen : pts.length < 3
  · simp [pointsOrder, hlen]
  match pts, hlen with
  | [], h => simp at h
  | p :: l, h =>
    have hl : 2 ≤ l.length := by simp at h; omega
    have key : ∀ m : List (K × K), fan (t.1, t.2) (m.map fun p => (p.1 + t.1, p.2 + t.2)) = fan (0, 0) m := by
      intro m
      induction m with
      | nil => rfl
      | cons q m ih =>
        cases m with
        | nil => rfl
        | cons r m =>
          simp only [List.map_cons, fan] at ih ⊢
          rw [ih]; ring
    obtain ⟨r, e, a1, a2, a3⟩ := C427_closed ((0 : K), (0 : K)) p hl
    obtain ⟨r', e', b1, b2, b3⟩ := C427_closed (t.1, t.2) (p.1 + t.1, p.2 + t.2) (l := l.map fun p => (p.1 + t.1, p.2 + t.2)) (by simpa using hl)
    have k := key (p :: l ++ [p])
    simp only [List.map_append, List.map_cons, List.map_nil] at k
    rw [k] at b1 b2 b3
    rw [List.map_cons, e, e']
    congr 1
    cases r with
    | ccw => exact b1.2 (a1.1 rfl)
    | cw => exact b2.2 (a2.1 rfl)
    | collinear => exact b3.2 (a3.1 rfl)

/-- **C427** refuted.  Without `close` the answer depends on where the points are: if the first and the last point have different abscissas,
one translation of the points makes the answer `CW`, another makes it `CCW`. -/
theorem C427_open_refuted (p : K × K) {l : List (K × K)} (hl : 2 ≤ l.length) (hx : (lastPt p l).1 ≠ p.1) :
    (∃ t, pointsOrder ((p :: l).map fun q => (q.1, q.2 + t)) false = some .cw) ∧
      ∃ t, pointsOrder ((p :: l).map fun q => (q.1, q.2 + t)) false = some .ccw := by
  have key : ∀ (t : K) (p : K × K) (l : List (K × K)), determinant ((p :: l).map fun q => (q.1, q.2 + t)) =
      determinant (p :: l) + 2 * t * ((lastPt p l).1 - p.1) := by
    intro t p l
    induction l generalizing p with
    | nil => simp [determinant, lastPt]
    | cons q l ih =>
      have := ih q
      simp only [List.map_cons, determinant, lastPt] at this ⊢
      rw [this]; ring
  have hd : (lastPt p l).1 - p.1 ≠ 0 := sub_ne_zero.2 hx
  have run : ∀ t, pointsOrder ((p :: l).map fun q => (q.1, q.2 + t)) false =
      some (if determinant (p :: l) + 2 * t * ((lastPt p l).1 - p.1) > 0 then .cw
        else if determinant (p :: l) + 2 * t * ((lastPt p l).1 - p.1) < 0 then .ccw else .collinear) := by
    intro t
    rw [pointsOrder, if_neg (by simp; omega)]
    simp only [Bool.false_eq_true, if_false]
    rw [key]
  constructor
  · refine ⟨(1 - determinant (p :: l)) / (2 * ((lastPt p l).1 - p.1)), ?_⟩
    rw [run, if_pos]
    have : determinant (p :: l) + 2 * ((1 - determinant (p :: l)) / (2 * ((lastPt p l).1 - p.1))) * ((lastPt p l).1 - p.1) = 1 := by
      field_simp; ring
    rw [this]; exact one_pos
  · refine ⟨(-1 - determinant (p :: l)) / (2 * ((lastPt p l).1 - p.1)), ?_⟩
    have : determinant (p :: l) + 2 * ((-1 - determinant (p :: l)) / (2 * ((lastPt p l).1 - p.1))) * ((lastPt p l).1 - p.1) = -1 := by
      field_simp; ring
    rw [run, this, if_neg (by norm_num), if_pos (by norm_num)]

example : pointsOrder [((0 : ℚ), (0 : ℚ)), (1, 0), (1, 1)] true = some .ccw ∧ pointsOrder [((0 : ℚ), (0 : ℚ)), (1, 1), (1, 0)] true = some .cw ∧
    pointsOrder [((0 : ℚ), (0 : ℚ)), (1, 1)] true = none ∧ pointsOrder [((0 : ℚ), (0 : ℚ)), (1, 0), (2, 1)] false = some .cw ∧
    pointsOrder [((0 : ℚ), (-5 : ℚ)), (1, -5), (2, -4)] false = some .ccw := by decide +kernel

/-! ## Critical points -/

/-- The quadratic form of a symmetric matrix. -/
def form (a b d u v : K) : K := a * u * u + 2 * b * u * v + d * v * v

theorem form_pos {a b d : K} (hd : 0 < a * d - b * b) (ha : 0 < a) {u v : K} (h : u ≠ 0 ∨ v ≠ 0) : 0 < form a b d u v := by
  have key : a * form a b d u v = (a * u + b * v) * (a * u + b * v) + (a * d - b * b) * (v * v) := by unfold form; ring
  have : 0 < a * form a b d u v := by
    rw [key]
    by_cases hv : v = 0
    · have hu : u ≠ 0 := h.resolve_right (not_not.2 hv)
      have hau : a * u + b * v ≠ 0 := by rw [hv, mul_zero, add_zero]; exact mul_ne_zero ha.ne' hu
      have := mul_self_pos.2 hau
      have e : (a * d - b * b) * (v * v) = 0 := by rw [hv]; ring
      rw [e]; linarith
    · have h1 := mul_self_nonneg (a * u + b * v)
      have h2 := mul_pos hd (mul_self_pos.2 hv)
      linarith
  exact (mul_pos_iff_of_pos_left ha).1 this

/-- **C428**.  For a symmetric matrix the function always answers; it says `LOCAL_MINIMUM` exactly if the form is positive away from zero,
`LOCAL_MAXIMUM` exactly if it is negative away from zero, `SADDLE_POINT` exactly if it takes both signs. -/
theorem C428_symmetric (a b d : K) :
    ∃ r, classify a b b d = some r ∧ (r = .minimum ↔ ∀ u v, (u ≠ 0 ∨ v ≠ 0) → 0 < form a b d u v) ∧
      (r = .maximum ↔ ∀ u v, (u ≠ 0 ∨ v ≠ 0) → form a b d u v < 0) ∧
      (r = .saddle ↔ (∃ u v, 0 < form a b d u v) ∧ ∃ u v, form a b d u v < 0) := by
  have e10 : form a b d 1 0 = a := by unfold form; ring
  have neg : ∀ u v, form (-a) (-b) (-d) u v = -(form a b d u v) := by intro u v; unfold form; ring
  have z : form a b d 0 0 = 0 := by unfold form; ring
  rcases lt_trichotomy (a * d - b * b) 0 with h | h | h
  · -- both signs
    have both : (∃ u v, 0 < form a b d u v) ∧ ∃ u v, form a b d u v < 0 := by
      have k1 : form a b d (-b) a = a * (a * d - b * b) := by unfold form; ring
      have k2 : form a b d d (-b) = d * (a * d - b * b) := by unfold form; ring
      rcases lt_trichotomy a 0 with ha | ha | ha
      · exact ⟨⟨-b, a, by rw [k1]; exact mul_pos_of_neg_of_neg ha h⟩, ⟨1, 0, by rw [e10]; exact ha⟩⟩
      · subst ha
        have hb : b ≠ 0 := by rintro rfl; simp at h
        -- 2 b u v + d v v with v = 1
        refine ⟨⟨(1 - d) / (2 * b), 1, ?_⟩, ⟨(-1 - d) / (2 * b), 1, ?_⟩⟩
        · have : form 0 b d ((1 - d) / (2 * b)) 1 = 1 := by unfold form; field_simp; ring
          rw [this]; exact one_pos
        · have : form 0 b d ((-1 - d) / (2 * b)) 1 = -1 := by unfold form; field_simp; ring
          rw [this]; norm_num
      · exact ⟨⟨1, 0, by rw [e10]; exact ha⟩, ⟨-b, a, by rw [k1]; exact mul_neg_of_pos_of_neg ha h⟩⟩
    refine ⟨.saddle, by simp [classify, h, not_lt.2 h.le], ?_, ?_, by simp [both]⟩
    · obtain ⟨-, u, v, huv⟩ := both
      constructor
      · intro h; simp at h
      · intro hp
        by_cases h0 : u ≠ 0 ∨ v ≠ 0
        · exact absurd (hp u v h0) (not_lt.2 huv.le)
        · push Not at h0; rw [h0.1, h0.2, z] at huv; exact absurd huv (lt_irrefl _)
    · obtain ⟨⟨u, v, huv⟩, -⟩ := both
      constructor
      · intro h; simp at h
      · intro hp
        by_cases h0 : u ≠ 0 ∨ v ≠ 0
        · exact absurd (hp u v h0) (not_lt.2 huv.le)
        · push Not at h0; rw [h0.1, h0.2, z] at huv; exact absurd huv (lt_irrefl _)
  · -- a zero away from the origin, one sign
    have zero : ∃ u v, (u ≠ 0 ∨ v ≠ 0) ∧ form a b d u v = 0 := by
      by_cases ha : a = 0
      · exact ⟨1, 0, Or.inl one_ne_zero, by rw [e10]; exact ha⟩
      · refine ⟨-b, a, Or.inr ha, ?_⟩
        have k1 : form a b d (-b) a = a * (a * d - b * b) := by unfold form; ring
        rw [k1, h, mul_zero]
    have one : ¬ ((∃ u v, 0 < form a b d u v) ∧ ∃ u v, form a b d u v < 0) := by
      rintro ⟨⟨u, v, h1⟩, u', v', h2⟩
      have k : ∀ u v, a * form a b d u v = (a * u + b * v) * (a * u + b * v) := by
        intro u v; unfold form; linear_combination (v * v) * h
      rcases lt_trichotomy a 0 with ha | ha | ha
      · have := k u v
        have h3 := mul_neg_of_neg_of_pos ha h1
        have h4 := mul_self_nonneg (a * u + b * v)
        linarith
      · subst ha
        have hb : b = 0 := by apply mul_self_eq_zero.1; linarith
        subst hb
        have f1 : d * (v * v) > 0 := by have := h1; unfold form at this; linarith
        have f2 : d * (v' * v') < 0 := by have := h2; unfold form at this; linarith
        have g1 := mul_self_nonneg v
        have g2 := mul_self_nonneg v'
        rcases le_total 0 d with hd | hd
        · have := mul_nonneg hd g2; linarith
        · have := mul_nonpos_of_nonpos_of_nonneg hd g1; linarith
      · have := k u' v'
        have h3 := mul_neg_of_pos_of_neg ha h2
        have h4 := mul_self_nonneg (a * u' + b * v')
        linarith
    obtain ⟨u, v, h0, hz⟩ := zero
    refine ⟨.undefined, by simp [classify, h], ?_, ?_, ?_⟩
    · constructor
      · intro h; simp at h
      · intro hp; have := hp u v h0; rw [hz] at this; exact absurd this (lt_irrefl _)
    · constructor
      · intro h; simp at h
      · intro hp; have := hp u v h0; rw [hz] at this; exact absurd this (lt_irrefl _)
    · constructor
      · intro h; simp at h
      · intro hp; exact absurd hp one
  · have ha : a ≠ 0 := by
      rintro rfl
      have := mul_self_nonneg b
      linarith
    rcases lt_or_gt_of_ne ha with ha | ha
    · have fn : ∀ u v, (u ≠ 0 ∨ v ≠ 0) → form a b d u v < 0 := by
        intro u v h0
        have := form_pos (a := -a) (b := -b) (d := -d) (by linarith) (by linarith) h0
        rw [neg] at this; linarith
      refine ⟨.maximum, by simp [classify, h, ha, not_lt.2 ha.le], ?_, by simp only [true_iff]; exact fn, ?_⟩
      · constructor
        · intro h; simp at h
        · intro hp
          have := hp 1 0 (Or.inl one_ne_zero)
          rw [e10] at this; linarith
      · constructor
        · intro h; simp at h
        · rintro ⟨⟨u, v, h1⟩, -⟩
          by_cases h0 : u ≠ 0 ∨ v ≠ 0
          · have := fn u v h0; linarith
          · push Not at h0; rw [h0.1, h0.2, z] at h1; exact absurd h1 (lt_irrefl _)
    · have fn : ∀ u v, (u ≠ 0 ∨ v ≠ 0) → 0 < form a b d u v := fun u v h0 => form_pos h ha h0
      refine ⟨.minimum, by simp [classify, h, ha], by simp only [true_iff]; exact fn, ?_, ?_⟩
      · constructor
        · intro h; simp at h
        · intro hp
          have := hp 1 0 (Or.inl one_ne_zero)
          rw [e10] at this; linarith
      · constructor
        · intro h; simp at h
        · rintro ⟨-, u, v, h1⟩
          by_cases h0 : u ≠ 0 ∨ v ≠ 0
          · have := fn u v h0; linarith
          · push Not at h0; rw [h0.1, h0.2, z] at h1; exact absurd h1 (lt_irrefl _)

/-- All four answers occur. -/
example : classify (2 : ℚ) 1 1 2 = some .minimum ∧ classify (-2 : ℚ) 1 1 (-2) = some .maximum ∧ classify (1 : ℚ) 2 2 1 = some .saddle ∧
    classify (1 : ℚ) 1 1 1 = some .undefined := by decide +kernel

/-! ## Lengths of pieces -/

/-- **C429** (part).  If the length left for the middle is at least one constant piece (rounded), the pieces add up to the total length, they
read the same from both ends, and the ones in the middle differ from the constant by at most half of it. -/
theorem C429_partial {round : K → ℤ} (hr : ∀ x, |(round x : K) - x| ≤ 1 / 2) (half : List K) {c total : K} (hc : 0 < c)
    (h1 : c < 2 * (total - half.sum * 2)) :
    ∃ (n : Nat) (m : K), generateArray round half c total = some (half ++ List.replicate n m ++ half.reverse) ∧ 0 < n ∧
      (half ++ List.replicate n m ++ half.reverse).sum = total ∧
      (half ++ List.replicate n m ++ half.reverse).reverse = half ++ List.replicate n m ++ half.reverse ∧
      |m - c| ≤ c / 2 := by
  set len := total - half.sum * 2 with hlen
  have hx : 1 / 2 < len / c := by rw [lt_div_iff₀ hc]; linarith
  have ha := abs_le.1 (hr (len / c))
  have hpos : 0 < round (len / c) := by
    have : (0 : K) < (round (len / c) : K) := by linarith
    exact_mod_cast this
  obtain ⟨n, hn⟩ := Int.eq_ofNat_of_zero_le hpos.le
  have hn0 : 0 < n := by rw [hn] at hpos; exact_mod_cast hpos
  have hnK : (0 : K) < (n : K) := by exact_mod_cast hn0
  have hn1 : (1 : K) ≤ (n : K) := by exact_mod_cast hn0
  have hcast : ((round (len / c) : ℤ) : K) = (n : K) := by rw [hn]; simp
  refine ⟨n, len / n, ?_, hn0, ?_, ?_, ?_⟩
  · simp only [generateArray]
    rw [← hlen, if_neg (not_lt.2 hpos.le), hcast, hn]
    rfl
  · simp only [List.sum_append, List.sum_replicate, List.sum_reverse, nsmul_eq_mul]
    rw [mul_div_cancel₀ _ hnK.ne', hlen]; ring
  · simp [List.append_assoc]
  · rw [hcast] at ha
    have e : len / n - c = c * ((len / c - n) / n) := by field_simp
    rw [e, abs_mul, abs_of_pos hc, abs_div, abs_of_pos hnK]
    have : |len / c - n| / n ≤ 1 / 2 := by
      rw [div_le_iff₀ hnK]
      have : |len / c - (n : K)| ≤ 1 / 2 := by rw [abs_le]; constructor <;> linarith
      linarith
    have := mul_le_mul_of_nonneg_left this hc.le
    linarith

/-- **C429** refuted.  If the length left for the middle is less than half of the constant, either way, there are no pieces in the middle and
the sum is the total only if nothing was left; if it is more below zero, the function raises. -/
theorem C429_short_refuted {round : K → ℤ} (hr : ∀ x, |(round x : K) - x| ≤ 1 / 2) (half : List K) {c total : K} (hc : 0 < c) :
    (2 * |total - half.sum * 2| < c → ∃ r, generateArray round half c total = some r ∧ (r.sum = total ↔ total = half.sum * 2)) ∧
      (2 * (total - half.sum * 2) < -c → generateArray round half c total = none) := by
  constructor
  · intro h
    have ha := abs_le.1 (hr ((total - half.sum * 2) / c))
    have hb : |(total - half.sum * 2) / c| < 1 / 2 := by
      rw [abs_div, abs_of_pos hc, div_lt_iff₀ hc]; linarith
    have hb := abs_lt.1 hb
    have h0 : round ((total - half.sum * 2) / c) = 0 := by
      have h1 : (round ((total - half.sum * 2) / c) : K) < 1 := by linarith
      have h2 : (-1 : K) < (round ((total - half.sum * 2) / c) : K) := by linarith
      have h1' : round ((total - half.sum * 2) / c) < 1 := by exact_mod_cast h1
      have h2' : -1 < round ((total - half.sum * 2) / c) := by exact_mod_cast h2
      omega
    refine ⟨half ++ half.reverse, ?_, ?_⟩
    · simp [generateArray, h0]
    · rw [List.sum_append, List.sum_reverse]
      constructor <;> intro h <;> linarith
  · intro h
    have ha := abs_le.1 (hr ((total - half.sum * 2) / c))
    have hb : (total - half.sum * 2) / c < -(1 / 2) := by rw [div_lt_iff₀ hc]; linarith
    have : round ((total - half.sum * 2) / c) < 0 := by
      have : (round ((total - half.sum * 2) / c) : K) < 0 := by linarith
      exact_mod_cast this
    simp [generateArray, this]

/-- Ten pieces growing from 1 to 2 would leave `100 - 30`; here with three pieces: `[1, 3/2, 2]` and the total 20. -/
example : generateArray (fun x : ℚ => ⌊x + 1 / 2⌋) [1, 3 / 2, 2] 2 20 =
    some [1, 3 / 2, 2, 11 / 6, 11 / 6, 11 / 6, 11 / 6, 11 / 6, 11 / 6, 2, 3 / 2, 1] := by decide +kernel

end Verif.Sml
