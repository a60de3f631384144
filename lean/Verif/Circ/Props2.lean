import Verif.Circ.Create
import Verif.Deb.Props
import Mathlib.Tactic.LinearCombination
import Mathlib.Tactic.Linarith
import Mathlib.Tactic.FieldSimp
import Mathlib.Tactic.FinCases

/-! The rational circle of `create_circle`. -/

set_option linter.unusedSectionVars false

namespace Verif.Circ
open Verif.Vec Verif.Vec.V3 Verif.Deb Verif.Nurbs Finset

/-- Degree two, double knots on both sides: the three Bernstein polynomials. -/
theorem cox_two (U : Nat → ℝ) (i : Nat) (hi : 2 ≤ i) (t a b : ℝ) (hab : a ≠ b) (h1 : U (i - 1) = a) (h2 : U i = a)
    (h3 : U (i + 1) = b) (h4 : U (i + 2) = b) :
    cox (spike i) U t 2 (i - 2) = ((b - t) / (b - a)) ^ 2 ∧
    cox (spike i) U t 2 (i - 1) = 2 * ((b - t) / (b - a)) * ((t - a) / (b - a)) ∧
    cox (spike i) U t 2 i = ((t - a) / (b - a)) ^ 2 := by
  obtain ⟨j, rfl⟩ : ∃ j, i = j + 2 := ⟨i - 2, by omega⟩
  rw [show j + 2 - 1 = j + 1 by omega] at h1 ⊢
  rw [show j + 2 - 2 = j by omega]
  rw [show j + 2 + 1 = j + 3 by omega] at h3
  rw [show j + 2 + 2 = j + 4 by omega] at h4
  have hba : b - a ≠ 0 := sub_ne_zero.mpr (Ne.symm hab)
  have s0 : ∀ l, cox (spike (j + 2)) U t 0 l = if l = j + 2 then 1 else 0 := fun l => rfl
  have c1 : cox (spike (j + 2)) U t 1 (j + 1) = (b - t) / (b - a) := by
    rw [cox, s0, s0, if_neg (by omega), if_pos (by omega), mul_zero, zero_add, mul_one,
      show j + 1 + 0 + 2 = j + 3 by omega, show j + 1 + 1 = j + 2 by omega, h3, h2]
  have c2 : cox (spike (j + 2)) U t 1 (j + 2) = (t - a) / (b - a) := by
    rw [cox, s0, s0, if_pos rfl, if_neg (by omega), mul_zero, add_zero, mul_one,
      show j + 2 + 0 + 1 = j + 3 by omega, h3, h2]
  have c0 : cox (spike (j + 2)) U t 1 j = 0 := cox_spike_out _ _ _ _ _ (Or.inr (by omega))
  have c3 : cox (spike (j + 2)) U t 1 (j + 3) = 0 := cox_spike_out _ _ _ _ _ (Or.inl (by omega))
  refine ⟨?_, ?_, ?_⟩
  · rw [cox, c0, c1, show j + 1 + 2 = j + 3 by omega, h3, h1]; ring
  · rw [cox, c1, show j + 1 + 1 = j + 2 by omega, c2, show j + 2 + 1 = j + 3 by omega, show j + 1 + 1 + 2 = j + 4 by omega,
      h1, h3, h4, h2]; ring
  · rw [cox, c2, show j + 2 + 1 = j + 3 by omega, c3, show j + 2 + 1 + 1 = j + 4 by omega, h4, h2]; ring

theorem sum_three (U : Nat → ℝ) (i n : Nat) (hi : 2 ≤ i) (hn : i < n) (t : ℝ) (f : Nat → ℝ) :
    ∑ l ∈ range n, cox (spike i) U t 2 l * f l = cox (spike i) U t 2 (i - 2) * f (i - 2) +
      cox (spike i) U t 2 (i - 1) * f (i - 1) + cox (spike i) U t 2 i * f i := by
  have : ∑ l ∈ range n, cox (spike i) U t 2 l * f l = ∑ l ∈ Ico (i - 2) (i + 1), cox (spike i) U t 2 l * f l := by
    symm
    apply sum_subset
    · intro l hl; simp only [mem_Ico, mem_range] at hl ⊢; omega
    · intro l _ hl
      simp only [mem_Ico] at hl
      rw [cox_spike_out i U t 2 l (by omega), zero_mul]
  rw [this, sum_Ico_eq_sum_range, show i + 1 - (i - 2) = 3 by omega, sum_range_succ, sum_range_succ, sum_range_one,
    show i - 2 + 0 = i - 2 by omega, show i - 2 + 1 = i - 1 by omega, show i - 2 + 2 = i by omega]

/-- An orthonormal frame. -/
structure Orthonormal (p : Plane ℝ) : Prop where
  xx : dot p.x p.x = 1
  yy : dot p.y p.y = 1
  nn : dot p.n p.n = 1
  xy : dot p.x p.y = 0
  xn : dot p.x p.n = 0
  yn : dot p.y p.n = 0

/-- The point `p` lies on the circle around `q` with the radius `r` in the plane through `q` parallel to `pl`. -/
def OnCircle (pl : Plane ℝ) (q : V3 ℝ) (r : ℝ) (p : V3 ℝ) : Prop :=
  dot (p.sub q) (p.sub q) = r ^ 2 ∧ dot (p.sub q) pl.n = 0

noncomputable def knot (i : Nat) : ℝ := circleKnots.getD i 0
noncomputable def weight (i : Nat) : ℝ := circleWeights.getD i 0

theorem knots_mono : MonoUpTo knot 12 := by
  have hp := Real.pi_pos
  intro a b hab hb
  unfold knot circleKnots
  interval_cases b <;> interval_cases a <;> norm_num <;> linarith

theorem knots_clamped : Clamped knot 2 9 where
  mono := knots_mono
  first := by intro j hj; interval_cases j <;> norm_num [knot, circleKnots]
  last := by intro j h1 h2; interval_cases j <;> norm_num [knot, circleKnots]
  inner := by
    have hp := Real.pi_pos
    intro j hj h1 h2
    have : j ≤ 9 := by omega
    revert h1 h2
    unfold knot circleKnots
    interval_cases j <;> norm_num <;> intros <;> linarith

/-- One quarter: the control points are `c + r e`, `c + r (e + f)`, `c + r f` with perpendicular unit vectors `e`, `f`. -/
theorem quarter (pl : Plane ℝ) (o : V3 ℝ) (r : ℝ) (i : Nat) (hi : 2 ≤ i) (hi9 : i < 9) (t a b : ℝ)
    (hab : a < b) (h1 : knot (i - 1) = a) (h2 : knot i = a) (h3 : knot (i + 1) = b) (h4 : knot (i + 2) = b)
    (hta : a ≤ t) (htb : t ≤ b) (ex ey fx fy : ℝ) (he : ex ^ 2 + ey ^ 2 = 1) (hf : fx ^ 2 + fy ^ 2 = 1)
    (hef : ex * fx + ey * fy = 0)
    (w0 : weight (i - 2) = 1) (w1 : weight (i - 1) = Real.sqrt 2 / 2) (w2 : weight i = 1)
    (p0 : (circlePoints o r pl).getD (i - 2) ⟨0, 0, 0⟩ = evaluatePlane pl ((⟨r * ex, r * ey, 0⟩ : V3 ℝ).sub o))
    (p1 : (circlePoints o r pl).getD (i - 1) ⟨0, 0, 0⟩ = evaluatePlane pl ((⟨r * (ex + fx), r * (ey + fy), 0⟩ : V3 ℝ).sub o))
    (p2 : (circlePoints o r pl).getD i ⟨0, 0, 0⟩ = evaluatePlane pl ((⟨r * fx, r * fy, 0⟩ : V3 ℝ).sub o)) :
    ∃ x y, x ^ 2 + y ^ 2 = r ^ 2 ∧ (t = a → x = r * ex ∧ y = r * ey) ∧ (t = b → x = r * fx ∧ y = r * fy) ∧
      circlePoint o r pl t = evaluatePlane pl ((⟨x, y, 0⟩ : V3 ℝ).sub o) := by
  obtain ⟨b0, b1, b2⟩ := cox_two knot i hi t a b hab.ne h1 h2 h3 h4
  unfold circlePoint
  dsimp only
  rw [C192_evaluate (fun i => circleKnots.getD i 0) (fun i => circleWeights.getD i 0) _ 2 9 (by omega) (by omega)
    knots_clamped i hi hi9 (show knot i < knot (i + 1) by rw [h2, h3]; exact hab) t
    (show knot i ≤ t by rw [h2]; exact hta) (show t ≤ knot (i + 1) by rw [h3]; exact htb)]
  unfold point
  dsimp only
  have key : ∀ f : Nat → ℝ, ∑ l ∈ range 9, cox (spike i) (fun i => circleKnots.getD i 0) t 2 l *
      (fun i => circleWeights.getD i 0) l * f l =
      ((b - t) / (b - a)) ^ 2 * f (i - 2) + 2 * ((b - t) / (b - a)) * ((t - a) / (b - a)) * (Real.sqrt 2 / 2) * f (i - 1) +
      ((t - a) / (b - a)) ^ 2 * f i := by
    intro f
    have := sum_three knot i 9 hi hi9 t (fun l => weight l * f l)
    rw [b0, b1, b2, w0, w1, w2] at this
    refine Eq.trans (sum_congr rfl fun l _ => ?_) (this.trans (by ring))
    exact mul_assoc _ _ _
  have key1 : ∑ l ∈ range 9, cox (spike i) (fun i => circleKnots.getD i 0) t 2 l *
      (fun i => circleWeights.getD i 0) l =
      ((b - t) / (b - a)) ^ 2 + 2 * ((b - t) / (b - a)) * ((t - a) / (b - a)) * (Real.sqrt 2 / 2) +
      ((t - a) / (b - a)) ^ 2 := by
    have := key (fun _ => 1)
    simp only [mul_one] at this
    exact this
  dsimp only at key key1
  rw [key1, key, key, key, p0, p1, p2]
  have hs : (b - t) / (b - a) = 1 - (t - a) / (b - a) := by
    have : b - a ≠ 0 := sub_ne_zero.mpr hab.ne'
    field_simp; ring
  have hs0 : 0 ≤ (t - a) / (b - a) := div_nonneg (by linarith) (by linarith)
  have hs1 : 0 ≤ (b - t) / (b - a) := div_nonneg (by linarith) (by linarith)
  obtain ⟨A, hA⟩ : ∃ A, A = (b - t) / (b - a) := ⟨_, rfl⟩
  obtain ⟨B, hB⟩ : ∃ B, B = (t - a) / (b - a) := ⟨_, rfl⟩
  rw [← hA, ← hB] at hs ⊢
  rw [← hB] at hs0
  rw [← hA] at hs1
  have hq : Real.sqrt 2 ^ 2 = 2 := Real.sq_sqrt (by norm_num)
  have hqp : 0 < Real.sqrt 2 := Real.sqrt_pos.mpr (by norm_num)
  obtain ⟨m, hm⟩ : ∃ m, m = 2 * A * B * (Real.sqrt 2 / 2) := ⟨_, rfl⟩
  have hmm : m ^ 2 = 2 * (A ^ 2 * B ^ 2) := by rw [hm]; linear_combination A ^ 2 * B ^ 2 * hq
  have hm0 : 0 ≤ m := by
    rw [hm]
    exact mul_nonneg (mul_nonneg (mul_nonneg (by norm_num) hs1) hs0) (by positivity)
  rw [← hm]
  have hW : 0 < A ^ 2 + m + B ^ 2 := by
    have : 0 < A ^ 2 + B ^ 2 := by
      have hs' : A = 1 - B := hs
      rw [hs']; nlinarith [sq_nonneg (2 * B - 1)]
    linarith
  obtain ⟨W, hWd⟩ : ∃ W, W = A ^ 2 + m + B ^ 2 := ⟨_, rfl⟩
  rw [← hWd] at hW ⊢
  -- local coordinates of the point
  obtain ⟨x, hx⟩ : ∃ x, x = r * ((A ^ 2 + m) * ex + (m + B ^ 2) * fx) / W := ⟨_, rfl⟩
  obtain ⟨y, hy⟩ : ∃ y, y = r * ((A ^ 2 + m) * ey + (m + B ^ 2) * fy) / W := ⟨_, rfl⟩
  have comb : ∀ c0 cx cy cn : ℝ, (A ^ 2 * (c0 + cx * (r * ex - o.x) + cy * (r * ey - o.y) + cn * (0 - o.z)) +
      m * (c0 + cx * (r * (ex + fx) - o.x) + cy * (r * (ey + fy) - o.y) + cn * (0 - o.z)) +
      B ^ 2 * (c0 + cx * (r * fx - o.x) + cy * (r * fy - o.y) + cn * (0 - o.z))) / W =
      c0 + cx * (x - o.x) + cy * (y - o.y) + cn * (0 - o.z) := by
    intro c0 cx cy cn
    rw [hx, hy]
    field_simp
    rw [hWd]
    ring
  have hxy : x ^ 2 + y ^ 2 = r ^ 2 := by
    have e1 : (A ^ 2 + m) ^ 2 + (m + B ^ 2) ^ 2 = W ^ 2 := by rw [hWd]; linear_combination hmm
    rw [hx, hy]
    field_simp
    linear_combination r ^ 2 * (A ^ 2 + m) ^ 2 * he + r ^ 2 * (m + B ^ 2) ^ 2 * hf +
      2 * r ^ 2 * (A ^ 2 + m) * (m + B ^ 2) * hef + r ^ 2 * e1
  have hba : b - a ≠ 0 := sub_ne_zero.mpr hab.ne'
  refine ⟨x, y, hxy, fun h => ?_, fun h => ?_, ?_⟩
  · have hB0 : B = 0 := by rw [hB, h, sub_self, zero_div]
    have hA1 : A = 1 := by rw [hs, hB0, sub_zero]
    have hm1 : m = 0 := by rw [hm, hB0]; ring
    rw [hx, hy, hWd, hB0, hA1, hm1]
    constructor <;> ring
  · have hB0 : B = 1 := by rw [hB, h, div_self hba]
    have hA1 : A = 0 := by rw [hs, hB0, sub_self]
    have hm1 : m = 0 := by rw [hm, hA1]; ring
    rw [hx, hy, hWd, hB0, hA1, hm1]
    constructor <;> ring
  · unfold evaluatePlane V3.sub
    dsimp only
    rw [comb, comb, comb]

/-- Every point of the curve in local coordinates, and the points at `0` and `π`. -/
theorem circle_local (pl : Plane ℝ) (o : V3 ℝ) (r : ℝ) (t : ℝ) (h0 : 0 ≤ t) (h1 : t ≤ 2 * Real.pi) :
    ∃ x y, x ^ 2 + y ^ 2 = r ^ 2 ∧ (t = 0 → x = r ∧ y = 0) ∧ (t = Real.pi → x = -r ∧ y = 0) ∧
      circlePoint o r pl t = evaluatePlane pl ((⟨x, y, 0⟩ : V3 ℝ).sub o) := by
  have hp := Real.pi_pos
  by_cases c1 : t ≤ Real.pi / 2
  · obtain ⟨x, y, g1, g2, g3, g4⟩ := quarter pl o r 2 (by omega) (by omega) t 0 (Real.pi / 2) (by linarith) rfl rfl rfl rfl
      h0 c1 1 0 0 1 (by norm_num) (by norm_num) (by norm_num) rfl rfl rfl (by simp [circlePoints, rawPoints])
      (by simp [circlePoints, rawPoints]) (by simp [circlePoints, rawPoints])
    exact ⟨x, y, g1, fun h => ⟨by linarith [(g2 h).1], by linarith [(g2 h).2]⟩, fun h => by linarith, g4⟩
  by_cases c2 : t ≤ Real.pi
  · obtain ⟨x, y, g1, g2, g3, g4⟩ := quarter pl o r 4 (by omega) (by omega) t (Real.pi / 2) Real.pi (by linarith) rfl rfl rfl
      rfl (by linarith) c2 0 1 (-1) 0 (by norm_num) (by norm_num) (by norm_num) rfl rfl rfl
      (by simp [circlePoints, rawPoints]) (by simp [circlePoints, rawPoints]) (by simp [circlePoints, rawPoints])
    exact ⟨x, y, g1, fun h => by linarith, fun h => ⟨by linarith [(g3 h).1], by linarith [(g3 h).2]⟩, g4⟩
  by_cases c3 : t ≤ 3 * Real.pi / 2
  · obtain ⟨x, y, g1, g2, g3, g4⟩ := quarter pl o r 6 (by omega) (by omega) t Real.pi (3 * Real.pi / 2) (by linarith) rfl rfl
      rfl rfl (by linarith) c3 (-1) 0 0 (-1) (by norm_num) (by norm_num) (by norm_num) rfl rfl rfl
      (by simp [circlePoints, rawPoints]) (by simp [circlePoints, rawPoints]) (by simp [circlePoints, rawPoints])
    exact ⟨x, y, g1, fun h => by linarith, fun h => absurd h.le c2, g4⟩
  · obtain ⟨x, y, g1, g2, g3, g4⟩ := quarter pl o r 8 (by omega) (by omega) t (3 * Real.pi / 2) (2 * Real.pi) (by linarith)
      rfl rfl rfl rfl (by linarith) h1 0 (-1) 1 0 (by norm_num) (by norm_num) (by norm_num) rfl rfl rfl
      (by simp [circlePoints, rawPoints]) (by simp [circlePoints, rawPoints]) (by simp [circlePoints, rawPoints])
    exact ⟨x, y, g1, fun h => by linarith, fun h => absurd h.le c2, g4⟩

/-- **C199, the part that holds.** The curve of `create_circle` lies on the circle of the radius asked for, parallel to the
plane asked for, around the point with the local coordinates `-origin`; for `origin = 0` this is the circle asked for. -/
theorem C199_circle_partial (pl : Plane ℝ) (hpl : Orthonormal pl) (o : V3 ℝ) (r : ℝ) (t : ℝ) (h0 : 0 ≤ t)
    (h1 : t ≤ 2 * Real.pi) :
    OnCircle pl (evaluatePlane pl ⟨-o.x, -o.y, -o.z⟩) r (circlePoint o r pl t) := by
  obtain ⟨x, y, hxy, _, _, e⟩ := circle_local pl o r t h0 h1
  have hxx := hpl.xx
  have hyy := hpl.yy
  have hxy' := hpl.xy
  have hxn := hpl.xn
  have hyn := hpl.yn
  rw [e]
  unfold dot at hxx hyy hxy' hxn hyn
  unfold OnCircle evaluatePlane V3.sub dot
  dsimp only
  constructor
  · linear_combination x ^ 2 * hxx + y ^ 2 * hyy + 2 * x * y * hxy' + hxy
  · linear_combination x * hxn + y * hyn

theorem zero_of_squares (a b c : ℝ) (h : a ^ 2 + b ^ 2 + c ^ 2 = 0) : a = 0 ∧ b = 0 ∧ c = 0 := by
  have h1 := sq_nonneg a
  have h2 := sq_nonneg b
  have h3 := sq_nonneg c
  exact ⟨pow_eq_zero_iff (two_ne_zero) |>.mp (by linarith), pow_eq_zero_iff (two_ne_zero) |>.mp (by linarith),
    pow_eq_zero_iff (two_ne_zero) |>.mp (by linarith)⟩

/-- Squared length of `u x + v y + w n` in an orthonormal frame. -/
theorem frame_sq (pl : Plane ℝ) (hpl : Orthonormal pl) (p q : V3 ℝ) :
    dot ((evaluatePlane pl p).sub (evaluatePlane pl q)) ((evaluatePlane pl p).sub (evaluatePlane pl q)) =
      (p.x - q.x) ^ 2 + (p.y - q.y) ^ 2 + (p.z - q.z) ^ 2 := by
  have hxx := hpl.xx
  have hyy := hpl.yy
  have hnn := hpl.nn
  have hxy := hpl.xy
  have hxn := hpl.xn
  have hyn := hpl.yn
  unfold dot at hxx hyy hxy hxn hyn hnn
  unfold evaluatePlane V3.sub dot
  dsimp only
  linear_combination (p.x - q.x) ^ 2 * hxx + (p.y - q.y) ^ 2 * hyy + (p.z - q.z) ^ 2 * hnn +
    2 * (p.x - q.x) * (p.y - q.y) * hxy + 2 * (p.x - q.x) * (p.z - q.z) * hxn + 2 * (p.y - q.y) * (p.z - q.z) * hyn

/-- **C199, refuted.** For every origin but zero the curve is not the circle around the origin asked for, whatever the
radius. -/
theorem C199_origin_refuted (pl : Plane ℝ) (hpl : Orthonormal pl) (o : V3 ℝ) (ho : o ≠ ⟨0, 0, 0⟩) (r : ℝ) :
    ∃ t, 0 ≤ t ∧ t ≤ 2 * Real.pi ∧ ¬ OnCircle pl (evaluatePlane pl o) r (circlePoint o r pl t) := by
  by_contra hcon
  push Not at hcon
  have hp := Real.pi_pos
  have g0 := (hcon 0 (le_refl _) (by linarith)).1
  have g1 := (hcon Real.pi hp.le (by linarith)).1
  obtain ⟨x0, y0, _, e0, _, f0⟩ := circle_local pl o r 0 (le_refl _) (by linarith)
  obtain ⟨x1, y1, _, _, e1, f1⟩ := circle_local pl o r Real.pi hp.le (by linarith)
  obtain ⟨rfl, rfl⟩ := e0 rfl
  obtain ⟨rfl, rfl⟩ := e1 rfl
  rw [f0, frame_sq pl hpl] at g0
  rw [f1, frame_sq pl hpl] at g1
  have hz : o.x ^ 2 + o.y ^ 2 + o.z ^ 2 = 0 := by
    unfold V3.sub at g0 g1
    dsimp only at g0 g1
    linear_combination (1 / 8) * g0 + (1 / 8) * g1
  apply ho
  cases o
  simp only [V3.mk.injEq]
  dsimp only at hz
  exact zero_of_squares _ _ _ hz

/-- The world plane is orthonormal; an origin off zero. -/
example : ∃ t, 0 ≤ t ∧ t ≤ 2 * Real.pi ∧ ¬ OnCircle ⟨⟨0, 0, 0⟩, ⟨1, 0, 0⟩, ⟨0, 1, 0⟩, ⟨0, 0, 1⟩⟩
    (evaluatePlane ⟨⟨0, 0, 0⟩, ⟨1, 0, 0⟩, ⟨0, 1, 0⟩, ⟨0, 0, 1⟩⟩ ⟨5, 0, 0⟩) 2
    (circlePoint ⟨5, 0, 0⟩ 2 ⟨⟨0, 0, 0⟩, ⟨1, 0, 0⟩, ⟨0, 1, 0⟩, ⟨0, 0, 1⟩⟩ t) :=
  C199_origin_refuted _ ⟨by norm_num [dot], by norm_num [dot], by norm_num [dot], by norm_num [dot], by norm_num [dot],
    by norm_num [dot]⟩ _ (by simp) _

end Verif.Circ
