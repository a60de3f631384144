import Verif.Integ.Model
import Mathlib.Algebra.Order.Field.Basic
import Mathlib.Algebra.Order.Floor.Ring
import Mathlib.Algebra.BigOperators.Intervals
import Mathlib.Data.Real.Sqrt
import Mathlib.Tactic.Ring
import Mathlib.Tactic.FieldSimp
import Mathlib.Tactic.Linarith
import Mathlib.Tactic.Positivity
import Mathlib.Tactic.SplitIfs
import Mathlib.Algebra.Order.Ring.Rat
import Mathlib.Data.Rat.Floor

/-!
# Properties of `arc_length.py` (C140, C141)
-/

set_option linter.unusedSectionVars false

namespace Verif.Integ
open Finset

section
variable {F : Type} [Field F] [LinearOrder F] [IsStrictOrderedRing F] [FloorRing F]
variable {V : Type} [AddCommGroup V] [Module F V]

/-- The length of the chord `i`. -/
def chord (norm : V → F) (p : F → V) (t0 dt : F) (i : Nat) : F :=
  norm (p (t0 + ((i + 1 : Nat) : F) * dt) - p (t0 + (i : F) * dt))

theorem arange_len (t0 dt : F) (t1 : F) (hdt : 0 < dt) (ht : t0 ≤ t1) :
    arangeLen t0 (t1 + dt) dt = (⌈(t1 - t0) / dt⌉).toNat + 1 := by
  unfold arangeLen
  have e : (t1 + dt - t0) / dt = (t1 - t0) / dt + 1 := by field_simp; ring
  rw [e, Int.ceil_add_one]
  have : 0 ≤ ⌈(t1 - t0) / dt⌉ := Int.ceil_nonneg (div_nonneg (by linarith) (le_of_lt hdt))
  omega

theorem foldl_sum (g : Nat → F) (n : Nat) : (List.range n).foldl (fun s i => s + g i) 0 = ∑ i ∈ range n, g i := by
  induction n with
  | zero => rfl
  | succ n ih => rw [List.range_succ, List.foldl_append, ih, sum_range_succ]; rfl

theorem pal_eq (norm : V → F) (hnorm : ∀ (c : F) v, 0 ≤ c → norm (c • v) = c * norm v) (p : F → V) (t0 t1 dt : F) (hdt : 0 < dt)
    (n : Nat) (hn : arangeLen t0 (t1 + dt) dt - 1 = n) :
    parametricArcLength norm p t0 t1 dt = ∑ i ∈ range n, if i = 0 ∨ i = n - 1 then chord norm p t0 dt i / 2 else chord norm p t0 dt i := by
  unfold parametricArcLength
  dsimp only
  rw [hn, foldl_sum, sum_mul]
  refine sum_congr rfl fun i _ => ?_
  rw [hnorm _ _ (by positivity)]
  unfold chord
  split_ifs
  · field_simp
  · field_simp

/-- **C140, refuted.** `parametric_arc_length` is not the length of the polygon through the sampled points: half of the first and half of
the last chord are missing, for every curve and every step. -/
theorem C140_polygon_refuted (norm : V → F) (hnorm : ∀ (c : F) v, 0 ≤ c → norm (c • v) = c * norm v) (p : F → V) (t0 t1 dt : F)
    (hdt : 0 < dt) (ht : t0 + dt < t1) :
    ∃ n : Nat, 2 ≤ n ∧ t1 ≤ t0 + (n : F) * dt ∧ t0 + (n : F) * dt < t1 + dt ∧
      parametricArcLength norm p t0 t1 dt =
        (∑ i ∈ range n, chord norm p t0 dt i) - (chord norm p t0 dt 0 + chord norm p t0 dt (n - 1)) / 2 := by
  have hc := arange_len t0 dt t1 hdt (by linarith)
  have hq : 1 < (t1 - t0) / dt := (one_lt_div hdt).2 (by linarith)
  have h1 := Int.le_ceil ((t1 - t0) / dt)
  have h2 := Int.ceil_lt_add_one ((t1 - t0) / dt)
  have hz : (1 : ℤ) < ⌈(t1 - t0) / dt⌉ := Int.lt_ceil.2 (by exact_mod_cast hq)
  obtain ⟨n, hn⟩ : ∃ n : Nat, ⌈(t1 - t0) / dt⌉ = n := Int.eq_ofNat_of_zero_le (by omega)
  rw [hn] at hc h1 h2 hz
  have hn2 : 2 ≤ n := by omega
  refine ⟨n, hn2, ?_, ?_, ?_⟩
  · have : (t1 - t0) / dt ≤ (n : F) := by exact_mod_cast h1
    have := (div_le_iff₀ hdt).1 this
    linarith
  · have : (n : F) < (t1 - t0) / dt + 1 := by exact_mod_cast h2
    have e : (t1 - t0) / dt * dt = t1 - t0 := div_mul_cancel₀ _ (ne_of_gt hdt)
    nlinarith
  · rw [pal_eq norm hnorm p t0 t1 dt hdt n (by rw [hc]; simp)]
    obtain ⟨m, rfl⟩ : ∃ m, n = m + 2 := ⟨n - 2, by omega⟩
    rw [sum_range_succ, sum_range_succ', sum_range_succ (fun i => chord norm p t0 dt i), sum_range_succ' (fun i => chord norm p t0 dt i)]
    have es : ∑ k ∈ range m, (if k + 1 = 0 ∨ k + 1 = m + 2 - 1 then chord norm p t0 dt (k + 1) / 2 else chord norm p t0 dt (k + 1)) =
        ∑ k ∈ range m, chord norm p t0 dt (k + 1) :=
      sum_congr rfl fun k hk => by
        have := mem_range.1 hk
        rw [if_neg (by omega)]
    rw [es, if_pos (Or.inl rfl), if_pos (Or.inr (by omega)), show m + 2 - 1 = m + 1 by omega]
    ring

/-- **C140, refuted.** On a line that is run through at unit speed the result for `n` steps of `dt` is `(n - 1) dt`. -/
theorem C140_line_refuted (norm : V → F) (hnorm : ∀ (c : F) v, 0 ≤ c → norm (c • v) = c * norm v) (v w : V) (hv : norm v = 1)
    (t0 dt : F) (hdt : 0 < dt) (n : Nat) (hn : 2 ≤ n) :
    parametricArcLength norm (fun t => w + t • v) t0 (t0 + n * dt) dt = ((n : F) - 1) * dt := by
  have hlen : arangeLen t0 (t0 + n * dt + dt) dt = n + 1 := by
    rw [arange_len t0 dt _ hdt (by have : (0 : F) ≤ n * dt := by positivity
                                   linarith)]
    have e : (t0 + n * dt - t0) / dt = (n : F) := by field_simp; ring
    rw [e]; simp
  rw [pal_eq norm hnorm _ t0 _ dt hdt n (by rw [hlen]; rfl)]
  have hch : ∀ i, chord norm (fun t => w + t • v) t0 dt i = dt := by
    intro i
    unfold chord
    dsimp only
    have : w + (t0 + ((i + 1 : Nat) : F) * dt) • v - (w + (t0 + (i : F) * dt) • v) = dt • v := by
      rw [add_sub_add_left_eq_sub, ← sub_smul]; congr 1; push_cast; ring
    rw [this, hnorm _ _ (le_of_lt hdt), hv, mul_one]
  simp only [hch]
  obtain ⟨m, rfl⟩ : ∃ m, n = m + 2 := ⟨n - 2, by omega⟩
  rw [sum_range_succ, sum_range_succ']
  have es : ∑ k ∈ range m, (if k + 1 = 0 ∨ k + 1 = m + 2 - 1 then dt / 2 else dt) = ∑ k ∈ range m, dt :=
    sum_congr rfl fun k hk => by
      have := mem_range.1 hk
      rw [if_neg (by omega)]
  rw [es, if_pos (Or.inl rfl), if_pos (Or.inr (by omega)), sum_const, card_range, nsmul_eq_mul]
  push_cast
  ring

/-- **C140, what holds.** The result is never more than the length of the polygon and misses at most two half chords. -/
theorem C140_bounds_partial (norm : V → F) (hnorm : ∀ (c : F) v, 0 ≤ c → norm (c • v) = c * norm v) (h0 : ∀ v, 0 ≤ norm v) (p : F → V)
    (t0 t1 dt : F) (hdt : 0 < dt) (ht : t0 + dt < t1) :
    ∃ n : Nat, t1 ≤ t0 + (n : F) * dt ∧ t0 + (n : F) * dt < t1 + dt ∧
      parametricArcLength norm p t0 t1 dt ≤ ∑ i ∈ range n, chord norm p t0 dt i ∧
      (∑ i ∈ range n, chord norm p t0 dt i) ≤
        parametricArcLength norm p t0 t1 dt + (chord norm p t0 dt 0 + chord norm p t0 dt (n - 1)) / 2 := by
  obtain ⟨n, _, h1, h2, e⟩ := C140_polygon_refuted norm hnorm p t0 t1 dt hdt ht
  have a := h0 (p (t0 + ((0 + 1 : Nat) : F) * dt) - p (t0 + ((0 : Nat) : F) * dt))
  have b := h0 (p (t0 + ((n - 1 + 1 : Nat) : F) * dt) - p (t0 + ((n - 1 : Nat) : F) * dt))
  refine ⟨n, h1, h2, ?_, ?_⟩
  · rw [e]
    have a' : 0 ≤ chord norm p t0 dt 0 := a
    have b' : 0 ≤ chord norm p t0 dt (n - 1) := b
    linarith
  · rw [e]; linarith

/-- A line of length 10 measured with steps of 1 has length 9. -/
example : parametricArcLength (fun x : ℚ => |x|) (fun t => 3 + t) 0 10 1 = 9 := by decide +kernel

end

/-- **C141.** `arc_height` gives back the tolerance that `curvature_based_step` was asked for, as long as the tolerance is at most the radius. -/
theorem C141_inverse (tol r : ℝ) (h0 : 0 ≤ tol) (h1 : tol ≤ r) :
    arcHeight Real.sqrt (curvatureBasedStep Real.sqrt tol r) r = tol := by
  unfold arcHeight curvatureBasedStep
  have hn : 0 ≤ 2 * r * tol - tol ^ 2 := by nlinarith
  have e : (r - 2 * √(2 * r * tol - tol ^ 2) / 2) * (r + 2 * √(2 * r * tol - tol ^ 2) / 2) = (r - tol) ^ 2 := by
    have := Real.sq_sqrt hn
    nlinarith
  rw [e, Real.sqrt_sq (by linarith)]; ring

/-- **C141.** The other way round: the step for the height of a chord of a circle is the chord. -/
theorem C141_chord (c r : ℝ) (hc : 0 ≤ c) (hr : c ≤ 2 * r) :
    curvatureBasedStep Real.sqrt (arcHeight Real.sqrt c r) r = c := by
  unfold arcHeight curvatureBasedStep
  have hn : 0 ≤ (r - c / 2) * (r + c / 2) := mul_nonneg (by linarith) (by linarith)
  have e : 2 * r * (r - √((r - c / 2) * (r + c / 2))) - (r - √((r - c / 2) * (r + c / 2))) ^ 2 = (c / 2) ^ 2 := by
    have := Real.sq_sqrt hn
    nlinarith
  rw [e, Real.sqrt_sq (by linarith)]; ring

/-- **C141.** The distance of the chord's middle from the circle: two points of the circle at that step apart have an arc of height
`tol` between them; `step` is the same length for the curvature `1 / r`. -/
theorem C141_circle (tol r : ℝ) :
    (∀ x y : ℝ, x ^ 2 + y ^ 2 = r ^ 2 → y = r - tol → 0 ≤ x → curvatureBasedStep Real.sqrt tol r = 2 * x) ∧
    curveStep Real.sqrt (1 / r) tol = curvatureBasedStep Real.sqrt tol r := by
  constructor
  · intro x y h hy hx
    unfold curvatureBasedStep
    have : 2 * r * tol - tol ^ 2 = x ^ 2 := by rw [hy] at h; nlinarith
    rw [this, Real.sqrt_sq hx]
  · unfold curveStep curvatureBasedStep
    dsimp only
    rw [one_div_one_div, show r ^ 2 - (r - tol) ^ 2 = 2 * r * tol - tol ^ 2 by ring, mul_comm]

/-- **C141, refuted.** For a tolerance between the radius and the diameter the height of the step is `2 r - tol`. -/
theorem C141_large_refuted (tol r : ℝ) (h0 : r < tol) (h1 : tol ≤ 2 * r) :
    arcHeight Real.sqrt (curvatureBasedStep Real.sqrt tol r) r = 2 * r - tol ∧ 2 * r - tol ≠ tol := by
  refine ⟨?_, fun h => by linarith⟩
  unfold arcHeight curvatureBasedStep
  have hn : 0 ≤ 2 * r * tol - tol ^ 2 := by nlinarith
  have e : (r - 2 * √(2 * r * tol - tol ^ 2) / 2) * (r + 2 * √(2 * r * tol - tol ^ 2) / 2) = (tol - r) ^ 2 := by
    have := Real.sq_sqrt hn
    nlinarith
  rw [e, Real.sqrt_sq (by linarith)]; ring

/-- A radius of 5 and a tolerance of 1 give a chord of 6; the tolerance 9 gives the same chord. -/
example : curvatureBasedStep Real.sqrt 1 5 = 6 ∧ curvatureBasedStep Real.sqrt 9 5 = 6 := by
  unfold curvatureBasedStep
  have h : √(9 : ℝ) = 3 := by rw [show (9 : ℝ) = 3 ^ 2 by norm_num, Real.sqrt_sq (by norm_num)]
  constructor
  · rw [show (2 * 5 * 1 - 1 ^ 2 : ℝ) = 9 by norm_num, h]; norm_num
  · rw [show (2 * 5 * 9 - 9 ^ 2 : ℝ) = 9 by norm_num, h]; norm_num

end Verif.Integ
