import Verif.Crv.Props
import Verif.Srf.Props2
import Mathlib.Algebra.Order.Floor.Ring
import Mathlib.Analysis.Calculus.Deriv.Comp
import Mathlib.Analysis.Calculus.Deriv.Mul
import Mathlib.Analysis.Calculus.Deriv.Add

set_option linter.unusedSectionVars false

/-!
# Python curves: lengths, parameters at lengths, arc-length parametrisation, segments (C284–C288)
-/

namespace Verif.Crv

open Verif.Srf (lin lin_ends cell)

variable {K : Type} [Field K] [LinearOrder K] [IsStrictOrderedRing K]

/-! ## C284: `_evaluate_length` -/

/-- An integral: it adds up. -/
def Additive (len : K → K → K) : Prop := ∀ a b c, len a b + len b c = len a c

/-- The speed is positive. -/
def Positive (len : K → K → K) : Prop := ∀ a b, a < b → 0 < len a b

theorem Additive.self {len : K → K → K} (h : Additive len) (a : K) : len a a = 0 := by linarith [h a a a]

theorem foldl_sum (l : List K) : ∀ x : K, l.foldl (· + ·) x = x + l.sum := by
  induction l with
  | nil => intro x; simp
  | cons a l ih => intro x; simp only [List.foldl_cons, List.sum_cons]; rw [ih]; ring

theorem sum_pieces (len : K → K → K) (h : Additive len) (s : K) (n : Nat) :
    ((List.range n).map fun i : Nat => len (s + i) (s + i + 1)).sum = len s (s + n) := by
  induction n with
  | zero => simp [h.self]
  | succ n ih =>
    rw [List.range_succ, List.map_append, List.sum_append, ih]
    simp only [List.map_cons, List.map_nil, List.sum_cons, List.sum_nil, add_zero]
    rw [h, Nat.cast_succ, add_assoc]

/-- The length of a curve that is run through with constant speed. -/
def speed (v : K) (a b : K) : K := v * (b - a)

theorem speed_additive (v : K) : Additive (speed v) := fun a b c => by unfold speed; ring
theorem speed_positive (v : K) (hv : 0 < v) : Positive (speed v) := fun a b h => by unfold speed; exact mul_pos hv (by linarith)

variable [FloorRing K]

/-- **C284, in part.** For bounds in increasing order the sum over the pieces is the integral. -/
theorem C284_sum_partial (len : K → K → K) (h : Additive len) (b0 b1 : K) (hb : b0 ≤ b1) : evaluateLength len b0 b1 = len b0 b1 := by
  unfold evaluateLength
  split_ifs with h4
  · rw [abs_of_nonneg (sub_nonneg.2 hb)] at h4
    have c1 := Int.ceil_lt_add_one b0
    have c2 := Int.lt_floor_add_one b1
    have hle : (⌈b0⌉ : ℤ) ≤ ⌊b1⌋ := by
      have : ((⌈b0⌉ : ℤ) : K) ≤ ((⌊b1⌋ : ℤ) : K) := by linarith
      exact_mod_cast this
    dsimp only
    rw [foldl_sum, zero_add, List.cons_append, List.sum_cons, List.sum_append, sum_pieces len h]
    simp only [List.sum_cons, List.sum_nil, add_zero]
    have e : ((⌈b0⌉ : ℤ) : K) + (((⌊b1⌋ - ⌈b0⌉ : ℤ).toNat : Nat) : K) = ((⌊b1⌋ : ℤ) : K) := by
      have : (((⌊b1⌋ - ⌈b0⌉ : ℤ).toNat : ℤ)) = ⌊b1⌋ - ⌈b0⌉ := Int.toNat_of_nonneg (by omega)
      have q : (((⌊b1⌋ - ⌈b0⌉ : ℤ).toNat : Nat) : K) = ((⌊b1⌋ - ⌈b0⌉ : ℤ) : K) := by
        rw [← Int.cast_natCast, this]
      rw [q]; push_cast; ring
    rw [e, h, h]
  · rfl

/-- **C284, refuted.** For bounds in decreasing order that are more than 4 apart the pieces in the middle are left out: the result is
never negative, though the integral is, for every curve with positive speed. -/
theorem C284_reversed_refuted (len : K → K → K) (h : Additive len) (hp : Positive len) (b0 b1 : K) (hb : b1 + 4 < b0) :
    len b0 b1 < 0 ∧ 0 ≤ evaluateLength len b0 b1 := by
  have nn : ∀ a b, a ≤ b → 0 ≤ len a b := fun a b hab => by
    rcases eq_or_lt_of_le hab with q | q
    · rw [q, h.self]
    · exact (hp a b q).le
  constructor
  · have := hp b1 b0 (by linarith)
    have e := h b0 b1 b0
    rw [h.self] at e
    linarith
  · unfold evaluateLength
    rw [if_pos (by rw [abs_of_neg (by linarith)]; linarith)]
    have c1 := Int.le_ceil b0
    have c2 := Int.floor_le b1
    have hz : (⌊b1⌋ - ⌈b0⌉ : ℤ).toNat = 0 := by
      rw [Int.toNat_eq_zero]
      have : ((⌊b1⌋ : ℤ) : K) ≤ ((⌈b0⌉ : ℤ) : K) := by linarith
      have : (⌊b1⌋ : ℤ) ≤ ⌈b0⌉ := by exact_mod_cast this
      omega
    dsimp only
    rw [hz, foldl_sum]
    simp only [List.range_zero, List.map_nil, List.cons_append, List.nil_append, List.sum_cons, List.sum_nil, add_zero, zero_add]
    exact add_nonneg (nn _ _ c1) (nn _ _ c2)

example : evaluateLength (speed (2 : ℚ)) (1 / 2) (15 / 2) = 14 ∧ evaluateLength (speed (2 : ℚ)) (15 / 2) (1 / 2) = 2 := by decide +kernel

/-- **C284.** When every single integral is within `tol`, the sum is within `tol` times the number of pieces, which is at most the length
of the interval and two. -/
theorem C284_error (len app : K → K → K) (h : Additive len) (tol : K) (ht : 0 ≤ tol) (ha : ∀ a b, |app a b - len a b| ≤ tol)
    (b0 b1 : K) (hb : b0 ≤ b1) : |evaluateLength app b0 b1 - len b0 b1| ≤ (b1 - b0 + 2) * tol := by
  rw [← C284_sum_partial len h b0 b1 hb]
  unfold evaluateLength
  split_ifs with h4
  · rw [abs_of_nonneg (sub_nonneg.2 hb)] at h4
    have c1 := Int.le_ceil b0
    have c2 := Int.floor_le b1
    have c3 := Int.ceil_lt_add_one b0
    have c4 := Int.lt_floor_add_one b1
    dsimp only
    rw [foldl_sum, foldl_sum, zero_add, zero_add, List.cons_append, List.cons_append, List.sum_cons, List.sum_cons, List.sum_append,
      List.sum_append]
    simp only [List.sum_cons, List.sum_nil, add_zero]
    have mid : ∀ (f g : Nat → K) (n : Nat), (∀ i, |f i - g i| ≤ tol) →
        |((List.range n).map f).sum - ((List.range n).map g).sum| ≤ n * tol := by
      intro f g n hfg
      induction n with
      | zero => simp
      | succ n ih =>
        rw [List.range_succ, List.map_append, List.map_append, List.sum_append, List.sum_append]
        simp only [List.map_cons, List.map_nil, List.sum_cons, List.sum_nil, add_zero]
        have e : ((List.range n).map f).sum + f n - (((List.range n).map g).sum + g n) =
            (((List.range n).map f).sum - ((List.range n).map g).sum) + (f n - g n) := by ring
        rw [e, Nat.cast_succ]
        calc _ ≤ _ := abs_add_le _ _
          _ ≤ n * tol + tol := add_le_add ih (hfg n)
          _ = _ := by ring
    have m := mid (fun i : Nat => app ((⌈b0⌉ : ℤ) + (i : K)) ((⌈b0⌉ : ℤ) + (i : K) + 1))
      (fun i : Nat => len ((⌈b0⌉ : ℤ) + (i : K)) ((⌈b0⌉ : ℤ) + (i : K) + 1)) (⌊b1⌋ - ⌈b0⌉ : ℤ).toNat (fun i => ha _ _)
    have m1 := ha b0 (⌈b0⌉ : ℤ)
    have m2 := ha (⌊b1⌋ : ℤ) b1
    have q : (((⌊b1⌋ - ⌈b0⌉ : ℤ).toNat : Nat) : K) ≤ b1 - b0 := by
      have hle : (⌈b0⌉ : ℤ) ≤ ⌊b1⌋ := by
        have : ((⌈b0⌉ : ℤ) : K) ≤ ((⌊b1⌋ : ℤ) : K) := by linarith
        exact_mod_cast this
      have : (((⌊b1⌋ - ⌈b0⌉ : ℤ).toNat : ℤ)) = ⌊b1⌋ - ⌈b0⌉ := Int.toNat_of_nonneg (by omega)
      have q : (((⌊b1⌋ - ⌈b0⌉ : ℤ).toNat : Nat) : K) = ((⌊b1⌋ - ⌈b0⌉ : ℤ) : K) := by rw [← Int.cast_natCast, this]
      rw [q]; push_cast; linarith
    have q2 := mul_le_mul_of_nonneg_right q ht
    generalize ((List.range (⌊b1⌋ - ⌈b0⌉ : ℤ).toNat).map fun i : Nat => app ((⌈b0⌉ : ℤ) + (i : K)) ((⌈b0⌉ : ℤ) + (i : K) + 1)).sum = A at m ⊢
    generalize ((List.range (⌊b1⌋ - ⌈b0⌉ : ℤ).toNat).map fun i : Nat => len ((⌈b0⌉ : ℤ) + (i : K)) ((⌈b0⌉ : ℤ) + (i : K) + 1)).sum = B at m ⊢
    rw [abs_le] at m m1 m2 ⊢
    constructor <;> linarith [m.1, m.2, m1.1, m1.2, m2.1, m2.2]
  · have := ha b0 b1
    have q : 0 ≤ (b1 - b0 + 1) * tol := mul_nonneg (by linarith) ht
    linarith

/-! ## C285: interpolation and `length_evaluator` -/

omit [FloorRing K]

theorem search_spec (xs : Nat → K) (x : K) : ∀ k i, i ≤ search xs x i k ∧ search xs x i k ≤ i + k ∧
    (∀ j, i ≤ j → j < search xs x i k → xs j < x) ∧ (search xs x i k < i + k → x ≤ xs (search xs x i k))
  | 0, i => by
    unfold search
    exact ⟨le_refl _, le_refl _, fun j h1 h2 => absurd h2 (by omega), fun h => absurd h (by omega)⟩
  | k + 1, i => by
    unfold search
    split_ifs with h
    · obtain ⟨a, b, c, d⟩ := search_spec xs x k (i + 1)
      refine ⟨by omega, by omega, fun j h1 h2 => ?_, fun hh => d (by omega)⟩
      by_cases e : j = i
      · rw [e]; exact h
      · exact c j (by omega) h2
    · exact ⟨le_refl _, by omega, fun j h1 h2 => absurd h2 (by omega), fun _ => not_lt.1 h⟩

/-- Increasing entries. -/
def Incr (n : Nat) (xs : Nat → K) : Prop := ∀ i, i + 1 < n → xs i < xs (i + 1)

theorem Incr.lt {n : Nat} {xs : Nat → K} (h : Incr n xs) (i : Nat) : ∀ j, i < j → j < n → xs i < xs j
  | 0, h1, _ => absurd h1 (Nat.not_lt_zero i)
  | j + 1, h1, h2 => by
    rcases Nat.lt_succ_iff_lt_or_eq.1 h1 with q | q
    · exact lt_trans (h.lt i j q (by omega)) (h j h2)
    · rw [q]; exact h j h2

theorem Incr.le {n : Nat} {xs : Nat → K} (h : Incr n xs) (i j : Nat) (hij : i ≤ j) (hj : j < n) : xs i ≤ xs j := by
  rcases Nat.eq_or_lt_of_le hij with q | q
  · rw [q]
  · exact (h.lt i j q hj).le

/-- Within the range the interpolation finds a cell. -/
theorem interp1_cell (n : Nat) (hn : 2 ≤ n) (xs ys : Nat → K) (hm : Incr n xs) (x : K) (h0 : xs 0 ≤ x) (h1 : x ≤ xs (n - 1)) :
    ∃ i, i + 1 < n ∧ xs i ≤ x ∧ x ≤ xs (i + 1) ∧
      interp1 n xs ys x = some ((ys (i + 1) - ys i) / (xs (i + 1) - xs i) * (x - xs i) + ys i) := by
  obtain ⟨_, b, c, d⟩ := search_spec xs x n 0
  rw [zero_add] at b d
  unfold interp1
  rw [if_neg (by rw [not_or]; exact ⟨not_lt.2 h0, not_lt.2 h1⟩)]
  dsimp only
  generalize search xs x 0 n = r at *
  have hr : r ≤ n - 1 := by
    by_contra hc
    exact absurd (c (n - 1) (by omega) (by omega)) (not_lt.2 h1)
  have hd := d (by omega)
  rcases Nat.eq_zero_or_pos r with e | e
  · subst e
    refine ⟨0, by omega, h0, le_trans hd (hm 0 (by omega)).le, ?_⟩
    have : min (max 0 1) (n - 1) = 1 := by omega
    rw [this]
  · refine ⟨r - 1, by omega, (c (r - 1) (by omega) (by omega)).le, ?_, ?_⟩
    · rw [Nat.sub_add_cancel e]; exact hd
    · have e1 : max r 1 = r := by omega
      have e2 : min r (n - 1) = r := by omega
      rw [e1, e2, Nat.sub_add_cancel e]

theorem lerp_mem (x0 x1 y0 y1 x : K) (h : x0 < x1) (h0 : x0 ≤ x) (h1 : x ≤ x1) (hy : y0 ≤ y1) :
    y0 ≤ (y1 - y0) / (x1 - x0) * (x - x0) + y0 ∧ (y1 - y0) / (x1 - x0) * (x - x0) + y0 ≤ y1 := by
  have hp : 0 < x1 - x0 := sub_pos.2 h
  have hs : 0 ≤ (y1 - y0) / (x1 - x0) := div_nonneg (sub_nonneg.2 hy) hp.le
  have e : (y1 - y0) / (x1 - x0) * (x1 - x0) = y1 - y0 := by field_simp
  have q1 : 0 ≤ (y1 - y0) / (x1 - x0) * (x - x0) := mul_nonneg hs (by linarith)
  have q2 : (y1 - y0) / (x1 - x0) * (x - x0) ≤ (y1 - y0) / (x1 - x0) * (x1 - x0) := mul_le_mul_of_nonneg_left (by linarith) hs
  constructor <;> linarith

/-- Entries on a line are interpolated by the line. -/
theorem interp1_affine (n : Nat) (hn : 2 ≤ n) (xs ys : Nat → K) (hm : Incr n xs) (p q : K) (hy : ∀ i, i < n → ys i = p * xs i + q) (x : K)
    (h0 : xs 0 ≤ x) (h1 : x ≤ xs (n - 1)) : interp1 n xs ys x = some (p * x + q) := by
  obtain ⟨i, hi, a, b, e⟩ := interp1_cell n hn xs ys hm x h0 h1
  have hp : xs (i + 1) - xs i ≠ 0 := ne_of_gt (sub_pos.2 (hm i hi))
  rw [e, hy i (by omega), hy (i + 1) hi]
  congr 1
  field_simp
  ring

/-- At the entries the interpolation gives the values. -/
theorem interp1_node (n : Nat) (hn : 2 ≤ n) (xs ys : Nat → K) (hm : Incr n xs) (k : Nat) (hk : k < n) : interp1 n xs ys (xs k) = some (ys k) := by
  obtain ⟨i, hi, a, b, e⟩ := interp1_cell n hn xs ys hm (xs k) (hm.le 0 k (by omega) hk) (hm.le k (n - 1) (by omega) (by omega))
  have hp : xs (i + 1) - xs i ≠ 0 := ne_of_gt (sub_pos.2 (hm i hi))
  rw [e]
  have h1 : i ≤ k := by
    by_contra hc
    exact absurd (hm.lt k i (by omega) (by omega)) (not_lt.2 a)
  have h2 : k ≤ i + 1 := by
    by_contra hc
    exact absurd (hm.lt (i + 1) k (by omega) hk) (not_lt.2 b)
  rcases Nat.eq_or_lt_of_le h1 with q | q
  · rw [← q, sub_self, mul_zero, zero_add]
  · have : k = i + 1 := by omega
    rw [this]
    congr 1
    field_simp
    ring

theorem lin_incr (a b : K) (h : a < b) (n : Nat) : Incr n (lin a b n) := by
  intro i hi
  have hn : ¬ n ≤ 1 := by omega
  unfold lin
  rw [if_neg hn, if_neg hn]
  have h0 : (0 : K) < ((n - 1 : Nat) : K) := Nat.cast_pos.2 (by omega)
  have : (b - a) * (i : K) < (b - a) * ((i + 1 : Nat) : K) := by
    apply mul_lt_mul_of_pos_left _ (sub_pos.2 h)
    exact_mod_cast Nat.lt_succ_self i
  linarith [div_lt_div_of_pos_right this h0]

theorem lin_step (a b : K) (n i : Nat) (hn : 2 ≤ n) : lin a b n (i + 1) - lin a b n i = (b - a) / ((n - 1 : Nat) : K) := by
  have h1 : ¬ n ≤ 1 := by omega
  unfold lin
  rw [if_neg h1, if_neg h1]
  have h0 : ((n - 1 : Nat) : K) ≠ 0 := Nat.cast_ne_zero.2 (by omega)
  push_cast
  field_simp
  ring

theorem len_incr (len : K → K → K) (h : Additive len) (hp : Positive len) (a b : K) (hab : a < b) (n : Nat) :
    Incr n (fun i => len a (lin a b n i)) := fun i hi => by
  have := hp _ _ (lin_incr a b hab n i hi)
  have e := h a (lin a b n i) (lin a b n (i + 1))
  dsimp only
  linarith

/-- **C285, in part.** For every length from 0 to the length of the curve there is an answer, in the interval of the curve, and it differs
from the parameter at which the curve has that length by no more than one step of the samples. -/
theorem C285_within_partial (n : Nat) (hn : 2 ≤ n) (len : K → K → K) (h : Additive len) (hp : Positive len) (a b : K) (hab : a < b) (l : K)
    (h0 : 0 ≤ l) (h1 : l ≤ len a b) : ∃ t, lengthEvaluator n len a b l = some t ∧ a ≤ t ∧ t ≤ b ∧
      ∀ s, len a s = l → |t - s| ≤ (b - a) / ((n - 1 : Nat) : K) := by
  have hm := len_incr len h hp a b hab n
  have hl := lin_incr a b hab n
  have le := lin_ends a b n hn
  obtain ⟨i, hi, q1, q2, e⟩ := interp1_cell n hn (fun i => len a (lin a b n i)) (lin a b n) hm l
    (by rw [le.1, h.self]; exact h0) (by rw [le.2]; exact h1)
  have m := lerp_mem _ _ _ _ l (hm i hi) q1 q2 (hl i hi).le
  refine ⟨_, e, ?_, ?_, fun s hs => ?_⟩
  · exact le_trans (by conv_lhs => rw [← le.1]
                       exact hl.le 0 i (by omega) (by omega)) m.1
  · refine le_trans m.2 ?_
    conv_rhs => rw [← le.2]
    exact hl.le (i + 1) (n - 1) (by omega) (by omega)
  · have s1 : lin a b n i ≤ s := by
      by_contra hc
      have := hp _ _ (not_le.1 hc)
      have := h a s (lin a b n i)
      linarith
    have s2 : s ≤ lin a b n (i + 1) := by
      by_contra hc
      have := hp _ _ (not_le.1 hc)
      have := h a (lin a b n (i + 1)) s
      linarith
    rw [← lin_step a b n i hn, abs_le]
    constructor <;> linarith [m.1, m.2]

/-- **C285.** Where the speed is constant the answer is exact. -/
theorem C285_exact (n : Nat) (hn : 2 ≤ n) (v : K) (hv : 0 < v) (a b : K) (hab : a < b) (l : K) (h0 : 0 ≤ l) (h1 : l ≤ v * (b - a)) :
    lengthEvaluator n (speed v) a b l = some (a + l / v) := by
  have hm := len_incr (speed v) (speed_additive v) (speed_positive v hv) a b hab n
  have le := lin_ends a b n hn
  have hv0 : v ≠ 0 := ne_of_gt hv
  unfold lengthEvaluator
  rw [interp1_affine n hn _ _ hm (1 / v) a (fun i _ => by unfold speed; field_simp; ring) l
    (by rw [le.1]; unfold speed; linarith) (by rw [le.2]; exact h1)]
  congr 1
  field_simp
  ring

/-- **C285.** Lengths below 0 or beyond the length of the curve raise an error. -/
theorem C285_outside (n : Nat) (hn : 2 ≤ n) (len : K → K → K) (h : Additive len) (a b l : K) (hl : l < 0 ∨ len a b < l) :
    lengthEvaluator n len a b l = none := by
  have le := lin_ends a b n hn
  unfold lengthEvaluator interp1
  rw [if_pos]
  simp only [le.1, le.2, h.self]
  exact hl

/-- **C285, in part.** As long as the curve is not extended, every question is answered for the interval of the curve. -/
theorem C285_queries_partial (n : Nat) (len : K → K → K) (a b : K) (ls : List (K × Option K)) :
    lrun n len ⟨(a, b), none⟩ (ls.map fun q => LOp.query q.1 q.2) = ls.map fun q => lengthEvaluator n len a b q.1 := by
  have go : ∀ (ls : List (K × Option K)) (e : Option (K → Option K)), e = none ∨ e = some (lengthEvaluator n len a b) →
      lrun n len ⟨(a, b), e⟩ (ls.map fun q => LOp.query q.1 q.2) = ls.map fun q => lengthEvaluator n len a b q.1 := by
    intro ls
    induction ls with
    | nil => intro e _; rfl
    | cons q ls ih =>
      intro e he
      have ev : e.getD (lengthEvaluator n len a b) = lengthEvaluator n len a b := by
        rcases he with he | he <;> rw [he] <;> rfl
      simp only [List.map_cons, lrun, lstep, ev]
      rw [ih _ (Or.inr rfl)]
  exact go ls none (Or.inl rfl)

/-- **C285, refuted.** The start `t0` has no influence on the answer. -/
theorem C285_t0_refuted (n : Nat) (len : K → K → K) (s : LState K) (l : K) (t0 t1 : Option K) :
    (lstep n len s (.query l t0)).1 = (lstep n len s (.query l t1)).1 := rfl

/-- **C285, refuted.** After the first question the answers belong to the interval of that time: on every curve of constant speed, after
extending it at the start by `e > 0`, the answer is the old one and `e` too large. -/
theorem C285_extend_refuted (n : Nat) (hn : 2 ≤ n) (v : K) (hv : 0 < v) (a b e l1 l2 : K) (hab : a < b) (he : 0 < e) (t1 t2 : Option K)
    (h0 : 0 ≤ l2) (h1 : l2 ≤ v * (b - a)) :
    (lrun n (speed v) ⟨(a, b), none⟩ [.query l1 t1, .extend e 0, .query l2 t2])[2]? = some (some (a + l2 / v)) ∧
    lengthEvaluator n (speed v) (a - e) (b + 0) l2 = some (a + l2 / v - e) := by
  constructor
  · simp only [lrun, lstep, Option.getD_some, Option.getD_none, List.getElem?_cons_succ, List.getElem?_cons_zero]
    rw [C285_exact n hn v hv a b hab l2 h0 h1]
  · rw [C285_exact n hn v hv (a - e) (b + 0) (by linarith) l2 h0 (by nlinarith)]
    congr 1
    ring

example : lrun 3 (speed (2 : ℚ)) ⟨(0, 1), none⟩ [.query 1 none, .query 1 (some (1 / 2)), .extend 1 0, .query 1 none] =
    [some (1 / 2), some (1 / 2), none, some (1 / 2)] := by decide +kernel

/-! ## C286: `arc_length_reparameterization` -/

theorem mapM_some (f : Nat → Option K) (g : Nat → K) : ∀ l : List Nat, (∀ i ∈ l, f i = some (g i)) → l.mapM f = some (l.map g)
  | [], _ => rfl
  | a :: l, h => by
    rw [List.mapM_cons, h a (by simp), mapM_some f g l (fun i hi => h i (by simp [hi]))]
    rfl

theorem arcLength_eq (n : Nat) (hn : 2 ≤ n) (len : K → K → K) (h : Additive len) (a b : K) (g : Nat → K)
    (hg : ∀ i, i < n → lengthEvaluator n len a b (lin 0 (len a b) n i) = some (g i)) (s : K) :
    arcLength n len a b s = interp1 n (lin 0 1 n) (fun i => ((List.range n).map g).getD i 0) s := by
  have le := lin_ends a b n hn
  unfold arcLength
  dsimp only
  rw [le.1, le.2, h.self, mapM_some _ g _ (fun i hi => hg i (List.mem_range.1 hi))]
  rfl

theorem lin_mem (a b : K) (hab : a ≤ b) (n i : Nat) (hn : 2 ≤ n) (hi : i < n) : a ≤ lin a b n i ∧ lin a b n i ≤ b := by
  have h1 : ¬ n ≤ 1 := by omega
  have h0 : (0 : K) < ((n - 1 : Nat) : K) := Nat.cast_pos.2 (by omega)
  unfold lin
  rw [if_neg h1]
  have q : (i : K) ≤ ((n - 1 : Nat) : K) := Nat.cast_le.2 (by omega)
  have q0 : (0 : K) ≤ i := Nat.cast_nonneg i
  have hb : 0 ≤ b - a := sub_nonneg.2 hab
  have e1 : 0 ≤ (b - a) * i / ((n - 1 : Nat) : K) := div_nonneg (mul_nonneg hb q0) h0.le
  have e2 : (b - a) * i / ((n - 1 : Nat) : K) ≤ b - a := by
    rw [div_le_iff₀ h0]; exact mul_le_mul_of_nonneg_left q hb
  constructor <;> linarith

/-- **C286.** On curves of positive speed the reparametrisation answers for every `s` in [0, 1], and at the equally spaced `s` its answer is
within one step of the samples of the parameter at which the curve has that share of its length. -/
theorem C286_nodes (n : Nat) (hn : 2 ≤ n) (len : K → K → K) (h : Additive len) (hp : Positive len) (a b : K) (hab : a < b) :
    (∀ s, 0 ≤ s → s ≤ 1 → ∃ t, arcLength n len a b s = some t) ∧
    ∀ k, k < n → ∃ t, arcLength n len a b (lin 0 1 n k) = some t ∧ a ≤ t ∧ t ≤ b ∧
      ∀ s, len a s = lin 0 1 n k * len a b → |t - s| ≤ (b - a) / ((n - 1 : Nat) : K) := by
  have hl : 0 < len a b := hp a b hab
  have key := fun i (hi : i < n) => C285_within_partial n hn len h hp a b hab (lin 0 (len a b) n i)
    (lin_mem 0 (len a b) hl.le n i hn hi).1 (lin_mem 0 (len a b) hl.le n i hn hi).2
  have hex : ∃ g : Nat → K, ∀ i, i < n → lengthEvaluator n len a b (lin 0 (len a b) n i) = some (g i) ∧ a ≤ g i ∧ g i ≤ b ∧
      ∀ s, len a s = lin 0 (len a b) n i → |g i - s| ≤ (b - a) / ((n - 1 : Nat) : K) := by
    refine ⟨fun i => (lengthEvaluator n len a b (lin 0 (len a b) n i)).getD 0, fun i hi => ?_⟩
    obtain ⟨t, e, q⟩ := key i hi
    dsimp only
    rw [e]
    exact ⟨rfl, q⟩
  obtain ⟨g, hg⟩ := hex
  have e := arcLength_eq n hn len h a b g (fun i hi => (hg i hi).1)
  have m : Incr n (lin (0 : K) 1 n) := lin_incr 0 1 zero_lt_one n
  have l01 := lin_ends (0 : K) 1 n hn
  refine ⟨fun s h0 h1 => ?_, fun k hk => ?_⟩
  · obtain ⟨i, _, _, _, q⟩ := interp1_cell n hn (lin 0 1 n) (fun i => ((List.range n).map g).getD i 0) m s
      (by rw [l01.1]; exact h0) (by rw [l01.2]; exact h1)
    exact ⟨_, (e s).trans q⟩
  · refine ⟨g k, ?_, (hg k hk).2.1, (hg k hk).2.2.1, fun s hs => (hg k hk).2.2.2 s ?_⟩
    · rw [e, interp1_node n hn _ _ m k hk]
      congr 1
      rw [List.getD_eq_getElem?_getD]
      simp [hk]
    · rw [hs]
      have h1 : ¬ n ≤ 1 := by omega
      unfold lin
      rw [if_neg h1, if_neg h1]
      ring

/-- **C286.** For constant speed the reparametrisation is the linear one, exactly. -/
theorem C286_exact (n : Nat) (hn : 2 ≤ n) (v : K) (hv : 0 < v) (a b : K) (hab : a < b) (s : K) (h0 : 0 ≤ s) (h1 : s ≤ 1) :
    arcLength n (speed v) a b s = some (a + (b - a) * s) := by
  have hp : 0 ≤ v * (b - a) := mul_nonneg hv.le (by linarith)
  have hv0 : v ≠ 0 := ne_of_gt hv
  have m : Incr n (lin (0 : K) 1 n) := lin_incr 0 1 zero_lt_one n
  have l01 := lin_ends (0 : K) 1 n hn
  have hn1 : ¬ n ≤ 1 := by omega
  rw [arcLength_eq n hn (speed v) (speed_additive v) a b (fun i => a + (b - a) * lin 0 1 n i) (fun i hi => ?_) s,
    interp1_affine n hn (lin 0 1 n) _ m (b - a) a (fun i hi => ?_) s (by rw [l01.1]; exact h0) (by rw [l01.2]; exact h1)]
  · congr 1; ring
  · rw [List.getD_eq_getElem?_getD]
    simp [hi]
    ring
  · have q := lin_mem 0 (speed v a b) hp n i hn hi
    rw [C285_exact n hn v hv a b hab _ q.1 q.2]
    congr 1
    unfold lin speed
    rw [if_neg hn1, if_neg hn1]
    field_simp
    ring

example : arcLength 3 (speed (2 : ℚ)) 1 5 (1 / 4) = some 2 := by decide +kernel

/-! ## C287: `curve_bvh` -/

variable {V : Type} [AddCommGroup V] [Module K V]

/-- **C287.** The segments cover the interval: every parameter lies in one of them; each one joins the points of the curve at the ends of
its piece; the first begins and the last ends with the curve; each begins where the one before it ends. -/
theorem C287_segments (f : K → V) (a b : K) (count : Nat) (hc : 0 < count) :
    (segments f a b count).length = count ∧
    (∀ t, a ≤ t → t ≤ b → ∃ s ∈ segments f a b count, s.2.1 ≤ t ∧ t ≤ s.2.2) ∧
    (∀ s ∈ segments f a b count, s.1 = (f s.2.1, f s.2.2)) ∧
    ((segments f a b count)[0]?.map fun s => s.2.1) = some a ∧
    ((segments f a b count)[count - 1]?.map fun s => s.2.2) = some b ∧
    ∀ i, i + 1 < count → ((segments f a b count)[i]?.map fun s => s.2.2) = ((segments f a b count)[i + 1]?.map fun s => s.2.1) := by
  have le := lin_ends a b (count + 1) (by omega)
  rw [Nat.add_sub_cancel] at le
  refine ⟨by simp [segments], fun t h0 h1 => ?_, ?_, ?_, ?_, fun i hi => ?_⟩
  · obtain ⟨i, hi, q1, q2⟩ := cell (lin a b (count + 1)) t count hc (by rw [le.1]; exact h0) (by rw [le.2]; exact h1)
    exact ⟨_, List.mem_map.2 ⟨i, List.mem_range.2 hi, rfl⟩, q1, q2⟩
  · intro s hs
    obtain ⟨i, _, rfl⟩ := List.mem_map.1 hs
    rfl
  · simp [segments, hc, le.1]
  · have : count - 1 < count := by omega
    have e : count - 1 + 1 = count := by omega
    simp [segments, this, e, le.2]
  · simp [segments, hi, Nat.lt_of_succ_lt hi]

/-! ## C288: `ReparametrizedCurve` -/

/-- **C288, refuted.** `circle_of_curvature` never returns, at any depth. -/
theorem C288_circle_refuted (phi : K → K) (n : Nat) (t : K) : (reparamCircle phi n t : Option V) = none := by
  induction n generalizing t with
  | zero => rfl
  | succ n ih => exact ih (phi t)

section Real

variable {E : Type} [NormedAddCommGroup E] [NormedSpace ℝ E]

/-- **C288, refuted.** The derivative leaves out the derivative `m` of the parametrisation: what it gives is right only if `m = 1` or the
derivative is zero. -/
theorem C288_derivative_refuted (c : Cv ℝ E) (phi : ℝ → ℝ) (x0 x1 t m : ℝ) (hphi : HasDerivAt phi m t)
    (hc : HasDerivAt c.eval (c.der (phi t)) (phi t)) :
    HasDerivAt (reparam c phi x0 x1).eval (m • (reparam c phi x0 x1).der t) t ∧
    (m ≠ 1 → c.der (phi t) ≠ 0 → ¬ HasDerivAt (reparam c phi x0 x1).eval ((reparam c phi x0 x1).der t) t) := by
  have h : HasDerivAt (reparam c phi x0 x1).eval (m • (reparam c phi x0 x1).der t) t := hc.scomp t hphi
  refine ⟨h, fun hm hd hq => hd ?_⟩
  have e := h.unique hq
  have : (m - 1) • c.der (phi t) = 0 := by
    have : m • c.der (phi t) = c.der (phi t) := e
    rw [sub_smul, this, one_smul, sub_self]
  exact (smul_eq_zero.1 this).resolve_left (sub_ne_zero.2 hm)

/-- **C288, in part.** The derivative returned has the direction of the derivative when the parametrisation is increasing: the tangents are
right. -/
theorem C288_direction_partial (c : Cv ℝ E) (phi : ℝ → ℝ) (x0 x1 t m : ℝ) (hm : 0 < m) (hphi : HasDerivAt phi m t)
    (hc : HasDerivAt c.eval (c.der (phi t)) (phi t)) (d : E) (hd : HasDerivAt (reparam c phi x0 x1).eval d t) :
    (1 / ‖d‖) • d = (1 / ‖(reparam c phi x0 x1).der t‖) • (reparam c phi x0 x1).der t := by
  have e := hd.unique (C288_derivative_refuted c phi x0 x1 t m hphi hc).1
  rw [e, norm_smul, Real.norm_of_nonneg hm.le, smul_smul]
  congr 1
  by_cases h0 : ‖(reparam c phi x0 x1).der t‖ = 0
  · rw [h0]; simp
  · field_simp

/-- A line run through twice as fast. -/
example (t : ℝ) : ¬ HasDerivAt (reparam (⟨fun s => s, fun _ => 1, fun _ => 0, (0, 2)⟩ : Cv ℝ ℝ) (fun s => 2 * s) 0 1).eval
    ((reparam (⟨fun s => s, fun _ => 1, fun _ => 0, (0, 2)⟩ : Cv ℝ ℝ) (fun s => 2 * s) 0 1).der t) t := by
  have hphi : HasDerivAt (fun s : ℝ => 2 * s) 2 t := by simpa using (hasDerivAt_id t).const_mul 2
  exact (C288_derivative_refuted _ _ 0 1 t 2 hphi (hasDerivAt_id _)).2 (by norm_num) one_ne_zero

end Real

end Verif.Crv
