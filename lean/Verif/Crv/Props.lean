import Verif.Crv.Model
import Mathlib.Tactic.Module
import Mathlib.Tactic.Ring
import Mathlib.Tactic.Linarith
import Mathlib.Tactic.NormNum
import Mathlib.Tactic.FieldSimp
import Mathlib.Tactic.LinearCombination
import Mathlib.Tactic.Positivity
import Mathlib.Algebra.Field.Rat
import Mathlib.Algebra.Order.Ring.Rat

set_option linter.unusedSectionVars false

/-!
# Python curves: differences, trimming, operators and parameters (C279–C283)
-/

namespace Verif.Crv

variable {K : Type} [Field K] [LinearOrder K] [IsStrictOrderedRing K] {V : Type} [AddCommGroup V] [Module K V]

/-! ## C279: `derivative` -/

/-- A quadratic curve. -/
def quad (a b c : V) (t : K) : V := (t ^ 2) • a + t • b + c

theorem der_central (h : K) (f : K → V) (t : K) (h1 : h ≤ t) (h2 : t ≤ 1 - h) :
    derivative h f t = (1 / (2 * h)) • (f (t + h) - f (t - h)) := by
  rw [derivative, stencil, if_pos ⟨h2, h1⟩]

theorem der_forward (h : K) (f : K → V) (t : K) (h1 : t < h) : derivative h f t = (1 / h) • (f (t + h) - f t) := by
  rw [derivative, stencil, if_neg (fun q => absurd q.2 (not_le.2 h1)), if_pos (le_of_lt h1)]

theorem der_backward (h : K) (f : K → V) (t : K) (h1 : h < t) (h2 : 1 - h < t) :
    derivative h f t = (1 / h) • (f t - f (t - h)) := by
  rw [derivative, stencil, if_neg (fun q => absurd q.1 (not_le.2 h2)), if_neg (not_le.2 h1)]

/-- **C279.** On straight lines the result is exact everywhere. -/
theorem C279_line (h : K) (hh : 0 < h) (p d : V) (t : K) : derivative h (fun s : K => p + s • d) t = d := by
  have h0 : h ≠ 0 := ne_of_gt hh
  have e1 : (1 / h) * h = 1 := by field_simp
  have e2 : (1 / (2 * h)) * (2 * h) = 1 := by field_simp
  unfold derivative stencil
  split_ifs <;> dsimp only
  · have : p + (t + h) • d - (p + (t - h) • d) = (2 * h) • d := by module
    rw [this, smul_smul, e2, one_smul]
  · have : p + (t + h) • d - (p + t • d) = h • d := by module
    rw [this, smul_smul, e1, one_smul]
  · have : p + t • d - (p + (t - h) • d) = h • d := by module
    rw [this, smul_smul, e1, one_smul]

/-- **C279, in part.** On quadratic curves the result is exact for parameters in `[h, 1 - h]`, and elsewhere it is off by `h` times the
leading coefficient: above it before `h`, below it after `1 - h`, however far the interval of the curve goes. -/
theorem C279_quadratic_partial (h : K) (hh : 0 < h) (a b c : V) (t : K) :
    (h ≤ t → t ≤ 1 - h → derivative h (quad a b c) t = (2 * t) • a + b) ∧
    (t < h → derivative h (quad a b c) t = ((2 * t) • a + b) + h • a) ∧
    (h < t → 1 - h < t → derivative h (quad a b c) t = ((2 * t) • a + b) - h • a) := by
  have h0 : h ≠ 0 := ne_of_gt hh
  refine ⟨fun h1 h2 => ?_, fun h1 => ?_, fun h1 h2 => ?_⟩
  · rw [der_central h _ t h1 h2]
    have : quad a b c (t + h) - quad a b c (t - h) = (2 * h) • ((2 * t) • a + b) := by unfold quad; module
    rw [this, smul_smul, show (1 / (2 * h)) * (2 * h) = 1 by field_simp, one_smul]
  · rw [der_forward h _ t h1]
    have : quad a b c (t + h) - quad a b c t = h • (((2 * t) • a + b) + h • a) := by unfold quad; module
    rw [this, smul_smul, show (1 / h) * h = 1 by field_simp, one_smul]
  · rw [der_backward h _ t h1 h2]
    have : quad a b c t - quad a b c (t - h) = h • (((2 * t) • a + b) - h • a) := by unfold quad; module
    rw [this, smul_smul, show (1 / h) * h = 1 by field_simp, one_smul]

/-- **C279, refuted.** The bounds are 0 and 1 and not those of the curve: at every parameter above 1, which may lie well inside of the
interval, the derivative of every curve with a quadratic part is wrong. -/
theorem C279_interval_refuted (h : K) (hh : 0 < h) (h1 : h ≤ 1) (a b c : V) (ha : a ≠ 0) (t : K) (ht : 1 < t) :
    derivative h (quad a b c) t ≠ (2 * t) • a + b := by
  rw [(C279_quadratic_partial h hh a b c t).2.2 (by linarith) (by linarith)]
  intro q
  have : h • a = 0 := by
    have : (2 * t) • a + b - h • a = ((2 * t) • a + b) - 0 := by rw [sub_zero]; exact q
    exact sub_right_injective this
  exact (smul_eq_zero.1 this).elim (ne_of_gt hh) ha

/-- The parameters at which the curve is evaluated. -/
def Inside (h a b t : K) : Prop := a ≤ (stencil h t).1 ∧ (stencil h t).2.1 ≤ b

/-- **C279, in part.** A curve over [0, 1] is never evaluated outside of its interval. -/
theorem C279_inside_partial (h : K) (hh : 0 < h) (h2 : 2 * h ≤ 1) (t : K) (h0 : 0 ≤ t) (h1 : t ≤ 1) : Inside h 0 1 t := by
  unfold Inside stencil
  split_ifs with c1 c2
  · exact ⟨by dsimp only; linarith [c1.2], by dsimp only; linarith [c1.1]⟩
  · exact ⟨h0, by dsimp only; linarith⟩
  · exact ⟨by dsimp only; linarith [not_le.1 c2], h1⟩

/-- **C279, refuted.** A curve whose interval begins at 1 or above is evaluated below its start when the derivative at the start is asked
for. -/
theorem C279_inside_refuted (h : K) (hh : 0 < h) (h1 : h < 1) (a b : K) (ha : 1 ≤ a) : ¬ Inside h a b a := by
  unfold Inside stencil
  rw [if_neg (fun q => absurd q.1 (by linarith)), if_neg (by linarith)]
  dsimp only
  rintro ⟨q, _⟩
  linarith

example : derivative (1 / 1000 : ℚ) (quad (1 : ℚ) 0 0) 2 = 4 - 1 / 1000 := by decide +kernel
example : ¬ Inside (1 / 1000 : ℚ) 2 3 2 := C279_inside_refuted _ (by norm_num) (by norm_num) _ _ (by norm_num)

/-! ## C280: `second_derivative` -/

/-- **C280, in part.** On quadratic curves the second derivative is exact for parameters in `[2h, 1 - 2h]`. -/
theorem C280_quadratic_partial (h : K) (hh : 0 < h) (a b c : V) (t : K) (h1 : 2 * h ≤ t) (h2 : t ≤ 1 - 2 * h) :
    secondDerivative h (quad a b c) t = (2 : K) • a := by
  have h0 : h ≠ 0 := ne_of_gt hh
  unfold secondDerivative
  rw [(C279_quadratic_partial h hh a b c (t + h)).1 (by linarith) (by linarith),
    (C279_quadratic_partial h hh a b c (t - h)).1 (by linarith) (by linarith)]
  have : ((2 * (t + h)) • a + b) - ((2 * (t - h)) • a + b) = (2 * h) • ((2 : K) • a) := by module
  rw [this, smul_smul, show (1 / (2 * h)) * (2 * h) = 1 by field_simp, one_smul]

/-- **C280, refuted.** At both ends of [0, 1] the second derivative of every quadratic curve comes out as three quarters of what it is:
one of the two first derivatives is then a one-sided difference.  The size of the step does not matter. -/
theorem C280_ends_refuted (h : K) (hh : 0 < h) (h2 : 2 * h ≤ 1) (a b c : V) :
    secondDerivative h (quad a b c) 0 = (3 / 2 : K) • a ∧ secondDerivative h (quad a b c) 1 = (3 / 2 : K) • a ∧
    (a ≠ 0 → (3 / 2 : K) • a ≠ (2 : K) • a) := by
  have h0 : h ≠ 0 := ne_of_gt hh
  refine ⟨?_, ?_, ?_⟩
  · unfold secondDerivative
    rw [(C279_quadratic_partial h hh a b c (0 + h)).1 (by linarith) (by linarith),
      (C279_quadratic_partial h hh a b c (0 - h)).2.1 (by linarith)]
    have : ((2 * (0 + h)) • a + b) - (((2 * (0 - h)) • a + b) + h • a) = (2 * h) • ((3 / 2 : K) • a) := by module
    rw [this, smul_smul, show (1 / (2 * h)) * (2 * h) = 1 by field_simp, one_smul]
  · unfold secondDerivative
    rw [(C279_quadratic_partial h hh a b c (1 + h)).2.2 (by linarith) (by linarith),
      (C279_quadratic_partial h hh a b c (1 - h)).1 (by linarith) (by linarith)]
    have : (((2 * (1 + h)) • a + b) - h • a) - ((2 * (1 - h)) • a + b) = (2 * h) • ((3 / 2 : K) • a) := by module
    rw [this, smul_smul, show (1 / (2 * h)) * (2 * h) = 1 by field_simp, one_smul]
  · intro ha q
    have : (1 / 2 : K) • a = 0 := by
      have e : (1 / 2 : K) • a = (2 : K) • a - (3 / 2 : K) • a := by module
      rw [e, q, sub_self]
    exact (smul_eq_zero.1 this).elim (by norm_num) ha

example : secondDerivative (1 / 1000 : ℚ) (quad (1 : ℚ) 0 0) 0 = 3 / 2 ∧ secondDerivative (1 / 1000 : ℚ) (quad (1 : ℚ) 0 0) (1 / 2) = 2 := by
  decide +kernel

/-! ## C281: `split` and `TrimmedCurve` -/

/-- **C281.** The two pieces have the points and first derivatives of the curve; a parameter of the curve belongs to one of them. -/
theorem C281_split_partial (c : Cv K V) (t : K) (h0 : c.interval.1 ≤ t) (h1 : t ≤ c.interval.2) :
    (split c t).1.interval = (c.interval.1, t) ∧ (split c t).2.interval = (t, c.interval.2) ∧
    (∀ s, (c.interval.1 ≤ s ∧ s ≤ c.interval.2) ↔ (((split c t).1.interval.1 ≤ s ∧ s ≤ (split c t).1.interval.2) ∨
      ((split c t).2.interval.1 ≤ s ∧ s ≤ (split c t).2.interval.2))) ∧
    (∀ s, (split c t).1.eval s = c.eval s ∧ (split c t).2.eval s = c.eval s ∧ (split c t).1.der s = c.der s ∧
      (split c t).2.der s = c.der s) := by
  refine ⟨rfl, rfl, fun s => ?_, fun s => ⟨rfl, rfl, rfl, rfl⟩⟩
  simp only [split, trimmed]
  constructor
  · rintro ⟨a, b⟩
    rcases le_total s t with q | q
    · exact Or.inl ⟨a, q⟩
    · exact Or.inr ⟨q, b⟩
  · rintro (⟨a, b⟩ | ⟨a, b⟩)
    · exact ⟨a, le_trans b h1⟩
    · exact ⟨le_trans h0 a, b⟩

/-- **C281, refuted.** The second derivative of a piece is the first derivative of the curve. -/
theorem C281_second_refuted (c : Cv K V) (t s : K) (h : c.der s ≠ c.der2 s) :
    (split c t).1.der2 s = c.der s ∧ (split c t).1.der2 s ≠ c.der2 s ∧ (split c t).2.der2 s ≠ c.der2 s := ⟨rfl, h, h⟩

/-- The quadratic curve with exact derivatives. -/
def quadCv (a b c : V) (s e : K) : Cv K V := ⟨quad a b c, fun t => (2 * t) • a + b, fun _ => (2 : K) • a, (s, e)⟩

example : (split (quadCv (1 : ℚ) 0 0 (0 : ℚ) 1) (1 / 2)).1.der2 (1 / 4) = 1 / 2 ∧ (quadCv (1 : ℚ) 0 0 (0 : ℚ) 1).der2 (1 / 4) = 2 := by
  decide +kernel

theorem readStart_none (n : Nat) (s : TState K) : readStart n s = none := by
  induction n with
  | zero => rfl
  | succ n ih => exact ih

/-- **C281, refuted.** However deep the stack is, reading `start` and setting `end` fail, on every trimmed curve. -/
theorem C281_ends_refuted (depth : Nat) (s : TState K) (v : K) :
    tstep depth s .getStart = none ∧ tstep depth s (.setEnd v) = none := by
  constructor <;> simp [tstep, readStart_none]

/-- **C281, in part.** Setting `start` and reading `end` work; `extend` succeeds and leaves the interval as it is. -/
theorem C281_ends_partial (depth : Nat) (s : TState K) (v a b : K) :
    (∃ s', tstep depth s (.setStart v) = some (none, s') ∧ s'.trim = (v, s.trim.2)) ∧
    tstep depth s .getEnd = some (some s.trim.2, s) ∧
    (∃ s', tstep depth s (.extend a b) = some (none, s') ∧ s'.trim = s.trim) := ⟨⟨_, rfl, rfl⟩, rfl, ⟨_, rfl, rfl⟩⟩

/-! ## C282: operators -/

/-- **C282.** The node has at every parameter the result of the operator on the points, and its interval is where both curves are
defined. -/
theorem C282_node (c : Cv K V) (op : V → V → V) (d : Cv K V) (f : K → V) (v : V) (t : K) :
    nodeEval c op (.curve d) t = op (c.eval t) (d.eval t) ∧ nodeEval c op (.fn f) t = op (c.eval t) (f t) ∧
    nodeEval c op (.value v) t = op (c.eval t) v ∧
    (((nodeInterval c (.curve d)).1 ≤ t ∧ t ≤ (nodeInterval c (.curve d)).2) ↔
      ((c.interval.1 ≤ t ∧ t ≤ c.interval.2) ∧ (d.interval.1 ≤ t ∧ t ≤ d.interval.2))) := by
  refine ⟨rfl, rfl, rfl, ?_⟩
  simp only [nodeInterval, max_le_iff, le_min_iff]
  tauto

/-- **C282.** The derivative of a sum or difference of curves is the sum or difference of the derivatives, of a multiple the multiple. -/
theorem C282_derivative (h : K) (c d : Cv K V) (t k : K) :
    derivative h (nodeEval c (· + ·) (.curve d)) t = derivative h c.eval t + derivative h d.eval t ∧
    derivative h (nodeEval c (· - ·) (.curve d)) t = derivative h c.eval t - derivative h d.eval t ∧
    derivative h (fun s => k • c.eval s) t = k • derivative h c.eval t := by
  refine ⟨?_, ?_, ?_⟩ <;> simp only [derivative, nodeEval] <;> module

/-- **C282, refuted.** Two curves whose intervals do not meet still give a node, with an interval that runs backwards and holds no
parameter. -/
theorem C282_empty_refuted (c d : Cv K V) (h : c.interval.2 < d.interval.1) :
    (nodeInterval c (.curve d)).2 < (nodeInterval c (.curve d)).1 ∧
    ∀ t, ¬ ((nodeInterval c (.curve d)).1 ≤ t ∧ t ≤ (nodeInterval c (.curve d)).2) := by
  have q : (nodeInterval c (.curve d)).2 < (nodeInterval c (.curve d)).1 := by
    simp only [nodeInterval]
    exact lt_of_le_of_lt (min_le_left _ _) (lt_of_lt_of_le h (le_max_right _ _))
  exact ⟨q, fun t ht => absurd (le_trans ht.1 ht.2) (not_le.2 q)⟩

example : nodeInterval (quadCv (1 : ℚ) 0 0 (0 : ℚ) 1) (.curve (quadCv (1 : ℚ) 0 0 (2 : ℚ) 3)) = (2, 1) := by decide +kernel

/-! ## C283: `normalize_param` and `remap_param` -/

theorem interp2_mem (a b c d t : K) (hab : a < b) (hcd : c ≤ d) : c ≤ interp2 a b c d t ∧ interp2 a b c d t ≤ d := by
  unfold interp2
  split_ifs with h1 h2
  · exact ⟨le_refl _, hcd⟩
  · exact ⟨hcd, le_refl _⟩
  · have hp : 0 < b - a := sub_pos.2 hab
    have hs : 0 ≤ (d - c) / (b - a) := div_nonneg (sub_nonneg.2 hcd) hp.le
    have e : (d - c) / (b - a) * (b - a) = d - c := by field_simp
    have q1 : 0 ≤ (d - c) / (b - a) * (t - a) := mul_nonneg hs (by linarith [not_lt.1 h1])
    have q2 : (d - c) / (b - a) * (t - a) ≤ (d - c) / (b - a) * (b - a) := mul_le_mul_of_nonneg_left (by linarith [not_lt.1 h2]) hs
    constructor <;> linarith

/-- **C283.** On the interval and on the domain the two are inverse to each other and affine with the ends going to the ends. -/
theorem C283_inverse (a b lo hi : K) (hab : a < b) (hlh : lo < hi) :
    normalizeParam a b a = 0 ∧ normalizeParam a b b = 1 ∧ remapParam a b lo hi lo = a ∧ remapParam a b lo hi hi = b ∧
    (∀ t, a ≤ t → t ≤ b → remapParam a b 0 1 (normalizeParam a b t) = t) ∧
    (∀ s, 0 ≤ s → s ≤ 1 → normalizeParam a b (remapParam a b 0 1 s) = s) ∧
    (∀ s, lo ≤ s → s ≤ hi → remapParam a b lo hi s = a + (b - a) * ((s - lo) / (hi - lo))) := by
  have hp : b - a ≠ 0 := ne_of_gt (sub_pos.2 hab)
  have hq : hi - lo ≠ 0 := ne_of_gt (sub_pos.2 hlh)
  have mid : ∀ (a b c d t : K), a ≤ t → t ≤ b → interp2 a b c d t = (d - c) / (b - a) * (t - a) + c := fun a b c d t h1 h2 => by
    rw [interp2, if_neg (not_lt.2 h1), if_neg (not_lt.2 h2)]
  unfold normalizeParam remapParam
  refine ⟨?_, ?_, ?_, ?_, fun t h1 h2 => ?_, fun s h1 h2 => ?_, fun s h1 h2 => ?_⟩
  · rw [mid _ _ _ _ _ (le_refl _) hab.le]; ring
  · rw [mid _ _ _ _ _ hab.le (le_refl _)]; field_simp; ring
  · rw [mid _ _ _ _ _ (le_refl _) hlh.le]; ring
  · rw [mid _ _ _ _ _ hlh.le (le_refl _)]; field_simp; ring
  · have m := interp2_mem a b 0 1 t hab zero_le_one
    rw [mid 0 1 _ _ _ m.1 m.2, mid a b _ _ _ h1 h2]; field_simp; ring
  · have m := interp2_mem 0 1 a b s zero_lt_one hab.le
    rw [mid a b _ _ _ m.1 m.2, mid 0 1 _ _ _ h1 h2]; field_simp; ring
  · rw [mid _ _ _ _ _ h1 h2]; field_simp; ring

/-- **C283.** Whatever is asked for, the results stay in the interval: parameters outside go to the nearer end. -/
theorem C283_clamped (a b lo hi t : K) (hab : a < b) (hlh : lo < hi) :
    (0 ≤ normalizeParam a b t ∧ normalizeParam a b t ≤ 1) ∧ (a ≤ remapParam a b lo hi t ∧ remapParam a b lo hi t ≤ b) ∧
    (t < a → normalizeParam a b t = 0) ∧ (b < t → normalizeParam a b t = 1) ∧
    (t < lo → remapParam a b lo hi t = a) ∧ (hi < t → remapParam a b lo hi t = b) := by
  refine ⟨interp2_mem _ _ _ _ _ hab zero_le_one, interp2_mem _ _ _ _ _ hlh hab.le, fun h => ?_, fun h => ?_, fun h => ?_, fun h => ?_⟩
  · simp [normalizeParam, interp2, h]
  · rw [normalizeParam, interp2, if_neg (by linarith), if_pos h]
  · simp [remapParam, interp2, h]
  · rw [remapParam, interp2, if_neg (by linarith), if_pos h]

example : normalizeParam (2 : ℚ) 6 3 = 1 / 4 ∧ remapParam (2 : ℚ) 6 0 1 (1 / 4) = 3 := by decide +kernel

end Verif.Crv
