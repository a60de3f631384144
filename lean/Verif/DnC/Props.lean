import Verif.DnC.Model
import Mathlib.Tactic.Linarith
import Mathlib.Tactic.Ring
import Mathlib.Tactic.NormNum
import Mathlib.Tactic.FieldSimp
import Mathlib.Tactic.Push
import Mathlib.Algebra.Order.Archimedean.Basic
import Mathlib.Data.Rat.Floor
import Mathlib.Algebra.Order.Ring.Abs

/-! # Properties of the one dimensional searches -/

set_option linter.unusedSectionVars false

namespace Verif.DnC

variable {K : Type} [Field K] [LinearOrder K] [IsStrictOrderedRing K]

/-- `f` strictly decreases on `[a, xs]` and strictly increases on `[xs, b]`: `xs` is the only
minimiser on `[a, b]`. -/
structure Unimodal (f : K → K) (a b xs : K) : Prop where
  left : a ≤ xs
  right : xs ≤ b
  dec : ∀ x y, a ≤ x → x < y → y ≤ xs → f y < f x
  inc : ∀ x y, xs ≤ x → x < y → y ≤ b → f x < f y

/-- The two possible next intervals still contain the minimiser. -/
theorem uni_step {f : K → K} {a b xs lo hi : K} (hu : Unimodal f a b xs) (ha : a ≤ lo)
    (hb : hi ≤ b) (h1 : lo ≤ xs) (h2 : xs ≤ hi) :
    (f (lo + (hi - lo) / 4) < f (hi - (hi - lo) / 4) → xs ≤ hi - (hi - lo) / 4) ∧
    (¬ f (lo + (hi - lo) / 4) < f (hi - (hi - lo) / 4) → lo + (hi - lo) / 4 ≤ xs) := by
  constructor
  · intro h
    by_contra hc
    have hc := not_le.1 hc
    have : lo < hi := by linarith
    exact lt_asymm h (hu.dec _ _ (by linarith) (by linarith) hc.le)
  · intro h
    by_contra hc
    have hc := not_le.1 hc
    have : lo < hi := by linarith
    exact h (hu.inc _ _ hc.le (by linarith) (by linarith))

theorem minRec_near {f : K → K} {a b xs tol : K} (hu : Unimodal f a b xs) (k : Nat) :
    ∀ {lo hi : K} {r : K × K}, a ≤ lo → hi ≤ b → lo ≤ xs → xs ≤ hi →
      minRec f tol k lo hi = some r → |r.1 - xs| < tol / 2 := by
  induction k with
  | zero => intro lo hi r _ _ _ _ h; simp [minRec] at h
  | succ k ih =>
    intro lo hi r ha hb h1 h2 h
    have hs := uni_step hu ha hb h1 h2
    rw [minRec] at h
    dsimp only at h
    split_ifs at h with c1 c2
    · cases h
      rw [abs_lt]
      constructor <;> dsimp only <;> linarith
    · exact ih ha (by linarith) h1 (hs.1 c2) h
    · exact ih (by linarith) hb (hs.2 c2) h2 h

theorem minRec_range {f : K → K} {tol : K} (k : Nat) :
    ∀ {lo hi : K} {r : K × K}, lo ≤ hi → minRec f tol k lo hi = some r →
      lo ≤ r.1 ∧ r.1 ≤ hi ∧ r.2 = f r.1 := by
  induction k with
  | zero => intro lo hi r _ h; simp [minRec] at h
  | succ k ih =>
    intro lo hi r hle h
    rw [minRec] at h
    dsimp only at h
    split_ifs at h with c1 c2
    · cases h; exact ⟨by dsimp only; linarith, by dsimp only; linarith, rfl⟩
    · obtain ⟨g1, g2, g3⟩ := ih (by linarith) h
      exact ⟨g1, by linarith, g3⟩
    · obtain ⟨g1, g2, g3⟩ := ih (by linarith) h
      exact ⟨by linarith, g2, g3⟩

theorem minRec_some (f : K → K) {tol : K} (k : Nat) :
    ∀ {lo hi : K}, (hi - lo) * (3 / 4) ^ k < tol → ∃ r, minRec f tol (k + 1) lo hi = some r := by
  induction k with
  | zero =>
    intro lo hi h
    rw [pow_zero, mul_one] at h
    exact ⟨_, by rw [minRec, if_pos h]⟩
  | succ k ih =>
    intro lo hi h
    rw [minRec]
    by_cases c1 : hi - lo < tol
    · exact ⟨_, if_pos c1⟩
    · rw [if_neg c1]
      dsimp only
      by_cases c2 : f (lo + (hi - lo) / 4) < f (hi - (hi - lo) / 4)
      · rw [if_pos c2]
        apply ih
        rw [pow_succ] at h
        calc _ = (hi - lo) * ((3 / 4) ^ k * (3 / 4)) := by ring
          _ < tol := h
      · rw [if_neg c2]
        apply ih
        rw [pow_succ] at h
        calc _ = (hi - lo) * ((3 / 4) ^ k * (3 / 4)) := by ring
          _ < tol := h

theorem enough [Archimedean K] (w : K) {tol : K} (ht : 0 < tol) (c : K) (_hc : 0 ≤ c) (hc1 : c < 1) :
    ∃ k : Nat, w * c ^ k < tol := by
  by_cases hw : w ≤ 0
  · exact ⟨0, by rw [pow_zero, mul_one]; linarith⟩
  · have hw := not_le.1 hw
    obtain ⟨k, hk⟩ := exists_pow_lt_of_lt_one (div_pos ht hw) hc1
    refine ⟨k, ?_⟩
    rw [lt_div_iff₀ hw] at hk
    linarith

theorem minIter_eq (f : K → K) (tol : K) (k : Nat) :
    ∀ {lo hi : K}, lo ≤ hi → minIter f tol k lo hi = minRec f tol k lo hi := by
  induction k with
  | zero => intro lo hi _; rfl
  | succ k ih =>
    intro lo hi hle
    have habs : |hi - lo| = hi - lo := abs_of_nonneg (by linarith)
    rw [minIter, minRec, habs]
    by_cases c1 : hi - lo < tol
    · rw [if_neg (not_le.2 c1), if_pos c1]
    · rw [if_pos (not_lt.1 c1), if_neg c1]
      dsimp only
      rw [ih (by linarith), ih (by linarith)]

theorem maxRec_eq (f : K → K) (tol : K) (k : Nat) : ∀ (lo hi : K),
    maxRec f tol k lo hi = (minRec (fun x => - f x) tol k lo hi).map (fun r => (r.1, - r.2)) := by
  induction k with
  | zero => intro lo hi; rfl
  | succ k ih =>
    intro lo hi
    rw [maxRec, minRec]
    by_cases c1 : hi - lo < tol
    · rw [if_pos c1, if_pos c1]; simp
    · rw [if_neg c1, if_neg c1]
      dsimp only
      simp only [neg_lt_neg_iff, gt_iff_lt]
      split_ifs
      · exact ih _ _
      · exact ih _ _

/-! ## C31 -/

/-- `recursive_divide_and_conquer_min`: with a positive tolerance it returns, and on a strictly
unimodal function the argument is within half the tolerance of the minimiser. -/
theorem C31_min [Archimedean K] (f : K → K) (a b xs tol : K) (hu : Unimodal f a b xs)
    (ht : 0 < tol) :
    (∃ k r, minRec f tol k a b = some r) ∧
    ∀ k r, minRec f tol k a b = some r →
      a ≤ r.1 ∧ r.1 ≤ b ∧ r.2 = f r.1 ∧ |r.1 - xs| < tol / 2 := by
  have hab := hu.left.trans hu.right
  constructor
  · obtain ⟨k, hk⟩ := enough (b - a) ht (3 / 4) (by norm_num) (by norm_num)
    obtain ⟨r, hr⟩ := minRec_some f k hk
    exact ⟨k + 1, r, hr⟩
  · intro k r h
    obtain ⟨g1, g2, g3⟩ := minRec_range k hab h
    exact ⟨g1, g2, g3, minRec_near hu k le_rfl le_rfl hu.left hu.right h⟩

/-- `iterative_divide_and_conquer_min` gives the same. -/
theorem C31_iterative [Archimedean K] (f : K → K) (a b xs tol : K) (hu : Unimodal f a b xs)
    (ht : 0 < tol) :
    (∃ k r, minIter f tol k a b = some r) ∧
    ∀ k r, minIter f tol k a b = some r →
      a ≤ r.1 ∧ r.1 ≤ b ∧ r.2 = f r.1 ∧ |r.1 - xs| < tol / 2 := by
  have hab := hu.left.trans hu.right
  obtain ⟨h1, h2⟩ := C31_min f a b xs tol hu ht
  refine ⟨?_, ?_⟩
  · obtain ⟨k, r, h⟩ := h1
    exact ⟨k, r, by rw [minIter_eq f tol k hab]; exact h⟩
  · intro k r h
    rw [minIter_eq f tol k hab] at h
    exact h2 k r h

/-- The recursive and the iterative version agree step by step on every function and every ordered
range. -/
theorem C31_versions_agree (f : K → K) (a b tol : K) (hab : a ≤ b) (k : Nat) :
    minIter f tol k a b = minRec f tol k a b := minIter_eq f tol k hab

/-- `recursive_divide_and_conquer_max` on a function whose negation is strictly unimodal. -/
theorem C31_max [Archimedean K] (f : K → K) (a b xs tol : K)
    (hu : Unimodal (fun x => - f x) a b xs) (ht : 0 < tol) :
    (∃ k r, maxRec f tol k a b = some r) ∧
    ∀ k r, maxRec f tol k a b = some r →
      a ≤ r.1 ∧ r.1 ≤ b ∧ r.2 = f r.1 ∧ |r.1 - xs| < tol / 2 := by
  obtain ⟨⟨k, r, h1⟩, h2⟩ := C31_min _ a b xs tol hu ht
  refine ⟨⟨k, (r.1, - r.2), by rw [maxRec_eq, h1]; rfl⟩, ?_⟩
  intro k r h
  rw [maxRec_eq] at h
  obtain ⟨s, hs, rfl⟩ := Option.map_eq_some_iff.1 h
  obtain ⟨g1, g2, g3, g4⟩ := h2 k s hs
  exact ⟨g1, g2, by dsimp only; rw [g3, neg_neg], g4⟩

/-- Without any assumption on the function the result is in the range and the value is the value of
the function there. -/
theorem C31_any (f : K → K) (a b tol : K) (hab : a ≤ b) (k : Nat) (r : K × K)
    (h : minRec f tol k a b = some r) : a ≤ r.1 ∧ r.1 ≤ b ∧ r.2 = f r.1 :=
  minRec_range k hab h

/-- A nonpositive tolerance makes the recursion endless on every function and range. -/
theorem C31_zero_tolerance (f : K → K) (tol : K) (ht : tol ≤ 0) (k : Nat) :
    ∀ {a b : K}, a ≤ b → minRec f tol k a b = none := by
  induction k with
  | zero => intro a b _; rfl
  | succ k ih =>
    intro a b hab
    rw [minRec, if_neg (by linarith)]
    dsimp only
    split_ifs
    · exact ih (by linarith)
    · exact ih (by linarith)

/-- Strictness is needed: on a function that is only weakly unimodal (constant on a stretch to the
right of its minimiser) the search can end far from it. -/
theorem C31_plateau_refuted :
    ∃ (f : ℚ → ℚ) (xs : ℚ) (r : ℚ × ℚ),
      (∀ x y, 0 ≤ x → x < y → y ≤ xs → f y ≤ f x) ∧ (∀ x y, xs ≤ x → x < y → y ≤ 1 → f x ≤ f y) ∧
      (∀ x, x ≠ xs → f xs < f x) ∧
      minRec f (1 / 2) 9 0 1 = some r ∧ ¬ |r.1 - xs| < 1 / 2 := by
  refine ⟨fun x => if x = 0 then 0 else 1, 0, (101 / 128, 1), ?_, ?_, ?_, ?_, ?_⟩
  · intro x y h1 h2 h3; linarith
  · intro x y h1 h2 h3
    dsimp only
    rw [if_neg (show y ≠ 0 by intro h; linarith)]
    split_ifs <;> norm_num
  · intro x hx; dsimp only; rw [if_pos rfl, if_neg hx]; norm_num
  · decide +kernel
  · norm_num

/-- The hypotheses on a concrete function. -/
theorem uni_example : Unimodal (fun x : ℚ => (x - 1) * (x - 1)) 0 10 1 where
  left := by norm_num
  right := by norm_num
  dec := by intro x y h1 h2 h3; nlinarith
  inc := by intro x y h1 h2 h3; nlinarith

example : (minRec (fun x : ℚ => (x - 1) * (x - 1)) 1 10 0 10).map
    (fun r => decide (|r.1 - 1| < 1 / 2)) = some true := by decide +kernel

example : maxRec (fun x : ℚ => - ((x - 1) * (x - 1))) 5 10 0 10 =
    (minRec (fun x : ℚ => (x - 1) * (x - 1)) 5 10 0 10).map (fun r => (r.1, - r.2)) := by
  decide +kernel

/-! ## C32 -/

/-- The two quarter points of `recursive_divide_and_conquer_roots` coincide, so the search always
goes to the upper half: whatever the function, the returned argument is within half the tolerance
of the upper bound. -/
theorem C32_upper_end (f : K → K) (tol : K) (k : Nat) :
    ∀ {a b : K} {r : K × K}, a ≤ b → rootsRec f tol k a b = some r →
      |r.1 - b| < tol / 2 ∧ r.2 = f r.1 := by
  induction k with
  | zero => intro a b r _ h; simp [rootsRec] at h
  | succ k ih =>
    intro a b r hab h
    rw [rootsRec] at h
    dsimp only at h
    have heq : a + (b - a) / 2 = b - (b - a) / 2 := by ring
    split_ifs at h with c1 c2
    · cases h
      rw [abs_of_nonneg (by linarith)] at c1
      refine ⟨?_, rfl⟩
      rw [abs_lt]; constructor <;> dsimp only <;> linarith
    · exfalso; rw [heq] at c2; exact lt_irrefl _ c2
    · exact ih (by linarith) h

/-- So the function finds a root when the only thing asked is a root near the upper end.

`_partial`: the property asks for it wherever the root is in the range; that is false,
`C32_root_refuted`. -/
theorem C32_root_partial [Archimedean K] (f : K → K) (a b tol z : K) (hab : a ≤ b) (ht : 0 < tol)
    (hz : |z - b| ≤ tol / 2) :
    (∃ k r, rootsRec f tol k a b = some r) ∧
    ∀ k r, rootsRec f tol k a b = some r → |r.1 - z| < tol := by
  constructor
  · obtain ⟨k, hk⟩ := enough (b - a) ht (1 / 2) (by norm_num) (by norm_num)
    refine ⟨k + 1, ?_⟩
    clear hz
    induction k generalizing a with
    | zero =>
      rw [pow_zero, mul_one] at hk
      exact ⟨_, by rw [rootsRec, if_pos (by rwa [abs_of_nonneg (by linarith)])]⟩
    | succ k ih =>
      rw [rootsRec]
      by_cases c1 : |b - a| < tol
      · exact ⟨_, if_pos c1⟩
      · rw [if_neg c1]
        have heq : a + (b - a) / 2 = b - (b - a) / 2 := by ring
        dsimp only
        rw [heq, if_neg (lt_irrefl _)]
        apply ih _ (by linarith)
        rw [pow_succ] at hk
        calc _ = (b - a) * ((1 / 2) ^ k * (1 / 2)) := by ring
          _ < tol := hk
  · intro k r h
    have := (C32_upper_end f tol k hab h).1
    rw [abs_lt] at this ⊢
    rw [abs_le] at hz
    constructor <;> linarith [hz.1, hz.2, this.1, this.2]

/-- `f(x) = x` on `[-1, 1]`: the answer is near `1`, not near the root `0`. -/
theorem C32_root_refuted :
    ∃ (r : ℚ × ℚ), rootsRec (fun x => x) (1 / 10) 9 (-1) 1 = some r ∧ ¬ |r.1 - 0| < 1 / 10 :=
  ⟨(31 / 32, 31 / 32), by decide +kernel, by norm_num⟩

/-- The partial theorem's hypotheses on a function with a root at the upper end. -/
example : ∃ k r, rootsRec (fun x : ℚ => x - 1) (1 / 10) k (-1) 1 = some r ∧ |r.1 - 1| < 1 / 10 := by
  obtain ⟨⟨k, r, h⟩, h2⟩ := C32_root_partial (fun x : ℚ => x - 1) (-1) 1 (1 / 10) 1 (by norm_num)
    (by norm_num) (by norm_num)
  exact ⟨k, r, h, h2 k r h⟩

end Verif.DnC
