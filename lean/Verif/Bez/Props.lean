import Verif.Bez.Model
import Mathlib.Algebra.BigOperators.Ring.Finset
import Mathlib.Algebra.BigOperators.Intervals
import Mathlib.Data.Nat.Choose.Sum
import Mathlib.Data.Nat.Choose.Cast
import Mathlib.Algebra.CharZero.Defs
import Mathlib.Algebra.Field.Rat
import Mathlib.Data.Rat.Cast.CharZero
import Mathlib.Tactic.Ring
import Mathlib.Tactic.FieldSimp
import Mathlib.Tactic.LinearCombination
import Mathlib.Tactic.NormNum

/-! # C40: monomial and Bezier form; C41: degree elevation; C113: the table of binomial coefficients -/

set_option linter.unusedSectionVars false

namespace Verif.Bez

open Finset

/-! ## The table -/

/-- Element `31 i + j` of the table. -/
def entry (i j : Nat) : Nat := table.flatten.getD (31 * i + j) 0

theorem entry_zero : ∀ i < 31, entry i 0 = 1 := by decide +kernel

theorem entry_top : ∀ j < 30, entry 0 (j + 1) = 0 := by decide +kernel

theorem entry_step : ∀ i < 30, ∀ j < 30, entry (i + 1) (j + 1) = entry i j + entry i (j + 1) := by
  decide +kernel

theorem entry_choose : ∀ i j, i < 31 → j < 31 → entry i j = Nat.choose i j := by
  intro i
  induction i with
  | zero =>
    intro j _ hj
    cases j with
    | zero => exact entry_zero 0 (by omega)
    | succ j => rw [entry_top j (by omega)]; rfl
  | succ i ih =>
    intro j hi hj
    cases j with
    | zero => rw [entry_zero (i + 1) hi, Nat.choose_zero_right]
    | succ j =>
      rw [entry_step i (by omega) j (by omega), ih j (by omega) (by omega), ih (j + 1) (by omega) hj,
        Nat.choose_succ_succ]

variable {K : Type} [Field K]

/-- Every entry of the table is the binomial coefficient. -/
theorem C113_table (g : Nat → K) (i j : Nat) (hi : i ≤ 30) (hj : j ≤ 30) :
    binom g i j = (Nat.choose i j : K) := by
  unfold binom
  rw [if_pos (by omega)]
  exact congrArg Nat.cast (entry_choose i j (by omega) (by omega))

/-- Beyond thirty, memory behind the table is read; a second index beyond thirty reads the next row. -/
theorem C113_range_refuted (g : Nat → K) :
    (∀ i j, 31 ≤ i → binom g i j = g (31 * i + j)) ∧
    ∀ i j, i < 30 → j ≤ 30 → binom g i (31 + j) = (Nat.choose (i + 1) j : K) := by
  refine ⟨?_, ?_⟩
  · intro i j hi
    unfold binom
    rw [if_neg (by omega)]
  · intro i j hi hj
    rw [← C113_table g (i + 1) j (by omega) hj]
    unfold binom
    rw [show 31 * i + (31 + j) = 31 * (i + 1) + j by ring]

example : binom (fun _ => (7 : ℚ)) 30 15 = 155117520 := by
  rw [C113_table _ _ _ (by norm_num) (by norm_num)]
  norm_num [Nat.choose]

/-! ## Bernstein polynomials -/

/-- A Bernstein polynomial. -/
def bern (n i : Nat) (u : K) : K := (Nat.choose n i : K) * u ^ i * (1 - u) ^ (n - i)

/-- Column `i` of the conversion matrix is the Bernstein polynomial `i` in monomial form. -/
theorem bpmat_column (g : Nat → K) (n i : Nat) (hn : n ≤ 30) (hi : i ≤ n) (u : K) :
    ∑ j ∈ range (n + 1), bpmat g n j i * u ^ j = bern n i u := by
  have h1 : ∑ j ∈ range (n + 1), bpmat g n j i * u ^ j =
      ∑ l ∈ range (n - i + 1), bpmat g n (i + l) i * u ^ (i + l) := by
    have e : n + 1 = i + (n - i + 1) := by omega
    rw [e, sum_range_add]
    have hz : ∑ j ∈ range i, bpmat g n j i * u ^ j = 0 := by
      apply sum_eq_zero
      intro j hj
      rw [mem_range] at hj
      rw [bpmat, if_neg (by omega), zero_mul]
    rw [hz, zero_add]
  rw [h1]
  unfold bern
  have h2 : (1 - u) ^ (n - i) = ∑ l ∈ range (n - i + 1), (-u) ^ l * ((n - i).choose l : K) := by
    rw [show (1 - u) = -u + 1 by ring, add_pow]
    apply sum_congr rfl
    intro l _
    rw [one_pow, mul_one]
  rw [h2, mul_sum]
  apply sum_congr rfl
  intro l hl
  rw [mem_range] at hl
  rw [bpmat, if_pos (by omega), C113_table g n _ hn (by omega), C113_table g _ i (by omega) (by omega),
    show i + l - i = l by omega]
  have hc : n.choose (i + l) * (i + l).choose i = n.choose i * (n - i).choose l := by
    have := Nat.choose_mul (n := n) (k := i + l) (s := i) (by omega)
    rwa [show i + l - i = l by omega] at this
  have hc' : (n.choose (i + l) : K) * ((i + l).choose i : K) = (n.choose i : K) * ((n - i).choose l : K) := by
    exact_mod_cast congrArg (Nat.cast (R := K)) hc
  rw [neg_pow, pow_add]
  linear_combination ((-1) ^ l * u ^ i * u ^ l) * hc'

theorem evalBezier_eq (P : Arr K) (u v : K) (d : Nat) :
    evalBezier P u v d = ∑ i ∈ range P.n, ∑ j ∈ range P.m, P.get i j d * bern (P.n - 1) i u *
      bern (P.m - 1) j v := rfl

/-- The monomial form has the values of the Bezier patch, at all parameters. -/
theorem C40_evaluate (g : Nat → K) (P : Arr K) (hn : P.n ≤ 31) (hm : P.m ≤ 31) (u v : K) (d : Nat) :
    evalMonomial (bezierToMonomial g P) u v d = evalBezier P u v d := by
  rw [evalBezier_eq]
  unfold evalMonomial bezierToMonomial
  dsimp only
  have hu : ∀ a ∈ range P.n, ∑ i ∈ range P.n, bpmat g (P.n - 1) i a * u ^ i = bern (P.n - 1) a u := by
    intro a ha
    rw [mem_range] at ha
    have := bpmat_column g (P.n - 1) a (by omega) (by omega) u
    rwa [show P.n - 1 + 1 = P.n by omega] at this
  have hv : ∀ b ∈ range P.m, ∑ j ∈ range P.m, bpmat g (P.m - 1) j b * v ^ j = bern (P.m - 1) b v := by
    intro b hb
    rw [mem_range] at hb
    have := bpmat_column g (P.m - 1) b (by omega) (by omega) v
    rwa [show P.m - 1 + 1 = P.m by omega] at this
  calc ∑ i ∈ range P.n, ∑ j ∈ range P.m,
        (∑ b ∈ range P.m, (∑ a ∈ range P.n, bpmat g (P.n - 1) i a * P.get a b d) *
          bpmat g (P.m - 1) j b) * u ^ i * v ^ j
      = ∑ i ∈ range P.n, ∑ j ∈ range P.m, ∑ b ∈ range P.m, ∑ a ∈ range P.n,
          P.get a b d * (bpmat g (P.n - 1) i a * u ^ i) * (bpmat g (P.m - 1) j b * v ^ j) := by
        apply sum_congr rfl; intro i _
        apply sum_congr rfl; intro j _
        rw [sum_mul, sum_mul]
        apply sum_congr rfl; intro b _
        rw [sum_mul, sum_mul, sum_mul]
        apply sum_congr rfl; intro a _
        ring
    _ = ∑ a ∈ range P.n, ∑ b ∈ range P.m, P.get a b d *
          (∑ i ∈ range P.n, bpmat g (P.n - 1) i a * u ^ i) *
          (∑ j ∈ range P.m, bpmat g (P.m - 1) j b * v ^ j) := by
        rw [sum_congr rfl fun i _ => sum_congr rfl fun j _ => sum_comm]
        rw [sum_congr rfl fun i _ => sum_comm, sum_comm]
        apply sum_congr rfl; intro a _
        rw [sum_congr rfl fun i _ => sum_comm, sum_comm]
        apply sum_congr rfl; intro b _
        rw [mul_assoc, sum_mul_sum, mul_sum]
        apply sum_congr rfl; intro i _
        rw [mul_sum]
        apply sum_congr rfl; intro j _
        ring
    _ = _ := by
        apply sum_congr rfl; intro a ha
        apply sum_congr rfl; intro b hb
        rw [hu a ha, hv b hb]

/-! ## The inverse -/

/-- The inverse of the conversion matrix. -/
def bpinv (n i k : Nat) : K := (Nat.choose i k : K) / (Nat.choose n k : K)

/-- Alternating sum of products of binomial coefficients. -/
theorem choose_orth (i k : Nat) (hk : k ≤ i) :
    ∑ j ∈ range (i + 1), (if k ≤ j then (-1 : K) ^ (j - k) * (i.choose j : K) * (j.choose k : K) else 0) =
      if i = k then 1 else 0 := by
  have e : i + 1 = k + (i - k + 1) := by omega
  rw [e, sum_range_add]
  have hz : ∑ j ∈ range k, (if k ≤ j then (-1 : K) ^ (j - k) * (i.choose j : K) * (j.choose k : K) else 0) = 0 := by
    apply sum_eq_zero
    intro j hj
    rw [mem_range] at hj
    rw [if_neg (by omega)]
  rw [hz, zero_add]
  have h2 : ∀ l ∈ range (i - k + 1), (if k ≤ k + l then (-1 : K) ^ (k + l - k) * (i.choose (k + l) : K) *
      ((k + l).choose k : K) else 0) = (i.choose k : K) * ((-1) ^ l * ((i - k).choose l : K)) := by
    intro l hl
    rw [mem_range] at hl
    rw [if_pos (by omega), show k + l - k = l by omega]
    have hc : i.choose (k + l) * (k + l).choose k = i.choose k * (i - k).choose l := by
      have := Nat.choose_mul (n := i) (k := k + l) (s := k) (by omega)
      rwa [show k + l - k = l by omega] at this
    have hc' : (i.choose (k + l) : K) * ((k + l).choose k : K) = (i.choose k : K) * ((i - k).choose l : K) := by
      exact_mod_cast congrArg (Nat.cast (R := K)) hc
    linear_combination (-1) ^ l * hc'
  rw [sum_congr rfl h2, ← mul_sum]
  have h3 : ∑ l ∈ range (i - k + 1), (-1 : K) ^ l * ((i - k).choose l : K) = (1 + -1) ^ (i - k) := by
    rw [add_comm (1 : K), add_pow]
    apply sum_congr rfl
    intro l _
    rw [one_pow, mul_one]
  rw [h3, add_neg_cancel]
  by_cases c : i = k
  · subst c
    simp
  · rw [if_neg c, zero_pow (by omega), mul_zero]

theorem sum_range_extend (f : Nat → K) (i n : Nat) (h : i ≤ n) (hz : ∀ j, i < j → f j = 0) :
    ∑ j ∈ range (n + 1), f j = ∑ j ∈ range (i + 1), f j := by
  obtain ⟨l, rfl⟩ : ∃ l, n = i + l := ⟨n - i, by omega⟩
  rw [show i + l + 1 = (i + 1) + l by ring, sum_range_add]
  rw [add_eq_left]
  apply sum_eq_zero
  intro x _
  exact hz _ (by omega)

variable [CharZero K]

theorem choose_ne (n k : Nat) (h : k ≤ n) : (Nat.choose n k : K) ≠ 0 := by
  exact_mod_cast (Nat.choose_pos h).ne'

theorem bpinv_mul (g : Nat → K) (n : Nat) (hn : n ≤ 30) (i k : Nat) (hi : i ≤ n) (hk : k ≤ n) :
    ∑ j ∈ range (n + 1), bpinv n i j * bpmat g n j k = if i = k then 1 else 0 := by
  have h1 : ∀ j ∈ range (n + 1), bpinv n i j * bpmat g n j k =
      (if k ≤ j then (-1 : K) ^ (j - k) * (i.choose j : K) * (j.choose k : K) else 0) := by
    intro j hj
    rw [mem_range] at hj
    rw [bpmat, bpinv]
    split_ifs with c
    · rw [C113_table g n j hn (by omega), C113_table g j k (by omega) (by omega)]
      have := choose_ne (K := K) n j (by omega)
      field_simp
    · rw [mul_zero]
  rw [sum_congr rfl h1]
  by_cases c : k ≤ i
  · rw [sum_range_extend _ i n hi, choose_orth i k c]
    intro j hj
    rw [Nat.choose_eq_zero_of_lt hj]
    simp
  · rw [if_neg (by omega)]
    apply sum_eq_zero
    intro j _
    split_ifs with d
    · rw [Nat.choose_eq_zero_of_lt (by omega : i < j)]
      simp
    · rfl

theorem mul_bpinv (g : Nat → K) (n : Nat) (hn : n ≤ 30) (i k : Nat) (hi : i ≤ n) (hk : k ≤ n) :
    ∑ j ∈ range (n + 1), bpmat g n i j * bpinv n j k = if i = k then 1 else 0 := by
  have h1 : ∀ j ∈ range (n + 1), bpmat g n i j * bpinv n j k =
      (n.choose i : K) / (n.choose k : K) *
        (if k ≤ j then (-1 : K) ^ (i - j) * (i.choose j : K) * (j.choose k : K) else 0) := by
    intro j hj
    rw [mem_range] at hj
    rw [bpmat, bpinv]
    by_cases c : j ≤ i
    · rw [if_pos c, C113_table g n i hn (by omega), C113_table g i j (by omega) (by omega)]
      split_ifs with d
      · ring
      · rw [Nat.choose_eq_zero_of_lt (by omega : j < k)]
        simp
    · rw [if_neg c, Nat.choose_eq_zero_of_lt (by omega : i < j)]
      simp
  rw [sum_congr rfl h1, ← mul_sum, sum_range_extend _ i n hi]
  · by_cases c : k ≤ i
    · have h2 : ∀ j ∈ range (i + 1), (if k ≤ j then (-1 : K) ^ (i - j) * (i.choose j : K) * (j.choose k : K)
          else 0) = (-1) ^ (i - k) *
          (if k ≤ j then (-1 : K) ^ (j - k) * (i.choose j : K) * (j.choose k : K) else 0) := by
        intro j hj
        rw [mem_range] at hj
        split_ifs with d
        · have : (-1 : K) ^ (i - j) = (-1) ^ (i - k) * (-1) ^ (j - k) := by
            rw [show i - k = (i - j) + (j - k) by omega, pow_add, mul_assoc, ← mul_pow]
            simp
          rw [this]
          ring
        · rw [mul_zero]
      rw [sum_congr rfl h2, ← mul_sum, choose_orth i k c]
      by_cases e : i = k
      · subst e
        have := choose_ne (K := K) n i hi
        simp [this]
      · rw [if_neg e, mul_zero, mul_zero]
    · rw [if_neg (by omega)]
      rw [mul_eq_zero]
      right
      apply sum_eq_zero
      intro j hj
      rw [mem_range] at hj
      exact if_neg (by omega)
  · intro j hj
    rw [Nat.choose_eq_zero_of_lt hj]
    simp

/-- `np.linalg.inv`: if the matrix has an inverse, the result is one. -/
def InvSpec (inv : Nat → (Nat → Nat → K) → Nat → Nat → K) : Prop :=
  ∀ n M, (∃ N : Nat → Nat → K, (∀ i < n, ∀ k < n, ∑ j ∈ range n, M i j * N j k = if i = k then 1 else 0) ∧
      ∀ i < n, ∀ k < n, ∑ j ∈ range n, N i j * M j k = if i = k then 1 else 0) →
    (∀ i < n, ∀ k < n, ∑ j ∈ range n, M i j * inv n M j k = if i = k then 1 else 0) ∧
    ∀ i < n, ∀ k < n, ∑ j ∈ range n, inv n M i j * M j k = if i = k then 1 else 0

/-- The conversion matrix has an inverse, so the result of `np.linalg.inv` is one. -/
theorem inv_bpmat (g : Nat → K) {inv : Nat → (Nat → Nat → K) → Nat → Nat → K} (hinv : InvSpec inv) (n : Nat)
    (hn : n ≤ 31) :
    (∀ i < n, ∀ k < n, ∑ j ∈ range n, bpmat g (n - 1) i j * inv n (bpmat g (n - 1)) j k =
      if i = k then 1 else 0) ∧
    ∀ i < n, ∀ k < n, ∑ j ∈ range n, inv n (bpmat g (n - 1)) i j * bpmat g (n - 1) j k =
      if i = k then 1 else 0 := by
  apply hinv
  refine ⟨bpinv (n - 1), ?_, ?_⟩
  · intro i hi k hk
    have := mul_bpinv g (n - 1) (by omega) i k (by omega) (by omega)
    rwa [show n - 1 + 1 = n by omega] at this
  · intro i hi k hk
    have := bpinv_mul g (n - 1) (by omega) i k (by omega) (by omega)
    rwa [show n - 1 + 1 = n by omega] at this

/-- Multiplying on both sides and back. -/
theorem two_sided (n m : Nat) (A A' B B' : Nat → Nat → K)
    (hA : ∀ i < n, ∀ k < n, ∑ j ∈ range n, A' i j * A j k = if i = k then 1 else 0)
    (hB : ∀ i < m, ∀ k < m, ∑ j ∈ range m, B' i j * B j k = if i = k then 1 else 0)
    (X : Nat → Nat → K) (i j : Nat) (hi : i < n) (hj : j < m) :
    ∑ b ∈ range m, (∑ a ∈ range n, A' i a * ∑ d ∈ range m, (∑ c ∈ range n, A a c * X c d) * B b d) * B' j b =
      X i j := by
  calc ∑ b ∈ range m, (∑ a ∈ range n, A' i a * ∑ d ∈ range m, (∑ c ∈ range n, A a c * X c d) * B b d) * B' j b
      = ∑ b ∈ range m, ∑ a ∈ range n, ∑ d ∈ range m, ∑ c ∈ range n,
          X c d * (A' i a * A a c) * (B' j b * B b d) := by
        apply sum_congr rfl; intro b _
        rw [sum_mul]
        apply sum_congr rfl; intro a _
        rw [mul_sum, sum_mul]
        apply sum_congr rfl; intro d _
        rw [sum_mul, mul_sum, sum_mul]
        apply sum_congr rfl; intro c _
        ring
    _ = ∑ c ∈ range n, ∑ d ∈ range m, X c d * (∑ a ∈ range n, A' i a * A a c) *
          (∑ b ∈ range m, B' j b * B b d) := by
        rw [sum_congr rfl fun b _ => sum_congr rfl fun a _ => sum_comm]
        rw [sum_congr rfl fun b _ => sum_comm, sum_comm]
        apply sum_congr rfl; intro c _
        rw [sum_congr rfl fun b _ => sum_comm, sum_comm]
        apply sum_congr rfl; intro d _
        rw [mul_sum]
        apply sum_congr rfl; intro b _
        rw [mul_sum, sum_mul]
    _ = ∑ c ∈ range n, ∑ d ∈ range m, X c d * (if i = c then 1 else 0) * (if j = d then 1 else 0) := by
        apply sum_congr rfl; intro c hc
        apply sum_congr rfl; intro d hd
        rw [hA i hi c (mem_range.mp hc), hB j hj d (mem_range.mp hd)]
    _ = X i j := by
        rw [sum_eq_single i, sum_eq_single j]
        · simp
        · intro d _ hd; rw [if_neg (Ne.symm hd), mul_zero]
        · intro h; exact absurd (mem_range.mpr hj) h
        · intro c _ hc
          apply sum_eq_zero
          intro d _
          rw [if_neg (Ne.symm hc), mul_zero, zero_mul]
        · intro h; exact absurd (mem_range.mpr hi) h

/-- Converting to the monomial form and back gives the control points. -/
theorem C40_roundtrip (g : Nat → K) {inv : Nat → (Nat → Nat → K) → Nat → Nat → K} (hinv : InvSpec inv)
    (P : Arr K) (hn : P.n ≤ 31) (hm : P.m ≤ 31) (i j d : Nat) (hi : i < P.n) (hj : j < P.m) :
    (monomialToBezier g inv (bezierToMonomial g P)).get i j d = P.get i j d := by
  unfold monomialToBezier bezierToMonomial
  dsimp only
  exact two_sided P.n P.m _ _ _ _ (inv_bpmat g hinv P.n hn).2 (inv_bpmat g hinv P.m hm).2
    (fun a b => P.get a b d) i j hi hj

/-- Converting to the Bezier form and back gives the coefficients. -/
theorem C40_roundtrip' (g : Nat → K) {inv : Nat → (Nat → Nat → K) → Nat → Nat → K} (hinv : InvSpec inv)
    (A : Arr K) (hn : A.n ≤ 31) (hm : A.m ≤ 31) (i j d : Nat) (hi : i < A.n) (hj : j < A.m) :
    (bezierToMonomial g (monomialToBezier g inv A)).get i j d = A.get i j d := by
  unfold monomialToBezier bezierToMonomial
  dsimp only
  exact two_sided A.n A.m _ _ _ _ (inv_bpmat g hinv A.n hn).1 (inv_bpmat g hinv A.m hm).1
    (fun a b => A.get a b d) i j hi hj

theorem evalMonomial_congr (A B : Arr K) (h : A.n = B.n) (h' : A.m = B.m) (d : Nat)
    (hg : ∀ i < A.n, ∀ j < A.m, A.get i j d = B.get i j d) (u v : K) :
    evalMonomial A u v d = evalMonomial B u v d := by
  unfold evalMonomial
  rw [← h, ← h']
  apply sum_congr rfl; intro i hi
  apply sum_congr rfl; intro j hj
  rw [hg i (mem_range.mp hi) j (mem_range.mp hj)]

/-- The Bezier form of a polynomial has its values. -/
theorem C40_evaluate' (g : Nat → K) {inv : Nat → (Nat → Nat → K) → Nat → Nat → K} (hinv : InvSpec inv)
    (A : Arr K) (hn : A.n ≤ 31) (hm : A.m ≤ 31) (u v : K) (d : Nat) :
    evalBezier (monomialToBezier g inv A) u v d = evalMonomial A u v d := by
  rw [← C40_evaluate g (monomialToBezier g inv A) hn hm u v d]
  exact evalMonomial_congr (bezierToMonomial g (monomialToBezier g inv A)) A rfl rfl d (fun i hi j hj => C40_roundtrip' g hinv A hn hm i j d hi hj) u v

/-- The control points of `from_bezier` are taken as coefficients: at `(1, 1)` the value is the sum of all
points, where the patch has its last corner. -/
theorem C40_from_bezier_refuted (P : Arr K) (hn : 0 < P.n) (hm : 0 < P.m) (d : Nat) :
    evalMonomial (fromBezier P) 1 1 d = ∑ i ∈ range P.n, ∑ j ∈ range P.m, P.get i j d ∧
    evalBezier P 1 1 d = P.get (P.n - 1) (P.m - 1) d := by
  refine ⟨?_, ?_⟩
  · unfold evalMonomial fromBezier
    apply sum_congr rfl; intro i _
    apply sum_congr rfl; intro j _
    rw [one_pow, one_pow, mul_one, mul_one]
  · have hb : ∀ n i, i ≤ n → bern n i (1 : K) = if i = n then 1 else 0 := by
      intro n i hi
      unfold bern
      by_cases c : i = n
      · subst c; simp
      · rw [if_neg c, sub_self, zero_pow (by omega), mul_zero]
    rw [evalBezier_eq, sum_eq_single (P.n - 1), sum_eq_single (P.m - 1)]
    · rw [hb _ _ le_rfl, hb _ _ le_rfl]; simp
    · intro j hj hne
      rw [mem_range] at hj
      rw [hb _ j (by omega), if_neg hne, mul_zero]
    · intro h; exact absurd (mem_range.mpr (by omega)) h
    · intro i hi hne
      rw [mem_range] at hi
      apply sum_eq_zero
      intro j _
      rw [hb _ i (by omega), if_neg hne, mul_zero, zero_mul]
    · intro h; exact absurd (mem_range.mpr (by omega)) h

/-- With more than thirty-one rows the conversion reads memory behind the table: the first coefficient
of a constant polynomial is the contents of that memory. -/
theorem C40_range_refuted (g : Nat → K) (n : Nat) (hn : 31 ≤ n) : bpmat g n 0 0 = g (31 * n) := by
  rw [bpmat, if_pos le_rfl, (C113_range_refuted g).1 n 0 hn, C113_table g 0 0 (by omega) (by omega)]
  simp

/-! ## Degree elevation -/

theorem bern_sum (n : Nat) (u : K) : ∑ i ∈ range (n + 1), bern n i u = 1 := by
  unfold bern
  have := add_pow u (1 - u) n
  rw [add_sub_cancel, one_pow] at this
  refine Eq.trans ?_ this.symm
  apply sum_congr rfl
  intro i _
  ring

/-- The elevated curve equals the original at every parameter, and the new degree fits the number of
points. -/
theorem C41_elevate (g : Nat → K) (p t : Nat) (hpt : p + t ≤ 30) (P : Nat → K) :
    ∃ Q, elevate g (p + 1) p t P = some (Q, p + t) ∧ ∀ u, bez (p + t) Q u = bez p P u := by
  refine ⟨_, if_neg (by simp), ?_⟩
  intro u
  unfold bez
  have h1 : ∀ i ∈ range (p + t + 1), ((p + t).choose i : K) * u ^ i * (1 - u) ^ (p + t - i) *
      ∑ j ∈ Ico (i - t) (min p i + 1), binom g p j * binom g t (i - j) / binom g (p + t) i * P j =
      ∑ j ∈ range (p + 1), if j ≤ i ∧ i ≤ j + t then
        (p.choose j : K) * (t.choose (i - j) : K) * u ^ i * (1 - u) ^ (p + t - i) * P j else 0 := by
    intro i hi
    rw [mem_range] at hi
    rw [mul_sum]
    have hsub : Ico (i - t) (min p i + 1) ⊆ range (p + 1) := by
      intro j hj
      rw [mem_Ico] at hj
      rw [mem_range]
      omega
    rw [← sum_subset hsub]
    · apply sum_congr rfl
      intro j hj
      rw [mem_Ico] at hj
      rw [if_pos (by omega), C113_table g p j (by omega) (by omega), C113_table g t _ (by omega) (by omega),
        C113_table g (p + t) i hpt (by omega)]
      have := choose_ne (K := K) (p + t) i (by omega)
      field_simp
    · intro j hj hn
      rw [mem_range] at hj
      rw [mem_Ico] at hn
      rw [if_neg (by omega)]
  rw [sum_congr rfl h1, sum_comm]
  apply sum_congr rfl
  intro j hj
  rw [mem_range] at hj
  have h2 : ∑ i ∈ range (p + t + 1), (if j ≤ i ∧ i ≤ j + t then
        (p.choose j : K) * (t.choose (i - j) : K) * u ^ i * (1 - u) ^ (p + t - i) * P j else 0) =
      ∑ l ∈ range (t + 1), (p.choose j : K) * u ^ j * (1 - u) ^ (p - j) * P j * bern t l u := by
    have e : p + t + 1 = j + ((t + 1) + (p - j)) := by omega
    rw [e, sum_range_add, sum_range_add]
    have z1 : ∑ i ∈ range j, (if j ≤ i ∧ i ≤ j + t then
        (p.choose j : K) * (t.choose (i - j) : K) * u ^ i * (1 - u) ^ (p + t - i) * P j else 0) = 0 := by
      apply sum_eq_zero
      intro i hi
      rw [mem_range] at hi
      exact if_neg (by omega)
    have z2 : ∑ i ∈ range (p - j), (if j ≤ j + (t + 1 + i) ∧ j + (t + 1 + i) ≤ j + t then
        (p.choose j : K) * (t.choose (j + (t + 1 + i) - j) : K) * u ^ (j + (t + 1 + i)) *
          (1 - u) ^ (p + t - (j + (t + 1 + i))) * P j else 0) = 0 := by
      apply sum_eq_zero
      intro i hi
      exact if_neg (by omega)
    rw [z1, z2, zero_add, add_zero]
    apply sum_congr rfl
    intro l hl
    rw [mem_range] at hl
    rw [if_pos (by omega), show j + l - j = l by omega, show p + t - (j + l) = (p - j) + (t - l) by omega]
    unfold bern
    rw [pow_add, pow_add]
    ring
  rw [h2, ← mul_sum, bern_sum, mul_one]

/-- Other numbers of points are refused. -/
theorem C41_rejects (g : Nat → K) (count p t : Nat) (P : Nat → K) :
    elevate g count p t P = none ↔ count ≠ p + 1 := by
  unfold elevate
  split_ifs with c <;> simp [c]

/-- Elevation beyond degree thirty divides by memory behind the table. -/
theorem C41_range_refuted (g : Nat → K) (p t : Nat) (hpt : 31 ≤ p + t) (hp : p ≤ 30) (ht : t ≤ 30)
    (P : Nat → K) :
    ∃ Q, elevate g (p + 1) p t P = some (Q, p + t) ∧ Q 0 = P 0 / g (31 * (p + t)) := by
  refine ⟨_, if_neg (by simp), ?_⟩
  rw [show Ico (0 - t) (min p 0 + 1) = {0} by ext x; simp, sum_singleton,
    C113_table g p 0 hp (by omega), C113_table g t _ ht (by omega), (C113_range_refuted g).1 _ _ hpt]
  simp [div_eq_mul_inv, mul_comm]

/-- A point of a rational curve stored as points and weights (nurbs.pyx `curve_point`). -/
def rat (degree : Nat) (P w : Nat → K) (u : K) : K :=
  bez degree (fun i => w i * P i) u / bez degree w u

/-- `degree_elevation` gives the function points together with weights, each elevated by itself: a
segment with different ends and different weights changes its value at the middle. -/
theorem C41_rational_refuted (g : Nat → K) (P w : Nat → K) (hP : P 0 ≠ P 1) (hw : w 0 ≠ w 1)
    (hs : w 0 + w 1 ≠ 0) :
    ∃ Q W, elevate g 2 1 1 P = some (Q, 2) ∧ elevate g 2 1 1 w = some (W, 2) ∧
      rat 2 Q W (1 / 2) ≠ rat 1 P w (1 / 2) := by
  have h2 : (2 : K) ≠ 0 := by exact_mod_cast (by omega : (2 : Nat) ≠ 0)
  have val : ∀ X : Nat → K, ∃ Y, elevate g 2 1 1 X = some (Y, 2) ∧ Y 0 = X 0 ∧ Y 1 = (X 0 + X 1) / 2 ∧
      Y 2 = X 1 := by
    intro X
    refine ⟨_, if_neg (by simp), ?_, ?_, ?_⟩
    · rw [show Ico (0 - 1) (min 1 0 + 1) = {0} by decide, sum_singleton, C113_table g _ _ (by omega) (by omega),
        C113_table g _ _ (by omega) (by omega)]
      simp
    · rw [show Ico (1 - 1) (min 1 1 + 1) = {0, 1} by decide, sum_pair (by decide),
        C113_table g _ _ (by omega) (by omega), C113_table g _ _ (by omega) (by omega),
        C113_table g _ _ (by omega) (by omega)]
      simp
      ring
    · rw [show Ico (2 - 1) (min 1 2 + 1) = {1} by decide, sum_singleton, C113_table g _ _ (by omega) (by omega),
        C113_table g _ _ (by omega) (by omega)]
      simp
  obtain ⟨Q, hQ, q0, q1, q2⟩ := val P
  obtain ⟨W, hW, w0, w1, w2⟩ := val w
  refine ⟨Q, W, hQ, hW, ?_⟩
  unfold rat bez
  simp only [sum_range_succ, sum_range_zero, q0, q1, q2, w0, w1, w2]
  simp only [Nat.choose_zero_right, Nat.choose_self, Nat.choose_one_right, Nat.cast_one, Nat.cast_ofNat,
    Nat.sub_self, Nat.sub_zero, show 2 - 1 = 1 from rfl, show (1 : Nat) + 1 = 2 from rfl]
  intro h
  have hh : (w 0 - w 1) * (P 0 - P 1) = 0 := by
    generalize w 0 = a at *
    generalize w 1 = b at *
    generalize P 0 = x at *
    generalize P 1 = y at *
    have half : (1 : K) - 1 / 2 = 1 / 2 := by field_simp; ring
    rw [half] at h
    have d1 : (0 : K) + 1 * (1 / 2) ^ 0 * (1 / 2) ^ 2 * a + 2 * (1 / 2) ^ 1 * (1 / 2) ^ 1 * ((a + b) / 2) +
        1 * (1 / 2) ^ 2 * (1 / 2) ^ 0 * b = (a + b) / 2 := by field_simp; ring
    have d2 : (0 : K) + 1 * (1 / 2) ^ 0 * (1 / 2) ^ 1 * a + 1 * (1 / 2) ^ 1 * (1 / 2) ^ 0 * b =
        (a + b) / 2 := by field_simp; ring
    rw [d1, d2] at h
    have hne : (a + b) / 2 ≠ 0 := div_ne_zero hs h2
    rw [div_left_inj' hne] at h
    field_simp at h
    linear_combination -h
  rcases mul_eq_zero.mp hh with e | e
  · exact hw (sub_eq_zero.mp e)
  · exact hP (sub_eq_zero.mp e)

/-! ## Examples -/

example : (⟨3, 2, 3, fun i j d => i + j + d⟩ : Arr ℚ).n ≤ 31 := by decide

-- a rotation matrix entry: the quadratic Bernstein polynomial `2 u (1 - u)` is `2 u - 2 u^2`
example (g : Nat → ℚ) : bpmat g 2 1 1 = 2 ∧ bpmat g 2 2 1 = -2 ∧ bpmat g 2 0 1 = 0 := by
  refine ⟨?_, ?_, ?_⟩
  all_goals
    unfold bpmat
    norm_num [C113_table, Nat.choose]

/-- An `inv` with the specification exists: choose an inverse if there is one. -/
example : ∃ inv : Nat → (Nat → Nat → ℚ) → Nat → Nat → ℚ, InvSpec inv := by
  classical
  refine ⟨fun n M => if h : ∃ N : Nat → Nat → ℚ,
    (∀ i < n, ∀ k < n, ∑ j ∈ range n, M i j * N j k = if i = k then 1 else 0) ∧
      ∀ i < n, ∀ k < n, ∑ j ∈ range n, N i j * M j k = if i = k then 1 else 0 then h.choose else M, ?_⟩
  intro n M h
  simp only [dif_pos h]
  exact h.choose_spec

-- a line from 0 to 2 elevated once
example (g : Nat → ℚ) : ∃ Q, elevate g 2 1 1 (fun i => 2 * i) = some (Q, 2) ∧ ∀ u, bez 2 Q u = 2 * u := by
  obtain ⟨Q, h1, h2⟩ := C41_elevate g 1 1 (by omega) (fun i => 2 * (i : ℚ))
  refine ⟨Q, h1, fun u => (h2 u).trans ?_⟩
  simp [bez, sum_range_succ]
  ring

end Verif.Bez
