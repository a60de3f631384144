import Verif.Integ.Even

/-!
# The table of the Romberg scheme
-/

set_option linter.unusedSectionVars false

namespace Verif.Integ
variable {F : Type} [Field F] [LinearOrder F] [IsStrictOrderedRing F]
open Finset Polynomial

theorem newPoints_eq (f : F → F) (a h : F) (ep : Nat) : newPoints f a h ep = ∑ j ∈ range ep, f (a + (2 * (j : F) + 1) * h) := by
  unfold newPoints
  induction ep with
  | zero => rfl
  | succ ep ih =>
    rw [List.range'_1_concat, List.foldl_append, ih, sum_range_succ]
    simp only [List.foldl_cons, List.foldl_nil]
    congr 3
    push_cast; ring

theorem sum_pairs (g : Nat → F) (N : Nat) : ∑ k ∈ range (2 * N), g k = ∑ k ∈ range N, (g (2 * k) + g (2 * k + 1)) := by
  induction N with
  | zero => rfl
  | succ N ih =>
    rw [show 2 * (N + 1) = 2 * N + 1 + 1 by omega, sum_range_succ, sum_range_succ, ih, sum_range_succ]; ring

theorem trap_double (f : F → F) (a b : F) (N : Nat) :
    trap f a b (2 * N) = (b - a) / ((2 * N : Nat) : F) * ∑ j ∈ range N, f (a + (2 * (j : F) + 1) * ((b - a) / ((2 * N : Nat) : F))) +
      1 / 2 * trap f a b N := by
  unfold trap
  rw [sum_pairs, mul_sum, mul_sum, ← sum_add_distrib]
  refine sum_congr rfl fun k _ => ?_
  have e : (b - a) / ((2 * N : Nat) : F) = (b - a) / N / 2 := by push_cast; rw [div_div, mul_comm]
  rw [e]
  generalize (b - a) / (N : F) = h
  have e1 : a + ((2 * k : Nat) : F) * (h / 2) = a + (k : F) * h := by push_cast; ring
  have e2 : a + (((2 * k : Nat) : F) + 1) * (h / 2) = a + (2 * (k : F) + 1) * (h / 2) := by push_cast; ring
  have e3 : a + ((2 * k + 1 : Nat) : F) * (h / 2) = a + (2 * (k : F) + 1) * (h / 2) := by push_cast; ring
  have e4 : a + (((2 * k + 1 : Nat) : F) + 1) * (h / 2) = a + ((k : F) + 1) * h := by push_cast; ring
  rw [e1, e2, e3, e4]
  ring

/-- The extrapolation table over a first column. -/
def romb (T : Nat → F) (i : Nat) : Nat → F
  | 0 => T i
  | j + 1 => ((4 : F) ^ (j + 1) * romb T i j - romb T (i - 1) j) / ((4 : F) ^ (j + 1) - 1)

theorem extrapolate_spec (T : Nat → F) (i : Nat) (Rp Rc : Nat → F) (hp : ∀ j, j < i → Rp j = romb T (i - 1) j) (hc : Rc 0 = T i)
    (n : Nat) (hn : n ≤ i) : ∀ j, j ≤ n →
    (List.range' 1 n).foldl (fun R j => put R j (((4 : F) ^ j * R (j - 1) - Rp (j - 1)) / ((4 : F) ^ j - 1))) Rc j = romb T i j := by
  induction n with
  | zero => intro j hj; obtain rfl : j = 0 := by omega
            exact hc
  | succ n ih =>
    intro j hj
    rw [List.range'_1_concat, List.foldl_append]
    simp only [List.foldl_cons, List.foldl_nil]
    unfold put
    by_cases h : j = 1 + n
    · rw [if_pos h, Nat.add_sub_cancel_left]
      have hi := ih (by omega) n (le_refl _)
      unfold put at hi
      rw [hi, hp n (by omega), h, Nat.add_comm 1 n]
      rfl
    · rw [if_neg h]
      have hi := ih (by omega) j (by omega)
      unfold put at hi
      exact hi

/-- The trapezoidal sums with `2^i` cells. -/
def col (f : F → F) (a b : F) (i : Nat) : F := trap f a b (2 ^ i)

/-- The row where the scheme stops: the first row from 2 on whose last entry is close to that of the row before. -/
def StopsAt (f : F → F) (a b acc : F) (n k : Nat) : Prop :=
  k ≤ n ∧ (k < n → 2 ≤ k ∧ |romb (col f a b) (k - 1) (k - 1) - romb (col f a b) k k| < acc) ∧
    ∀ l, 2 ≤ l → l < k → acc ≤ |romb (col f a b) (l - 1) (l - 1) - romb (col f a b) l l|

theorem loop_spec (f : F → F) (a b acc : F) (c : Nat) : ∀ i, 0 < i → ∀ Rp Rc : Nat → F,
    (∀ j, j < i → Rp j = romb (col f a b) (i - 1) j) →
    (∀ l, 2 ≤ l → l < i → acc ≤ |romb (col f a b) (l - 1) (l - 1) - romb (col f a b) l l|) →
    ∃ k, StopsAt f a b acc (i - 1 + c) k ∧
      rombergLoop f a acc c i ((b - a) / 2 ^ (i - 1)) Rp Rc = romb (col f a b) k k := by
  induction c with
  | zero =>
    intro i hi Rp Rc hp hl
    refine ⟨i - 1, ⟨by omega, fun h => by omega, fun l h1 h2 => hl l h1 (by omega)⟩, ?_⟩
    rw [rombergLoop]; exact hp (i - 1) (by omega)
  | succ c ih =>
    intro i hi Rp Rc hp hl
    rw [rombergLoop]
    have hh : (b - a) / (2 : F) ^ (i - 1) / 2 = (b - a) / 2 ^ i := by
      rw [div_div, ← pow_succ, show i - 1 + 1 = i by omega]
    have h0 : (b - a) / 2 ^ i * newPoints f a ((b - a) / 2 ^ i) (2 ^ (i - 1)) + 1 / 2 * Rp 0 = col f a b i := by
      rw [newPoints_eq, hp 0 hi]
      show _ + 1 / 2 * trap f a b (2 ^ (i - 1)) = trap f a b (2 ^ i)
      have e : 2 ^ i = 2 * 2 ^ (i - 1) := by rw [← pow_succ', show i - 1 + 1 = i by omega]
      rw [e, trap_double, ← e]
      push_cast
      rfl
    simp only [hh]
    have hrow : ∀ j, j ≤ i → extrapolate Rp (put Rc 0
        ((b - a) / 2 ^ i * newPoints f a ((b - a) / 2 ^ i) (2 ^ (i - 1)) + 1 / 2 * Rp 0)) i j = romb (col f a b) i j :=
      extrapolate_spec (col f a b) i Rp _ hp (by unfold put; rw [if_pos rfl, h0]) i (le_refl _)
    generalize extrapolate Rp (put Rc 0
        ((b - a) / 2 ^ i * newPoints f a ((b - a) / 2 ^ i) (2 ^ (i - 1)) + 1 / 2 * Rp 0)) i = R at hrow
    rw [hrow i (le_refl _), hp (i - 1) (by omega)]
    by_cases hs : 1 < i ∧ |romb (col f a b) (i - 1) (i - 1) - romb (col f a b) i i| < acc
    · rw [if_pos hs]
      exact ⟨i, ⟨by omega, fun _ => ⟨hs.1, hs.2⟩, fun l h1 h2 => hl l h1 h2⟩, rfl⟩
    · rw [if_neg hs]
      obtain ⟨k, hk, e⟩ := ih (i + 1) (by omega) R Rp (fun j hj => hrow j (by omega)) (fun l h1 h2 => by
        by_cases hli : l = i
        · subst hli
          exact not_lt.1 fun h => hs ⟨h1, h⟩
        · exact hl l h1 (by omega))
      rw [show i + 1 - 1 = i by omega] at e hk
      refine ⟨k, ?_, e⟩
      rw [show i - 1 + (c + 1) = i + c by omega]; exact hk

theorem romberg_spec (f : F → F) (a b : F) (n : Nat) (acc : F) :
    ∃ k, StopsAt f a b acc n k ∧ romberg1d f a b (n + 1) acc = some (romb (col f a b) k k) := by
  obtain ⟨k, hk, e⟩ := loop_spec f a b acc n 1 (by omega) (put (fun _ => 0) 0 (1 / 2 * (b - a) * (f a + f b))) (fun _ => 0)
    (by
      intro j hj
      obtain rfl : j = 0 := by omega
      show put _ 0 _ 0 = trap f a b (2 ^ 0)
      unfold put trap
      rw [if_pos rfl]
      simp
      ring) (fun l h1 h2 => by omega)
  refine ⟨k, by rw [show 1 - 1 + n = n by omega] at hk; exact hk, ?_⟩
  unfold romberg1d
  rw [if_neg (by omega), show n + 1 - 1 = n by omega]
  rw [show (1 - 1 : Nat) = 0 by rfl, pow_zero, div_one] at e
  rw [e]

/-- The factor that `j` extrapolations give to the power `m`. -/
def fac (m j : Nat) : F := ∏ l ∈ range j, ((4 : F) ^ (l + 1) - 4 ^ m) / ((4 : F) ^ (l + 1) - 1)

theorem four_pow_ne (l : Nat) : (4 : F) ^ (l + 1) - 1 ≠ 0 := by
  have h : (1 : F) < 4 ^ (l + 1) := one_lt_pow₀ (by norm_num) (by omega)
  exact ne_of_gt (by linarith)

theorem romb_expand (T : Nat → F) (D : Nat) (c : Nat → F)
    (hT : ∀ i, T i = ∑ m ∈ range (D + 1), c m * (1 / (4 : F) ^ i) ^ m) (j : Nat) :
    ∀ i, j ≤ i → romb T i j = ∑ m ∈ range (D + 1), c m * fac m j * (1 / (4 : F) ^ i) ^ m := by
  induction j with
  | zero => intro i _; rw [romb, hT]; exact sum_congr rfl fun m _ => by simp [fac]
  | succ j ih =>
    intro i hi
    rw [romb, ih i (by omega), ih (i - 1) (by omega), mul_sum, ← sum_sub_distrib, sum_div]
    refine sum_congr rfl fun m _ => ?_
    unfold fac
    rw [prod_range_succ]
    have h4 := four_pow_ne (F := F) j
    obtain ⟨i, rfl⟩ := Nat.exists_eq_succ_of_ne_zero (by omega : i ≠ 0)
    rw [Nat.succ_eq_add_one, Nat.add_sub_cancel]
    have e : (1 / (4 : F) ^ i) ^ m = 4 ^ m * (1 / (4 : F) ^ (i + 1)) ^ m := by
      rw [← mul_pow]; congr 1; rw [pow_succ]; field_simp
    rw [e]
    generalize (∏ l ∈ range j, ((4 : F) ^ (l + 1) - 4 ^ m) / ((4 : F) ^ (l + 1) - 1)) = P
    generalize (4 : F) ^ (j + 1) = w at *
    field_simp

theorem fac_zero (j : Nat) : (fac 0 j : F) = 1 := by
  unfold fac
  refine prod_eq_one fun l _ => ?_
  rw [pow_zero, div_self (four_pow_ne l)]

theorem fac_vanish (m j : Nat) (h1 : 0 < m) (h2 : m ≤ j) : (fac m j : F) = 0 := by
  unfold fac
  refine prod_eq_zero (mem_range.2 (by omega : m - 1 < j)) ?_
  rw [show m - 1 + 1 = m by omega, sub_self, zero_div]

/-- The diagonal entries are exact once the row reaches half the degree. -/
theorem romb_exact (d : Nat) (p q : F[X]) (hp : p.natDegree ≤ d) (hq : derivative q = p) (a b : F) (k : Nat) (hk : d / 2 ≤ k) :
    romb (col (fun x => p.eval x) a b) k k = q.eval b - q.eval a := by
  obtain ⟨c, c0, hc⟩ := trap_even d p q hp hq a b
  have hT : ∀ i, col (fun x => p.eval x) a b i = ∑ m ∈ range (d / 2 + 1), c m * (1 / (4 : F) ^ i) ^ m := by
    intro i
    unfold col
    rw [hc (2 ^ i) (by positivity)]
    refine sum_congr rfl fun m _ => ?_
    congr 3
    push_cast
    rw [← pow_mul, mul_comm, pow_mul]; norm_num
  rw [romb_expand _ (d / 2) c hT k k (le_refl _), sum_eq_single 0]
  · rw [fac_zero, c0]; simp
  · intro m hm h0
    have := mem_range.1 hm
    rw [fac_vanish m k (by omega) (by omega)]; ring
  · intro h; exact absurd (mem_range.2 (Nat.succ_pos _)) h

end Verif.Integ
