import Verif.NSDer.Model
import Verif.NDer.Ndu
import Verif.Bez.Props
import Mathlib.Algebra.BigOperators.Intervals
import Mathlib.Tactic.Ring
import Mathlib.Tactic.LinearCombination
import Mathlib.Tactic.FieldSimp

/-! # The quotient rule of `rat_surface_derivs` -/

set_option linter.unusedSectionVars false

namespace Verif.NSDer
open Finset Verif.Nurbs Verif.NDer
variable {K : Type} [Field K] [LinearOrder K]

theorem foldl_sub' (f : Nat → K) (a : K) : ∀ n, (List.range' 1 n).foldl (fun v j => v - f j) a =
    a - ∑ j ∈ range n, f (j + 1) := by
  intro n
  induction n with
  | zero => simp
  | succ n ih =>
    rw [List.range'_concat, List.foldl_append, ih, sum_range_succ]
    simp only [List.foldl_cons, List.foldl_nil, Nat.one_mul, Nat.add_comm 1 n]
    ring

theorem foldl_add' (f : Nat → K) (a : K) : ∀ n, (List.range' 1 n).foldl (fun v j => v + f j) a =
    a + ∑ j ∈ range n, f (j + 1) := by
  intro n
  induction n with
  | zero => simp
  | succ n ih =>
    rw [List.range'_concat, List.foldl_append, ih, sum_range_succ]
    simp only [List.foldl_cons, List.foldl_nil, Nat.one_mul, Nat.add_comm 1 n]
    ring

/-- The sum of Leibniz' rule. -/
def leib (W R : Nat → Nat → K) (k l : Nat) : K :=
  ∑ i ∈ range (k + 1), ∑ j ∈ range (l + 1), (k.choose i : K) * (l.choose j : K) * W i j * R (k - i) (l - j)

/-- An entry solves Leibniz' rule for the entry. -/
theorem ratEntry_leib (g : Nat → K) (A W R R' : Nat → Nat → K) (k l : Nat) (hk : k ≤ 30) (hl : l ≤ 30) (hW : W 0 0 ≠ 0)
    (hR : ∀ i j, i ≤ k → j ≤ l → ¬ (i = k ∧ j = l) → R' i j = R i j) (h : R' k l = ratEntry g A W R k l) :
    A k l = leib W R' k l := by
  have e : ratEntry g A W R k l = (A k l - (∑ j ∈ range l, (l.choose (j + 1) : K) * W 0 (j + 1) * R k (l - (j + 1))) -
      ∑ i ∈ range k, ((k.choose (i + 1) : K) * W (i + 1) 0 * R (k - (i + 1)) l + (k.choose (i + 1) : K) *
        ∑ j ∈ range l, (l.choose (j + 1) : K) * W (i + 1) (j + 1) * R (k - (i + 1)) (l - (j + 1)))) / W 0 0 := by
    simp only [ratEntry]
    congr 1
    rw [foldl_sub' (fun j => Bez.binom g l j * W 0 j * R k (l - j))]
    have : ∀ (f h : Nat → K) (a : K) (n : Nat), (List.range' 1 n).foldl (fun v i => v - f i - h i) a =
        a - ∑ i ∈ range n, (f (i + 1) + h (i + 1)) := by
      intro f h a n
      rw [← foldl_sub' (fun i => f i + h i)]
      congr 1
      funext v i
      ring
    rw [this]
    congr 1
    · congr 1
      apply sum_congr rfl
      intro j hj
      have hj := mem_range.1 hj
      rw [Bez.C113_table g l (j + 1) hl (by omega)]
    · apply sum_congr rfl
      intro i hi
      have hi := mem_range.1 hi
      rw [foldl_add', Bez.C113_table g k (i + 1) hk (by omega), zero_add]
      congr 2
      apply sum_congr rfl
      intro j hj
      have hj := mem_range.1 hj
      rw [Bez.C113_table g l (j + 1) hl (by omega)]
  rw [leib, sum_range_succ', sum_range_succ']
  simp only [Nat.choose_zero_right, Nat.sub_zero, Nat.cast_one, one_mul, mul_one]
  have h1 : ∑ i ∈ range k, ∑ j ∈ range (l + 1), (k.choose (i + 1) : K) * (l.choose j : K) * W (i + 1) j *
      R' (k - (i + 1)) (l - j) = ∑ i ∈ range k, ((k.choose (i + 1) : K) * W (i + 1) 0 * R (k - (i + 1)) l +
        (k.choose (i + 1) : K) *
        ∑ j ∈ range l, (l.choose (j + 1) : K) * W (i + 1) (j + 1) * R (k - (i + 1)) (l - (j + 1))) := by
    apply sum_congr rfl
    intro i hi
    have hi := mem_range.1 hi
    rw [sum_range_succ', Nat.choose_zero_right, Nat.sub_zero, hR _ l (by omega) (le_refl _) (by omega), mul_sum, add_comm,
      Nat.cast_one, mul_one]
    congr 1
    apply sum_congr rfl
    intro j hj
    rw [hR _ _ (by omega) (by omega) (by omega)]
    ring
  have h2 : ∑ j ∈ range l, (l.choose (j + 1) : K) * W 0 (j + 1) * R' k (l - (j + 1)) =
      ∑ j ∈ range l, (l.choose (j + 1) : K) * W 0 (j + 1) * R k (l - (j + 1)) := by
    apply sum_congr rfl
    intro j hj
    have hj := mem_range.1 hj
    rw [hR k _ (le_refl _) (by omega) (by omega)]
  rw [h1, h2, h, e, mul_div_cancel₀ _ hW]
  ring

/-- The inner loop writes the entries of a row one after the other. -/
theorem row_spec (g : Nat → K) (A W : Nat → Nat → K) (k : Nat) (R0 : Nat → Nat → K) : ∀ n,
    let R := (List.range n).foldl (fun R l => upd R k l (ratEntry g A W R k l)) R0
    (∀ i j, i ≠ k → R i j = R0 i j) ∧ (∀ j, n ≤ j → R k j = R0 k j) ∧
    ∀ l, l < n → ∃ Q : Nat → Nat → K, R k l = ratEntry g A W Q k l ∧ ∀ i j, (i ≠ k ∨ j < l) → Q i j = R i j := by
  intro n
  induction n with
  | zero => simp
  | succ n ih =>
    simp only [List.range_succ, List.foldl_append, List.foldl_cons, List.foldl_nil] at ih ⊢
    generalize (List.range n).foldl (fun R l => upd R k l (ratEntry g A W R k l)) R0 = R at ih ⊢
    obtain ⟨h1, h2, h3⟩ := ih
    refine ⟨fun i j hi => ?_, fun j hj => ?_, fun l hl => ?_⟩
    · rw [upd_ne _ _ _ _ _ _ (by tauto)]; exact h1 i j hi
    · rw [upd_ne _ _ _ _ _ _ (by right; omega)]; exact h2 j (by omega)
    · by_cases hln : l = n
      · subst hln
        refine ⟨R, upd_self _ _ _ _, fun i j hij => (upd_ne _ _ _ _ _ _ (by omega)).symm⟩
      · obtain ⟨Q, q1, q2⟩ := h3 l (by omega)
        refine ⟨Q, by rw [upd_ne _ _ _ _ _ _ (by right; omega)]; exact q1, fun i j hij => ?_⟩
        rw [upd_ne _ _ _ _ _ _ (by omega)]
        exact q2 i j hij

/-- Every entry is computed from entries that are final. -/
theorem rat_spec (g : Nat → K) (A W : Nat → Nat → K) (order : Nat) (R0 : Nat → Nat → K) : ∀ n,
    let R := (List.range n).foldl (fun R k =>
      (List.range (order + 1)).foldl (fun R l => upd R k l (ratEntry g A W R k l)) R) R0
    (∀ i j, (n ≤ i ∨ order < j) → R i j = R0 i j) ∧
    ∀ k l, k < n → l ≤ order → ∃ Q : Nat → Nat → K, R k l = ratEntry g A W Q k l ∧
      ∀ i j, i ≤ k → j ≤ l → ¬ (i = k ∧ j = l) → R i j = Q i j := by
  intro n
  induction n with
  | zero => simp
  | succ n ih =>
    simp only at ih ⊢
    rw [List.range_succ (n := n), List.foldl_append, List.foldl_cons, List.foldl_nil]
    generalize hR : (List.range n).foldl (fun R k =>
      (List.range (order + 1)).foldl (fun R l => upd R k l (ratEntry g A W R k l)) R) R0 = R at ih ⊢
    obtain ⟨h1, h2⟩ := ih
    obtain ⟨r1, r2, r3⟩ := row_spec g A W n R (order + 1)
    generalize (List.range (order + 1)).foldl (fun R l => upd R n l (ratEntry g A W R n l)) R = T at r1 r2 r3 ⊢
    refine ⟨fun i j hij => ?_, fun k l hk hl => ?_⟩
    · by_cases hi : i = n
      · subst hi
        rw [r2 j (by omega)]; exact h1 i j (by omega)
      · rw [r1 i j hi]; exact h1 i j (by omega)
    · by_cases hkn : k = n
      · subst hkn
        obtain ⟨Q, q1, q2⟩ := r3 l (by omega)
        exact ⟨Q, q1, fun i j hi hj hij => (q2 i j (by omega)).symm⟩
      · obtain ⟨Q, q1, q2⟩ := h2 k l (by omega) hl
        refine ⟨Q, by rw [r1 k l hkn]; exact q1, fun i j hi hj hij => ?_⟩
        rw [r1 i j (by omega)]
        exact q2 i j hi hj hij

/-- The result solves Leibniz' rule in all entries. -/
theorem rat_leib (g : Nat → K) (A W : Nat → Nat → K) (order : Nat) (ho : order ≤ 30) (R0 : Nat → Nat → K) (hW : W 0 0 ≠ 0)
    (k l : Nat) (hk : k ≤ order) (hl : l ≤ order) : A k l = leib W (ratSurfaceDerivs g A W order R0) k l := by
  obtain ⟨Q, q1, q2⟩ := (rat_spec g A W order R0 (order + 1)).2 k l (by omega) hl
  exact ratEntry_leib g A W Q _ k l (by omega) (by omega) hW (fun i j hi hj hij => q2 i j hi hj hij) q1

/-- There is only one solution. -/
theorem leib_unique (W R R' : Nat → Nat → K) (hW : W 0 0 ≠ 0) (m n : Nat)
    (h : ∀ k l, k ≤ m → l ≤ n → leib W R k l = leib W R' k l) : ∀ k l, k ≤ m → l ≤ n → R k l = R' k l := by
  suffices H : ∀ N k l, k + l = N → k ≤ m → l ≤ n → R k l = R' k l from fun k l => H _ k l rfl
  intro N
  induction N using Nat.strong_induction_on with
  | _ N ih =>
    intro k l hN hk hl
    have e := h k l hk hl
    rw [leib, leib, sum_range_succ', sum_range_succ', sum_range_succ' (n := k),
      sum_range_succ' (n := l) (f := fun j => _ * _ * _ * R' _ _)] at e
    have e1 : ∑ i ∈ range k, ∑ j ∈ range (l + 1), (k.choose (i + 1) : K) * (l.choose j : K) * W (i + 1) j *
        R (k - (i + 1)) (l - j) = ∑ i ∈ range k, ∑ j ∈ range (l + 1), (k.choose (i + 1) : K) * (l.choose j : K) *
        W (i + 1) j * R' (k - (i + 1)) (l - j) := by
      refine sum_congr rfl fun i hi => sum_congr rfl fun j hj => ?_
      have := mem_range.1 hi
      have := mem_range.1 hj
      rw [ih (k - (i + 1) + (l - j)) (by omega) _ _ rfl (by omega) (by omega)]
    have e2 : ∑ j ∈ range l, (k.choose 0 : K) * (l.choose (j + 1) : K) * W 0 (j + 1) * R (k - 0) (l - (j + 1)) =
        ∑ j ∈ range l, (k.choose 0 : K) * (l.choose (j + 1) : K) * W 0 (j + 1) * R' (k - 0) (l - (j + 1)) := by
      refine sum_congr rfl fun j hj => ?_
      have := mem_range.1 hj
      rw [ih (k - 0 + (l - (j + 1))) (by omega) _ _ rfl (by omega) (by omega)]
    rw [e1, e2] at e
    have := add_left_cancel (add_left_cancel e)
    simp only [Nat.choose_zero_right, Nat.sub_zero, Nat.cast_one, one_mul] at this
    exact mul_left_cancel₀ hW this

/-- Pascal's rule in the first direction. -/
theorem leib_succ_left (W R : Nat → Nat → K) (k l : Nat) :
    leib W R (k + 1) l = leib (fun i j => W (i + 1) j) R k l + leib W (fun i j => R (i + 1) j) k l := by
  have key : ∀ f : Nat → Nat → K, ∑ i ∈ range (k + 1 + 1), ((k + 1).choose i : K) * f i (k + 1 - i) =
      ∑ i ∈ range (k + 1), (k.choose i : K) * f (i + 1) (k - i) + ∑ i ∈ range (k + 1), (k.choose i : K) * f i (k - i + 1) := by
    intro f
    rw [sum_range_succ', sum_range_succ' (n := k) (f := fun i => (k.choose i : K) * f i (k - i + 1))]
    simp only [Nat.choose_zero_right, Nat.choose_succ_succ, Nat.cast_add, add_mul, sum_add_distrib, Nat.sub_zero,
      Nat.add_sub_add_right]
    have : ∑ i ∈ range (k + 1), ((k.choose (i + 1) : Nat) : K) * f (i + 1) (k - i) =
        ∑ i ∈ range k, ((k.choose (i + 1) : Nat) : K) * f (i + 1) (k - (i + 1) + 1) := by
      rw [sum_range_succ, Nat.choose_succ_self, Nat.cast_zero, zero_mul, add_zero]
      refine sum_congr rfl fun i hi => ?_
      have := mem_range.1 hi
      rw [show k - (i + 1) + 1 = k - i by omega]
    rw [this]
    ring
  have := key fun i i' => ∑ j ∈ range (l + 1), (l.choose j : K) * W i j * R i' (l - j)
  simp only [mul_sum, ← mul_assoc] at this
  simp only [leib]
  exact this

/-- Leibniz' sum with the two directions exchanged. -/
theorem leib_swap (W R : Nat → Nat → K) (k l : Nat) :
    leib W R k l = leib (fun i j => W j i) (fun i j => R j i) l k := by
  rw [leib, leib, sum_comm]
  exact sum_congr rfl fun i _ => sum_congr rfl fun j _ => by ring

theorem leib_succ_right (W R : Nat → Nat → K) (k l : Nat) :
    leib W R k (l + 1) = leib (fun i j => W i (j + 1)) R k l + leib W (fun i j => R i (j + 1)) k l := by
  rw [leib_swap, leib_succ_left, leib_swap (fun i j => W i (j + 1)), leib_swap W (fun i j => R i (j + 1))]

end Verif.NSDer
