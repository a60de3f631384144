import Verif.Nurbs.Basis
import Mathlib.Tactic.LinearCombination

/-! One knot inserted: Boehm's identity and its consequence for splines. -/

set_option linter.unusedSectionVars false

namespace Verif.Nurbs
open Finset
variable {K : Type} [Field K] [LinearOrder K]

/-- `V` is `U` with `t` put in after position `k`. -/
def Inserted (U V : Nat → K) (k : Nat) (t : K) : Prop :=
  (∀ l, l ≤ k → V l = U l) ∧ V (k + 1) = t ∧ ∀ l, k < l → V (l + 1) = U l

/-- Boehm's ratio. -/
def ratio (V : Nat → K) (k : Nat) (t : K) (p l : Nat) : K :=
  if l + p ≤ k then 1 else if l ≤ k then (t - V l) / (V (l + p + 1) - V l) else 0

/-- The span index after the insertion. -/
def SpanMap (k i i' : Nat) : Prop := (i < k ∧ i' = i) ∨ (i = k ∧ (i' = k ∨ i' = k + 1)) ∨ (k < i ∧ i' = i + 1)

theorem fid1 (t x a b d : K) (hd : d - b ≠ 0) (h : d - a ≠ 0) :
    (d - x) / (d - b) * (1 - (t - a) / (d - a)) = (1 - (t - b) / (d - b)) * ((d - x) / (d - a)) := by
  field_simp; ring

theorem fid2 (t x b d : K) (hd : d - b ≠ 0) (h : d - t ≠ 0) :
    (d - x) / (d - b) = (1 - (t - b) / (d - b)) * ((d - x) / (d - t)) := by
  field_simp; ring

theorem fid3 (t x b d : K) (hd : d - b ≠ 0) (h : t - b ≠ 0) :
    (d - x) / (d - b) = (t - x) / (t - b) + (1 - (t - b) / (d - b)) * ((x - b) / (t - b)) := by
  field_simp; ring

theorem fid4 (t x a b c d : K) (h1 : c - a ≠ 0) (h2 : c - b ≠ 0) (h3 : d - b ≠ 0) :
    (x - a) / (c - a) * (1 - (t - b) / (c - b)) + (d - x) / (d - b) * ((t - b) / (c - b)) =
    (t - a) / (c - a) * ((c - x) / (c - b)) + (1 - (t - b) / (d - b)) * ((x - b) / (c - b)) := by
  field_simp; ring

theorem fid5 (t x a c : K) (h1 : c - a ≠ 0) (h2 : c - t ≠ 0) :
    (x - a) / (c - a) = (t - a) / (c - a) * ((c - x) / (c - t)) + (x - t) / (c - t) := by
  field_simp; ring

theorem boehm_step (U V : Nat → K) (k : Nat) (t : K) (hI : Inserted U V k t) (x : K) (p l : Nat) (X Y Z : K)
    (hX : X = 0 ∨ V (l + p + 1) - V l ≠ 0) (hYb : Y = 0 ∨ V (l + p + 2) - V (l + 1) ≠ 0)
    (hYa : Y = 0 ∨ V (l + p + 2) - V l ≠ 0) (hYd : Y = 0 ∨ V (l + p + 3) - V (l + 1) ≠ 0)
    (hZ : Z = 0 ∨ V (l + p + 3) - V (l + 2) ≠ 0) (hZb : Z = 0 ∨ V (l + p + 3) - V (l + 1) ≠ 0) :
    (x - U l) / (U (l + p + 1) - U l) * (ratio V k t p l * X + (1 - ratio V k t p (l + 1)) * Y) +
    (U (l + p + 2) - x) / (U (l + p + 2) - U (l + 1)) *
      (ratio V k t p (l + 1) * Y + (1 - ratio V k t p (l + 2)) * Z) =
    ratio V k t (p + 1) l * ((x - V l) / (V (l + p + 1) - V l) * X +
      (V (l + p + 2) - x) / (V (l + p + 2) - V (l + 1)) * Y) +
    (1 - ratio V k t (p + 1) (l + 1)) * ((x - V (l + 1)) / (V (l + p + 2) - V (l + 1)) * Y +
      (V (l + p + 3) - x) / (V (l + p + 3) - V (l + 2)) * Z) := by
  obtain ⟨hlo, hk, hhi⟩ := hI
  -- coefficient of X
  have e1 : (x - U l) / (U (l + p + 1) - U l) * ratio V k t p l * X =
      ratio V k t (p + 1) l * ((x - V l) / (V (l + p + 1) - V l)) * X := by
    rcases hX with hX | hX'
    · rw [hX]; simp
    · by_cases c1 : l + p + 1 ≤ k
      · simp only [ratio]
        rw [if_pos (by omega), if_pos (by omega), hlo l (by omega), hlo (l + p + 1) c1]; ring
      · by_cases c2 : l + p = k
        · simp only [ratio]
          rw [if_pos (by omega), if_neg (by omega), if_pos (by omega)]
          have h1 : V (l + p + 1) = t := by rw [c2]; exact hk
          have h2 : V (l + (p + 1) + 1) = U (l + p + 1) := hhi (l + p + 1) (by omega)
          rw [h2, hlo l (by omega), h1]
          rw [h1, hlo l (by omega)] at hX'
          field_simp
        · by_cases c3 : l ≤ k
          · simp only [ratio]
            rw [if_neg (by omega), if_pos c3, if_neg (by omega), if_pos c3]
            have h2 : V (l + (p + 1) + 1) = U (l + p + 1) := hhi (l + p + 1) (by omega)
            rw [h2, hlo l c3]
            ring
          · simp only [ratio]
            rw [if_neg (by omega), if_neg c3, if_neg (by omega), if_neg c3]; ring
  -- coefficient of Z
  have e3 : (U (l + p + 2) - x) / (U (l + p + 2) - U (l + 1)) * (1 - ratio V k t p (l + 2)) * Z =
      (1 - ratio V k t (p + 1) (l + 1)) * ((V (l + p + 3) - x) / (V (l + p + 3) - V (l + 2))) * Z := by
    rcases hZ with hZ | hZ'
    · rw [hZ]; simp
    rcases hZb with hZ | hZb'
    · rw [hZ]; simp
    · congr 1
      by_cases c1 : l + 2 + p ≤ k
      · simp only [ratio]
        rw [if_pos c1, if_pos (by omega)]; ring
      · have hD : U (l + p + 2) = V (l + p + 3) := (hhi (l + p + 2) (by omega)).symm
        by_cases c2 : l + 2 ≤ k
        · simp only [ratio]
          rw [if_neg c1, if_pos c2, if_neg (by omega), if_pos (by omega), hD, ← hlo (l + 1) (by omega)]
          rw [show l + 2 + p + 1 = l + p + 3 by omega, show l + 1 + (p + 1) + 1 = l + p + 3 by omega]
          exact fid1 t x _ _ _ hZb' hZ'
        · by_cases c3 : l + 1 = k
          · simp only [ratio]
            rw [if_neg c1, if_neg c2, if_neg (by omega), if_pos (by omega), hD, ← hlo (l + 1) (by omega)]
            have ht : V (l + 2) = t := by rw [show l + 2 = k + 1 by omega]; exact hk
            rw [ht] at hZ' ⊢
            rw [show l + 1 + (p + 1) + 1 = l + p + 3 by omega, sub_zero, mul_one]
            exact fid2 t x _ _ hZb' hZ'
          · simp only [ratio]
            rw [if_neg c1, if_neg c2, if_neg (by omega), if_neg (by omega), hD,
              ← hhi (l + 1) (by omega)]
            ring
  -- coefficient of Y
  have e2 : ((x - U l) / (U (l + p + 1) - U l) * (1 - ratio V k t p (l + 1)) +
      (U (l + p + 2) - x) / (U (l + p + 2) - U (l + 1)) * ratio V k t p (l + 1)) * Y =
      (ratio V k t (p + 1) l * ((V (l + p + 2) - x) / (V (l + p + 2) - V (l + 1))) +
      (1 - ratio V k t (p + 1) (l + 1)) * ((x - V (l + 1)) / (V (l + p + 2) - V (l + 1)))) * Y := by
    rcases hYb with hY | hb
    · rw [hY]; simp
    rcases hYa with hY | ha
    · rw [hY]; simp
    rcases hYd with hY | hd
    · rw [hY]; simp
    congr 1
    by_cases c1 : l + p + 2 ≤ k
    · simp only [ratio]
      rw [if_pos (by omega), if_pos (by omega), if_pos (by omega), hlo (l + p + 2) c1, hlo (l + 1) (by omega)]
      ring
    · have hD : U (l + p + 2) = V (l + p + 3) := (hhi (l + p + 2) (by omega)).symm
      by_cases c2 : l + p + 1 = k
      · simp only [ratio]
        rw [if_pos (by omega), if_pos (by omega), if_neg (by omega), if_pos (by omega), hD, ← hlo (l + 1) (by omega)]
        have ht : V (l + p + 2) = t := by rw [show l + p + 2 = k + 1 by omega]; exact hk
        rw [ht] at hb ⊢
        rw [show l + 1 + (p + 1) + 1 = l + p + 3 by omega]
        have := fid3 t x (V (l + 1)) (V (l + p + 3)) hd hb
        rw [this]; ring
      · have hC : U (l + p + 1) = V (l + p + 2) := (hhi (l + p + 1) (by omega)).symm
        by_cases c3 : l + 1 ≤ k
        · simp only [ratio]
          rw [if_neg (by omega), if_pos c3, if_neg (by omega), if_pos (by omega), if_neg (by omega), if_pos c3,
            hD, hC, ← hlo (l + 1) (by omega), ← hlo l (by omega)]
          rw [show l + 1 + p + 1 = l + p + 2 by omega, show l + 1 + (p + 1) + 1 = l + p + 3 by omega,
            show l + (p + 1) + 1 = l + p + 2 by omega]
          exact fid4 t x _ _ _ _ ha hb hd
        · by_cases c4 : l = k
          · simp only [ratio]
            rw [if_neg (by omega), if_neg c3, if_neg (by omega), if_pos (by omega), if_neg (by omega), if_neg c3, hC,
              ← hlo l (by omega)]
            have ht : V (l + 1) = t := by rw [c4]; exact hk
            rw [ht] at hb ⊢
            rw [show l + (p + 1) + 1 = l + p + 2 by omega]
            have := fid5 t x (V l) (V (l + p + 2)) ha hb
            rw [sub_zero, mul_one, mul_zero, add_zero, one_mul, this]
          · simp only [ratio]
            rw [if_neg (by omega), if_neg c3, if_neg (by omega), if_neg (by omega), if_neg (by omega), if_neg c3, hC,
              ← hhi l (by omega)]
            ring
  linear_combination e1 + e2 + e3

section ordered
variable [IsStrictOrderedRing K]

/-- Boehm's identity: an old basis function is a combination of two new ones. -/
theorem boehm (U V : Nat → K) (m k : Nat) (t : K) (hI : Inserted U V k t) (hV : MonoUpTo V (m + 1)) (i i' : Nat)
    (hm : SpanMap k i i') (hi' : V i' < V (i' + 1)) (x : K) : ∀ (p l : Nat), l + p + 1 < m →
    cox (spike i) U x p l = ratio V k t p l * cox (spike i') V x p l +
      (1 - ratio V k t p (l + 1)) * cox (spike i') V x p (l + 1) := by
  intro p
  induction p with
  | zero =>
    intro l _
    simp only [cox, spike, ratio, Nat.add_zero]
    rcases hm with ⟨h1, h2⟩ | ⟨h1, h2 | h2⟩ | ⟨h1, h2⟩ <;>
    · rcases Nat.lt_trichotomy l k with h | h | h <;> split_ifs <;> first | (exfalso; omega) | simp
  | succ p ih =>
    intro l hl
    rw [cox, cox, cox, ih l (by omega), ih (l + 1) (by omega)]
    have hne : ∀ a q, a ≤ i' → i' < a + q → a + q < m + 1 → V (a + q) - V a ≠ 0 := fun a q h1 h2 h3 =>
      sub_ne_zero.mpr (ne_of_gt (den_pos V (m + 1) hV i' hi' a q h1 h2 h3))
    have hz : ∀ a, cox (spike i') V x p a = 0 ∨ (a ≤ i' ∧ i' ≤ a + p) := by
      intro a
      by_cases h : a ≤ i' ∧ i' ≤ a + p
      · exact Or.inr h
      · exact Or.inl (cox_spike_out i' V x p a (by omega))
    rw [show l + 1 + p + 1 = l + p + 2 by omega, show l + 1 + p + 2 = l + p + 3 by omega,
      show l + 1 + 1 = l + 2 by omega]
    exact boehm_step U V k t hI x p l _ _ _
      ((hz l).imp_right fun h => hne l (p + 1) (by omega) (by omega) (by omega))
      ((hz (l + 1)).imp_right fun h => by
        have := hne (l + 1) (p + 1) (by omega) (by omega) (by omega)
        rwa [show l + 1 + (p + 1) = l + p + 2 by omega] at this)
      ((hz (l + 1)).imp_right fun h => by
        have := hne l (p + 2) (by omega) (by omega) (by omega)
        rwa [show l + (p + 2) = l + p + 2 by omega] at this)
      ((hz (l + 1)).imp_right fun h => by
        have := hne (l + 1) (p + 2) (by omega) (by omega) (by omega)
        rwa [show l + 1 + (p + 2) = l + p + 3 by omega] at this)
      ((hz (l + 2)).imp_right fun h => by
        have := hne (l + 2) (p + 1) (by omega) (by omega) (by omega)
        rwa [show l + 2 + (p + 1) = l + p + 3 by omega] at this)
      ((hz (l + 2)).imp_right fun h => by
        have := hne (l + 1) (p + 2) (by omega) (by omega) (by omega)
        rwa [show l + 1 + (p + 2) = l + p + 3 by omega] at this)

/-- The spline `∑ P_l N_l` over the span `i`. -/
def spline (U : Nat → K) (p n : Nat) (P : Nat → K) (x : K) (i : Nat) : K :=
  ∑ l ∈ range n, P l * cox (spike i) U x p l

/-- Control values after one insertion. -/
def boehmPts (V : Nat → K) (k : Nat) (t : K) (p : Nat) (P : Nat → K) (l : Nat) : K :=
  ratio V k t p l * P l + (1 - ratio V k t p l) * P (l - 1)

theorem boehm_spline (U V : Nat → K) (m k : Nat) (t : K) (hI : Inserted U V k t) (hV : MonoUpTo V (m + 1)) (i i' : Nat)
    (hm : SpanMap k i i') (hi' : V i' < V (i' + 1)) (x : K) (p n : Nat) (hnm : n + p + 1 ≤ m) (hpk : p ≤ k) (hkn : k < n)
    (P : Nat → K) :
    spline V p (n + 1) (boehmPts V k t p P) x i' = spline U p n P x i := by
  have h1 : spline U p n P x i = ∑ l ∈ range n, (P l * (ratio V k t p l * cox (spike i') V x p l) +
      P l * ((1 - ratio V k t p (l + 1)) * cox (spike i') V x p (l + 1))) := by
    apply sum_congr rfl
    intro l hl
    rw [boehm U V m k t hI hV i i' hm hi' x p l (by have := mem_range.mp hl; omega), mul_add]
  rw [h1, sum_add_distrib]
  have h2 : spline V p (n + 1) (boehmPts V k t p P) x i' =
      ∑ l ∈ range (n + 1), (ratio V k t p l * P l * cox (spike i') V x p l) +
      ∑ l ∈ range (n + 1), ((1 - ratio V k t p l) * P (l - 1) * cox (spike i') V x p l) := by
    rw [← sum_add_distrib]
    apply sum_congr rfl
    intro l _
    rw [boehmPts]; ring
  rw [h2, sum_range_succ]
  have hn : ratio V k t p n = 0 := by
    rw [ratio, if_neg (by omega), if_neg (by omega)]
  have h0 : ratio V k t p 0 = 1 := by
    rw [ratio, if_pos (by omega)]
  rw [sum_range_succ' (fun l => (1 - ratio V k t p l) * P (l - 1) * cox (spike i') V x p l), hn, h0]
  simp only [zero_mul, add_zero, sub_self, Nat.add_sub_cancel]
  congr 1
  · apply sum_congr rfl; intro l _; ring
  · apply sum_congr rfl; intro l _; ring

end ordered
end Verif.Nurbs
