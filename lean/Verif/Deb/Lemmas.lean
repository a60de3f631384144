import Verif.Deb.Model
import Verif.Nurbs.Reverse

/-! The recursive basis function is the Cox-de Boor recursion started from several spans. -/

set_option linter.unusedSectionVars false

namespace Verif.Deb
open Verif.Nurbs Finset
variable {K : Type} [Field K] [LinearOrder K]

/-- Degree-0 values of the code. -/
def hit (U : Nat → K) (t : K) (l : Nat) : K := if U l ≤ t ∧ t ≤ U (l + 1) then 1 else 0

theorem deboor_cox (U : Nat → K) (t : K) : ∀ (k i : Nat), deboor U t i k = cox (hit U t) U t k i := by
  intro k
  induction k with
  | zero => intro i; rfl
  | succ k ih =>
    intro i
    rw [deboor, cox, ih i, ih (i + 1)]
    rw [show i + (k + 1) = i + k + 1 by omega, show i + k + 1 + 1 = i + k + 2 by omega]
    congr 1
    · split_ifs with h
      · rw [h, sub_self, div_zero, zero_mul]
      · rfl
    · split_ifs with h
      · rw [h, sub_self, div_zero, zero_mul]
      · rfl

theorem cox_add (e e' : Nat → K) (U : Nat → K) (x : K) : ∀ (p l : Nat),
    cox (fun k => e k + e' k) U x p l = cox e U x p l + cox e' U x p l := by
  intro p
  induction p with
  | zero => intro l; rfl
  | succ p ih => intro l; rw [cox, cox, cox, ih, ih]; ring

/-- Spans of length zero contribute nothing from degree one on. -/
theorem cox_degenerate (z : Nat → K) (U : Nat → K) (x : K) (hz : ∀ l, z l ≠ 0 → U l = U (l + 1)) :
    ∀ (p l : Nat), cox z U x (p + 1) l = 0 := by
  have h1 : ∀ l, cox z U x 1 l = 0 := by
    intro l
    rw [cox]
    simp only [cox, Nat.add_zero]
    have a : (x - U l) / (U (l + 1) - U l) * z l = 0 := by
      by_cases h : z l = 0
      · rw [h, mul_zero]
      · rw [hz l h, sub_self, div_zero, zero_mul]
    have b : (U (l + 0 + 2) - x) / (U (l + 0 + 2) - U (l + 1)) * z (l + 1) = 0 := by
      by_cases h : z (l + 1) = 0
      · rw [h, mul_zero]
      · rw [show l + 0 + 2 = l + 1 + 1 by omega, ← hz (l + 1) h, sub_self, div_zero, zero_mul]
    simp only [Nat.add_zero] at b ⊢
    rw [a, b, add_zero]
  intro p
  induction p with
  | zero => exact h1
  | succ p ih => intro l; rw [cox, ih, ih]; ring

variable [IsStrictOrderedRing K]

/-- Strictly inside a span only that span counts. -/
theorem deboor_inside (U : Nat → K) (m : Nat) (hU : MonoUpTo U m) (i : Nat) (t : K) (him : i + 1 < m) (h1 : U i < t)
    (h2 : t < U (i + 1)) (p l : Nat) (hl : l + p + 1 < m) : deboor U t l p = cox (spike i) U t p l := by
  rw [deboor_cox]
  refine cox_congr _ _ _ _ _ p l (fun k hk1 hk2 => ?_) (fun _ _ _ => rfl)
  unfold hit spike
  by_cases h : k = i
  · subst h; rw [if_pos ⟨h1.le, h2.le⟩, if_pos rfl]
  · rw [if_neg h, if_neg]
    rintro ⟨a, b⟩
    rcases Nat.lt_or_gt_of_ne h with c | c
    · exact absurd (hU (k + 1) i (by omega) (by omega)) (not_le.mpr (lt_of_lt_of_le h1 b))
    · exact absurd (hU (i + 1) k (by omega) (by omega)) (not_le.mpr (lt_of_le_of_lt a h2))

/-- At a knot `x` with the block `a+1 … a+k` of equal knots both neighbouring spans count, from degree one on. -/
theorem deboor_at (U : Nat → K) (m : Nat) (hU : MonoUpTo U m) (a k : Nat) (x : K) (hk : 1 ≤ k) (ham : a + k + 1 < m)
    (h1 : U a < x) (h2 : ∀ j, a < j → j ≤ a + k → U j = x) (h3 : x < U (a + k + 1)) (p l : Nat)
    (hl : l + (p + 1) + 1 < m) :
    deboor U x l (p + 1) = cox (spike a) U x (p + 1) l + cox (spike (a + k)) U x (p + 1) l := by
  rw [deboor_cox]
  have hc : cox (hit U x) U x (p + 1) l =
      cox (fun j => (spike a j + spike (a + k) j) + (if a < j ∧ j < a + k then 1 else 0)) U x (p + 1) l := by
    refine cox_congr _ _ _ _ _ (p + 1) l (fun j hj1 hj2 => ?_) (fun _ _ _ => rfl)
    unfold hit spike
    by_cases c1 : j < a
    · rw [if_neg, if_neg (by omega), if_neg (by omega), if_neg (by omega), add_zero, add_zero]
      rintro ⟨_, b⟩
      exact absurd (hU (j + 1) a (by omega) (by omega)) (not_le.mpr (lt_of_lt_of_le h1 b))
    · by_cases c2 : j = a
      · subst c2
        rw [if_pos ⟨h1.le, (h2 (j + 1) (by omega) (by omega)).ge⟩, if_pos rfl, if_neg (by omega), if_neg (by omega),
          add_zero, add_zero]
      · by_cases c3 : j < a + k
        · rw [if_pos ⟨(h2 j (by omega) (by omega)).le, (h2 (j + 1) (by omega) (by omega)).ge⟩, if_neg c2,
            if_neg (by omega), if_pos (by omega), zero_add, zero_add]
        · by_cases c4 : j = a + k
          · rw [if_pos ⟨(h2 j (by omega) (by omega)).le, by rw [c4]; exact h3.le⟩, if_neg c2, if_pos c4,
              if_neg (by omega), zero_add, add_zero]
          · rw [if_neg, if_neg c2, if_neg c4, if_neg (by omega), add_zero, add_zero]
            rintro ⟨b, _⟩
            exact absurd (hU (a + k + 1) j (by omega) (by omega)) (not_le.mpr (lt_of_le_of_lt b h3))
  rw [hc, cox_add, cox_add, cox_degenerate (fun j => if a < j ∧ j < a + k then 1 else 0), add_zero]
  intro j hj
  by_cases h : a < j ∧ j < a + k
  · rw [h2 j h.1 (by omega), h2 (j + 1) (by omega) (by omega)]
  · rw [if_neg h] at hj; exact absurd rfl hj

/-- At the start of a clamped knot vector only the first span counts. -/
theorem deboor_start (U : Nat → K) (m : Nat) (hU : MonoUpTo U m) (q : Nat) (x : K) (hq : q + 1 < m)
    (h2 : ∀ j, j ≤ q → U j = x) (h3 : x < U (q + 1)) (p l : Nat) (hl : l + (p + 1) + 1 < m) :
    deboor U x l (p + 1) = cox (spike q) U x (p + 1) l := by
  rw [deboor_cox]
  have hc : cox (hit U x) U x (p + 1) l =
      cox (fun j => spike q j + (if j < q then 1 else 0)) U x (p + 1) l := by
    refine cox_congr _ _ _ _ _ (p + 1) l (fun j hj1 hj2 => ?_) (fun _ _ _ => rfl)
    unfold hit spike
    by_cases c3 : j < q
    · rw [if_pos ⟨(h2 j (by omega)).le, (h2 (j + 1) (by omega)).ge⟩, if_neg (by omega), if_pos c3, zero_add]
    · by_cases c4 : j = q
      · rw [if_pos ⟨(h2 j (by omega)).le, by rw [c4]; exact h3.le⟩, if_pos c4, if_neg (by omega), add_zero]
      · rw [if_neg, if_neg c4, if_neg (by omega), add_zero]
        rintro ⟨b, _⟩
        exact absurd (hU (q + 1) j (by omega) (by omega)) (not_le.mpr (lt_of_le_of_lt b h3))
  rw [hc, cox_add, cox_degenerate (fun j => if j < q then 1 else 0), add_zero]
  intro j hj
  by_cases h : j < q
  · rw [h2 j (by omega), h2 (j + 1) (by omega)]
  · rw [if_neg h] at hj; exact absurd rfl hj

/-- At the end of a clamped knot vector only the last span counts. -/
theorem deboor_end (U : Nat → K) (m : Nat) (hU : MonoUpTo U m) (a : Nat) (x : K) (ham : a + 1 < m)
    (h1 : U a < x) (h2 : ∀ j, a < j → j < m → U j = x) (p l : Nat) (hl : l + (p + 1) + 1 < m) :
    deboor U x l (p + 1) = cox (spike a) U x (p + 1) l := by
  rw [deboor_cox]
  have hc : cox (hit U x) U x (p + 1) l =
      cox (fun j => spike a j + (if a < j ∧ j + 1 < m then 1 else 0)) U x (p + 1) l := by
    refine cox_congr _ _ _ _ _ (p + 1) l (fun j hj1 hj2 => ?_) (fun _ _ _ => rfl)
    unfold hit spike
    by_cases c1 : j < a
    · rw [if_neg, if_neg (by omega), if_neg (by omega), add_zero]
      rintro ⟨_, b⟩
      exact absurd (hU (j + 1) a (by omega) (by omega)) (not_le.mpr (lt_of_lt_of_le h1 b))
    · by_cases c2 : j = a
      · subst c2
        rw [if_pos ⟨h1.le, (h2 (j + 1) (by omega) (by omega)).ge⟩, if_pos rfl, if_neg (by omega), add_zero]
      · rw [if_pos ⟨(h2 j (by omega) (by omega)).le, (h2 (j + 1) (by omega) (by omega)).ge⟩, if_neg c2,
          if_pos (by omega), zero_add]
  rw [hc, cox_add, cox_degenerate (fun j => if a < j ∧ j + 1 < m then 1 else 0), add_zero]
  intro j hj
  by_cases h : a < j ∧ j + 1 < m
  · rw [h2 j h.1 (by omega), h2 (j + 1) (by omega) (by omega)]
  · rw [if_neg h] at hj; exact absurd rfl hj

/-- All basis functions of a span of the domain add up to one. -/
theorem cox_sum_range (U : Nat → K) (m : Nat) (hU : MonoUpTo U m) (i : Nat) (hi : U i < U (i + 1)) (x : K) (p n : Nat)
    (hp : p ≤ i) (hin : i < n) (hm : i + p < m) : ∑ l ∈ range n, cox (spike i) U x p l = 1 := by
  rw [← cox_sum_one U m hU i hi x p hp hm]
  have : ∑ r ∈ range (p + 1), cox (spike i) U x p (i - p + r) = ∑ l ∈ Ico (i - p) (i + 1), cox (spike i) U x p l := by
    rw [sum_Ico_eq_sum_range, show i + 1 - (i - p) = p + 1 by omega]
  rw [this]
  symm
  apply sum_subset
  · intro l hl; simp only [mem_Ico, mem_range] at hl ⊢; omega
  · intro l _ hl
    simp only [mem_Ico] at hl
    exact cox_spike_out i U x p l (by omega)

theorem foldl_accumulate (t : K) (cpts : Nat → XYZ K) (knots weights : Nat → K) (degree : Nat) (r : XYZ K) : ∀ n : Nat,
    (List.range n).foldl (accumulate t cpts knots weights degree) (r, 0) =
      (⟨r.x + ∑ i ∈ range n, deboor knots t i degree * weights i * (cpts i).x,
        r.y + ∑ i ∈ range n, deboor knots t i degree * weights i * (cpts i).y,
        r.z + ∑ i ∈ range n, deboor knots t i degree * weights i * (cpts i).z⟩,
       ∑ i ∈ range n, deboor knots t i degree * weights i) := by
  intro n
  induction n with
  | zero => simp
  | succ n ih =>
    rw [List.range_succ, List.foldl_append, List.foldl_cons, List.foldl_nil, ih, accumulate]
    dsimp only
    simp only [sum_range_succ, add_assoc]

end Verif.Deb
