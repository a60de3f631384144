import Verif.Vec.Model
import Mathlib.Algebra.BigOperators.Group.Finset.Basic
import Mathlib.Algebra.BigOperators.Ring.Finset
import Mathlib.Tactic.Linarith
import Mathlib.Tactic.Ring
import Mathlib.Tactic.FieldSimp
import Mathlib.Tactic.LinearCombination
import Mathlib.Tactic.NormNum
import Mathlib.Tactic.Push
import Mathlib.Tactic.IntervalCases

/-! # The elimination with binary-search pivoting -/

set_option linter.unusedSectionVars false

namespace Verif.Vec

open Finset

variable {K : Type} [Field K] [LinearOrder K] [IsStrictOrderedRing K]

/-- `x` solves the system of the first `n` rows and columns. -/
def Sol (n : Nat) (m : Nat → Nat → K) (v x : Nat → K) : Prop :=
  ∀ r < n, ∑ c ∈ range n, m r c * x c = v r

/-! ### The pivot search -/

theorem findMaxLoop_bounds (m : Nat → Nat → K) (i k : Nat) :
    ∀ l r, l ≤ r → l ≤ findMaxLoop m i k l r ∧ findMaxLoop m i k l r ≤ r := by
  induction k with
  | zero => intro l r h; exact ⟨le_rfl, h⟩
  | succ k ih =>
    intro l r h
    rw [findMaxLoop]
    by_cases c : l < r
    · rw [if_pos c]
      dsimp only
      split_ifs
      · have := ih l ((l + r) / 2) (by omega); omega
      · have := ih ((l + r) / 2 + 1) r (by omega); omega
    · rw [if_neg c]; exact ⟨le_rfl, h⟩

theorem findMaxRow_bounds (m : Nat → Nat → K) {i n : Nat} (h : i < n) :
    i ≤ findMaxRow m i n ∧ findMaxRow m i n < n := by
  have := findMaxLoop_bounds m i n i (n - 1) (by omega)
  unfold findMaxRow
  omega

/-- The answer is a local maximum. -/
theorem findMaxLoop_peak (m : Nat → Nat → K) (i k : Nat) :
    ∀ l r, l ≤ r → r - l < k →
      (∀ p, findMaxLoop m i k l r = p →
        (p < r → |m p i| > |m (p + 1) i|) ∧ (l < p → |m (p - 1) i| ≤ |m p i|)) := by
  induction k with
  | zero => intro l r _ h; omega
  | succ k ih =>
    intro l r h hk p hp
    rw [findMaxLoop] at hp
    by_cases c : l < r
    · rw [if_pos c] at hp
      dsimp only at hp
      split_ifs at hp with c2
      · obtain ⟨h1, h2⟩ := ih l ((l + r) / 2) (by omega) (by omega) p hp
        have := findMaxLoop_bounds m i k l ((l + r) / 2) (by omega)
        refine ⟨?_, h2⟩
        intro hpr
        rcases Nat.lt_or_ge p ((l + r) / 2) with h' | h'
        · exact h1 h'
        · have : p = (l + r) / 2 := by omega
          rw [this]; exact c2
      · obtain ⟨h1, h2⟩ := ih ((l + r) / 2 + 1) r (by omega) (by omega) p hp
        have := findMaxLoop_bounds m i k ((l + r) / 2 + 1) r (by omega)
        refine ⟨h1, ?_⟩
        intro hlp
        rcases Nat.lt_or_ge ((l + r) / 2 + 1) p with h' | h'
        · exact h2 h'
        · have e : p = (l + r) / 2 + 1 := by omega
          rw [e]
          exact not_lt.1 c2
    · rw [if_neg c] at hp
      subst hp
      exact ⟨fun h' => absurd h' c, fun h' => absurd h' (lt_irrefl _)⟩

/-! ### Row operations -/

theorem swapIdx_swapIdx (i p r : Nat) : swapIdx i p (swapIdx i p r) = r := by
  unfold swapIdx
  split_ifs <;> omega

theorem swapIdx_lt {i p n r : Nat} (hi : i < n) (hp : p < n) (hr : r < n) : swapIdx i p r < n := by
  unfold swapIdx
  split_ifs <;> omega

theorem sol_swap {n i p : Nat} (hi : i < n) (hp : p < n) (m : Nat → Nat → K) (v x : Nat → K) :
    Sol n (fun r c => m (swapIdx i p r) c) (fun r => v (swapIdx i p r)) x ↔ Sol n m v x := by
  constructor
  · intro h r hr
    have := h (swapIdx i p r) (swapIdx_lt hi hp hr)
    dsimp only at this
    rwa [swapIdx_swapIdx] at this
  · intro h r hr
    exact h (swapIdx i p r) (swapIdx_lt hi hp hr)

/-- The first `i` columns are cleared below the diagonal. -/
def Upper (n i : Nat) (m : Nat → Nat → K) : Prop := ∀ k < i, ∀ r, k < r → r < n → m r k = 0

theorem upper_swap {n i p : Nat} {m : Nat → Nat → K} (hi : i < n) (hp : p < n) (hip : i ≤ p)
    (h : Upper n i m) : Upper n i (fun r c => m (swapIdx i p r) c) := by
  intro k hk r hkr hr
  refine h k hk _ ?_ (swapIdx_lt hi hp hr)
  unfold swapIdx
  split_ifs <;> omega

/-- Rows after clearing column `i`. -/
def clearM (m : Nat → Nat → K) (i : Nat) : Nat → Nat → K :=
  fun r c => if i < r ∧ i ≤ c then m r c - m r i / m i i * m i c else m r c

/-- Right-hand sides after clearing column `i`. -/
def clearV (m : Nat → Nat → K) (v : Nat → K) (i : Nat) : Nat → K :=
  fun r => if i < r then v r - m r i / m i i * v i else v r

theorem clear_row {n i : Nat} {m : Nat → Nat → K} (hi : i < n) (hu : Upper n i m) (x : Nat → K)
    (r : Nat) (hr : i < r) :
    ∑ c ∈ range n, clearM m i r c * x c =
      ∑ c ∈ range n, m r c * x c - m r i / m i i * ∑ c ∈ range n, m i c * x c := by
  rw [mul_sum, ← sum_sub_distrib]
  apply sum_congr rfl
  intro c _
  unfold clearM
  by_cases hc : i ≤ c
  · rw [if_pos ⟨hr, hc⟩]; ring
  · rw [if_neg (fun h => hc h.2), hu c (not_le.1 hc) i (not_le.1 hc) hi]; ring

theorem sol_clear {n i : Nat} {m : Nat → Nat → K} {v : Nat → K} (hi : i < n) (hu : Upper n i m)
    (x : Nat → K) : Sol n (clearM m i) (clearV m v i) x ↔ Sol n m v x := by
  have keep : ∀ r, ¬ i < r → ∑ c ∈ range n, clearM m i r c * x c = ∑ c ∈ range n, m r c * x c := by
    intro r hr
    apply sum_congr rfl
    intro c _
    unfold clearM
    rw [if_neg (fun h => hr h.1)]
  constructor
  · intro h
    have hii : ∑ c ∈ range n, m i c * x c = v i := by
      have := h i hi
      rw [keep i (lt_irrefl _)] at this
      rw [this]; unfold clearV; rw [if_neg (lt_irrefl _)]
    intro r hr
    have := h r hr
    unfold clearV at this
    by_cases hir : i < r
    · rw [clear_row hi hu x r hir, if_pos hir, hii] at this
      linear_combination this
    · rw [keep r hir, if_neg hir] at this
      exact this
  · intro h r hr
    unfold clearV
    by_cases hir : i < r
    · rw [clear_row hi hu x r hir, if_pos hir, h r hr, h i hi]
    · rw [keep r hir, if_neg hir]; exact h r hr

theorem upper_clear {n i : Nat} {m : Nat → Nat → K} (hu : Upper n i m)
    (hp : i + 1 < n → m i i ≠ 0) : Upper n (i + 1) (clearM m i) := by
  intro k hk r hkr hr
  unfold clearM
  rcases Nat.lt_or_ge k i with h | h
  · rw [if_neg (by omega)]
    exact hu k h r hkr hr
  · have : k = i := by omega
    subst this
    rw [if_pos ⟨hkr, le_rfl⟩]
    have := hp (by omega)
    field_simp
    ring

theorem elimStep_eq (n i : Nat) (s : (Nat → Nat → K) × (Nat → K)) :
    elimStep n i s =
      if i + 1 < n ∧ s.1 (swapIdx i (findMaxRow s.1 i n) i) i = 0 then none
      else some (clearM (fun r c => s.1 (swapIdx i (findMaxRow s.1 i n) r) c) i,
        clearV (fun r c => s.1 (swapIdx i (findMaxRow s.1 i n) r) c)
          (fun r => s.2 (swapIdx i (findMaxRow s.1 i n) r)) i) := rfl

theorem elimStep_spec {n i : Nat} {s s' : (Nat → Nat → K) × (Nat → K)} (hi : i < n)
    (hu : Upper n i s.1) (h : elimStep n i s = some s') :
    Upper n (i + 1) s'.1 ∧ ∀ x, Sol n s'.1 s'.2 x ↔ Sol n s.1 s.2 x := by
  obtain ⟨b1, b2⟩ := findMaxRow_bounds s.1 hi
  rw [elimStep_eq] at h
  split_ifs at h with c
  cases h
  have hus := upper_swap hi b2 b1 hu
  refine ⟨upper_clear hus (fun h1 h2 => c ⟨h1, h2⟩), ?_⟩
  intro x
  rw [sol_clear hi hus x]
  exact sol_swap hi b2 s.1 s.2 x

theorem elim_spec {n : Nat} (k : Nat) : ∀ {i : Nat} {s s' : (Nat → Nat → K) × (Nat → K)},
    i + k = n → Upper n i s.1 → elim n k i s = some s' →
    Upper n n s'.1 ∧ ∀ x, Sol n s'.1 s'.2 x ↔ Sol n s.1 s.2 x := by
  induction k with
  | zero =>
    intro i s s' hik hu h
    rw [elim] at h
    cases h
    have : i = n := by omega
    subst this
    exact ⟨hu, fun _ => Iff.rfl⟩
  | succ k ih =>
    intro i s s' hik hu h
    rw [elim] at h
    obtain ⟨s1, h1, h2⟩ := Option.bind_eq_some_iff.1 h
    obtain ⟨u1, e1⟩ := elimStep_spec (by omega) hu h1
    obtain ⟨u2, e2⟩ := ih (by omega) u1 h2
    exact ⟨u2, fun x => (e2 x).trans (e1 x)⟩

/-! ### Back substitution -/

theorem backSub_spec {m : Nat → Nat → K} (k : Nat) : ∀ {v x0 x : Nat → K},
    Upper k k m → backSub m k v x0 = some x →
    (∀ j, k ≤ j → x j = x0 j) ∧ Sol k m v x ∧ ∀ y, Sol k m v y → ∀ c < k, y c = x c := by
  induction k with
  | zero =>
    intro v x0 x _ h
    rw [backSub] at h
    cases h
    exact ⟨fun _ _ => rfl, fun r hr => by omega, fun _ _ c hc => by omega⟩
  | succ k ih =>
    intro v x0 x hu h
    rw [backSub] at h
    split_ifs at h with hk
    dsimp only at h
    have hu' : Upper k k m := fun c hc r hcr hr => hu c (by omega) r hcr (by omega)
    obtain ⟨h1, h2, h3⟩ := ih hu' h
    have hxk : x k = v k / m k k := by rw [h1 k le_rfl, if_pos rfl]
    have hrow : ∀ y : Nat → K, ∑ c ∈ range (k + 1), m k c * y c = m k k * y k := by
      intro y
      rw [sum_range_succ, sum_eq_zero, zero_add]
      intro c hc
      rw [hu c (by have := mem_range.1 hc; omega) k (mem_range.1 hc) (by omega), zero_mul]
    refine ⟨?_, ?_, ?_⟩
    · intro j hj
      rw [h1 j (by omega), if_neg (by omega)]
    · intro r hr
      rcases Nat.lt_or_ge r k with hrk | hrk
      · have := h2 r hrk
        dsimp only at this
        rw [if_pos hrk] at this
        rw [sum_range_succ, this, hxk]; ring
      · have : r = k := by omega
        subst this
        rw [hrow, hxk]
        field_simp
    · intro y hy
      have hyk : y k = v k / m k k := by
        have := hy k (by omega)
        rw [hrow] at this
        rw [← this]
        field_simp
      have hy' : Sol k m (fun j => if j < k then v j - m j k * (v k / m k k) else v j) y := by
        intro r hr
        have := hy r (by omega)
        rw [sum_range_succ, hyk] at this
        dsimp only
        rw [if_pos hr]
        linear_combination this
      intro c hc
      rcases Nat.lt_or_ge c k with hck | hck
      · exact h3 y hy' c hck
      · have : c = k := by omega
        subst this
        rw [hyk, hxk]

/-- A solution that is returned solves the system and is the only one. -/
theorem solve_spec {n : Nat} {m : Nat → Nat → K} {v x : Nat → K} (h : solve n m v = some x) :
    Sol n m v x ∧ ∀ y, Sol n m v y → ∀ c < n, y c = x c := by
  rw [solve] at h
  obtain ⟨s, h1, h2⟩ := Option.bind_eq_some_iff.1 h
  obtain ⟨u, e⟩ := elim_spec n (by omega) (fun k hk => by omega) h1
  obtain ⟨-, g2, g3⟩ := backSub_spec n u h2
  exact ⟨(e x).1 g2, fun y hy => g3 y ((e y).2 hy)⟩

end Verif.Vec
