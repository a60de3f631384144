import Verif.Lu.Model
import Mathlib.Algebra.BigOperators.Intervals
import Mathlib.Tactic.Ring
import Mathlib.Tactic.FieldSimp
import Mathlib.Tactic.LinearCombination
import Mathlib.Tactic.SplitIfs
import Mathlib.Algebra.Order.Field.Basic
import Mathlib.Algebra.Order.BigOperators.Group.Finset

/-!
# The loops of the LU decomposition
-/

set_option linter.unusedSectionVars false

namespace Verif.Lu
variable {F : Type} [Field F] [LinearOrder F] [IsStrictOrderedRing F]
open Finset

/-- Pivot search: the largest absolute value of the column from row `i` on. -/
theorem pivot_spec (A : Mat F) (i : Nat) (c : Nat) :
    let s := (List.range' i c).foldl (fun (s : F × Nat) k => if s.1 < |A k i| then (|A k i|, k) else s) (0, i)
    (∀ k, i ≤ k → k < i + c → |A k i| ≤ s.1) ∧ ((s.1 = 0 ∧ s.2 = i) ∨ (s.1 = |A s.2 i| ∧ i ≤ s.2 ∧ s.2 < i + c)) ∧ 0 ≤ s.1 := by
  induction c with
  | zero => exact ⟨fun k h1 h2 => by omega, Or.inl ⟨rfl, rfl⟩, le_refl _⟩
  | succ c ih =>
    intro s
    have hs : s = (fun (s : F × Nat) k => if s.1 < |A k i| then (|A k i|, k) else s)
        ((List.range' i c).foldl (fun (s : F × Nat) k => if s.1 < |A k i| then (|A k i|, k) else s) (0, i)) (i + c) := by
      show List.foldl _ _ _ = _
      rw [List.range'_1_concat, List.foldl_append]; rfl
    obtain ⟨h1, h2, h3⟩ := ih
    generalize ((List.range' i c).foldl (fun (s : F × Nat) k => if s.1 < |A k i| then (|A k i|, k) else s) (0, i)) = p at h1 h2 h3 hs
    dsimp only at hs
    by_cases hc : p.1 < |A (i + c) i|
    · rw [if_pos hc] at hs
      rw [hs]
      refine ⟨fun k a b => ?_, Or.inr ⟨rfl, by dsimp only; omega, by dsimp only; omega⟩, abs_nonneg _⟩
      by_cases hk : k = i + c
      · rw [hk]
      · exact le_trans (h1 k a (by omega)) (le_of_lt hc)
    · rw [if_neg hc] at hs
      rw [hs]
      refine ⟨fun k a b => ?_, ?_, h3⟩
      · by_cases hk : k = i + c
        · rw [hk]; exact not_lt.1 hc
        · exact h1 k a (by omega)
      · rcases h2 with h | ⟨a, b, d⟩
        · exact Or.inl h
        · exact Or.inr ⟨a, b, by omega⟩

theorem swapRows_spec (A : Mat F) (i m : Nat) (hm : m ≠ i) (c : Nat) :
    ∀ r k, (List.range c).foldl (fun (B : Mat F) k => put (put B i k (B m k)) m k (B i k)) A r k =
      if k < c then (if r = i then A m k else if r = m then A i k else A r k) else A r k := by
  induction c with
  | zero => intro r k; simp
  | succ c ih =>
    intro r k
    rw [List.range_succ, List.foldl_append, List.foldl_cons, List.foldl_nil]
    generalize List.foldl (fun (B : Mat F) k => put (put B i k (B m k)) m k (B i k)) A (List.range c) = B at ih
    unfold put
    have e1 := ih i c
    have e2 := ih m c
    rw [if_neg (by omega)] at e1 e2
    by_cases hk : k = c
    · subst hk
      rw [if_pos (by omega : k < k + 1)]
      by_cases h1 : r = m
      · subst h1; rw [if_pos ⟨rfl, rfl⟩, e1, if_neg hm, if_pos rfl]
      · rw [if_neg (fun h => h1 h.1)]
        by_cases h2 : r = i
        · subst h2; rw [if_pos ⟨rfl, rfl⟩, e2, if_pos rfl]
        · rw [if_neg (fun h => h2 h.1), ih, if_neg (by omega), if_neg h2, if_neg h1]
    · rw [if_neg (fun h => hk h.2), if_neg (fun h => hk h.2), ih]
      split_ifs <;> first | rfl | omega

theorem elimInner_spec (A : Mat F) (i j : Nat) (hj : i < j) (q : F) (c : Nat) :
    ∀ r k, (List.range' (i + 1) c).foldl (fun (B : Mat F) k => put B j k (B j k - B j i * B i k)) (put A j i q) r k =
      if r = j ∧ k = i then q else if r = j ∧ i < k ∧ k < i + 1 + c then A j k - q * A i k else A r k := by
  induction c with
  | zero =>
    intro r k; simp only [List.range'_zero, List.foldl_nil, put]
    split_ifs <;> first | rfl | omega
  | succ c ih =>
    intro r k
    rw [List.range'_1_concat, List.foldl_append, List.foldl_cons, List.foldl_nil]
    generalize List.foldl (fun (B : Mat F) k => put B j k (B j k - B j i * B i k)) (put A j i q) (List.range' (i + 1) c) = B at ih
    unfold put
    by_cases h : r = j ∧ k = i + 1 + c
    · rw [if_pos h, ih, ih, ih]
      obtain ⟨rfl, rfl⟩ := h
      split_ifs <;> first | rfl | omega
    · rw [if_neg h, ih]
      split_ifs <;> first | rfl | omega

theorem elimRow_spec (n i : Nat) (A : Mat F) (j : Nat) (hj : i < j) (hjn : j < n) (hp : A i i ≠ 0) :
    ∃ B, elimRow n i A j = some B ∧ ∀ r k, B r k =
      if r = j ∧ k = i then A j i / A i i else if r = j ∧ i < k ∧ k < n then A j k - A j i / A i i * A i k else A r k := by
  refine ⟨_, by unfold elimRow divO; rw [if_neg hp], ?_⟩
  intro r k
  rw [elimInner_spec A i j hj]
  have : i + 1 + (n - (i + 1)) = n := by omega
  rw [this]

theorem elim_spec (n i : Nat) (A : Mat F) (hp : A i i ≠ 0) (c : Nat) (hc : i + 1 + c ≤ n) :
    ∃ B, (List.range' (i + 1) c).foldlM (elimRow n i) A = some B ∧ ∀ r k, B r k =
      if i < r ∧ r < i + 1 + c ∧ k = i then A r i / A i i
      else if i < r ∧ r < i + 1 + c ∧ i < k ∧ k < n then A r k - A r i / A i i * A i k else A r k := by
  induction c with
  | zero =>
    refine ⟨A, rfl, fun r k => ?_⟩
    rw [if_neg (by omega), if_neg (by omega)]
  | succ c ih =>
    obtain ⟨B, e, hB⟩ := ih (by omega)
    have hBi : B i i = A i i := by rw [hB, if_neg (by omega), if_neg (by omega)]
    obtain ⟨B', e', hB'⟩ := elimRow_spec n i B (i + 1 + c) (by omega) (by omega) (by rw [hBi]; exact hp)
    refine ⟨B', ?_, ?_⟩
    · rw [List.range'_1_concat, List.foldlM_append, e]
      show (List.foldlM (elimRow n i) B [i + 1 + c] : Option (Mat F)) = _
      simp only [List.foldlM_cons, List.foldlM_nil, e']; rfl
    · intro r k
      have hrow : ∀ k, B (i + 1 + c) k = A (i + 1 + c) k := fun k => by rw [hB, if_neg (by omega), if_neg (by omega)]
      have hrowi : ∀ k, B i k = A i k := fun k => by rw [hB, if_neg (by omega), if_neg (by omega)]
      rw [hB', hrow, hrowi, hrow, hrowi]
      by_cases hr : r = i + 1 + c
      · subst hr
        split_ifs <;> first | rfl | omega | exact hrow k
      · rw [if_neg (fun h => hr h.1), if_neg (fun h => hr h.1), hB]
        split_ifs <;> first | rfl | omega

/-- The elimination fails when the pivot is zero and there is a row below. -/
theorem elim_zero (n i : Nat) (A : Mat F) (hp : A i i = 0) (c : Nat) (hc : 0 < c) :
    (List.range' (i + 1) c).foldlM (elimRow n i) A = none := by
  obtain ⟨c, rfl⟩ := Nat.exists_eq_succ_of_ne_zero (by omega : c ≠ 0)
  rw [Nat.succ_eq_add_one, List.range'_succ, List.foldlM_cons]
  have : elimRow n i A (i + 1) = none := by unfold elimRow divO; rw [if_pos hp]
  rw [this]; rfl

/-- The sum of the forward substitution. -/
theorem fwdInner_spec (A : Mat F) (i : Nat) (y : Nat → F) (v : F) (c : Nat) (hc : c ≤ i) :
    ∀ k, (List.range c).foldl (fun (y : Nat → F) j => putV y i (y i - A i j * y j)) (putV y i v) k =
      if k = i then v - ∑ j ∈ range c, A i j * y j else y k := by
  induction c with
  | zero => intro k; simp [putV]
  | succ c ih =>
    intro k
    rw [List.range_succ, List.foldl_append, List.foldl_cons, List.foldl_nil, putV, ih (by omega), ih (by omega), ih (by omega),
      if_pos rfl, if_neg (by omega : ¬ c = i), sum_range_succ]
    by_cases h : k = i
    · rw [if_pos h, if_pos h]; ring
    · rw [if_neg h, if_neg h, if_neg h]

theorem forward_spec (A : Mat F) (P : Nat → Nat) (b y0 : Nat → F) (n : Nat) :
    ∀ r, r < n → forward n A P b y0 r + ∑ t ∈ range r, A r t * forward n A P b y0 t = b (P r) := by
  have key : ∀ n, (∀ r, r < n → forward n A P b y0 r + ∑ t ∈ range r, A r t * forward n A P b y0 t = b (P r)) := by
    intro n
    induction n with
    | zero => intro r h; omega
    | succ n ih =>
      have e : ∀ k, forward (n + 1) A P b y0 k = if k = n then b (P n) - ∑ j ∈ range n, A n j * forward n A P b y0 j
          else forward n A P b y0 k := by
        intro k
        unfold forward
        rw [List.range_succ, List.foldl_append, List.foldl_cons, List.foldl_nil]
        exact fwdInner_spec A n _ _ n (le_refl _) k
      intro r hr
      have es : ∀ m, m ≤ n → ∑ t ∈ range m, A r t * forward (n + 1) A P b y0 t = ∑ t ∈ range m, A r t * forward n A P b y0 t := by
        intro m hm
        refine sum_congr rfl fun t ht => ?_
        have := mem_range.1 ht
        rw [e, if_neg (by omega)]
      by_cases h : r = n
      · subst h
        rw [es r (le_refl _), e, if_pos rfl]; ring
      · rw [es r (by omega), e, if_neg h]; exact ih r (by omega)
  exact key n

theorem backInner_spec (A : Mat F) (i : Nat) (x : Nat → F) (v : F) (c : Nat) :
    ∀ k, (List.range' (i + 1) c).foldl (fun (x : Nat → F) j => putV x i (x i - A i j * x j)) (putV x i v) k =
      if k = i then v - ∑ j ∈ Ico (i + 1) (i + 1 + c), A i j * x j else x k := by
  induction c with
  | zero => intro k; simp [putV]
  | succ c ih =>
    intro k
    rw [List.range'_1_concat, List.foldl_append, List.foldl_cons, List.foldl_nil, putV, ih, ih, ih,
      if_pos rfl, if_neg (by omega : ¬ i + 1 + c = i), ← Nat.add_assoc (i + 1) c 1, sum_Ico_succ_top (by omega)]
    by_cases h : k = i
    · rw [if_pos h, if_pos h]; ring
    · rw [if_neg h, if_neg h, if_neg h]

theorem backRow_spec (n : Nat) (A : Mat F) (y x : Nat → F) (i : Nat) (hi : i < n) (hp : A i i ≠ 0) :
    ∃ x', backRow n A y x i = some x' ∧ ∀ k, x' k = if k = i then (y i - ∑ j ∈ Ico (i + 1) n, A i j * x j) / A i i else x k := by
  unfold backRow divO
  dsimp only
  rw [if_neg hp]
  refine ⟨_, rfl, fun k => ?_⟩
  unfold putV
  have e := backInner_spec A i x (y i) (n - (i + 1))
  unfold putV at e
  rw [e, e, if_pos rfl, show i + 1 + (n - (i + 1)) = n by omega]
  by_cases h : k = i
  · rw [if_pos h, if_pos h]
  · rw [if_neg h, if_neg h, if_neg h]

theorem backward_aux (n : Nat) (A : Mat F) (y : Nat → F) (hp : ∀ i, i < n → A i i ≠ 0) (m : Nat) (hm : m ≤ n) :
    ∀ x, (∀ r, m ≤ r → r < n → ∑ c ∈ Ico r n, A r c * x c = y r) →
    ∃ x', (List.range m).reverse.foldlM (backRow n A y) x = some x' ∧
      ∀ r, r < n → ∑ c ∈ Ico r n, A r c * x' c = y r := by
  induction m with
  | zero => intro x h; exact ⟨x, rfl, fun r hr => h r (by omega) hr⟩
  | succ m ih =>
    intro x h
    obtain ⟨x1, e, hx⟩ := backRow_spec n A y x m (by omega) (hp m (by omega))
    obtain ⟨x', e', h'⟩ := ih (by omega) x1 (by
      intro r hr hrn
      by_cases hrm : r = m
      · subst hrm
        rw [sum_eq_sum_Ico_succ_bot hrn, hx, if_pos rfl]
        have es : ∑ k ∈ Ico (r + 1) n, A r k * x1 k = ∑ k ∈ Ico (r + 1) n, A r k * x k := by
          refine sum_congr rfl fun t ht => ?_
          have := mem_Ico.1 ht
          rw [hx, if_neg (by omega)]
        rw [es]
        have := hp r hrn
        field_simp
        ring
      · rw [← h r (by omega) hrn]
        refine sum_congr rfl fun t ht => ?_
        have := mem_Ico.1 ht
        rw [hx, if_neg (by omega)])
    refine ⟨x', ?_, h'⟩
    rw [List.range_succ, List.reverse_append, List.reverse_singleton, List.singleton_append, List.foldlM_cons, e]
    exact e'

theorem backward_spec (n : Nat) (A : Mat F) (y x : Nat → F) (hp : ∀ i, i < n → A i i ≠ 0) :
    ∃ x', backward n A y x = some x' ∧ ∀ r, r < n → ∑ c ∈ Ico r n, A r c * x' c = y r :=
  backward_aux n A y hp n (le_refl _) x (fun r h1 h2 => by omega)

/-- A zero on the diagonal makes the backward substitution fail. -/
theorem backward_zero (n : Nat) (A : Mat F) (y : Nat → F) (i : Nat) (hi : i < n) (hp : A i i = 0) (m : Nat) (hm : i < m) :
    ∀ x, (List.range m).reverse.foldlM (backRow n A y) x = none := by
  induction m with
  | zero => omega
  | succ m ih =>
    intro x
    rw [List.range_succ, List.reverse_append, List.reverse_singleton, List.singleton_append, List.foldlM_cons]
    by_cases h : i = m
    · subst h
      have : backRow n A y x i = none := by unfold backRow divO; dsimp only; rw [if_pos hp]
      rw [this]; rfl
    · cases backRow n A y x m with
      | none => rfl
      | some x1 => exact ih (by omega) x1

theorem column_spec (R : Mat F) (i : Nat) (x : Nat → F) (c : Nat) :
    ∀ r k, (List.range c).foldl (fun (R : Mat F) j => put R j i (x j)) R r k = if r < c ∧ k = i then x r else R r k := by
  induction c with
  | zero => intro r k; simp
  | succ c ih =>
    intro r k
    rw [List.range_succ, List.foldl_append, List.foldl_cons, List.foldl_nil, put, ih]
    by_cases h : r = c ∧ k = i
    · obtain ⟨rfl, rfl⟩ := h; rw [if_pos ⟨rfl, rfl⟩, if_pos ⟨by omega, rfl⟩]
    · rw [if_neg h]; split_ifs <;> first | rfl | omega

end Verif.Lu
