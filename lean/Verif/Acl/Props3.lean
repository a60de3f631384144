import Verif.Acl.Props
import Mathlib.Tactic.Ring
import Mathlib.Tactic.Linarith
import Mathlib.Tactic.FieldSimp

set_option linter.unusedSectionVars false

/-! # Row reduction (C460) -/

namespace Verif.Acl

variable {K : Type} [Field K] [LinearOrder K] [IsStrictOrderedRing K]

/-- A square matrix of size `n`. -/
def Sq (n : Nat) (A : Mat K) : Prop := A.length = n ∧ ∀ r, r < n → (A.getD r []).length = n

theorem getD_set {α : Type} (l : List α) (i r : Nat) (a d : α) (hi : i < l.length) : (l.set i a).getD r d = if r = i then a else l.getD r d := by
  rw [List.getD_eq_getElem?_getD, List.getD_eq_getElem?_getD, List.getElem?_set]
  by_cases h : i = r
  · subst h; simp [hi]
  · simp [h, Ne.symm h, eq_comm]

theorem swap_row (n : Nat) (A : Mat K) (h : Sq n A) (i p r : Nat) (hi : i < n) (hp : p < n) :
    (swapRows A i p).getD r [] = if r = p then A.getD i [] else if r = i then A.getD p [] else A.getD r [] := by
  unfold swapRows
  rw [getD_set _ _ _ _ _ (by rw [List.length_set, h.1]; exact hp), getD_set _ _ _ _ _ (by rw [h.1]; exact hi)]

theorem swap_sq (n : Nat) (A : Mat K) (h : Sq n A) (i p : Nat) (hi : i < n) (hp : p < n) : Sq n (swapRows A i p) := by
  refine ⟨by simp [swapRows, h.1], fun r hr => ?_⟩
  rw [swap_row n A h i p r hi hp]
  split_ifs
  · exact h.2 i hi
  · exact h.2 p hp
  · exact h.2 r hr

theorem reg_row (n : Nat) (A : Mat K) (h : Sq n A) (i r : Nat) (hi : i < n) (reg : K) :
    (A.set i ((A.getD i []).set i reg)).getD r [] = if r = i then (A.getD i []).set i reg else A.getD r [] :=
  getD_set _ _ _ _ _ (by rw [h.1]; exact hi)

theorem reg_sq (n : Nat) (A : Mat K) (h : Sq n A) (i : Nat) (hi : i < n) (reg : K) : Sq n (A.set i ((A.getD i []).set i reg)) := by
  refine ⟨by simp [h.1], fun r hr => ?_⟩
  rw [reg_row n A h i r hi reg]
  split_ifs
  · rw [List.length_set]; exact h.2 i hi
  · exact h.2 r hr

theorem reg_ent (n : Nat) (A : Mat K) (h : Sq n A) (i r c : Nat) (hi : i < n) (reg : K) :
    ent (A.set i ((A.getD i []).set i reg)) r c = if r = i ∧ c = i then reg else ent A r c := by
  unfold ent
  rw [reg_row n A h i r hi reg]
  by_cases hr : r = i
  · subst hr
    rw [if_pos rfl, getD_set _ _ _ _ _ (by rw [h.2 r hi]; exact hi)]
    simp
  · rw [if_neg hr, if_neg fun h => hr h.1]

theorem getD_mapIdx {α β : Type} (l : List α) (f : Nat → α → β) (r : Nat) (d : α) (e : β) (hr : r < l.length) : (l.mapIdx f).getD r e = f r (l.getD r d) := by
  rw [List.getD_eq_getElem?_getD, List.getD_eq_getElem?_getD, List.getElem?_mapIdx, List.getElem?_eq_getElem hr]
  rfl

theorem elim_row (n : Nat) (A : Mat K) (h : Sq n A) (i r : Nat) (hr : r < n) : (elim A i).getD r [] = if i < r then
    (A.getD r []).mapIdx (fun c a => if i ≤ c then a - (A.getD r []).getD i 0 / ent A i i * ent A i c else a) else A.getD r [] := by
  unfold elim
  rw [getD_mapIdx _ _ _ [] _ (by rw [h.1]; exact hr)]

theorem elim_sq (n : Nat) (A : Mat K) (h : Sq n A) (i : Nat) : Sq n (elim A i) := by
  refine ⟨by simp [elim, h.1], fun r hr => ?_⟩
  rw [elim_row n A h i r hr]
  split_ifs
  · rw [List.length_mapIdx]; exact h.2 r hr
  · exact h.2 r hr

theorem elim_ent (n : Nat) (A : Mat K) (h : Sq n A) (i r c : Nat) (hr : r < n) (hc : c < n) :
    ent (elim A i) r c = if i < r ∧ i ≤ c then ent A r c - ent A r i / ent A i i * ent A i c else ent A r c := by
  rw [ent, elim_row n A h i r hr]
  by_cases h1 : i < r
  · rw [if_pos h1, getD_mapIdx _ _ _ 0 _ (by rw [h.2 r hr]; exact hc)]
    simp only [h1, true_and]
    rfl
  · rw [if_neg h1, if_neg fun h => h1 h.1]
    rfl

theorem pivot_spec (A : Mat K) (i : Nat) : ∀ (k r best : Nat),
    (pivotRow A i k r best = best ∨ (r ≤ pivotRow A i k r best ∧ pivotRow A i k r best < r + k)) ∧
    |ent A best i| ≤ |ent A (pivotRow A i k r best) i| ∧ ∀ s, r ≤ s → s < r + k → |ent A s i| ≤ |ent A (pivotRow A i k r best) i|
  | 0, r, best => ⟨Or.inl rfl, le_rfl, fun s h1 h2 => by omega⟩
  | k + 1, r, best => by
    rw [pivotRow]
    obtain ⟨a, b, c⟩ := pivot_spec A i k (r + 1) (if |ent A r i| > |ent A best i| then r else best)
    generalize pivotRow A i k (r + 1) (if |ent A r i| > |ent A best i| then r else best) = p at *
    split_ifs at a b with h
    · refine ⟨Or.inr ?_, h.le.trans b, fun s h1 h2 => ?_⟩
      · rcases a with a | a <;> omega
      · rcases Nat.eq_or_lt_of_le h1 with rfl | h1
        · exact b
        · exact c s h1 (by omega)
    · refine ⟨?_, b, fun s h1 h2 => ?_⟩
      · rcases a with a | a
        · exact Or.inl a
        · exact Or.inr (by omega)
      · rcases Nat.eq_or_lt_of_le h1 with rfl | h1
        · exact (not_lt.1 h).trans b
        · exact c s h1 (by omega)

/-- The columns before `i` are zero below the diagonal. -/
def Tri (n i : Nat) (A : Mat K) : Prop := ∀ r c, c < i → c < r → r < n → ent A r c = 0

theorem step_spec (small reg : K) (hs : 0 < small) (hg : reg ≠ 0) (n : Nat) (A : Mat K) (h : Sq n A) (i : Nat) (hi : i < n) (ht : Tri n i A) :
    Sq n (reduceStep small reg n A i) ∧ Tri n (i + 1) (reduceStep small reg n A i) ∧
      ∀ r, i ≤ r → r < n → small ≤ |ent A r i| → |ent A r i| ≤ |ent (reduceStep small reg n A i) i i| := by
  obtain ⟨pa, pb, pc⟩ := pivot_spec A i (n - (i + 1)) (i + 1) i
  unfold reduceStep
  dsimp only
  generalize pivotRow A i (n - (i + 1)) (i + 1) i = p at *
  have hp : i ≤ p ∧ p < n := by rcases pa with a | a <;> omega
  have big : ∀ r, i ≤ r → r < n → |ent A r i| ≤ |ent A p i| := fun r h1 h2 => by
    rcases Nat.eq_or_lt_of_le h1 with rfl | h1
    · exact pb
    · exact pc r h1 (by omega)
  obtain ⟨B, hB⟩ : ∃ B, B = if p ≠ i then swapRows A i p else A := ⟨_, rfl⟩
  have sB : Sq n B := by
    rw [hB]; split_ifs
    · exact swap_sq n A h i p hi hp.2
    · exact h
  have eB : ∀ r c, ent B r c = if r = p then ent A i c else if r = i then ent A p c else ent A r c := by
    intro r c
    rw [hB]
    by_cases hpi : p = i
    · subst hpi
      simp only [ne_eq, not_true_eq_false, if_false]
      split_ifs with h1
      · rw [h1]
      · rfl
    · rw [if_pos hpi, ent, swap_row n A h i p r hi hp.2]
      split_ifs <;> rfl
  rw [← hB]
  have tB : Tri n i B := by
    intro r c h1 h2 h3
    rw [eB]
    split_ifs with a b
    · exact ht i c h1 h1 hi
    · exact ht p c h1 (by omega) hp.2
    · exact ht r c h1 h2 h3
  have dB : ent B i i = ent A p i := by
    rw [eB]
    by_cases hpi : i = p
    · rw [if_pos hpi, ← hpi]
    · rw [if_neg hpi, if_pos rfl]
  obtain ⟨C, hC⟩ : ∃ C, C = if |ent B i i| < small then B.set i ((B.getD i []).set i reg) else B := ⟨_, rfl⟩
  have sC : Sq n C := by
    rw [hC]; split_ifs
    · exact reg_sq n B sB i hi reg
    · exact sB
  have eC : ∀ r c, ¬ (r = i ∧ c = i) → ent C r c = ent B r c := by
    intro r c hn
    rw [hC]; split_ifs
    · rw [reg_ent n B sB i r c hi reg, if_neg hn]
    · rfl
  have dC : ent C i i ≠ 0 ∧ (small ≤ |ent B i i| → ent C i i = ent B i i) := by
    rw [hC]
    split_ifs with hlt
    · rw [reg_ent n B sB i i i hi reg, if_pos ⟨rfl, rfl⟩]
      exact ⟨hg, fun h => absurd hlt (not_lt.2 h)⟩
    · refine ⟨fun h0 => ?_, fun _ => rfl⟩
      rw [h0, abs_zero] at hlt
      exact hlt hs
  rw [← hC]
  refine ⟨elim_sq n C sC i, fun r c h1 h2 h3 => ?_, fun r h1 h2 h3 => ?_⟩
  · rw [elim_ent n C sC i r c h3 (by omega)]
    rcases Nat.eq_or_lt_of_le (Nat.le_of_lt_succ h1) with rfl | hlt
    · rw [if_pos ⟨h2, le_rfl⟩, div_mul_cancel₀ _ dC.1, sub_self]
    · rw [if_neg fun hh => absurd hh.2 (not_le.2 hlt), eC r c (by omega)]
      exact tB r c hlt h2 h3
  · have hb := big r h1 h2
    rw [elim_ent n C sC i i i hi hi, if_neg fun hh => absurd hh.1 (lt_irrefl _), dC.2 (by rw [dB]; exact h3.trans hb), dB]
    exact hb

/-- **C460, the pivot**: after a step the entry of the diagonal is, in absolute value, at least every entry of its column from the diagonal down that is not too
small. -/
theorem C460_largest (small reg : K) (hs : 0 < small) (hg : reg ≠ 0) (n : Nat) (A : Mat K) (h : Sq n A) (i : Nat) (hi : i < n) (ht : Tri n i A) (r : Nat)
    (h1 : i ≤ r) (h2 : r < n) (h3 : small ≤ |ent A r i|) : |ent A r i| ≤ |ent (reduceStep small reg n A i) i i| :=
  (step_spec small reg hs hg n A h i hi ht).2.2 r h1 h2 h3

/-- **C460, triangular form**: for every square matrix, singular or not, `row_reduce` gives a square matrix of the same size with zeros below the diagonal. -/
theorem C460_triangular (small reg : K) (hs : 0 < small) (hg : reg ≠ 0) (n : Nat) (A : Mat K) (h : Sq n A) :
    Sq n (rowReduce small reg A) ∧ ∀ r c, c < r → r < n → ent (rowReduce small reg A) r c = 0 := by
  have key : ∀ k, k ≤ n → Sq n ((List.range k).foldl (reduceStep small reg n) A) ∧ Tri n k ((List.range k).foldl (reduceStep small reg n) A) := by
    intro k
    induction k with
    | zero => exact fun _ => ⟨h, fun r c h1 => absurd h1 (Nat.not_lt_zero _)⟩
    | succ k ih =>
      intro hk
      obtain ⟨a, b⟩ := ih (by omega)
      rw [List.range_succ, List.foldl_append]
      obtain ⟨c, d, _⟩ := step_spec small reg hs hg n _ a k (by omega) b
      exact ⟨c, d⟩
  obtain ⟨a, b⟩ := key n le_rfl
  unfold rowReduce
  rw [h.1]
  exact ⟨a, fun r c h1 h2 => b r c (by omega) h1 h2⟩

/-- **C460, the reduced system, partial.** After `row_reduce` with pivots not too small, `back_solve` gives the solution of the system with the reduced matrix.
Missing: the system with the original matrix, refuted in `C460_solve_refuted`. -/
theorem C460_reduced_system_partial (small reg : K) (hs : 0 < small) (hg : reg ≠ 0) (A : Mat K) (b : List K) (h : Sq b.length A)
    (hp : ∀ i, i < b.length → small ≤ |ent (rowReduce small reg A) i i|) (r : Nat) (hr : r < b.length) :
    ∑ j ∈ Finset.range b.length, ent (rowReduce small reg A) r j * (backSolve small (rowReduce small reg A) b).getD j 0 = b.getD r 0 := by
  obtain ⟨hq, ht⟩ := C460_triangular small reg hs hg b.length A h
  refine (C460_back_partial small hs _ b hp).2 (fun i j hij => ?_) r hr
  by_cases hi : i < b.length
  · exact ht i j hij hi
  · unfold ent
    rw [List.getD_eq_getElem?_getD (l := rowReduce small reg A), List.getElem?_eq_none (by rw [hq.1]; omega)]
    rfl

/-- A case: the rows are exchanged, and the pivot is the larger entry. -/
example : Sq 2 ([[1, 2], [4, 2]] : Mat ℚ) ∧ rowReduce (1 / 1000) (1 / 100) ([[1, 2], [4, 2]] : Mat ℚ) = [[4, 2], [0, 3 / 2]] := by
  refine ⟨⟨rfl, ?_⟩, by decide +kernel⟩
  intro r hr
  have : r = 0 ∨ r = 1 := by omega
  rcases this with rfl | rfl <;> rfl

end Verif.Acl
