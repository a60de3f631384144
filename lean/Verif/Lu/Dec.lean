import Verif.Lu.Loops
import Mathlib.Algebra.BigOperators.Ring.Finset

/-!
# The invariant of the decomposition
-/

set_option linter.unusedSectionVars false

namespace Verif.Lu
variable {F : Type} [Field F] [LinearOrder F] [IsStrictOrderedRing F]
open Finset

/-- The lower factor stored below the diagonal. -/
def lo (A : Mat F) (r t : Nat) : F := if t < r then A r t else if t = r then 1 else 0
/-- The upper factor stored on and above the diagonal. -/
def up (A : Mat F) (t c : Nat) : F := if t ≤ c then A t c else 0

/-- After `i` rounds. -/
structure Dec (n : Nat) (A0 : Mat F) (i : Nat) (A : Mat F) (P : Nat → Nat) : Prop where
  perm : ∀ r, r < n → P r < n
  inj : ∀ r s, r < n → s < n → P r = P s → r = s
  eq : ∀ r c, r < n → c < n → A0 (P r) c = ∑ t ∈ range i, lo A r t * up A t c + if i ≤ r ∧ i ≤ c then A r c else 0
  mult : ∀ r t, t < r → r < n → t < i → |A r t| ≤ 1

/-- The columns are dependent. -/
def Sing (n : Nat) (A0 : Mat F) : Prop := ∃ v : Nat → F, (∃ c, c < n ∧ v c ≠ 0) ∧ ∀ r, r < n → ∑ c ∈ range n, A0 r c * v c = 0

theorem dec_surj {n : Nat} {A0 A : Mat F} {i : Nat} {P : Nat → Nat} (h : Dec n A0 i A P) (r : Nat) (hr : r < n) :
    ∃ s, s < n ∧ P s = r := by
  have hsub : (range n).image P ⊆ range n := by
    intro x hx
    obtain ⟨s, hs, rfl⟩ := mem_image.1 hx
    exact mem_range.2 (h.perm s (mem_range.1 hs))
  have hcard : ((range n).image P).card = n := by
    rw [card_image_of_injOn, card_range]
    intro a ha b hb e
    exact h.inj a b (by simpa using ha) (by simpa using hb) e
  have := eq_of_subset_of_card_le hsub (by rw [hcard, card_range])
  have hm : r ∈ (range n).image P := by rw [this]; exact mem_range.2 hr
  obtain ⟨s, hs, e⟩ := mem_image.1 hm
  exact ⟨s, mem_range.1 hs, e⟩

theorem dec_start (n : Nat) (A0 : Mat F) : Dec n A0 0 A0 (fun k => k) where
  perm := fun r h => h
  inj := fun r s _ _ h => h
  eq := fun r c _ _ => by simp
  mult := fun r t _ _ h => by omega

theorem dec_swap (n : Nat) (A0 : Mat F) (i : Nat) (A : Mat F) (P : Nat → Nat) (h : Dec n A0 i A P) (m : Nat) (hm : m ≠ i)
    (him : i ≤ m) (hmn : m < n) : Dec n A0 i (swapRows n A i m) (swapP P i m) := by
  have hin : i < n := by omega
  have hA : ∀ r k, k < n → swapRows n A i m r k = if r = i then A m k else if r = m then A i k else A r k := by
    intro r k hk; unfold swapRows; rw [swapRows_spec A i m hm n r k, if_pos hk]
  have hupp : ∀ t c, t < i → c < n → up (swapRows n A i m) t c = up A t c := by
    intro t c ht hc
    unfold up
    rw [hA t c hc, if_neg (by omega : ¬ t = i), if_neg (by omega : ¬ t = m)]
  have hlo : ∀ r t, t < i → t < n → lo (swapRows n A i m) r t = lo A (if r = i then m else if r = m then i else r) t := by
    intro r t ht htn
    unfold lo
    rw [hA r t htn]
    split_ifs <;> first | rfl | omega
  refine ⟨?_, ?_, ?_, ?_⟩
  · intro r hr
    unfold swapP
    split_ifs
    · exact h.perm i hin
    · exact h.perm m hmn
    · exact h.perm r hr
  · intro r s hr hs e
    unfold swapP at e
    split_ifs at e with h1 h2 h3 h4 h5 h6 h7 <;>
      first
      | omega
      | (have := h.inj _ _ (by omega) (by omega) e; omega)
  · intro r c hr hc
    have e : ∀ r', r' < n → (r' = if r = i then m else if r = m then i else r) →
        A0 (P r') c = ∑ t ∈ range i, lo (swapRows n A i m) r t * up (swapRows n A i m) t c +
          if i ≤ r ∧ i ≤ c then swapRows n A i m r c else 0 := by
      intro r' hr' e'
      rw [h.eq r' c hr' hc]
      congr 1
      · refine sum_congr rfl fun t ht => ?_
        have ht := mem_range.1 ht
        rw [hupp t c ht hc, hlo r t ht (by omega), ← e']
      · rw [hA r c hc]
        subst e'
        split_ifs <;> first | rfl | omega
    unfold swapP
    by_cases h1 : r = m
    · rw [if_pos h1]
      exact e i hin (by rw [if_neg (by omega), if_pos h1])
    · rw [if_neg h1]
      by_cases h2 : r = i
      · rw [if_pos h2]; exact e m hmn (by rw [if_pos h2])
      · rw [if_neg h2]; exact e r hr (by rw [if_neg h2, if_neg h1])
  · intro r t htr hr hti
    rw [hA r t (by omega)]
    split_ifs
    · exact h.mult m t (by omega) hmn hti
    · exact h.mult i t hti hin hti
    · exact h.mult r t htr hr hti

theorem dec_elim (n : Nat) (A0 : Mat F) (i : Nat) (A B : Mat F) (P : Nat → Nat) (h : Dec n A0 i A P) (hin : i < n)
    (hp : A i i ≠ 0) (hmax : ∀ r, i ≤ r → r < n → |A r i| ≤ |A i i|) (hB : ∀ r k, B r k =
      if i < r ∧ r < n ∧ k = i then A r i / A i i
      else if i < r ∧ r < n ∧ i < k ∧ k < n then A r k - A r i / A i i * A i k else A r k) :
    Dec n A0 (i + 1) B P := by
  refine ⟨h.perm, h.inj, ?_, ?_⟩
  rotate_left
  · intro r t htr hr hti
    rw [hB]
    by_cases hte : t = i
    · rw [if_pos ⟨by omega, hr, hte⟩, abs_div]
      exact div_le_one_of_le₀ (hmax r (by omega) hr) (abs_nonneg _)
    · rw [if_neg (fun h => hte h.2.2), if_neg (by omega)]
      exact h.mult r t htr hr (by omega)
  intro r c hr hc
  rw [h.eq r c hr hc, sum_range_succ, add_assoc]
  congr 1
  · refine sum_congr rfl fun t ht => ?_
    have ht := mem_range.1 ht
    have e1 : lo B r t = lo A r t := by
      unfold lo; rw [hB]; split_ifs <;> first | rfl | omega
    have e2 : up B t c = up A t c := by
      unfold up; rw [hB]; split_ifs <;> first | rfl | omega
    rw [e1, e2]
  · unfold lo up
    rw [hB, hB, hB]
    by_cases hri : r = i
    · rw [hri]
      split_ifs <;> first | omega | ring1
    by_cases hci : c = i
    · subst hci
      split_ifs <;> first | omega | ring1 | (field_simp; done) | (field_simp; ring1)
    · split_ifs <;> first | omega | ring1

/-- A solution of a triangular system with given value in the next unknown. -/
theorem exists_back (A : Mat F) (i : Nat) (hp : ∀ t, t < i → A t t ≠ 0) :
    ∃ v : Nat → F, v i = 1 ∧ (∀ c, i < c → v c = 0) ∧ ∀ t, t < i → ∑ c ∈ Ico t (i + 1), A t c * v c = 0 := by
  obtain ⟨x, _, hx⟩ := backward_spec i A (fun t => - A t i) (fun _ => 0) hp
  refine ⟨fun c => if c < i then x c else if c = i then 1 else 0, by simp, fun c hc => by
    dsimp only; rw [if_neg (by omega), if_neg (by omega)], ?_⟩
  intro t ht
  rw [sum_Ico_succ_top (by omega)]
  have e : ∑ c ∈ Ico t i, A t c * (if c < i then x c else if c = i then 1 else 0) = ∑ c ∈ Ico t i, A t c * x c := by
    refine sum_congr rfl fun c hc => ?_
    rw [if_pos (mem_Ico.1 hc).2]
  rw [e, hx t ht]; dsimp only; rw [if_neg (lt_irrefl _), if_pos rfl]; ring

theorem dec_sing (n : Nat) (A0 : Mat F) (i : Nat) (A : Mat F) (P : Nat → Nat) (h : Dec n A0 i A P) (hin : i < n)
    (hd : ∀ t, t < i → A t t ≠ 0) (hz : ∀ k, i ≤ k → k < n → A k i = 0) : Sing n A0 := by
  obtain ⟨v, v1, v0, hv⟩ := exists_back A i hd
  refine ⟨v, ⟨i, hin, by rw [v1]; exact one_ne_zero⟩, ?_⟩
  intro r0 hr0
  obtain ⟨r, hr, rfl⟩ := dec_surj h r0 hr0
  have e1 : ∑ c ∈ range n, A0 (P r) c * v c =
      ∑ c ∈ range n, ((∑ t ∈ range i, lo A r t * up A t c) * v c + (if i ≤ r ∧ i ≤ c then A r c else 0) * v c) := by
    refine sum_congr rfl fun c hc => ?_
    rw [h.eq r c hr (mem_range.1 hc)]; ring
  rw [e1, sum_add_distrib]
  have e2 : ∑ c ∈ range n, (∑ t ∈ range i, lo A r t * up A t c) * v c = 0 := by
    simp_rw [sum_mul]
    rw [sum_comm]
    refine sum_eq_zero fun t ht => ?_
    have ht := mem_range.1 ht
    have e3 : ∑ c ∈ range n, lo A r t * up A t c * v c = lo A r t * ∑ c ∈ range n, up A t c * v c := by
      rw [mul_sum]; exact sum_congr rfl fun c _ => by ring
    rw [e3]
    have e4 : ∑ c ∈ range n, up A t c * v c = ∑ c ∈ Ico t (i + 1), A t c * v c := by
      rw [range_eq_Ico, ← sum_Ico_consecutive _ (Nat.zero_le t) (by omega : t ≤ n),
        ← sum_Ico_consecutive _ (by omega : t ≤ i + 1) (by omega : i + 1 ≤ n)]
      have z1 : ∑ c ∈ Ico 0 t, up A t c * v c = 0 := sum_eq_zero fun c hc => by
        unfold up; rw [if_neg (by have := (mem_Ico.1 hc).2; omega), zero_mul]
      have z2 : ∑ c ∈ Ico (i + 1) n, up A t c * v c = 0 := sum_eq_zero fun c hc => by
        rw [v0 c (by have := (mem_Ico.1 hc).1; omega), mul_zero]
      rw [z1, z2, zero_add, add_zero]
      refine sum_congr rfl fun c hc => ?_
      unfold up; rw [if_pos (mem_Ico.1 hc).1]
    rw [e4, hv t ht, mul_zero]
  rw [e2, zero_add]
  refine sum_eq_zero fun c hc => ?_
  by_cases h1 : i ≤ r ∧ i ≤ c
  · rw [if_pos h1]
    by_cases h2 : c = i
    · rw [h2, hz r h1.1 hr, zero_mul]
    · rw [v0 c (by omega), mul_zero]
  · rw [if_neg h1, zero_mul]

/-- One round. -/
theorem luStep_spec (n : Nat) (A0 : Mat F) (i : Nat) (A : Mat F) (P : Nat → Nat) (h : Dec n A0 i A P) (hin : i < n)
    (hd : ∀ t, t < i → A t t ≠ 0) :
    (∃ A' P', luStep n (A, P) i = some (A', P') ∧ Dec n A0 (i + 1) A' P' ∧ ∀ t, t < i + 1 → A' t t ≠ 0) ∨
    (Sing n A0 ∧ (luStep n (A, P) i = none ∨ (i + 1 = n ∧ ∃ A' P', luStep n (A, P) i = some (A', P') ∧ A' i i = 0))) := by
  have hpiv := pivot_spec A i (n - i)
  have hni : i + (n - i) = n := by omega
  rw [hni] at hpiv
  have hpe : (List.range' i (n - i)).foldl (fun (s : F × Nat) k => if s.1 < |A k i| then (|A k i|, k) else s) (0, i) =
    pivot n A i := rfl
  rw [hpe] at hpiv
  obtain ⟨p1, p2, p3⟩ := hpiv
  have e0 : luStep n (A, P) i = match (List.range' (i + 1) (n - (i + 1))).foldlM (elimRow n i)
      (if (pivot n A i).2 ≠ i then swapRows n A i (pivot n A i).2 else A) with
    | none => none
    | some B => some (B, if (pivot n A i).2 ≠ i then swapP P i (pivot n A i).2 else P) := rfl
  obtain ⟨m, hm⟩ : ∃ m, (pivot n A i).2 = m := ⟨_, rfl⟩
  obtain ⟨x, hx⟩ : ∃ x, (pivot n A i).1 = x := ⟨_, rfl⟩
  rw [hm] at e0
  rw [hm, hx] at p2
  rw [hx] at p1 p3
  by_cases hx0 : x = 0
  · right
    have hz : ∀ k, i ≤ k → k < n → A k i = 0 := fun k a b => by
      have := p1 k a b
      rw [hx0] at this
      exact abs_nonpos_iff.1 this
    refine ⟨dec_sing n A0 i A P h hin hd hz, ?_⟩
    have hm2 : (if m ≠ i then swapRows n A i m else A) i i = 0 := by
      by_cases hmi : m = i
      · rw [if_neg (by simpa using hmi)]; exact hz i (le_refl _) hin
      · rw [if_pos hmi]
        unfold swapRows
        rw [swapRows_spec A i m hmi n i i, if_pos hin, if_pos rfl]
        rcases p2 with ⟨_, h2⟩ | ⟨_, h2, h3⟩
        · exact absurd h2 hmi
        · exact hz m h2 h3
    by_cases hlast : i + 1 = n
    · right
      refine ⟨hlast, ?_⟩
      have : n - (i + 1) = 0 := by omega
      rw [this, List.range'_zero] at e0
      exact ⟨_, _, e0, hm2⟩
    · left
      rw [e0, elim_zero n i _ hm2 _ (by omega)]
  · left
    have hmr : x = |A m i| ∧ i ≤ m ∧ m < n := by
      rcases p2 with ⟨h1, _⟩ | h2
      · exact absurd h1 hx0
      · exact h2
    obtain ⟨a1, a2, a3⟩ := hmr
    have hne : A m i ≠ 0 := fun e => hx0 (by rw [a1, e, abs_zero])
    have hD : Dec n A0 i (if m ≠ i then swapRows n A i m else A) (if m ≠ i then swapP P i m else P) := by
      by_cases hmi : m = i
      · rw [if_neg (by simpa using hmi), if_neg (by simpa using hmi)]; exact h
      · rw [if_pos hmi, if_pos hmi]; exact dec_swap n A0 i A P h m hmi a2 a3
    have hp : (if m ≠ i then swapRows n A i m else A) i i ≠ 0 := by
      by_cases hmi : m = i
      · rw [if_neg (by simpa using hmi)]; rw [hmi] at hne; exact hne
      · rw [if_pos hmi]; unfold swapRows
        rw [swapRows_spec A i m hmi n i i, if_pos hin, if_pos rfl]; exact hne
    have hdd : ∀ t, t < i → (if m ≠ i then swapRows n A i m else A) t t ≠ 0 := by
      intro t ht
      by_cases hmi : m = i
      · rw [if_neg (by simpa using hmi)]; exact hd t ht
      · rw [if_pos hmi]; unfold swapRows
        rw [swapRows_spec A i m hmi n t t, if_pos (by omega), if_neg (by omega), if_neg (by omega)]; exact hd t ht
    have hmax : ∀ r, i ≤ r → r < n →
        |(if m ≠ i then swapRows n A i m else A) r i| ≤ |(if m ≠ i then swapRows n A i m else A) i i| := by
      intro r h1 h2
      by_cases hmi : m = i
      · rw [if_neg (by simpa using hmi)]
        have := p1 r h1 h2
        rw [a1, hmi] at this; exact this
      · rw [if_pos hmi]; unfold swapRows
        rw [swapRows_spec A i m hmi n r i, swapRows_spec A i m hmi n i i, if_pos hin, if_pos hin, if_pos rfl, ← a1]
        split_ifs
        · exact le_of_eq a1.symm
        · exact p1 i (le_refl _) hin
        · exact p1 r h1 h2
    generalize (if m ≠ i then swapRows n A i m else A) = A1 at e0 hD hp hdd hmax
    generalize (if m ≠ i then swapP P i m else P) = P1 at e0 hD
    obtain ⟨B, e, hB⟩ := elim_spec n i A1 hp (n - (i + 1)) (by omega)
    have hn2 : i + 1 + (n - (i + 1)) = n := by omega
    rw [hn2] at hB
    refine ⟨B, P1, by rw [e0, e], dec_elim n A0 i A1 B P1 hD hin hp hmax hB, ?_⟩
    intro t ht
    rw [hB, if_neg (by omega), if_neg (by omega)]
    by_cases hti : t = i
    · rw [hti]; exact hp
    · exact hdd t (by omega)

/-- The whole decomposition. -/
theorem lu_spec (n : Nat) (A0 : Mat F) :
    (∃ A P, luDecomposition n A0 = some (A, P) ∧ Dec n A0 n A P ∧ ∀ t, t < n → A t t ≠ 0) ∨
    (Sing n A0 ∧ (luDecomposition n A0 = none ∨ ∃ A P, luDecomposition n A0 = some (A, P) ∧ ∃ t, t < n ∧ A t t = 0)) := by
  have key : ∀ i, i ≤ n →
      (∃ A P, (List.range i).foldlM (luStep n) (A0, fun k => k) = some (A, P) ∧ Dec n A0 i A P ∧ ∀ t, t < i → A t t ≠ 0) ∨
      (Sing n A0 ∧ ((List.range i).foldlM (luStep n) (A0, fun k => k) = none ∨
        (i = n ∧ ∃ A P, (List.range i).foldlM (luStep n) (A0, fun k => k) = some (A, P) ∧ ∃ t, t < n ∧ A t t = 0))) := by
    intro i
    induction i with
    | zero => intro _; exact Or.inl ⟨A0, _, rfl, dec_start n A0, fun t h => by omega⟩
    | succ i ih =>
      intro hi
      rw [List.range_succ, List.foldlM_append]
      have one : ∀ s : Mat F × (Nat → Nat), (List.foldlM (luStep n) s [i] : Option (Mat F × (Nat → Nat))) = luStep n s i := by
        intro s
        simp only [List.foldlM_cons, List.foldlM_nil]
        cases luStep n s i <;> rfl
      rcases ih (by omega) with ⟨A, P, e, hD, hd⟩ | ⟨hS, e | ⟨e, _⟩⟩
      · rw [e]
        have hb : ((some (A, P) : Option (Mat F × (Nat → Nat))) >>= fun s => List.foldlM (luStep n) s [i]) = luStep n (A, P) i :=
          one (A, P)
        rw [hb]
        rcases luStep_spec n A0 i A P hD (by omega) hd with h | ⟨h1, h2 | ⟨h2, A', P', h3, h4⟩⟩
        · exact Or.inl h
        · exact Or.inr ⟨h1, Or.inl h2⟩
        · exact Or.inr ⟨h1, Or.inr ⟨h2, A', P', h3, i, by omega, h4⟩⟩
      · rw [e]; exact Or.inr ⟨hS, Or.inl rfl⟩
      · omega
  rcases key n (le_refl _) with h | ⟨h1, h2 | ⟨_, h3⟩⟩
  · exact Or.inl h
  · exact Or.inr ⟨h1, Or.inl h2⟩
  · exact Or.inr ⟨h1, Or.inr h3⟩

/-- The solver: `A0 x = b`. -/
theorem luSolve_spec (n : Nat) (A0 A : Mat F) (P : Nat → Nat) (h : Dec n A0 n A P) (hd : ∀ t, t < n → A t t ≠ 0) (b y0 x0 : Nat → F) :
    ∃ x, luSolve n A P b y0 x0 = some x ∧ ∀ r, r < n → ∑ c ∈ range n, A0 r c * x c = b r := by
  have hf := forward_spec A P b y0 n
  obtain ⟨x, e, hx⟩ := backward_spec n A (forward n A P b y0) x0 hd
  refine ⟨x, e, ?_⟩
  intro r0 hr0
  obtain ⟨r, hr, rfl⟩ := dec_surj h r0 hr0
  have e1 : ∑ c ∈ range n, A0 (P r) c * x c = ∑ c ∈ range n, (∑ t ∈ range n, lo A r t * up A t c) * x c := by
    refine sum_congr rfl fun c hc => ?_
    rw [h.eq r c hr (mem_range.1 hc), if_neg (by omega), add_zero]
  rw [e1]
  simp_rw [sum_mul]
  rw [sum_comm]
  have e2 : ∀ t ∈ range n, ∑ c ∈ range n, lo A r t * up A t c * x c = lo A r t * forward n A P b y0 t := by
    intro t ht
    have ht := mem_range.1 ht
    rw [← hx t ht, mul_sum, range_eq_Ico, ← sum_Ico_consecutive _ (Nat.zero_le t) (le_of_lt ht)]
    have z : ∑ c ∈ Ico 0 t, lo A r t * up A t c * x c = 0 := sum_eq_zero fun c hc => by
      unfold up; rw [if_neg (by have := (mem_Ico.1 hc).2; omega)]; ring
    rw [z, zero_add]
    refine sum_congr rfl fun c hc => ?_
    unfold up; rw [if_pos (mem_Ico.1 hc).1]; ring
  rw [sum_congr rfl e2, ← hf r hr, range_eq_Ico, ← sum_Ico_consecutive _ (Nat.zero_le r) (le_of_lt hr),
    sum_eq_sum_Ico_succ_bot hr]
  have z : ∑ t ∈ Ico (r + 1) n, lo A r t * forward n A P b y0 t = 0 := sum_eq_zero fun t ht => by
    have := (mem_Ico.1 ht).1
    unfold lo; rw [if_neg (by omega), if_neg (by omega), zero_mul]
  have z2 : ∑ t ∈ Ico 0 r, lo A r t * forward n A P b y0 t = ∑ t ∈ range r, A r t * forward n A P b y0 t := by
    rw [range_eq_Ico]
    refine sum_congr rfl fun t ht => ?_
    unfold lo; rw [if_pos (mem_Ico.1 ht).2]
  rw [z, z2]
  unfold lo
  rw [if_neg (lt_irrefl _), if_pos rfl]; ring

theorem invCols_loop (n : Nat) (A0 A : Mat F) (P : Nat → Nat) (h : Dec n A0 n A P) (hd : ∀ t, t < n → A t t ≠ 0) (y0 x0 : Nat → F)
    (R : Mat F) (m : Nat) :
    ∃ X x, (List.range m).foldlM (invCols n A P y0) (R, x0) = some (X, x) ∧
      ∀ r k, r < n → k < m → ∑ c ∈ range n, A0 r c * X c k = if k = r then 1 else 0 := by
  induction m with
  | zero => exact ⟨R, x0, rfl, fun r k _ hk => by omega⟩
  | succ m ih =>
    obtain ⟨X, x, e, hX⟩ := ih
    obtain ⟨x', e', hx'⟩ := luSolve_spec n A0 A P h hd (fun j => if m = j then 1 else 0) y0 x
    refine ⟨(List.range n).foldl (fun R j => put R j m (x' j)) X, x', ?_, ?_⟩
    · rw [List.range_succ, List.foldlM_append, e]
      show (List.foldlM (invCols n A P y0) (X, x) [m] : Option (Mat F × (Nat → F))) = _
      simp only [List.foldlM_cons, List.foldlM_nil]
      have : invCols n A P y0 (X, x) m = some ((List.range n).foldl (fun R j => put R j m (x' j)) X, x') := by
        unfold invCols; rw [e']
      rw [this]; rfl
    · intro r k hr hk
      by_cases hkm : k = m
      · subst hkm
        rw [← hx' r hr]
        refine sum_congr rfl fun c hc => ?_
        rw [column_spec, if_pos ⟨mem_range.1 hc, rfl⟩]
      · rw [← hX r k hr (by omega)]
        refine sum_congr rfl fun c hc => ?_
        rw [column_spec, if_neg (fun h => hkm h.2)]

theorem invertMatrix_ok (n : Nat) (A0 R : Mat F) (y0 x0 : Nat → F)
    (h : ∃ A P, luDecomposition n A0 = some (A, P) ∧ Dec n A0 n A P ∧ ∀ t, t < n → A t t ≠ 0) :
    ∃ A P X, luDecomposition n A0 = some (A, P) ∧ invertMatrix n A0 R y0 x0 = some (A, X) ∧ Dec n A0 n A P ∧
      ∀ r k, r < n → k < n → ∑ c ∈ range n, A0 r c * X c k = if k = r then 1 else 0 := by
  obtain ⟨A, P, e, hD, hd⟩ := h
  obtain ⟨X, x, e', hX⟩ := invCols_loop n A0 A P hD hd y0 x0 R n
  exact ⟨A, P, X, e, by unfold invertMatrix; rw [e]; dsimp only; rw [e'], hD, fun r k hr hk => hX r k hr hk⟩

theorem invertMatrix_fail (n : Nat) (A0 R : Mat F) (y0 x0 : Nat → F)
    (h : luDecomposition n A0 = none ∨ ∃ A P, luDecomposition n A0 = some (A, P) ∧ ∃ t, t < n ∧ A t t = 0) :
    invertMatrix n A0 R y0 x0 = none := by
  unfold invertMatrix
  rcases h with h | ⟨A, P, h, t, ht, hz⟩
  · rw [h]
  · rw [h]
    dsimp only
    have : (List.range n).foldlM (invCols n A P y0) (R, x0) = none := by
      obtain ⟨n', rfl⟩ := Nat.exists_eq_succ_of_ne_zero (by omega : n ≠ 0)
      rw [Nat.succ_eq_add_one, List.range_succ_eq_map, List.foldlM_cons]
      have : invCols (n' + 1) A P y0 (R, x0) 0 = none := by
        unfold invCols luSolve backward
        rw [backward_zero (n' + 1) A _ t ht hz (n' + 1) ht]
      rw [this]; rfl
    rw [this]

end Verif.Lu
