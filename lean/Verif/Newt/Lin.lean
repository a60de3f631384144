import Verif.Newt.Model
import Verif.Lu.Props
import Mathlib.Tactic.FieldSimp
import Mathlib.Tactic.LinearCombination

/-!
# The linear algebra of `cnewton.pyx`
-/

set_option linter.unusedSectionVars false

namespace Verif.Newt
open Verif.Lu Finset
variable {F : Type} [Field F] [LinearOrder F] [IsStrictOrderedRing F]

theorem foldl_sub_range (g : Nat → F) (a : F) (c : Nat) : (List.range c).foldl (fun s j => s - g j) a = a - ∑ j ∈ range c, g j := by
  induction c with
  | zero => simp
  | succ c ih => rw [List.range_succ, List.foldl_append, ih, List.foldl_cons, List.foldl_nil, sum_range_succ]; ring

theorem foldl_sub_range' (g : Nat → F) (a : F) (i c : Nat) :
    (List.range' i c).foldl (fun s j => s - g j) a = a - ∑ j ∈ Ico i (i + c), g j := by
  induction c with
  | zero => simp
  | succ c ih =>
    rw [List.range'_1_concat, List.foldl_append, ih, List.foldl_cons, List.foldl_nil, ← Nat.add_assoc, sum_Ico_succ_top (by omega)]; ring

/-! ## One round -/

theorem pivotOf_eq (n : Nat) (A : Mat F) (k : Nat) (hk : k < n) : pivotOf n A k = pivot n A k := by
  unfold pivotOf pivot
  have e : n - k = (n - (k + 1)) + 1 := by omega
  rw [e, List.range'_succ, List.foldl_cons]
  by_cases h : (0 : F) < |A k k|
  · rw [if_pos h]
  · rw [if_neg h]
    have : |A k k| = 0 := le_antisymm (not_lt.1 h) (abs_nonneg _)
    rw [this]

theorem pivotOf_spec (n : Nat) (A : Mat F) (k : Nat) (hk : k < n) :
    (∀ r, k ≤ r → r < n → |A r k| ≤ (pivotOf n A k).1) ∧
    (pivotOf n A k).1 = |A (pivotOf n A k).2 k| ∧ k ≤ (pivotOf n A k).2 ∧ (pivotOf n A k).2 < n := by
  rw [pivotOf_eq n A k hk]
  obtain ⟨h1, h2, h3⟩ := pivot_spec A k (n - k)
  have hn : k + (n - k) = n := by omega
  rw [hn] at h1 h2
  change (∀ r, k ≤ r → r < n → |A r k| ≤ (pivot n A k).1) at h1
  change ((pivot n A k).1 = 0 ∧ (pivot n A k).2 = k) ∨ _ at h2
  refine ⟨h1, ?_⟩
  rcases h2 with ⟨a, b⟩ | h
  · rw [a, b]
    refine ⟨?_, le_refl _, hk⟩
    have := h1 k (le_refl _) hk
    rw [a] at this
    exact (le_antisymm this (abs_nonneg _)).symm
  · exact h

/-- The other of two indices. -/
def sw (i m r : Nat) : Nat := if r = i then m else if r = m then i else r

theorem dec_congr {n : Nat} {A0 : Mat F} {i : Nat} {A A' : Mat F} {P P' : Nat → Nat} (hi : i ≤ n) (h : Dec n A0 i A P)
    (hA : ∀ r c, r < n → c < n → A' r c = A r c) (hP : ∀ r, r < n → P' r = P r) : Dec n A0 i A' P' where
  perm := fun r hr => by rw [hP r hr]; exact h.perm r hr
  inj := fun r s hr hs e => by rw [hP r hr, hP s hs] at e; exact h.inj r s hr hs e
  eq := fun r c hr hc => by
    rw [hP r hr, h.eq r c hr hc, hA r c hr hc]
    congr 1
    refine sum_congr rfl fun t ht => ?_
    have := mem_range.1 ht
    unfold lo up
    rw [hA r t hr (by omega), hA t c (by omega) hc]
  mult := fun r t h1 h2 h3 => by rw [hA r t h2 (by omega)]; exact h.mult r t h1 h2 h3

/-- A round: the pivot row is exchanged with the row `i`, then the rows below are eliminated. -/
theorem round_spec {n : Nat} {A0 : Mat F} {i : Nat} {A A1 B : Mat F} {P P1 : Nat → Nat} (h : Dec n A0 i A P)
    (hd : ∀ t, t < i → A t t ≠ 0) (m : Nat) (him : i ≤ m) (hmn : m < n) (hne : A m i ≠ 0) (hmax : ∀ r, i ≤ r → r < n → |A r i| ≤ |A m i|)
    (hA1 : ∀ r c, r < n → c < n → A1 r c = A (sw i m r) c) (hP1 : ∀ r, r < n → P1 r = P (sw i m r))
    (hB : ∀ r c, r < n → c < n → B r c =
      if i < r ∧ c = i then A1 r i / A1 i i else if i < r ∧ i < c then A1 r c - A1 r i / A1 i i * A1 i c else A1 r c) :
    Dec n A0 (i + 1) B P1 ∧ ∀ t, t < i + 1 → B t t ≠ 0 := by
  have hin : i < n := by omega
  have hD1 : Dec n A0 i A1 P1 := by
    by_cases hmi : m = i
    · refine dec_congr (by omega) h (fun r c hr hc => ?_) (fun r hr => ?_)
      · rw [hA1 r c hr hc]; unfold sw; rw [hmi]; split_ifs with e <;> first | rfl | rw [e]
      · rw [hP1 r hr]; unfold sw; rw [hmi]; split_ifs with e <;> first | rfl | rw [e]
    · refine dec_congr (by omega) (dec_swap n A0 i A P h m hmi him hmn) (fun r c hr hc => ?_) (fun r hr => ?_)
      · rw [hA1 r c hr hc]; unfold swapRows sw; rw [swapRows_spec A i m hmi n r c, if_pos hc]; split_ifs <;> rfl
      · rw [hP1 r hr]; unfold swapP sw
        by_cases h1 : r = m
        · rw [if_pos h1, if_neg (by omega), if_pos h1]
        · rw [if_neg h1, if_neg h1]; split_ifs <;> rfl
  have hii : A1 i i = A m i := by rw [hA1 i i hin hin]; unfold sw; rw [if_pos rfl]
  have hp : A1 i i ≠ 0 := by rw [hii]; exact hne
  have hmax1 : ∀ r, i ≤ r → r < n → |A1 r i| ≤ |A1 i i| := by
    intro r h1 h2
    rw [hii, hA1 r i h2 hin]
    unfold sw
    split_ifs
    · exact le_refl _
    · exact hmax i (le_refl _) hin
    · exact hmax r h1 h2
  let B' : Mat F := fun r k => if i < r ∧ r < n ∧ k = i then A1 r i / A1 i i
      else if i < r ∧ r < n ∧ i < k ∧ k < n then A1 r k - A1 r i / A1 i i * A1 i k else A1 r k
  have hD2 := dec_elim n A0 i A1 B' P1 hD1 hin hp hmax1 (fun r k => rfl)
  refine ⟨dec_congr (by omega) hD2 (fun r c hr hc => ?_) (fun r hr => rfl), ?_⟩
  · rw [hB r c hr hc]
    show _ = if i < r ∧ r < n ∧ c = i then A1 r i / A1 i i
      else if i < r ∧ r < n ∧ i < c ∧ c < n then A1 r c - A1 r i / A1 i i * A1 i c else A1 r c
    split_ifs <;> first | rfl | omega
  · intro t ht
    rw [hB t t (by omega) (by omega), if_neg (by omega), if_neg (by omega)]
    by_cases hti : t = i
    · rw [hti]; exact hp
    · rw [hA1 t t (by omega) (by omega)]
      unfold sw
      rw [if_neg hti, if_neg (by omega)]
      exact hd t (by omega)

theorem foldlM_one {S : Type} (g : S → Nat → Option S) (s : S) (i : Nat) : List.foldlM g s [i] = g s i := by
  simp only [List.foldlM_cons, List.foldlM_nil]
  cases g s i <;> rfl

/-- A fold that keeps an invariant or stops. -/
theorem foldlM_inv {S : Type} (g : S → Nat → Option S) (s0 : S) (I : Nat → S → Prop) (E : Prop) (n : Nat) (h0 : I 0 s0)
    (hs : ∀ i s, i < n → I i s → (∃ s', g s i = some s' ∧ I (i + 1) s') ∨ (E ∧ g s i = none)) :
    (∃ s, (List.range n).foldlM g s0 = some s ∧ I n s) ∨ (E ∧ (List.range n).foldlM g s0 = none) := by
  have key : ∀ i, i ≤ n → (∃ s, (List.range i).foldlM g s0 = some s ∧ I i s) ∨ (E ∧ (List.range i).foldlM g s0 = none) := by
    intro i
    induction i with
    | zero => intro _; exact Or.inl ⟨s0, rfl, h0⟩
    | succ i ih =>
      intro hi
      rw [List.range_succ, List.foldlM_append]
      rcases ih (by omega) with ⟨s, e, hI⟩ | ⟨hE, e⟩
      · rw [e]
        have hb : ((some s : Option S) >>= fun s => List.foldlM g s [i]) = g s i := foldlM_one g s i
        rw [hb]
        exact hs i s (by omega) hI
      · rw [e]; exact Or.inr ⟨hE, rfl⟩
  exact key n (le_refl _)

/-! ## `solve` -/

theorem factStep_spec (n : Nat) (A0 : Mat F) (i : Nat) (s : Mat F × (Nat → Nat)) (hin : i < n)
    (h : Dec n A0 i s.1 s.2 ∧ ∀ t, t < i → s.1 t t ≠ 0) :
    (∃ s', factStep n s i = some s' ∧ Dec n A0 (i + 1) s'.1 s'.2 ∧ ∀ t, t < i + 1 → s'.1 t t ≠ 0) ∨ (Sing n A0 ∧ factStep n s i = none) := by
  obtain ⟨hD, hd⟩ := h
  obtain ⟨p1, p2, p3, p4⟩ := pivotOf_spec n s.1 i hin
  unfold factStep
  dsimp only
  generalize hm : (pivotOf n s.1 i).2 = m at p2 p3 p4
  by_cases h0 : (pivotOf n s.1 i).1 = 0
  · right
    rw [if_pos h0]
    refine ⟨dec_sing n A0 i s.1 s.2 hD hin hd fun k h1 h2 => ?_, rfl⟩
    have := p1 k h1 h2
    rw [h0] at this
    exact abs_nonpos_iff.1 this
  · left
    rw [if_neg h0]
    rw [p2] at h0 p1
    have hne : s.1 m i ≠ 0 := fun e => h0 (by rw [e, abs_zero])
    have hA1 : ∀ r c, r < n → c < n → (if m ≠ i then swapRows n s.1 i m else s.1) r c = s.1 (sw i m r) c := by
      intro r c hr hc
      unfold sw
      by_cases hmi : m = i
      · rw [if_neg (by simpa using hmi), hmi]; split_ifs with e <;> first | rfl | rw [e]
      · rw [if_pos hmi]; unfold swapRows; rw [swapRows_spec s.1 i m hmi n r c, if_pos hc]; split_ifs <;> rfl
    have hP1 : ∀ r, r < n → (if m ≠ i then swapP s.2 i m else s.2) r = s.2 (sw i m r) := by
      intro r hr
      unfold sw
      by_cases hmi : m = i
      · rw [if_neg (by simpa using hmi), hmi]; split_ifs with e <;> first | rfl | rw [e]
      · rw [if_pos hmi]; unfold swapP
        by_cases h1 : r = m
        · rw [if_pos h1, if_neg (by omega), if_pos h1]
        · rw [if_neg h1, if_neg h1]; split_ifs <;> rfl
    have hii : (if m ≠ i then swapRows n s.1 i m else s.1) i i ≠ 0 := by
      rw [hA1 i i hin hin]; unfold sw; rw [if_pos rfl]; exact hne
    generalize (if m ≠ i then swapRows n s.1 i m else s.1) = A1 at hA1 hii
    generalize (if m ≠ i then swapP s.2 i m else s.2) = P1 at hP1
    obtain ⟨B, e, hB⟩ := elim_spec n i A1 hii (n - (i + 1)) (by omega)
    rw [e]
    refine ⟨(B, P1), rfl, round_spec hD hd m p3 p4 hne p1 hA1 hP1 fun r c hr hc => ?_⟩
    dsimp only
    rw [hB, show i + 1 + (n - (i + 1)) = n by omega]
    split_ifs <;> first | rfl | omega

theorem fact_spec (n : Nat) (A0 : Mat F) :
    (∃ B P, (List.range n).foldlM (factStep n) (A0, fun k => k) = some (B, P) ∧ Dec n A0 n B P ∧ ∀ t, t < n → B t t ≠ 0) ∨
    (Sing n A0 ∧ (List.range n).foldlM (factStep n) (A0, fun k => k) = none) := by
  rcases foldlM_inv (factStep n) (A0, fun k => k) (fun i s => Dec n A0 i s.1 s.2 ∧ ∀ t, t < i → s.1 t t ≠ 0) (Sing n A0) n
    ⟨dec_start n A0, fun t h => by omega⟩ (fun i s hi hI => factStep_spec n A0 i s hi hI) with ⟨s, e, h⟩ | h
  · exact Or.inl ⟨s.1, s.2, e, h⟩
  · exact Or.inr h

theorem fwd_eq (n : Nat) (A : Mat F) (P : Nat → Nat) (b y : Nat → F) : fwd n A P b y = forward n A P b y := by
  unfold fwd forward
  congr 1
  funext y i
  funext k
  rw [fwdInner_spec A i y (b (P i)) i (le_refl _) k, putV, foldl_sub_range]

theorem bwd_eq (n : Nat) (A : Mat F) (y x : Nat → F) : bwd n A y x = backward n A y x := by
  unfold bwd backward
  have : (fun (x : Nat → F) (i : Nat) =>
    let s := (List.range' (i + 1) (n - (i + 1))).foldl (fun s j => s - A i j * x j) (y i)
    if A i i = 0 then none else some (putV x i (s / A i i))) = backRow n A y := by
    funext x i
    unfold backRow divO
    dsimp only
    by_cases h : A i i = 0
    · rw [if_pos h, if_pos h]
    · rw [if_neg h, if_neg h]
      dsimp only
      congr 1
      funext k
      have e := backInner_spec A i x (y i) (n - (i + 1))
      rw [putV, putV, e, e, if_pos rfl, foldl_sub_range']
      by_cases hk : k = i
      · rw [if_pos hk, if_pos hk]
      · rw [if_neg hk, if_neg hk, if_neg hk]
  rw [this]

theorem solve_spec (n : Nat) (A : Mat F) (b y0 x0 : Nat → F) :
    (∃ x, solve n A b y0 x0 = some x ∧ ∀ r, r < n → ∑ c ∈ range n, A r c * x c = b r) ∨ (Sing n A ∧ solve n A b y0 x0 = none) := by
  unfold solve
  rcases fact_spec n A with ⟨B, P, e, hD, hd⟩ | ⟨h, e⟩
  · rw [e]
    left
    obtain ⟨x, e2, hx⟩ := luSolve_spec n A B P hD hd b y0 x0
    refine ⟨x, ?_, hx⟩
    dsimp only
    rw [bwd_eq, fwd_eq]
    exact e2
  · rw [e]; exact Or.inr ⟨h, rfl⟩

/-! ## The indirect decomposition -/

/-- The rows in the order of `pivot_indices`. -/
def rows (A : Mat F) (P : Nat → Nat) : Mat F := fun r c => A (P r) c

theorem elimInner (A : Mat F) (p q : Nat) (hpq : p ≠ q) (tmp : F) (k c : Nat) :
    ∀ r j, (List.range' (k + 1) c).foldl (fun (B : Mat F) j => put B p j (B p j - tmp * B q j)) A r j =
      if r = p ∧ k < j ∧ j < k + 1 + c then A p j - tmp * A q j else A r j := by
  induction c with
  | zero => intro r j; rw [if_neg (by omega)]; rfl
  | succ c ih =>
    intro r j
    rw [List.range'_1_concat, List.foldl_append, List.foldl_cons, List.foldl_nil, put, ih, ih, ih]
    by_cases h : r = p ∧ j = k + 1 + c
    · obtain ⟨rfl, rfl⟩ := h
      rw [if_pos ⟨rfl, rfl⟩, if_neg (by omega), if_neg (fun h => hpq h.1.symm), if_pos ⟨rfl, by omega, by omega⟩]
    · rw [if_neg h]
      by_cases h2 : r = p ∧ k < j ∧ j < k + 1 + c
      · rw [if_pos h2, if_pos ⟨h2.1, h2.2.1, by omega⟩]
      · rw [if_neg h2, if_neg]
        rintro ⟨a, b, d⟩
        exact h2 ⟨a, b, by by_contra hc; exact h ⟨a, by omega⟩⟩

theorem elimInd_spec (n k : Nat) (P : Nat → Nat) (A : Mat F) (i : Nat) (hik : P i ≠ P k) :
    ∀ r c, elimInd n k P A i r c =
      if r = P i ∧ c = k then A (P i) k / A (P k) k
      else if r = P i ∧ k < c ∧ c < k + 1 + (n - (k + 1)) then A (P i) c - A (P i) k / A (P k) k * A (P k) c else A r c := by
  intro r c
  unfold elimInd
  rw [elimInner _ _ _ hik]
  have e1 : put A (P i) k (A (P i) k / A (P k) k) (P i) k = A (P i) k / A (P k) k := by unfold put; rw [if_pos ⟨rfl, rfl⟩]
  have e2 : ∀ c, put A (P i) k (A (P i) k / A (P k) k) (P k) c = A (P k) c := by
    intro c; unfold put; rw [if_neg (fun h => hik h.1.symm)]
  rw [e1, e2]
  unfold put
  by_cases hr : r = P i
  · subst hr
    by_cases hc : c = k
    · rw [hc, if_neg (by omega), if_pos ⟨rfl, rfl⟩, if_pos ⟨rfl, rfl⟩]
    · split_ifs <;> first | rfl | omega
  · rw [if_neg (fun h => hr h.1), if_neg (fun h => hr h.1), if_neg (fun h => hr h.1), if_neg (fun h => hr h.1)]

theorem elimAll (n k : Nat) (hk : k < n) (P : Nat → Nat) (hP : ∀ r s, r < n → s < n → P r = P s → r = s) (A : Mat F) (c : Nat)
    (hc : k + 1 + c ≤ n) : ∀ r j, r < n → j < n → rows ((List.range' (k + 1) c).foldl (elimInd n k P) A) P r j =
      if k < r ∧ r < k + 1 + c ∧ j = k then rows A P r k / rows A P k k
      else if k < r ∧ r < k + 1 + c ∧ k < j then rows A P r j - rows A P r k / rows A P k k * rows A P k j else rows A P r j := by
  induction c with
  | zero => intro r j _ _; rw [if_neg (by omega), if_neg (by omega)]; rfl
  | succ c ih =>
    intro r j hr hj
    have ih := ih (by omega)
    rw [List.range'_1_concat, List.foldl_append, List.foldl_cons, List.foldl_nil]
    have hne : P (k + 1 + c) ≠ P k := fun e => by have := hP _ _ (by omega) hk e; omega
    generalize (List.range' (k + 1) c).foldl (elimInd n k P) A = B at ih
    unfold rows at ih ⊢
    rw [elimInd_spec n k P B (k + 1 + c) hne, show k + 1 + (n - (k + 1)) = n by omega]
    have hrowk : ∀ j, j < n → B (P k) j = A (P k) j := fun j hj => by
      rw [ih k j hk hj, if_neg (by omega), if_neg (by omega)]
    have hrowc : ∀ j, j < n → B (P (k + 1 + c)) j = A (P (k + 1 + c)) j := fun j hj => by
      rw [ih _ j (by omega) hj, if_neg (by omega), if_neg (by omega)]
    rw [hrowk k hk, hrowk j hj, hrowc k hk, hrowc j hj]
    by_cases h : r = k + 1 + c
    · subst h
      have e := hrowc j hj
      split_ifs <;> first | rfl | omega | exact e
    · have hne2 : P r ≠ P (k + 1 + c) := fun e => h (hP _ _ hr (by omega) e)
      rw [if_neg (fun h => hne2 h.1), if_neg (fun h => hne2 h.1), ih r j hr hj]
      split_ifs <;> first | rfl | omega

theorem factInd_spec (n : Nat) (A0 : Mat F) (i : Nat) (s : Mat F × (Nat → Nat)) (hin : i < n)
    (h : Dec n A0 i (rows s.1 s.2) s.2 ∧ ∀ t, t < i → rows s.1 s.2 t t ≠ 0) :
    (∃ s', factInd n s i = some s' ∧ Dec n A0 (i + 1) (rows s'.1 s'.2) s'.2 ∧ ∀ t, t < i + 1 → rows s'.1 s'.2 t t ≠ 0) ∨
    (Sing n A0 ∧ factInd n s i = none) := by
  obtain ⟨hD, hd⟩ := h
  obtain ⟨p1, p2, p3, p4⟩ := pivotOf_spec n (rows s.1 s.2) i hin
  unfold factInd
  dsimp only
  have hpe : pivotInd n s.1 s.2 i = pivotOf n (rows s.1 s.2) i := rfl
  rw [hpe]
  generalize hm : (pivotOf n (rows s.1 s.2) i).2 = m at p2 p3 p4
  by_cases h0 : (pivotOf n (rows s.1 s.2) i).1 = 0
  · right
    rw [if_pos h0]
    refine ⟨dec_sing n A0 i _ s.2 hD hin hd fun k h1 h2 => ?_, rfl⟩
    have := p1 k h1 h2
    rw [h0] at this
    exact abs_nonpos_iff.1 this
  · left
    rw [if_neg h0]
    rw [p2] at h0 p1
    have hne : rows s.1 s.2 m i ≠ 0 := fun e => h0 (by rw [e, abs_zero])
    have hP1 : ∀ r, (if m ≠ i then swapP s.2 i m else s.2) r = s.2 (sw i m r) := by
      intro r
      unfold sw
      by_cases hmi : m = i
      · rw [if_neg (by simpa using hmi), hmi]; split_ifs with e <;> first | rfl | rw [e]
      · rw [if_pos hmi]; unfold swapP
        by_cases h1 : r = m
        · rw [if_pos h1, if_neg (by omega), if_pos h1]
        · rw [if_neg h1, if_neg h1]; split_ifs <;> rfl
    generalize (if m ≠ i then swapP s.2 i m else s.2) = P1 at hP1
    have hinj : ∀ r s, r < n → s < n → P1 r = P1 s → r = s := by
      intro a b ha hb e
      rw [hP1, hP1] at e
      have hb1 : ∀ r, r < n → sw i m r < n := fun r hr => by unfold sw; split_ifs <;> omega
      have := hD.inj _ _ (hb1 a ha) (hb1 b hb) e
      unfold sw at this
      split_ifs at this <;> omega
    refine ⟨_, rfl, ?_⟩
    refine round_spec hD hd m p3 p4 hne p1 (A1 := rows s.1 P1) (fun r c hr hc => ?_) (fun r hr => hP1 r) fun r c hr hc => ?_
    · unfold rows; rw [hP1]
    · dsimp only
      rw [elimAll n i hin P1 hinj s.1 (n - (i + 1)) (by omega) r c hr hc, show i + 1 + (n - (i + 1)) = n by omega]
      split_ifs <;> first | rfl | omega

theorem luFactorize_spec (n : Nat) (A0 : Mat F) :
    (∃ B P, luFactorize n A0 = some (B, P) ∧ Dec n A0 n (rows B P) P ∧ ∀ t, t < n → rows B P t t ≠ 0) ∨
    (Sing n A0 ∧ luFactorize n A0 = none) := by
  rcases foldlM_inv (factInd n) (A0, fun k => k)
    (fun i s => Dec n A0 i (rows s.1 s.2) s.2 ∧ ∀ t, t < i → rows s.1 s.2 t t ≠ 0) (Sing n A0) n
    ⟨dec_start n A0, fun t h => by omega⟩ (fun i s hi hI => factInd_spec n A0 i s hi hI) with ⟨s, e, h⟩ | h
  · exact Or.inl ⟨s.1, s.2, e, h⟩
  · exact Or.inr h

/-! ## The indirect substitutions -/

theorem fwdInd_spec (A : Mat F) (P : Nat → Nat) (N : Nat) (hP : ∀ r s, r < N → s < N → P r = P s → r = s) (b : Nat → F) (n : Nat) (hn : n ≤ N) :
    (∀ r, r < n → fwdInd n A P b (P r) + ∑ t ∈ range r, A (P r) t * fwdInd n A P b (P t) = b (P r)) ∧
    (∀ r, n ≤ r → r < N → fwdInd n A P b (P r) = b (P r)) := by
  induction n with
  | zero => exact ⟨fun r h => by omega, fun r _ _ => rfl⟩
  | succ n ih =>
    obtain ⟨h1, h2⟩ := ih (by omega)
    have e : ∀ k, fwdInd (n + 1) A P b k = if k = P n then b (P n) - ∑ j ∈ range n, A (P n) j * fwdInd n A P b (P j) else fwdInd n A P b k := by
      intro k
      unfold fwdInd
      rw [List.range_succ, List.foldl_append, List.foldl_cons, List.foldl_nil, putV, foldl_sub_range]
      have := h2 n (le_refl _) (by omega)
      unfold fwdInd at this
      rw [this]
    have ne : ∀ t, t < N → t ≠ n → P t ≠ P n := fun t ht h e => h (hP _ _ ht (by omega) e)
    refine ⟨fun r hr => ?_, fun r h h' => ?_⟩
    · have es : ∑ t ∈ range r, A (P r) t * fwdInd (n + 1) A P b (P t) = ∑ t ∈ range r, A (P r) t * fwdInd n A P b (P t) := by
        refine sum_congr rfl fun t ht => ?_
        have := mem_range.1 ht
        rw [e, if_neg (ne t (by omega) (by omega))]
      rw [es, e]
      by_cases h : r = n
      · rw [h, if_pos rfl]; ring
      · rw [if_neg (ne r (by omega) h)]; exact h1 r (by omega)
    · rw [e, if_neg (ne r h' (by omega))]; exact h2 r (by omega) h'

theorem bwdInd_aux (A : Mat F) (P : Nat → Nat) (n : Nat) (hP : ∀ r s, r < n → s < n → P r = P s → r = s)
    (hp : ∀ i, i < n → A (P i) i ≠ 0) (y : Nat → F) (m : Nat) (hm : m ≤ n) :
    ∀ x : Nat → F, (∀ r, r < m → x (P r) = y r) → (∀ r, m ≤ r → r < n → ∑ c ∈ Ico r n, A (P r) c * x (P c) = y r) →
    ∃ x', (List.range m).reverse.foldlM (fun (b : Nat → F) i =>
        let s := (List.range' (i + 1) (n - (i + 1))).foldl (fun s j => s - A (P i) j * b (P j)) (b (P i))
        if A (P i) i = 0 then none else some (putV b (P i) (s / A (P i) i))) x = some x' ∧
      ∀ r, r < n → ∑ c ∈ Ico r n, A (P r) c * x' (P c) = y r := by
  induction m with
  | zero => intro x _ h; exact ⟨x, rfl, fun r hr => h r (by omega) hr⟩
  | succ m ih =>
    intro x h0 h
    have hpm := hp m (by omega)
    have ne : ∀ t, t < n → t ≠ m → P t ≠ P m := fun t ht h e => h (hP _ _ ht (by omega) e)
    let x1 : Nat → F := putV x (P m) ((y m - ∑ j ∈ Ico (m + 1) n, A (P m) j * x (P j)) / A (P m) m)
    have hx1 : ∀ r, r < n → r ≠ m → x1 (P r) = x (P r) := fun r hr h => by
      show putV _ _ _ _ = _
      unfold putV; rw [if_neg (ne r hr h)]
    have hx2 : x1 (P m) = (y m - ∑ j ∈ Ico (m + 1) n, A (P m) j * x (P j)) / A (P m) m := by
      show putV _ _ _ _ = _
      unfold putV; rw [if_pos rfl]
    obtain ⟨x', e', h'⟩ := ih (by omega) x1 (fun r hr => by rw [hx1 r (by omega) (by omega)]; exact h0 r (by omega)) (by
      intro r hr hrn
      by_cases hrm : r = m
      · subst hrm
        rw [sum_eq_sum_Ico_succ_bot hrn, hx2]
        have es : ∑ k ∈ Ico (r + 1) n, A (P r) k * x1 (P k) = ∑ k ∈ Ico (r + 1) n, A (P r) k * x (P k) := by
          refine sum_congr rfl fun t ht => ?_
          have := mem_Ico.1 ht
          rw [hx1 t (by omega) (by omega)]
        rw [es, mul_div_cancel₀ _ hpm]
        ring
      · rw [← h r (by omega) hrn]
        refine sum_congr rfl fun t ht => ?_
        have := mem_Ico.1 ht
        rw [hx1 t (by omega) (by omega)])
    refine ⟨x', ?_, h'⟩
    rw [List.range_succ, List.reverse_append, List.reverse_singleton, List.singleton_append, List.foldlM_cons]
    dsimp only
    rw [if_neg hpm, foldl_sub_range', h0 m (by omega), show m + 1 + (n - (m + 1)) = n by omega]
    exact e'

/-- The algebra of the two substitutions. -/
theorem dec_solve (n : Nat) (A0 A : Mat F) (P : Nat → Nat) (h : Dec n A0 n A P) (b y x : Nat → F)
    (hf : ∀ r, r < n → y r + ∑ t ∈ range r, A r t * y t = b (P r)) (hx : ∀ r, r < n → ∑ c ∈ Ico r n, A r c * x c = y r) :
    ∀ r, r < n → ∑ c ∈ range n, A0 r c * x c = b r := by
  intro r0 hr0
  obtain ⟨r, hr, rfl⟩ := dec_surj h r0 hr0
  have e1 : ∑ c ∈ range n, A0 (P r) c * x c = ∑ c ∈ range n, (∑ t ∈ range n, lo A r t * up A t c) * x c := by
    refine sum_congr rfl fun c hc => ?_
    rw [h.eq r c hr (mem_range.1 hc), if_neg (by omega), add_zero]
  rw [e1]
  simp_rw [sum_mul]
  rw [sum_comm]
  have e2 : ∀ t ∈ range n, ∑ c ∈ range n, lo A r t * up A t c * x c = lo A r t * y t := by
    intro t ht
    have ht := mem_range.1 ht
    rw [← hx t ht, mul_sum, range_eq_Ico, ← sum_Ico_consecutive _ (Nat.zero_le t) (le_of_lt ht)]
    have z : ∑ c ∈ Ico 0 t, lo A r t * up A t c * x c = 0 := sum_eq_zero fun c hc => by
      unfold up; rw [if_neg (by have := (mem_Ico.1 hc).2; omega)]; ring
    rw [z, zero_add]
    refine sum_congr rfl fun c hc => ?_
    unfold up; rw [if_pos (mem_Ico.1 hc).1]; ring
  rw [sum_congr rfl e2, ← hf r hr, range_eq_Ico, ← sum_Ico_consecutive _ (Nat.zero_le r) (le_of_lt hr),
    sum_eq_sum_Ico_succ_bot hr]
  have z : ∑ t ∈ Ico (r + 1) n, lo A r t * y t = 0 := sum_eq_zero fun t ht => by
    have := (mem_Ico.1 ht).1
    unfold lo; rw [if_neg (by omega), if_neg (by omega), zero_mul]
  have z2 : ∑ t ∈ Ico 0 r, lo A r t * y t = ∑ t ∈ range r, A r t * y t := by
    rw [range_eq_Ico]
    refine sum_congr rfl fun t ht => ?_
    unfold lo; rw [if_pos (mem_Ico.1 ht).2]
  rw [z, z2]
  unfold lo
  rw [if_neg (lt_irrefl _), if_pos rfl]; ring

/-- `lu_solve` leaves the unknown `c` in the place `pivot_indices[c]`. -/
theorem luSolveInd_spec (n : Nat) (A0 B : Mat F) (P : Nat → Nat) (h : Dec n A0 n (rows B P) P) (hd : ∀ t, t < n → rows B P t t ≠ 0)
    (b : Nat → F) : ∃ x, luSolveInd n B P b = some x ∧ ∀ r, r < n → ∑ c ∈ range n, A0 r c * x (P c) = b r := by
  obtain ⟨f1, _⟩ := fwdInd_spec B P n h.inj b n (le_refl _)
  obtain ⟨x, e, hx⟩ := bwdInd_aux B P n h.inj hd (fun r => fwdInd n B P b (P r)) n (le_refl _) (fwdInd n B P b)
    (fun r _ => rfl) (fun r h1 h2 => by omega)
  exact ⟨x, e, dec_solve n A0 (rows B P) P h b (fun r => fwdInd n B P b (P r)) (fun c => x (P c)) f1 hx⟩

/-- `invert_matrix` leaves the row `c` of the inverse in the row `pivot_indices[c]`. -/
theorem invertMatrix_spec (n : Nat) (A0 R : Mat F) :
    (∃ B P X, luFactorize n A0 = some (B, P) ∧ Dec n A0 n (rows B P) P ∧ invertMatrix n A0 R = some X ∧
      ∀ r k, r < n → k < n → ∑ c ∈ range n, A0 r c * X (P c) k = if k = r then 1 else 0) ∨
    (Sing n A0 ∧ invertMatrix n A0 R = none) := by
  unfold invertMatrix
  rcases luFactorize_spec n A0 with ⟨B, P, e, hD, hd⟩ | ⟨h, e⟩
  · left
    rw [e]
    rcases foldlM_inv (invColumn n B P) R
      (fun i X => ∀ r k, r < n → k < i → ∑ c ∈ range n, A0 r c * X (P c) k = if k = r then 1 else 0) False n
      (fun r k _ h => by omega) (fun i X hi hI => by
        left
        obtain ⟨x, ex, hx⟩ := luSolveInd_spec n A0 B P hD hd (fun j => if j = i then 1 else 0)
        refine ⟨_, by unfold invColumn; rw [ex], ?_⟩
        intro r k hr hk
        have es : ∀ c, c < n → (List.range n).foldl (fun (R : Mat F) j => put R j i (x j)) X (P c) k = if k = i then x (P c) else X (P c) k := by
          intro c hc
          rw [column_spec]
          by_cases h : k = i
          · rw [if_pos ⟨hD.perm c hc, h⟩, if_pos h]
          · rw [if_neg (fun h2 => h h2.2), if_neg h]
        rw [sum_congr rfl (fun c hc => by rw [es c (mem_range.1 hc)])]
        by_cases h : k = i
        · rw [h]
          simp only [if_true]
          rw [hx r hr]
          by_cases h2 : r = i
          · rw [if_pos h2, if_pos h2.symm]
          · rw [if_neg h2, if_neg (fun h => h2 h.symm)]
        · simp only [if_neg h]
          exact hI r k hr (by omega)) with ⟨X, eX, hX⟩ | ⟨h, _⟩
    · exact ⟨B, P, X, rfl, hD, eX, hX⟩
    · exact h.elim
  · right
    rw [e]; exact ⟨h, rfl⟩

end Verif.Newt
