import Verif.Nurbs.Boehm

/-! `knot_insertion` is repeated single insertion. -/

set_option linter.unusedSectionVars false

namespace Verif.Nurbs
open Finset
variable {K : Type} [Field K] [LinearOrder K]

theorem kv_zero (U : Nat → K) (u : K) (span : Nat) : knotInsertionKv U u span 0 = U := by
  funext i
  simp only [knotInsertionKv, Nat.add_zero, Nat.sub_zero]
  split <;> rfl

theorem kv_inserted (U : Nat → K) (u : K) (span j : Nat) :
    Inserted (knotInsertionKv U u span j) (knotInsertionKv U u span (j + 1)) (span + j) u := by
  refine ⟨fun l hl => ?_, ?_, fun l hl => ?_⟩
  · simp only [knotInsertionKv]
    by_cases h : l < span + 1
    · rw [if_pos h, if_pos h]
    · rw [if_neg h, if_neg h, if_pos (by omega), if_pos (by omega)]
  · simp only [knotInsertionKv]
    rw [if_neg (by omega), if_pos (by omega)]
  · simp only [knotInsertionKv]
    rw [if_neg (by omega), if_neg (by omega), if_neg (by omega), if_neg (by omega)]
    congr 1; omega

theorem kv_mono (U : Nat → K) (u : K) (span m : Nat) (hU : MonoUpTo U m) (hs : span + 1 < m) (h1 : U span ≤ u)
    (h2 : u ≤ U (span + 1)) (r : Nat) : MonoUpTo (knotInsertionKv U u span r) (m + r) := by
  intro a b hab hb
  simp only [knotInsertionKv]
  by_cases ha1 : a < span + 1
  · rw [if_pos ha1]
    by_cases hb1 : b < span + 1
    · rw [if_pos hb1]; exact hU a b hab (by omega)
    · rw [if_neg hb1]
      by_cases hb2 : b < span + r + 1
      · rw [if_pos hb2]; exact le_trans (hU a span (by omega) (by omega)) h1
      · rw [if_neg hb2]; exact hU a _ (by omega) (by omega)
  · rw [if_neg ha1, if_neg (by omega : ¬ b < span + 1)]
    by_cases ha2 : a < span + r + 1
    · rw [if_pos ha2]
      by_cases hb2 : b < span + r + 1
      · rw [if_pos hb2]
      · rw [if_neg hb2]; exact le_trans h2 (hU _ _ (by omega) (by omega))
    · rw [if_neg ha2, if_neg (by omega)]
      exact hU _ _ (by omega) (by omega)

/-- Control values after `j` single insertions. -/
def iterPts (U : Nat → K) (u : K) (span p : Nat) (P : Nat → K) : Nat → Nat → K
  | 0 => P
  | j + 1 => boehmPts (knotInsertionKv U u span (j + 1)) (span + j) u p (iterPts U u span p P j)

/-- The triangular scheme of the code. -/
def tri (U : Nat → K) (u : K) (span p : Nat) (P : Nat → K) : Nat → Nat → K
  | 0, i => P (span - p + i)
  | j + 1, i => kiAlpha u U span i (span - p + (j + 1)) * tri U u span p P j (i + 1) +
      (1 - kiAlpha u U span i (span - p + (j + 1))) * tri U u span p P j i

theorem iter_window (U : Nat → K) (u : K) (span p : Nat) (P : Nat → K) (hp : p ≤ span) : ∀ (j : Nat), j ≤ p →
    ∀ i, i ≤ p - j → iterPts U u span p P j (span - p + j + i) = tri U u span p P j i := by
  intro j
  induction j with
  | zero => intro _ i _; simp [iterPts, tri]
  | succ j ih =>
    intro hj i hi
    rw [iterPts, tri, boehmPts]
    have hr : ratio (knotInsertionKv U u span (j + 1)) (span + j) u p (span - p + (j + 1) + i) =
        kiAlpha u U span i (span - p + (j + 1)) := by
      rw [ratio, if_neg (by omega), if_pos (by omega), kiAlpha]
      have e1 : knotInsertionKv U u span (j + 1) (span - p + (j + 1) + i) = U (span - p + (j + 1) + i) := by
        rw [knotInsertionKv, if_pos (by omega)]
      have e2 : knotInsertionKv U u span (j + 1) (span - p + (j + 1) + i + p + 1) = U (i + span + 1) := by
        rw [knotInsertionKv, if_neg (by omega), if_neg (by omega)]
        congr 1; omega
      rw [e1, e2]
    rw [hr, show span - p + (j + 1) + i = span - p + j + (i + 1) by omega, ih (by omega) (i + 1) (by omega),
      show span - p + j + (i + 1) - 1 = span - p + j + i by omega, ih (by omega) i (by omega)]

theorem iter_low_step (U : Nat → K) (u : K) (span p : Nat) (P : Nat → K) (j i : Nat) (h : i + p ≤ span + j) :
    iterPts U u span p P (j + 1) i = iterPts U u span p P j i := by
  rw [iterPts, boehmPts, ratio, if_pos h]; ring

theorem iter_low (U : Nat → K) (u : K) (span p : Nat) (P : Nat → K) (i j : Nat) (h : i + p ≤ span + j) :
    ∀ d, iterPts U u span p P (j + d) i = iterPts U u span p P j i := by
  intro d
  induction d with
  | zero => rfl
  | succ d ih => rw [← ih, ← Nat.add_assoc, iter_low_step _ _ _ _ _ _ _ (by omega)]

theorem iter_high_step (U : Nat → K) (u : K) (span p s : Nat) (P : Nat → K)
    (hmult : ∀ a, span - s < a → a ≤ span → U a = u) (j i : Nat) (hj : j + 1 + s ≤ p) (hs : s ≤ span) (hi : span - s < i) :
    iterPts U u span p P (j + 1) i = iterPts U u span p P j (i - 1) := by
  rw [iterPts, boehmPts]
  have : ratio (knotInsertionKv U u span (j + 1)) (span + j) u p i = 0 := by
    rw [ratio, if_neg (by omega)]
    split
    · have hz : knotInsertionKv U u span (j + 1) i = u := by
        rw [knotInsertionKv]
        by_cases h : i < span + 1
        · rw [if_pos h]; exact hmult i hi (by omega)
        · rw [if_neg h, if_pos (by omega)]
      rw [hz]; simp
    · rfl
  rw [this]; ring

theorem iter_high (U : Nat → K) (u : K) (span p s : Nat) (P : Nat → K)
    (hmult : ∀ a, span - s < a → a ≤ span → U a = u) (hs : s ≤ span) : ∀ (c J i : Nat), c ≤ J → J + s ≤ p →
    span - s + c ≤ i → iterPts U u span p P J i = iterPts U u span p P (J - c) (i - c) := by
  intro c
  induction c with
  | zero => intros; rfl
  | succ c ih =>
    intro J i hc hJ hi
    obtain ⟨J, rfl⟩ : ∃ J', J = J' + 1 := ⟨J - 1, by omega⟩
    rw [iter_high_step U u span p s P hmult J i (by omega) hs (by omega), ih J (i - 1) (by omega) (by omega) (by omega)]
    congr 1 <;> omega

/-! The code's loops. -/

theorem kiInner (U : Nat → K) (u : K) (span L : Nat) (temp : Nat → K) : ∀ (k : Nat),
    (∀ i, i < k → (List.range k).foldl (kiStep U u span L) temp i =
      kiAlpha u U span i L * temp (i + 1) + (1 - kiAlpha u U span i L) * temp i) ∧
    (∀ i, k ≤ i → (List.range k).foldl (kiStep U u span L) temp i = temp i) := by
  intro k
  induction k with
  | zero => exact ⟨fun i h => absurd h (Nat.not_lt_zero _), fun i _ => rfl⟩
  | succ k ih =>
    rw [List.range_succ, List.foldl_append]
    simp only [List.foldl_cons, List.foldl_nil, kiStep]
    refine ⟨fun i hi => ?_, fun i hi => ?_⟩
    · by_cases h : i = k
      · subst h
        rw [Function.update_self, ih.2 i (le_refl _), ih.2 (i + 1) (by omega)]
      · rw [Function.update_of_ne h]; exact ih.1 i (by omega)
    · rw [Function.update_of_ne (by omega)]; exact ih.2 i (by omega)

theorem kiRounds (U : Nat → K) (u : K) (p num s span : Nat) (P temp r2 : Nat → K) (hp : p ≤ span) (hns : num + s ≤ p)
    (ht : ∀ i, i ≤ p - s → temp i = P (span - p + i)) : ∀ J, J ≤ num →
    (∀ i, i ≤ p - s - J → ((List.range J).foldl (fun st j => kiRound U u p num s span st (j + 1)) (temp, r2)).1 i =
      tri U u span p P J i) ∧
    (∀ q, ((List.range J).foldl (fun st j => kiRound U u p num s span st (j + 1)) (temp, r2)).2 q =
      if span - p < q ∧ q ≤ span - p + J then tri U u span p P (q - (span - p)) 0
      else if span - s + num - J ≤ q ∧ q < span - s + num then
        tri U u span p P (span - s + num - q) (p - s - (span - s + num - q))
      else r2 q) := by
  intro J
  induction J with
  | zero =>
    intro _
    refine ⟨fun i hi => by rw [tri]; exact ht i (by omega), fun q => ?_⟩
    rw [if_neg (by omega), if_neg (by omega)]; rfl
  | succ J ih =>
    intro hJ
    obtain ⟨h1, h2⟩ := ih (by omega)
    rw [List.range_succ, List.foldl_append]
    generalize (List.range J).foldl (fun st j => kiRound U u p num s span st (j + 1)) (temp, r2) = st at h1 h2
    simp only [List.foldl_cons, List.foldl_nil, kiRound]
    have hin := kiInner U u span (span - p + (J + 1)) st.1 (p + 1 - (J + 1) - s)
    have hT : ∀ i, i ≤ p - s - (J + 1) →
        (List.range (p + 1 - (J + 1) - s)).foldl (kiStep U u span (span - p + (J + 1))) st.1 i =
          tri U u span p P (J + 1) i := by
      intro i hi
      rw [hin.1 i (by omega), tri, h1 (i + 1) (by omega), h1 i (by omega)]
    refine ⟨hT, fun q => ?_⟩
    by_cases c1 : q = span + num - (J + 1) - s
    · rw [c1, Function.update_self, hT _ (by omega)]
      by_cases c2 : span - p < span + num - (J + 1) - s ∧ span + num - (J + 1) - s ≤ span - p + (J + 1)
      · rw [if_pos c2]
        rw [show span + num - (J + 1) - s - (span - p) = J + 1 by omega, show p - (J + 1) - s = 0 by omega]
      · rw [if_neg c2, if_pos (by omega)]
        congr 1 <;> omega
    · rw [Function.update_of_ne c1]
      by_cases c2 : q = span - p + (J + 1)
      · rw [c2, Function.update_self, hT 0 (by omega), if_pos (by omega)]
        rw [show span - p + (J + 1) - (span - p) = J + 1 by omega]
      · rw [Function.update_of_ne c2, h2 q]
        by_cases c3 : span - p < q ∧ q ≤ span - p + J
        · rw [if_pos c3, if_pos (by omega)]
        · by_cases c4 : span - s + num - J ≤ q ∧ q < span - s + num
          · rw [if_neg c3, if_pos c4, if_neg (by omega), if_pos (by omega)]
          · rw [if_neg c3, if_neg c4, if_neg (by omega), if_neg (by omega)]

/-- `knot_insertion` writes exactly the control values of `num` successive single insertions. -/
theorem knotInsertion_eq (p : Nat) (U : Nat → K) (n : Nat) (P : Nat → K) (u : K) (num s span : Nat) (init junk : Nat → K)
    (hp : p ≤ span) (hn : span < n) (hns : num + s ≤ p) (hmult : ∀ a, span - s < a → a ≤ span → U a = u) :
    ∀ i, i < n + num → knotInsertion p U n P u num s span init junk i = iterPts U u span p P num i := by
  intro i hi
  rw [knotInsertion]
  simp only
  have hs : s ≤ span := by omega
  obtain ⟨h1, h2⟩ := kiRounds U u p num s span P
    (fun i => if i < p - s + 1 then P (span - p + i) else junk i)
    (fun i => if span - s + num ≤ i ∧ i < n + num then P (i - num) else if i < span - p + 1 then P i else init i)
    hp hns (fun i hi => by rw [if_pos (by omega)]) num (le_refl _)
  by_cases c0 : span - p + num + 1 ≤ i ∧ i < span - s
  · rw [if_pos c0, h1 _ (by omega), ← iter_window U u span p P hp num (by omega) _ (by omega)]
    congr 1; omega
  · rw [if_neg c0, h2]
    by_cases c1 : span - p < i ∧ i ≤ span - p + num
    · rw [if_pos c1, ← iter_window U u span p P hp _ (by omega) 0 (by omega)]
      have := iter_low U u span p P i (i - (span - p)) (by omega) (num - (i - (span - p)))
      rw [show i - (span - p) + (num - (i - (span - p))) = num by omega] at this
      rw [this]
      congr 1; omega
    · rw [if_neg c1]
      by_cases c2 : span - s + num - num ≤ i ∧ i < span - s + num
      · rw [if_pos c2, iter_high U u span p s P hmult hs (num - (span - s + num - i)) num i (by omega) (by omega) (by omega),
          ← iter_window U u span p P hp _ (by omega) _ (by omega)]
        congr 1 <;> omega
      · rw [if_neg c2]
        by_cases c3 : span - s + num ≤ i ∧ i < n + num
        · rw [if_pos c3, iter_high U u span p s P hmult hs num num i (by omega) (by omega) (by omega)]
          rw [Nat.sub_self]; rfl
        · rw [if_neg c3, if_pos (by omega)]
          have := iter_low U u span p P i 0 (by omega) num
          rw [Nat.zero_add] at this
          rw [this]; rfl

/-! The spline is unchanged. -/

/-- `i` is the span of `x` for `n` control points: the half-open interval, closed at the end of the domain. -/
def Sp (U : Nat → K) (n : Nat) (x : K) (i : Nat) : Prop :=
  i < n ∧ U i < U (i + 1) ∧ U i ≤ x ∧ (x < U (i + 1) ∨ (i + 1 = n ∧ x = U n))

theorem sp_unique (U : Nat → K) (n m : Nat) (hU : MonoUpTo U m) (hn : n < m) (x : K) (i j : Nat)
    (hi : Sp U n x i) (hj : Sp U n x j) : i = j := by
  obtain ⟨a1, a2, a3, a4⟩ := hi
  obtain ⟨b1, b2, b3, b4⟩ := hj
  rcases a4 with a4 | ⟨a4, a5⟩ <;> rcases b4 with b4 | ⟨b4, b5⟩
  · exact span_unique U m hU x i j (by omega) (by omega) a3 a4 b3 b4
  · exfalso
    have := hU (i + 1) n (by omega) hn
    rw [b5] at a4
    exact absurd a4 (not_lt.mpr this)
  · exfalso
    have := hU (j + 1) n (by omega) hn
    rw [a5] at b4
    exact absurd b4 (not_lt.mpr this)
  · omega

section ordered
variable [IsStrictOrderedRing K]

/-- Span of `x` after one insertion. -/
theorem sp_step (U V : Nat → K) (n k : Nat) (t : K) (hI : Inserted U V k t) (h2 : t < U (k + 1))
    (hkn : k < n) (x : K) (i : Nat) (hi : Sp U n x i) : ∃ i', Sp V (n + 1) x i' ∧ SpanMap k i i' := by
  obtain ⟨hlo, hk, hhi⟩ := hI
  obtain ⟨a1, a2, a3, a4⟩ := hi
  have hVn : V (n + 1) = U n := hhi n hkn
  rcases Nat.lt_trichotomy i k with h | h | h
  · refine ⟨i, ⟨by omega, ?_, ?_, ?_⟩, Or.inl ⟨h, rfl⟩⟩
    · rw [hlo i (by omega), hlo (i + 1) (by omega)]; exact a2
    · rw [hlo i (by omega)]; exact a3
    · rw [hlo (i + 1) (by omega)]
      rcases a4 with a4 | ⟨a4, _⟩
      · exact Or.inl a4
      · omega
  · subst h
    by_cases hx : x < t
    · refine ⟨i, ⟨by omega, ?_, ?_, ?_⟩, Or.inr (Or.inl ⟨rfl, Or.inl rfl⟩)⟩
      · rw [hlo i (le_refl _), hk]; exact lt_of_le_of_lt a3 hx
      · rw [hlo i (le_refl _)]; exact a3
      · rw [hk]; exact Or.inl hx
    · refine ⟨i + 1, ⟨by omega, ?_, ?_, ?_⟩, Or.inr (Or.inl ⟨rfl, Or.inr rfl⟩)⟩
      · rw [hk, hhi (i + 1) (by omega)]; exact h2
      · rw [hk]; exact not_lt.mp hx
      · rw [hhi (i + 1) (by omega), hVn]
        rcases a4 with a4 | ⟨a4, a5⟩
        · exact Or.inl a4
        · exact Or.inr ⟨by omega, a5⟩
  · refine ⟨i + 1, ⟨by omega, ?_, ?_, ?_⟩, Or.inr (Or.inr ⟨h, rfl⟩)⟩
    · rw [hhi i h, hhi (i + 1) (by omega)]; exact a2
    · rw [hhi i h]; exact a3
    · rw [hhi (i + 1) (by omega), hVn]
      rcases a4 with a4 | ⟨a4, a5⟩
      · exact Or.inl a4
      · exact Or.inr ⟨by omega, a5⟩

theorem iter_spline (U : Nat → K) (m n p : Nat) (hU : MonoUpTo U m) (hnm : n + p + 1 ≤ m) (u : K) (span : Nat)
    (hp : p ≤ span) (hn : span < n) (h1 : U span ≤ u) (h2 : u < U (span + 1)) (P : Nat → K) (x : K) (i : Nat)
    (hi : Sp U n x i) : ∀ j, ∃ i', Sp (knotInsertionKv U u span j) (n + j) x i' ∧
      ∀ P, spline (knotInsertionKv U u span j) p (n + j) (iterPts U u span p P j) x i' = spline U p n P x i := by
  intro j
  induction j with
  | zero => exact ⟨i, by rw [kv_zero]; exact hi, fun P => by rw [kv_zero]; rfl⟩
  | succ j ih =>
    obtain ⟨i1, hs1, he1⟩ := ih
    have hIns := kv_inserted U u span j
    have hlast : u < knotInsertionKv U u span j (span + j + 1) := by
      rw [knotInsertionKv, if_neg (by omega), if_neg (by omega), show span + j + 1 - j = span + 1 by omega]
      exact h2
    obtain ⟨i2, hs2, hmap⟩ := sp_step _ _ (n + j) (span + j) u hIns hlast (by omega) x i1 hs1
    refine ⟨i2, hs2, fun P => ?_⟩
    rw [← he1 P]
    have hmono : MonoUpTo (knotInsertionKv U u span (j + 1)) (m + j + 1) :=
      kv_mono U u span m hU (by omega) h1 (le_of_lt h2) (j + 1)
    exact boehm_spline _ _ (m + j) (span + j) u hIns hmono i1 i2 hmap hs2.2.1 x p (n + j) (by omega) (by omega) (by omega) _

end ordered
end Verif.Nurbs
