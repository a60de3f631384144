import Verif.NDer.Ndu
import Mathlib.Algebra.BigOperators.Intervals

/-! The loops of `ders_basis_funs`. -/

set_option linter.unusedSectionVars false

namespace Verif.NDer
open Finset Verif.Nurbs
variable {K : Type} [Field K] [LinearOrder K]

/-- What the loops need to know about `ndu`. -/
structure NduOk (i : Nat) (x : K) (p : Nat) (U : Nat → K) (ndu : Nat → Nat → K) : Prop where
  ip : p ≤ i
  col : ∀ j r, r ≤ j → j ≤ p → ndu r j = cox (spike i) U x j (i - j + r)
  row : ∀ j r, r < j → j ≤ p → ndu j r = U (i + r + 1) - U (i + 1 - j + r)

/-- A summand of the `k`-th derivative of `N_{i-p+r,p}`. -/
def term (i : Nat) (x : K) (p : Nat) (U : Nat → K) (r k j : Nat) : K :=
  coefA U p (i - p + r) k j * cox (spike i) U x (p - k) (i - p + r + j)

variable {i : Nat} {x : K} {p : Nat} {U : Nat → K} {ndu : Nat → Nat → K}

theorem NduOk.val (h : NduOk i x p U ndu) (r k j : Nat) (hk : k ≤ p) (h1 : k ≤ r + j) (h2 : r + j ≤ p) :
    ndu (r + j - k) (p - k) = cox (spike i) U x (p - k) (i - p + r + j) := by
  have := h.ip
  rw [h.col (p - k) (r + j - k) (by omega) (by omega)]
  congr 1
  omega

theorem NduOk.den (h : NduOk i x p U ndu) (r k j : Nat) (hk : k + 1 ≤ p) (h1 : k + 1 ≤ r + j) (h2 : r + j ≤ p) :
    ndu (p - (k + 1) + 1) (r + j - (k + 1)) = U (i - p + r + p + j - k) - U (i - p + r + j) := by
  have := h.ip
  rw [h.row (p - (k + 1) + 1) (r + j - (k + 1)) (by omega) (by omega)]
  congr 2 <;> omega

/-- Row `s1` of `a` holds the coefficients of the round before. -/
def RowOk (U : Nat → K) (i p r k : Nat) (row : Nat → K) : Prop :=
  ∀ j, j ≤ k → k ≤ r + j → r + j ≤ p → row j = coefA U p (i - p + r) k j

theorem mid_spec (h : NduOk i x p U ndu) (r k s1 s2 : Nat) (hs : s1 ≠ s2) (hk : k + 1 ≤ p) (lo : Nat) (hlo : 1 ≤ lo)
    (hlo2 : k + 1 ≤ r + lo) : ∀ len (st : (Nat → Nat → K) × K), RowOk U i p r k (st.1 s1) →
      (0 < len → lo + len ≤ k + 1 ∧ r + lo + len ≤ p + 1) →
      let t := (List.range' lo len).foldl (midStep ndu p r (k + 1) s1 s2) st
      t.1 s1 = st.1 s1 ∧
      (∀ j, lo ≤ j → j < lo + len → t.1 s2 j = coefA U p (i - p + r) (k + 1) j) ∧
      (∀ j, (j < lo ∨ lo + len ≤ j) → t.1 s2 j = st.1 s2 j) ∧
      t.2 = st.2 + ∑ j ∈ Ico lo (lo + len), term i x p U r (k + 1) j := by
  intro len
  induction len with
  | zero =>
    intro st _ _
    refine ⟨rfl, fun j h1 h2 => by omega, fun j _ => rfl, by simp⟩
  | succ len ih =>
    intro st hr hb
    obtain ⟨b1, b2⟩ := hb (by omega)
    obtain ⟨i1, i2, i3, i4⟩ := ih st hr (fun _ => ⟨by omega, by omega⟩)
    rw [List.range'_concat, List.foldl_append]
    simp only [List.foldl_cons, List.foldl_nil, Nat.one_mul]
    generalize (List.range' lo len).foldl (midStep ndu p r (k + 1) s1 s2) st = S at *
    unfold midStep
    dsimp only
    have hv : (S.1 s1 (lo + len) - S.1 s1 (lo + len - 1)) / ndu (p - (k + 1) + 1) (r + (lo + len) - (k + 1)) =
        coefA U p (i - p + r) (k + 1) (lo + len) := by
      rw [i1, hr (lo + len) (by omega) (by omega) (by omega), hr (lo + len - 1) (by omega) (by omega) (by omega),
        h.den r k (lo + len) hk (by omega) (by omega)]
      obtain ⟨q, hq⟩ : ∃ q, lo + len = q + 1 := ⟨lo + len - 1, by omega⟩
      rw [hq, coefA, show q + 1 - 1 = q by omega]
    rw [hv]
    refine ⟨?_, ?_, ?_, ?_⟩
    · rw [← i1]
      funext j
      rw [upd_ne _ _ _ _ _ _ (.inl hs)]
    · intro j h1 h2
      by_cases hj : j = lo + len
      · subst hj; rw [upd_self]
      · rw [upd_ne _ _ _ _ _ _ (.inr hj)]; exact i2 j h1 (by omega)
    · intro j hj
      rw [upd_ne _ _ _ _ _ _ (.inr (by omega))]; exact i3 j (by omega)
    · rw [upd_self, i4, h.val r (k + 1) (lo + len) hk (by omega) (by omega), ← Nat.add_assoc lo len 1,
        sum_Ico_succ_top (by omega), add_assoc, term]

theorem term_out (i : Nat) (x : K) (p : Nat) (U : Nat → K) (r k j : Nat) (hp : p ≤ i) (hk : k ≤ p)
    (h : r + j < k ∨ p < r + j) : term i x p U r k j = 0 := by
  rw [term, cox_spike_out i U x (p - k) _ (by omega), mul_zero]

theorem kStep_spec (h : NduOk i x p U ndu) (r : Nat) (hr : r ≤ p) (k : Nat) (hk : k + 1 ≤ p) (st : DSt K)
    (hs : st.s1 ≠ st.s2) (ho : RowOk U i p r k (st.a st.s1)) :
    (kStep ndu p r st (k + 1)).s1 ≠ (kStep ndu p r st (k + 1)).s2 ∧
    RowOk U i p r (k + 1) ((kStep ndu p r st (k + 1)).a (kStep ndu p r st (k + 1)).s1) ∧
    (kStep ndu p r st (k + 1)).ders =
      upd st.ders (k + 1) r (∑ j ∈ range (k + 2), term i x p U r (k + 1) j) := by
  have hp := h.ip
  obtain ⟨a, s1, s2, ders⟩ := st
  dsimp only at hs ho
  -- first part
  have f1 : (firstPart ndu p r (k + 1) s1 s2 a).1 s1 = a s1 := by
    unfold firstPart
    split_ifs
    · funext j; exact upd_ne _ _ _ _ _ _ (.inl hs)
    · rfl
  have f2 : k + 1 ≤ r → (firstPart ndu p r (k + 1) s1 s2 a).1 s2 0 = coefA U p (i - p + r) (k + 1) 0 := by
    intro hkr
    unfold firstPart
    rw [if_pos hkr]
    dsimp only
    rw [upd_self, ho 0 (by omega) (by omega) (by omega), coefA]
    have := h.den r k 0 hk (by omega) (by omega)
    rw [show r + 0 - (k + 1) = r - (k + 1) by omega] at this
    rw [this]
    congr 2
  have f3 : (firstPart ndu p r (k + 1) s1 s2 a).2 = term i x p U r (k + 1) 0 := by
    by_cases hkr : k + 1 ≤ r
    · have e := f2 hkr
      unfold firstPart at e ⊢
      rw [if_pos hkr] at e ⊢
      dsimp only at e ⊢
      rw [e, term]
      have := h.val r (k + 1) 0 hk (by omega) (by omega)
      rw [show r + 0 - (k + 1) = r - (k + 1) by omega] at this
      rw [this]
    · rw [term_out i x p U r (k + 1) 0 hp hk (by omega)]
      unfold firstPart
      rw [if_neg hkr]
  generalize hF : firstPart ndu p r (k + 1) s1 s2 a = F at *
  -- the loop
  have hl1 : 1 ≤ jLow r (k + 1) := by unfold jLow; split_ifs <;> omega
  have hl2 : k + 1 ≤ r + jLow r (k + 1) := by unfold jLow; split_ifs <;> omega
  obtain ⟨m1, m2, m3, m4⟩ := mid_spec h r k s1 s2 hs hk (jLow r (k + 1)) hl1 hl2
    (jHigh p r (k + 1) + 1 - jLow r (k + 1)) F (by rw [f1]; exact ho) (fun hpos => by
      unfold jHigh at hpos ⊢; unfold jLow at hpos ⊢; split_ifs at hpos ⊢ <;> omega)
  generalize hG : (List.range' (jLow r (k + 1)) (jHigh p r (k + 1) + 1 - jLow r (k + 1))).foldl
    (midStep ndu p r (k + 1) s1 s2) F = G at *
  have msum : ∑ j ∈ Ico (jLow r (k + 1)) (jLow r (k + 1) + (jHigh p r (k + 1) + 1 - jLow r (k + 1))),
      term i x p U r (k + 1) j = ∑ j ∈ Ico 1 (k + 1), term i x p U r (k + 1) j := by
    apply sum_subset
    · intro j hj
      rw [mem_Ico] at hj ⊢
      unfold jLow jHigh at hj
      split_ifs at hj <;> omega
    · intro j hj hn
      rw [mem_Ico] at hj hn
      apply term_out i x p U r (k + 1) j hp hk
      unfold jLow jHigh at hn
      split_ifs at hn <;> omega
  rw [msum, f3] at m4
  -- the last part
  have l1 : ∀ j, j ≠ k + 1 → (lastPart ndu p r (k + 1) s1 s2 G).1 s2 j = G.1 s2 j := by
    intro j hj
    unfold lastPart
    split_ifs
    · exact upd_ne _ _ _ _ _ _ (.inr hj)
    · rfl
  have l2 : r ≤ p - (k + 1) → (lastPart ndu p r (k + 1) s1 s2 G).1 s2 (k + 1) = coefA U p (i - p + r) (k + 1) (k + 1) := by
    intro hrp
    unfold lastPart
    rw [if_pos hrp]
    dsimp only
    rw [upd_self, show k + 1 - 1 = k by omega, m1, f1, ho k (by omega) (by omega) (by omega), coefA,
      coefA_out U p _ k (k + 1) (by omega), zero_sub]
    have := h.den r k (k + 1) hk (by omega) (by omega)
    rw [show r + (k + 1) - (k + 1) = r by omega] at this
    rw [this]
  have l3 : (lastPart ndu p r (k + 1) s1 s2 G).2 = G.2 + term i x p U r (k + 1) (k + 1) := by
    by_cases hrp : r ≤ p - (k + 1)
    · have e := l2 hrp
      unfold lastPart at e ⊢
      rw [if_pos hrp] at e ⊢
      dsimp only at e ⊢
      rw [e, term]
      have := h.val r (k + 1) (k + 1) hk (by omega) (by omega)
      rw [show r + (k + 1) - (k + 1) = r by omega] at this
      rw [this]
    · rw [term_out i x p U r (k + 1) (k + 1) hp hk (by omega), add_zero]
      unfold lastPart
      rw [if_neg hrp]
  have hres : kStep ndu p r ⟨a, s1, s2, ders⟩ (k + 1) = ⟨(lastPart ndu p r (k + 1) s1 s2 G).1, s2, s1,
      upd ders (k + 1) r (lastPart ndu p r (k + 1) s1 s2 G).2⟩ := by
    rw [kStep]; dsimp only; rw [hF, hG]
  rw [hres]
  dsimp only
  refine ⟨hs.symm, ?_, ?_⟩
  · intro j hj h1 h2
    by_cases hjk : j = k + 1
    · subst hjk; exact l2 (by omega)
    · rw [l1 j hjk]
      by_cases hj0 : j = 0
      · subst hj0
        rw [m3 0 (.inl (by omega))]
        exact f2 (by omega)
      · apply m2 j
        · unfold jLow; split_ifs <;> omega
        · unfold jHigh jLow; split_ifs <;> omega
  · have e : ∑ j ∈ range (k + 2), term i x p U r (k + 1) j = term i x p U r (k + 1) 0 +
        ∑ j ∈ Ico 1 (k + 1), term i x p U r (k + 1) j + term i x p U r (k + 1) (k + 1) := by
      rw [sum_range_succ, range_eq_Ico, sum_eq_sum_Ico_succ_bot (by omega)]
    rw [l3, m4, e]

/-- After the rounds `1, ..., n` over `k`. -/
theorem kLoop_spec (h : NduOk i x p U ndu) (r : Nat) (hr : r ≤ p) (st : DSt K) (hs : st.s1 ≠ st.s2)
    (ho : RowOk U i p r 0 (st.a st.s1)) : ∀ n, n ≤ p →
    let t := (List.range' 1 n).foldl (kStep ndu p r) st
    (t.s1 ≠ t.s2 ∧ RowOk U i p r n (t.a t.s1)) ∧
    ∀ k c, t.ders k c = if 1 ≤ k ∧ k ≤ n ∧ c = r then ∑ j ∈ range (k + 1), term i x p U r k j else st.ders k c := by
  intro n
  induction n with
  | zero =>
    intro _
    refine ⟨⟨hs, ho⟩, fun k c => ?_⟩
    rw [if_neg (by omega)]
    rfl
  | succ n ih =>
    intro hn
    obtain ⟨⟨i1, i2⟩, i3⟩ := ih (by omega)
    rw [List.range'_concat, List.foldl_append]
    simp only [List.foldl_cons, List.foldl_nil, Nat.one_mul]
    generalize (List.range' 1 n).foldl (kStep ndu p r) st = T at *
    rw [Nat.add_comm 1 n]
    obtain ⟨k1, k2, k3⟩ := kStep_spec h r hr n hn T i1 i2
    refine ⟨⟨k1, k2⟩, fun k c => ?_⟩
    rw [k3]
    by_cases hkc : k = n + 1 ∧ c = r
    · obtain ⟨rfl, rfl⟩ := hkc
      rw [upd_self, if_pos ⟨by omega, le_refl _, rfl⟩]
    · rw [upd_ne _ _ _ _ _ _ (by tauto), i3]
      by_cases hq : 1 ≤ k ∧ k ≤ n ∧ c = r
      · rw [if_pos hq, if_pos ⟨hq.1, by omega, hq.2.2⟩]
      · rw [if_neg hq, if_neg (by omega)]

/-- After the rounds over `r`. -/
theorem rLoop_spec (h : NduOk i x p U ndu) (n : Nat) (hn : n ≤ p) (a0 d0 : Nat → Nat → K) : ∀ q, q ≤ p + 1 →
    ∀ k c, ((List.range q).foldl (rStep ndu p n) (a0, d0)).2 k c =
      if 1 ≤ k ∧ k ≤ n ∧ c < q then ∑ j ∈ range (k + 1), term i x p U c k j else d0 k c := by
  intro q
  induction q with
  | zero => intro _ k c; rw [if_neg (by omega)]; rfl
  | succ q ih =>
    intro hq k c
    rw [List.range_succ, List.foldl_append]
    simp only [List.foldl_cons, List.foldl_nil]
    have ih' := ih (by omega)
    generalize (List.range q).foldl (rStep ndu p n) (a0, d0) = S at *
    obtain ⟨-, e⟩ := kLoop_spec h q (by omega) ⟨upd S.1 0 0 1, 0, 1, S.2⟩ (by simp)
      (fun j hj _ _ => by
        obtain rfl : j = 0 := by omega
        dsimp only
        rw [upd_self, coefA, if_pos rfl]) n hn
    unfold rStep
    dsimp only at e ⊢
    rw [e k c]
    by_cases hc : 1 ≤ k ∧ k ≤ n ∧ c = q
    · rw [if_pos hc, if_pos ⟨hc.1, hc.2.1, by omega⟩, hc.2.2]
    · rw [if_neg hc, ih']
      by_cases hq : 1 ≤ k ∧ k ≤ n ∧ c < q
      · rw [if_pos hq, if_pos ⟨hq.1, hq.2.1, by omega⟩]
      · rw [if_neg hq, if_neg (by omega)]

/-- The last loop multiplies by the falling factorial. -/
theorem scale_spec (p : Nat) (d0 : Nat → Nat → K) : ∀ n, n ≤ p →
    ((List.range' 1 n).foldl (scaleStep p) (d0, p)).2 = p.descFactorial (n + 1) ∧
    ∀ k c, ((List.range' 1 n).foldl (scaleStep p) (d0, p)).1 k c =
      if 1 ≤ k ∧ k ≤ n ∧ c < p + 1 then d0 k c * (p.descFactorial k : K) else d0 k c := by
  intro n
  induction n with
  | zero => intro _; exact ⟨by simp, fun k c => by rw [if_neg (by omega)]; rfl⟩
  | succ n ih =>
    intro hn
    obtain ⟨i1, i2⟩ := ih (by omega)
    rw [List.range'_concat, List.foldl_append]
    simp only [List.foldl_cons, List.foldl_nil, Nat.one_mul]
    generalize (List.range' 1 n).foldl (scaleStep p) (d0, p) = S at *
    rw [Nat.add_comm 1 n]
    unfold scaleStep
    dsimp only
    constructor
    · rw [i1, Nat.descFactorial_succ p (n + 1), Nat.mul_comm]
    · intro k c
      by_cases hk : k = n + 1
      · subst hk
        rw [Function.update_self, i1]
        by_cases hc : c < p + 1
        · rw [if_pos hc, if_pos ⟨by omega, le_refl _, hc⟩, i2, if_neg (by omega)]
        · rw [if_neg hc, if_neg (by omega), i2, if_neg (by omega)]
      · rw [Function.update_of_ne hk, i2]
        by_cases hq : 1 ≤ k ∧ k ≤ n ∧ c < p + 1
        · rw [if_pos hq, if_pos ⟨hq.1, by omega, hq.2.2⟩]
        · rw [if_neg hq, if_neg (by omega)]

theorem nduOk (i : Nat) (x : K) (p : Nat) (U : Nat → K) (hp : p ≤ i) : NduOk i x p U (allBasisFuns i x p U) :=
  ⟨hp, (allBasisFuns_spec i x U p hp).1, (allBasisFuns_spec i x U p hp).2⟩

/-- `ders_basis_funs` returns the values of the derivatives of the pieces, and leaves the rest of the output alone. -/
theorem dersBasisFuns_eq [IsStrictOrderedRing K] (U : Nat → K) (m : Nat) (hU : MonoUpTo U m) (i : Nat)
    (hi : U i < U (i + 1)) (x : K) (p n : Nat) (hp : p ≤ i) (hm : i + p + 1 < m) (hn : n ≤ p) (d0 : Nat → Nat → K)
    (k c : Nat) :
    dersBasisFuns i x p n U d0 k c =
      if k ≤ n ∧ c < p + 1 then (Polynomial.derivative^[k] (coxP i U p (i - p + c))).eval x else d0 k c := by
  unfold dersBasisFuns
  rw [(scale_spec p _ n hn).2, rLoop_spec (nduOk i x p U hp) n hn _ _ (p + 1) (le_refl _)]
  by_cases hk0 : k = 0
  · subst hk0
    rw [if_neg (by omega), if_neg (by omega), Function.update_self]
    by_cases hc : c < p + 1
    · rw [if_pos hc, if_pos ⟨by omega, hc⟩, (nduOk i x p U hp).col p c (by omega) (le_refl _), Function.iterate_zero, id,
        eval_coxP]
    · rw [if_neg hc, if_neg (by omega)]
  · by_cases hkc : k ≤ n ∧ c < p + 1
    · rw [if_pos ⟨by omega, hkc.1, hkc.2⟩, if_pos ⟨by omega, hkc.1, hkc.2⟩, if_pos hkc,
        iterate_coxP U m hU i hi p (i - p + c) (by omega) k (by omega), Polynomial.eval_finsetSum, sum_mul]
      apply sum_congr rfl
      intro j _
      rw [Polynomial.eval_mul, Polynomial.eval_C, eval_coxP, term]
      ring
    · rw [if_neg (by omega), if_neg (by omega), Function.update_of_ne hk0, if_neg hkc]

end Verif.NDer
