import Verif.Knot.Props4

/-!
# The condition of Schoenberg and Whitney

A spline that vanishes at as many points as it has coefficients, point `i` inside the support of basis function `i`, is zero.  The
proof counts weakly alternating coefficients while the points are inserted as knots: the number does not grow as long as the
coefficients between which the insertion takes place are not all zero, and every point contributes a zero coefficient.
-/

set_option linter.unusedSectionVars false

namespace Verif.Knot
open Verif.Nurbs Finset

variable {K : Type} [Field K] [LinearOrder K] [IsStrictOrderedRing K]

/-- Among the first `n` coefficients there are `L` in increasing order with weakly alternating signs. -/
def Alt (a : Nat → K) (n L : Nat) : Prop :=
  ∃ (g : Nat → Nat) (s : Nat), (∀ i j, i < j → j < L → g i < g j) ∧ (∀ j, j < L → g j < n) ∧ ∀ j, j < L → 0 ≤ (-1) ^ (s + j) * a (g j)

theorem sgn_cases (s : Nat) : ((-1 : K) ^ s = 1 ∧ (-1 : K) ^ (s + 1) = -1) ∨ ((-1 : K) ^ s = -1 ∧ (-1 : K) ^ (s + 1) = 1) := by
  rcases Nat.even_or_odd s with h | h
  · left; rw [pow_succ, h.neg_one_pow]; exact ⟨rfl, by ring⟩
  · right; rw [pow_succ, h.neg_one_pow]; exact ⟨rfl, by ring⟩

/-- Weights of one insertion: 1 up to `k1`, strictly between 0 and 1 up to `k2`, 0 after it. -/
structure Cut (al : Nat → K) (k1 k2 : Nat) : Prop where
  le : k1 ≤ k2
  one : ∀ i, i ≤ k1 → al i = 1
  mid : ∀ i, k1 < i → i ≤ k2 → 0 < al i ∧ al i < 1
  zero : ∀ i, k2 < i → al i = 0

theorem alt_pull (a al : Nat → K) (k1 k2 n : Nat) (hc : Cut al k1 k2) (hn : k2 < n) (nz : ∃ i, k1 ≤ i ∧ i ≤ k2 ∧ a i ≠ 0) (L : Nat)
    (h : Alt (fun l => al l * a l + (1 - al l) * a (l - 1)) (n + 1) L) : Alt a n L := by
  obtain ⟨g, s, g1, g2, g3⟩ := h
  have key : ∀ L' , L' ≤ L → ∃ h : Nat → Nat, (∀ i j, i < j → j < L' → h i < h j) ∧ (∀ j, j < L' → h j < n) ∧
      (∀ j, j < L' → 0 ≤ (-1) ^ (s + j) * a (h j)) ∧
      ∀ j, j + 1 = L' → (h j + 1 = g j) ∨ (h j = g j ∧ g j ≤ k2 ∧
        (k1 ≤ g j → 0 < (-1) ^ (s + j) * a (g j) ∨ ∀ i, k1 ≤ i → i ≤ g j → a i = 0)) := by
    intro L'
    induction L' with
    | zero => intro _; exact ⟨fun _ => 0, by simp, by simp, by simp, by simp⟩
    | succ q ih =>
      intro hq
      obtain ⟨h, h1, h2, h3, h4⟩ := ih (by omega)
      have hgq := g3 q (by omega)
      have hgn := g2 q (by omega)
      -- the last choice is below the current index
      have hlt : ∀ j, j < q → h j < g q := by
        intro j hj
        have hjq : h j ≤ h (q - 1) := by
          rcases Nat.eq_or_lt_of_le (by omega : j ≤ q - 1) with e | e
          · rw [e]
          · exact (h1 j (q - 1) e (by omega)).le
        have := g1 (q - 1) q (by omega) (by omega)
        rcases h4 (q - 1) (by omega) with e | e <;> omega
      have build : ∀ v, (∀ j, j < q → h j < v) → v < n → 0 ≤ (-1) ^ (s + q) * a v →
          ((v + 1 = g q) ∨ (v = g q ∧ g q ≤ k2 ∧ (k1 ≤ g q → 0 < (-1) ^ (s + q) * a (g q) ∨ ∀ i, k1 ≤ i → i ≤ g q → a i = 0))) →
          ∃ h : Nat → Nat, (∀ i j, i < j → j < q + 1 → h i < h j) ∧ (∀ j, j < q + 1 → h j < n) ∧
          (∀ j, j < q + 1 → 0 ≤ (-1) ^ (s + j) * a (h j)) ∧
          ∀ j, j + 1 = q + 1 → (h j + 1 = g j) ∨ (h j = g j ∧ g j ≤ k2 ∧
            (k1 ≤ g j → 0 < (-1) ^ (s + j) * a (g j) ∨ ∀ i, k1 ≤ i → i ≤ g j → a i = 0)) := by
        intro v v1 v2 v3 v4
        refine ⟨fun j => if j < q then h j else v, ?_, ?_, ?_, ?_⟩
        · intro i j hij hj
          dsimp only
          rw [if_pos (by omega : i < q)]
          by_cases hjq : j < q
          · rw [if_pos hjq]; exact h1 i j hij hjq
          · rw [if_neg hjq]; exact v1 i (by omega)
        · intro j hj
          dsimp only
          by_cases hjq : j < q
          · rw [if_pos hjq]; exact h2 j hjq
          · rw [if_neg hjq]; exact v2
        · intro j hj
          dsimp only
          by_cases hjq : j < q
          · rw [if_pos hjq]; exact h3 j hjq
          · rw [if_neg hjq, show j = q by omega]; exact v3
        · intro j hj
          obtain rfl : j = q := by omega
          dsimp only
          rw [if_neg (by omega)]
          exact v4
      -- what is known when the index below is taken
      have taken : ∀ j, j < q → h j + 1 = g q → ∃ j', j' + 1 = q ∧ g j' + 1 = g q ∧ g j' ≤ k2 ∧ 0 ≤ (-1) ^ (s + j') * a (g j') ∧
          (k1 ≤ g j' → 0 < (-1) ^ (s + j') * a (g j') ∨ ∀ i, k1 ≤ i → i ≤ g j' → a i = 0) := by
        intro j hj e
        have hjq : h j ≤ h (q - 1) := by
          rcases Nat.eq_or_lt_of_le (by omega : j ≤ q - 1) with e | e
          · rw [e]
          · exact (h1 j (q - 1) e (by omega)).le
        have hg := g1 (q - 1) q (by omega) (by omega)
        rcases h4 (q - 1) (by omega) with e' | ⟨e1, e2, e3⟩
        · omega
        · refine ⟨q - 1, by omega, by omega, e2, ?_, e3⟩
          rw [← e1]; exact h3 (q - 1) (by omega)
      rcases Nat.lt_or_ge k1 (g q) with c1 | c1
      · rcases Nat.lt_or_ge k2 (g q) with c2 | c2
        · -- beyond the window
          have hz := hc.zero _ c2
          simp only [hz, zero_mul, zero_add, sub_zero, one_mul] at hgq
          refine build (g q - 1) ?_ (by omega) hgq (Or.inl (by omega))
          intro j hj
          have := hlt j hj
          rcases Nat.eq_or_lt_of_le (by omega : h j + 1 ≤ g q) with e | e
          · exfalso
            obtain ⟨j', t1, t2, t3, t4, t5⟩ := taken j hj e
            have hj2 : g j' = k2 := by omega
            rw [show g q - 1 = k2 by omega] at hgq
            rw [hj2] at t4 t5
            rw [show s + q = s + j' + 1 by omega] at hgq
            obtain ⟨i, i1, i2, i3⟩ := nz
            rcases t5 hc.le with t5 | t5
            · rcases sgn_cases (K := K) (s + j') with ⟨u1, u2⟩ | ⟨u1, u2⟩ <;> rw [u1] at t5 <;> rw [u2] at hgq <;> linarith
            · exact i3 (t5 i i1 i2)
          · omega
        · -- inside the window
          obtain ⟨m1, m2⟩ := hc.mid _ c1 c2
          by_cases hlow : 0 ≤ (-1) ^ (s + q) * a (g q - 1) ∧ ∀ j, j < q → h j < g q - 1
          · exact build (g q - 1) hlow.2 (by omega) hlow.1 (Or.inl (by omega))
          · have hup : 0 < (-1) ^ (s + q) * a (g q) ∨ (0 ≤ (-1) ^ (s + q) * a (g q) ∧ ∀ i, k1 ≤ i → i ≤ g q → a i = 0) := by
              have e0 : (-1) ^ (s + q) * (al (g q) * a (g q) + (1 - al (g q)) * a (g q - 1)) =
                  al (g q) * ((-1) ^ (s + q) * a (g q)) + (1 - al (g q)) * ((-1) ^ (s + q) * a (g q - 1)) := by ring
              rw [e0] at hgq
              generalize hX : (-1) ^ (s + q) * a (g q) = X at *
              generalize hY : (-1) ^ (s + q) * a (g q - 1) = Y at *
              have strict : Y < 0 → 0 < X := by
                intro hYn
                by_contra hX0
                have q1 : al (g q) * X ≤ 0 := mul_nonpos_of_nonneg_of_nonpos m1.le (not_lt.1 hX0)
                have q2 : (1 - al (g q)) * Y < 0 := mul_neg_of_pos_of_neg (by linarith) hYn
                linarith
              by_cases hYn : Y < 0
              · exact Or.inl (strict hYn)
              · have hnot : ¬ ∀ j, j < q → h j < g q - 1 := fun hall => hlow ⟨not_lt.1 hYn, hall⟩
                push Not at hnot
                obtain ⟨j, hj, hj2⟩ := hnot
                have hj3 := hlt j hj
                obtain ⟨j', t1, t2, t3, t4, t5⟩ := taken j hj (by omega)
                have eY : Y = - ((-1) ^ (s + j') * a (g j')) := by
                  rw [← hY, show s + q = s + j' + 1 by omega, show g q - 1 = g j' by omega, pow_succ]
                  ring
                have hY0 : Y = 0 := by linarith [not_lt.1 hYn]
                have hX0 : 0 ≤ X := by
                  rw [hY0, mul_zero, add_zero] at hgq
                  by_contra hXn
                  have := mul_neg_of_pos_of_neg m1 (not_le.1 hXn)
                  linarith
                rcases hX0.lt_or_eq with hX1 | hX1
                · exact Or.inl hX1
                · refine Or.inr ⟨hX0, ?_⟩
                  rcases t5 (by omega) with t5 | t5
                  · rw [hY0] at eY; linarith
                  · intro i i1 i2
                    rcases Nat.eq_or_lt_of_le i2 with rfl | i3
                    · rw [← hX] at hX1
                      rcases sgn_cases (K := K) (s + q) with ⟨u1, _⟩ | ⟨u1, _⟩ <;> rw [u1] at hX1 <;> linarith
                    · exact t5 i i1 (by omega)
            refine build (g q) hlt (by omega) ?_ (Or.inr ⟨rfl, c2, fun _ => ?_⟩)
            · rcases hup with hup | hup
              · exact hup.le
              · exact hup.1
            · rcases hup with hup | hup
              · exact Or.inl hup
              · exact Or.inr hup.2
      · -- before the window
        have ho := hc.one _ c1
        simp only [ho, one_mul, sub_self, zero_mul, add_zero] at hgq
        have := hc.le
        refine build (g q) hlt (by omega) hgq (Or.inr ⟨rfl, by omega, fun hk => ?_⟩)
        rcases hgq.lt_or_eq with e | e
        · exact Or.inl e
        · refine Or.inr fun i i1 i2 => ?_
          obtain rfl : i = g q := by omega
          rcases sgn_cases (K := K) (s + q) with ⟨u1, _⟩ | ⟨u1, _⟩ <;> rw [u1] at e <;> linarith
  obtain ⟨h, h1, h2, h3, _⟩ := key L le_rfl
  exact ⟨h, s, h1, h2, h3⟩

theorem not_alt (a : Nat → K) (n : Nat) : ¬ Alt a n (n + 1) := by
  rintro ⟨g, s, g1, g2, _⟩
  have : ∀ j, j < n + 1 → j ≤ g j := by
    intro j
    induction j with
    | zero => intro _; omega
    | succ j ih => intro hj; have := ih (by omega); have := g1 j (j + 1) (by omega) hj; omega
  have h1 := this n (by omega)
  have h2 := g2 n (by omega)
  omega

/-- The weights of Boehm's insertion of `t` into span `k`, with `f` the last knot below `t`. -/
theorem cut_ratio (U V : Nat → K) (p k f m : Nat) (t : K) (hU : MonoUpTo U m) (hI : Inserted U V k t) (hkm : k + p < m) (hpk : p ≤ k)
    (hk2 : t < U (k + 1)) (hf : U f < t) (hfk : f ≤ k) (hfr : ∀ l, f < l → l ≤ k → U l = t) (hkf : k - p ≤ f) :
    Cut (ratio V k t p) (k - p) f := by
  have hmid : ∀ i, k - p < i → i ≤ k → ratio V k t p i = (t - U i) / (U (i + p) - U i) := by
    intro i h1 h2
    rw [ratio, if_neg (by omega), if_pos h2, hI.1 i h2, hI.2.2 (i + p) (by omega)]
  refine ⟨hkf, ?_, ?_, ?_⟩
  · intro i hi
    rw [ratio, if_pos (by omega)]
  · intro i h1 h2
    have a1 : U i ≤ U f := hU i f h2 (by omega)
    have a2 : U (k + 1) ≤ U (i + p) := hU (k + 1) (i + p) (by omega) (by omega)
    rw [hmid i h1 (by omega)]
    have : 0 < U (i + p) - U i := by linarith
    exact ⟨div_pos (by linarith) this, by rw [div_lt_one this]; linarith⟩
  · intro i hi
    rcases Nat.lt_or_ge k i with h | h
    · rw [ratio, if_neg (by omega), if_neg (by omega)]
    · rw [hmid i (by omega) h, hfr i hi h, sub_self, zero_div]

/-- At a knot of full multiplicity the spline is a coefficient. -/
theorem spline_full (U : Nat → K) (p n m k : Nat) (t : K) (hU : MonoUpTo U m) (hkm : k + p < m) (hpk : p ≤ k) (hkn : k < n)
    (hk2 : U k < U (k + 1)) (hr : ∀ l, k - p < l → l ≤ k → U l = t) (a : Nat → K) : spline U p n a t k = a (k - p) := by
  have hz : ∀ q, q ≤ p → ∀ l, k < l + q → cox (spike k) U t q l = 0 := by
    intro q
    induction q with
    | zero => intro _ l hl; exact cox_spike_out k U t 0 l (Or.inl (by omega))
    | succ q ih =>
      intro hq l hl
      rcases Nat.lt_or_ge k l with h | h
      · exact cox_spike_out k U t _ l (Or.inl h)
      · rw [cox, hr l (by omega) h, sub_self, zero_div, zero_mul, zero_add, ih (by omega) (l + 1) (by omega), mul_zero]
  have h1 := cox_sum_one U m hU k hk2 t p hpk hkm
  have e : ∀ r ∈ range (p + 1), r ≠ 0 → cox (spike k) U t p (k - p + r) = 0 := fun r _ hr0 => hz p le_rfl _ (by omega)
  rw [sum_eq_single 0 e (fun h => absurd (mem_range.2 (by omega)) h)] at h1
  rw [spline_window U p n a t k hpk hkn, sum_eq_single 0 (fun r hr hr0 => by rw [e r hr hr0, mul_zero])
    (fun h => absurd (mem_range.2 (by omega)) h), h1, mul_one, Nat.add_zero]

/-- The spans of the new knots. -/
theorem span_back (U V : Nat → K) (k : Nat) (t : K) (hI : Inserted U V k t) (hk1 : U k ≤ t) (hk2 : t < U (k + 1)) (x : K) (i' : Nat)
    (h1 : V i' ≤ x) (h2 : x < V (i' + 1)) : ∃ i, SpanMap k i i' ∧ U i ≤ x ∧ x < U (i + 1) := by
  rcases Nat.lt_trichotomy i' k with h | h | h
  · rw [hI.1 i' (by omega)] at h1
    rw [hI.1 (i' + 1) (by omega)] at h2
    exact ⟨i', Or.inl ⟨h, rfl⟩, h1, h2⟩
  · subst h
    rw [hI.1 i' le_rfl] at h1
    rw [hI.2.1] at h2
    exact ⟨i', Or.inr (Or.inl ⟨rfl, Or.inl rfl⟩), h1, h2.trans hk2⟩
  · rcases Nat.eq_or_lt_of_le (Nat.succ_le_of_lt h) with rfl | h'
    · rw [Nat.succ_eq_add_one, hI.2.1] at h1
      rw [Nat.succ_eq_add_one, hI.2.2 (k + 1) (by omega)] at h2
      exact ⟨k, Or.inr (Or.inl ⟨rfl, Or.inr rfl⟩), hk1.trans h1, h2⟩
    · obtain ⟨i, rfl⟩ : ∃ i, i' = i + 1 := ⟨i' - 1, by omega⟩
      rw [hI.2.2 i (by omega)] at h1
      rw [hI.2.2 (i + 1) (by omega)] at h2
      exact ⟨i, Or.inr (Or.inr ⟨by omega, rfl⟩), h1, h2⟩

/-- What is kept while the points are inserted: `b` are the coefficients for the knots `V` after `D` insertions, all points up to `tau` have been
treated, `g` are `c` positions: `0, ..., lo`, the first nonzero coefficient, and zeros of which the last is at most `e - p`. -/
structure WS (a0 : Nat → K) (n p lo hi : Nat) (A B T : K) (F : K → K) (V b : Nat → K) (D : Nat) (g : Nat → Nat) (c e : Nat)
    (tau nu : K) : Prop where
  mono : MonoUpTo V (n + D + p + 1)
  pull : ∀ L, Alt b (n + D) L → Alt a0 n L
  vp : V p ≤ A
  vn : V (n + D) = T
  vlo : V lo = A
  vhi : V (hi + D + p) = B
  zlo : ∀ i, i < lo → b i = 0
  nlo : b lo ≠ 0
  zhi : ∀ i, hi + D ≤ i → b i = 0
  val : ∀ x, tau < x → x < T → ∀ i, V i ≤ x → x < V (i + 1) → p ≤ i → i < n + D → spline V p (n + D) b x i = F x
  nv : ∀ i, nu < V (i + 1) → V i < V (i + 1) → lo ≤ i → i < hi + D + p → ∃ l, i - p ≤ l ∧ l ≤ i ∧ b l ≠ 0
  gs : ∀ i j, i < j → j < c → g i < g j
  g0 : ∀ i, i ≤ lo → g i = i
  gz : ∀ i, lo < i → i < c → b (g i) = 0 ∧ g i + p ≤ e
  ve : V e ≤ tau
  er : e < n + D
  mul : ∀ i, nu < V i → V i < T → V i < V (i + p)

theorem ws_insert (a0 : Nat → K) (n p lo hi : Nat) (A B T : K) (F : K → K) (V b : Nat → K) (D : Nat) (g : Nat → Nat) (c e : Nat)
    (tau t : K) (hlh : lo < hi) (hhn : hi ≤ n) (W : WS a0 n p lo hi A B T F V b D g c e tau t) (htau : tau < t) (hA : A < t) (hB : t < B) (hT : t < T) (k f : Nat)
    (hk1 : V k ≤ t) (hk2 : t < V (k + 1)) (hkn : k < n + D) (hpk : p ≤ k) (hf : V f < t) (hfk : f ≤ k) (hfr : ∀ l, f < l → l ≤ k → V l = t)
    (hkf : k - p ≤ f) (nz : ∃ i, k - p ≤ i ∧ i ≤ f ∧ b i ≠ 0) (hef : e ≤ f) :
    WS a0 n p lo hi A B T F (knotInsertionKv V t k 1) (boehmPts (knotInsertionKv V t k 1) k t p b) (D + 1) g c e tau t := by
  have hI : Inserted V (knotInsertionKv V t k 1) k t := by
    refine ⟨fun l hl => ?_, ?_, fun l hl => ?_⟩
    · rw [knotInsertionKv, if_pos (by omega)]
    · rw [knotInsertionKv, if_neg (by omega), if_pos (by omega)]
    · rw [knotInsertionKv, if_neg (by omega), if_neg (by omega), Nat.add_sub_cancel]
  have hm' := kv_mono V t k (n + D + p + 1) W.mono (by omega) hk1 hk2.le 1
  generalize hV' : knotInsertionKv V t k 1 = V' at *
  have hcut := cut_ratio V V' p k f (n + D + p + 1) t W.mono hI (by omega) hpk hk2 hf hfk hfr hkf
  have hlof : lo ≤ f := by
    by_contra hcon
    rcases Nat.lt_or_ge k lo with q | q
    · have := W.mono (k + 1) lo q (by omega)
      rw [W.vlo] at this; linarith
    · have := hfr lo (by omega) q
      rw [W.vlo] at this; linarith
  have hkhi : k < hi + D + p := by
    by_contra hcon
    have := W.mono (hi + D + p) k (by omega) (by omega)
    rw [W.vhi] at this; linarith
  have hpos : ∀ i, i ≤ f → 0 < ratio V' k t p i := by
    intro i hi
    rcases Nat.lt_or_ge (k - p) i with q | q
    · exact (hcut.mid i q hi).1
    · rw [hcut.one i q]; exact one_pos
  refine ⟨by rw [show n + (D + 1) + p + 1 = n + D + p + 1 + 1 by omega]; exact hm', ?_, ?_, ?_, ?_, ?_, ?_, ?_, ?_, ?_, ?_, W.gs, W.g0, ?_, ?_, ?_, ?_⟩
  · intro L hL
    exact W.pull L (alt_pull b (ratio V' k t p) (k - p) f (n + D) hcut (by omega) nz L hL)
  · rw [hI.1 p hpk]; exact W.vp
  · rw [show n + (D + 1) = n + D + 1 by omega, hI.2.2 (n + D) hkn]; exact W.vn
  · rw [hI.1 lo (by omega)]; exact W.vlo
  · rw [show hi + (D + 1) + p = hi + D + p + 1 by omega, hI.2.2 _ hkhi]; exact W.vhi
  · intro i hi
    rw [boehmPts, W.zlo i hi, W.zlo (i - 1) (by omega)]
    ring
  · rw [boehmPts]
    rcases Nat.eq_zero_or_pos lo with h0 | h0
    · have : ratio V' k t p lo = 1 := hcut.one lo (by omega)
      rw [this, one_mul, sub_self, zero_mul, add_zero]
      exact W.nlo
    · rw [W.zlo (lo - 1) (by omega), mul_zero, add_zero]
      exact mul_ne_zero (hpos lo hlof).ne' W.nlo
  · intro i hi
    rw [boehmPts, W.zhi i (by omega), W.zhi (i - 1) (by omega)]
    ring
  · intro x x1 x2 i' i1 i2 i3 i4
    obtain ⟨i, j1, j2, j3⟩ := span_back V V' k t hI hk1 hk2 x i' i1 i2
    have hi : p ≤ i ∧ i < n + D := by
      rcases j1 with ⟨q1, q2⟩ | ⟨q1, q2 | q2⟩ | ⟨q1, q2⟩ <;> omega
    rw [show n + (D + 1) = n + D + 1 by omega,
      boehm_spline V V' (n + D + p + 1) k t hI hm' i i' j1 (i1.trans_lt i2) x p (n + D) (by omega) hpk hkn b]
    exact W.val x x1 x2 i j2 j3 hi.1 hi.2
  · intro i' i1 i2 i3 i4
    have hik : k + 1 ≤ i' := by
      by_contra hcon
      rcases Nat.lt_or_ge i' k with q | q
      · rw [hI.1 (i' + 1) (by omega)] at i1
        have := W.mono (i' + 1) k (by omega) (by omega)
        linarith
      · obtain rfl : i' = k := by omega
        rw [hI.2.1] at i1
        exact lt_irrefl _ i1
    obtain ⟨i, rfl⟩ : ∃ i, i' = i + 1 := ⟨i' - 1, by omega⟩
    rw [hI.2.2 (i + 1) (by omega)] at i1 i2
    have hsp : V i < V (i + 1) := by
      rcases Nat.eq_or_lt_of_le (by omega : k ≤ i) with rfl | q
      · exact hk1.trans_lt hk2
      · rwa [hI.2.2 i q] at i2
    obtain ⟨l, l1, l2, l3⟩ := W.nv i i1 hsp (by omega) (by omega)
    by_contra hcon
    push Not at hcon
    have hall : ∀ d, d ≤ p → d ≤ i → b (i - d) = 0 := by
      intro d
      induction d with
      | zero =>
        intro _ _
        have := hcon (i + 1) (by omega) le_rfl
        rw [boehmPts, hcut.zero (i + 1) (by omega)] at this
        simpa using this
      | succ d ih =>
        intro d1 d2
        have h0 := ih (by omega) (by omega)
        have := hcon (i - d) (by omega) (by omega)
        rw [boehmPts, h0, mul_zero, zero_add] at this
        rcases mul_eq_zero.1 this with h | h
        · exfalso
          have hr : ratio V' k t p (i - d) < 1 := by
            rcases Nat.lt_or_ge f (i - d) with q | q
            · rw [hcut.zero _ q]; exact zero_lt_one
            · exact (hcut.mid _ (by omega) q).2
          linarith
        · rw [show i - (d + 1) = i - d - 1 by omega]; exact h
    apply l3
    have := hall (i - l) (by omega) (by omega)
    rwa [show i - (i - l) = l by omega] at this
  · intro i i1 i2
    obtain ⟨z1, z2⟩ := W.gz i i1 i2
    refine ⟨?_, z2⟩
    rw [boehmPts, hcut.one (g i) (by omega), z1]
    ring
  · rw [hI.1 e (by omega)]; exact W.ve
  · have := W.er; omega
  · intro i h1 h2
    have hik : k + 2 ≤ i := by
      by_contra hcon
      rcases Nat.lt_or_ge k i with q | q
      · obtain rfl : i = k + 1 := by omega
        rw [hI.2.1] at h1
        exact lt_irrefl _ h1
      · rw [hI.1 i q] at h1
        have := W.mono i k q (by omega)
        linarith
    obtain ⟨j, rfl⟩ : ∃ j, i = j + 1 := ⟨i - 1, by omega⟩
    rw [hI.2.2 j (by omega)] at h1 h2 ⊢
    rw [show j + 1 + p = j + p + 1 by omega, hI.2.2 (j + p) (by omega)]
    exact W.mul j h1 h2

theorem ws_done (a0 : Nat → K) (n p lo hi : Nat) (A B T : K) (F : K → K) (g : Nat → Nat) (c e : Nat)
    (tau t : K) (hlh : lo < hi) (hhn : hi ≤ n) (hc : lo < c) (htau : tau < t) (hA : A < t) (hT : t < T) (V b : Nat → K) (D k f : Nat)
    (W : WS a0 n p lo hi A B T F V b D g c e tau t) (hk2 : t < V (k + 1)) (hkn : k < n + D) (hpk : p ≤ k) (hf : V f < t) (hfk : f < k)
    (hfr : ∀ l, f < l → l ≤ k → V l = t) (hkf : k - p ≤ f) (hz : ∀ i, k - p ≤ i → i ≤ f → b i = 0) :
    ∃ V' b' D' g' e', WS a0 n p lo hi A B T F V' b' D' g' (c + 1) e' t t := by
  have hVk : V k = t := hfr k hfk le_rfl
  have hlof : lo ≤ f := by
    by_contra hcon
    rcases Nat.lt_or_ge k lo with q | q
    · have := W.mono (k + 1) lo q (by omega)
      rw [W.vlo] at this; linarith
    · have := hfr lo (by omega) q
      rw [W.vlo] at this; linarith
  have hlok : lo < k - p := by
    by_contra hcon
    exact W.nlo (hz lo (by omega) hlof)
  have hek : e < k := by
    by_contra hcon
    have h1 := W.ve
    have h2 := W.er
    have := W.mono k e (by omega) (by omega)
    linarith
  refine ⟨V, b, D, fun i => if i < c then g i else k - p, k, { W with
    val := fun x x1 => W.val x (htau.trans x1), gs := ?_, g0 := ?_, gz := ?_, ve := hVk.le, er := hkn }⟩
  · intro i j hij hj
    rw [if_pos (by omega : i < c)]
    by_cases h : j < c
    · rw [if_pos h]; exact W.gs i j hij h
    · rw [if_neg h]
      rcases Nat.lt_or_ge lo i with q | q
      · have := (W.gz i q (by omega)).2; omega
      · rw [W.g0 i q]; omega
  · intro i hi
    rw [if_pos (by omega)]; exact W.g0 i hi
  · intro i h1 h2
    by_cases h : i < c
    · rw [if_pos h]
      obtain ⟨q1, q2⟩ := W.gz i h1 h
      exact ⟨q1, by omega⟩
    · rw [if_neg h]
      exact ⟨hz _ le_rfl hkf, by omega⟩

theorem ws_inner (a0 : Nat → K) (n p lo hi : Nat) (A B T : K) (F : K → K) (g : Nat → Nat) (c e : Nat)
    (tau t : K) (hp : 1 ≤ p) (hlh : lo < hi) (hhn : hi ≤ n) (hc : lo < c) (htau : tau < t) (hA : A < t) (hB : t < B) (hT : t < T) (hF : F t = 0) : ∀ (q : Nat) (V b : Nat → K) (D k f : Nat),
    WS a0 n p lo hi A B T F V b D g c e tau t → 
    V k ≤ t → t < V (k + 1) → k < n + D → p ≤ k → V f < t → f ≤ k → (∀ l, f < l → l ≤ k → V l = t) →
    k - f + q = p → (k = f → ∃ i, k - p ≤ i ∧ i ≤ f ∧ b i ≠ 0) →
    ∃ V' b' D' g' e', WS a0 n p lo hi A B T F V' b' D' g' (c + 1) e' t t := by
  intro q
  induction q with
  | zero =>
    intro V b D k f W hk1 hk2 hkn hpk hf hfk hfr hq hnz
    clear hnz
    have hkf : f = k - p := by omega
    have hval := W.val t htau hT k hk1 hk2 hpk hkn
    rw [spline_full V p (n + D) (n + D + p + 1) k t W.mono (by omega) hpk hkn (hk1.trans_lt hk2)
      (fun l l1 l2 => hfr l (by omega) l2), hF] at hval
    exact ws_done a0 n p lo hi A B T F g c e tau t hlh hhn hc htau hA hT V b D k f W hk2 hkn hpk hf (by omega) hfr (by omega)
      (fun i i1 i2 => by
        obtain rfl : i = k - p := le_antisymm (i2.trans hkf.le) i1
        exact hval)
  | succ q ih =>
    intro V b D k f W hk1 hk2 hkn hpk hf hfk hfr hq hnz
    have hef : e ≤ f := by
      by_contra hcon
      have h1 := W.ve
      have h2 := W.er
      rcases Nat.lt_or_ge k e with r | r
      · have := W.mono (k + 1) e r (by omega)
        linarith
      · have := hfr e (by omega) r
        linarith
    by_cases hz : f < k ∧ ∀ i, k - p ≤ i → i ≤ f → b i = 0
    · exact ws_done a0 n p lo hi A B T F g c e tau t hlh hhn hc htau hA hT V b D k f W hk2 hkn hpk hf hz.1 hfr (by omega) hz.2
    · have nz : ∃ i, k - p ≤ i ∧ i ≤ f ∧ b i ≠ 0 := by
        rcases Nat.eq_or_lt_of_le hfk with h | h
        · exact hnz h.symm
        · by_contra hcon
          push Not at hcon
          exact hz ⟨h, hcon⟩
      have W' := ws_insert a0 n p lo hi A B T F V b D g c e tau t hlh hhn W htau hA hB hT k f hk1 hk2 hkn hpk hf hfk hfr (by omega) nz hef
      have v0 : ∀ l, l ≤ k → knotInsertionKv V t k 1 l = V l := fun l hl => by rw [knotInsertionKv, if_pos (by omega)]
      have v1 : knotInsertionKv V t k 1 (k + 1) = t := by rw [knotInsertionKv, if_neg (by omega), if_pos (by omega)]
      refine ih _ _ (D + 1) (k + 1) f W' v1.le ?_ (by omega) (by omega) (by rw [v0 f hfk]; exact hf) (by omega) ?_ (by omega)
        (fun h => absurd h (by omega))
      · rw [knotInsertionKv, if_neg (by omega), if_neg (by omega), Nat.add_sub_cancel]; exact hk2
      · intro l l1 l2
        rcases Nat.eq_or_lt_of_le l2 with rfl | l3
        · exact v1
        · rw [v0 l (by omega)]; exact hfr l l1 (by omega)

theorem last_below (V : Nat → K) (t : K) : ∀ k, V k ≤ t → (∃ j, j ≤ k ∧ V j < t) → (∀ i, i < k → V i ≤ V (i + 1)) →
    ∃ f, f ≤ k ∧ V f < t ∧ ∀ l, f < l → l ≤ k → V l = t := by
  intro k
  induction k with
  | zero =>
    rintro _ ⟨j, hj, h⟩ _
    obtain rfl : j = 0 := by omega
    exact ⟨0, le_rfl, h, fun l _ _ => by omega⟩
  | succ k ih =>
    rintro h1 ⟨j, hj, h⟩ hm
    rcases h1.lt_or_eq with h2 | h2
    · exact ⟨k + 1, le_rfl, h2, fun l _ _ => by omega⟩
    · have hjk : j ≤ k := by
        by_contra hcon
        rw [show j = k + 1 by omega, h2] at h
        exact lt_irrefl _ h
      obtain ⟨f, f1, f2, f3⟩ := ih (by rw [← h2]; exact hm k (by omega)) ⟨j, hjk, h⟩ (fun i hi => hm i (by omega))
      refine ⟨f, by omega, f2, fun l l1 l2 => ?_⟩
      rcases Nat.eq_or_lt_of_le l2 with rfl | l3
      · exact h2
      · exact f3 l l1 (by omega)

theorem ws_point (a0 : Nat → K) (n p lo hi : Nat) (A B T : K) (F : K → K) (V b : Nat → K) (D : Nat) (g : Nat → Nat) (c e : Nat)
    (tau t : K) (hp : 1 ≤ p) (hpn : p < n) (hlh : lo < hi) (hhn : hi ≤ n) (hc : lo < c) (W : WS a0 n p lo hi A B T F V b D g c e tau tau)
    (htau : tau < t) (hA : A < t) (hB : t < B) (hT : t < T) (hF : F t = 0) :
    ∃ V' b' D' g' e', WS a0 n p lo hi A B T F V' b' D' g' (c + 1) e' t t := by
  obtain ⟨k, _, k1, k2, k3, k4⟩ := spanLoop_spec V t (n + D) p (n + D) (by omega) (by omega) (W.vp.trans hA.le) (by rw [W.vn]; exact hT)
  have hlok : lo ≤ k := by
    by_contra hcon
    have := W.mono (k + 1) lo (by omega) (by omega)
    rw [W.vlo] at this; linarith
  have hkhi : k < hi + D + p := by
    by_contra hcon
    have := W.mono (hi + D + p) k (by omega) (by omega)
    rw [W.vhi] at this; linarith
  obtain ⟨f, f1, f2, f3⟩ := last_below V t k k3 ⟨lo, hlok, by rw [W.vlo]; exact hA⟩ (fun i hi => W.mono i (i + 1) (by omega) (by omega))
  have hkf : k ≤ f + p := by
    by_contra hcon
    have e1 := f3 (f + 1) (by omega) (by omega)
    have e2 := f3 (f + 1 + p) (by omega) (by omega)
    have := W.mul (f + 1) (by rw [e1]; exact htau) (by rw [e1]; exact hT)
    rw [e1, e2] at this
    exact lt_irrefl _ this
  have W' : WS a0 n p lo hi A B T F V b D g c e tau t :=
    { W with nv := fun i h => W.nv i (htau.trans h), mul := fun i h => W.mul i (htau.trans h) }
  refine ws_inner a0 n p lo hi A B T F g c e tau t hp hlh hhn hc htau hA hB hT hF (p - (k - f)) V b D k f W' k3 k4 k2 k1 f2 f1 f3
    (by omega) ?_
  rintro rfl
  exact W.nv k (htau.trans k4) (f2.trans k4) hlok hkhi

theorem ws_all (a0 : Nat → K) (n p lo hi : Nat) (A B T : K) (F : K → K) (V : Nat → K) (hp : 1 ≤ p) (hpn : p < n) (hlh : lo < hi) (hhn : hi ≤ n)
    (t : Nat → K) (hA : A < t lo) (hB : t (hi - 1) < B) (hT : t (hi - 1) < T) (hF : ∀ i, lo ≤ i → i < hi → F (t i) = 0)
    (hs : ∀ i j, lo ≤ i → i < j → j < hi → t i < t j)
    (W : WS a0 n p lo hi A B T F V a0 0 id (lo + 1) lo A A) : ∀ j, j ≤ hi - lo →
    ∃ V b D g e tau, WS a0 n p lo hi A B T F V b D g (lo + 1 + j) e tau tau ∧ (∀ i, lo + j ≤ i → i < hi → tau < t i) ∧ tau < B := by
  have hsw : ∀ i, lo ≤ i → i < hi → A < t i ∧ t i < B ∧ t i < T := by
    intro i h1 h2
    refine ⟨?_, ?_, ?_⟩
    · rcases Nat.eq_or_lt_of_le h1 with rfl | h
      · exact hA
      · exact hA.trans (hs lo i le_rfl h h2)
    · rcases Nat.eq_or_lt_of_le (by omega : i ≤ hi - 1) with rfl | h
      · exact hB
      · exact (hs i (hi - 1) h1 h (by omega)).trans hB
    · rcases Nat.eq_or_lt_of_le (by omega : i ≤ hi - 1) with rfl | h
      · exact hT
      · exact (hs i (hi - 1) h1 h (by omega)).trans hT
  intro j
  induction j with
  | zero => intro _; exact ⟨V, a0, 0, id, lo, A, W, fun i h1 h2 => (hsw i h1 h2).1, (hsw lo le_rfl hlh).1.trans (hsw lo le_rfl hlh).2.1⟩
  | succ j ih =>
    intro hj
    obtain ⟨V', b, D, g, e, tau, W', h1, h2⟩ := ih (by omega)
    obtain ⟨s1, s2, s3⟩ := hsw (lo + j) (by omega) (by omega)
    obtain ⟨V2, b2, D2, g2, e2, W2⟩ := ws_point a0 n p lo hi A B T F V' b D g (lo + 1 + j) e tau (t (lo + j)) hp hpn hlh hhn (by omega) W'
      (h1 _ le_rfl (by omega)) s1 s2 s3 (hF _ (by omega) (by omega))
    exact ⟨V2, b2, D2, g2, e2, _, W2, fun i i1 i2 => hs _ i (by omega) (by omega) i2, s2⟩

theorem ws_false (a0 : Nat → K) (n p lo hi : Nat) (A B T : K) (F : K → K) (V b : Nat → K) (D : Nat) (g : Nat → Nat) (e : Nat) (tau : K)
    (hlh : lo < hi) (hhn : hi ≤ n) (hB : tau < B) (W : WS a0 n p lo hi A B T F V b D g (hi + 1) e tau tau) : False := by
  have he : e < hi + D + p := by
    by_contra hcon
    have h1 := W.er
    have h2 := W.ve
    have := W.mono (hi + D + p) e (by omega) (by omega)
    rw [W.vhi] at this; linarith
  have hg : ∀ i, i < hi + 1 → g i < hi + D := by
    intro i hi'
    rcases Nat.lt_or_ge lo i with h | h
    · have := (W.gz i h hi').2; omega
    · rw [W.g0 i h]; omega
  refine not_alt a0 n (W.pull (n + 1) ?_)
  obtain ⟨s, hsgn⟩ : ∃ s, 0 ≤ (-1) ^ (s + lo) * b lo := by
    rcases le_total 0 (b lo) with h | h
    · exact ⟨lo, by rw [← two_mul, pow_mul]; simpa using h⟩
    · exact ⟨lo + 1, by rw [show lo + 1 + lo = 2 * lo + 1 by omega, pow_succ, pow_mul]; simpa using h⟩
  refine ⟨fun i => if i < hi + 1 then g i else i - (hi + 1) + hi + D, s, ?_, ?_, ?_⟩
  · intro i j hij hj
    dsimp only
    by_cases h1 : j < hi + 1
    · rw [if_pos h1, if_pos (by omega)]; exact W.gs i j hij h1
    · rw [if_neg h1]
      by_cases h2 : i < hi + 1
      · rw [if_pos h2]; have := hg i h2; omega
      · rw [if_neg h2]; omega
  · intro j hj
    dsimp only
    by_cases h1 : j < hi + 1
    · rw [if_pos h1]; have := hg j h1; omega
    · rw [if_neg h1]; omega
  · intro j hj
    dsimp only
    by_cases h1 : j < hi + 1
    · rw [if_pos h1]
      rcases Nat.lt_trichotomy j lo with h | h | h
      · rw [W.g0 j (by omega), W.zlo j h, mul_zero]
      · rw [h, W.g0 lo le_rfl]; exact hsgn
      · rw [(W.gz j h h1).1, mul_zero]
    · rw [if_neg h1, W.zhi _ (by omega), mul_zero]

/-- A spline over simple inner knots that is zero at points which satisfy the condition of Schoenberg and Whitney is zero. -/
theorem schoenberg_whitney (U : Nat → K) (p n : Nat) (hp : 1 ≤ p) (hpn : p < n) (hmono : ∀ i j, i ≤ j → U i ≤ U j)
    (hlo : ∀ i, i ≤ p → U i = U p) (hhi : ∀ i, n ≤ i → U i = U n) (hstr : ∀ i, p ≤ i → i < n → U i < U (i + 1))
    (t : Nat → K) (hs : ∀ i j, i < j → j < n → t i < t j) (ht : t (n - 1) = U n)
    (hsw : ∀ i, 0 < i → i + 1 < n → U i < t i ∧ t i < U (i + p + 1))
    (a : Nat → K) (h0 : a 0 = 0) (hl : ∀ i, n ≤ i + 1 → a i = 0)
    (hz : ∀ i, 0 < i → i + 1 < n → ∀ k, U k ≤ t i → t i < U (k + 1) → p ≤ k → k < n → spline U p n a (t i) k = 0) : ∀ i, a i = 0 := by
  classical
  by_contra hne
  push Not at hne
  obtain ⟨lo, hlo1, hlo2⟩ : ∃ lo, a lo ≠ 0 ∧ ∀ i, i < lo → a i = 0 :=
    ⟨Nat.find hne, Nat.find_spec hne, fun i hi => by simpa using Nat.find_min hne hi⟩
  have hlo0 : 0 < lo := by
    rcases Nat.eq_zero_or_pos lo with rfl | h
    · exact absurd h0 hlo1
    · exact h
  have hlon : lo + 1 < n := by
    by_contra hcon
    exact hlo1 (hl lo (by omega))
  have hex : ∃ h, lo < h ∧ ∀ i, h ≤ i → i ≤ h + p → a i = 0 := ⟨n - 1, by omega, fun i h1 _ => hl i (by omega)⟩
  obtain ⟨h, ⟨hh1, hh2⟩, hh3⟩ : ∃ h, (lo < h ∧ ∀ i, h ≤ i → i ≤ h + p → a i = 0) ∧
      ∀ j, j < h → ¬ (lo < j ∧ ∀ i, j ≤ i → i ≤ j + p → a i = 0) :=
    ⟨Nat.find hex, Nat.find_spec hex, fun j hj => Nat.find_min hex hj⟩
  have hhn : h ≤ n - 1 := by
    by_contra hcon
    exact hh3 (n - 1) (by omega) ⟨by omega, fun i h1 _ => hl i (by omega)⟩
  have hmu : MonoUpTo U (n + 0 + p + 1) := fun i j hij _ => hmono i j hij
  let b : Nat → K := fun i => if i < h then a i else 0
  let F : K → K := fun x => if e : ∃ i, (U i ≤ x ∧ x < U (i + 1)) ∧ p ≤ i ∧ i < n then spline U p n b x e.choose else 0
  have hF : ∀ x i, U i ≤ x → x < U (i + 1) → p ≤ i → i < n → spline U p n b x i = F x := by
    intro x i h1 h2 h3 h4
    have e : ∃ i, (U i ≤ x ∧ x < U (i + 1)) ∧ p ≤ i ∧ i < n := ⟨i, ⟨h1, h2⟩, h3, h4⟩
    have hc := e.choose_spec
    have : F x = spline U p n b x e.choose := dif_pos e
    rw [this, span_unique U _ hmu x i e.choose (by omega) (by omega) h1 h2 hc.1.1 hc.1.2]
  have W : WS b n p lo h (U lo) (U (h + p)) (U n) F U b 0 id (lo + 1) lo (U lo) (U lo) := by
    refine ⟨hmu, fun _ h => h, ?_, rfl, rfl, rfl, ?_, ?_, ?_, ?_, ?_, fun i j h _ => h, fun i _ => rfl, ?_, le_rfl, ?_, ?_⟩
    · rcases Nat.lt_or_ge p lo with q | q
      · exact hmono _ _ q.le
      · rw [hlo lo q]
    · intro i hi
      exact (if_pos (by omega)).trans (hlo2 i hi)
    · have : b lo = a lo := if_pos hh1
      rw [this]; exact hlo1
    · intro i hi
      exact if_neg (by omega)
    · intro x _ _ i h1 h2 h3 h4
      exact hF x i h1 h2 h3 h4
    · intro i _ _ i1 i2
      rcases Nat.lt_or_ge lo (i - p) with q | q
      · have := hh3 (i - p) (by omega)
        push Not at this
        obtain ⟨l, l1, l2, l3⟩ := this q
        refine ⟨l, l1, by omega, ?_⟩
        have hlh : l < h := by
          by_contra hcon
          exact l3 (hh2 l (by omega) (by omega))
        have : b l = a l := if_pos hlh
        rw [this]; exact l3
      · have : b lo = a lo := if_pos hh1
        exact ⟨lo, q, i1, by rw [this]; exact hlo1⟩
    · intro i i1 i2
      omega
    · omega
    · intro i i1 i2
      have hin : i < n := by
        by_contra hcon
        rw [hhi i (by omega)] at i2
        exact lt_irrefl _ i2
      have hpi : p ≤ i := by
        by_contra hcon
        rw [hlo i (by omega)] at i1
        rcases Nat.lt_or_ge p lo with q | q
        · exact absurd (hmono _ _ q.le) (not_le.2 i1)
        · rw [hlo lo q] at i1; exact lt_irrefl _ i1
      exact (hstr i hpi hin).trans_le (hmono _ _ (by omega))
  have hend : ∀ i, i + 1 < n → t i < U n := fun i hi => ht ▸ hs i (n - 1) (by omega) (by omega)
  have hzero : ∀ i, lo ≤ i → i < h → F (t i) = 0 := by
    intro i i1 i2
    obtain ⟨s1, s2⟩ := hsw i (by omega) (by omega)
    have hps : U p ≤ t i := by
      rcases Nat.lt_or_ge p i with q | q
      · exact (hmono _ _ q.le).trans s1.le
      · rw [hlo i q] at s1; exact s1.le
    obtain ⟨k, _, k1, k2, k3, k4⟩ := spanLoop_spec U (t i) n p n (by omega) (by omega) hps (hend i (by omega))
    rw [← hF (t i) k k3 k4 k1 k2, ← hz i (by omega) (by omega) k k3 k4 k1 k2, spline_window _ _ _ _ _ _ k1 k2, spline_window _ _ _ _ _ _ k1 k2]
    apply sum_congr rfl
    intro r hr
    have hr := mem_range.1 hr
    have hk : k < i + p + 1 := by
      by_contra hcon
      exact absurd (hmono (i + p + 1) k (by omega)) (not_le.2 (k3.trans_lt s2))
    congr 1
    by_cases q : k - p + r < h
    · exact if_pos q
    · rw [hh2 (k - p + r) (by omega) (by omega)]
      exact if_neg q
  obtain ⟨V, b', D, g, e, tau, W', _, hB⟩ := ws_all b n p lo h (U lo) (U (h + p)) (U n) F U hp hpn hh1 (by omega) t
    (hsw lo hlo0 hlon).1 (by have := (hsw (h - 1) (by omega) (by omega)).2; rwa [show h - 1 + p + 1 = h + p by omega] at this)
    (hend _ (by omega)) hzero (fun i j _ h1 h2 => hs i j h1 (by omega)) W (h - lo) le_rfl
  rw [show lo + 1 + (h - lo) = h + 1 by omega] at W'
  exact ws_false b n p lo h (U lo) (U (h + p)) (U n) F V b' D g e tau hh1 (by omega) hB W'

end Verif.Knot
