import Verif.Knot.Props5
import Verif.Knot.Whitney
import Mathlib.LinearAlgebra.FiniteDimensional.Basic
import Mathlib.LinearAlgebra.Matrix.ToLin

/-!
# C251: the matrix of `interpolate_curve` is regular
-/

set_option linter.unusedSectionVars false

namespace Verif.Knot

open Verif.Nurbs Finset

variable {K : Type} [Field K] [LinearOrder K] [IsStrictOrderedRing K]

/-- **C251** The matrix `build_coefficient_matrix` makes for the parameters and knots of `interpolate_curve` is regular. -/
theorem C251_regular (n p : Nat) (hp : 1 ≤ p) (hn : p < n) (uk : Nat → K) (u0 : uk 0 = 0) (u1 : uk (n - 1) = 1)
    (us : ∀ i j, i < j → j < n → uk i < uk j) (x : Nat → K)
    (hx : ∀ i, i < n → ∑ l ∈ range n, coefRow p n (computeKnots p n uk) (uk i) l * x l = 0) : ∀ l, l < n → x l = 0 := by
  have hk := C251_knots p n hp hn uk u0 u1 us (fun _ _ => 0)
  obtain ⟨hcl, k0, k1, ksw, kstr⟩ := hk
  have hlo : ∀ i, i ≤ p → computeKnots p n uk i = 0 := computeKnots_lo p n uk
  have hhi : ∀ i, n ≤ i → computeKnots p n uk i = 1 := fun i hi => computeKnots_hi p n uk i (by omega) hi
  have hstep : ∀ i, computeKnots p n uk i ≤ computeKnots p n uk (i + 1) := by
    intro i
    rcases Nat.lt_or_ge i p with q | q
    · rw [hlo i q.le, hlo (i + 1) q]
    · rcases Nat.lt_or_ge i n with r | r
      · exact (kstr i q r).le
      · rw [hhi i r, hhi (i + 1) (by omega)]
  have hspan : ∀ i, i < n → ∀ k, Sp (computeKnots p n uk) n (uk i) k → spline (computeKnots p n uk) p n x (uk i) k = 0 := by
    intro i hi k hs
    have b0 : 0 ≤ uk i := by
      rcases Nat.eq_zero_or_pos i with rfl | q
      · rw [u0]
      · rw [← u0]; exact (us 0 i q hi).le
    have b1 : uk i ≤ 1 := by
      rcases Nat.lt_or_ge i (n - 1) with q | q
      · rw [← u1]; exact (us i _ q (by omega)).le
      · rw [show i = n - 1 by omega, u1]
    have h1 := (coefRow_sum _ hcl.valid (uk i) (le_of_eq_of_le k0 b0) (le_of_le_of_eq b1 k1.symm) x).2
    rw [specVal_eq _ hcl.valid x (uk i) k hs] at h1
    exact h1.symm.trans (hx i hi)
  have hx0 : x 0 = 0 := by
    have h := hspan 0 (by omega) p ⟨hn, kstr p le_rfl hn, by rw [k0, u0], Or.inl (by rw [u0, ← k0]; exact kstr p le_rfl hn)⟩
    have hc := cox_right p (computeKnots p n uk) (uk 0) (by rw [u0, ← k0]; exact (kstr p le_rfl hn).ne') p le_rfl
      (fun k _ h2 => by rw [hlo k h2, u0])
    rw [spline, sum_eq_single 0 (fun l _ hl => by rw [hc, if_neg (by omega), mul_zero]) (fun h => absurd (mem_range.2 (by omega)) h),
      hc, if_pos (by omega), mul_one] at h
    exact h
  have hxn : x (n - 1) = 0 := by
    have hlt : computeKnots p n uk (n - 1) < 1 := by
      have := kstr (n - 1) (by omega) (by omega)
      rwa [show n - 1 + 1 = n by omega, k1] at this
    have h := hspan (n - 1) (by omega) (n - 1) ⟨by omega, by rw [show n - 1 + 1 = n by omega, k1]; exact hlt, by rw [u1]; exact hlt.le,
      Or.inr ⟨by omega, by rw [u1, k1]⟩⟩
    have hc := cox_left (n - 1) (computeKnots p n uk) (uk (n - 1)) (by rw [u1]; exact hlt.ne) p
      (fun k h1 _ => by rw [hhi k (by omega), u1])
    rw [spline, sum_eq_single (n - 1) (fun l _ hl => by rw [hc, if_neg hl, mul_zero]) (fun h => absurd (mem_range.2 (by omega)) h),
      hc, if_pos rfl, mul_one] at h
    exact h
  have hall := schoenberg_whitney (computeKnots p n uk) p n hp hn (fun i j hij => monotone_nat_of_le_succ hstep hij)
    (fun i hi => by rw [hlo i hi, k0]) (fun i hi => by rw [hhi i hi, k1]) kstr uk us (by rw [u1, k1]) ksw
    (fun l => if l < n then x l else 0) (by rw [if_pos (by omega)]; exact hx0)
    (fun i hi => by
      by_cases h : i < n
      · rw [if_pos h, show i = n - 1 by omega]; exact hxn
      · rw [if_neg h])
    (fun i i0 i1 k h1 h2 h3 h4 => by
      rw [← hspan i (by omega) k ⟨h4, h1.trans_lt h2, h1, Or.inl h2⟩, spline, spline]
      exact sum_congr rfl fun l hl => by rw [if_pos (mem_range.1 hl)])
  intro l hl
  have := hall l
  rwa [if_pos hl] at this

/-- **C251** `interpolate_curve`: for at least `degree + 1` points, any two that follow each other different, and a solver that
solves every system with a regular matrix, the call returns a clamped curve on `[0, 1]` of the given degree with as many control
points as points, whose value at parameter `i` is point `i`; the parameters increase strictly from 0 to 1. -/
theorem C251_interpolate (solve : Nat → (Nat → Nat → K) → (Nat → K) → Option (Nat → K))
    (hsolve : ∀ n A b, (∀ x : Nat → K, (∀ i, i < n → ∑ l ∈ range n, A i l * x l = 0) → ∀ l, l < n → x l = 0) →
      ∃ x, solve n A b = some x ∧ ∀ i, i < n → ∑ l ∈ range n, A i l * x l = b i)
    (n p : Nat) (hp : 1 ≤ p) (hn : p < n) (pt : Nat → Nat → K) (chord : Nat → K) (hc : ∀ i, i + 1 < n → 0 < chord i) :
    ∃ c uk, interpolateCurve solve n p pt chord = some (c, uk) ∧
      Clamped c ∧ c.degree = p ∧ c.n = n ∧ c.U c.degree = 0 ∧ c.U c.n = 1 ∧ uk 0 = 0 ∧ uk (n - 1) = 1 ∧
      (∀ i j, i < j → j < n → uk i < uk j) ∧
      ∀ i, i < n → ∀ fuel, n ≤ fuel → ∀ col, col < 3 → c.evaluate fuel (uk i) col = some (pt i col) := by
  classical
  obtain ⟨uk, e, u0, u1, us, _⟩ := params_spec n chord (by omega) hc
  have hreg := C251_regular n p hp hn uk u0 u1 us
  -- a solver that is also sound on the other matrices
  let A : Nat → Nat → K := fun i l => coefRow p n (computeKnots p n uk) (uk i) l
  let solve' : Nat → (Nat → Nat → K) → (Nat → K) → Option (Nat → K) := fun n A b =>
    if ∃ x, solve n A b = some x ∧ ∀ i, i < n → ∑ l ∈ range n, A i l * x l = b i then solve n A b else none
  have heq : interpolateCurve solve n p pt chord = interpolateCurve solve' n p pt chord := by
    have h := fun b => hsolve n A b hreg
    have h' : ∀ b, solve' n A b = solve n A b := fun b => if_pos (h b)
    unfold interpolateCurve
    rw [e]
    dsimp only
    rw [← h' (fun i => pt i 0), ← h' (fun i => pt i 1), ← h' (fun i => pt i 2)]
  have hsound : ∀ n A b x, solve' n A b = some x → ∀ i, i < n → ∑ l ∈ range n, A i l * x l = b i := by
    intro n A b x h
    by_cases hq : ∃ x, solve n A b = some x ∧ ∀ i, i < n → ∑ l ∈ range n, A i l * x l = b i
    · have h1 : solve' n A b = solve n A b := if_pos hq
      obtain ⟨y, y1, y2⟩ := hq
      rw [h1, y1] at h
      cases h
      exact y2
    · have h1 : solve' n A b = none := if_neg hq
      rw [h1] at h
      cases h
  have hret : ∃ r, interpolateCurve solve n p pt chord = some r := by
    obtain ⟨x, hx, _⟩ := hsolve n A (fun i => pt i 0) hreg
    obtain ⟨y, hy, _⟩ := hsolve n A (fun i => pt i 1) hreg
    obtain ⟨z, hz, _⟩ := hsolve n A (fun i => pt i 2) hreg
    obtain ⟨r, hr⟩ := C251_interpolate_returns (fun n' A' b' => some (fun _ => 0)) n p hp hn pt chord hc (fun _ _ => rfl)
    unfold interpolateCurve at hr ⊢
    rw [e] at hr ⊢
    dsimp only at hr ⊢
    split_ifs at hr with hany
    rw [if_neg hany]
    have hx' : solve n (fun i l => coefRow p n (computeKnots p n uk) (uk i) l) (fun i => pt i 0) = some x := hx
    have hy' : solve n (fun i l => coefRow p n (computeKnots p n uk) (uk i) l) (fun i => pt i 1) = some y := hy
    have hz' : solve n (fun i l => coefRow p n (computeKnots p n uk) (uk i) l) (fun i => pt i 2) = some z := hz
    rw [hx', hy', hz']
    exact ⟨_, rfl⟩
  obtain ⟨⟨c, uk'⟩, hr⟩ := hret
  exact ⟨c, uk', hr, C251_interpolate_partial solve' hsound n p hp hn pt chord hc c uk' (heq ▸ hr)⟩

/-- A solver as the theorem wants it exists. -/
example : ∃ solve : Nat → (Nat → Nat → K) → (Nat → K) → Option (Nat → K),
    ∀ n A b, (∀ x : Nat → K, (∀ i, i < n → ∑ l ∈ range n, A i l * x l = 0) → ∀ l, l < n → x l = 0) →
      ∃ x, solve n A b = some x ∧ ∀ i, i < n → ∑ l ∈ range n, A i l * x l = b i := by
  classical
  refine ⟨fun n A b => if h : ∃ x : Nat → K, ∀ i, i < n → ∑ l ∈ range n, A i l * x l = b i then some h.choose else none, ?_⟩
  intro n A b hreg
  have hsum : ∀ (i : Nat) (x : Nat → K), ∑ l ∈ range n, A i l * x l = ∑ l : Fin n, A i l * x l := fun i x =>
    (Fin.sum_univ_eq_sum_range (fun l => A i l * x l) n).symm
  let M : Matrix (Fin n) (Fin n) K := fun i l => A i l
  have hinj : Function.Injective (Matrix.mulVecLin M) := by
    rw [← LinearMap.ker_eq_bot, LinearMap.ker_eq_bot']
    intro v hv
    have h := hreg (fun l => if h : l < n then v ⟨l, h⟩ else 0) (fun i hi => by
      rw [hsum]
      have := congrFun hv ⟨i, hi⟩
      simp only [Matrix.mulVecLin_apply, Matrix.mulVec, dotProduct, Pi.zero_apply] at this
      rw [← this]
      exact Finset.sum_congr rfl fun l _ => by simp [M])
    funext l
    have := h l l.2
    simpa using this
  obtain ⟨v, hv⟩ := LinearMap.injective_iff_surjective.1 hinj (fun i => b i)
  have hex : ∃ x : Nat → K, ∀ i, i < n → ∑ l ∈ range n, A i l * x l = b i := by
    refine ⟨fun l => if h : l < n then v ⟨l, h⟩ else 0, fun i hi => ?_⟩
    rw [hsum]
    have := congrFun hv ⟨i, hi⟩
    simp only [Matrix.mulVecLin_apply, Matrix.mulVec, dotProduct] at this
    rw [← this]
    exact Finset.sum_congr rfl fun l _ => by simp [M]
  exact ⟨hex.choose, dif_pos hex, hex.choose_spec⟩

/-- Four points with chords 1, 2, 1 and degree 2: the parameters and the knots. -/
example : (∀ i, i + 1 < 4 → 0 < (fun i : Nat => if i = 1 then (2 : ℚ) else 1) i) ∧
    (computeParams 4 (fun i : Nat => if i = 1 then (2 : ℚ) else 1)).map (fun uk => ((List.range 4).map uk,
      (List.range 7).map (computeKnots 2 4 uk))) = some ([0, 1 / 4, 3 / 4, 1], [0, 0, 0, 1 / 2, 1, 1, 1]) :=
  ⟨fun i _ => by dsimp only; split_ifs <;> norm_num, by decide +kernel⟩

end Verif.Knot
