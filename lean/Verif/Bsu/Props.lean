import Verif.Bsu.Model
import Verif.NDer.Props
import Verif.Nurbs.Props
import Mathlib.Tactic.Ring
import Mathlib.Tactic.Linarith
import Mathlib.Tactic.FieldSimp
import Mathlib.Algebra.Order.Field.Rat

/-! # C355–C357: spans, basis functions and points of `bspline_utils.py` -/

set_option linter.unusedSectionVars false

namespace Verif.Bsu

open Finset Verif.Nurbs Verif.NDer

variable {K : Type} [Field K] [LinearOrder K] [IsStrictOrderedRing K]

/-- **C355** For knots in order with a first and last span that are not empty, `find_span` ends for every parameter of the domain and
returns the span that contains it. -/
theorem C355_find_span (n p fuel : Nat) (U : Nat → K) (hU : MonoUpTo U (n + p + 1)) (hp : p < n) (hf : n ≤ fuel)
    (hfirst : U p < U (p + 1)) (hlast : U (n - 1) < U n) (u : K) (hl : U p ≤ u) (hh : u ≤ U n) :
    ∃ i, findSpan fuel (n + p + 1) p u U = some i ∧ p ≤ i ∧ Sp U n u i := by
  have en : n + p + 1 - p - 1 = n := by omega
  simp only [findSpan, en]
  by_cases h1 : U n ≤ u
  · rw [if_pos h1]
    have hu : u = U n := le_antisymm hh h1
    refine ⟨n - 1, rfl, by omega, by omega, ?_, ?_, Or.inr ⟨by omega, hu⟩⟩
    · rw [show n - 1 + 1 = n by omega]; exact hlast
    · rw [hu]; exact hlast.le
  · rw [if_neg h1]
    by_cases h2 : u ≤ U p
    · rw [if_pos h2]
      have hu : u = U p := le_antisymm h2 hl
      exact ⟨p, rfl, le_refl _, hp, hfirst, hl, Or.inl (by rw [hu]; exact hfirst)⟩
    · rw [if_neg h2]
      obtain ⟨i, e, a, b, c, d⟩ := spanLoop_spec U u fuel p n hp (by omega) hl (not_le.mp h1)
      exact ⟨i, e, a, b, lt_of_le_of_lt c d, c, Or.inl d⟩

/-- Outside of the domain the first or the last span is taken. -/
theorem C355_outside (n p fuel : Nat) (U : Nat → K) (u : K) :
    (U n ≤ u → findSpan fuel (n + p + 1) p u U = some (n - 1)) ∧
    (u < U n → u ≤ U p → findSpan fuel (n + p + 1) p u U = some p) := by
  have en : n + p + 1 - p - 1 = n := by omega
  simp only [findSpan, en]
  exact ⟨fun h => by rw [if_pos h], fun h1 h2 => by rw [if_neg (not_le.mpr h1), if_pos h2]⟩

example : findSpan 5 8 2 (1 / 2) exU = some 2 ∧ findSpan 5 8 2 2 exU = some 4 ∧ findSpan 5 8 2 9 exU = some 4 := by decide +kernel

/-! ## C356 -/

/-- The start of the loops. -/
def e0 : Nat → K := Function.update (fun _ => 0) 0 1

theorem upd_same (f : Nat → K) (r : Nat) (v : K) (h : f r = v) : Function.update f r v = f := by
  subst h; exact Function.update_eq_self r f

theorem step_lt (U : Nat → K) (i : Nat) (u : K) (p j r : Nat) (hj : j < p) (hr : r < j)
    (hd : rightOf U i u (r + 1) + cbLeft U i u j (p - r) ≠ 0) :
    cbStep U i u p j (some (e0, 0)) r = some (e0, 0) := by
  simp only [cbStep]
  rw [if_neg hd]
  by_cases h0 : r = 0
  · subst h0
    have hl : cbLeft U i u j (p - 0) = 0 := by rw [cbLeft, if_neg (by omega)]
    rw [hl, add_zero] at hd
    rw [hl, add_zero, upd_same _ _ _ ?_]
    · simp
    · simp only [e0, Function.update_self]; field_simp; ring
  · have hz : (e0 : Nat → K) r = 0 := by rw [e0, Function.update_of_ne h0]
    rw [hz, upd_same _ _ _ (by rw [hz]; simp)]
    simp

theorem fold_fix {α β : Type} (f : α → β → α) (a : α) (l : List β) (h : ∀ b ∈ l, f a b = a) : l.foldl f a = a := by
  induction l with
  | nil => rfl
  | cons x l ih => rw [List.foldl_cons, h x (by simp)]; exact ih fun b hb => h b (by simp [hb])

/-- A parameter in a span: all divisors are positive. -/
theorem den_pos (U : Nat → K) (m : Nat) (hU : MonoUpTo U m) (i : Nat) (u : K) (h1 : U i ≤ u) (h2 : u < U (i + 1)) (p j r : Nat)
    (hm : i + p < m) (hr : r < p) (hp : p ≤ i) : 0 < rightOf U i u (r + 1) + cbLeft U i u j (p - r) := by
  have a : 0 < rightOf U i u (r + 1) := by
    have := hU (i + 1) (i + (r + 1)) (by omega) (by omega)
    simp only [rightOf]; linarith
  have b : 0 ≤ cbLeft U i u j (p - r) := by
    unfold cbLeft
    split_ifs with h
    · have := hU (i + 1 - (p - r)) i (by omega) (by omega)
      simp only [leftOf]; linarith
    · exact le_refl _
  linarith

theorem rounds_lt (U : Nat → K) (m : Nat) (hU : MonoUpTo U m) (i : Nat) (u : K) (h1 : U i ≤ u) (h2 : u < U (i + 1)) (p : Nat)
    (hm : i + p < m) (hp : p ≤ i) (q : Nat) (hq : q < p) :
    (List.range q).foldl (fun N j => cbRound U i u p N (j + 1)) (some e0) = some e0 := by
  apply fold_fix
  intro j hj
  have hj := List.mem_range.mp hj
  have : (List.range (j + 1)).foldl (cbStep U i u p (j + 1)) (some (e0, 0)) = some (e0, 0) :=
    fold_fix _ _ _ fun r hr => by
      have hr := List.mem_range.mp hr
      exact step_lt U i u p (j + 1) r (by omega) hr (den_pos U m hU i u h1 h2 p (j + 1) r hm (by omega) hp).ne'
  simp only [cbRound, this]
  rw [upd_same _ _ _ (by rw [e0, Function.update_of_ne (by omega)])]

/-- The entries that `calc_basis_functions` returns for degrees from 2 on. -/
def twoOnly (a b : K) : Nat → K := fun r => if r = 0 then a else if r = 1 then b else 0

theorem calcBasis_formula (U : Nat → K) (m : Nat) (hU : MonoUpTo U m) (i : Nat) (u : K) (h1 : U i ≤ u) (h2 : u < U (i + 1)) (p : Nat)
    (hm : i + p < m) (hp : p ≤ i) (hp2 : 2 ≤ p) :
    calcBasis i u p U = some (twoOnly ((U (i + 1) - u) / (U (i + 1) - U (i + 1 - p))) ((u - U (i + 1 - p)) / (U (i + 1) - U (i + 1 - p)))) := by
  obtain ⟨q, rfl⟩ : ∃ q, p = q + 2 := ⟨p - 2, by omega⟩
  unfold calcBasis
  rw [show q + 2 = (q + 1) + 1 from rfl, List.range_succ, List.foldl_append]
  have hr := rounds_lt U m hU i u h1 h2 (q + 2) hm hp (q + 1) (by omega)
  rw [show (some (Function.update (fun _ => (0 : K)) 0 1)) = some e0 from rfl, hr]
  simp only [List.foldl_cons, List.foldl_nil]
  have hden := den_pos U m hU i u h1 h2 (q + 2) (q + 2)
  set A := (U (i + 1) - u) / (U (i + 1) - U (i + 1 - (q + 2))) with hA
  set B := (u - U (i + 1 - (q + 2))) / (U (i + 1) - U (i + 1 - (q + 2))) with hB
  have s0 : cbStep U i u (q + 2) (q + 2) (some (e0, 0)) 0 = some (Function.update e0 0 A, B) := by
    have d0 := hden 0 hm (by omega) hp
    simp only [cbStep]
    rw [if_neg d0.ne']
    simp only [cbLeft, rightOf, leftOf, Nat.sub_zero, Nat.zero_add] at d0 ⊢
    rw [if_pos ⟨by omega, le_refl _⟩] at d0 ⊢
    have ed : U (i + 1) - u + (u - U (i + 1 - (q + 2))) = U (i + 1) - U (i + 1 - (q + 2)) := by ring
    rw [ed]
    simp only [e0, Function.update_self]
    rw [hA, hB]
    congr 2
    · congr 1; ring
    · ring
  have s1 : cbStep U i u (q + 2) (q + 2) (some (Function.update e0 0 A, B)) 1 = some (twoOnly A B, 0) := by
    have d1 := hden 1 hm (by omega) hp
    simp only [cbStep]
    rw [if_neg d1.ne']
    have z : Function.update (e0 : Nat → K) 0 A 1 = 0 := by
      rw [Function.update_of_ne (by omega), e0, Function.update_of_ne (by omega)]
    rw [z]
    simp only [zero_div, mul_zero, add_zero]
    congr 2
    funext r
    by_cases hr1 : r = 1
    · subst hr1; rw [Function.update_self]; simp [twoOnly]
    · rw [Function.update_of_ne hr1]
      by_cases hr0 : r = 0
      · subst hr0; rw [Function.update_self]; simp [twoOnly]
      · rw [Function.update_of_ne hr0, e0, Function.update_of_ne hr0]; simp [twoOnly, hr0, hr1]
  have s2 : (List.range (q + 2)).foldl (cbStep U i u (q + 2) (q + 2)) (some (e0, 0)) = some (twoOnly A B, 0) := by
    rw [List.range_eq_range', show q + 2 = 1 + (1 + q) by omega, List.range'_eq_cons_iff.mpr ⟨rfl, by omega, rfl⟩]
    rw [List.foldl_cons, show 1 + (1 + q) - 1 = q + 1 by omega, show 1 + (1 + q) = q + 2 by omega, s0,
      List.range'_eq_cons_iff.mpr ⟨rfl, by omega, rfl⟩, List.foldl_cons, s1]
    apply fold_fix
    intro r hr
    have hr' := List.mem_range'_1.mp hr
    have d := hden r hm (by omega) hp
    simp only [cbStep]
    rw [if_neg d.ne']
    have z : (twoOnly A B : Nat → K) r = 0 := by
      simp only [twoOnly]; rw [if_neg (by omega), if_neg (by omega)]
    rw [z]
    simp only [zero_div, mul_zero, add_zero]
    rw [upd_same _ _ _ z]
  simp only [cbRound]
  rw [show q + 1 + 1 = q + 2 from rfl, s2]
  simp only
  rw [upd_same]
  simp only [twoOnly]; rw [if_neg (by omega), if_neg (by omega)]

/-- The last basis function of a span is positive right of its start. -/
theorem cox_last_pos (U : Nat → K) (m : Nat) (hU : MonoUpTo U m) (i : Nat) (x : K) (h1 : U i < x) (h2 : U i < U (i + 1)) :
    ∀ p, i + p < m → 0 < cox (spike i) U x p i := by
  intro p
  induction p with
  | zero => intro _; simp [cox, spike]
  | succ p ih =>
    intro hm
    rw [cox, cox_spike_out i U x p (i + 1) (by omega), mul_zero, add_zero]
    have := hU (i + 1) (i + p + 1) (by omega) (by omega)
    exact mul_pos (div_pos (by linarith) (by linarith)) (ih (by omega))

/-- **C356** (negation) For every degree from 2 on, every knot vector and every parameter inside of a span, the last of the `p + 1`
numbers of `calc_basis_functions` is 0 although the basis function is positive there. -/
theorem C356_refuted (n p m : Nat) (U : Nat → K) (hU : MonoUpTo U m) (hm : n + p + 1 ≤ m) (hlast : U (n - 1) < U n) (i : Nat)
    (hp : p ≤ i) (hi : i < n) (hp2 : 2 ≤ p) (u : K) (h1 : U i < u) (h2 : u < U (i + 1)) :
    ∃ N, calcBasis i u p U = some N ∧ N p = 0 ∧ 0 < bspl U n u p i := by
  refine ⟨_, calcBasis_formula U m hU i u h1.le h2 p (by omega) hp hp2, ?_, ?_⟩
  · simp only [twoOnly]; rw [if_neg (by omega), if_neg (by omega)]
  · have hs : Sp U n u i := ⟨hi, h1.trans h2, h1.le, Or.inl h2⟩
    rw [bspl_eq U n m hU (by omega) hlast u i hs]
    exact cox_last_pos U m hU i u h1 (h1.trans h2) p (by omega)

/-- **C356** (negation, at the end) For every degree from 2 on the numbers at the end of the domain are not finite. -/
theorem C356_end_refuted (n p fuel : Nat) (U : Nat → K) (hp : p < n) (hp2 : 2 ≤ p) (P : Nat → Nat → K) :
    calcPoint fuel (n + p + 1) p U P (U n) = some none := by
  have hs := (C355_outside n p fuel U (U n)).1 (le_refl _)
  simp only [calcPoint, hs]
  have hb : calcBasis (n - 1) (U n) p U = none := by
    obtain ⟨q, rfl⟩ : ∃ q, p = q + 2 := ⟨p - 2, by omega⟩
    unfold calcBasis
    rw [List.range_eq_range', List.range'_eq_cons_iff.mpr ⟨rfl, by omega, rfl⟩, List.foldl_cons]
    have : cbRound U (n - 1) (U n) (q + 2) (some (Function.update (fun _ => 0) 0 1)) (0 + 1) = none := by
      simp only [cbRound, show List.range (0 + 1) = [0] from rfl, List.foldl_cons, List.foldl_nil, cbStep]
      rw [if_pos]
      rw [cbLeft, if_neg (by omega), rightOf, show n - 1 + (0 + 1) = n by omega]
      simp
    rw [this]
    exact fold_fix _ _ _ fun b _ => rfl
  rw [hb]

/-- **C356** (part) For degree 1 the numbers are the basis functions, and the point is the weighted sum over all control points,
everywhere on the domain.  Missing: higher degrees, see `C356_refuted`. -/
theorem C356_degree_one_partial (n fuel : Nat) (U : Nat → K) (hU : MonoUpTo U (n + 2)) (hn : 1 < n) (hf : n ≤ fuel)
    (hfirst : U 1 < U 2) (hlast : U (n - 1) < U n) (P : Nat → Nat → K) (u : K) (hl : U 1 ≤ u) (hh : u ≤ U n) :
    ∃ C, calcPoint fuel (n + 1 + 1) 1 U P u = some (some C) ∧
      C 3 = ∑ l ∈ range n, P l 3 * bspl U n u 1 l ∧ ∀ col, col < 3 → C col = ∑ l ∈ range n, P l 3 * P l col * bspl U n u 1 l := by
  obtain ⟨i, e, a, hs⟩ := C355_find_span n 1 fuel U hU hn hf hfirst hlast u hl hh
  have hb := bspl_eq U n (n + 2) hU (by omega) hlast u i hs
  have hN : calcBasis i u 1 U = some (basisFuns i u 1 U fun _ => 0) := by
    have hd : U (i + 1) - u + (u - U i) ≠ 0 := by
      have := hs.2.1; intro h; linarith
    simp only [calcBasis, basisFuns, cbRound, bfRound, cbStep, bfStep, show List.range 1 = [0] from rfl, List.foldl_cons, List.foldl_nil,
      cbLeft, rightOf, leftOf, Nat.zero_add, Nat.sub_zero, Nat.add_sub_cancel, le_refl, and_self, if_true]
    rw [if_neg hd]
  have sp : ∀ q : Nat → K, ∑ l ∈ range n, q l * bspl U n u 1 l = q (i - 1) * basisFuns i u 1 U (fun _ => 0) 0
      + q (i - 1 + 1) * basisFuns i u 1 U (fun _ => 0) 1 := by
    intro q
    have := spline_window U 1 n q u i a hs.1
    rw [spline] at this
    simp only [hb]
    rw [this, sum_range_succ, sum_range_one, basisFuns_eq i u U _ 1 a 0 (by omega), basisFuns_eq i u U _ 1 a 1 (by omega)]
    simp
  have e' : findSpan fuel (n + 1 + 1) 1 u U = some i := e
  refine ⟨_, by simp only [calcPoint, e', hN]; rfl, ?_, fun col hc => ?_⟩
  · rw [sp]
    simp [List.range_succ]
  · rw [sp]
    have : col ≠ 3 := by omega
    simp [List.range_succ, this]
    ring

example : (calcBasis 2 (1 / 2) 2 exU).map (fun N => (List.range 3).map N) = some [1 / 2, 1 / 2, 0] := by decide +kernel

/-! ## C357 -/

theorem kStepPy_eq (ndu : Nat → Nat → K) (p r : Nat) (st : DSt K) (k : Nat) (hk : 1 ≤ k) (hkp : k ≤ p) (hr : r ≤ p) :
    kStepPy ndu p r st k = kStep ndu p r st k := by
  have h1 : max 1 (k - r) = jLow r k := by unfold jLow; split_ifs <;> omega
  have h2 : min (k - 1) (p - r) = jHigh p r k := by unfold jHigh; split_ifs <;> omega
  simp only [kStepPy, kStep, h1, h2]

theorem foldl_congr' {α β : Type} (f g : α → β → α) (l : List β) (h : ∀ a, ∀ b ∈ l, f a b = g a b) (a : α) :
    l.foldl f a = l.foldl g a := by
  induction l generalizing a with
  | nil => rfl
  | cons x l ih => rw [List.foldl_cons, List.foldl_cons, h a x (by simp)]; exact ih (fun a b hb => h a b (by simp [hb])) _

theorem rLoopPy_spec {i : Nat} {x : K} {p : Nat} {U : Nat → K} {ndu : Nat → Nat → K} (h : NduOk i x p U ndu) (n : Nat) (hn : n ≤ p)
    (d0 : Nat → Nat → K) : ∀ q, q ≤ p + 1 →
    ∀ k c, ((List.range q).foldl (rStepPy ndu p n) d0) k c =
      if 1 ≤ k ∧ k ≤ n ∧ c < q then ∑ j ∈ range (k + 1), term i x p U c k j else d0 k c := by
  intro q
  induction q with
  | zero => intro _ k c; rw [if_neg (by omega)]; rfl
  | succ q ih =>
    intro hq k c
    rw [List.range_succ, List.foldl_append]
    simp only [List.foldl_cons, List.foldl_nil]
    have ih' := ih (by omega)
    generalize (List.range q).foldl (rStepPy ndu p n) d0 = S at *
    obtain ⟨-, e⟩ := kLoop_spec h q (by omega) ⟨upd (fun _ _ => 0) 0 0 1, 0, 1, S⟩ (by simp)
      (fun j hj _ _ => by
        obtain rfl : j = 0 := by omega
        dsimp only
        rw [upd_self, coefA, if_pos rfl]) n hn
    unfold rStepPy
    rw [foldl_congr' _ (kStep ndu p q) _ (fun a b hb => by
      have := List.mem_range'_1.mp hb
      exact kStepPy_eq ndu p q a b (by omega) (by omega) (by omega))]
    dsimp only at e ⊢
    rw [e k c]
    by_cases hc : 1 ≤ k ∧ k ≤ n ∧ c = q
    · rw [if_pos hc, if_pos ⟨hc.1, hc.2.1, by omega⟩, hc.2.2]
    · rw [if_neg hc, ih']
      by_cases hq : 1 ≤ k ∧ k ≤ n ∧ c < q
      · rw [if_pos hq, if_pos ⟨hq.1, hq.2.1, by omega⟩]
      · rw [if_neg hq, if_neg (by omega)]

/-- The Python routine gives the same numbers as the compiled one. -/
theorem dersPy_eq (i : Nat) (x : K) (p n : Nat) (U : Nat → K) (hp : p ≤ i) (hn : n ≤ p) :
    dersPy i x p n U = dersBasisFuns i x p n U fun _ _ => 0 := by
  unfold dersPy dersBasisFuns
  funext k c
  rw [(scale_spec p _ n hn).2, (scale_spec p _ n hn).2, rLoop_spec (nduOk i x p U hp) n hn _ _ (p + 1) (le_refl _),
    rLoopPy_spec (nduOk i x p U hp) n hn _ (p + 1) (le_refl _)]

/-- **C357** Entry `k` of `calc_bspline_derivatives` is, for every order up to `nd`, the `k`-th derivative of the homogeneous curve
`Σ N_l (w_l P_l, w_l)`: the value at `u` of the `k`-th derivative of a polynomial that agrees with the curve on the span. -/
theorem C357_bspline_derivatives (n p fuel : Nat) (U : Nat → K) (hU : MonoUpTo U (n + p + 1)) (hp : p < n) (hf : n ≤ fuel)
    (hfirst : U p < U (p + 1)) (hlast : U (n - 1) < U n) (P : Nat → Nat → K) (u : K) (hl : U p ≤ u) (hh : u ≤ U n) (nd : Nat) :
    ∃ i L, Sp U n u i ∧ bsplineDers fuel (n + p + 1) p U P u nd = some L ∧ L.length = nd + 2 ∧
      ∀ col, ∃ q : Polynomial K, (∀ y, Sp U n y i → q.eval y = ∑ l ∈ range n, homog P l col * bspl U n y p l) ∧
        ∀ k, k ≤ nd → ∃ A, L[k]? = some A ∧ A.val col = (Polynomial.derivative^[k] q).eval u := by
  obtain ⟨i, e, a, hs⟩ := C355_find_span n p fuel U hU hp hf hfirst hlast u hl hh
  refine ⟨i, _, hs, by simp only [bsplineDers, e]; rfl, by simp; omega, fun col => ?_⟩
  have hi := hs.1
  refine ⟨splineP i U p (fun l => homog P l col), fun y hy => ?_, fun k hk => ?_⟩
  · rw [eval_splineP i U p n _ y a hi, spline]
    exact sum_congr rfl fun l _ => by rw [bspl_eq U n (n + p + 1) hU (by omega) hlast y i hy]
  · by_cases hkp : k ≤ p
    · refine ⟨_, by rw [List.getElem?_append_left (by simp; omega), List.getElem?_map, List.getElem?_range (by omega)]; rfl, ?_⟩
      dsimp only
      rw [foldl_sum, iterate_sum, Polynomial.eval_finsetSum]
      apply sum_congr rfl
      intro j hj
      rw [dersPy_eq i u p (min nd p) U a (by omega), dersBasisFuns_eq U (n + p + 1) hU i hs.2.1 u p (min nd p) a (by omega) (by omega),
        if_pos ⟨by omega, mem_range.1 hj⟩, Polynomial.eval_mul, Polynomial.eval_C]
    · refine ⟨⟨true, fun _ => 0⟩, ?_, ?_⟩
      · rw [List.getElem?_append_right (by simp; omega), List.getElem?_replicate, if_pos (by simp; omega)]
      · dsimp only
        rw [iterate_splineP_zero U (n + p + 1) hU i hs.2.1 p a (by omega) _ k (by omega), Polynomial.eval_zero]

/-- The list has one entry too many: for `nd < p` the entry `nd + 1` is 0 whatever the derivative is. -/
theorem C357_extra_entry (n p fuel : Nat) (U : Nat → K) (P : Nat → Nat → K) (u : K) (nd : Nat) (L : List (Arr K))
    (h : bsplineDers fuel n p U P u nd = some L) : L.length = nd + 2 ∧ ∃ A, L[nd + 1]? = some A ∧ A.int = true ∧ ∀ col, A.val col = 0 := by
  unfold bsplineDers at h
  cases hs : findSpan fuel n p u U with
  | none => rw [hs] at h; simp at h
  | some i =>
    rw [hs] at h
    simp only [Option.some.injEq] at h
    subst h
    refine ⟨by simp; omega, ⟨true, fun _ => 0⟩, ?_, rfl, fun _ => rfl⟩
    rw [List.getElem?_append_right (by simp), List.getElem?_replicate, if_pos (by simp; omega)]

/-- The second entry of `calc_bspline_derivatives` for the parabola with control values 0, 1, 0: the derivative at the start is 2. -/
example : (bsplineDers 4 6 2 (fun i => if i < 3 then (0 : ℚ) else 1) (fun l c => if c = 3 then 1 else if l = 1 then 1 else 0) 0 1).map
    (fun L => L.map fun A => A.val 0) = some [0, 2, 0] := by decide +kernel

/-! ## C358 -/

/-- **C358** (negation) `calcNURBSDerivatives` never returns: for all inputs the result is an exception (or not finite before). -/
theorem C358_refuted (fuel len p : Nat) (U : Nat → K) (P : Nat → Nat → K) (u : K) (nd : Nat) (r : Except Err (List (Nat → K)))
    (h : nurbsDers fuel len p U P u nd = some r) : ∃ e, r = .error e := by
  unfold nurbsDers at h
  cases hb : bsplineDers fuel len p U P u nd with
  | none => rw [hb] at h; simp at h
  | some L =>
    rw [hb] at h
    simp only [Option.map_some, Option.some.injEq] at h
    obtain ⟨hl, A, hA, hint, -⟩ := C357_extra_entry len p fuel U P u nd L hb
    subst h
    have key : ∀ (l : List (Arr K)) (R : List (Arr K)) (c : List (Nat → K)), l.foldl (ratStep R) (.ok []) = .ok c → c.length = l.length := by
      intro l R
      induction l using List.reverseRec with
      | nil => intro c h; simp at h; simp [← h]
      | append_singleton l x ih =>
        intro c h
        rw [List.foldl_append] at h
        simp only [List.foldl_cons, List.foldl_nil] at h
        cases hc : l.foldl (ratStep R) (.ok []) with
        | error e => rw [hc] at h; simp [ratStep] at h
        | ok c' =>
          rw [hc] at h
          simp only [ratStep] at h
          split_ifs at h
          simp only [Except.ok.injEq] at h
          rw [← h]; simp [ih c' hc]
    have hsplit : L = L.take (nd + 1) ++ [A] := by
      have h1 : nd + 1 < L.length := by omega
      have h2 : L[nd + 1] = A := by
        have := List.getElem?_eq_getElem h1
        rw [this] at hA; simpa using hA
      rw [← h2, List.take_append_getElem h1]
      rw [List.take_of_length_le (by omega)]
    unfold ratDers
    generalize hR : ratStep L = f
    rw [hsplit, List.foldl_append]
    simp only [List.foldl_cons, List.foldl_nil]
    cases hc : (L.take (nd + 1)).foldl f (.ok []) with
    | error e => subst hR; exact ⟨e, rfl⟩
    | ok c =>
      subst hR
      have := key _ _ _ hc
      rw [List.length_take] at this
      refine ⟨.raise, ?_⟩
      simp only [ratStep]
      rw [if_pos ⟨hint, by omega⟩]

end Verif.Bsu
