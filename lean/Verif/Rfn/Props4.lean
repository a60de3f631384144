import Verif.Rfn.Props3

/-! # C382: knot removal -/

set_option linter.unusedSectionVars false

namespace Verif.Rfn
open Verif.Nurbs Verif.Knot

variable {K : Type} [Field K] [LinearOrder K] [IsStrictOrderedRing K]

/-- The first row that is moved: the middle of the rows that belong to the knot. -/
def midRow (r s p : Nat) : Nat := (2 * r - s - p) / 2

/-- The control points of `c` with row `mid` left out. -/
theorem removal_rows (fuel dim p : Nat) (U : Int → K) (n : Nat) (P : Int → Nat → K) (u tol : K) (s r : Nat) (temp : Int → Nat → K)
    (h : s + p ≤ 2 * r) (row : Nat) (h1 : midRow r s p ≤ row) (h2 : row + 1 < n) :
    knotRemoval fuel dim p U n P u tol 1 s r temp row = P ((row : Int) + 1) := by
  have e : (2 * (r : Int) - s - p) / 2 = (midRow r s p : Nat) := by rw [midRow]; omega
  simp only [knotRemoval, aside, List.range_zero, Nat.sub_self, List.foldl_nil, moveDown, e]
  rw [if_pos ⟨by omega, by omega⟩]
  congr 1
  omega

/-- **C382, refuted: the tolerance.** Whatever the tolerance, and however much the curve changes, `knot_removal` drops the row in the
middle: from there on the rows returned are the next ones of the curve given. -/
theorem C382_tolerance_refuted (fuel : Nat) (eps : K → K) (dim : Nat) (c : Curve K) (hc : Valid c) (hper : c.periodic = false) (hf : c.n ≤ fuel)
    (u : K) (hl : c.U c.degree ≤ u) (hh : u < c.U c.n) (hs : findMultiplicity eps u c.U c.m ≤ c.degree) (out temp : Int → Nat → K) :
    ∃ r, Sp c.U c.n u r ∧ ∀ tol, ∃ f, removeKnot fuel eps dim c u tol 1 out temp = some f ∧
      ∀ row, midRow r (findMultiplicity eps u c.U c.m) c.degree ≤ row → row + 1 < c.n → f row = c.P (row + 1) := by
  have hn := hc.npos
  obtain ⟨r, e, a1, a2, a3, a4⟩ := findSpan_spec fuel (c.n - 1) c.degree u c.U (by omega) (by omega)
    (hc.mono 0 _ (by omega) (by have := hc.knots; omega)) hl (by rw [show c.n - 1 + 1 = c.n by omega]; exact hh)
  refine ⟨r, ⟨by omega, lt_of_le_of_lt a3 a4, a3, Or.inl a4⟩, fun tol => ?_⟩
  rw [removeKnot, hper, e]
  refine ⟨_, rfl, fun row h1 h2 => ?_⟩
  rw [removal_rows _ _ _ _ _ _ _ _ _ _ _ (by omega) row h1 h2]
  rw [if_pos ⟨by omega, by omega⟩]
  congr 1

/-- With `s = p` no row is changed before the rows are moved. -/
theorem removal_full (fuel dim p : Nat) (U : Int → K) (n : Nat) (P : Int → Nat → K) (u tol : K) (r : Nat) (temp : Int → Nat → K)
    (hp : p ≤ r) (row : Nat) (h1 : row < r - p) : knotRemoval fuel dim p U n P u tol 1 p r temp row = P row := by
  have e : (2 * (r : Int) - p - p) / 2 = ((r - p : Nat) : Int) := by omega
  have hsave : ∀ (fi : Int) (tm new : Int → Nat → K) f, saveLoop fi tm ((0 : Nat) : Int) f ((r : Int) - p) ((r : Int) - p) new = new := by
    intro fi tm new f
    cases f with
    | zero => rfl
    | succ f => rw [saveLoop, if_neg (by simp)]
  simp only [knotRemoval, aside, List.range_zero, Nat.sub_self, List.foldl_nil, moveDown, e]
  rw [if_neg (by omega)]
  simp only [List.range_one, List.foldl_cons, List.foldl_nil, remRound, hsave, ite_self]

section inverse
variable (c : Curve K) (hc : Valid c) (hper : c.periodic = false) (fuel : Nat) (eps : K → K) (t : K)
  (hf : c.n + 1 ≤ fuel) (hl : c.U c.degree ≤ t) (hh : t < c.U c.n) (hap : Apart eps c t) (hself : 0 ≤ eps t)
  (hcount : 1 + findMultiplicity eps t c.U c.m ≤ c.degree) (init junk : Nat → Nat → K)

include hc hper hf hl hh hap hself hcount in
/-- The curve after the insertion, and what `knot_removal` finds on it. -/
theorem inserted_one : ∃ d k, c.insertKnot fuel eps init junk t 1 = some d ∧ c.degree ≤ k ∧ k < c.n ∧ c.U k ≤ t ∧ t < c.U (k + 1) ∧
    d.n = c.n + 1 ∧ d.degree = c.degree ∧ d.m = c.m + 1 ∧ d.periodic = false ∧
    findSpan fuel (d.n - 1) d.degree t d.U d.periodic = some (k + 1) ∧ findMultiplicity eps t d.U d.m = findMultiplicity eps t c.U c.m + 1 ∧
    (∀ l col, l + c.degree ≤ k → d.P l col = c.P l col) ∧
    (∀ l col, k < l + c.degree → l + findMultiplicity eps t c.U c.m ≤ k → ∃ w, 0 < w ∧ d.P l col = w * c.P l col + (1 - w) * c.P (l - 1) col) ∧
    (∀ l col, k < l + findMultiplicity eps t c.U c.m → l < c.n + 1 → d.P l col = c.P (l - 1) col) := by
  have hn := hc.npos
  have hm := hc.knots
  obtain ⟨k, e, a1, a2, a3, a4, hins, hcol⟩ := insert_column c hc fuel eps t 1 hf hl hh (fun i hi h => (hap i hi).1 h) hcount init junk
  have hblock := mult_block eps t c.U c.m hc.mono k (by omega) a3 a4 (fun i hi h => (hap i hi).1 h)
  set s := findMultiplicity eps t c.U c.m with hs
  have hkv : ∀ i, knotInsertionKv c.U t k 1 i = if i < k + 1 then c.U i else if i = k + 1 then t else c.U (i - 1) := by
    intro i
    rw [knotInsertionKv]
    by_cases h1 : i < k + 1
    · rw [if_pos h1, if_pos h1]
    · rw [if_neg h1, if_neg h1]
      by_cases h2 : i = k + 1
      · rw [if_pos (by omega), if_pos h2]
      · rw [if_neg (by omega), if_neg h2]
  refine ⟨_, k, hins, a1, a2, a3, a4, rfl, rfl, rfl, hper, ?_, ?_, ?_, ?_, ?_⟩
  · show findSpan fuel (c.n + 1 - 1) c.degree t (knotInsertionKv c.U t k 1) c.periodic = _
    rw [hper]
    obtain ⟨r, e', b1, b2, b3, b4⟩ := findSpan_spec fuel (c.n + 1 - 1) c.degree t (knotInsertionKv c.U t k 1) (by omega) (by omega)
      (by rw [hkv, hkv, if_pos (by omega), if_pos (by omega)]; exact hc.mono 0 _ (by omega) (by omega))
      (by rw [hkv, if_pos (by omega)]; exact hl)
      (by rw [hkv, if_neg (by omega), if_neg (by omega)]; exact hh)
    rw [e']
    congr 1
    by_contra hne
    rcases Nat.lt_or_gt_of_ne hne with hlt | hgt
    · rw [hkv] at b4
      by_cases h1 : r + 1 < k + 1
      · rw [if_pos h1] at b4
        exact absurd (lt_of_lt_of_le b4 (hc.mono (r + 1) k (by omega) (by omega))) (not_lt.2 a3)
      · rw [if_neg h1, if_pos (by omega)] at b4
        exact lt_irrefl _ b4
    · rw [hkv, if_neg (by omega), if_neg (by omega)] at b3
      exact absurd (lt_of_lt_of_le a4 (hc.mono (k + 1) (r - 1) (by omega) (by omega))) (not_lt.2 b3)
  · show findMultiplicity eps t (knotInsertionKv c.U t k 1) (c.m + 1) = s + 1
    rw [hs, findMultiplicity_eq, findMultiplicity_eq]
    have h1 : (List.range (c.m + 1)).Perm ((k + 1) :: ((List.range (k + 1)) ++ (List.range (c.m - (k + 1))).map (fun i => k + 2 + i))) := by
      have e1 : List.range (c.m + 1) = List.range (k + 1) ++ (k + 1) :: (List.range (c.m - (k + 1))).map (fun i => k + 2 + i) := by
        rw [show c.m + 1 = (k + 1 + 1) + (c.m - (k + 1)) by omega, List.range_add (n := k + 1 + 1), List.range_succ (n := k + 1), List.append_assoc]
        rfl
      rw [e1]
      exact List.perm_middle
    have h2 : List.range c.m = List.range (k + 1) ++ (List.range (c.m - (k + 1))).map (fun i => k + 1 + i) := by
      conv_lhs => rw [show c.m = (k + 1) + (c.m - (k + 1)) by omega, List.range_add]
    rw [h1.countP_eq, h2, List.countP_cons, List.countP_append, List.countP_append, List.countP_map, List.countP_map]
    have h3 : knotInsertionKv c.U t k 1 (k + 1) = t := by rw [hkv, if_neg (by omega), if_pos rfl]
    have h4 : |t - knotInsertionKv c.U t k 1 (k + 1)| ≤ eps (knotInsertionKv c.U t k 1 (k + 1)) := by
      rw [h3, sub_self, abs_zero]; exact hself
    rw [if_pos (by simpa using h4)]
    congr 2
    · apply List.countP_congr
      intro i hi
      rw [hkv, if_pos (List.mem_range.1 hi)]
    · apply List.countP_congr
      intro i hi
      simp only [Function.comp]
      rw [hkv, if_neg (by omega), if_neg (by omega), show k + 2 + i - 1 = k + 1 + i by omega]
  · intro l col h1
    show knotInsertion _ _ _ _ _ _ _ _ _ _ _ = _
    rw [hcol col l (by omega), iterPts, boehmPts, ratio, if_pos (by omega)]
    simp [iterPts]
  · intro l col h1 h2
    have hUl : c.U l < t := by
      refine lt_of_le_of_ne (le_trans (hc.mono l k (by omega) (by omega)) a3) ?_
      intro he
      -- then the knots `l, …, k` all equal `t`, more than `s` of them
      have hall : ∀ i, l ≤ i → i ≤ k → c.U i = t := fun i g1 g2 =>
        le_antisymm (le_trans (hc.mono i k g2 (by omega)) a3) (by rw [← he]; exact hc.mono l i g1 (by omega))
      have hcnt : k + 1 - l ≤ s := by
        rw [hs, findMultiplicity_eq]
        have h2 : List.range c.m = List.range l ++ ((List.range (k + 1 - l)).map (fun i => l + i) ++ (List.range (c.m - (k + 1))).map (fun i => k + 1 + i)) := by
          conv_lhs => rw [show c.m = l + ((k + 1 - l) + (c.m - (k + 1))) by omega, List.range_add, List.range_add, List.map_append, List.map_map]
          congr 2
          apply List.map_congr_left
          intro i _
          simp only [Function.comp]; omega
        rw [h2, List.countP_append, List.countP_append, List.countP_map (l := List.range (k + 1 - l))]
        have : List.countP ((fun i => decide (|t - c.U i| ≤ eps (c.U i))) ∘ fun i => l + i) (List.range (k + 1 - l)) = k + 1 - l := by
          conv_rhs => rw [← List.length_range (n := k + 1 - l)]
          rw [List.countP_eq_length]
          intro i hi
          have := List.mem_range.1 hi
          simp only [Function.comp, decide_eq_true_eq]
          exact (hap (l + i) (by omega)).2 (hall _ (by omega) (by omega))
        omega
      omega
    refine ⟨(t - c.U l) / (c.U (l + c.degree) - c.U l), ?_, ?_⟩
    · refine div_pos (sub_pos.2 hUl) (sub_pos.2 (lt_of_lt_of_le hUl ?_))
      exact le_trans a4.le (hc.mono _ _ (by omega) (by omega))
    · show knotInsertion _ _ _ _ _ _ _ _ _ _ _ = _
      rw [hcol col l (by omega), iterPts, boehmPts, ratio, if_neg (by omega), if_pos (by omega), hkv, if_pos (by omega), hkv,
        if_neg (by omega), if_neg (by omega), show l + c.degree + 1 - 1 = l + c.degree by omega]
      rfl
  · intro l col h1 h2
    show knotInsertion _ _ _ _ _ _ _ _ _ _ _ = _
    rw [hcol col l h2, iterPts, boehmPts]
    have hz : ratio (knotInsertionKv c.U t k (0 + 1)) (k + 0) t c.degree l = 0 := by
      rw [ratio, if_neg (by omega)]
      split
      · rw [hkv, if_pos (by omega), hblock.2 l (by omega) (by omega), sub_self, zero_div]
      · rfl
    rw [hz]
    simp [iterPts]

include hc hper hf hl hh hap hself hcount in
/-- **C382, refuted: the inverse of insertion.** Put in a knot once and remove it again: unless the knot had multiplicity `p - 1`
before, the row in the middle of the result is not the row it was (if the two rows there differ at all). -/
theorem C382_inverse_refuted (dim : Nat) (tol : K) (out temp : Int → Nat → K) (hs : findMultiplicity eps t c.U c.m + 1 < c.degree) :
    ∃ d k f mid, c.insertKnot fuel eps init junk t 1 = some d ∧ Sp c.U c.n t k ∧ mid = midRow (k + 1) (findMultiplicity eps t c.U c.m + 1) c.degree ∧
      removeKnot fuel eps dim d t tol 1 out temp = some f ∧ mid + 1 < c.n ∧
      ∀ col, c.P mid col ≠ c.P (mid + 1) col → f mid col ≠ c.P mid col := by
  obtain ⟨d, k, e, a1, a2, a3, a4, dn, dp, dm, dper, hspan, hmult, -, hmid, -⟩ :=
    inserted_one c hc hper fuel eps t hf hl hh hap hself hcount init junk
  have hb : midRow (k + 1) (findMultiplicity eps t c.U c.m + 1) c.degree + 1 + findMultiplicity eps t c.U c.m ≤ k ∧
      k < midRow (k + 1) (findMultiplicity eps t c.U c.m + 1) c.degree + 1 + c.degree := by rw [midRow]; omega
  refine ⟨d, k, _, _, e, ⟨a2, lt_of_le_of_lt a3 a4, a3, Or.inl a4⟩, rfl, by rw [removeKnot, hspan], by omega, ?_⟩
  intro col hne
  rw [hmult, dp, removal_rows _ _ _ _ _ _ _ _ _ _ _ (by omega) _ (le_refl _) (by omega), if_pos ⟨by omega, by omega⟩]
  obtain ⟨w, hw, hP⟩ := hmid (midRow (k + 1) (findMultiplicity eps t c.U c.m + 1) c.degree + 1) col (by omega) (by omega)
  rw [show ((midRow (k + 1) (findMultiplicity eps t c.U c.m + 1) c.degree : Nat) : Int) + 1 =
    ((midRow (k + 1) (findMultiplicity eps t c.U c.m + 1) c.degree + 1 : Nat) : Int) by push_cast; rfl, Int.toNat_natCast, hP, Nat.add_sub_cancel]
  intro hc'
  apply hne
  have : w * (c.P (midRow (k + 1) (findMultiplicity eps t c.U c.m + 1) c.degree + 1) col - c.P (midRow (k + 1) (findMultiplicity eps t c.U c.m + 1) c.degree) col) = 0 := by
    linear_combination hc'
  rcases mul_eq_zero.1 this with h | h
  · exact absurd h (ne_of_gt hw)
  · exact (sub_eq_zero.1 h).symm

include hc hper hf hl hh hap hself hcount in
/-- **C382, partial.** If the knot had multiplicity `p - 1` before, insertion and removal give back every control point. -/
theorem C382_inverse_partial (dim : Nat) (tol : K) (out temp : Int → Nat → K) (hs : findMultiplicity eps t c.U c.m + 1 = c.degree) :
    ∃ d f, c.insertKnot fuel eps init junk t 1 = some d ∧ removeKnot fuel eps dim d t tol 1 out temp = some f ∧
      ∀ row col, row < c.n → f row col = c.P row col := by
  obtain ⟨d, k, e, a1, a2, a3, a4, dn, dp, dm, dper, hspan, hmult, hlow, -, hhigh⟩ :=
    inserted_one c hc hper fuel eps t hf hl hh hap hself hcount init junk
  have hmr : midRow (k + 1) c.degree c.degree = k + 1 - c.degree := by rw [midRow]; omega
  refine ⟨d, _, e, by rw [removeKnot, hspan], ?_⟩
  intro row col hrow
  rw [hmult, dp, hs]
  by_cases h1 : row < k + 1 - c.degree
  · rw [removal_full _ _ _ _ _ _ _ _ _ _ (by omega) row h1, if_pos ⟨by omega, by omega⟩, Int.toNat_natCast]
    exact hlow row col (by omega)
  · rw [removal_rows _ _ _ _ _ _ _ _ _ _ _ (by omega) row (by rw [hmr]; omega) (by omega), if_pos ⟨by omega, by omega⟩]
    rw [show (row : Int) + 1 = ((row + 1 : Nat) : Int) by push_cast; rfl, Int.toNat_natCast, hhigh (row + 1) col (by omega) (by omega), Nat.add_sub_cancel]

end inverse

/-- The cubic with points `0, 1, 4, 9` (a column of them): the knot `1/2` is put in and removed, and the points are not the same. -/
def exCubic : Curve ℚ where
  degree := 3
  n := 4
  P := fun i _ => (i : ℚ) ^ 2
  m := 8
  U := fun k => if k < 4 then 0 else 1
  periodic := false

example : ((exCubic.insertKnot 9 (fun _ => 1 / 100) (fun _ _ => 0) (fun _ _ => 0) (1 / 2) 1).bind fun d =>
    (removeKnot 9 (fun _ => 1 / 100) 1 d (1 / 2) (1 / 100) 1 (fun _ _ => 0) (fun _ _ => 0)).map fun f => [f 0 0, f 1 0, f 2 0, f 3 0]) =
    some [0, 1 / 2, 13 / 2, 9] := by decide +kernel
example : findMultiplicity (fun _ => (1 / 100 : ℚ)) (1 / 2) exCubic.U exCubic.m + 1 < exCubic.degree := by decide +kernel

end Verif.Rfn
