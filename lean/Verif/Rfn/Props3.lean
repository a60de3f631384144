import Verif.Rfn.Props2
import Mathlib.Data.List.Sort

/-! # C382–C385: knot removal, `knot_refinement1`, `knot_refinement2`, `NURBSpline.split` -/

set_option linter.unusedSectionVars false

namespace Verif.Rfn
open Verif.Nurbs Verif.Knot

variable {K : Type} [Field K] [LinearOrder K]

/-! ## `NURBSpline.split` -/

/-- **C385, refuted.** Splitting at a parameter which is not yet a knot of full multiplicity always raises: `knot_insertion` hands a
tuple to a function which wants a memoryview. -/
theorem C385_split_refuted (tol : K) (c : Curve K) (t : K) (span col : Nat) (h : multPy tol t c.U c.m < c.degree) :
    splitPoints tol c t span col = none := by
  obtain ⟨q, hq⟩ : ∃ q, c.degree - multPy tol t c.U c.m = q + 1 := ⟨c.degree - multPy tol t c.U c.m - 1, by omega⟩
  simp only [splitPoints, knotInsertionPy]
  rw [hq, List.range_succ_eq_map, List.foldlM_cons]
  have : ∀ st : (Nat → K) × (Nat → K), roundPy t (.tuple c.U) c.degree (q + 1) (multPy tol t c.U c.m) span st 0 = none := by
    intro st
    rw [roundPy, List.range_succ_eq_map, List.foldlM_cons]
    rfl
  rw [this]
  rfl

/-- **C385, partial.** At a knot of full multiplicity nothing is inserted and the control points stay. -/
theorem C385_split_partial (tol : K) (c : Curve K) (t : K) (span col : Nat) (h : multPy tol t c.U c.m = c.degree) :
    ∃ f, splitPoints tol c t span col = some f ∧ ∀ i, i < c.n → f i = c.P i col := by
  refine ⟨_, by simp only [splitPoints, knotInsertionPy]; rw [h, Nat.sub_self]; rfl, ?_⟩
  intro i hi
  simp only
  rw [if_neg (by omega)]
  by_cases h1 : span - c.degree + 0 ≤ i
  · rw [if_pos ⟨h1, by omega⟩]; rfl
  · rw [if_neg (fun hc => h1 hc.1), if_pos (by omega)]

example : splitPoints (1 / 100) exPoly (1 / 2) 2 0 = none := C385_split_refuted _ _ _ _ _ (by decide +kernel)
example : multPy (1 / 100) 1 exPoly.U exPoly.m = exPoly.degree := by decide +kernel

/-! ## `knot_refinement2` -/

theorem rest2_above (len : Nat) (U : Nat → K) : ∀ (i : Nat) (k : Int) (V : Int → K), (i : Int) ≤ k → ∀ j, k < j → rest2 len U i k V j = V j := by
  intro i
  induction i with
  | zero => intro k V _ j _; rfl
  | succ i ih =>
    intro k V hk j hj
    rw [rest2, ih (k - 1) _ (by push_cast at hk; omega) j (by omega), wrap, if_neg (by push_cast at hk; omega), Function.update_of_ne (by omega)]

theorem rest2_below (len : Nat) (U : Nat → K) : ∀ (i : Nat) (V : Int → K) (j : Nat), 1 ≤ j → j ≤ i → rest2 len U i (i : Int) V j = U j := by
  intro i
  induction i with
  | zero => intro V j h1 h2; omega
  | succ i ih =>
    intro V j h1 h2
    rw [rest2, show ((i + 1 : Nat) : Int) - 1 = (i : Int) by push_cast; omega]
    by_cases hj : j ≤ i
    · exact ih _ j h1 hj
    · have : j = i + 1 := by omega
      subst this
      rw [rest2_above len U i i _ (le_refl _) _ (by push_cast; omega), wrap, if_neg (by omega), Function.update_self]

theorem rest2_zero (len : Nat) (U : Nat → K) : ∀ (i : Nat) (V : Int → K), rest2 len U i (i : Int) V 0 = V 0 := by
  intro i
  induction i with
  | zero => intro V; rfl
  | succ i ih =>
    intro V
    rw [rest2, show ((i + 1 : Nat) : Int) - 1 = (i : Int) by push_cast; omega, ih, wrap, if_neg (by omega), Function.update_of_ne (by push_cast; omega)]

/-- The knots after one insertion: those below the first interior one, the new one, and the arrays as they were filled. -/
theorem refine2_one (c : Curve K) (x : K) (hp : 1 ≤ c.degree) (hx : c.U c.degree < x) :
    refine2Knots c [x] ((c.degree : Int) + 1) = x ∧
    (∀ j : Nat, 1 ≤ j → j ≤ c.degree → refine2Knots c [x] j = c.U j) ∧
    (0 < c.m - c.degree → refine2Knots c [x] 0 = c.U 0) ∧
    (∀ j : Int, (c.degree : Int) + 1 < j → refine2Knots c [x] j = if ((c.m - c.degree - 1 + 1 : Nat) : Int) ≤ j then c.U (c.m - 1) else 0) := by
  obtain ⟨q, hq⟩ : ∃ q, c.degree = q + 1 := ⟨c.degree - 1, by omega⟩
  have hs : ∀ V k, shift2 (c.m + [x].length) c.U x c.degree k V = ⟨c.degree, k, V⟩ := by
    intro V k
    rw [hq, shift2, if_neg (by rw [← hq]; exact not_le.2 hx)]
  simp only [refine2Knots, List.reverse_cons, List.reverse_nil, List.nil_append, List.foldl_cons, List.foldl_nil, step2, hs]
  rw [show (c.degree : Int) + 1 - 1 = c.degree by omega, wrap, if_neg (by omega)]
  refine ⟨?_, ?_, ?_, ?_⟩
  · rw [rest2_above _ _ _ _ _ (le_refl _) _ (by omega), Function.update_self]
  · intro j h1 h2; exact rest2_below _ _ _ _ j h1 h2
  · intro h0
    rw [rest2_zero, Function.update_of_ne (by omega), if_neg (by simp), if_pos (by omega)]
  · intro j hj
    rw [rest2_above _ _ _ _ _ (le_refl _) _ (by omega), Function.update_of_ne (by omega)]
    simp only [List.length_cons, List.length_nil, Nat.zero_add]
    split
    · rfl
    · rw [if_neg (by omega)]

/-- **C384, refuted.** On any curve with an interior knot, the knots which `knot_refinement2` returns for one new knot are out of
order (the entry after the new knot is never written and stays 0). -/
theorem C384_refuted (c : Curve K) (hc : Valid c) (x : K) (hp : 1 ≤ c.degree) (hn : c.degree + 2 ≤ c.n) (hx : c.U c.degree < x) (h0 : 0 < x) :
    refine2Knots c [x] ((c.degree : Int) + 1) = x ∧ refine2Knots c [x] ((c.degree : Int) + 2) = 0 ∧
    refine2Knots c [x] ((c.degree : Int) + 2) < refine2Knots c [x] ((c.degree : Int) + 1) := by
  obtain ⟨h1, -, -, h2⟩ := refine2_one c x hp hx
  have hk := hc.knots
  have h3 := h2 ((c.degree : Int) + 2) (by omega)
  rw [if_neg (by omega)] at h3
  exact ⟨h1, h3, by rw [h1, h3]; exact h0⟩

/-- **C384, partial.** On a Bézier curve one new knot inside is put in its place. -/
theorem C384_partial (c : Curve K) (hc : Valid c) (a b x : K) (hp : 1 ≤ c.degree) (hn : c.n = c.degree + 1)
    (ha : ∀ j, j ≤ c.degree → c.U j = a) (hb : ∀ j, c.degree < j → j < c.m → c.U j = b) (hax : a < x) (hxb : x < b) (j : Nat) :
    refine2Knots c [x] j = if j ≤ c.degree then a else if j = c.degree + 1 then x else b := by
  have hk := hc.knots
  obtain ⟨h1, h2, h3, h4⟩ := refine2_one c x hp (by rw [ha _ (le_refl _)]; exact hax)
  by_cases hj : j ≤ c.degree
  · rw [if_pos hj]
    by_cases hz : j = 0
    · subst hz; rw [Nat.cast_zero, h3 (by omega)]; exact ha 0 (by omega)
    · rw [h2 j (by omega) hj]; exact ha j hj
  · rw [if_neg hj]
    by_cases he : j = c.degree + 1
    · rw [if_pos he, he]; exact_mod_cast h1
    · rw [if_neg he, h4 j (by omega), if_pos (by omega)]
      exact hb _ (by omega) (by omega)

example : Valid (seg (0 : ℚ) 1 (fun i _ => i)) ∧ (refine2Knots (seg (0 : ℚ) 1 (fun i _ => i)) [1 / 3] : Int → ℚ) 2 = 1 / 3 :=
  ⟨seg_valid _ _ _ (by norm_num), by decide +kernel⟩
example : 1 ≤ exPoly.degree ∧ exPoly.degree + 2 ≤ exPoly.n ∧ exPoly.U exPoly.degree < 5 / 2 := by decide +kernel

section ordered
variable [IsStrictOrderedRing K]

/-! ## `knot_refinement1` -/

theorem linear_spec (U : Nat → K) (num : Nat) (u : K) : ∀ fuel s, num ≤ s + fuel → 1 ≤ s → U (s - 1) ≤ u →
    s - 1 ≤ findSpanLinearLoop U num u fuel s ∧ U (findSpanLinearLoop U num u fuel s) ≤ u ∧
    ((findSpanLinearLoop U num u fuel s + 1 < num ∧ u < U (findSpanLinearLoop U num u fuel s + 1)) ∨ findSpanLinearLoop U num u fuel s + 1 = max s num) := by
  intro fuel
  induction fuel with
  | zero =>
    intro s h1 h2 h3
    rw [findSpanLinearLoop]
    exact ⟨le_refl _, h3, Or.inr (by rw [max_eq_left (by omega)]; omega)⟩
  | succ f ih =>
    intro s h1 h2 h3
    rw [findSpanLinearLoop]
    by_cases h : s < num ∧ U s ≤ u
    · rw [if_pos h]
      obtain ⟨g1, g2, g3⟩ := ih (s + 1) (by omega) (by omega) (by rw [Nat.add_sub_cancel]; exact h.2)
      refine ⟨by omega, g2, ?_⟩
      rcases g3 with g3 | g3
      · exact Or.inl g3
      · right; rw [g3]; rw [max_eq_right (by omega), max_eq_right (by omega)]
    · rw [if_neg h]
      refine ⟨le_refl _, h3, ?_⟩
      rw [Nat.sub_add_cancel h2]
      by_cases hs : s < num
      · left; exact ⟨hs, not_le.1 fun hc => h ⟨hs, hc⟩⟩
      · right; rw [max_eq_left (by omega)]

/-- **C383, partial.** `knot_refinement1` gives the same curve on the knots asked for, if the first of them lies before the last
span or there is one span only. -/
theorem C383_partial (tol : K) (c : Curve K) (hc : Valid c) (hp : 1 ≤ c.degree) (x0 : K) (X' : List K) (hX : Refinable c tol (x0 :: X'))
    (h : x0 < c.U (c.n - 1) ∨ c.n = c.degree + 1) : ∃ d, refineWith1 tol c (x0 :: X') = some d ∧ Refined c d (x0 :: X') := by
  have hn := hc.npos
  have hm := hc.knots
  refine ⟨_, rfl, ?_⟩
  have hspan : ∀ x ∈ x0 :: X', c.degree ≤ span1 c x ∧ c.U (span1 c x) ≤ x ∧
      ((span1 c x + 1 < c.n - 1 ∧ x < c.U (span1 c x + 1)) ∨ span1 c x + 1 = max (c.degree + 1) (c.n - 1)) := by
    intro x hx
    exact linear_spec c.U (c.n - 1) x (c.n - 1) (c.degree + 1) (by omega) (by omega) (by rw [Nat.add_sub_cancel]; exact hX.lo x hx)
  have hmem : (x0 :: X').getLastD 0 ∈ x0 :: X' := by
    have : (x0 :: X').getLastD 0 = (x0 :: X').getLast (by simp) := rfl
    rw [this]; exact List.getLast_mem _
  have hle : ∀ x ∈ x0 :: X', x ≤ (x0 :: X').getLastD 0 := by
    have e : (x0 :: X').getLastD 0 = (x0 :: X').getLast (by simp) := rfl
    rw [e]
    intro x hx
    have hd := List.dropLast_concat_getLast (l := x0 :: X') (by simp)
    have hs := hX.sorted
    rw [← hd] at hs hx
    rw [List.pairwise_append] at hs
    rw [List.mem_append] at hx
    rcases hx with hx | hx
    · exact hs.2.2 x hx _ (by simp)
    · rw [List.mem_singleton] at hx; exact hx.le
  obtain ⟨a1, a2, a3⟩ := hspan x0 (by simp)
  obtain ⟨b1, b2, b3⟩ := hspan _ hmem
  have ha' : span1 c x0 < c.n ∧ x0 < c.U (span1 c x0 + 1) := by
    rcases a3 with a3 | a3
    · exact ⟨by omega, a3.2⟩
    · rcases h with h | h
      · by_cases hb : c.degree + 1 ≤ c.n - 1
        · rw [max_eq_right hb] at a3; exact ⟨by omega, by rw [a3]; exact h⟩
        · rw [show c.n - 1 = c.degree by omega] at h
          exact absurd h (not_lt.2 (hX.lo x0 (by simp)))
      · rw [max_eq_left (by omega)] at a3
        exact ⟨by omega, by rw [a3, ← h]; exact hX.hi x0 (by simp)⟩
  have hbn : span1 c ((x0 :: X').getLastD 0) + 1 ≤ c.n := by rcases b3 with b3 | b3 <;> omega
  have hab : span1 c x0 ≤ span1 c ((x0 :: X').getLastD 0) := by
    rcases b3 with b3 | b3
    · by_contra hcon
      have h1 := hc.mono (span1 c ((x0 :: X').getLastD 0) + 1) (span1 c x0) (by omega) (by omega)
      exact absurd (lt_of_le_of_lt (hle x0 (by simp)) b3.2) (not_lt.2 (le_trans h1 a2))
    · rcases a3 with a3 | a3 <;> omega
  refine refined c hc tol x0 X' hX _ _ a1 ha'.1 a2 ha'.2 (by omega) (by omega) hbn ?_
  intro x hx
  rcases b3 with b3 | b3
  · exact le_trans (hle x hx) (le_trans b3.2.le (hc.mono _ _ (by omega) (by omega)))
  · exact le_trans (hX.hi x hx).le (hc.mono _ _ (by omega) (by omega))

/-- The shift loop stops above a knot that is less than the new one, and writes above it only. -/
theorem shift_above (p a q : Nat) (U P : Nat → K) (x : K) (hx : U q < x) (hm : ∀ i, i ≤ q → U i ≤ U q) : ∀ (i k : Nat) (Q V : Nat → K), q ≤ i → i < k →
    q ≤ (shift p a U P x i k Q V).i ∧ (shift p a U P x i k Q V).k + i = k + (shift p a U P x i k Q V).i ∧
    (shift p a U P x i k Q V).V q = V q := by
  intro i
  induction i with
  | zero => intro k Q V h1 _; rw [shift]; exact ⟨h1, by simp, rfl⟩
  | succ i ih =>
    intro k Q V h1 h2
    rw [shift]
    split
    · rename_i hc
      have : q ≤ i := by
        by_contra hcon
        have : i + 1 = q := by omega
        rw [this] at hc
        exact absurd hx (not_lt.2 hc.1)
      obtain ⟨g1, g2, g3⟩ := ih (k - 1) (Function.update Q (k - p - 1) (P (i + 1 - p - 1))) (Function.update V k (U (i + 1))) this (by omega)
      refine ⟨g1, by omega, ?_⟩
      rw [g3, Function.update_of_ne (by omega)]
    · exact ⟨h1, rfl, rfl⟩

theorem insert_above (tol : K) (p a q : Nat) (U P : Nat → K) (hm : ∀ i, i ≤ q → U i ≤ U q) : ∀ (ys : List K) (s : St K), (∀ x ∈ ys, U q < x) →
    q ≤ s.i → s.k = s.i + ys.length → (ys.foldl (insertOne tol p a U P) s).V q = s.V q := by
  intro ys
  induction ys with
  | nil => intro s _ _ _; rfl
  | cons y ys ih =>
    intro s h1 h2 h3
    obtain ⟨g1, g2, g3⟩ := shift_above p a q U P y (h1 y (by simp)) hm s.i s.k s.Q s.V h2 (by rw [h3, List.length_cons]; omega)
    rw [List.length_cons] at h3
    rw [List.foldl_cons, ih _ (fun x hx => h1 x (by simp [hx]))]
    · simp only [insertOne]
      rw [Function.update_of_ne (by omega), g3]
    · simp only [insertOne]; exact g1
    · simp only [insertOne]; omega

theorem kl_get (U : Nat → K) (m i : Nat) (h : i < m) : (kl U m)[i]? = some (U i) := by
  simp [kl, h]

theorem kl_sorted (U : Nat → K) (m : Nat) (h : MonoUpTo U m) : (kl U m).Pairwise (· ≤ ·) := by
  rw [kl, List.pairwise_map]
  refine List.Pairwise.imp_of_mem ?_ (List.pairwise_lt_range (n := m))
  intro i j hi hj hij
  exact h i j hij.le (List.mem_range.1 hj)

theorem kl_split (U : Nat → K) (n r : Nat) : kl U (n + r) = kl U n ++ (List.range r).map fun i => U (n + i) := by
  rw [kl, kl, List.range_add, List.map_append, List.map_map]; rfl

/-- **C383, refuted.** If all the new knots lie inside the last of several spans, the last interior knot is lost: 0 stands in its
place, so the knots returned are not the old and the new ones in order. -/
theorem C383_refuted (tol : K) (c : Curve K) (hc : Valid c) (hp : 1 ≤ c.degree) (hn2 : c.degree + 2 ≤ c.n) (x0 : K) (X' : List K)
    (hX : ∀ x ∈ x0 :: X', c.U (c.n - 1) < x) (h0 : c.U (c.n - 1) ≠ 0) :
    ∃ d, refineWith1 tol c (x0 :: X') = some d ∧ d.U (c.n - 1) = 0 ∧
      ¬ (MonoUpTo d.U d.m ∧ (kl d.U d.m).Perm (x0 :: X' ++ kl c.U c.m)) := by
  have hm := hc.knots
  have hspan : ∀ x ∈ x0 :: X', span1 c x = c.n - 2 := by
    intro x hx
    have hx1 := hX x hx
    obtain ⟨_, g2, g3⟩ := linear_spec c.U (c.n - 1) x (c.n - 1) (c.degree + 1) (by omega) (by omega)
      (by rw [Nat.add_sub_cancel]; exact le_trans (hc.mono _ _ (by omega) (by omega)) hx1.le)
    rcases g3 with g3 | g3
    · have := hc.mono (findSpanLinearLoop c.U (c.n - 1) x (c.n - 1) (c.degree + 1) + 1) (c.n - 1) (by omega) (by omega)
      exact absurd (lt_of_lt_of_le g3.2 this) (not_lt.2 hx1.le)
    · show findSpanLinearLoop c.U (c.n - 1) x (c.n - 1) (c.degree + 1) = _
      rw [max_eq_right (by omega)] at g3
      omega
  have hmem : (x0 :: X').getLastD 0 ∈ x0 :: X' := by
    have : (x0 :: X').getLastD 0 = (x0 :: X').getLast (by simp) := rfl
    rw [this]; exact List.getLast_mem _
  have hval : (refineCol tol c.degree (span1 c x0) (span1 c ((x0 :: X').getLastD 0) + 1) c.U (fun l => c.P l 0) (x0 :: X')).V (c.n - 1) = 0 := by
    rw [hspan _ hmem, hspan x0 (by simp), refineCol,
      insert_above tol c.degree (c.n - 2) (c.n - 1) c.U _ (fun i hi => hc.mono i _ hi (by omega)) _ _ (fun x hx => hX x (List.mem_reverse.1 hx))]
    · simp only [start, List.length_cons]
      rw [if_neg (by omega), if_neg (by omega)]
    · simp only [start]; omega
    · simp only [start, List.length_reverse, List.length_cons]; omega
  refine ⟨_, rfl, hval, ?_⟩
  rintro ⟨hmono, hperm⟩
  set V := (refineCol tol c.degree (span1 c x0) (span1 c ((x0 :: X').getLastD 0) + 1) c.U (fun l => c.P l 0) (x0 :: X')).V with hV
  change MonoUpTo V (c.m + (x0 :: X').length) at hmono
  change (kl V (c.m + (x0 :: X').length)).Perm _ at hperm
  set R := ((x0 :: X') ++ (List.range (c.degree + 1)).map fun i => c.U (c.n + i)).insertionSort (· ≤ ·) with hR
  have hRp : R.Perm ((x0 :: X') ++ (List.range (c.degree + 1)).map fun i => c.U (c.n + i)) := List.perm_insertionSort _ _
  have hRs : R.Pairwise (· ≤ ·) := List.pairwise_insertionSort _ _
  have hp2 : (kl V (c.m + (x0 :: X').length)).Perm (kl c.U c.n ++ R) := by
    refine hperm.trans ?_
    rw [show c.m = c.n + (c.degree + 1) by omega, kl_split]
    refine List.Perm.trans ?_ (List.Perm.append_left _ hRp.symm)
    rw [← List.append_assoc, ← List.append_assoc]
    exact List.Perm.append_right _ List.perm_append_comm
  have hs2 : (kl c.U c.n ++ R).Pairwise (· ≤ ·) := by
    rw [List.pairwise_append]
    refine ⟨kl_sorted _ _ (fun i j h1 h2 => hc.mono i j h1 (by omega)), hRs, ?_⟩
    intro u hu v hv
    obtain ⟨i, hi, rfl⟩ := (kl_range _ _ _).1 hu
    have h1 := hc.mono i (c.n - 1) (by omega) (by omega)
    rcases List.mem_append.1 (hRp.mem_iff.1 hv) with hv | hv
    · exact le_trans h1 (hX v hv).le
    · obtain ⟨j, hj, rfl⟩ := List.mem_map.1 hv
      exact hc.mono i _ (by omega) (by have := List.mem_range.1 hj; omega)
  have heq := List.Perm.eq_of_pairwise (fun a b _ _ h1 h2 => le_antisymm h1 h2) (kl_sorted _ _ hmono) hs2 hp2
  have e1 := kl_get V (c.m + (x0 :: X').length) (c.n - 1) (by omega)
  rw [heq, List.getElem?_append_left (by simp [kl]; omega), kl_get _ _ _ (by omega), hval, Option.some.injEq] at e1
  exact h0 e1

example : (refineWith1 (1 / 100) exPoly [5 / 2]).map (fun d => kl d.U d.m) = some [0, 0, 0, 1, 1, 0, 5 / 2, 3, 3, 3] := by decide +kernel

end ordered
end Verif.Rfn
