import Verif.Knot.Props
import Mathlib.Data.List.Count
import Mathlib.Data.List.Perm.Basic

/-! `refine_curve` for a vector that contains the knots of the curve. -/

set_option linter.unusedSectionVars false

namespace Verif.Knot
open Verif.Nurbs Finset

variable {K : Type} [Field K] [LinearOrder K] [IsStrictOrderedRing K]

theorem count_range (U : Nat → K) (x : K) : ∀ m, ((List.range m).map U).count x = ((range m).filter (fun i => U i = x)).card := by
  intro m
  induction m with
  | zero => simp
  | succ m ih =>
    rw [List.range_succ, List.map_append, List.count_append, ih, range_add_one, filter_insert]
    by_cases h : U m = x
    · rw [if_pos h, card_insert_of_notMem (by simp)]
      simp [h]
    · rw [if_neg h]
      simp [h]

theorem mult_count (eps : K → K) (heps : ∀ y, 0 ≤ eps y) (t : K) (U : Nat → K) : ∀ m,
    (∀ i, i < m → |t - U i| ≤ eps (U i) → U i = t) → findMultiplicity eps t U m = ((List.range m).map U).count t := by
  have key : ∀ (l : List Nat) (a : Nat), (∀ i ∈ l, |t - U i| ≤ eps (U i) → U i = t) →
      l.foldl (fun mult i => if |t - U i| ≤ eps (U i) then mult + 1 else mult) a = a + (l.map U).count t := by
    intro l
    induction l with
    | nil => intro a _; simp
    | cons i l ih =>
      intro a h
      rw [List.foldl_cons, ih _ (fun j hj => h j (List.mem_cons_of_mem _ hj)), List.map_cons, List.count_cons]
      by_cases q : |t - U i| ≤ eps (U i)
      · rw [if_pos q, if_pos (by simp [h i List.mem_cons_self q])]; omega
      · rw [if_neg q, if_neg (by
          intro hc
          have : U i = t := by simpa using hc
          exact q (by rw [this, sub_self, abs_zero]; exact heps _))]; omega
  intro m h
  rw [findMultiplicity, key _ _ (fun i hi => h i (List.mem_range.mp hi))]
  omega

theorem kv_list (U : Nat → K) (m span : Nat) (k : K) (D R : List K) (h : (List.range m).map U = D ++ R)
    (hD : D.length = span + 1) : (List.range (m + 1)).map (knotInsertionKv U k span 1) = D ++ k :: R := by
  have hm : m = D.length + R.length := by
    have := congrArg List.length h
    simpa using this
  have hU : ∀ i, i < m → some (U i) = (D ++ R)[i]? := by
    intro i hi
    rw [← h]
    simp [hi]
  apply List.ext_getElem?
  intro i
  by_cases hi : i < m + 1
  · rw [List.getElem?_map, List.getElem?_range hi, Option.map_some, knotInsertionKv]
    by_cases q : i < span + 1
    · rw [if_pos q, hU i (by omega), List.getElem?_append_left (by omega), List.getElem?_append_left (by omega)]
    · rw [if_neg q]
      by_cases q' : i = span + 1
      · rw [if_pos (by omega), List.getElem?_append_right (by omega), q', hD]
        simp
      · rw [if_neg (by omega), hU (i - 1) (by omega), List.getElem?_append_right (by omega),
          List.getElem?_append_right (by omega), show i - D.length = i - 1 - D.length + 1 by omega, List.getElem?_cons_succ]
  · rw [List.getElem?_eq_none (by simp; omega), List.getElem?_eq_none (by simp; omega)]

theorem knotList_mem (c : Curve K) (x : K) : x ∈ knotList c ↔ ∃ i, i < c.m ∧ c.U i = x := by
  simp [knotList]

theorem knotList_get (c : Curve K) (i : Nat) (hi : i < c.m) : (knotList c)[i]? = some (c.U i) := by
  simp [knotList, hi]

theorem knotList_sorted (c : Curve K) (h : Valid c) : (knotList c).Pairwise (· ≤ ·) := by
  rw [List.pairwise_iff_getElem]
  intro i j hi hj hij
  have hj' : j < c.m := by simpa [knotList] using hj
  simp only [knotList, List.getElem_map, List.getElem_range]
  exact h.mono i j (le_of_lt hij) hj'

/-- What stays the same in a refined curve. -/
structure Refined (c c' : Curve K) : Prop where
  valid : Valid c'
  degree : c'.degree = c.degree
  periodic : c'.periodic = c.periodic
  lo : c'.U c'.degree = c.U c.degree
  hi : c'.U c'.n = c.U c.n
  cols : ∀ x, c.U c.degree ≤ x → x ≤ c.U c.n → ∀ col, specVal c' (fun l => c'.P l col) x = specVal c (fun l => c.P l col) x
  weights : ∀ w, (∀ l, l < c.n → c.P l 3 = w) → ∀ l, l < c'.n → c'.P l 3 = w

theorem Refined.refl (c : Curve K) (h : Valid c) : Refined c c :=
  ⟨h, rfl, rfl, rfl, rfl, fun _ _ _ _ => rfl, fun _ h => h⟩

theorem Refined.trans {a b c : Curve K} (h1 : Refined a b) (h2 : Refined b c) : Refined a c :=
  ⟨h2.valid, h2.degree.trans h1.degree, h2.periodic.trans h1.periodic, h2.lo.trans h1.lo, h2.hi.trans h1.hi,
    fun x hx1 hx2 col => by rw [h2.cols x (by rw [h1.lo]; exact hx1) (by rw [h1.hi]; exact hx2), h1.cols x hx1 hx2],
    fun w hw => h2.weights w (h1.weights w hw)⟩

theorem refine_loop (fuel : Nat) (eps : K → K) (heps : ∀ y, 0 ≤ eps y) (init junk : Nat → Nat → K) :
    ∀ (ks : List K) (c : Curve K) (D old ex : List K), Valid c → knotList c = D ++ old → (D ++ ks).Pairwise (· ≤ ·) →
    ks.Perm (old ++ ex) → (∀ x ∈ ex, c.U c.degree ≤ x ∧ x < c.U c.n) → (ex ≠ [] → c.U c.n ∈ old) →
    (D ++ ks).length ≤ fuel → (∀ x ∈ D ++ ks, ∀ y ∈ D ++ ks, |x - y| ≤ eps y → y = x) →
    (∀ x ∈ ex, (D ++ ks).count x ≤ c.degree) →
    ∃ c', refineLoop fuel eps init junk c old ks = some (some c') ∧ Refined c c' ∧ knotList c' = D ++ ks := by
  intro ks
  induction ks with
  | nil =>
    intro c D old ex hv hkl _ hp _ _ _ _ _
    have h0 : old = [] := by
      have := hp.length_eq
      simp at this
      exact List.eq_nil_of_length_eq_zero (by omega)
    exact ⟨c, by rw [refineLoop], Refined.refl c hv, by rw [hkl, h0]⟩
  | cons k ks ih =>
    intro c D old ex hv hkl hs hp hex hhi hlen hsep hmult
    have hk := hv.knots
    have hnp := hv.npos
    have hm : c.m = D.length + old.length := by
      have := congrArg List.length hkl
      simpa [knotList] using this
    have hks : ∀ x ∈ k :: ks, k ≤ x := by
      intro x hx
      rcases List.mem_cons.mp hx with rfl | hx
      · exact le_refl _
      · exact (List.pairwise_cons.mp (List.pairwise_append.mp hs).2.1).1 x hx
    cases old with
    | nil =>
      exfalso
      have : ex ≠ [] := by
        intro h0
        have := hp.length_eq
        rw [h0] at this
        simp at this
      exact absurd (hhi this) (by simp)
    | cons o old =>
      by_cases hko : k < o
      · -- `k` is inserted
        have hos : ∀ y ∈ o :: old, o ≤ y := by
          intro y hy
          have hkls := knotList_sorted c hv
          rw [hkl] at hkls
          rcases List.mem_cons.mp hy with rfl | hy
          · exact le_refl _
          · exact (List.pairwise_cons.mp (List.pairwise_append.mp hkls).2.1).1 y hy
        have hkex : k ∈ ex := by
          have : k ∈ (o :: old) ++ ex := hp.mem_iff.mp List.mem_cons_self
          rcases List.mem_append.mp this with h | h
          · exact absurd (hos k h) (not_le.mpr hko)
          · exact h
        obtain ⟨hk1, hk2⟩ := hex k hkex
        have hsub : ∀ x, x ∈ D ++ (o :: old) → x ∈ D ++ (k :: ks) := by
          intro x hx
          rcases List.mem_append.mp hx with h | h
          · exact List.mem_append_left _ h
          · exact List.mem_append_right _ (hp.mem_iff.mpr (List.mem_append_left _ h))
        have hUm : ∀ i, i < c.m → c.U i ∈ D ++ (k :: ks) := by
          intro i hi
          refine hsub _ ?_
          rw [← hkl, knotList_mem]
          exact ⟨i, hi, rfl⟩
        have hsep' : ∀ i, i < c.m → |k - c.U i| ≤ eps (c.U i) → c.U i = k := fun i hi hle =>
          hsep k (List.mem_append_right _ List.mem_cons_self) (c.U i) (hUm i hi) hle
        have hcnt : 1 + findMultiplicity eps k c.U c.m ≤ c.degree := by
          rw [mult_count eps heps k c.U c.m hsep']
          have h1 : ((List.range c.m).map c.U).count k = D.count k := by
            change (knotList c).count k = _
            rw [hkl, List.count_append, List.count_eq_zero_of_not_mem (l := o :: old), add_zero]
            intro h
            exact absurd (hos k h) (not_le.mpr hko)
          have h2 := hmult k hkex
          rw [List.count_append, List.count_cons_self] at h2
          rw [h1]; omega
        have hf : c.n + 1 ≤ fuel := by
          have h1 := hp.length_eq
          have h2 : 0 < ex.length := List.length_pos_of_mem hkex
          simp only [List.length_append, List.length_cons] at h1 hlen hm
          omega
        obtain ⟨span, _, s1, s2, s3, s4, s5, _⟩ := insert_column c hv fuel eps k 1 hf hk1 hk2 hsep' hcnt init junk
        obtain ⟨c', i1, i2, i3, i4, i5, i6, i7, i8, i9, i10⟩ :=
          C36_insert_knot_columns c hv fuel eps k 1 hf hk1 hk2 hsep' hcnt init junk
        have hc' := i1
        rw [s5, Option.some.injEq] at hc'
        have hD : D.length = span + 1 := by
          have hmem : ∀ i, i < c.m → i < D.length → c.U i ∈ D := by
            intro i hi hiD
            have := knotList_get c i hi
            rw [hkl, List.getElem?_append_left hiD] at this
            exact List.mem_of_getElem? this
          have hmem' : ∀ i, i < c.m → D.length ≤ i → c.U i ∈ o :: old := by
            intro i hi hiD
            have := knotList_get c i hi
            rw [hkl, List.getElem?_append_right hiD] at this
            exact List.mem_of_getElem? this
          have hDk : ∀ x ∈ D, x ≤ k := fun x hx => (List.pairwise_append.mp hs).2.2 x hx k List.mem_cons_self
          by_contra hne
          rcases Nat.lt_or_gt_of_ne hne with h | h
          · exact absurd (le_trans (hos _ (hmem' span (by omega) (by omega))) s3) (not_le.mpr hko)
          · exact absurd (hDk _ (hmem (span + 1) (by omega) (by omega))) (not_le.mpr s4)
        have hkl' : knotList c' = (D ++ [k]) ++ (o :: old) := by
          rw [← hc']
          change (List.range (c.m + 1)).map (knotInsertionKv c.U k span 1) = _
          rw [kv_list c.U c.m span k D (o :: old) hkl hD]
          simp
        have eD : D ++ [k] ++ ks = D ++ k :: ks := by simp
        have hp' : ks.Perm ((o :: old) ++ ex.erase k) := by
          have h1 : (k :: ks).Perm (k :: ((o :: old) ++ ex.erase k)) :=
            hp.trans (((List.perm_cons_erase hkex).append_left _).trans List.perm_middle)
          exact h1.cons_inv
        have hR : Refined c c' := ⟨i2, i5, i6, i7, i8, i9, i10⟩
        obtain ⟨f, f1, f2, f3⟩ := ih c' (D ++ [k]) (o :: old) (ex.erase k) i2 hkl' (by rw [eD]; exact hs) hp'
          (fun x hx => by rw [i7, i8]; exact hex x (List.mem_of_mem_erase hx))
          (fun _ => by rw [i8]; exact hhi (List.ne_nil_of_mem hkex))
          (by rw [eD]; exact hlen) (by rw [eD]; exact hsep)
          (fun x hx => by rw [eD, i5]; exact hmult x (List.mem_of_mem_erase hx))
        refine ⟨f, ?_, hR.trans f2, by rw [f3, eD]⟩
        rw [refineLoop, if_pos hko, i1]
        exact f1
      · have hok : k = o := by
          refine le_antisymm (hks o (hp.mem_iff.mpr (by simp))) (not_lt.mp hko)
        subst hok
        have eD : D ++ [k] ++ ks = D ++ k :: ks := by simp
        obtain ⟨f, f1, f2, f3⟩ := ih c (D ++ [k]) old ex hv (by rw [hkl]; simp) (by rw [eD]; exact hs)
          (by have := hp; rw [List.cons_append] at this; exact this.cons_inv) hex
          (fun hne => by
            obtain ⟨x, hx⟩ := List.exists_mem_of_ne_nil ex hne
            rcases List.mem_cons.mp (hhi hne) with h | h
            · exfalso
              have h1 := hks x (hp.mem_iff.mpr (List.mem_append_right _ hx))
              rw [← h] at h1
              exact absurd (hex x hx).2 (not_lt.mpr h1)
            · exact h)
          (by rw [eD]; exact hlen) (by rw [eD]; exact hsep) (fun x hx => by rw [eD]; exact hmult x hx)
        refine ⟨f, ?_, f2, by rw [f3, eD]⟩
        rw [refineLoop, if_neg hko]
        exact f1

end Verif.Knot
