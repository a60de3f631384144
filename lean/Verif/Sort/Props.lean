import Verif.Sort.Lemmas
import Mathlib.Algebra.Order.Ring.Int
import Mathlib.Tactic.Linarith
import Mathlib.Tactic.Ring
import Mathlib.Tactic.Abel
import Mathlib.Data.Nat.Cast.Order.Ring

/-! # C12-C14, C52: quicksort, argsort, unique -/

namespace Verif.Sort
variable {K : Type}

theorem ltTest_ok [LinearOrder K] : TestOk (ltTest (K := K)) (· ≤ ·) (fun _ => True) where
  total x p _ _ := ⟨_, rfl⟩
  yes x p _ _ h := by simp only [ltTest, Option.some.injEq, decide_eq_true_eq] at h; exact h.le
  no x p _ _ h := by simp only [ltTest, Option.some.injEq, decide_eq_false_iff_not, not_lt] at h; exact h
  trans x y z _ _ _ h1 h2 := le_trans h1 h2

/-- **C12.** `quicksort` never leaves the array and leaves the nondecreasing permutation of the input. -/
theorem C12_quicksort_sorts [LinearOrder K] (arr : List K) :
    ∃ out, quicksort arr = some out ∧ out.Perm arr ∧ out.Pairwise (· ≤ ·) := by
  obtain ⟨seg', e, h1, h2⟩ := sortRec_spec (ltTest_ok (K := K)) arr.length [] arr [] 0 (arr.length - 1) le_rfl
    (by simp) (by simp) (by simp)
  exact ⟨seg', by simpa [quicksort] using e, h1, h2⟩

example : quicksort [5, 1, 4, 1, 5, 9, 2, (6 : Int)] = some [1, 1, 2, 4, 5, 5, 6, 9] := by decide +kernel

/-- **C12, range form.** Sorting the index range of a middle segment sorts that segment and touches nothing else. -/
theorem C12_range_untouched_outside [LinearOrder K] (pre seg post : List K) :
    ∃ out, sortRec ltTest seg.length (pre ++ seg ++ post) pre.length (pre.length + seg.length - 1) =
        some (pre ++ out ++ post) ∧ out.Perm seg ∧ out.Pairwise (· ≤ ·) := by
  obtain ⟨seg', e, h1, h2⟩ := sortRec_spec (ltTest_ok (K := K)) seg.length pre seg post pre.length
    (pre.length + seg.length - 1) le_rfl (by simp) rfl rfl
  exact ⟨seg', by simpa using e, h1, h2⟩

example : sortRec ltTest 3 ([7] ++ [3, 2, 1] ++ [0, (0 : Int)]) 1 3 = some [7, 1, 2, 3, 0, 0] := by decide +kernel

theorem rd_valid (arr : List K) (i : Int) (h : 0 ≤ i ∧ i < arr.length) : ∃ v, rd arr i = some v := by
  refine ⟨arr[i.toNat]'(by omega), ?_⟩
  simp only [rd, if_pos h.1]
  exact List.getElem?_eq_getElem _

theorem argTest_ok [LinearOrder K] (arr : List K) :
    TestOk (argTest arr) (fun i j => ∀ a b, rd arr i = some a → rd arr j = some b → a ≤ b)
      (fun i => 0 ≤ i ∧ i < arr.length) where
  total x p hx hp := by
    obtain ⟨v, hv⟩ := rd_valid arr x hx
    obtain ⟨w, hw⟩ := rd_valid arr p hp
    exact ⟨_, by simp [argTest, hv, hw]; rfl⟩
  yes x p hx hp h a b ha hb := by
    simpa [argTest, ha, hb] using h
  no x p hx hp h a b ha hb := by
    have : ¬ b ≤ a := by simpa [argTest, ha, hb] using h
    exact (not_le.1 this).le
  trans x y z hx hy hz h1 h2 a c ha hc := by
    obtain ⟨b, hb⟩ := rd_valid arr y hy
    exact (h1 a b ha hb).trans (h2 b c hb hc)

/-- **C13.** `argsort` never leaves its arrays and returns a permutation of `0..n-1` through which the input reads as a
nondecreasing permutation of itself. -/
theorem C13_argsort_sorts [LinearOrder K] (arr : List K) :
    ∃ (ids : List Int) (ys : List K), argsort arr = some ids ∧ ids.Perm ((List.range arr.length).map Int.ofNat) ∧
      ids.map (fun i => arr[i.toNat]?) = ys.map some ∧ ys.Perm arr ∧ ys.Pairwise (· ≤ ·) := by
  have hP : ∀ x ∈ arange arr.length, 0 ≤ x ∧ x < (arr.length : Int) := by
    intro x hx
    simp only [arange, List.mem_map, List.mem_range] at hx
    obtain ⟨k, hk, rfl⟩ := hx
    constructor
    · exact Int.natCast_nonneg k
    · exact Int.ofNat_lt.2 hk
  have hlen : (arange arr.length).length = arr.length := by simp [arange]
  obtain ⟨ids, e, h1, h2⟩ := sortRec_spec (argTest_ok arr) arr.length [] (arange arr.length) [] 0 (arr.length - 1)
    (by omega) hP (by simp) (by simp [hlen])
  have hids : ∀ i ∈ ids, 0 ≤ i ∧ i < (arr.length : Int) := fun i hi => hP i (h1.mem_iff.1 hi)
  obtain ⟨ys, hys⟩ : ∃ ys : List K, ids.map (fun i => arr[i.toNat]?) = ys.map some := by
    clear h1 h2 e
    induction ids with
    | nil => exact ⟨[], rfl⟩
    | cons i ids ih =>
      obtain ⟨ys, h⟩ := ih (fun j hj => hids j (List.mem_cons_of_mem _ hj))
      have := hids i List.mem_cons_self
      refine ⟨arr[i.toNat]'(by omega) :: ys, ?_⟩
      simp only [List.map_cons, h]
      rw [List.getElem?_eq_getElem]
  have hperm : (ys.map some).Perm (arr.map some) := by
    rw [← hys]
    have h3 := h1.map (fun i : Int => arr[i.toNat]?)
    refine h3.trans (List.Perm.of_eq ?_)
    rw [arange, List.map_map]
    apply List.ext_getElem
    · simp
    · intro k hk1 hk2
      simp at hk1 hk2 ⊢
  refine ⟨ids, ys, by simpa [argsort] using e, h1, hys, ?_, ?_⟩
  · have := hperm.filterMap id
    simpa [List.filterMap_map] using this
  · have h4 : (ids.map (fun i => arr[i.toNat]?)).Pairwise (fun x y => ∀ a b, x = some a → y = some b → a ≤ b) := by
      rw [List.pairwise_map]
      refine h2.imp_of_mem ?_
      intro i j hi hj h a b ha hb
      have hi' := hids i hi
      have hj' := hids j hj
      exact h a b (by simpa [rd, hi'.1] using ha) (by simpa [rd, hj'.1] using hb)
    rw [hys, List.pairwise_map] at h4
    exact h4.imp (fun h => h _ _ rfl rfl)

example : argsort [30, 10, 20, (10 : Int)] = some [1, 3, 2, 0] := by decide +kernel

/-- What libc `qsort` promises with the comparators of `_unique.c` on finite numbers. -/
def QsortSpec [LE K] (q : List K → List K) : Prop := ∀ xs, (q xs).Perm xs ∧ (q xs).Pairwise (· ≤ ·)

theorem scan_spec [LinearOrder K] (xs : List K) : ∀ prev : K, (prev :: xs).Pairwise (· ≤ ·) →
    (prev :: scan prev xs).Pairwise (· < ·) ∧ ∀ x, x ∈ prev :: scan prev xs ↔ x ∈ prev :: xs := by
  induction xs with
  | nil => intro prev _; simp [scan]
  | cons y ys ih =>
    intro prev h
    obtain ⟨h1, h2⟩ := List.pairwise_cons.1 h
    obtain ⟨i1, i2⟩ := ih y h2
    simp only [scan]
    by_cases hy : y = prev
    · subst hy
      simp only [ne_eq, not_true_eq_false, if_false]
      refine ⟨i1, fun x => ?_⟩
      rw [i2 x]
      simp
    · rw [if_pos hy]
      have hlt : prev < y := lt_of_le_of_ne (h1 y List.mem_cons_self) (fun h => hy h.symm)
      refine ⟨List.pairwise_cons.2 ⟨?_, i1⟩, fun x => ?_⟩
      · intro z hz
        rcases List.mem_cons.1 hz with rfl | hz
        · exact hlt
        · exact hlt.trans ((List.pairwise_cons.1 i1).1 z hz)
      · rw [List.mem_cons, i2 x, ← List.mem_cons]

/-- **C14.** For every array (sorted or not) the output of `uniqueSorted`/`uniqueSortedByRef`/`uniqueSortedInt` is the
strictly increasing list of exactly the distinct input values, and the caller's array keeps its multiset. -/
theorem C14_unique [LinearOrder K] (q : List K → List K) (hq : QsortSpec q) (arr : List K) :
    (uniqueSorted q arr).1.Pairwise (· < ·) ∧ (∀ x, x ∈ (uniqueSorted q arr).1 ↔ x ∈ arr) ∧
      (uniqueSorted q arr).2.Perm arr := by
  match arr with
  | [] => simp [uniqueSorted]
  | [x] => simp [uniqueSorted]
  | x :: y :: zs =>
    obtain ⟨h1, h2⟩ := hq (x :: y :: zs)
    simp only [uniqueSorted]
    cases hs : q (x :: y :: zs) with
    | nil => rw [hs] at h1; exact absurd h1.symm.eq_nil (by simp)
    | cons a as =>
      rw [hs] at h1 h2
      obtain ⟨s1, s2⟩ := scan_spec as a h2
      exact ⟨s1, fun v => (s2 v).trans h1.mem_iff, h1⟩

/-- `qsort` can be met, e.g. by insertion sort, and the run below has repeated values. -/
def isort (xs : List Int) : List Int := (quicksort xs).getD []

theorem isort_spec : QsortSpec isort := by
  intro xs
  obtain ⟨out, e, h1, h2⟩ := C12_quicksort_sorts xs
  simp only [isort, e, Option.getD_some]
  exact ⟨h1, h2⟩

example : uniqueSorted isort [3, 1, 3, 2, 1] = ([1, 2, 3], [1, 1, 2, 3, 3]) := by decide +kernel

theorem scanEps_mem [AddCommGroup K] [LinearOrder K] [IsOrderedAddMonoid K] (eps : K) (heps : 0 ≤ eps) (xs : List K) :
    ∀ prev : K, (prev :: xs).Pairwise (· ≤ ·) → ∀ v,
      v ∈ scanEps eps prev xs ↔ v ∈ xs ∧ prev < v ∧ ∀ w ∈ prev :: xs, w < v → eps < v - w := by
  induction xs with
  | nil => intro prev _ v; simp [scanEps]
  | cons y ys ih =>
    intro prev h v
    obtain ⟨h1, h2⟩ := List.pairwise_cons.1 h
    have hpy : prev ≤ y := h1 y List.mem_cons_self
    have ih := ih y h2 v
    have hge : ∀ z ∈ ys, y ≤ z := (List.pairwise_cons.1 h2).1
    have habs : |y - prev| = y - prev := abs_of_nonneg (sub_nonneg.2 hpy)
    simp only [scanEps, habs, gt_iff_lt]
    have hmono : ∀ {v : K}, eps < v - y → eps < v - prev := fun hv => hv.trans_le (sub_le_sub_left hpy _)
    have hlow : ∀ {v : K}, y < v → (∀ w ∈ y :: ys, w < v → eps < v - w) → ∀ w ∈ prev :: y :: ys, w < v → eps < v - w := by
      intro v hv H w hw hwv
      rcases List.mem_cons.1 hw with rfl | hw
      · exact hmono (H y List.mem_cons_self hv)
      · exact H w hw hwv
    split
    · rename_i hgap
      have hlt : prev < y := by
        rcases hpy.lt_or_eq with h | h
        · exact h
        · rw [h, sub_self] at hgap; exact absurd heps (not_le.2 hgap)
      rw [List.mem_cons, ih]
      constructor
      · rintro (rfl | ⟨hv, hyv, H⟩)
        · refine ⟨List.mem_cons_self, hlt, ?_⟩
          intro w hw hwv
          rcases List.mem_cons.1 hw with rfl | hw
          · exact hgap
          · rcases List.mem_cons.1 hw with rfl | hw
            · exact absurd hwv (lt_irrefl _)
            · exact absurd hwv (not_lt.2 (hge w hw))
        · exact ⟨List.mem_cons_of_mem _ hv, hpy.trans_lt hyv, hlow hyv H⟩
      · rintro ⟨hv, hpv, H⟩
        by_cases hyv : v = y
        · exact .inl hyv
        · refine .inr ⟨?_, ?_, fun w hw => H w (List.mem_cons_of_mem _ hw)⟩
          · rcases List.mem_cons.1 hv with h | h
            · exact absurd h hyv
            · exact h
          · rcases List.mem_cons.1 hv with h | h
            · exact absurd h hyv
            · exact lt_of_le_of_ne (hge v h) (fun h => hyv h.symm)
    · rename_i hgap
      rw [ih]
      constructor
      · rintro ⟨hv, hyv, H⟩
        exact ⟨List.mem_cons_of_mem _ hv, hpy.trans_lt hyv, hlow hyv H⟩
      · rintro ⟨hv, hpv, H⟩
        have hyv : v ≠ y := by
          rintro rfl
          exact hgap (H prev List.mem_cons_self hpv)
        rcases List.mem_cons.1 hv with h | h
        · exact absurd h hyv
        · exact ⟨h, lt_of_le_of_ne (hge v h) (fun h => hyv h.symm), fun w hw => H w (List.mem_cons_of_mem _ hw)⟩

theorem scanEps_sublist [AddCommGroup K] [LinearOrder K] (eps : K) (xs : List K) :
    ∀ prev : K, (scanEps eps prev xs).Sublist xs := by
  induction xs with
  | nil => intro _; simp [scanEps]
  | cons y ys ih =>
    intro prev
    simp only [scanEps]
    split
    · exact (ih y).cons_cons y
    · exact (ih y).cons y

/-- **C14, tolerance variant.** For `eps ≥ 0` the output lists, increasing and without repetition, exactly the input
values that exceed every smaller input value by more than `eps`. -/
theorem C14_unique_eps [AddCommGroup K] [LinearOrder K] [IsOrderedAddMonoid K] (q : List K → List K) (hq : QsortSpec q)
    (eps : K) (heps : 0 ≤ eps) (arr : List K) :
    (uniqueSortedEps q eps arr).Pairwise (fun x y => x < y ∧ eps < y - x) ∧
    ∀ v, v ∈ uniqueSortedEps q eps arr ↔ v ∈ arr ∧ ∀ w ∈ arr, w < v → eps < v - w := by
  match arr with
  | [] => simp [uniqueSortedEps]
  | x :: zs =>
    obtain ⟨h1, h2⟩ := hq (x :: zs)
    simp only [uniqueSortedEps]
    cases hs : q (x :: zs) with
    | nil => rw [hs] at h1; exact absurd h1.symm.eq_nil (by simp)
    | cons a as =>
      rw [hs] at h1 h2
      have hm := scanEps_mem eps heps as a h2
      have hge := (List.pairwise_cons.1 h2).1
      refine ⟨?_, fun v => ?_⟩
      · -- strictness: first for the tail by induction
        have tail : ∀ (ys : List K) (b : K), (b :: ys).Pairwise (· ≤ ·) →
            (b :: scanEps eps b ys).Pairwise (fun x y => x < y ∧ eps < y - x) := by
          intro ys
          induction ys with
          | nil => intro b _; simp [scanEps]
          | cons y ys ih =>
            intro b hb
            have hmem := scanEps_mem eps heps (y :: ys) b hb
            have hb2 := (List.pairwise_cons.1 hb).2
            refine List.pairwise_cons.2 ⟨fun z hz => ?_, ?_⟩
            · obtain ⟨_, h5, h6⟩ := (hmem z).1 hz
              exact ⟨h5, h6 b List.mem_cons_self h5⟩
            · simp only [scanEps]
              have := ih y hb2
              split
              · exact this
              · exact (List.pairwise_cons.1 this).2
        exact tail as a h2
      · rw [List.mem_cons, hm, ← h1.mem_iff]
        have hall : (∀ w ∈ x :: zs, w < v → eps < v - w) ↔ ∀ w ∈ a :: as, w < v → eps < v - w :=
          ⟨fun H w hw => H w (h1.mem_iff.1 hw), fun H w hw => H w (h1.mem_iff.2 hw)⟩
        rw [hall]
        constructor
        · rintro (rfl | ⟨h3, _, h4⟩)
          · refine ⟨List.mem_cons_self, fun w hw hwv => ?_⟩
            rcases List.mem_cons.1 hw with rfl | hw
            · exact absurd hwv (lt_irrefl _)
            · exact absurd hwv (not_lt.2 (hge w hw))
          · exact ⟨List.mem_cons_of_mem _ h3, h4⟩
        · rintro ⟨h3, h4⟩
          by_cases hva : v = a
          · exact .inl hva
          · rcases List.mem_cons.1 h3 with h | h
            · exact absurd h hva
            · exact .inr ⟨h, lt_of_le_of_ne (hge v h) (fun h => hva h.symm), h4⟩

example : uniqueSortedEps isort 1 [10, 1, 0, 11, 2, 20] = [0, 10, 20] := by decide +kernel

/-- **C14 (refuted for the in-place integer variant).** For a single element `uniqueSortedIntEmplace` reports length one
but does not write the value into the caller's buffer. -/
theorem C14_emplace_single_refuted (q : List Int → List Int) :
    ¬ (∀ arr out : List Int, out.length = arr.length →
        ∀ x, x ∈ (uniqueSortedIntEmplace q arr out).2.take (uniqueSortedIntEmplace q arr out).1 ↔ x ∈ arr) := by
  intro h
  have := (h [7] [0] rfl 7).2 (by simp)
  simp [uniqueSortedIntEmplace] at this

/-- For two or more elements the in-place variant writes the distinct values. -/
theorem C14_emplace_partial (q : List Int → List Int) (hq : QsortSpec q) (arr out : List Int) (h2 : 2 ≤ arr.length) :
    let r := uniqueSortedIntEmplace q arr out
    (r.2.take r.1).Pairwise (· < ·) ∧ ∀ x, x ∈ r.2.take r.1 ↔ x ∈ arr := by
  match arr, h2 with
  | x :: y :: zs, _ =>
    obtain ⟨h1, h2⟩ := hq (x :: y :: zs)
    simp only [uniqueSortedIntEmplace]
    cases hs : q (x :: y :: zs) with
    | nil => rw [hs] at h1; exact absurd h1.symm.eq_nil (by simp)
    | cons a as =>
      rw [hs] at h1 h2
      obtain ⟨s1, s2⟩ := scan_spec as a h2
      simp only [List.take_left]
      exact ⟨s1, fun v => (s2 v).trans h1.mem_iff⟩

example : uniqueSortedIntEmplace isort [5, 3, 5] [0, 0, 0] = (2, [3, 5, 0]) := by decide +kernel

/-- The full C52 claim: every input is within `eps` of a value that is kept. -/
def CoverClaim (q : List Int → List Int) (eps : Int) (arr : List Int) : Prop :=
  ∀ v ∈ arr, ∃ u ∈ uniqueSortedEps q eps arr, |v - u| ≤ eps

/-- **C52 (refuted).** Each element is compared with its predecessor in the input, not with the last one kept, so a
chain of small steps collapses to its first element: `[0, 1, 2]` with `eps = 1` keeps only `0`. -/
theorem C52_chain_collapse_refuted (q : List Int → List Int) (hq : QsortSpec q) : ¬ CoverClaim q 1 [0, 1, 2] := by
  intro h
  obtain ⟨u, hu, hd⟩ := h 2 (by simp)
  obtain ⟨h1, h2⟩ := (C14_unique_eps q hq 1 (by decide) [0, 1, 2]).2 u |>.1 hu
  simp only [List.mem_cons, List.not_mem_nil, or_false] at h1
  rcases h1 with rfl | rfl | rfl
  · exact absurd hd (by decide)
  · exact absurd (h2 0 (by simp) (by decide)) (by decide)
  · exact absurd (h2 1 (by simp) (by decide)) (by decide)

theorem scanEps_cover [Ring K] [LinearOrder K] [IsStrictOrderedRing K] (eps : K) (heps : 0 ≤ eps) (xs : List K) :
    ∀ prev u : K, ∀ n : Nat, (prev :: xs).Pairwise (· ≤ ·) → u ≤ prev → prev - u ≤ n * eps → ∀ v ∈ xs,
      ∃ t ∈ u :: scanEps eps prev xs, t ≤ v ∧ v - t ≤ ((n + xs.length : Nat) : K) * eps := by
  induction xs with
  | nil => intro _ _ _ _ _ _ v hv; simp at hv
  | cons y ys ih =>
    intro prev u n h hu hn v hv
    obtain ⟨h1, h2⟩ := List.pairwise_cons.1 h
    have hpy := h1 y List.mem_cons_self
    have hmono : ∀ a b : Nat, a ≤ b → (a : K) * eps ≤ (b : K) * eps := fun a b hab =>
      mul_le_mul_of_nonneg_right (Nat.cast_le.2 hab) heps
    simp only [scanEps]
    split
    · rename_i hgap
      rcases List.mem_cons.1 hv with rfl | hv
      · refine ⟨v, by simp, le_rfl, ?_⟩
        rw [sub_self]
        exact mul_nonneg (Nat.cast_nonneg _) heps
      · obtain ⟨t, ht, h3, h4⟩ := ih y y 0 h2 le_rfl (by simp) v hv
        exact ⟨t, List.mem_cons_of_mem _ ht, h3, h4.trans (hmono _ _ (by simp only [List.length_cons]; omega))⟩
    · rename_i hgap
      rw [abs_of_nonneg (sub_nonneg.2 hpy), gt_iff_lt, not_lt] at hgap
      have hy : y - u ≤ ((n + 1 : Nat) : K) * eps := by
        push_cast
        rw [add_mul, one_mul]
        have : y - u = (prev - u) + (y - prev) := by abel
        rw [this]
        exact add_le_add hn hgap
      rcases List.mem_cons.1 hv with rfl | hv
      · exact ⟨u, List.mem_cons_self, hu.trans hpy, hy.trans (hmono _ _ (by simp only [List.length_cons]; omega))⟩
      · obtain ⟨t, ht, h3, h4⟩ := ih y u (n + 1) h2 (hu.trans hpy) hy v hv
        exact ⟨t, ht, h3, h4.trans (hmono _ _ (by simp only [List.length_cons]; omega))⟩

/-- **C52 (partial).** What holds: every input is within `(n-1)*eps` above a kept value.  Missing compared with the full
claim: the bound `eps`, refuted above. -/
theorem C52_cover_partial [Ring K] [LinearOrder K] [IsStrictOrderedRing K] (q : List K → List K) (hq : QsortSpec q)
    (eps : K) (heps : 0 ≤ eps) (arr : List K) (v : K) (hv : v ∈ arr) :
    ∃ u ∈ uniqueSortedEps q eps arr, u ≤ v ∧ v - u ≤ ((arr.length - 1 : Nat) : K) * eps := by
  match arr, hv with
  | x :: zs, hv =>
    obtain ⟨h1, h2⟩ := hq (x :: zs)
    simp only [uniqueSortedEps]
    cases hs : q (x :: zs) with
    | nil => rw [hs] at h1; exact absurd h1.symm.eq_nil (by simp)
    | cons a as =>
      rw [hs] at h1 h2
      have hlen := h1.length_eq
      simp only [List.length_cons] at hlen
      rcases List.mem_cons.1 (h1.mem_iff.2 hv) with rfl | hv'
      · refine ⟨v, List.mem_cons_self, le_rfl, ?_⟩
        rw [sub_self]
        exact mul_nonneg (Nat.cast_nonneg _) heps
      · obtain ⟨t, ht, h3, h4⟩ := scanEps_cover eps heps as a a 0 h2 le_rfl (by simp) v hv'
        refine ⟨t, ht, h3, ?_⟩
        have : 0 + as.length = (x :: zs).length - 1 := by simp only [List.length_cons]; omega
        rw [this] at h4
        exact h4

end Verif.Sort
