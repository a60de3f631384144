import Verif.Rfn.Lemmas
import Verif.Knot.Props
import Verif.NDer.Props

/-! # C380–C385: knot refinement, knot removal and `NURBSpline.split` -/

set_option linter.unusedSectionVars false

namespace Verif.Rfn
open Verif.Nurbs Verif.Knot

variable {K : Type} [Field K] [LinearOrder K]

/-! ## The knots to insert -/

theorem kl_range (U : Nat → K) (m : Nat) (u : K) : u ∈ kl U m ↔ ∃ i, i < m ∧ U i = u := by
  simp [kl]

/-- Only equal knots are within the tolerance. -/
def Apart (eps : K → K) (c : Curve K) (x : K) : Prop := ∀ i, i < c.m → (|x - c.U i| ≤ eps (c.U i) ↔ c.U i = x)

theorem mult_count (eps : K → K) (c : Curve K) (x : K) (h : Apart eps c x) : findMultiplicity eps x c.U c.m = (kl c.U c.m).count x := by
  rw [findMultiplicity_eq, kl, List.count, List.countP_map]
  apply List.countP_congr
  intro i hi
  have := h i (List.mem_range.1 hi)
  simp only [decide_eq_true_eq, Function.comp, beq_iff_eq]
  exact this

theorem mem_missing (eps : K → K) (c : Curve K) (L : List K) (x : K) : x ∈ missing eps c L ↔ x ∈ L ∧ findMultiplicity eps x c.U c.m < c.degree := by
  simp only [missing, List.mem_flatMap, List.mem_replicate]
  constructor
  · rintro ⟨y, hy, h1, rfl⟩; exact ⟨hy, by omega⟩
  · rintro ⟨h1, h2⟩; exact ⟨x, h1, by omega, rfl⟩

theorem missing_sorted (eps : K → K) (c : Curve K) (L : List K) (hL : L.Pairwise (· < ·)) : (missing eps c L).Pairwise (· ≤ ·) := by
  rw [missing, List.flatMap, List.pairwise_flatten]
  refine ⟨?_, ?_⟩
  · intro l hl
    obtain ⟨x, _, rfl⟩ := List.mem_map.1 hl
    exact List.pairwise_replicate.2 (Or.inr (le_refl _))
  · rw [List.pairwise_map]
    refine hL.imp ?_
    intro x y hxy a ha b hb
    rw [List.eq_of_mem_replicate ha, List.eq_of_mem_replicate hb]
    exact hxy.le

theorem missing_count (eps : K → K) (c : Curve K) (x : K) : ∀ L : List K, L.Pairwise (· < ·) →
    (missing eps c L).count x = if x ∈ L then c.degree - findMultiplicity eps x c.U c.m else 0 := by
  intro L
  induction L with
  | nil => intro _; simp [missing]
  | cons y L ih =>
    intro h
    rw [List.pairwise_cons] at h
    have e : missing eps c (y :: L) = List.replicate (c.degree - findMultiplicity eps y c.U c.m) y ++ missing eps c L := rfl
    rw [e, List.count_append, ih h.2, List.count_replicate]
    by_cases hxy : y = x
    · subst hxy
      have : y ∉ L := fun hc => lt_irrefl _ (h.1 y hc)
      simp [this]
    · have hb : (y == x) = false := by simpa using hxy
      have : x ≠ y := fun hc => hxy hc.symm
      simp [hb, this]

section ordered
variable [IsStrictOrderedRing K]

/-- A list of knots as `knot_refinement` is meant to get it: in order, within the domain, each told apart from the other knots by
both tolerances; the end of the domain is a knot of full multiplicity, and something is to be inserted. -/
structure Refines (eps : K → K) (tol : K) (c : Curve K) (L : List K) : Prop where
  sorted : L.Pairwise (· < ·)
  lo : ∀ x ∈ L, c.U c.degree ≤ x
  hi : ∀ x ∈ L, x ≤ c.U c.n
  apart : ∀ x ∈ L, Apart eps c x
  tolpos : 0 < tol
  sep : ∀ x ∈ L, ∀ u ∈ kl c.U c.m ++ L, |u - x| < tol → u = x
  full : c.degree ≤ (kl c.U c.m).count (c.U c.n)
  some : ∃ x ∈ L, (kl c.U c.m).count x < c.degree

theorem refines_missing (eps : K → K) (tol : K) (c : Curve K) (L : List K) (h : Refines eps tol c L) : Refinable c tol (missing eps c L) := by
  have hmem : ∀ x ∈ missing eps c L, x ∈ L ∧ (kl c.U c.m).count x < c.degree := by
    intro x hx
    have := (mem_missing eps c L x).1 hx
    rw [mult_count eps c x (h.apart x this.1)] at this
    exact this
  refine ⟨?_, missing_sorted eps c L h.sorted, fun x hx => h.lo x (hmem x hx).1, ?_, h.tolpos, ?_, ?_⟩
  · obtain ⟨x, hx, hc⟩ := h.some
    intro he
    have : x ∈ missing eps c L := (mem_missing eps c L x).2 ⟨hx, by rw [mult_count eps c x (h.apart x hx)]; exact hc⟩
    rw [he] at this; simp at this
  · intro x hx
    obtain ⟨h1, h2⟩ := hmem x hx
    refine lt_of_le_of_ne (h.hi x h1) ?_
    intro he
    rw [he] at h2
    exact absurd h.full (by omega)
  · intro x hx u hu
    refine h.sep x (hmem x hx).1 u ?_
    rw [List.mem_append] at hu ⊢
    exact hu.imp_right fun hu => (hmem u hu).1
  · intro x hx
    obtain ⟨h1, h2⟩ := hmem x hx
    rw [List.count_append, missing_count eps c x L h.sorted, if_pos h1, mult_count eps c x (h.apart x h1)]
    omega

theorem refineWith_spec (fuel : Nat) (tol : K) (c : Curve K) (hc : Valid c) (hper : c.periodic = false) (hf : c.n ≤ fuel) (X : List K)
    (hX : Refinable c tol X) : ∃ d, refineWith fuel tol c X = some d ∧ Refined c d X := by
  have hn := hc.npos
  have hm := hc.knots
  obtain ⟨x0, X', rfl⟩ : ∃ x0 X', X = x0 :: X' := by
    cases X with
    | nil => exact absurd rfl hX.ne
    | cons x X => exact ⟨x, X, rfl⟩
  have hlast : (x0 :: X').getLastD 0 ∈ x0 :: X' := by
    have : (x0 :: X').getLastD 0 = (x0 :: X').getLast (by simp) := rfl
    rw [this]; exact List.getLast_mem _
  have hle : ∀ x ∈ x0 :: X', x ≤ (x0 :: X').getLastD 0 := by
    have e : (x0 :: X').getLastD 0 = (x0 :: X').getLast (by simp) := rfl
    rw [e]
    intro x hx
    have hd := List.dropLast_concat_getLast (l := x0 :: X') (by simp)
    have hs := hX.sorted
    rw [← hd] at hs hx
    rw [List.pairwise_append] at hs
    rw [List.mem_append] at hx
    rcases hx with hx | hx
    · exact hs.2.2 x hx _ (by simp)
    · rw [List.mem_singleton] at hx; exact hx.le
  obtain ⟨a, ea, a1, a2, a3, a4⟩ := findSpan_spec fuel (c.n - 1) c.degree x0 c.U (by omega) (by omega)
    (hc.mono 0 _ (by omega) (by omega)) (hX.lo x0 (by simp)) (by rw [show c.n - 1 + 1 = c.n by omega]; exact hX.hi x0 (by simp))
  obtain ⟨b, eb, b1, b2, b3, b4⟩ := findSpan_spec fuel (c.n - 1) c.degree ((x0 :: X').getLastD 0) c.U (by omega) (by omega)
    (hc.mono 0 _ (by omega) (by omega)) (hX.lo _ hlast) (by rw [show c.n - 1 + 1 = c.n by omega]; exact hX.hi _ hlast)
  have hab : a ≤ b := by
    by_contra hcon
    have h1 := hc.mono (b + 1) a (by omega) (by omega)
    have h2 := hle x0 (by simp)
    exact absurd (lt_of_le_of_lt h2 b4) (not_lt.2 (le_trans h1 a3))
  refine ⟨_, ?_, refined c hc tol x0 X' hX a (b + 1) a1 (by omega) a3 a4 (by omega) (by omega) (by omega) ?_⟩
  · simp only [refineWith]
    rw [hper, ea, eb]
  · intro x hx
    exact le_trans (le_trans (hle x hx) b4.le) (hc.mono (b + 1) _ (by omega) (by omega))

/-- **C380, partial.** `knot_refinement` on a list of distinct knots of the domain that are told apart by the tolerances: the new
knots are the old ones together with the listed ones, each listed knot ends up at least as often as the degree says, the result is a
well formed curve over the same domain, every column of control points gives the same spline as before and stays between the bounds
of the old column. -/
theorem C380_refine_partial (fuel : Nat) (eps : K → K) (tol : K) (c : Curve K) (hc : Valid c) (hper : c.periodic = false) (hf : c.n ≤ fuel)
    (knots add : Option (List K)) (density : Nat) (L : List K) (hL : refineList c knots add density = some L) (hR : Refines eps tol c L) :
    ∃ d, knotRefinement fuel eps tol c knots add density = some d ∧ Valid d ∧ d.degree = c.degree ∧
      d.U d.degree = c.U c.degree ∧ d.U d.n = c.U c.n ∧ (∀ x, x ∈ kl d.U d.m ↔ x ∈ kl c.U c.m ∨ x ∈ L) ∧
      (∀ x, (kl d.U d.m).count x = if x ∈ L then max c.degree ((kl c.U c.m).count x) else (kl c.U c.m).count x) ∧
      (∀ col x, c.U c.degree ≤ x → x ≤ c.U c.n → specVal d (fun l => d.P l col) x = specVal c (fun l => c.P l col) x) ∧
      (∀ col lo hi, (∀ l, l < c.n → lo ≤ c.P l col ∧ c.P l col ≤ hi) → ∀ l, l < d.n → lo ≤ d.P l col ∧ d.P l col ≤ hi) := by
  obtain ⟨d, e, h⟩ := refineWith_spec fuel tol c hc hper hf _ (refines_missing eps tol c L hR)
  have hcount : ∀ x, (kl d.U d.m).count x = if x ∈ L then max c.degree ((kl c.U c.m).count x) else (kl c.U c.m).count x := by
    intro x
    rw [h.perm.count_eq x, List.count_append, missing_count eps c x L hR.sorted]
    split
    · rename_i hx
      rw [mult_count eps c x (hR.apart x hx)]
      omega
    · omega
  refine ⟨d, by simp only [knotRefinement, hL]; exact e, h.valid, h.degree, h.lo, h.hi, ?_, hcount, h.val, h.box⟩
  intro x
  have h1 := hcount x
  rw [← List.count_pos_iff, ← List.count_pos_iff, h1]
  have hp : 0 < c.degree := by
    obtain ⟨y, _, hy⟩ := hR.some
    omega
  split
  · rename_i hx; simp only [hx, or_true, iff_true]; omega
  · rename_i hx; simp [hx]

/-- **C380 for evaluation, partial.** If all the weights are equal, the curve built from the points and knots returned has the same
points as before. -/
theorem C380_evaluate_partial (fuel : Nat) (eps : K → K) (tol : K) (c : Curve K) (hc : Valid c) (hper : c.periodic = false) (hf : c.n ≤ fuel)
    (knots add : Option (List K)) (density : Nat) (L : List K) (hL : refineList c knots add density = some L) (hR : Refines eps tol c L)
    (w : K) (hw0 : w ≠ 0) (hw : ∀ l, l < c.n → c.P l 3 = w) :
    ∃ d, knotRefinement fuel eps tol c knots add density = some d ∧ ∀ fuel', d.n ≤ fuel' → ∀ x col, c.U c.degree ≤ x → x ≤ c.U c.n →
      d.evaluate fuel' x col = c.evaluate fuel x col := by
  obtain ⟨d, e, h⟩ := refineWith_spec fuel tol c hc hper hf _ (refines_missing eps tol c L hR)
  refine ⟨d, by simp only [knotRefinement, hL]; exact e, fun fuel' hf' x col h1 h2 => ?_⟩
  have hw' : ∀ l, l < d.n → d.P l 3 = w := by
    intro l hl
    have := h.box 3 w w (fun l hl => by rw [hw l hl]; exact ⟨le_refl _, le_refl _⟩) l hl
    exact le_antisymm this.2 this.1
  rw [NDer.evaluate_spec d h.valid (by rw [h.per, hper]) fuel' hf' w hw0 hw' x (by rw [h.lo]; exact h1) (by rw [h.hi]; exact h2) col,
    NDer.evaluate_spec c hc hper fuel hf w hw0 hw x h1 h2 col, h.val col x h1 h2]

/-! ## The lists the function builds -/

theorem uniqueSorted_spec (L : List K) : (uniqueSorted L).Pairwise (· < ·) ∧ ∀ x, x ∈ uniqueSorted L ↔ x ∈ L := foldr_insertSet L

/-- **C381, partial.** With `density` 1, the default, the knots to refine are the given ones, or those of the domain, with the
additional ones, each once and in order. -/
theorem C381_list_partial (c : Curve K) (knots add : Option (List K)) : ∃ L, refineList c knots add 1 = some L ∧ L.Pairwise (· < ·) ∧
    ∀ x, x ∈ L ↔ x ∈ knots.getD (inner c) ∨ x ∈ add.getD [] := by
  refine ⟨_, rfl, (uniqueSorted_spec _).1, fun x => ?_⟩
  rw [(uniqueSorted_spec _).2, List.mem_append]

theorem mem_inner (c : Curve K) (hc : Valid c) (x : K) : x ∈ inner c ↔ ∃ i, c.degree ≤ i ∧ i ≤ c.n ∧ c.U i = x := by
  have := hc.knots
  have := hc.npos
  simp only [inner, List.mem_map, List.mem_range]
  constructor
  · rintro ⟨i, hi, rfl⟩; exact ⟨c.degree + i, by omega, by omega, rfl⟩
  · rintro ⟨i, h1, h2, rfl⟩; exact ⟨i - c.degree, by omega, by congr 1; omega⟩

/-- **C381 for the default call.** All knots of the domain reach the multiplicity of the degree: the curve falls into Bézier
segments, and is the same as before. -/
theorem C381_default_partial (fuel : Nat) (eps : K → K) (tol : K) (c : Curve K) (hc : Clamped c) (hf : c.n ≤ fuel)
    (hap : ∀ i, i < c.m → Apart eps c (c.U i)) (htol : 0 < tol) (hsep : ∀ i j, i < c.m → j < c.m → |c.U i - c.U j| < tol → c.U i = c.U j)
    (hsome : ∃ i, c.degree ≤ i ∧ i ≤ c.n ∧ (kl c.U c.m).count (c.U i) < c.degree) :
    ∃ d, knotRefinement fuel eps tol c none none 1 = some d ∧ Valid d ∧ d.degree = c.degree ∧
      (∀ x, x ∈ kl d.U d.m ↔ x ∈ kl c.U c.m) ∧ (∀ x ∈ kl d.U d.m, c.degree ≤ (kl d.U d.m).count x) ∧
      (∀ col x, c.U c.degree ≤ x → x ≤ c.U c.n → specVal d (fun l => d.P l col) x = specVal c (fun l => c.P l col) x) := by
  have hv := hc.valid
  have hn := hv.npos
  have hm := hv.knots
  obtain ⟨L, hL, hs, hmem⟩ := C381_list_partial c none none
  have hmem' : ∀ x, x ∈ L ↔ ∃ i, c.degree ≤ i ∧ i ≤ c.n ∧ c.U i = x := by
    intro x
    rw [hmem]
    simp only [Option.getD_none, List.not_mem_nil, or_false]
    exact mem_inner c hv x
  have hR : Refines eps tol c L := by
    refine ⟨hs, ?_, ?_, ?_, htol, ?_, ?_, ?_⟩
    · intro x hx
      obtain ⟨i, h1, h2, rfl⟩ := (hmem' x).1 hx
      exact hv.mono _ _ h1 (by omega)
    · intro x hx
      obtain ⟨i, h1, h2, rfl⟩ := (hmem' x).1 hx
      exact hv.mono _ _ h2 (by omega)
    · intro x hx
      obtain ⟨i, h1, h2, rfl⟩ := (hmem' x).1 hx
      exact hap i (by omega)
    · intro x hx u hu
      obtain ⟨i, h1, h2, rfl⟩ := (hmem' x).1 hx
      rw [List.mem_append, kl_range] at hu
      rcases hu with ⟨j, hj, rfl⟩ | hu
      · exact hsep j i hj (by omega)
      · obtain ⟨j, h3, h4, rfl⟩ := (hmem' u).1 hu
        exact hsep j i (by omega) (by omega)
    · have := count_block c.U c.m c.n c.degree (c.U c.n) (fun l hl => hc.hi_eq (c.n + l) (by omega) (by omega)) (by omega)
      exact this
    · obtain ⟨i, h1, h2, h3⟩ := hsome
      exact ⟨c.U i, (hmem' _).2 ⟨i, h1, h2, rfl⟩, h3⟩
  obtain ⟨d, e, h1, h2, h3, h4, h5, h6, h7, _⟩ := C380_refine_partial fuel eps tol c hv hc.nonper hf none none 1 L hL hR
  have hkl : ∀ x, x ∈ kl c.U c.m → x ∈ L := by
    intro x hx
    obtain ⟨i, hi, rfl⟩ := (kl_range _ _ _).1 hx
    by_cases q1 : i < c.degree
    · rw [hc.lo_eq i (by omega)]
      exact (hmem' _).2 ⟨c.degree, le_refl _, by omega, rfl⟩
    · by_cases q2 : i ≤ c.n
      · exact (hmem' _).2 ⟨i, by omega, q2, rfl⟩
      · rw [hc.hi_eq i (by omega) hi]
        exact (hmem' _).2 ⟨c.n, by omega, le_refl _, rfl⟩
  have hmk : ∀ x, x ∈ L → x ∈ kl c.U c.m := by
    intro x hx
    obtain ⟨i, g1, g2, rfl⟩ := (hmem' x).1 hx
    exact mem_kl _ _ _ (by omega)
  refine ⟨d, e, h1, h2, ?_, ?_, h7⟩
  · intro x
    rw [h5]
    exact ⟨fun h => h.elim id (hmk x), Or.inl⟩
  · intro x hx
    rw [h6 x, if_pos (((h5 x).1 hx).elim (hkl x) id)]
    exact le_max_left _ _

/-- The curve of degree 2 with a simple and a double inner knot: the simple one becomes double and the value at 5/2 is kept. -/
example : Clamped exPoly ∧ (kl exPoly.U exPoly.m).count 2 = 1 ∧
    ((knotRefinement 7 (fun _ => 1 / 100) (1 / 100) exPoly none none 1).map fun d =>
      (d.n, kl d.U d.m, (List.range d.n).map fun l => d.P l 1)) = some (7, [0, 0, 0, 1, 1, 2, 2, 3, 3, 3], [0, 4, 6, 6, 5, 4, 0]) := by
  refine ⟨exPoly_clamped, by decide +kernel, ?_⟩
  decide +kernel

end ordered
end Verif.Rfn
