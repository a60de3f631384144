import Verif.Knot.Refine
import Verif.Nurbs.Props3

/-! # C245, C246, C247: merging knot vectors, refinement, ruled surfaces -/

set_option linter.unusedSectionVars false

namespace Verif.Knot
open Verif.Nurbs Finset

variable {K : Type} [Field K] [LinearOrder K] [IsStrictOrderedRing K]

/-! ## Merging -/

theorem flatMap_replicate (f : K → Nat) : ∀ l : List K, l.Pairwise (· < ·) →
    (l.flatMap fun k => List.replicate (f k) k).Pairwise (· ≤ ·) ∧
    (∀ x, (l.flatMap fun k => List.replicate (f k) k).count x = if x ∈ l then f x else 0) ∧
    ∀ B, (∀ x ∈ l, f x ≤ B) → (l.flatMap fun k => List.replicate (f k) k).length ≤ l.length * B := by
  intro l
  induction l with
  | nil => intro _; exact ⟨List.Pairwise.nil, fun x => by simp, fun B _ => by simp⟩
  | cons k l ih =>
    intro h
    obtain ⟨h1, h2⟩ := List.pairwise_cons.mp h
    obtain ⟨i1, i2, i3⟩ := ih h2
    rw [List.flatMap_cons]
    refine ⟨?_, fun x => ?_, fun B hB => ?_⟩
    · rw [List.pairwise_append]
      refine ⟨List.pairwise_replicate.mpr (Or.inr (le_refl _)), i1, fun x hx y hy => ?_⟩
      obtain rfl := List.eq_of_mem_replicate hx
      obtain ⟨z, hz, hyz⟩ := List.mem_flatMap.mp hy
      obtain rfl := List.eq_of_mem_replicate hyz
      exact le_of_lt (h1 _ hz)
    · rw [List.count_append, i2, List.count_replicate]
      by_cases q : x = k
      · subst q
        have : x ∉ l := fun hx => absurd (h1 x hx) (lt_irrefl _)
        simp [this]
      · have : ¬ k = x := fun h => q h.symm
        simp [q, this]
    · rw [List.length_append, List.length_replicate, List.length_cons, Nat.add_mul, one_mul, Nat.add_comm]
      exact Nat.add_le_add (i3 B fun x hx => hB x (List.mem_cons_of_mem _ hx)) (hB k List.mem_cons_self)

theorem count_close (close : K → K → Bool) (l : List K) (k : K) (h : ∀ x ∈ l, close x k = true ↔ x = k) :
    l.countP (close · k) = l.count k := by
  rw [List.count]
  refine List.countP_congr fun x hx => ?_
  rw [h x hx]
  simp

/-- **C245, partial** `merge_knot_vectors`: when `np.isclose` holds only between equal knots, the merged vector is sorted and
contains every knot with the larger of its two multiplicities (and nothing else). -/
theorem C245_merge_partial (close : K → K → Bool) (k1 k2 : List K)
    (h : ∀ x ∈ k1 ++ k2, ∀ y ∈ k1 ++ k2, close x y = true ↔ x = y) :
    (mergeKnots close k1 k2).Pairwise (· ≤ ·) ∧
    ∀ x, (mergeKnots close k1 k2).count x = max (k1.count x) (k2.count x) := by
  obtain ⟨s1, s2⟩ := foldr_insertSet (k1 ++ k2)
  obtain ⟨f1, f2, _⟩ := flatMap_replicate (fun k => max (k1.countP (close · k)) (k2.countP (close · k))) _ s1
  refine ⟨f1, fun x => ?_⟩
  rw [mergeKnots, f2]
  by_cases q : x ∈ k1 ++ k2
  · rw [if_pos ((s2 x).mpr q), count_close close k1 x (fun y hy => h y (List.mem_append_left _ hy) x q),
      count_close close k2 x (fun y hy => h y (List.mem_append_right _ hy) x q)]
  · rw [if_neg fun h => q ((s2 x).mp h)]
    rw [List.mem_append, not_or] at q
    rw [List.count_eq_zero_of_not_mem q.1, List.count_eq_zero_of_not_mem q.2]
    rfl

example : let close : ℚ → ℚ → Bool := fun a b => |a - b| ≤ 1 / 100
    (∀ x ∈ [0, 0, 1, 2, 2] ++ [0, 0, 1, 1, 2, 2], ∀ y ∈ [0, 0, 1, 2, 2] ++ [0, 0, 1, 1, 2, 2], close x y = true ↔ x = y) ∧
    mergeKnots close [0, 0, 1, 2, 2] [0, 0, 1, 1, 2, 2] = [0, 0, 1, 1, 2, 2] := by decide +kernel

/-- **C245, refuted part.** Two different knots within the tolerance: merging a vector with itself doubles them. -/
theorem C245_close_knots_refuted (close : K → K → Bool) (x y : K) (hxy : x < y) (h : ∀ a b, a ∈ [x, y] → b ∈ [x, y] → close a b = true) :
    mergeKnots close [x, y] [x, y] = [x, x, y, y] := by
  have hs : ([x, y] ++ [x, y]).foldr insertSet [] = [x, y] := by
    apply sorted_ext
    · exact (foldr_insertSet _).1
    · simp [hxy]
    · intro z
      rw [(foldr_insertSet _).2]
      simp
      tauto
  have c1 : [x, y].countP (close · x) = 2 := by simp [h x x (by simp) (by simp), h y x (by simp) (by simp)]
  have c2 : [x, y].countP (close · y) = 2 := by simp [h x y (by simp) (by simp), h y y (by simp) (by simp)]
  rw [mergeKnots, hs]
  simp [c1, c2, List.replicate]

/-- Two knots a thousandth apart with a tolerance of a hundredth. -/
example : let close : ℚ → ℚ → Bool := fun a b => |a - b| ≤ 1 / 100
    (∀ a ∈ [1, 1 + 1 / 1000], ∀ b ∈ [1, 1 + 1 / 1000], close a b = true) ∧
    mergeKnots close [1, 1 + 1 / 1000] [1, 1 + 1 / 1000] = [1, 1, 1 + 1 / 1000, 1 + 1 / 1000] := by decide +kernel

/-! ## Refinement -/

/-- **C246, partial** `refine_curve` with a sorted vector that contains every knot of the curve at least as often as the curve
does, and further knots inside the domain with multiplicities up to the degree: afterwards the knots are exactly that vector,
and degree, domain and the four columns of the curve as functions are the same. -/
theorem C246_refine_partial (c : Curve K) (hv : Valid c) (ks : List K) (hs : ks.Pairwise (· ≤ ·))
    (hsub : ∀ x, (knotList c).count x ≤ ks.count x)
    (hin : ∀ x, (knotList c).count x < ks.count x → c.U c.degree ≤ x ∧ x < c.U c.n ∧ ks.count x ≤ c.degree)
    (fuel : Nat) (hf : ks.length ≤ fuel) (eps : K → K) (heps : ∀ y, 0 ≤ eps y)
    (hsep : ∀ x ∈ ks, ∀ y ∈ ks, |x - y| ≤ eps y → y = x) (init junk : Nat → Nat → K) :
    ∃ c', refineCurve fuel eps init junk c ks = some (some c') ∧ knotList c' = ks ∧ Refined c c' := by
  have hp : (knotList c ++ ks.diff (knotList c)).Perm ks :=
    List.subperm_append_diff_self_of_count_le fun x _ => hsub x
  have hex : ∀ x ∈ ks.diff (knotList c), (knotList c).count x < ks.count x := by
    intro x hx
    have h1 : 0 < (ks.diff (knotList c)).count x := List.count_pos_iff.mpr hx
    have h2 := hp.count_eq x
    rw [List.count_append] at h2
    omega
  obtain ⟨c', h1, h2, h3⟩ := refine_loop fuel eps heps init junk ks c [] (knotList c) (ks.diff (knotList c)) hv rfl
    (by simpa using hs) hp.symm (fun x hx => ⟨(hin x (hex x hx)).1, (hin x (hex x hx)).2.1⟩)
    (fun _ => (knotList_mem c _).mpr ⟨c.n, by have := hv.knots; omega, rfl⟩) (by simpa using hf)
    (by simpa using hsep) (fun x hx => by simpa using (hin x (hex x hx)).2.2)
  exact ⟨c', h1, by simpa using h3, h2⟩

/-- The same for a curve with equal weights: every point of the curve stays. -/
theorem C246_refine_points_partial (c : Curve K) (hv : Valid c) (hper : c.periodic = false) (ks : List K) (hs : ks.Pairwise (· ≤ ·))
    (hsub : ∀ x, (knotList c).count x ≤ ks.count x)
    (hin : ∀ x, (knotList c).count x < ks.count x → c.U c.degree ≤ x ∧ x < c.U c.n ∧ ks.count x ≤ c.degree)
    (fuel : Nat) (hf : ks.length ≤ fuel) (eps : K → K) (heps : ∀ y, 0 ≤ eps y)
    (hsep : ∀ x ∈ ks, ∀ y ∈ ks, |x - y| ≤ eps y → y = x) (init junk : Nat → Nat → K) (w : K) (hw0 : w ≠ 0)
    (hw : ∀ l, l < c.n → c.P l 3 = w) :
    ∃ c', refineCurve fuel eps init junk c ks = some (some c') ∧ knotList c' = ks ∧
      ∀ x, c.U c.degree ≤ x → x ≤ c.U c.n → ∀ col, c'.evaluate fuel x col = c.evaluate fuel x col := by
  obtain ⟨c', h1, h2, h3⟩ := C246_refine_partial c hv ks hs hsub hin fuel hf eps heps hsep init junk
  have hlen : ∀ d : Curve K, (knotList d).length = d.m := fun d => by simp [knotList]
  have hn : c'.n ≤ fuel := by
    have := hlen c'
    rw [h2] at this
    have := h3.valid.knots
    omega
  have hn' : c.n ≤ fuel := by
    have h5 : (knotList c).length ≤ ks.length := (List.subperm_ext_iff.mpr fun x _ => hsub x).length_le
    rw [hlen] at h5
    have := hv.knots
    omega
  refine ⟨c', h1, h2, fun x hx1 hx2 col => ?_⟩
  rw [evaluate_equal_weights c' h3.valid (by rw [h3.periodic, hper]) w hw0 (h3.weights w hw) fuel hn x (by rw [h3.lo]; exact hx1)
      (by rw [h3.hi]; exact hx2), evaluate_equal_weights c hv hper w hw0 hw fuel hn' x hx1 hx2, h3.cols x hx1 hx2]

/-- The knots of a curve of degree 2 with 1/2 added twice and 2 once. -/
example : Valid exPoly ∧ knotList exPoly = [0, 0, 0, 1, 1, 2, 3, 3, 3] ∧
    (∀ x ∈ [0, 0, 0, 1 / 2, 1 / 2, 1, 1, 2, 2, 3, 3, 3],
      (knotList exPoly).count x ≤ [0, 0, 0, 1 / 2, 1 / 2, 1, 1, 2, 2, 3, 3, 3].count x ∧
      ((knotList exPoly).count x < [0, 0, 0, 1 / 2, 1 / 2, 1, 1, 2, 2, 3, 3, 3].count x →
        0 ≤ x ∧ x < 3 ∧ [0, 0, 0, 1 / 2, 1 / 2, 1, 1, 2, 2, 3, 3, 3].count x ≤ 2)) ∧
    ((refineCurve 20 (fun _ => 1 / 100) (fun _ _ => 5) (fun _ _ => 6) exPoly [0, 0, 0, 1 / 2, 1 / 2, 1, 1, 2, 2, 3, 3, 3]).map
      (Option.map fun f => (f.n, knotList f, f.evaluate 20 (5 / 2) 1))) =
      some (some (9, [0, 0, 0, 1 / 2, 1 / 2, 1, 1, 2, 2, 3, 3, 3], exPoly.evaluate 20 (5 / 2) 1)) :=
  ⟨exPoly_valid, by decide +kernel, by decide +kernel, by decide +kernel⟩

/-- **C246, refuted part.** The parameter is documented as the knots to insert: given one knot that is not below the first
knot of the curve, nothing is inserted. -/
theorem C246_single_knot_refuted (c : Curve K) (hv : Valid c) (u : K) (hu : c.U 0 ≤ u) (fuel : Nat) (eps : K → K)
    (init junk : Nat → Nat → K) : refineCurve fuel eps init junk c [u] = some (some c) := by
  have hk : knotList c = c.U 0 :: (List.range (c.m - 1)).map (fun i => c.U (i + 1)) := by
    have := hv.knots
    obtain ⟨q, hq⟩ : ∃ q, c.m = q + 1 := ⟨c.m - 1, by omega⟩
    rw [knotList, hq, List.range_succ_eq_map]
    simp
  rw [refineCurve, hk, refineLoop, if_neg (not_lt.mpr hu), refineLoop]

example : Valid exPoly ∧ exPoly.U 0 ≤ (1 / 2 : ℚ) ∧ ((refineCurve 20 (fun _ => 1 / 100) (fun _ _ => 5) (fun _ _ => 6) exPoly [1 / 2]).map
    (Option.map knotList)) = some (some [0, 0, 0, 1, 1, 2, 3, 3, 3]) := ⟨exPoly_valid, by decide +kernel, by decide +kernel⟩

/-- **C246, refuted part.** More knots than the curve has, all at or after its last one: an exception after all of them are passed. -/
theorem C246_too_many_refuted (c : Curve K) (ks : List K) (h : ∀ k ∈ ks, ∀ o ∈ knotList c, o ≤ k) (hl : c.m < ks.length)
    (fuel : Nat) (eps : K → K) (init junk : Nat → Nat → K) : refineCurve fuel eps init junk c ks = some none := by
  have key : ∀ (old ks : List K), (∀ k ∈ ks, ∀ o ∈ old, o ≤ k) → old.length < ks.length →
      refineLoop fuel eps init junk c old ks = some none := by
    intro old
    induction old with
    | nil =>
      intro ks _ hl
      cases ks with
      | nil => simp at hl
      | cons k ks => rfl
    | cons o old ih =>
      intro ks h hl
      cases ks with
      | nil => simp at hl
      | cons k ks =>
        rw [refineLoop, if_neg (not_lt.mpr (h k List.mem_cons_self o List.mem_cons_self))]
        exact ih ks (fun k' hk' o' ho' => h k' (List.mem_cons_of_mem _ hk') o' (List.mem_cons_of_mem _ ho')) (by simpa using hl)
  exact key _ ks h (by simpa [knotList] using hl)

example : (∀ k ∈ List.replicate 10 (3 : ℚ), ∀ o ∈ knotList exPoly, o ≤ k) ∧ exPoly.m < (List.replicate 10 (3 : ℚ)).length := by
  decide +kernel

end Verif.Knot
