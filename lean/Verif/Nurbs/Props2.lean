import Verif.Nurbs.Reverse

/-! # C39, C56-C60: reversing, splitting, trimming -/

set_option linter.unusedSectionVars false

namespace Verif.Nurbs
open Finset
variable {K : Type} [Field K] [LinearOrder K]

section ordered
variable [IsStrictOrderedRing K]

/-- With equal weights a coordinate is the plain spline of its column. -/
theorem evaluate_equal_weights (d : Curve K) (hd : Valid d) (hdp : d.periodic = false) (w : K) (hw0 : w ≠ 0)
    (hdw : ∀ l, l < d.n → d.P l 3 = w) (fuel : Nat) (hdf : d.n ≤ fuel) (x : K) (hd1 : d.U d.degree ≤ x) (hd2 : x ≤ d.U d.n)
    (col : Nat) : d.evaluate fuel x col = some (specVal d (fun l => d.P l col) x) := by
  rw [C35_evaluate_is_rational_spline d hd hdp fuel hdf x hd1 hd2 col]
  obtain ⟨i, _, hpi, hsp⟩ := findSpan_sp d.n d.n d.degree x d.U hd.npos (le_refl _) d.m hd.mono
    (by rw [hd.knots]; have := hd.npos; omega) hd.last hd1 hd2
  have e1 : specVal d (fun l => d.P l 3 * d.P l col) x = w * specVal d (fun l => d.P l col) x := by
    rw [specVal, specVal, mul_sum]
    exact sum_congr rfl fun l hl => by rw [hdw l (mem_range.mp hl)]; ring
  have e2 : specVal d (fun l => d.P l 3) x = w := by
    rw [specVal_eq d hd _ x i hsp, spline_const d.U d.degree d.n _ (fun _ => w * 1) x i
      (fun l hl => by rw [hdw l hl, mul_one]), spline_smul,
      spline_ones d.U d.m hd.mono d.degree d.n x i hsp.2.1 hpi hsp.1 (by rw [hd.knots]; have := hsp.1; omega), mul_one]
  rw [e1, e2, mul_div_cancel_left₀ _ hw0]

/-! ## C56 -/

/-- **C56, partial.** Splitting a non-periodic curve of degree at least 1 with equal weights at a parameter inside the domain,
further than `tol` from both ends, where no knot has multiplicity above the degree: no exception, both pieces are well
formed curves of the same degree on `[a, t]` and `[t, b]`, and each takes the values of the original on its part, both ends
included.  Missing: different weights (false, below). -/
theorem C56_split_partial (c : Curve K) (hc : Valid c) (hper : c.periodic = false) (hj : NoJump c) (hdeg : 1 ≤ c.degree)
    (fuel : Nat) (eps : K → K) (heps : ∀ y, 0 ≤ eps y) (t tol : K) (hf : c.n + c.degree + 1 ≤ fuel)
    (hl : c.U c.degree < t) (hh : t < c.U c.n) (ht1 : tol < t - c.U 0) (ht2 : tol < c.U (c.m - 1) - t)
    (hsep : ∀ i, i < c.m → |t - c.U i| ≤ eps (c.U i) → c.U i = t) (init junk : Nat → Nat → K)
    (w : K) (hw0 : w ≠ 0) (hw : ∀ l, l < c.n → c.P l 3 = w) :
    ∃ c1 c2, splitCurve c fuel eps tol init junk t = some (some (c1, c2)) ∧ Valid c1 ∧ Valid c2 ∧
      c1.degree = c.degree ∧ c2.degree = c.degree ∧
      c1.U c1.degree = c.U c.degree ∧ c1.U c1.n = t ∧ c2.U c2.degree = t ∧ c2.U c2.n = c.U c.n ∧
      (∀ x, c.U c.degree ≤ x → x ≤ t → ∀ col, c1.evaluate fuel x col = c.evaluate fuel x col) ∧
      (∀ x, t ≤ x → x ≤ c.U c.n → ∀ col, c2.evaluate fuel x col = c.evaluate fuel x col) := by
  have hmult := mult_le_degree c hc hj eps t hl hh hsep
  obtain ⟨c1, c2, h0, v1, v2, d1, d2, p1, p2, e1, e2, e3, e4, hn, f1, f2, hw', _⟩ :=
    split_columns c hc hdeg fuel eps heps t tol hf hl hh ht1 ht2 hsep hmult init junk
  obtain ⟨w1, w2⟩ := hw' w hw
  have hb1 := v1.npos
  have hb2 := v2.npos
  refine ⟨c1, c2, h0, v1, v2, d1, d2, e1, e2, e3, e4, fun x hx1 hx2 col => ?_, fun x hx1 hx2 col => ?_⟩
  · rw [evaluate_equal_weights c hc hper w hw0 hw fuel (by omega) x hx1 (le_trans hx2 (le_of_lt hh)),
      evaluate_equal_weights c1 v1 p1 w hw0 w1 fuel (by omega) x (by rw [e1]; exact hx1) (by rw [e2]; exact hx2),
      f1 x hx1 hx2]
  · rw [evaluate_equal_weights c hc hper w hw0 hw fuel (by omega) x (le_trans (le_of_lt hl) hx1) hx2,
      evaluate_equal_weights c2 v2 p2 w hw0 w2 fuel (by omega) x (by rw [e3]; exact hx1) (by rw [e4]; exact hx2),
      f2 x hx1 hx2]

end ordered

theorem exPoly_noJump : NoJump exPoly := by
  intro j hj
  have h9 : j + 2 < 9 := hj
  have : j < 7 := by omega
  show exU 2 < exU j → exU j < exU 6 → exU j < exU (j + 2)
  interval_cases j <;> norm_num [exU, kvec]

/-- The hypotheses hold for the degree-2 example at its double knot 1 and at 3/2, and the pieces meet at `C(3/2)`. -/
example : Valid exPoly ∧ NoJump exPoly ∧ exPoly.U exPoly.degree < 3 / 2 ∧ 3 / 2 < exPoly.U exPoly.n ∧
    exPoly.evaluate 20 (3 / 2) 1 = some (23 / 4) ∧
    ((splitCurve exPoly 20 (fun _ => 1 / 1000) (1 / 1000) (fun _ _ => 7) (fun _ _ => 8) (3 / 2)).map
      (Option.map (fun cs => (cs.1.evaluate 20 (3 / 2) 1, cs.2.evaluate 20 (3 / 2) 1, cs.1.n, cs.2.n)))) =
      some (some (some (23 / 4), some (23 / 4), 5, 4)) := by
  refine ⟨exPoly_valid, exPoly_noJump, by norm_num [exPoly, exCurve, exU, kvec], by norm_num [exPoly, exCurve, exU, kvec],
    by decide +kernel, by decide +kernel⟩

/-- **C56, refuted.** Splitting a rational curve changes it (through `insert_knot`): the line from 0 to 1 with weights 1, 2
passes through 2/3 at 1/2, the first piece ends at 1/2. -/
theorem C56_split_refuted : ¬ ∀ (c : Curve ℚ), Valid c → c.periodic = false → NoJump c → 1 ≤ c.degree →
    (∀ l, l < c.n → 0 < c.P l 3) → ∀ t, c.U c.degree < t → t < c.U c.n →
    ∀ x, c.U c.degree ≤ x → x ≤ t → ∀ c1 c2,
      splitCurve c 20 (fun _ => 1 / 1000) (1 / 1000) (fun _ _ => 0) (fun _ _ => 0) t = some (some (c1, c2)) →
      c1.evaluate 20 x 0 = c.evaluate 20 x 0 := by
  intro h
  have e0 : ((splitCurve (lineW 0 1 1 2) 20 (fun _ => 1 / 1000) (1 / 1000) (fun _ _ => 0) (fun _ _ => 0) (1 / 2)).map
      (Option.map (fun cs => cs.1.evaluate 20 (1 / 2) 0))) = some (some (some (1 / 2))) := by decide +kernel
  have e1 : (lineW 0 1 1 2).evaluate 20 (1 / 2) 0 = some (2 / 3) := by decide +kernel
  cases hs : splitCurve (lineW 0 1 1 2) 20 (fun _ => 1 / 1000) (1 / 1000) (fun _ _ => 0) (fun _ _ => 0) (1 / 2) with
  | none => rw [hs] at e0; cases e0
  | some r =>
    cases r with
    | none => rw [hs] at e0; cases e0
    | some cs =>
      have := h (lineW 0 1 1 2) (lineW_valid 0 1 1 2) rfl (by
        intro j hj
        have h4 : j + 1 < 4 := hj
        have : j < 3 := by omega
        show kvec [0, 0, 1, 1] 1 < kvec [0, 0, 1, 1] j → kvec [0, 0, 1, 1] j < kvec [0, 0, 1, 1] 2 →
          kvec [0, 0, 1, 1] j < kvec [0, 0, 1, 1] (j + 1)
        interval_cases j <;> norm_num [kvec]) (le_refl _)
        (fun l _ => by simp only [lineW, if_true]; split <;> norm_num) (1 / 2) (by norm_num [lineW, kvec])
        (by norm_num [lineW, kvec]) (1 / 2) (by norm_num [lineW, kvec]) (le_refl _) cs.1 cs.2 hs
      rw [hs] at e0
      simp only [Option.map_some, Option.some.injEq] at e0
      rw [e0, e1] at this
      norm_num at this

/-! ## C57 -/

section ordered
variable [IsStrictOrderedRing K]

/-- The curve `d` is a well formed piece of `c` on `[a, b]`. -/
def IsPiece (c : Curve K) (fuel : Nat) (d : Curve K) (a b : K) : Prop :=
  Valid d ∧ d.degree = c.degree ∧ d.U d.degree = a ∧ d.U d.n = b ∧
    ∀ x, a ≤ x → x ≤ b → ∀ col, d.evaluate fuel x col = c.evaluate fuel x col

/-- Pieces in order covering `[a, b]` with breaks at the given parameters. -/
def Pieces (c : Curve K) (fuel : Nat) : List (Curve K) → K → List K → K → Prop
  | [d], a, [], b => IsPiece c fuel d a b
  | d :: ds, a, t :: ts, b => IsPiece c fuel d a t ∧ Pieces c fuel ds t ts b
  | _, _, _, _ => False

theorem Pieces.mono {c d : Curve K} {fuel : Nat} (hdeg : d.degree = c.degree) (a0 : K) (hv : ∀ x, a0 ≤ x → x ≤ c.U c.n →
    ∀ col, d.evaluate fuel x col = c.evaluate fuel x col) : ∀ (ds : List (Curve K)) (ts : List K) (a b : K),
    a0 ≤ a → b ≤ c.U c.n → (∀ t ∈ ts, a0 ≤ t ∧ t ≤ b) → Pieces d fuel ds a ts b → Pieces c fuel ds a ts b := by
  intro ds
  induction ds with
  | nil => intro ts a b _ _ _ h; cases ts <;> exact h.elim
  | cons e es ih =>
    intro ts a b ha hb hts h
    cases ts with
    | nil =>
      cases es with
      | nil =>
        obtain ⟨h1, h2, h3, h4, h5⟩ := h
        exact ⟨h1, by rw [h2, hdeg], h3, h4, fun x hx1 hx2 col => by
          rw [h5 x hx1 hx2 col, hv x (le_trans ha hx1) (le_trans hx2 hb) col]⟩
      | cons _ _ => exact h.elim
    | cons t ts =>
      have hh : IsPiece d fuel e a t ∧ Pieces d fuel es t ts b := by
        cases es <;> exact h
      obtain ⟨⟨h1, h2, h3, h4, h5⟩, h6⟩ := hh
      have ht := hts t (List.mem_cons_self)
      have hres : IsPiece c fuel e a t ∧ Pieces c fuel es t ts b :=
        ⟨⟨h1, by rw [h2, hdeg], h3, h4, fun x hx1 hx2 col => by
          rw [h5 x hx1 hx2 col, hv x (le_trans ha hx1) (le_trans hx2 (le_trans ht.2 hb)) col]⟩,
        ih ts t b ht.1 hb (fun t' ht' => hts t' (List.mem_cons_of_mem _ ht')) h6⟩
      cases es <;> exact hres

/-- **C57, partial.** `split_curve_multiple` at increasing parameters inside the domain, pairwise and from the ends further
apart than `tol`, with the multiplicity tolerance separating parameters and knots: one piece per interval, in order, each
equal to the original curve there.  For equal weights; `decompose_curve` is this call with the distinct inner knots. -/
theorem C57_split_multiple_partial (fuel : Nat) (eps : K → K) (heps : ∀ y, 0 ≤ eps y) (tol : K) (htol : 0 ≤ tol)
    (init junk : Nat → Nat → K)
    (w : K) (hw0 : w ≠ 0) : ∀ (ts : List K) (c : Curve K), Valid c → c.periodic = false → NoJump c → 1 ≤ c.degree →
    c.m ≤ fuel → (∀ l, l < c.n → c.P l 3 = w) →
    (∀ t ∈ ts, tol < t - c.U c.degree ∧ tol < c.U c.n - t) → ts.Pairwise (fun s t => tol < t - s) →
    (∀ t ∈ ts, (∀ i, i < c.m → |t - c.U i| ≤ eps (c.U i) → c.U i = t) ∧ ∀ s ∈ ts, |t - s| ≤ eps s → s = t) →
    ∃ ds, splitMultiple fuel eps tol init junk c ts = some (some ds) ∧ Pieces c fuel ds (c.U c.degree) ts (c.U c.n) := by
  intro ts
  induction ts with
  | nil =>
    intro c hc _ _ _ _ _ _ _ _
    exact ⟨[c], rfl, hc, rfl, rfl, rfl, fun _ _ _ _ => rfl⟩
  | cons t ts ih =>
    intro c hc hper hj hdeg hf hw hts hpw hsep
    have hk := hc.knots
    have hnp := hc.npos
    obtain ⟨ht1, ht2⟩ := hts t List.mem_cons_self
    have hl : c.U c.degree < t := by linarith
    have hh : t < c.U c.n := by linarith
    have hs0 := (hsep t List.mem_cons_self).1
    have hmult := mult_le_degree c hc hj eps t hl hh hs0
    have hU0 : c.U 0 ≤ c.U c.degree := hc.mono _ _ (by omega) (by omega)
    have hUm : c.U c.n ≤ c.U (c.m - 1) := hc.mono _ _ (by omega) (by omega)
    obtain ⟨c1, c2, h0, v1, v2, d1, d2, p1, p2, e1, e2, e3, e4, hn, f1, f2, hw', h20, ⟨d, hdm, hdk⟩, _⟩ :=
      split_columns c hc hdeg fuel eps heps t tol (by omega) hl hh (by linarith) (by linarith) hs0 hmult init junk
    obtain ⟨w1, w2⟩ := hw' w hw
    have hb1 := v1.npos
    have hb2 := v2.npos
    have hk1 := v1.knots
    have hk2 := v2.knots
    have hn1 : c1.n ≤ fuel := by omega
    have hev2 : ∀ x, t ≤ x → x ≤ c.U c.n → ∀ col, c2.evaluate fuel x col = c.evaluate fuel x col := fun x hx1 hx2 col => by
      rw [evaluate_equal_weights c hc hper w hw0 hw fuel (by omega) x (le_trans (le_of_lt hl) hx1) hx2,
        evaluate_equal_weights c2 v2 p2 w hw0 w2 fuel (by omega) x (by rw [e3]; exact hx1) (by rw [e4]; exact hx2),
        f2 x hx1 hx2]
    have hkn : ∀ k, k < c2.m → c2.U k = t ∨ ∃ j, j < c.m ∧ c2.U k = c.U j := by
      intro k hk'
      by_cases hkd : c.degree < k
      · exact Or.inr ⟨k + d, by omega, hdk k hkd⟩
      · have a1 := v2.mono 0 k (by omega) hk'
        have a2 := v2.mono k c2.degree (by omega) (by omega)
        rw [h20] at a1
        rw [e3] at a2
        exact Or.inl (le_antisymm a2 a1)
    have hj2 : NoJump c2 := by
      intro j hj1 hj2 hj3
      rw [e3] at hj2
      rw [e4] at hj3
      have hjd : c.degree < j := by
        by_contra hcon
        have := v2.mono j c2.degree (by omega) (by omega)
        rw [e3] at this
        exact absurd hj2 (not_lt.mpr this)
      rw [hdk j hjd, hdk (j + c2.degree) (by omega), d2]
      rw [hdk j hjd] at hj2 hj3
      have := hj (j + d) (by omega) (lt_trans hl hj2) hj3
      rw [show j + d + c.degree = j + c.degree + d by omega] at this
      exact this
    have hpw' := List.pairwise_cons.mp hpw
    obtain ⟨ds, hds, hpc⟩ := ih c2 v2 p2 hj2 (by omega) (by omega) w2
      (fun t' ht' => by
        rw [e3, e4]
        exact ⟨hpw'.1 t' ht', (hts t' (List.mem_cons_of_mem _ ht')).2⟩) hpw'.2
      (fun t' ht' => by
        obtain ⟨q1, q2⟩ := hsep t' (List.mem_cons_of_mem _ ht')
        refine ⟨fun i hi hle => ?_, fun s hs => q2 s (List.mem_cons_of_mem _ hs)⟩
        rcases hkn i hi with h | ⟨j, hj', h⟩
        · rw [h] at hle ⊢
          exact q2 t List.mem_cons_self hle
        · rw [h] at hle ⊢
          exact q1 j hj' hle)
    refine ⟨c1 :: ds, ?_, ?_⟩
    · rw [splitMultiple, h0]
      simp only
      rw [hds]
    · have hpc2 := Pieces.mono (c := c) (d := c2) d2 t hev2 ds ts t (c.U c.n) (le_refl _) (le_refl _)
        (fun t' ht' => ⟨by have := hpw'.1 t' ht'; linarith, by
          have := (hts t' (List.mem_cons_of_mem _ ht')).2; linarith⟩) (by rw [e3, e4] at hpc; exact hpc)
      have hp1 : IsPiece c fuel c1 (c.U c.degree) t := ⟨v1, d1, e1, e2, fun x hx1 hx2 col => by
        rw [evaluate_equal_weights c hc hper w hw0 hw fuel (by omega) x hx1 (le_trans hx2 (le_of_lt hh)),
          evaluate_equal_weights c1 v1 p1 w hw0 w1 fuel hn1 x (by rw [e1]; exact hx1) (by rw [e2]; exact hx2),
          f1 x hx1 hx2]⟩
      cases ds with
      | nil => cases ts <;> exact hpc2.elim
      | cons _ _ => exact ⟨hp1, hpc2⟩

end ordered

/-- Decomposing the degree-2 example at its inner knots 1 (double) and 2: three pieces; the hypotheses hold. -/
example : (∀ t ∈ [(1 : ℚ), 2], (1 / 1000 : ℚ) < t - exPoly.U exPoly.degree ∧ 1 / 1000 < exPoly.U exPoly.n - t) ∧
    ([(1 : ℚ), 2]).Pairwise (fun s t => 1 / 1000 < t - s) ∧
    ((splitMultiple 20 (fun _ => 1 / 1000) (1 / 1000) (fun _ _ => 7) (fun _ _ => 8) exPoly [1, 2]).map
      (Option.map (List.map (fun d => (d.n, (List.range d.m).map d.U))))) =
      some (some [(3, [0, 0, 0, 1, 1, 1]), (3, [1, 1, 1, 2, 2, 2]), (3, [2, 2, 2, 3, 3, 3])]) := by
  refine ⟨?_, ?_, by decide +kernel⟩
  · intro t ht
    simp only [List.mem_cons, List.not_mem_nil, or_false] at ht
    rcases ht with rfl | rfl <;> norm_num [exPoly, exCurve, exU, kvec]
  · simp only [List.pairwise_cons]; norm_num

/-! ## C39 -/

section ordered
variable [IsStrictOrderedRing K]

/-- **C39, partial.** If negative indices wrapped around, `reverse_curve` would give a well formed curve on the same domain
with `C'(a+b-t) = C(t)` for every `t` of the domain, rational curves included, for every clamped continuous curve.
Missing: with the directives of the build they do not (next theorem). -/
theorem C39_reverse_partial (c : Curve K) (hc : Valid c) (hper : c.periodic = false) (hj : NoJump c)
    (hfirst : c.U c.degree < c.U (c.degree + 1)) (hcl1 : c.U 0 = c.U c.degree) (hcl2 : c.U c.n = c.U (c.m - 1))
    (before : Nat → K) (fuel : Nat) (hf : c.n ≤ fuel) :
    Valid (reverseCurve true before c) ∧
    (reverseCurve true before c).U c.degree = c.U c.degree ∧ (reverseCurve true before c).U c.n = c.U c.n ∧
    ∀ x, c.U c.degree ≤ x → x ≤ c.U c.n → ∀ col,
      (reverseCurve true before c).evaluate fuel (c.U c.degree + c.U c.n - x) col = c.evaluate fuel x col := by
  have hk := hc.knots
  have hnp := hc.npos
  obtain ⟨s, hs⟩ : ∃ s, s = c.U 0 + c.U (c.m - 1) := ⟨_, rfl⟩
  have hUr : ∀ k, (reverseCurve true before c).U k = s - c.U (c.m - 1 - k) := fun k => by rw [hs]; rfl
  have hUr' : (reverseCurve true before c).U = fun k => s - c.U (c.m - 1 - k) := funext hUr
  have e1 : (reverseCurve true before c).U c.degree = c.U c.degree := by
    rw [hUr, show c.m - 1 - c.degree = c.n by omega, hs, hcl1, ← hcl2]; ring
  have e2 : (reverseCurve true before c).U c.n = c.U c.n := by
    rw [hUr, show c.m - 1 - c.n = c.degree by omega, hs, hcl1, ← hcl2]; ring
  have hv : Valid (reverseCurve true before c) := by
    refine ⟨hnp, hk, ?_, ?_⟩
    · intro a b hab hb
      rw [hUr, hUr]
      have hb' : b < c.m := hb
      have := hc.mono (c.m - 1 - b) (c.m - 1 - a) (by omega) (by omega)
      linarith
    · show (reverseCurve true before c).U (c.n - 1) < (reverseCurve true before c).U c.n
      rw [hUr, hUr, show c.m - 1 - (c.n - 1) = c.degree + 1 by omega, show c.m - 1 - c.n = c.degree by omega]
      linarith
  refine ⟨hv, e1, e2, fun x hx1 hx2 col => ?_⟩
  obtain ⟨i, i', hsp, hsp', hcol⟩ := reverse_column c hc hfirst hj s x hx1 hx2
  have hsx : c.U c.degree + c.U c.n - x = s - x := by rw [hs, hcl1, hcl2]
  rw [hsx, C35_evaluate_is_rational_spline c hc hper fuel hf x hx1 hx2 col,
    C35_evaluate_is_rational_spline _ hv hper fuel hf (s - x)
      (by show (reverseCurve true before c).U c.degree ≤ _; rw [e1]; linarith)
      (by show _ ≤ (reverseCurve true before c).U c.n; rw [e2]; linarith) col,
    specVal_eq c hc _ x i hsp, specVal_eq c hc _ x i hsp,
    specVal_eq _ hv _ (s - x) i' (by rw [hUr']; exact hsp'), specVal_eq _ hv _ (s - x) i' (by rw [hUr']; exact hsp'), hUr',
    ← hcol, ← hcol]
  rfl

/-- Reversing twice gives back the stored data (if negative indices wrap around). -/
theorem C39_reverse_involutive_partial (c : Curve K) (hm : 0 < c.m) (before before' : Nat → K) :
    (∀ i, i < c.n → ∀ col, (reverseCurve true before' (reverseCurve true before c)).P i col = c.P i col) ∧
    (∀ i, i < c.m → (reverseCurve true before' (reverseCurve true before c)).U i = c.U i) ∧
    (reverseCurve true before' (reverseCurve true before c)).n = c.n ∧
    (reverseCurve true before' (reverseCurve true before c)).m = c.m ∧
    (reverseCurve true before' (reverseCurve true before c)).degree = c.degree := by
  refine ⟨fun i hi col => ?_, fun i hi => ?_, rfl, rfl, rfl⟩
  · show c.P (c.n - 1 - (c.n - 1 - i)) col = c.P i col
    rw [show c.n - 1 - (c.n - 1 - i) = i by omega]
  · show (c.U 0 + c.U (c.m - 1) - c.U (c.m - 1 - 0)) + (c.U 0 + c.U (c.m - 1) - c.U (c.m - 1 - (c.m - 1))) -
      (c.U 0 + c.U (c.m - 1) - c.U (c.m - 1 - (c.m - 1 - i))) = c.U i
    rw [show c.m - 1 - (c.m - 1 - i) = i by omega, show c.m - 1 - (c.m - 1) = 0 by omega, Nat.sub_zero]
    ring

end ordered

theorem exCurve_noJump : NoJump exCurve := exPoly_noJump

/-- The rational degree-2 example with a double knot satisfies the hypotheses; its value at the double knot. -/
example : Valid exCurve ∧ NoJump exCurve ∧ exCurve.U exCurve.degree < exCurve.U (exCurve.degree + 1) ∧
    exCurve.U 0 = exCurve.U exCurve.degree ∧ exCurve.U exCurve.n = exCurve.U (exCurve.m - 1) ∧
    exCurve.evaluate 6 1 1 = some 6 ∧ (reverseCurve true (fun _ => 5) exCurve).evaluate 6 2 1 = some 6 := by
  refine ⟨exCurve_valid, exCurve_noJump, by norm_num [exCurve, exU, kvec], by norm_num [exCurve, exU, kvec],
    by norm_num [exCurve, exU, kvec], by decide +kernel, by decide +kernel⟩

/-- **C39, refuted.** With `wraparound=False`, as the build sets it, `curve._knots[-(i+1)]` reads before the buffer and the
knots of the result are whatever is there: with zeros in that memory the result is not even a curve on the same domain. -/
theorem C39_reverse_refuted : ¬ ∀ (c : Curve ℚ) (before : Nat → ℚ), Valid c → c.periodic = false → NoJump c →
    c.U c.degree < c.U (c.degree + 1) → c.U 0 = c.U c.degree → c.U c.n = c.U (c.m - 1) →
    (reverseCurve false before c).U c.degree = c.U c.degree ∧
    ∀ x, c.U c.degree ≤ x → x ≤ c.U c.n → ∀ col,
      (reverseCurve false before c).evaluate c.n (c.U c.degree + c.U c.n - x) col = c.evaluate c.n x col := by
  intro h
  have := (h exCurve (fun _ => 0) exCurve_valid rfl exCurve_noJump (by norm_num [exCurve, exU, kvec])
    (by norm_num [exCurve, exU, kvec]) (by norm_num [exCurve, exU, kvec])).1
  norm_num [reverseCurve, readNeg, exCurve, exU, kvec] at this

/-! ## C58 -/

/-- **C58, refuted.** `NURBSCurve.flip` mirrors the knots without reversing their order, so the knot vector of the result is
decreasing, already for the straight line from 0 to 1. -/
theorem C58_flip_refuted : ¬ ∀ (c : Curve ℚ), Valid c → c.periodic = false → (∀ l, l < c.n → c.P l 3 = 1) →
    MonoUpTo (flipCurve c).U c.m ∧ ∀ x, c.U c.degree ≤ x → x ≤ c.U c.n → ∀ col, col < 3 →
      (flipCurve c).evaluate c.n (c.U c.degree + c.U c.n - x) col = c.evaluate c.n x col := by
  intro h
  obtain ⟨h1, _⟩ := h (lineW 0 1 1 1) (lineW_valid 0 1 1 1) rfl (fun l _ => by simp [lineW])
  have := h1 0 3 (by omega) (by show 3 < 4; omega)
  norm_num [flipCurve, lineW, kvec] at this

/-- **C58.** The knots of the flipped curve never increase and are decreasing wherever the original ones increase, for every
curve: the result violates the requirement of the constructor's users on every curve with a non-empty domain. -/
theorem C58_flip_knots_decrease [IsStrictOrderedRing K] (c : Curve K) (hc : Valid c) :
    (flipCurve c).U c.n < (flipCurve c).U c.degree ∧ ¬ MonoUpTo (flipCurve c).U (flipCurve c).m := by
  have hk := hc.knots
  have hnp := hc.npos
  have h1 : c.U c.degree < c.U c.n := lt_of_le_of_lt (hc.mono c.degree (c.n - 1) (by omega) (by omega)) hc.last
  have h2 : (flipCurve c).U c.n < (flipCurve c).U c.degree := by
    show c.U (c.m - 1) - c.U c.n + c.U 0 < c.U (c.m - 1) - c.U c.degree + c.U 0
    linarith
  refine ⟨h2, fun hm => ?_⟩
  have := hm c.degree c.n (by omega) (by show c.n < c.m; omega)
  exact absurd h2 (not_lt.mpr this)

example : Valid exCurve ∧ (List.range 9).map (flipCurve exCurve).U = [3, 3, 3, 2, 2, 1, 0, 0, 0] :=
  ⟨exCurve_valid, by decide +kernel⟩

/-! ## C59 -/

/-- **C59, refuted.** `trim(t1, t2)` strictly inside the domain does not give a well formed curve: for the straight line from 0
to 1 trimmed to `[1/4, 3/4]` the result has three control points and four knots (degree 1 needs five); and if the memory
after the last knot happens to hold 0 it has no control points at all. -/
theorem C59_trim_refuted : ¬ ∀ (c : Curve ℚ), Valid c → c.periodic = false → NoJump c → ∀ t1 t2,
    c.U c.degree < t1 → t1 < t2 → t2 < c.U c.n → ∀ d,
    c.trim 20 (fun _ => 1 / 1000) (1 / 1000) false (fun _ _ => 0) (fun _ _ => 0) t1 t2 = some (some d) →
    d.m = d.n + d.degree + 1 ∧ 0 < d.n := by
  intro h
  have e0 : (((lineW 0 1 1 1).trim 20 (fun _ => 1 / 1000) (1 / 1000) false (fun _ _ => 0) (fun _ _ => 0) (1 / 4) (3 / 4)).map
      (Option.map (fun d => (d.n, d.m, d.degree)))) = some (some (0, 1, 1)) := by decide +kernel
  cases hs : (lineW 0 1 1 1).trim 20 (fun _ => 1 / 1000) (1 / 1000) false (fun _ _ => 0) (fun _ _ => 0) (1 / 4) (3 / 4) with
  | none => rw [hs] at e0; cases e0
  | some r =>
    cases r with
    | none => rw [hs] at e0; cases e0
    | some d =>
      have := h (lineW 0 1 1 1) (lineW_valid 0 1 1 1) rfl (by
        intro j hj
        have h4 : j + 1 < 4 := hj
        have : j < 3 := by omega
        show kvec [0, 0, 1, 1] 1 < kvec [0, 0, 1, 1] j → kvec [0, 0, 1, 1] j < kvec [0, 0, 1, 1] 2 →
          kvec [0, 0, 1, 1] j < kvec [0, 0, 1, 1] (j + 1)
        interval_cases j <;> norm_num [kvec])
        (1 / 4) (3 / 4) (by norm_num [lineW, kvec]) (by norm_num) (by norm_num [lineW, kvec]) d hs
      rw [hs] at e0
      simp only [Option.map_some, Option.some.injEq, Prod.mk.injEq] at e0
      omega

/-- The same call with 2 in the memory after the last knot. -/
example : ((({ lineW 0 1 1 1 with U := kvec [0, 0, 1, 1, 2, 2, 2] } : Curve ℚ).trim 20 (fun _ => 1 / 1000) (1 / 1000) false
    (fun _ _ => 0) (fun _ _ => 0) (1 / 4) (3 / 4)).map (Option.map (fun d => (d.n, d.m, d.degree)))) =
    some (some (3, 4, 1)) := by decide +kernel

/-! ## C60 -/

section ordered
variable [IsStrictOrderedRing K]

theorem greville_eq (U : Nat → K) (p i : Nat) : greville U p i = (∑ k ∈ range p, U (i + 1 + k)) / p := by
  have : ∀ q, (List.range q).foldl (fun (temp : K) k => temp + U (i + 1 + k)) 0 = ∑ k ∈ range q, U (i + 1 + k) := by
    intro q
    induction q with
    | zero => rfl
    | succ q ih => rw [List.range_succ, List.foldl_append, ih, sum_range_succ]; rfl
  rw [greville, this]

/-- **C60.** The Greville abscissae of nondecreasing knots are nondecreasing and each lies between its knots `U[i+1]` and
`U[i+p]`; so all of them lie in the domain when the vector is clamped. -/
theorem C60_greville (U : Nat → K) (m p : Nat) (hU : MonoUpTo U m) (hp : 1 ≤ p) (i : Nat) (hi : i + p < m) :
    U (i + 1) ≤ greville U p i ∧ greville U p i ≤ U (i + p) ∧ (i + 1 + p < m → greville U p i ≤ greville U p (i + 1)) := by
  have hp' : (0 : K) < p := by exact_mod_cast hp
  refine ⟨?_, ?_, fun hi' => ?_⟩
  · rw [greville_eq, le_div_iff₀ hp']
    calc U (i + 1) * (p : K) = ∑ _k ∈ range p, U (i + 1) := by rw [sum_const, card_range, nsmul_eq_mul, mul_comm]
      _ ≤ _ := sum_le_sum fun k hk => hU _ _ (by omega) (by have := mem_range.mp hk; omega)
  · rw [greville_eq, div_le_iff₀ hp']
    calc _ ≤ ∑ _k ∈ range p, U (i + p) := sum_le_sum fun k hk => by
          have := mem_range.mp hk
          exact hU _ _ (by omega) (by omega)
      _ = U (i + p) * (p : K) := by rw [sum_const, card_range, nsmul_eq_mul, mul_comm]
  · rw [greville_eq, greville_eq]
    refine div_le_div_of_nonneg_right ?_ (le_of_lt hp')
    exact sum_le_sum fun k hk => hU _ _ (by omega) (by have := mem_range.mp hk; omega)

end ordered

example : MonoUpTo exU 9 ∧ (List.range 6).map (greville exU 2) = [0, 1 / 2, 1, 3 / 2, 5 / 2, 3] :=
  ⟨exU_mono, by decide +kernel⟩

end Verif.Nurbs
