import Verif.Knot.Elevate
import Verif.Nurbs.Props6

/-! # C242, C243, C244: composition of curves and degree elevation -/

set_option linter.unusedSectionVars false

namespace Verif.Knot
open Verif.Nurbs Finset

variable {K : Type} [Field K] [LinearOrder K] [IsStrictOrderedRing K]

/-! ## Examples -/

/-- The conditions of `Clamped` step by step (examples). -/
theorem clamped_check (c : Curve ℚ) (h : c.degree < c.n ∧ c.m = c.n + c.degree + 1 ∧ (∀ a ∈ List.range (c.m - 1), c.U a ≤ c.U (a + 1)) ∧
    c.U (c.n - 1) < c.U c.n ∧ 1 ≤ c.degree ∧ c.periodic = false ∧ c.U 0 = c.U c.degree ∧ c.U (c.m - 1) = c.U c.n ∧
    c.U c.degree < c.U (c.degree + 1)) : Clamped c :=
  ⟨⟨h.1, h.2.1, monoUpTo_of_step c.U c.m (fun a ha => h.2.2.1 a (List.mem_range.mpr (by omega))), h.2.2.2.1⟩, h.2.2.2.2.1,
    h.2.2.2.2.2.1, h.2.2.2.2.2.2.1, h.2.2.2.2.2.2.2.1, h.2.2.2.2.2.2.2.2⟩

/-- The conditions of `Cuttable` for constant tolerances (examples). -/
theorem cuttable_check (c : Curve ℚ) (e t : ℚ) (h : 1 ≤ c.degree ∧
    (∀ j ∈ List.range (c.m - c.degree), c.U c.degree < c.U j → c.U j < c.U c.n → c.U j < c.U (j + c.degree)) ∧
    c.U c.degree < c.U (c.degree + 1) ∧ ∀ i ∈ List.range c.m, ∀ j ∈ List.range c.m, (c.U i < c.U j → t < c.U j - c.U i) ∧
      (|c.U i - c.U j| ≤ e → c.U j = c.U i)) : Cuttable c (fun _ => e) t :=
  ⟨h.1, fun j hj => h.2.1 j (List.mem_range.mpr (by omega)), h.2.2.1,
    fun i j hi hj => (h.2.2.2 i (List.mem_range.mpr hi) j (List.mem_range.mpr hj)).1,
    fun i j hi hj => (h.2.2.2 i (List.mem_range.mpr hi) j (List.mem_range.mpr hj)).2⟩

/-- An arc of a parabola on `[0, 1]` ending in weight 2 (examples). -/
def exA : Curve ℚ where
  degree := 2
  n := 3
  P := fun i col => if col = 3 then (if i = 2 then 2 else 1) else if col = 0 then i else if col = 1 then i * i else 0
  m := 6
  U := kvec [0, 0, 0, 1, 1, 1]
  periodic := false

/-- A curve on `[1, 3]` that starts where `exA` ends (examples). -/
def exB : Curve ℚ where
  degree := 2
  n := 4
  P := fun i col => if col = 3 then (if i = 0 then 2 else 3) else if col = 0 then 2 + i else if col = 1 then 4 - i else 0
  m := 7
  U := kvec [1, 1, 1, 2, 3, 3, 3]
  periodic := false

theorem exA_clamped : Clamped exA := clamped_check exA (by decide +kernel)
theorem exB_clamped : Clamped exB := clamped_check exB (by decide +kernel)
theorem exAB_chain : Chain 2 [exA, exB] :=
  ⟨⟨exA_clamped, rfl⟩, by decide +kernel, fun col => by
    simp only [exA, exB]; norm_num, exB_clamped, rfl⟩

/-- The rows of the control points replaced by functions of themselves. -/
def mapP (φ : (Nat → K) → Nat → K) (c : Curve K) : Curve K := { c with P := fun l => φ (c.P l) }

theorem mapP_clamped (φ : (Nat → K) → Nat → K) (c : Curve K) (h : Clamped c) : Clamped (mapP φ c) :=
  ⟨⟨h.valid.npos, h.valid.knots, h.valid.mono, h.valid.last⟩, h.deg, h.nonper, h.lo, h.hi, h.start⟩

theorem mapP_chain (φ : (Nat → K) → Nat → K) (p : Nat) : ∀ cs : List (Curve K), Chain p cs → Chain p (cs.map (mapP φ))
  | [], _ => trivial
  | [c], h => ⟨mapP_clamped φ c h.1, h.2⟩
  | c :: d :: cs, h => by
    refine ⟨⟨mapP_clamped φ c h.1.1, h.1.2⟩, h.2.1, fun col => ?_, mapP_chain φ p (d :: cs) h.2.2.2⟩
    change φ (d.P 0) col = φ (c.P (c.n - 1)) col
    rw [show d.P 0 = c.P (c.n - 1) from funext h.2.2.1]

/-- Two accumulators that agree up to the function on the rows. -/
def AccMap (φ : (Nat → K) → Nat → K) (a b : Acc K) : Prop :=
  b.m = a.m ∧ b.U = a.U ∧ b.n = a.n ∧ ∀ i, i < a.n → b.P i = φ (a.P i)

theorem step_map (φ : (Nat → K) → Nat → K) (a b : Acc K) (h : AccMap φ a b) (c : Curve K) :
    AccMap φ (composeStep a c) (composeStep b (mapP φ c)) := by
  obtain ⟨h1, h2, h3, h4⟩ := h
  rw [composeStep, composeStep, h1]
  by_cases h0 : a.m = 0
  · rw [if_pos h0, if_pos h0]
    refine ⟨rfl, rfl, by rw [h3]; rfl, fun i _ => ?_⟩
    change appendFn b.n b.P (fun l => φ (c.P l)) i = φ (appendFn a.n a.P c.P i)
    rw [h3, appendFn, appendFn]
    by_cases hi : i < a.n
    · rw [if_pos hi, if_pos hi, h4 i hi]
    · rw [if_neg hi, if_neg hi]
  · rw [if_neg h0, if_neg h0]
    refine ⟨rfl, by rw [h2]; rfl, by rw [h3]; rfl, fun i _ => ?_⟩
    change appendFn b.n b.P (fun l => φ (c.P (l + 1))) i = φ (appendFn a.n a.P (fun i => c.P (i + 1)) i)
    rw [h3, appendFn, appendFn]
    by_cases hi : i < a.n
    · rw [if_pos hi, if_pos hi, h4 i hi]
    · rw [if_neg hi, if_neg hi]

theorem fold_map (φ : (Nat → K) → Nat → K) : ∀ (cs : List (Curve K)) (a b : Acc K), AccMap φ a b →
    AccMap φ (cs.foldl composeStep a) ((cs.map (mapP φ)).foldl composeStep b)
  | [], _, _, h => h
  | c :: cs, a, b, h => fold_map φ cs _ _ (step_map φ a b h c)

theorem compose_map (φ : (Nat → K) → Nat → K) (p : Nat) (cs : List (Curve K)) (f : Curve K)
    (h : composeCurves p cs = some f) : ∃ g, composeCurves p (cs.map (mapP φ)) = some g ∧ g.degree = f.degree ∧ g.n = f.n ∧
      g.U = f.U ∧ ∀ i, i < f.n → g.P i = φ (f.P i) := by
  rw [composeCurves] at h
  rw [composeCurves, List.getLast?_map]
  cases hl : cs.getLast? with
  | none => rw [hl] at h; simp at h
  | some last =>
    rw [hl] at h
    simp only [Option.some.injEq] at h
    simp only [Option.map_some]
    obtain ⟨h1, h2, h3, h4⟩ := fold_map φ cs ({ m := 0, U := fun _ => 0, n := 0, P := fun _ _ => 0 } : Acc K)
      ({ m := 0, U := fun _ => 0, n := 0, P := fun _ _ => 0 } : Acc K) ⟨rfl, rfl, rfl, fun i hi => absurd hi (by simp)⟩
    refine ⟨_, rfl, ?_, ?_, ?_, ?_⟩
    · rw [← h]
    · rw [← h]; exact h3
    · rw [← h]; dsimp only; rw [h1, h2]; rfl
    · rw [← h]; exact h4

/-- **C242** `_compose_curves_no_knots_updates`: for clamped curves of one degree, each starting at the last knot and the
last control point (with its weight) of the one before, the composed curve is clamped, has the domain from the start of the
first to the end of the last, and coincides with every one of the curves on its domain, whatever the weights. -/
theorem C242_compose (p : Nat) (c : Curve K) (cs : List (Curve K)) (h : Chain p (c :: cs)) :
    ∃ z f, (c :: cs).getLast? = some z ∧ composeCurves p (c :: cs) = some f ∧ Clamped f ∧ f.degree = p ∧
      f.U f.degree = c.U c.degree ∧ f.U f.n = z.U z.n ∧
      ∀ d ∈ c :: cs, ∀ fuel, f.n ≤ fuel → d.n ≤ fuel → ∀ x, d.U d.degree ≤ x → x ≤ d.U d.n → ∀ col,
        f.evaluate fuel x col = d.evaluate fuel x col := by
  have hmem : ∀ (l : List (Curve K)), Chain p l → ∀ d ∈ l, Clamped d := by
    intro l
    induction l with
    | nil => intro _ d hd; exact absurd hd (by simp)
    | cons e l ih =>
      intro hc d hd
      cases l with
      | nil => rw [List.mem_singleton] at hd; rw [hd]; exact hc.1
      | cons e' l =>
        rcases List.mem_cons.mp hd with rfl | hd
        · exact hc.1.1
        · exact ih hc.2.2.2 d hd
  obtain ⟨z, f, h1, h2, h3, h4, h5, h6, h7, _⟩ := compose_chain p c cs h
  have hdom : ∀ d ∈ c :: cs, ∀ x, d.U d.degree ≤ x → x ≤ d.U d.n → ∀ φ : (Nat → K) → K,
      specVal f (fun l => φ (f.P l)) x = specVal d (fun l => φ (d.P l)) x := by
    intro d hd x hx1 hx2 φ
    obtain ⟨g, g1, g2, g3, g4, g5⟩ := compose_map (fun r _ => φ r) p (c :: cs) f h2
    obtain ⟨_, g', _, k2, _, _, _, _, k7, _⟩ := compose_chain p _ _ (mapP_chain (fun r _ => φ r) p (c :: cs) h)
    rw [List.map_cons] at g1
    rw [g1] at k2
    obtain rfl := Option.some.inj k2
    have := k7 (mapP (fun r _ => φ r) d) (List.mem_map_of_mem hd) x hx1 hx2 0
    rw [show specVal (mapP (fun r _ => φ r) d) (fun l => (mapP (fun r _ => φ r) d).P l 0) x = specVal d (fun l => φ (d.P l)) x
      from rfl] at this
    rw [← this, specVal, specVal, g2, g3, g4]
    exact sum_congr rfl fun l hl => by rw [g5 l (mem_range.mp hl)]
  have hin : ∀ d ∈ c :: cs, f.U f.degree ≤ d.U d.degree ∧ d.U d.n ≤ f.U f.n := by
    have mono : ∀ d : Curve K, Clamped d → d.U d.degree ≤ d.U d.n := fun d hd =>
      hd.valid.mono _ _ (le_of_lt hd.valid.npos) (by have := hd.valid.knots; omega)
    have lo : ∀ (l : List (Curve K)) (e : Curve K), Chain p (e :: l) → ∀ d ∈ e :: l, e.U e.degree ≤ d.U d.degree := by
      intro l
      induction l with
      | nil => intro e _ d hd; rw [List.mem_singleton] at hd; rw [hd]
      | cons e' l ih =>
        intro e hc d hd
        rcases List.mem_cons.mp hd with rfl | hd
        · exact le_refl _
        · refine le_trans (mono e hc.1.1) ?_
          rw [← hc.2.1, (hmem _ hc.2.2.2 e' List.mem_cons_self).lo]
          exact ih e' hc.2.2.2 d hd
    have hi : ∀ (l : List (Curve K)) (z : Curve K), Chain p l → l.getLast? = some z → ∀ d ∈ l, d.U d.n ≤ z.U z.n := by
      intro l
      induction l with
      | nil => intro z _ _ d hd; exact absurd hd (by simp)
      | cons e l ih =>
        intro z hc hz d hd
        cases l with
        | nil =>
          rw [List.mem_singleton] at hd
          rw [hd]
          simp only [List.getLast?_singleton, Option.some.injEq] at hz
          rw [hz]
        | cons e' l =>
          rw [List.getLast?_cons_cons] at hz
          rcases List.mem_cons.mp hd with rfl | hd
          · have e'c := hmem _ hc.2.2.2 e' List.mem_cons_self
            refine le_trans ?_ (ih z hc.2.2.2 hz e' List.mem_cons_self)
            rw [← hc.2.1, e'c.lo]
            exact mono e' e'c
          · exact ih z hc.2.2.2 hz d hd
    intro d hd
    rw [h5, h6]
    exact ⟨lo cs c h d hd, hi (c :: cs) z h h1 d hd⟩
  refine ⟨z, f, h1, h2, h3, h4, h5, h6, fun d hd fuel hf1 hf2 x hx1 hx2 col => ?_⟩
  have dc := hmem _ h d hd
  obtain ⟨i1, i2⟩ := hin d hd
  rw [C35_evaluate_is_rational_spline f h3.valid h3.nonper fuel hf1 x (le_trans i1 hx1) (le_trans hx2 i2),
    C35_evaluate_is_rational_spline d dc.valid dc.nonper fuel hf2 x hx1 hx2,
    hdom d hd x hx1 hx2 (fun r => r 3 * r col), hdom d hd x hx1 hx2 (fun r => r 3)]

/-- Two rational curves of different length: the composed curve at a parameter of each. -/
example : Chain 2 [exA, exB] ∧ (composeCurves 2 [exA, exB]).map (fun f => (f.n, f.m, (List.range f.m).map f.U,
    f.evaluate 9 (1 / 2) 1, f.evaluate 9 (3 / 2) 1)) =
      some (6, 9, [0, 0, 0, 1, 1, 2, 3, 3, 3], exA.evaluate 9 (1 / 2) 1, exB.evaluate 9 (3 / 2) 1) ∧
    exA.evaluate 9 (1 / 2) 1 = some 2 ∧ exB.evaluate 9 (3 / 2) 1 = some (67 / 22) :=
  ⟨exAB_chain, by decide +kernel, by decide +kernel, by decide +kernel⟩

/-- **C242, refuted part.** The curves are not checked to meet: the first control point of every curve but the first is
ignored, so the result is the same for every position (and weight) of it. -/
theorem C242_gap_refuted (p : Nat) (c d : Curve K) (hc : Clamped c) (Q : Nat → K) :
    composeCurves p [c, { d with P := fun i => if i = 0 then Q else d.P i }] = composeCurves p [c, d] := by
  have h1 := hc.valid.knots
  have h2 := hc.valid.npos
  have h0 : ¬ c.m - (c.degree + 1) = 0 := by omega
  simp only [composeCurves, List.getLast?_cons_cons, List.getLast?_singleton, List.foldl_cons, List.foldl_nil, composeStep,
    if_neg h0, if_true, Nat.succ_ne_zero, if_false]

/-- With the second curve starting at the origin instead, the composed curve does not contain the origin's neighbourhood: at the
joint it is still at the end of `exA`. -/
example : Clamped exA ∧ (composeCurves 2 [exA, { exB with P := fun i => if i = 0 then fun _ => 0 else exB.P i }]).map
    (fun f => (f.evaluate 9 1 0, f.evaluate 9 1 1)) = some (some 2, some 4) := ⟨exA_clamped, by decide +kernel⟩

/-! ## Normalised composition -/

theorem affine_clamped (c e : Curve K) (h : Clamped c) (a D : K) (hD : 0 < D) (hd : e.degree = c.degree) (hn : e.n = c.n)
    (hm : e.m = c.m) (hper : e.periodic = false) (hU : ∀ i, i < c.m → e.U i = (c.U i - a) / D) : Clamped e ∧
    ∀ q x, specVal e q ((x - a) / D) = specVal c q x := by
  have hk := h.valid.knots
  have hnp := h.valid.npos
  refine ⟨⟨⟨by omega, by omega, ?_, ?_⟩, by rw [hd]; exact h.deg, hper, ?_, ?_, ?_⟩, fun q x => ?_⟩
  · intro i j hij hj
    rw [hU i (by omega), hU j (by omega), aff_le _ _ _ _ hD]
    exact h.valid.mono i j hij (by omega)
  · rw [hn, hU _ (by omega), hU _ (by omega), aff_lt _ _ _ _ hD]; exact h.valid.last
  · rw [hd, hU _ (by omega), hU _ (by omega), h.lo]
  · rw [hm, hn, hU _ (by omega), hU _ (by omega), h.hi]
  · rw [hd, hU _ (by omega), hU _ (by omega), aff_lt _ _ _ _ hD]; exact h.start
  · rw [specVal, specVal, hd, hn]
    refine sum_congr rfl fun l hl => ?_
    have := mem_range.mp hl
    rw [bspl_affine c.U e.U c.m c.n a D x hD hU (by omega) c.degree l (by omega)]

theorem normalize_U (c : Curve K) (h : Valid c) (i : Nat) (hi : i < c.m) :
    c.normalizeKnots.U i = (c.U i - c.U 0) / (c.U (c.m - 1) - c.U 0) := by
  have hk := h.knots
  simp only [Curve.normalizeKnots]
  rw [if_pos hi, min_first c.U c.m h.mono c.m (le_refl _), max_last c.U c.m h.mono c.m (le_refl _) (by omega), mul_one_div]

theorem Clamped.width {c : Curve K} (h : Clamped c) : 0 < c.U (c.m - 1) - c.U 0 := by
  have := h.valid.npos
  have := h.valid.knots
  rw [h.lo, h.hi, sub_pos]
  exact lt_of_lt_of_le h.start (h.valid.mono _ _ (by omega) (by omega))

/-- Each of the curves is clamped, of degree `p`, and starts with the last control point of the one before. -/
def Meet (p : Nat) : List (Curve K) → Prop
  | [] => True
  | [c] => Clamped c ∧ c.degree = p
  | c :: d :: cs => (Clamped c ∧ c.degree = p) ∧ (∀ col, d.P 0 col = c.P (c.n - 1) col) ∧ Meet p (d :: cs)

/-- The normalised curve moved by `off`. -/
def shifted (off : K) (c : Curve K) : Curve K := { c.normalizeKnots with U := fun k => off + c.normalizeKnots.U k }

theorem shifted_clamped (off : K) (c : Curve K) (h : Clamped c) : Clamped (shifted off c) ∧
    (shifted off c).U (shifted off c).degree = off ∧ (shifted off c).U (shifted off c).n = off + 1 ∧
    ∀ q x, specVal (shifted off c) q (off + (x - c.U c.degree) / (c.U c.n - c.U c.degree)) = specVal c q x := by
  have hk := h.valid.knots
  have hn := h.valid.npos
  have hD := h.width
  have hU : ∀ i, i < c.m → (shifted off c).U i =
      (c.U i - (c.U 0 - off * (c.U (c.m - 1) - c.U 0))) / (c.U (c.m - 1) - c.U 0) := by
    intro i hi
    change off + c.normalizeKnots.U i = _
    rw [normalize_U c h.valid i hi, eq_div_iff (ne_of_gt hD), add_mul, div_mul_cancel₀ _ (ne_of_gt hD)]
    ring
  obtain ⟨h1, h2⟩ := affine_clamped c (shifted off c) h _ _ hD rfl rfl rfl h.nonper hU
  refine ⟨h1, ?_, ?_, fun q x => ?_⟩
  · change (shifted off c).U c.degree = off
    rw [hU _ (by omega), h.lo, div_eq_iff (by rw [← h.lo]; exact ne_of_gt hD)]
    ring
  · change (shifted off c).U c.n = off + 1
    rw [hU _ (by omega), h.hi, div_eq_iff (by rw [← h.hi]; exact ne_of_gt hD)]
    ring
  · rw [← h2 q x]
    congr 1
    rw [h.lo, h.hi]
    have hD' : c.U c.n - c.U c.degree ≠ 0 := by rw [← h.lo, ← h.hi]; exact ne_of_gt hD
    rw [eq_div_iff hD', add_mul, div_mul_cancel₀ _ hD']
    ring

theorem shift_eq (p : Nat) : ∀ (cs : List (Curve K)) (off : K), Meet p cs → Chain p (shiftCurves off cs) ∧
    (∀ i (hi : i < cs.length), (shiftCurves off cs)[i]? = some (shifted (off + i) cs[i])) ∧
    (shiftCurves off cs).length = cs.length := by
  intro cs
  induction cs with
  | nil => intro off _; exact ⟨trivial, fun i hi => absurd hi (by simp), rfl⟩
  | cons c cs ih =>
    intro off hm
    have hc : Clamped c ∧ c.degree = p := by
      cases cs with
      | nil => exact hm
      | cons _ _ => exact hm.1
    have hk := hc.1.valid.knots
    obtain ⟨s1, s2, s3, _⟩ := shifted_clamped off c hc.1
    have e1 : c.normalizeKnots.U (c.normalizeKnots.m - 1) - c.normalizeKnots.U 0 = 1 := by
      change c.normalizeKnots.U (c.m - 1) - c.normalizeKnots.U 0 = 1
      rw [normalize_U c hc.1.valid _ (by omega), normalize_U c hc.1.valid _ (by omega), sub_self, zero_div, sub_zero,
        div_self (ne_of_gt hc.1.width)]
    have e2 : shiftCurves off (c :: cs) = shifted off c :: shiftCurves (off + 1) cs := by
      rw [shiftCurves, e1]
      rfl
    rw [e2]
    have hm' : Meet p cs := by
      cases cs with
      | nil => trivial
      | cons _ _ => exact hm.2.2
    obtain ⟨i1, i2, i3⟩ := ih (off + 1) hm'
    refine ⟨?_, fun i hi => ?_, by simp [i3]⟩
    · cases cs with
      | nil => exact ⟨s1, hc.2⟩
      | cons d cs =>
        have hd : Clamped d := by
          cases cs with
          | nil => exact hm'.1
          | cons _ _ => exact hm'.1.1
        obtain ⟨t1, t2, _, _⟩ := shifted_clamped (off + 1) d hd
        have e3 : ∃ l, shiftCurves (off + 1) (d :: cs) = shifted (off + 1) d :: l := ⟨_, by rw [shiftCurves]; rfl⟩
        obtain ⟨l, hl⟩ := e3
        rw [hl] at i1 ⊢
        exact ⟨⟨s1, hc.2⟩, by rw [t1.lo, t2, s3], fun col => hm.2.1 col, i1⟩
    · cases i with
      | zero => simp
      | succ i =>
        rw [List.getElem?_cons_succ, i2 i (by simpa using hi)]
        simp only [List.getElem_cons_succ, Option.some.injEq]
        congr 1
        push_cast
        ring

/-- **C243** `compose_curves`: clamped curves of one degree, each starting with the last control point of the one before, on
any domains: the composed curve is defined from 0 to the number of curves and follows curve `i` from `i` to `i + 1`. -/
theorem C243_compose_normalized (p : Nat) (cs : List (Curve K)) (hne : cs ≠ []) (h : Meet p cs) :
    ∃ f, composeNormalized p cs = some f ∧ Clamped f ∧ f.degree = p ∧ f.U f.degree = 0 ∧ f.U f.n = cs.length ∧
      ∀ i (hi : i < cs.length), ∀ fuel, f.n ≤ fuel → cs[i].n ≤ fuel → ∀ x, cs[i].U cs[i].degree ≤ x → x ≤ cs[i].U cs[i].n →
        ∀ col, f.evaluate fuel (i + (x - cs[i].U cs[i].degree) / (cs[i].U cs[i].n - cs[i].U cs[i].degree)) col =
          cs[i].evaluate fuel x col := by
  obtain ⟨s1, s2, s3⟩ := shift_eq p cs 0 h
  have hcl : ∀ (l : List (Curve K)), Meet p l → ∀ i (hi : i < l.length), Clamped l[i] := by
    intro l
    induction l with
    | nil => intro _ i hi; exact absurd hi (by simp)
    | cons e l ih =>
      intro hm i hi
      cases l with
      | nil =>
        obtain rfl : i = 0 := by simpa using hi
        exact hm.1
      | cons e' l =>
        cases i with
        | zero => exact hm.1.1
        | succ i => exact ih hm.2.2 i (by simpa using hi)
  have hpos : 0 < cs.length := List.length_pos_iff.mpr hne
  cases hs : shiftCurves 0 cs with
  | nil => rw [hs] at s3; simp at s3; omega
  | cons c' cs' =>
    rw [hs] at s1 s2 s3
    obtain ⟨z, f, h1, h2, h3, h4, h5, h6, h7⟩ := C242_compose p c' cs' s1
    have c0 := s2 0 hpos
    simp only [List.getElem?_cons_zero, Option.some.injEq, Nat.cast_zero, add_zero] at c0
    have cz : z = shifted (0 + ((cs.length - 1 : Nat) : K)) cs[cs.length - 1] := by
      have := s2 (cs.length - 1) (by omega)
      rw [List.getLast?_eq_getElem?, s3, this] at h1
      exact (Option.some.inj h1).symm
    refine ⟨f, by rw [composeNormalized, hs, h2], h3, h4, ?_, ?_, ?_⟩
    · rw [h5, c0, (shifted_clamped 0 _ (hcl cs h 0 hpos)).2.1]
    · rw [h6, cz, (shifted_clamped _ _ (hcl cs h (cs.length - 1) (by omega))).2.2.1, zero_add]
      have : ((cs.length - 1 : Nat) : K) + 1 = ((cs.length - 1 + 1 : Nat) : K) := by push_cast; rfl
      rw [this, Nat.sub_add_cancel hpos]
    · intro i hi fuel hf1 hf2 x hx1 hx2 col
      have ci := hcl cs h i hi
      obtain ⟨t1, t2, t3, t4⟩ := shifted_clamped (0 + (i : K)) cs[i] ci
      have hmem : shifted (0 + (i : K)) cs[i] ∈ c' :: cs' := List.mem_of_getElem? (s2 i hi)
      have hD : 0 < cs[i].U cs[i].n - cs[i].U cs[i].degree := by rw [← ci.lo, ← ci.hi]; exact ci.width
      have hy1 : (shifted (0 + (i : K)) cs[i]).U (shifted (0 + (i : K)) cs[i]).degree ≤
          i + (x - cs[i].U cs[i].degree) / (cs[i].U cs[i].n - cs[i].U cs[i].degree) := by
        rw [t2, zero_add, le_add_iff_nonneg_right]
        exact div_nonneg (sub_nonneg.mpr hx1) (le_of_lt hD)
      have hy2 : i + (x - cs[i].U cs[i].degree) / (cs[i].U cs[i].n - cs[i].U cs[i].degree) ≤
          (shifted (0 + (i : K)) cs[i]).U (shifted (0 + (i : K)) cs[i]).n := by
        rw [t3, zero_add, add_le_add_iff_left, div_le_one hD]
        linarith
      rw [h7 _ hmem fuel hf1 hf2 _ hy1 hy2 col,
        C35_evaluate_is_rational_spline _ t1.valid t1.nonper fuel hf2 _ hy1 hy2,
        C35_evaluate_is_rational_spline _ ci.valid ci.nonper fuel hf2 x hx1 hx2]
      rw [zero_add] at t4
      rw [zero_add, t4, t4]
      rfl

/-- Two curves with domains `[0, 1]` and `[1, 3]`: the second is found on `[1, 2]`. -/
example : Meet 2 [exA, exB] ∧ (composeNormalized 2 [exA, exB]).map (fun f => ((List.range f.m).map f.U,
    f.evaluate 9 (1 / 2) 1, f.evaluate 9 (5 / 4) 1)) =
      some ([0, 0, 0, 1, 1, 3 / 2, 2, 2, 2], exA.evaluate 9 (1 / 2) 1, exB.evaluate 9 (3 / 2) 1) :=
  ⟨⟨⟨exA_clamped, rfl⟩, exAB_chain.2.2.1, exB_clamped, rfl⟩, by decide +kernel⟩

/-! ## Degree elevation -/

/-- **C244** `degree_elevate_curve`, columns: for a clamped curve that can be cut into its Bezier pieces, and a new degree up
to 30, the result is a clamped curve of degree `degree + num` on the same domain whose four columns are the same
functions; its knots are knots of the curve and no inner one has a multiplicity above the new degree. -/
theorem C244_elevate_columns (g : Nat → K) (c : Curve K) (h : Clamped c) (num : Nat) (hnum : 1 ≤ num) (h30 : c.degree + num ≤ 30)
    (fuel : Nat) (hf : c.m ≤ fuel) (eps : K → K) (heps : ∀ y, 0 ≤ eps y) (tol : K) (htol : 0 ≤ tol) (hcut : Cuttable c eps tol)
    (init junk : Nat → Nat → K) :
    ∃ f, degreeElevate g fuel eps tol init junk c num = some (some f) ∧ Clamped f ∧ f.degree = c.degree + num ∧
      f.U f.degree = c.U c.degree ∧ f.U f.n = c.U c.n ∧
      (∀ x, c.U c.degree ≤ x → x ≤ c.U c.n → ∀ col, specVal f (fun l => f.P l col) x = specVal c (fun l => c.P l col) x) ∧
      (∀ w, (∀ l, l < c.n → c.P l 3 = w) → ∀ l, l < f.n → f.P l 3 = w) ∧ NoJump f ∧
      ∀ k, k < f.m → ∃ j, j < c.m ∧ f.U k = c.U j := by
  have hk := h.valid.knots
  have hnp := h.valid.npos
  obtain ⟨ds, d1, d2, d3, d4, d5⟩ := cut_all c h.valid h.nonper fuel hf eps heps tol htol hcut init junk
  have hab : c.U c.degree < c.U c.n := by
    have := h.width
    rw [h.lo, h.hi] at this
    exact sub_pos.mp this
  obtain ⟨e, es, e1, e2, e3, _, ⟨z, hz, hzb⟩, e4, e5, e6, e7⟩ := elevate_chain g num hnum c h30 h.deg (c.U c.n)
    (innerKnots c.U c.m c.degree) (c.U c.degree) ds d2 (d4 h.lo h.hi) hab d3 (innerKnots_sorted _ _ _)
  obtain ⟨z', f, f1, f2, f3, f4, f5, f6, f7, f8, f9⟩ := compose_chain (c.degree + num) e es e2
  rw [hz] at f1
  obtain rfl := Option.some.inj f1
  refine ⟨f, by rw [degreeElevate, uniqueInner_eq c h, d1]; simp only [e1, f2], f3, f4, by rw [f5, e3], by rw [f6, hzb],
    fun x hx1 hx2 col => ?_, fun w hw => f8 w (e5 w (d5 w hw)), f9 NoJump glues_nojump e6,
    f9 _ (glues_knots fun x => ∃ j, j < c.m ∧ x = c.U j) (e7 (fun x => ∃ j, j < c.m ∧ x = c.U j) ⟨c.degree, by omega, rfl⟩ ⟨c.n, by omega, rfl⟩ fun t ht => ?_)⟩
  · obtain ⟨q, hq, q1, q2, q3⟩ := e4 x hx1 hx2
    rw [f7 q hq x q1 q2 col, q3]
  · obtain ⟨k, _, k2, k3⟩ := (innerKnots_mem _ _ _ _).mp ht
    exact ⟨k, by omega, k3.symm⟩

/-- **C244** `degree_elevate_curve` for a curve with equal weights: the result has the degree asked for, the same domain and
the same points.  Partial: for different weights it is refuted below. -/
theorem C244_elevate_partial (g : Nat → K) (c : Curve K) (h : Clamped c) (num : Nat) (hnum : 1 ≤ num) (h30 : c.degree + num ≤ 30)
    (fuel : Nat) (hf : c.m ≤ fuel) (eps : K → K) (heps : ∀ y, 0 ≤ eps y) (tol : K) (htol : 0 ≤ tol) (hcut : Cuttable c eps tol)
    (init junk : Nat → Nat → K) (w : K) (hw0 : w ≠ 0) (hw : ∀ l, l < c.n → c.P l 3 = w) :
    ∃ f, degreeElevate g fuel eps tol init junk c num = some (some f) ∧ Clamped f ∧ f.degree = c.degree + num ∧
      f.U f.degree = c.U c.degree ∧ f.U f.n = c.U c.n ∧
      ∀ fuel', f.n ≤ fuel' → c.n ≤ fuel' → ∀ x, c.U c.degree ≤ x → x ≤ c.U c.n → ∀ col,
        f.evaluate fuel' x col = c.evaluate fuel' x col := by
  obtain ⟨f, f1, f2, f3, f4, f5, f6, f7, _⟩ := C244_elevate_columns g c h num hnum h30 fuel hf eps heps tol htol hcut init junk
  refine ⟨f, f1, f2, f3, f4, f5, fun fuel' hf1 hf2 x hx1 hx2 col => ?_⟩
  rw [evaluate_equal_weights f f2.valid f2.nonper w hw0 (f7 w hw) fuel' hf1 x (by rw [f4]; exact hx1) (by rw [f5]; exact hx2),
    evaluate_equal_weights c h.valid h.nonper w hw0 hw fuel' hf2 x hx1 hx2, f6 x hx1 hx2]

theorem exPoly_clamped : Clamped exPoly := clamped_check exPoly (by decide +kernel)
theorem exPoly_cuttable : Cuttable exPoly (fun _ => 1 / 100) (1 / 100) := cuttable_check exPoly _ _ (by decide +kernel)

/-- A curve of degree 2 with a double and a simple inner knot, elevated by one. -/
example : Clamped exPoly ∧ Cuttable exPoly (fun _ => 1 / 100) (1 / 100) ∧ (∀ l, l < exPoly.n → exPoly.P l 3 = 1) ∧
    ((degreeElevate (fun _ => 7) 20 (fun _ => 1 / 100) (1 / 100) (fun _ _ => 5) (fun _ _ => 6) exPoly 1).map (Option.map fun f =>
      (f.n, (List.range f.m).map f.U, [f.evaluate 20 (1 / 2) 1, f.evaluate 20 (5 / 2) 1]))) =
      some (some (10, [0, 0, 0, 0, 1, 1, 1, 2, 2, 2, 3, 3, 3, 3],
        [exPoly.evaluate 20 (1 / 2) 1, exPoly.evaluate 20 (5 / 2) 1])) ∧
    exPoly.evaluate 20 (5 / 2) 1 = some (13 / 4) :=
  ⟨exPoly_clamped, exPoly_cuttable, fun _ _ => rfl, by decide +kernel, by decide +kernel⟩

/-- **C244, refuted part.** A segment with two different weights: elevation by 1 moves the point in the middle of the domain,
for all weights and ends. -/
theorem C244_rational_refuted (g : Nat → K) (c : Curve K) (h : Clamped c) (hd : c.degree = 1) (hn : c.n = 2)
    (fuel : Nat) (eps : K → K) (tol : K) (init junk : Nat → Nat → K) (col : Nat) (hP : c.P 0 col ≠ c.P 1 col) (hw : c.P 0 3 ≠ c.P 1 3) (hs : c.P 0 3 + c.P 1 3 ≠ 0) :
    ∃ f, degreeElevate g fuel eps tol init junk c 1 = some (some f) ∧
      ∀ fuel', f.n ≤ fuel' → c.n ≤ fuel' →
        f.evaluate fuel' ((c.U c.degree + c.U c.n) / 2) col ≠ c.evaluate fuel' ((c.U c.degree + c.U c.n) / 2) col := by
  have hk := h.valid.knots
  have hab : c.U c.degree < c.U c.n := by
    have := h.width
    rw [h.lo, h.hi] at this
    exact sub_pos.mp this
  have hin : uniqueInner c.U c.m = [] := by
    rw [uniqueInner_eq c h, List.eq_nil_iff_forall_not_mem]
    intro x hx
    obtain ⟨k, h1, h2, _⟩ := (innerKnots_mem _ _ _ _).mp hx
    omega
  obtain ⟨e, he, ec, ed, en, e1, e2, _, _, _⟩ := elevate_piece g 1 (le_refl _) c h (by omega) (by omega)
  obtain ⟨Q, W, hQ, hW, hne⟩ := Bez.C41_rational_refuted g (fun a => c.P a col) (fun a => c.P a 3) hP hw hs
  have he' := he
  rw [elevatePiece, if_neg (by omega)] at he'
  simp only [Option.some.injEq] at he'
  have eP : ∀ i, e.P i col = Q i := by intro i; rw [← he']; simp only [hn, hd, hQ]
  have eW : ∀ i, e.P i 3 = W i := by intro i; rw [← he']; simp only [hn, hd, hW]
  obtain ⟨z, f, f1, f2, f3, f4, f5, f6, f7⟩ := C242_compose (c.degree + 1) e [] ⟨ec, ed⟩
  refine ⟨f, ?_, fun fuel' hf1 hf2 => ?_⟩
  · rw [degreeElevate, hin, splitMultiple]
    simp only [elevateAll, he, f2]
  · have fn : f.n = e.n := by
      have := f2
      simp only [composeCurves, List.getLast?_singleton, List.foldl_cons, List.foldl_nil, composeStep, if_true,
        Option.some.injEq] at this
      rw [← this]
      simp
    have hx1 : c.U c.degree ≤ (c.U c.degree + c.U c.n) / 2 := by linarith
    have hx2 : (c.U c.degree + c.U c.n) / 2 ≤ c.U c.n := by linarith
    have ht : ((c.U c.degree + c.U c.n) / 2 - c.U c.degree) / (c.U c.n - c.U c.degree) = 1 / 2 := by
      rw [div_eq_iff (sub_ne_zero.mpr (ne_of_gt hab))]; ring
    rw [f7 e List.mem_cons_self fuel' hf1 (by omega) _ (by rw [e1]; exact hx1) (by rw [e2]; exact hx2),
      C35_evaluate_is_rational_spline e ec.valid ec.nonper fuel' (by omega) _ (by rw [e1]; exact hx1) (by rw [e2]; exact hx2),
      C35_evaluate_is_rational_spline c h.valid h.nonper fuel' hf2 _ hx1 hx2,
      specVal_bezier e ec en _ _ (by rw [e1]; exact hx1) (by rw [e2]; exact hx2),
      specVal_bezier e ec en _ _ (by rw [e1]; exact hx1) (by rw [e2]; exact hx2),
      specVal_bezier c h (by omega) _ _ hx1 hx2, specVal_bezier c h (by omega) _ _ hx1 hx2, e1, e2, ht, ed, hd]
    simp only [eP, eW]
    intro hc
    exact hne (Option.some.inj hc)

/-- A segment from 0 to 3 with weights 1 and 2: its middle is 2; after elevation it is another point (examples). -/
def exSeg : Curve ℚ where
  degree := 1
  n := 2
  P := fun i col => if col = 3 then 1 + i else if col = 0 then 3 * i else 0
  m := 4
  U := kvec [0, 0, 1, 1]
  periodic := false

example : Clamped exSeg ∧ exSeg.evaluate 9 (1 / 2) 0 = some 2 ∧
    ((degreeElevate (fun _ => 7) 20 (fun _ => 1 / 100) (1 / 100) (fun _ _ => 5) (fun _ _ => 6) exSeg 1).map (Option.map fun f =>
      f.evaluate 20 (1 / 2) 0)) = some (some (some (7 / 4))) :=
  ⟨clamped_check exSeg (by decide +kernel), by decide +kernel, by decide +kernel⟩

/-- No degree to add: the assignment to an empty slice raises for every curve that has Bezier pieces. -/
theorem C244_zero_raises (g : Nat → K) (c : Curve K) (h : Clamped c)
    (fuel : Nat) (hf : c.m ≤ fuel) (eps : K → K) (heps : ∀ y, 0 ≤ eps y) (tol : K) (htol : 0 ≤ tol) (hcut : Cuttable c eps tol)
    (init junk : Nat → Nat → K) : degreeElevate g fuel eps tol init junk c 0 = some none := by
  obtain ⟨ds, d1, d2, _⟩ := cut_all c h.valid h.nonper fuel hf eps heps tol htol hcut init junk
  have hne : ∃ d l, ds = d :: l := by
    cases ds with
    | cons d l => exact ⟨d, l, rfl⟩
    | nil =>
      exfalso
      generalize innerKnots c.U c.m c.degree = ts at d2
      cases ts <;> simp [intervals] at d2
  obtain ⟨d, l, rfl⟩ := hne
  have : elevateAll g 0 (d :: l) = none := by
    rw [elevateAll, elevatePiece, if_pos (Or.inr rfl)]
  rw [degreeElevate, uniqueInner_eq c h, d1]
  simp only [this]

end Verif.Knot
