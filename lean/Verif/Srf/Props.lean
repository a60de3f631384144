import Verif.Srf.Model
import Mathlib.Analysis.Calculus.Deriv.Basic
import Mathlib.Analysis.Calculus.Deriv.Add
import Mathlib.Analysis.Calculus.Deriv.Mul
import Mathlib.Analysis.Calculus.Deriv.Comp
import Mathlib.Tactic.Module
import Mathlib.Tactic.Ring
import Mathlib.Tactic.Linarith
import Mathlib.Tactic.NormNum
import Mathlib.Algebra.Field.Rat
import Mathlib.Algebra.Order.Ring.Rat

set_option linter.unusedSectionVars false

/-!
# Python surfaces: bilinear patches, ruled surfaces, Coons patches (C271–C273)
-/

namespace Verif.Srf

variable {K : Type} [Field K] {V : Type} [AddCommGroup V] [Module K V]

/-! ## C271: bilinear patches and blossoms -/

/-- A map that is affine in each of its two parameters. -/
def BiAffine (f : K → K → V) : Prop :=
  (∀ u v, f u v = (1 - u) • f 0 v + u • f 1 v) ∧ (∀ u v, f u v = (1 - v) • f u 0 + v • f u 1)

/-- **C271.** The Python class, the function and the compiled class describe one surface. -/
theorem C271_agree (a b c d : V) (u v : K) :
    pyBilinear a b c d u v = cBilinear a b c d u v ∧ evaluateBilinear u v a b d c = pyBilinear a b c d u v := by
  constructor
  · simp only [pyBilinear, cBilinear, dotR, dotM]; module
  · simp only [pyBilinear, evaluateBilinear]

/-- **C271.** It is affine in each parameter, goes through the four points in turn, and is the only such map. -/
theorem C271_bilinear (a b c d : V) :
    BiAffine (pyBilinear a b c d : K → K → V) ∧ pyBilinear a b c d (0 : K) 0 = a ∧ pyBilinear a b c d (1 : K) 0 = b ∧
    pyBilinear a b c d (1 : K) 1 = c ∧ pyBilinear a b c d (0 : K) 1 = d ∧
    ∀ f : K → K → V, BiAffine f → f 0 0 = a → f 1 0 = b → f 1 1 = c → f 0 1 = d → f = pyBilinear a b c d := by
  refine ⟨⟨fun u v => ?_, fun u v => ?_⟩, ?_, ?_, ?_, ?_, ?_⟩
  · simp only [pyBilinear, dotR, dotM]; module
  · simp only [pyBilinear, dotR, dotM]; module
  · simp only [pyBilinear, dotR, dotM]; module
  · simp only [pyBilinear, dotR, dotM]; module
  · simp only [pyBilinear, dotR, dotM]; module
  · simp only [pyBilinear, dotR, dotM]; module
  · intro f hf h0 h1 h2 h3
    funext u v
    rw [hf.1 u v, hf.2 0 v, hf.2 1 v, h0, h1, h2, h3]
    simp only [pyBilinear, dotR, dotM]; module

/-- **C271.** The blossom is symmetric, affine in each argument, and on the diagonal it is the quadratic curve. -/
theorem C271_blossom (b0 b1 b2 : V) (s t : K) :
    blossom b0 b1 b2 s t = blossom b0 b1 b2 t s ∧ BiAffine (blossom b0 b1 b2 : K → K → V) ∧
    blossom b0 b1 b2 t t = ((1 - t) ^ 2) • b0 + (2 * t * (1 - t)) • b1 + (t ^ 2) • b2 ∧
    blossom b0 b1 b2 (0 : K) 0 = b0 ∧ blossom b0 b1 b2 (0 : K) 1 = b1 ∧ blossom b0 b1 b2 (1 : K) 1 = b2 := by
  refine ⟨?_, ⟨fun u v => ?_, fun u v => ?_⟩, ?_, ?_, ?_, ?_⟩ <;> simp only [blossom] <;> module

example : pyBilinear (0 : ℚ) 2 5 1 (1 / 2 : ℚ) (1 / 3) = 5 / 3 := by
  simp only [pyBilinear, dotR, dotM, smul_eq_mul]; norm_num

/-! ## C272: ruled surfaces -/

/-- **C272, in part.** For curves whose intervals begin at 0, the surface runs along both curves, from end to end, and is straight
between them; it is then the compiled one. -/
theorem C272_edges_partial (c1 c2 : Crv K V) (h1 : c1.a = 0) (h2 : c2.a = 0) (u v : K) :
    pyRuled c1 c2 u 0 = c1.eval (c1.a + u * (c1.b - c1.a)) ∧ pyRuled c1 c2 u 1 = c2.eval (c2.a + u * (c2.b - c2.a)) ∧
    pyRuled c1 c2 u v = (1 - v) • pyRuled c1 c2 u 0 + v • pyRuled c1 c2 u 1 ∧ pyRuled c1 c2 u v = cRuled c1 c2 u v := by
  have e1 : remap c1 * u = c1.a + u * (c1.b - c1.a) := by rw [remap, h1]; ring
  have e2 : remap c2 * u = c2.a + u * (c2.b - c2.a) := by rw [remap, h2]; ring
  have e3 : u * (c1.b - c1.a) + c1.a = c1.a + u * (c1.b - c1.a) := by ring
  have e4 : u * (c2.b - c2.a) + c2.a = c2.a + u * (c2.b - c2.a) := by ring
  simp only [pyRuled, cRuled, e1, e2, e3, e4]
  refine ⟨by module, by module, by module, trivial⟩

/-- The compiled class runs along both curves whatever the intervals are. -/
theorem C272_compiled (c1 c2 : Crv K V) (u v : K) :
    cRuled c1 c2 u 0 = c1.eval (c1.a + u * (c1.b - c1.a)) ∧ cRuled c1 c2 u 1 = c2.eval (c2.a + u * (c2.b - c2.a)) ∧
    cRuled c1 c2 u v = (1 - v) • cRuled c1 c2 u 0 + v • cRuled c1 c2 u 1 := by
  have e3 : u * (c1.b - c1.a) + c1.a = c1.a + u * (c1.b - c1.a) := by ring
  have e4 : u * (c2.b - c2.a) + c2.a = c2.a + u * (c2.b - c2.a) := by ring
  simp only [cRuled, e3, e4]
  refine ⟨by module, by module, by module⟩

/-- **C272, refuted.** The parameter `u` is only multiplied by the end of the interval: the surface begins with the value of the curve
at parameter 0, wherever the interval begins, and misses the start of every curve that is different there. -/
theorem C272_edges_refuted (c1 c2 : Crv K V) :
    pyRuled c1 c2 0 0 = c1.eval 0 ∧ pyRuled c1 c2 1 0 = c1.eval c1.b ∧
    (c1.eval c1.a ≠ c1.eval 0 → pyRuled c1 c2 0 0 ≠ c1.eval c1.a) := by
  have e : pyRuled c1 c2 0 0 = c1.eval 0 := by simp [pyRuled]
  refine ⟨e, by simp [pyRuled, remap], fun h => ?_⟩
  rw [e]; exact fun q => h q.symm

/-- A straight line over an interval. -/
def lineC (p d : V) (a b : K) : Crv K V := ⟨fun t => p + t • d, fun _ => d, fun _ => 0, a, b⟩

/-- A line over the interval [1, 2], where the start is missed. -/
example : pyRuled (lineC (0 : ℚ) 1 (1 : ℚ) 2) (lineC (5 : ℚ) 1 (1 : ℚ) 2) 0 0 ≠ (lineC (0 : ℚ) 1 (1 : ℚ) 2).eval 1 :=
  (C272_edges_refuted _ _).2.2 (by simp [lineC])

section Real

variable {E : Type} [NormedAddCommGroup E] [NormedSpace ℝ E]

/-- The derivative of the surface along `u`. -/
theorem pyRuled_hasDeriv (c1 c2 : Crv ℝ E) (u v : ℝ) (h1 : HasDerivAt c1.eval (c1.der (c1.b * u)) (c1.b * u))
    (h2 : HasDerivAt c2.eval (c2.der (c2.b * u)) (c2.b * u)) :
    HasDerivAt (fun s => pyRuled c1 c2 s v) ((1 - v) • (c1.b • c1.der (c1.b * u)) + v • (c2.b • c2.der (c2.b * u))) u := by
  have r : ∀ c : Crv ℝ E, remap c = c.b := fun c => by simp [remap]
  have l : ∀ b : ℝ, HasDerivAt (fun s : ℝ => b * s) b u := fun b => by
    simpa using (hasDerivAt_id u).const_mul b
  have k1 := (h1.scomp u (l c1.b)).const_smul (1 - v)
  have k2 := (h2.scomp u (l c2.b)).const_smul v
  have := k1.add k2
  refine this.congr_of_eventuallyEq ?_
  filter_upwards with s
  simp [pyRuled, r]

/-- **C272.** `derivative_v` is the derivative along `v`. -/
theorem C272_derivative_v (c1 c2 : Crv ℝ E) (u v : ℝ) : HasDerivAt (fun r => pyRuled c1 c2 u r) (pyRuledV c1 c2 u v) v := by
  have k := (((hasDerivAt_id v).const_sub 1).smul_const (c1.eval (remap c1 * u))).add
    ((hasDerivAt_id v).smul_const (c2.eval (remap c2 * u)))
  refine HasDerivAt.congr_deriv (f := fun r => pyRuled c1 c2 u r) k ?_
  rw [pyRuledV]; module

/-- **C272, in part.** `derivative_u` is the derivative along `u` when both intervals end at 1. -/
theorem C272_derivative_u_partial (c1 c2 : Crv ℝ E) (u v : ℝ) (l1 : c1.b = 1) (l2 : c2.b = 1)
    (h1 : HasDerivAt c1.eval (c1.der (c1.b * u)) (c1.b * u)) (h2 : HasDerivAt c2.eval (c2.der (c2.b * u)) (c2.b * u)) :
    HasDerivAt (fun s => pyRuled c1 c2 s v) (pyRuledU c1 c2 u v) u := by
  refine (pyRuled_hasDeriv c1 c2 u v h1 h2).congr_deriv ?_
  have r : ∀ c : Crv ℝ E, remap c = c.b := fun c => by simp [remap]
  simp only [pyRuledU, r, l1, l2]
  module

/-- **C272, refuted.** When both intervals end at `L` the derivative along `u` is `L` times what `derivative_u` returns. -/
theorem C272_derivative_u_refuted (c1 c2 : Crv ℝ E) (u v L : ℝ) (l1 : c1.b = L) (l2 : c2.b = L) (hL : L ≠ 1)
    (h1 : HasDerivAt c1.eval (c1.der (c1.b * u)) (c1.b * u)) (h2 : HasDerivAt c2.eval (c2.der (c2.b * u)) (c2.b * u)) :
    HasDerivAt (fun s => pyRuled c1 c2 s v) (L • pyRuledU c1 c2 u v) u ∧
    (pyRuledU c1 c2 u v ≠ 0 → ¬ HasDerivAt (fun s => pyRuled c1 c2 s v) (pyRuledU c1 c2 u v) u) := by
  have h : HasDerivAt (fun s => pyRuled c1 c2 s v) (L • pyRuledU c1 c2 u v) u := by
    refine (pyRuled_hasDeriv c1 c2 u v h1 h2).congr_deriv ?_
    have r : ∀ c : Crv ℝ E, remap c = c.b := fun c => by simp [remap]
    simp only [pyRuledU, r, l1, l2]
    module
  refine ⟨h, fun hne hc => hne ?_⟩
  have e := h.unique hc
  have : (L - 1) • pyRuledU c1 c2 u v = 0 := by rw [sub_smul, e, one_smul, sub_self]
  exact (smul_eq_zero.1 this).resolve_left (sub_ne_zero.2 hL)

/-- Two parallel lines over [0, 2]: the hypotheses hold and the derivative is wrong by the factor two. -/
example (u v : ℝ) : pyRuledU (lineC (0 : ℝ) 1 0 2) (lineC 3 1 0 2) u v = 1 ∧
    ¬ HasDerivAt (fun s => pyRuled (lineC (0 : ℝ) 1 0 2) (lineC 3 1 0 2) s v)
      (pyRuledU (lineC (0 : ℝ) 1 0 2) (lineC 3 1 0 2) u v) u := by
  have e : pyRuledU (lineC (0 : ℝ) 1 0 2) (lineC 3 1 0 2) u v = 1 := by simp [pyRuledU, lineC]
  have hl : ∀ p x : ℝ, HasDerivAt (lineC p (1 : ℝ) 0 2).eval 1 x := fun p x => by
    simpa [lineC] using (hasDerivAt_id x).const_add p
  exact ⟨e, (C272_derivative_u_refuted _ _ u v 2 rfl rfl (by norm_num) (hl _ _) (hl _ _)).2 (by rw [e]; exact one_ne_zero)⟩

/-- **C272, in part.** `second_derivative_uu` is the derivative of `derivative_u` along `u` when both intervals end at 1. -/
theorem C272_second_partial (c1 c2 : Crv ℝ E) (u v : ℝ) (l1 : c1.b = 1) (l2 : c2.b = 1)
    (h1 : HasDerivAt c1.der (c1.der2 (c1.b * u)) (c1.b * u)) (h2 : HasDerivAt c2.der (c2.der2 (c2.b * u)) (c2.b * u)) :
    HasDerivAt (fun s => pyRuledU c1 c2 s v) (pyRuledUU c1 c2 u v) u := by
  have k := C272_derivative_u_partial ⟨c1.der, c1.der2, c1.der2, c1.a, c1.b⟩ ⟨c2.der, c2.der2, c2.der2, c2.a, c2.b⟩ u v l1 l2 h1 h2
  refine (k.congr_of_eventuallyEq ?_).congr_deriv ?_
  · filter_upwards with s
    simp only [pyRuled, pyRuledU, remap]; module
  · simp only [pyRuledU, pyRuledUU, remap]

end Real

/-! ## C273: Coons patches -/

/-- The point of a curve at a share `u` of its interval. -/
def Crv.share (c : Crv K V) (u : K) : V := c.eval (c.a + u * (c.b - c.a))

/-- The four curves meet at the corners: `c1` and `c2` run along `u`, `d2` and `d1` along `v`. -/
structure Meet (c1 d1 c2 d2 : Crv K V) : Prop where
  p00 : d2.share 0 = c1.share 0
  p10 : d1.share 0 = c1.share 1
  p11 : d1.share 1 = c2.share 1
  p01 : d2.share 1 = c2.share 0

/-- The pair of curves is compiled, or both intervals begin at 0. -/
def OkPair (compiled : Bool) (c1 c2 : Crv K V) : Prop := compiled = true ∨ (c1.a = 0 ∧ c2.a = 0)

theorem ruled_eq (k : Bool) (c1 c2 : Crv K V) (h : OkPair k c1 c2) (u v : K) :
    ruled k c1 c2 u v = (1 - v) • c1.share u + v • c2.share u := by
  have e : ruled k c1 c2 u v = cRuled c1 c2 u v := by
    rcases h with h | h
    · simp [ruled, h]
    · unfold ruled
      split_ifs
      · rfl
      · exact (C272_edges_partial c1 c2 h.1 h.2 u v).2.2.2
  have e3 : u * (c1.b - c1.a) + c1.a = c1.a + u * (c1.b - c1.a) := by ring
  have e4 : u * (c2.b - c2.a) + c2.a = c2.a + u * (c2.b - c2.a) := by ring
  rw [e]
  simp only [cRuled, Crv.share, e3, e4]

theorem share_ends (c : Crv K V) : c.share 0 = c.eval c.a ∧ c.share 1 = c.eval c.b := by
  have e1 : c.a + 0 * (c.b - c.a) = c.a := by ring
  have e2 : c.a + 1 * (c.b - c.a) = c.b := by ring
  simp only [Crv.share, e1, e2, and_self]

theorem coons_eq (kc kd : Bool) (c1 d1 c2 d2 : Crv K V) (hc : OkPair kc c1 c2) (hd : OkPair kd d2 d1) (u v : K) :
    coons kc kd c1 d1 c2 d2 u v = ((1 - v) • c1.share u + v • c2.share u) + ((1 - u) • d2.share v + u • d1.share v) -
      ((1 - v) • ((1 - u) • c1.share 0 + u • c1.share 1) + v • ((1 - u) • d2.share 1 + u • c2.share 1)) := by
  unfold coons
  dsimp only
  rw [ruled_eq kc c1 c2 hc, ruled_eq kd d2 d1 hd, ← (share_ends c1).1, ← (share_ends c1).2, ← (share_ends c2).2,
    ← (share_ends d2).2]
  simp only [cBilinear]
  module

/-- **C273, in part.** When the four curves meet at the corners, and each pair is compiled or has intervals beginning at 0, the patch
runs along all four curves. -/
theorem C273_boundary_partial (kc kd : Bool) (c1 d1 c2 d2 : Crv K V) (hc : OkPair kc c1 c2) (hd : OkPair kd d2 d1)
    (m : Meet c1 d1 c2 d2) (t : K) :
    coons kc kd c1 d1 c2 d2 t 0 = c1.share t ∧ coons kc kd c1 d1 c2 d2 t 1 = c2.share t ∧
    coons kc kd c1 d1 c2 d2 0 t = d2.share t ∧ coons kc kd c1 d1 c2 d2 1 t = d1.share t := by
  have e := coons_eq kc kd c1 d1 c2 d2 hc hd
  refine ⟨?_, ?_, ?_, ?_⟩
  · rw [e, m.p00, m.p10]; module
  · rw [e, m.p01, m.p11]; module
  · rw [e, m.p01]; module
  · rw [e]; module

/-- **C273.** The corners have to meet: a patch that runs along its four curves has curves that meet. -/
theorem C273_meet (kc kd : Bool) (c1 d1 c2 d2 : Crv K V)
    (h : ∀ t : K, coons kc kd c1 d1 c2 d2 t 0 = c1.share t ∧ coons kc kd c1 d1 c2 d2 t 1 = c2.share t ∧
      coons kc kd c1 d1 c2 d2 0 t = d2.share t ∧ coons kc kd c1 d1 c2 d2 1 t = d1.share t) : Meet c1 d1 c2 d2 where
  p00 := by rw [← (h 0).2.2.1, ← (h 0).1]
  p10 := by rw [← (h 0).2.2.2, ← (h 1).1]
  p11 := by rw [← (h 1).2.2.2, ← (h 1).2.1]
  p01 := by rw [← (h 1).2.2.1, ← (h 0).2.1]

/-- **C273.** Four straight sides give the bilinear patch. -/
theorem C273_bilinear (kc kd : Bool) (c1 d1 c2 d2 : Crv K V) (hc : OkPair kc c1 c2) (hd : OkPair kd d2 d1)
    (m : Meet c1 d1 c2 d2) (l : ∀ c ∈ [c1, d1, c2, d2], ∀ u : K, c.share u = (1 - u) • c.share 0 + u • c.share 1) (u v : K) :
    coons kc kd c1 d1 c2 d2 u v = pyBilinear (c1.share 0) (c1.share 1) (c2.share 1) (c2.share 0) u v := by
  rw [coons_eq kc kd c1 d1 c2 d2 hc hd, l c1 (by simp) u, l c2 (by simp) u, l d1 (by simp) v, l d2 (by simp) v, m.p00, m.p10, m.p11,
    m.p01]
  simp only [pyBilinear, dotR, dotM]
  module

/-- **C273, refuted.** With curves of the Python classes the start of the first curve counts only where its interval begins at 0: at
the corner (0, 0) the patch is at `c1(0) + d2(0) - c1(start)`, so where `d2` starts at 0 in the same corner and `c1` takes another
value at 0, the corner is missed. -/
theorem C273_boundary_refuted (c1 d1 c2 d2 : Crv K V) :
    coons false false c1 d1 c2 d2 0 0 = c1.eval 0 + d2.eval 0 - c1.eval c1.a ∧
    (d2.a = 0 → d2.eval d2.a = c1.eval c1.a → c1.eval 0 ≠ c1.eval c1.a → coons false false c1 d1 c2 d2 0 0 ≠ c1.share 0) := by
  have e : coons false false c1 d1 c2 d2 0 0 = c1.eval 0 + d2.eval 0 - c1.eval c1.a := by
    simp [coons, ruled, pyRuled, cBilinear]
  refine ⟨e, fun ha hm hne hc => hne ?_⟩
  rw [e, (share_ends c1).1, ← hm, ha] at hc
  rw [← hm, ha]
  have : c1.eval 0 + d2.eval 0 - d2.eval 0 = c1.eval 0 := by module
  rw [← this]; exact hc

/-- The unit square with sides over [0, 1] meets the hypotheses of the theorem. -/
def sq1 : Crv ℚ (ℚ × ℚ) := lineC (0, 0) (1, 0) 0 1
def sq2 : Crv ℚ (ℚ × ℚ) := lineC (1, 0) (0, 1) 0 1
def sq3 : Crv ℚ (ℚ × ℚ) := lineC (0, 1) (1, 0) 0 1
def sq4 : Crv ℚ (ℚ × ℚ) := lineC (0, 0) (0, 1) 0 1

example : Meet sq1 sq2 sq3 sq4 := by
  constructor <;> simp [Crv.share, sq1, sq2, sq3, sq4, lineC]

example : OkPair false sq1 sq3 := Or.inr ⟨rfl, rfl⟩

example : coons false false sq1 sq2 sq3 sq4 (1 / 4 : ℚ) (1 / 3) = (1 / 4, 1 / 3) := by
  rw [C273_bilinear false false _ _ _ _ (Or.inr ⟨rfl, rfl⟩) (Or.inr ⟨rfl, rfl⟩)
    (by constructor <;> simp [Crv.share, sq1, sq2, sq3, sq4, lineC])]
  · simp [Crv.share, sq1, sq3, lineC, pyBilinear, dotR, dotM]; norm_num
  · intro c hc u
    simp only [List.mem_cons, List.not_mem_nil, or_false] at hc
    rcases hc with rfl | rfl | rfl | rfl <;> simp [Crv.share, sq1, sq2, sq3, sq4, lineC]

/-- With the first side over [1, 2] the corner is missed. -/
example : coons false false (lineC ((-1, 0) : ℚ × ℚ) (1, 0) (1 : ℚ) 2) sq2 sq3 sq4 0 0 ≠
    (lineC ((-1, 0) : ℚ × ℚ) (1, 0) (1 : ℚ) 2).share 0 :=
  (C273_boundary_refuted _ _ _ _).2 rfl (by simp [sq4, lineC]) (by simp [lineC])

end Verif.Srf
