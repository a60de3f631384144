import Verif.Gm.Model
import Verif.Bez.Props2
import Mathlib.Analysis.Real.Sqrt
import Mathlib.Tactic.Positivity
import Mathlib.Algebra.Polynomial.Roots
import Mathlib.Tactic.IntervalCases

/-! # C230, C231, C234: the Gauss map of a Bezier patch -/

set_option linter.unusedSectionVars false

namespace Verif.Gm

open Finset
open Verif.Bez (Arr bezierToMonomial monomialToBezier evalMonomial evalBezier bern InvSpec)
open Verif.Mol (V)

section
variable {K : Type} [Field K]

theorem eval_derivU (A : Arr K) (u v : K) (d : ℕ) : evalMonomial (derivU A) u v d = evalMonomial (Bez.partialU A) u v d := by
  unfold evalMonomial derivU Bez.partialU
  dsimp only
  cases hn : A.n with
  | zero => simp
  | succ n =>
    rw [sum_range_succ, show n + 1 - 1 = n by omega]
    have z : ∑ j ∈ range A.m, (if n + 1 < n + 1 then ((n + 1 : ℕ) : K) * A.get (n + 1) j d else 0) * u ^ n * v ^ j = 0 := by
      apply sum_eq_zero
      intro j _
      rw [if_neg (lt_irrefl _)]
      ring
    rw [z, add_zero]
    apply sum_congr rfl; intro i hi
    apply sum_congr rfl; intro j _
    rw [mem_range] at hi
    rw [if_pos (by omega)]

theorem eval_derivV (A : Arr K) (u v : K) (d : ℕ) : evalMonomial (derivV A) u v d = evalMonomial (Bez.partialV A) u v d := by
  unfold evalMonomial derivV Bez.partialV
  dsimp only
  apply sum_congr rfl; intro i _
  cases hm : A.m with
  | zero => simp
  | succ m =>
    rw [sum_range_succ, show m + 1 - 1 = m by omega]
    rw [if_neg (lt_irrefl _), zero_mul, zero_mul, add_zero]
    apply sum_congr rfl; intro j hj
    rw [mem_range] at hj
    rw [if_pos (by omega)]

theorem eval_cross (A B : Arr K) (hn : B.n = A.n) (hm : B.m = A.m) (u v : K) (d : ℕ) :
    evalMonomial (crossProduct A B) u v d =
      evalMonomial A u v ((d + 1) % 3) * evalMonomial B u v ((d + 2) % 3) -
      evalMonomial A u v ((d + 2) % 3) * evalMonomial B u v ((d + 1) % 3) := by
  rw [← Bez.C114_cross]
  have : crossProduct A B = Bez.crossMonomial A B := by
    unfold crossProduct Bez.crossMonomial
    rw [hn, hm, two_mul, two_mul]
  rw [this]
end

/-- The derivatives of a Bezier patch. -/
noncomputable def su (P : Arr ℝ) (u v : ℝ) (d : ℕ) : ℝ := deriv (fun x => evalBezier P x v d) u
noncomputable def sv (P : Arr ℝ) (u v : ℝ) (d : ℕ) : ℝ := deriv (fun y => evalBezier P u y d) v

/-- The normal vector of a Bezier patch: the cross product of its derivatives. -/
noncomputable def normal (P : Arr ℝ) (u v : ℝ) (d : ℕ) : ℝ :=
  su P u v ((d + 1) % 3) * sv P u v ((d + 2) % 3) - su P u v ((d + 2) % 3) * sv P u v ((d + 1) % 3)

/-- **C230.**  The Bezier surface with the control points of `compute_gauss_map` has the values of the cross product of the
derivatives of the patch, at all parameters (degrees up to fifteen; above, the table of binomial coefficients ends). -/
theorem C230_gauss_map_partial (g : ℕ → ℝ) {inv : ℕ → (ℕ → ℕ → ℝ) → ℕ → ℕ → ℝ} (hinv : InvSpec inv) (P : Arr ℝ) (hn : P.n ≤ 16)
    (hm : P.m ≤ 16) (u v : ℝ) (d : ℕ) : evalBezier (gaussMap g inv P) u v d = normal P u v d := by
  unfold gaussMap
  dsimp only
  rw [Bez.C40_evaluate' g hinv _ (by change 2 * P.n - 1 ≤ 31; omega) (by change 2 * P.m - 1 ≤ 31; omega)]
  rw [eval_cross (derivU (bezierToMonomial g P)) (derivV (bezierToMonomial g P)) rfl rfl]
  simp only [eval_derivU, eval_derivV]
  have e : ∀ x y e, evalMonomial (bezierToMonomial g P) x y e = evalBezier P x y e := fun x y e =>
    Bez.C40_evaluate g P (by omega) (by omega) x y e
  have hu : ∀ e, su P u v e = evalMonomial (Bez.partialU (bezierToMonomial g P)) u v e := by
    intro e'
    unfold su
    rw [← (Bez.C114_derivatives (bezierToMonomial g P) u v e').1.deriv]
    simp only [e]
  have hv : ∀ e, sv P u v e = evalMonomial (Bez.partialV (bezierToMonomial g P)) u v e := by
    intro e'
    unfold sv
    rw [← (Bez.C114_derivatives (bezierToMonomial g P) u v e').2.deriv]
    simp only [e]
  unfold normal
  rw [hu, hu, hv, hv]

/-- The normal is orthogonal to both derivatives. -/
theorem C230_orthogonal (P : Arr ℝ) (u v : ℝ) :
    ∑ d ∈ range 3, normal P u v d * su P u v d = 0 ∧ ∑ d ∈ range 3, normal P u v d * sv P u v d = 0 := by
  unfold normal
  constructor
  · simp only [sum_range_succ, sum_range_zero]
    norm_num
    ring
  · simp only [sum_range_succ, sum_range_zero]
    norm_num
    ring

theorem bern_nonneg (n i : ℕ) (u : ℝ) (h0 : 0 ≤ u) (h1 : u ≤ 1) : 0 ≤ bern n i u := by
  unfold bern
  have : 0 ≤ 1 - u := by linarith
  positivity

/-- A function of the control vectors on the normal. -/
theorem normal_comb (g : ℕ → ℝ) {inv : ℕ → (ℕ → ℕ → ℝ) → ℕ → ℕ → ℝ} (hinv : InvSpec inv) (P : Arr ℝ) (hn : P.n ≤ 16) (hm : P.m ≤ 16)
    (p : ℕ → ℝ) (u v : ℝ) :
    ∑ d ∈ range 3, p d * normal P u v d = ∑ i ∈ range (2 * P.n - 1), ∑ j ∈ range (2 * P.m - 1),
      bern (2 * P.n - 1 - 1) i u * bern (2 * P.m - 1 - 1) j v * ∑ d ∈ range 3, p d * (gaussMap g inv P).get i j d := by
  simp only [← C230_gauss_map_partial g hinv P hn hm]
  have e : ∀ d, evalBezier (gaussMap g inv P) u v d = ∑ i ∈ range (2 * P.n - 1), ∑ j ∈ range (2 * P.m - 1),
      bern (2 * P.n - 1 - 1) i u * bern (2 * P.m - 1 - 1) j v * (gaussMap g inv P).get i j d := by
    intro d
    unfold evalBezier bern
    have e1 : (gaussMap g inv P).n = 2 * P.n - 1 := rfl
    have e2 : (gaussMap g inv P).m = 2 * P.m - 1 := rfl
    rw [e1, e2]
    apply sum_congr rfl; intro i _
    apply sum_congr rfl; intro j _
    ring
  simp only [e, mul_sum]
  rw [sum_comm]
  apply sum_congr rfl; intro i _
  rw [sum_comm]
  apply sum_congr rfl; intro j _
  apply sum_congr rfl; intro d _
  ring

/-- **C231.**  The vectors `GaussMap.from_surf` takes for the hull bound the normals: the control vectors divided by their lengths,
or by any positive numbers `s`.  A vector `p` with positive products with all of them has a positive product with the normal
at every parameter of the unit square. -/
theorem C231_cone_partial (g : ℕ → ℝ) {inv : ℕ → (ℕ → ℕ → ℝ) → ℕ → ℕ → ℝ} (hinv : InvSpec inv) (P : Arr ℝ) (hn : P.n ≤ 16)
    (hm : P.m ≤ 16) (hn0 : 0 < P.n) (hm0 : 0 < P.m) (s : ℕ → ℕ → ℝ)
    (hs : ∀ i j, 0 < s i j) (p : ℕ → ℝ)
    (hp : ∀ i < 2 * P.n - 1, ∀ j < 2 * P.m - 1, 0 < ∑ d ∈ range 3, p d * ((gaussMap g inv P).get i j d / s i j))
    (u v : ℝ) (u0 : 0 ≤ u) (u1 : u ≤ 1) (v0 : 0 ≤ v) (v1 : v ≤ 1) : 0 < ∑ d ∈ range 3, p d * normal P u v d := by
  rw [normal_comb g hinv P hn hm]
  have hp' : ∀ i < 2 * P.n - 1, ∀ j < 2 * P.m - 1, 0 < ∑ d ∈ range 3, p d * (gaussMap g inv P).get i j d := by
    intro i hi j hj
    have h1 := mul_pos (hs i j) (hp i hi j hj)
    rw [mul_sum] at h1
    have h2 : ∀ d, s i j * (p d * ((gaussMap g inv P).get i j d / s i j)) = p d * (gaussMap g inv P).get i j d := by
      intro d
      have := (hs i j).ne'
      field_simp
    simpa only [h2] using h1
  -- some basis function is positive in each direction
  have pos : ∀ n, ∀ t : ℝ, 0 ≤ t → t ≤ 1 → ∃ i < n + 1, 0 < bern n i t := by
    intro n t t0 t1
    by_contra hcon
    push Not at hcon
    have h := Bez.bern_sum n t
    have : ∑ i ∈ range (n + 1), bern n i t ≤ 0 := sum_nonpos fun i hi => hcon i (mem_range.1 hi)
    rw [h] at this
    linarith
  obtain ⟨a, ha, hau⟩ := pos (2 * P.n - 1 - 1) u u0 u1
  obtain ⟨b, hb, hbv⟩ := pos (2 * P.m - 1 - 1) v v0 v1
  apply sum_pos'
  · intro i hi
    apply sum_nonneg
    intro j hj
    exact mul_nonneg (mul_nonneg (bern_nonneg _ _ _ u0 u1) (bern_nonneg _ _ _ v0 v1))
      (hp' i (mem_range.1 hi) j (mem_range.1 hj)).le
  · refine ⟨a, mem_range.2 (by omega), ?_⟩
    apply sum_pos'
    · intro j hj
      exact mul_nonneg (mul_nonneg (bern_nonneg _ _ _ u0 u1) (bern_nonneg _ _ _ v0 v1)) (hp' a (by omega) j (mem_range.1 hj)).le
    · exact ⟨b, mem_range.2 (by omega), mul_pos (mul_pos hau hbv) (hp' a (by omega) b (by omega))⟩

/-! ## Separation of the normals of two patches -/

/-- **C231.**  If a vector separates the hulls of two maps, no normal of one patch is parallel, in the same direction, to a normal
of the other. -/
theorem C231_separated_partial (g : ℕ → ℝ) {inv : ℕ → (ℕ → ℕ → ℝ) → ℕ → ℕ → ℝ} (hinv : InvSpec inv) (P Q : Arr ℝ) (hn : P.n ≤ 16)
    (hm : P.m ≤ 16) (hn0 : 0 < P.n) (hm0 : 0 < P.m) (hn' : Q.n ≤ 16) (hm' : Q.m ≤ 16) (hn0' : 0 < Q.n) (hm0' : 0 < Q.m)
    (s t : ℕ → ℕ → ℝ) (hs : ∀ i j, 0 < s i j) (ht : ∀ i j, 0 < t i j) (p : ℕ → ℝ)
    (hp : ∀ i < 2 * P.n - 1, ∀ j < 2 * P.m - 1, 0 < ∑ d ∈ range 3, p d * ((gaussMap g inv P).get i j d / s i j))
    (hq : ∀ i < 2 * Q.n - 1, ∀ j < 2 * Q.m - 1, ∑ d ∈ range 3, p d * ((gaussMap g inv Q).get i j d / t i j) < 0)
    (u v u' v' : ℝ) (u0 : 0 ≤ u) (u1 : u ≤ 1) (v0 : 0 ≤ v) (v1 : v ≤ 1) (u0' : 0 ≤ u') (u1' : u' ≤ 1) (v0' : 0 ≤ v') (v1' : v' ≤ 1)
    (c : ℝ) (hc : 0 ≤ c) : ¬ ∀ d < 3, normal P u v d = c * normal Q u' v' d := by
  intro heq
  have a := C231_cone_partial g hinv P hn hm hn0 hm0 s hs p hp u v u0 u1 v0 v1
  have b := C231_cone_partial g hinv Q hn' hm' hn0' hm0' t ht (fun d => - p d) (by
    intro i hi j hj
    have := hq i hi j hj
    simp only [neg_mul, sum_neg_distrib]
    linarith) u' v' u0' u1' v0' v1'
  have e : ∑ d ∈ range 3, p d * normal P u v d = c * ∑ d ∈ range 3, p d * normal Q u' v' d := by
    rw [mul_sum]
    apply sum_congr rfl
    intro d hd
    rw [heq d (mem_range.1 hd)]
    ring
  simp only [neg_mul, sum_neg_distrib] at b
  rw [e] at a
  have := mul_nonneg hc (by linarith : 0 ≤ - ∑ d ∈ range 3, p d * normal Q u' v' d)
  linarith

/-! ## The map of unit vectors is not the Gauss map -/

/-- A polynomial in one variable which vanishes everywhere has no coefficients. -/
theorem poly_zero (n : ℕ) (a : ℕ → ℝ) (h : ∀ u : ℝ, ∑ i ∈ range n, a i * u ^ i = 0) : ∀ i < n, a i = 0 := by
  have hp : (∑ i ∈ range n, Polynomial.C (a i) * Polynomial.X ^ i) = 0 := by
    apply Polynomial.funext
    intro u
    rw [Polynomial.eval_finsetSum, Polynomial.eval_zero, ← h u]
    apply sum_congr rfl
    intro i _
    simp
  intro i hi
  have := congrArg (fun p => Polynomial.coeff p i) hp
  simp only [Polynomial.finsetSum_coeff, Polynomial.coeff_C_mul, Polynomial.coeff_X_pow, Polynomial.coeff_zero] at this
  rw [sum_eq_single i] at this
  · simpa using this
  · intro j _ hj
    rw [if_neg (Ne.symm hj), mul_zero]
  · intro hh
    exact absurd (mem_range.2 hi) hh

/-- The control points of a Bezier surface are determined by its values. -/
theorem bezier_unique (g : ℕ → ℝ) {inv : ℕ → (ℕ → ℕ → ℝ) → ℕ → ℕ → ℝ} (hinv : InvSpec inv) (P Q : Arr ℝ) (hn : P.n = Q.n) (hm : P.m = Q.m)
    (hn' : P.n ≤ 31) (hm' : P.m ≤ 31) (d : ℕ) (h : ∀ u v, evalBezier P u v d = evalBezier Q u v d) :
    ∀ i < P.n, ∀ j < P.m, P.get i j d = Q.get i j d := by
  have hmono : ∀ i < P.n, ∀ j < P.m, (bezierToMonomial g P).get i j d = (bezierToMonomial g Q).get i j d := by
    have hz : ∀ v u, ∑ i ∈ range P.n, (∑ j ∈ range P.m,
        ((bezierToMonomial g P).get i j d - (bezierToMonomial g Q).get i j d) * v ^ j) * u ^ i = 0 := by
      intro v u
      have e1 := Bez.C40_evaluate g P hn' hm' u v d
      have e2 := Bez.C40_evaluate g Q (by omega) (by omega) u v d
      have e3 : evalMonomial (bezierToMonomial g P) u v d - evalMonomial (bezierToMonomial g Q) u v d = 0 := by
        rw [e1, e2, h, sub_self]
      rw [← e3]
      unfold evalMonomial
      have s1 : (bezierToMonomial g P).n = P.n := rfl
      have s2 : (bezierToMonomial g P).m = P.m := rfl
      have s3 : (bezierToMonomial g Q).n = P.n := hn.symm
      have s4 : (bezierToMonomial g Q).m = P.m := hm.symm
      rw [s1, s2, s3, s4, ← sum_sub_distrib]
      apply sum_congr rfl; intro i _
      rw [sum_mul, ← sum_sub_distrib]
      apply sum_congr rfl; intro j _
      ring
    intro i hi j hj
    have h2 := fun v => poly_zero P.n _ (hz v) i hi
    have h3 := poly_zero P.m _ h2 j hj
    linarith
  intro i hi j hj
  rw [← Bez.C40_roundtrip g hinv P hn' hm' i j d hi hj, ← Bez.C40_roundtrip g hinv Q (by omega) (by omega) i j d (by omega) (by omega)]
  unfold monomialToBezier
  dsimp only
  have s1 : (bezierToMonomial g P).n = P.n := rfl
  have s2 : (bezierToMonomial g P).m = P.m := rfl
  have s3 : (bezierToMonomial g Q).n = P.n := hn.symm
  have s4 : (bezierToMonomial g Q).m = P.m := hm.symm
  rw [s1, s2, s3, s4]
  apply sum_congr rfl; intro b hb
  congr 1
  apply sum_congr rfl; intro a ha
  rw [hmono a (mem_range.1 ha) b (mem_range.1 hb)]

/-- A parabolic cylinder: `x = 4 u²`, `y = v`, `z = 2 u² - 4 u`. -/
def exP : Arr ℝ := ⟨3, 2, 3, fun i j d =>
  if d = 0 then (if i = 2 then 4 else 0) else if d = 1 then j else if i = 0 then 0 else -2⟩

/-- Its map: control vectors on the line from `(4, 0, 0)` to `(0, 0, 8)`. -/
def exQ : Arr ℝ := ⟨5, 3, 3, fun i _ d => if d = 0 then 4 - i else if d = 1 then 0 else 2 * i⟩

theorem exP_eval (u v : ℝ) : evalBezier exP u v 0 = 4 * u ^ 2 ∧ evalBezier exP u v 1 = v ∧
    evalBezier exP u v 2 = 2 * u ^ 2 - 4 * u := by
  refine ⟨?_, ?_, ?_⟩ <;>
  · simp [evalBezier, exP, sum_range_succ, Nat.choose]
    ring

theorem exP_su (u v : ℝ) : su exP u v 0 = 8 * u ∧ su exP u v 1 = 0 ∧ su exP u v 2 = 4 * u - 4 := by
  have h2 := hasDerivAt_pow 2 u
  refine ⟨?_, ?_, ?_⟩
  · unfold su
    simp only [(exP_eval _ _).1]
    rw [(h2.const_mul 4).deriv]
    push_cast
    ring
  · unfold su
    simp only [(exP_eval _ _).2.1]
    exact deriv_const _ _
  · unfold su
    simp only [(exP_eval _ _).2.2]
    have h3 : HasDerivAt (fun x : ℝ => 2 * x ^ 2 - 4 * x) (2 * (((2 : ℕ) : ℝ) * u ^ (2 - 1)) - 4 * 1) u :=
      (h2.const_mul 2).sub ((hasDerivAt_id' u).const_mul 4)
    rw [h3.deriv]
    push_cast
    ring

theorem exP_sv (u v : ℝ) : sv exP u v 0 = 0 ∧ sv exP u v 1 = 1 ∧ sv exP u v 2 = 0 := by
  refine ⟨?_, ?_, ?_⟩
  · unfold sv
    simp only [(exP_eval _ _).1]
    exact deriv_const _ _
  · unfold sv
    simp only [(exP_eval _ _).2.1]
    exact (hasDerivAt_id' v).deriv
  · unfold sv
    simp only [(exP_eval _ _).2.2]
    exact deriv_const _ _

theorem exP_normal (u v : ℝ) : normal exP u v 0 = 4 - 4 * u ∧ normal exP u v 1 = 0 ∧ normal exP u v 2 = 8 * u := by
  obtain ⟨a0, a1, a2⟩ := exP_su u v
  obtain ⟨b0, b1, b2⟩ := exP_sv u v
  unfold normal
  norm_num
  rw [a0, a1, a2, b0, b1, b2]
  refine ⟨by ring, by ring, by ring⟩

theorem exQ_eval (u v : ℝ) : evalBezier exQ u v 0 = 4 - 4 * u ∧ evalBezier exQ u v 1 = 0 ∧ evalBezier exQ u v 2 = 8 * u := by
  refine ⟨?_, ?_, ?_⟩ <;>
  · simp [evalBezier, exQ, sum_range_succ, Nat.choose]
    try ring

/-- The control vectors of the example. -/
theorem ex_map (g : ℕ → ℝ) {inv : ℕ → (ℕ → ℕ → ℝ) → ℕ → ℕ → ℝ} (hinv : InvSpec inv) :
    ∀ i < 5, ∀ j < 3, ∀ d < 3, (gaussMap g inv exP).get i j d = exQ.get i j d := by
  intro i hi j hj d hd
  refine bezier_unique g hinv (gaussMap g inv exP) exQ rfl rfl (by change 5 ≤ 31; omega) (by change 3 ≤ 31; omega) d ?_ i hi j hj
  intro u v
  rw [C230_gauss_map_partial g hinv exP (by decide) (by decide)]
  obtain ⟨a0, a1, a2⟩ := exP_normal u v
  obtain ⟨b0, b1, b2⟩ := exQ_eval u v
  interval_cases d
  · rw [a0, b0]
  · rw [a1, b1]
  · rw [a2, b2]

/-- `C231_cone_partial` for the example: all normals have positive products with `(1, 0, 1)`. -/
example (g : ℕ → ℝ) {inv : ℕ → (ℕ → ℕ → ℝ) → ℕ → ℕ → ℝ} (hinv : InvSpec inv) (u v : ℝ) (u0 : 0 ≤ u) (u1 : u ≤ 1) (v0 : 0 ≤ v) (v1 : v ≤ 1) :
    0 < ∑ d ∈ range 3, (fun d => if d = 1 then (0 : ℝ) else 1) d * normal exP u v d := by
  refine C231_cone_partial g hinv exP (by decide) (by decide) (by decide) (by decide) (fun _ _ => 1) (by simp) _ ?_ u v u0 u1 v0 v1
  intro i hi j hj
  change i < 5 at hi
  change j < 3 at hj
  have hi' : (0 : ℝ) ≤ i := Nat.cast_nonneg i
  simp only [sum_range_succ, sum_range_zero, ex_map g hinv i hi j hj 0 (by omega), ex_map g hinv i hi j hj 1 (by omega),
    ex_map g hinv i hi j hj 2 (by omega)]
  norm_num [exQ]
  linarith

/-- A square whose normal points down. -/
def exS : Arr ℝ := ⟨2, 2, 3, fun i j d => if d = 0 then j else if d = 1 then i else 0⟩

theorem exS_eval (u v : ℝ) : evalBezier exS u v 0 = v ∧ evalBezier exS u v 1 = u ∧ evalBezier exS u v 2 = 0 := by
  refine ⟨?_, ?_, ?_⟩ <;>
  · simp [evalBezier, exS, sum_range_succ, Nat.choose]
    try ring

theorem exS_normal (u v : ℝ) : normal exS u v 0 = 0 ∧ normal exS u v 1 = 0 ∧ normal exS u v 2 = -1 := by
  have a0 : su exS u v 0 = 0 := by unfold su; simp only [(exS_eval _ _).1]; exact deriv_const _ _
  have a1 : su exS u v 1 = 1 := by unfold su; simp only [(exS_eval _ _).2.1]; exact (hasDerivAt_id' u).deriv
  have a2 : su exS u v 2 = 0 := by unfold su; simp only [(exS_eval _ _).2.2]; exact deriv_const _ _
  have b0 : sv exS u v 0 = 1 := by unfold sv; simp only [(exS_eval _ _).1]; exact (hasDerivAt_id' v).deriv
  have b1 : sv exS u v 1 = 0 := by unfold sv; simp only [(exS_eval _ _).2.1]; exact deriv_const _ _
  have b2 : sv exS u v 2 = 0 := by unfold sv; simp only [(exS_eval _ _).2.2]; exact deriv_const _ _
  unfold normal
  norm_num
  rw [a0, a1, a2, b0, b1, b2]
  norm_num

theorem exS_map (g : ℕ → ℝ) {inv : ℕ → (ℕ → ℕ → ℝ) → ℕ → ℕ → ℝ} (hinv : InvSpec inv) :
    ∀ i < 3, ∀ j < 3, ∀ d < 3, (gaussMap g inv exS).get i j d = if d = 2 then -1 else 0 := by
  intro i hi j hj d hd
  refine bezier_unique g hinv (gaussMap g inv exS) ⟨3, 3, 3, fun _ _ d => if d = 2 then -1 else 0⟩ rfl rfl (by change 3 ≤ 31; omega)
    (by change 3 ≤ 31; omega) d ?_ i hi j hj
  intro u v
  rw [C230_gauss_map_partial g hinv exS (by decide) (by decide)]
  obtain ⟨a0, a1, a2⟩ := exS_normal u v
  interval_cases d
  · rw [a0]; simp [evalBezier]
  · rw [a1]; simp [evalBezier]
  · rw [a2]
    simp [evalBezier, sum_range_succ, Nat.choose]
    ring

/-- `C231_separated_partial` for the cylinder and the square. -/
example (g : ℕ → ℝ) {inv : ℕ → (ℕ → ℕ → ℝ) → ℕ → ℕ → ℝ} (hinv : InvSpec inv) (u v u' v' : ℝ) (u0 : 0 ≤ u) (u1 : u ≤ 1) (v0 : 0 ≤ v)
    (v1 : v ≤ 1) (u0' : 0 ≤ u') (u1' : u' ≤ 1) (v0' : 0 ≤ v') (v1' : v' ≤ 1) (c : ℝ) (hc : 0 ≤ c) :
    ¬ ∀ d < 3, normal exP u v d = c * normal exS u' v' d := by
  refine C231_separated_partial g hinv exP exS (by decide) (by decide) (by decide) (by decide) (by decide) (by decide) (by decide)
    (by decide) (fun _ _ => 1) (fun _ _ => 1) (by simp) (by simp) (fun d => if d = 1 then (0 : ℝ) else 1) ?_ ?_ u v u' v' u0 u1 v0 v1
    u0' u1' v0' v1' c hc
  · intro i hi j hj
    change i < 5 at hi
    change j < 3 at hj
    have hi' : (0 : ℝ) ≤ i := Nat.cast_nonneg i
    simp only [sum_range_succ, sum_range_zero, ex_map g hinv i hi j hj 0 (by omega), ex_map g hinv i hi j hj 1 (by omega),
      ex_map g hinv i hi j hj 2 (by omega)]
    norm_num [exQ]
    linarith
  · intro i hi j hj
    change i < 3 at hi
    change j < 3 at hj
    simp only [sum_range_succ, sum_range_zero, exS_map g hinv i hi j hj 0 (by omega), exS_map g hinv i hi j hj 1 (by omega),
      exS_map g hinv i hi j hj 2 (by omega)]
    norm_num

/-- The length of a vector. -/
noncomputable def nrm3 (x y z : ℝ) : ℝ := Real.sqrt (x ^ 2 + y ^ 2 + z ^ 2)

/-- **C231 fails** for the children of `GaussMap.subdivide`: they are halves of the map of unit vectors, and these do not bound the
normals of the halves of the patch.  The patch is a parabolic cylinder; the vector `p` has products which are not negative
with all control vectors of the first half of the map (in the other direction the control vectors are all the same), and a
negative product with the normal at the end of the first half of the patch. -/
theorem C231_child_refuted (g : ℕ → ℝ) {inv : ℕ → (ℕ → ℕ → ℝ) → ℕ → ℕ → ℝ} (hinv : InvSpec inv) :
    ∃ (P U : Arr ℝ) (p : ℕ → ℝ), unitMap nrm3 (gaussMap g inv P) = some U ∧
      (∀ k < U.n, ∀ j < U.m, 0 ≤ ∑ d ∈ range 3, p d * leftHalf (fun i => U.get i j d) k) ∧
      ∀ v, ∑ d ∈ range 3, p d * normal P (1 / 2) v d < 0 := by
  have hq := ex_map g hinv
  -- lengths of the control vectors
  have hr : ∀ i < 5, ∀ j < 3, nrm3 ((gaussMap g inv exP).get i j 0) ((gaussMap g inv exP).get i j 1) ((gaussMap g inv exP).get i j 2) =
      Real.sqrt ((4 - i) ^ 2 + (2 * i) ^ 2) := by
    intro i hi j hj
    rw [hq i hi j hj 0 (by omega), hq i hi j hj 1 (by omega), hq i hi j hj 2 (by omega)]
    unfold nrm3 exQ
    norm_num
  have r0 : Real.sqrt ((4 - ((0 : ℕ) : ℝ)) ^ 2 + (2 * ((0 : ℕ) : ℝ)) ^ 2) = 4 := by
    rw [show (4 - ((0 : ℕ) : ℝ)) ^ 2 + (2 * ((0 : ℕ) : ℝ)) ^ 2 = 4 ^ 2 by norm_num]
    exact Real.sqrt_sq (by norm_num)
  have r4 : Real.sqrt ((4 - ((4 : ℕ) : ℝ)) ^ 2 + (2 * ((4 : ℕ) : ℝ)) ^ 2) = 8 := by
    rw [show (4 - ((4 : ℕ) : ℝ)) ^ 2 + (2 * ((4 : ℕ) : ℝ)) ^ 2 = 8 ^ 2 by norm_num]
    exact Real.sqrt_sq (by norm_num)
  have r1 : Real.sqrt ((4 - ((1 : ℕ) : ℝ)) ^ 2 + (2 * ((1 : ℕ) : ℝ)) ^ 2) = Real.sqrt 13 := by norm_num
  have r2 : Real.sqrt ((4 - ((2 : ℕ) : ℝ)) ^ 2 + (2 * ((2 : ℕ) : ℝ)) ^ 2) = Real.sqrt 20 := by norm_num
  have r3 : Real.sqrt ((4 - ((3 : ℕ) : ℝ)) ^ 2 + (2 * ((3 : ℕ) : ℝ)) ^ 2) = Real.sqrt 37 := by norm_num
  have b13 : (3.6 : ℝ) < Real.sqrt 13 ∧ Real.sqrt 13 < 3.61 :=
    ⟨Real.lt_sqrt_of_sq_lt (by norm_num), (Real.sqrt_lt' (by norm_num)).2 (by norm_num)⟩
  have b20 : (4.47 : ℝ) < Real.sqrt 20 ∧ Real.sqrt 20 < 4.48 :=
    ⟨Real.lt_sqrt_of_sq_lt (by norm_num), (Real.sqrt_lt' (by norm_num)).2 (by norm_num)⟩
  have b37 : (6.08 : ℝ) < Real.sqrt 37 ∧ Real.sqrt 37 < 6.09 :=
    ⟨Real.lt_sqrt_of_sq_lt (by norm_num), (Real.sqrt_lt' (by norm_num)).2 (by norm_num)⟩
  have inv' : ∀ r lo hi : ℝ, 0 < lo → lo < r → r < hi → 1 / hi < 1 / r ∧ 1 / r < 1 / lo := by
    intro r lo hi h0 h1 h2
    exact ⟨one_div_lt_one_div_of_lt (by linarith) h2, one_div_lt_one_div_of_lt h0 h1⟩
  obtain ⟨i13, j13⟩ := inv' _ _ _ (by norm_num) b13.1 b13.2
  obtain ⟨i20, j20⟩ := inv' _ _ _ (by norm_num) b20.1 b20.2
  obtain ⟨i37, j37⟩ := inv' _ _ _ (by norm_num) b37.1 b37.2
  set s13 := 1 / Real.sqrt 13 with h13
  set s20 := 1 / Real.sqrt 20 with h20
  set s37 := 1 / Real.sqrt 37 with h37
  norm_num at i13 j13 i20 j20 i37 j37
  -- the components of the unit vectors
  let xs : ℕ → ℝ := fun i => if i = 0 then 1 else if i = 1 then 3 * s13 else if i = 2 then 2 * s20 else if i = 3 then s37 else 0
  let zs : ℕ → ℝ := fun i => if i = 0 then 0 else if i = 1 then 2 * s13 else if i = 2 then 4 * s20 else if i = 3 then 6 * s37 else 1
  let U : Arr ℝ := ⟨5, 3, 3, fun i j d => (gaussMap g inv exP).get i j d /
    nrm3 ((gaussMap g inv exP).get i j 0) ((gaussMap g inv exP).get i j 1) ((gaussMap g inv exP).get i j 2)⟩
  have hU : ∀ i < 5, ∀ j < 3, U.get i j 0 = xs i ∧ U.get i j 1 = 0 ∧ U.get i j 2 = zs i := by
    intro i hi j hj
    have e0 : U.get i j 0 = exQ.get i j 0 / Real.sqrt ((4 - i) ^ 2 + (2 * i) ^ 2) := by
      rw [← hr i hi j hj, ← hq i hi j hj 0 (by omega)]
    have e1 : U.get i j 1 = exQ.get i j 1 / Real.sqrt ((4 - i) ^ 2 + (2 * i) ^ 2) := by
      rw [← hr i hi j hj, ← hq i hi j hj 1 (by omega)]
    have e2 : U.get i j 2 = exQ.get i j 2 / Real.sqrt ((4 - i) ^ 2 + (2 * i) ^ 2) := by
      rw [← hr i hi j hj, ← hq i hi j hj 2 (by omega)]
    rw [e0, e1, e2]
    interval_cases i
    · rw [r0]
      norm_num [exQ, xs, zs]
    · rw [r1]
      norm_num [exQ, xs, zs]
      rw [h13]
      constructor <;> ring
    · rw [r2]
      norm_num [exQ, xs, zs]
      rw [h20]
      constructor <;> ring
    · rw [r3]
      norm_num [exQ, xs, zs]
      rw [h37]
      constructor <;> ring
    · rw [r4]
      norm_num [exQ, xs, zs]
  have hL : ∀ k < 5, ∀ j < 3, leftHalf (fun i => U.get i j 0) k = leftHalf xs k ∧ leftHalf (fun i => U.get i j 1) k = 0 ∧
      leftHalf (fun i => U.get i j 2) k = leftHalf zs k := by
    intro k hk j hj
    unfold leftHalf
    refine ⟨?_, ?_, ?_⟩
    · congr 1
      apply sum_congr rfl
      intro i hi
      beta_reduce
      rw [(hU i (by have := mem_range.1 hi; omega) j hj).1]
    · rw [sum_eq_zero, zero_div]
      intro i hi
      beta_reduce
      rw [(hU i (by have := mem_range.1 hi; omega) j hj).2.1, mul_zero]
    · congr 1
      apply sum_congr rfl
      intro i hi
      beta_reduce
      rw [(hU i (by have := mem_range.1 hi; omega) j hj).2.2]
  refine ⟨exP, U, fun d => if d = 0 then leftHalf zs 4 else if d = 1 then 0 else - leftHalf xs 4, ?_, ?_, ?_⟩
  · unfold unitMap
    rw [if_pos]
    · rfl
    · intro i hi j hj
      change i < 5 at hi
      change j < 3 at hj
      rw [hr i hi j hj]
      apply ne_of_gt
      apply Real.sqrt_pos.2
      have h1 : (0 : ℝ) ≤ (2 * (i : ℝ)) ^ 2 := by positivity
      rcases Nat.eq_zero_or_pos i with rfl | hpos
      · norm_num
      · have : (0 : ℝ) < i := Nat.cast_pos.2 hpos
        positivity
  · intro k hk j hj
    change k < 5 at hk
    change j < 3 at hj
    obtain ⟨l0, l1, l2⟩ := hL k hk j hj
    simp only [sum_range_succ, sum_range_zero]
    norm_num
    rw [l0, l2]
    have hx4 : 0 ≤ leftHalf xs 4 := by
      simp [leftHalf, sum_range_succ, xs, Nat.choose]
      linarith
    have hz4 : 0 ≤ leftHalf zs 4 := by
      simp [leftHalf, sum_range_succ, zs, Nat.choose]
      linarith
    have hx : leftHalf xs 4 ≤ leftHalf xs k := by
      interval_cases k <;> simp [leftHalf, sum_range_succ, xs, Nat.choose] <;> linarith
    have hz : leftHalf zs k ≤ leftHalf zs 4 := by
      interval_cases k <;> simp [leftHalf, sum_range_succ, zs, Nat.choose] <;> linarith
    nlinarith [mul_le_mul_of_nonneg_left hx hz4, mul_le_mul_of_nonneg_left hz hx4]
  · intro v
    obtain ⟨a0, a1, a2⟩ := exP_normal (1 / 2) v
    simp only [sum_range_succ, sum_range_zero]
    rw [a0, a1, a2]
    norm_num [leftHalf, sum_range_succ, xs, zs, Nat.choose]
    linarith

end Verif.Gm
