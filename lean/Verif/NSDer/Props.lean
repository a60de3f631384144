import Verif.NSDer.Mixed
import Verif.NSDer.Quot
import Verif.Nurbs.Props3
import Verif.NDer.Props

/-! # Derivatives of surfaces -/

set_option linter.unusedSectionVars false

namespace Verif.NSDer
open Finset Polynomial Verif.Nurbs Verif.NDer Filter Topology
variable {K : Type} [Field K] [LinearOrder K] [IsStrictOrderedRing K]

/-! ## C127: surface_derivatives -/

/-- The number that a caller reads. -/
def num (o : Option K) : K := o.getD 0

/-- C127 (partial), polynomial form: before the right ends of the domain, entry `(k, l)` is the mixed derivative of order
`(k, l)` of the tensor product spline: on the patch of the parameters the spline is a sum of products of polynomials, and the
entry is the sum of the products of their derivatives.  Missing: the right ends. -/
theorem C127_surface_derivatives_partial (S : Surf K) (hS : SValid S) (hdu : 1 ≤ S.pu) (hdv : 1 ≤ S.pv) (fuel : Nat)
    (hfu : S.nu + 1 ≤ fuel) (hfv : S.nv + 1 ≤ fuel) (g0 : Nat → Nat → K) (u v : K) (hu1 : S.U S.pu ≤ u) (hu2 : u < S.U S.nu)
    (hv1 : S.V S.pv ≤ v) (hv2 : v < S.V S.nv) (col : Nat) :
    ∃ (us vs : Nat) (a : Nat → K[X]) (b : Nat → K[X]) (q : Nat → Nat → K), Sp S.U S.nu u us ∧ Sp S.V S.nv v vs ∧
      (∀ x y, Sp S.U S.nu x us → Sp S.V S.nv y vs → surfVal S col x y =
        ∑ s ∈ range (S.pv + 1), ∑ r ∈ range (S.pu + 1), q r s * (a r).eval x * (b s).eval y) ∧
      ∀ order k l, k ≤ order → l ≤ order → surfaceDerivatives S fuel g0 u v order k l col =
        some (∑ s ∈ range (S.pv + 1), ∑ r ∈ range (S.pu + 1), q r s * (Polynomial.derivative^[k] (a r)).eval u *
          (Polynomial.derivative^[l] (b s)).eval v) := by
  obtain ⟨us, eu, hpu, hu⟩ := findSpan_more S.uCurve hS.u hdu fuel hfu u hu1 hu2
  obtain ⟨vs, ev, hpv, hv⟩ := findSpan_more S.vCurve hS.v hdv fuel hfv v hv1 hv2
  refine ⟨us, vs, fun r => coxP us S.U S.pu (us - S.pu + r), fun s => coxP vs S.V S.pv (vs - S.pv + s),
    fun r s => S.P (us - S.pu + r) (vs - S.pv + s) col, hu, hv, fun x y hx hy => ?_, fun order k l hk hl => ?_⟩
  · rw [← mixed_val S hS us vs col x y hpu hpv hx hy, mixed_sum]
    rfl
  · rw [surfDer_eq S hS fuel g0 u v us vs eu ev hpu hpv hu hv order k l col hk hl, mixed_sum]

/-- C127 fails at the right end of every clamped surface: the span search is given one control point too many and returns a
span without extent, so every entry is NaN or read from outside of the control points. -/
theorem C127_end_refuted (S : Surf K) (fuel : Nat) (g0 : Nat → Nat → K) (v : K)
    (hcl : S.U S.nu = S.U (S.nu + 1)) (order k l col : Nat) :
    surfaceDerivatives S fuel g0 (S.U S.nu) v order k l col = none := by
  rw [surfaceDerivatives, findSpan_end fuel S.nu S.pu (S.U S.nu) S.U (by rw [hcl])]
  cases findSpan fuel S.nv S.pv v S.V false with
  | none => rfl
  | some vs => simp only; rw [if_pos (.inl hcl)]

theorem C127_end_v_refuted (S : Surf K) (fuel : Nat) (g0 : Nat → Nat → K) (u : K)
    (hcl : S.V S.nv = S.V (S.nv + 1)) (order k l col : Nat) :
    surfaceDerivatives S fuel g0 u (S.V S.nv) order k l col = none := by
  rw [surfaceDerivatives, findSpan_end fuel S.nv S.pv (S.V S.nv) S.V (by rw [hcl])]
  cases findSpan fuel S.nu S.pu u S.U false with
  | none => rfl
  | some us => simp only; rw [if_pos (.inr (.inl hcl))]

/-- The example surface: mixed derivative inside, nothing at the end, where `evaluate` works. -/
example : surfaceDerivatives exSurf 6 (fun _ _ => 99) (1 / 2) 2 2 1 1 0 = some (11 / 4) ∧
    surfaceDerivatives exSurf 6 (fun _ _ => 99) 2 2 2 0 0 0 = none ∧ exSurf.evaluate 6 2 2 0 = some (133 / 11) := by
  refine ⟨by decide +kernel, by decide +kernel, by decide +kernel⟩

/-! ## C128: rat_surface_derivs -/

/-- C128, algebraic form: from the entries of a product `A = W S` under Leibniz' rule, `rat_surface_derivs` finds the entries of
`S`. -/
theorem C128_leibniz (g : Nat → K) (A W X R0 : Nat → Nat → K) (order : Nat) (ho : order ≤ 30) (hW : W 0 0 ≠ 0)
    (h : ∀ k l, k ≤ order → l ≤ order → A k l = ∑ i ∈ range (k + 1), ∑ j ∈ range (l + 1),
      (k.choose i : K) * (l.choose j : K) * W i j * X (k - i) (l - j)) (k l : Nat) (hk : k ≤ order) (hl : l ≤ order) :
    ratSurfaceDerivs g A W order R0 k l = X k l :=
  leib_unique W _ X hW order order (fun k l hk hl => by rw [← rat_leib g A W order ho R0 hW k l hk hl, h k l hk hl]; rfl)
    k l hk hl

/-- Nothing else in the output is written. -/
theorem C128_rest (g : Nat → K) (A W R0 : Nat → Nat → K) (order k l : Nat) (h : order < k ∨ order < l) :
    ratSurfaceDerivs g A W order R0 k l = R0 k l :=
  (rat_spec g A W order R0 (order + 1)).1 k l (by omega)

/-- `W = 2 + u + 3 v` and `S = 5 + 7 u v` at the origin: `A_{11} = 2 * 7`, `A_{10} = 5`, `A_{01} = 15`. -/
example : let W : Nat → Nat → ℚ := fun i j => if i = 0 ∧ j = 0 then 2 else if i = 1 ∧ j = 0 then 1 else if i = 0 ∧ j = 1 then 3 else 0
    let A : Nat → Nat → ℚ := fun i j => if i = 0 ∧ j = 0 then 10 else if i = 1 ∧ j = 0 then 5 else if i = 0 ∧ j = 1 then 15
      else if i = 1 ∧ j = 1 then 14 else 0
    ratSurfaceDerivs (fun _ => 0) A W 1 (fun _ _ => 0) 1 1 = 7 ∧ ratSurfaceDerivs (fun _ => 0) A W 1 (fun _ _ => 0) 1 0 = 0 := by
  refine ⟨by decide +kernel, by decide +kernel⟩

/-- The two functions of the library one after the other: entry `(k, l)` of the derivatives of the rational surface. -/
def rational (S : Surf K) (fuel : Nat) (g0 : Nat → Nat → K) (g : Nat → K) (R0 : Nat → Nat → K) (order col : Nat) (u v : K)
    (k l : Nat) : K :=
  ratSurfaceDerivs g (fun k l => num (surfaceDerivatives S fuel g0 u v order k l col))
    (fun k l => num (surfaceDerivatives S fuel g0 u v order k l 3)) order R0 k l

/-! ## C129: surface_deriv_cpts -/

theorem cptD_shift (p : Nat) (U P : Nat → K) (a : Nat) : ∀ k j, cptD p (fun i => U (a + i)) P 0 k j =
    cptD p U (fun b => P (b - a)) a k j := by
  intro k
  induction k with
  | zero => intro j; simp only [cptD, Nat.zero_add, Nat.add_sub_cancel_left]
  | succ k ih =>
    intro j
    rw [cptD, cptD, ih, ih]
    simp only [Nat.zero_add, Nat.add_assoc]

theorem cptD_congr (p : Nat) (U P Q : Nat → K) (a n : Nat) (h : ∀ i, i ≤ n → P (a + i) = Q (a + i)) : ∀ k j, k + j ≤ n →
    cptD p U P a k j = cptD p U Q a k j := by
  intro k
  induction k with
  | zero => intro j hj; exact h j (by omega)
  | succ k ih => intro j hj; rw [cptD, cptD, ih _ (by omega), ih _ (by omega)]

/-- The points for the window of a patch, against the pieces of the basis functions. -/
theorem cpts_mixed (S : Surf K) (hS : SValid S) (us vs : Nat) (hpu : S.pu ≤ us) (hpv : S.pv ≤ vs) (x y : K)
    (hx : Sp S.U S.nu x us) (hy : Sp S.V S.nv y vs) (hbuf : S.pv < S.nu) (order k l : Nat) (ho : order ≤ S.pu)
    (hkl : k + l ≤ order) (hl : l ≤ S.pv) (col : Nat) :
    ∑ j ∈ range (S.pv - l + 1), ∑ i ∈ range (S.pu - k + 1),
      num (surfaceDerivCpts S col (us - S.pu) us (vs - S.pv) vs order k l i j) *
        bspl S.U S.nu x (S.pu - k) (us - (S.pu - k) + i) * bspl S.V S.nv y (S.pv - l) (vs - (S.pv - l) + j) =
      ∑ s ∈ range (S.pv + 1), ∑ r ∈ range (S.pu + 1), S.P (us - S.pu + r) (vs - S.pv + s) col *
        (Polynomial.derivative^[k] (coxP us S.U S.pu (us - S.pu + r))).eval x *
        (Polynomial.derivative^[l] (coxP vs S.V S.pv (vs - S.pv + s))).eval y := by
  have ku := hS.u.knots
  have kv := hS.v.knots
  have nu := hS.u.npos
  have nv := hS.v.npos
  simp only [Surf.uCurve, Surf.vCurve] at ku kv nu nv
  have hu := hx.1
  have hv := hy.1
  rw [← mixed_sum, mixed, iterate_splineP S.V S.mv hS.v.mono vs hy.2.1 S.pv hpv (by omega) _ l hl, eval_finsetSum]
  refine sum_congr rfl fun j hj => ?_
  have hj := mem_range.1 hj
  rw [eval_mul, eval_C, eval_coxP, ← bspl_eq S.V S.nv S.mv hS.v.mono (by omega) hS.v.last y vs hy, ← sum_mul]
  congr 1
  have hU : ∀ i b, k + i ≤ S.pu → b ≤ S.pv → uCpts S col (us - S.pu) us (vs - S.pv) order k i b =
      cptD S.pu S.U (fun a => S.P a (vs - S.pv + b) col) (us - S.pu) k i := by
    intro i b hi hb
    rw [uCpts]
    rw [if_pos ⟨by omega, by omega⟩, curveDerivCpts_eq _ _ _ _ _ _ _ _ _ (by omega) (by omega)]
  have hE : ∀ i, k + i ≤ S.pu → num (surfaceDerivCpts S col (us - S.pu) us (vs - S.pv) vs order k l i j) =
      cptD S.pv S.V (fun b => cptD S.pu S.U (fun a => S.P a b col) (us - S.pu) k i) (vs - S.pv) l j := by
    intro i hi
    rw [surfaceDerivCpts]
    rw [if_neg (by omega)]
    by_cases h0 : l = 0
    · subst h0
      rw [if_pos rfl, if_pos (by omega), hU i j hi (by omega)]
      rfl
    · rw [if_neg h0, if_pos ⟨by omega, by omega, by omega, by omega⟩, curveDerivCpts_eq _ _ _ _ _ _ _ _ _ (by omega) (by omega),
        cptD_shift]
      refine cptD_congr _ _ _ _ _ S.pv (fun b hb => ?_) l j (by omega)
      rw [Nat.add_sub_cancel_left, hU i b hi hb]
  have lin : ∀ (f : Nat → Nat → K) (c : Nat → K) (n l j : Nat), ∑ i ∈ range n, cptD S.pv S.V (f i) (vs - S.pv) l j * c i =
      cptD S.pv S.V (fun b => ∑ i ∈ range n, f i b * c i) (vs - S.pv) l j := by
    intro f c n l
    induction l with
    | zero => intro j; rfl
    | succ l ih =>
      intro j
      rw [cptD, ← ih, ← ih, ← sum_sub_distrib, mul_sum, sum_div]
      refine sum_congr rfl fun i _ => ?_
      rw [cptD]
      ring
  have e : ∀ i ∈ range (S.pu - k + 1), num (surfaceDerivCpts S col (us - S.pu) us (vs - S.pv) vs order k l i j) *
      bspl S.U S.nu x (S.pu - k) (us - (S.pu - k) + i) =
      cptD S.pv S.V (fun b => cptD S.pu S.U (fun a => S.P a b col) (us - S.pu) k i) (vs - S.pv) l j *
        bspl S.U S.nu x (S.pu - k) (us - (S.pu - k) + i) := by
    intro i hi
    have := mem_range.1 hi
    rw [hE i (by omega)]
  rw [sum_congr rfl e, lin (fun i b => cptD S.pu S.U (fun a => S.P a b col) (us - S.pu) k i)]
  congr 1
  funext b
  rw [iterate_splineP S.U S.mu hS.u.mono us hx.2.1 S.pu hpu (by omega) _ k (by omega), eval_finsetSum]
  refine sum_congr rfl fun i _ => ?_
  rw [eval_mul, eval_C, eval_coxP, ← bspl_eq S.U S.nu S.mu hS.u.mono (by omega) hS.u.last x us hx]

/-- C129 (partial): for orders up to the degree in the first direction (and a buffer that is large enough), the points of
`surface_deriv_cpts` for the window of a patch are the control points of all mixed derivatives up to the order: with the basis
functions of the lower degrees they give the mixed derivative of the spline everywhere on the patch. -/
theorem C129_control_points_partial (S : Surf K) (hS : SValid S) (us vs : Nat) (hpu : S.pu ≤ us) (hpv : S.pv ≤ vs)
    (hbuf : S.pv < S.nu) (col : Nat) :
    ∃ (a b : Nat → K[X]) (q : Nat → Nat → K),
      (∀ x y, Sp S.U S.nu x us → Sp S.V S.nv y vs → surfVal S col x y =
        ∑ s ∈ range (S.pv + 1), ∑ r ∈ range (S.pu + 1), q r s * (a r).eval x * (b s).eval y) ∧
      ∀ x y order k l, Sp S.U S.nu x us → Sp S.V S.nv y vs → order ≤ S.pu → k + l ≤ order → l ≤ S.pv →
        ∑ j ∈ range (S.pv - l + 1), ∑ i ∈ range (S.pu - k + 1),
          num (surfaceDerivCpts S col (us - S.pu) us (vs - S.pv) vs order k l i j) *
            bspl S.U S.nu x (S.pu - k) (us - (S.pu - k) + i) * bspl S.V S.nv y (S.pv - l) (vs - (S.pv - l) + j) =
          ∑ s ∈ range (S.pv + 1), ∑ r ∈ range (S.pu + 1), q r s * (Polynomial.derivative^[k] (a r)).eval x *
            (Polynomial.derivative^[l] (b s)).eval y := by
  refine ⟨fun r => coxP us S.U S.pu (us - S.pu + r), fun s => coxP vs S.V S.pv (vs - S.pv + s),
    fun r s => S.P (us - S.pu + r) (vs - S.pv + s) col, fun x y hx hy => ?_, fun x y order k l hx hy ho hkl hl => ?_⟩
  · rw [← mixed_val S hS us vs col x y hpu hpv hx hy, mixed_sum]
    rfl
  · exact cpts_mixed S hS us vs hpu hpv x y hx hy hbuf order k l ho hkl hl col

/-- C129 fails above the degree in the first direction: the loop over `k` stops before the degree, so all control points of
the derivatives of order `(pu, l)`, `l ≥ 1`, are zero, for every surface. -/
theorem C129_last_order_refuted (S : Surf K) (col r0 r1 s0 s1 order l i j : Nat) (ho : S.pu < order) (hl : 1 ≤ l)
    (hbuf : s1 - s0 < S.nu) : surfaceDerivCpts S col r0 r1 s0 s1 order S.pu l i j = some 0 := by
  rw [surfaceDerivCpts]
  rw [if_neg (by omega), if_neg (by omega), if_neg (by omega)]

/-- The surface `z = u v` has mixed derivative 1. -/
def bilinear : Surf ℚ :=
  { pu := 1, pv := 1, nu := 2, nv := 2, mu := 4, mv := 4, U := kvec [0, 0, 1, 1], V := kvec [0, 0, 1, 1]
    P := fun i j c => if c = 3 then 1 else (i : ℚ) * j }

example : surfaceDerivatives bilinear 3 (fun _ _ => 0) (1 / 2) (1 / 3) 2 1 1 0 = some 1 ∧
    surfaceDerivCpts bilinear 0 0 1 0 1 2 1 1 0 0 = some 0 := by
  refine ⟨by decide +kernel, by decide +kernel⟩

/-- C129 fails for windows of more rows than there are control points in the first direction: a buffer is overrun. -/
theorem C129_buffer_refuted (S : Surf K) (col r0 r1 s0 s1 order k l i j : Nat) (hp : 1 ≤ S.pu) (ho : 1 ≤ order)
    (hbuf : S.nu < s1 - s0 + 1) : surfaceDerivCpts S col r0 r1 s0 s1 order k l i j = none := by
  rw [surfaceDerivCpts]
  rw [if_pos ⟨by omega, hbuf⟩]

example : surfaceDerivCpts exSurf 0 0 2 1 2 2 1 1 0 0 = some 3 ∧
    surfaceDerivCpts { bilinear with pv := 2, nv := 3, V := kvec [0, 0, 0, 1, 1, 1], mv := 6 } 0 0 1 0 2 1 0 0 0 0 = none := by
  refine ⟨by decide +kernel, by decide +kernel⟩

section real

/-- On a patch, the mixed derivatives are derivatives of each other. -/
theorem mixed_deriv_v (S : Surf ℝ) (us vs col k l : Nat) (x y : ℝ) :
    HasDerivAt (fun t => mixed S us vs col k l x t) (mixed S us vs col k (l + 1) x y) y := by
  simp only [mixed]
  rw [Function.iterate_succ_apply']
  exact Polynomial.hasDerivAt _ y

theorem mixed_deriv_u (S : Surf ℝ) (us vs col k l : Nat) (x y : ℝ) :
    HasDerivAt (fun t => mixed S us vs col k l t y) (mixed S us vs col (k + 1) l x y) x := by
  simp only [mixed_swap]
  rw [Function.iterate_succ_apply']
  exact Polynomial.hasDerivAt _ x

/-- What both directions need: on the patch the entries are those of `mixed`, and they satisfy Leibniz' rule. -/
theorem patch (S : Surf ℝ) (hS : SValid S) (hdu : 1 ≤ S.pu) (hdv : 1 ≤ S.pv) (fuel : Nat)
    (hfu : S.nu + 1 ≤ fuel) (hfv : S.nv + 1 ≤ fuel) (g0 : Nat → Nat → ℝ) (us vs : Nat) (hpu : S.pu ≤ us) (hpv : S.pv ≤ vs)
    (x y : ℝ) (hx : Sp S.U S.nu x us) (hy : Sp S.V S.nv y vs) (hx' : x < S.U S.nu) (hy' : y < S.V S.nv)
    (order k l col : Nat) (hk : k ≤ order) (hl : l ≤ order) :
    surfaceDerivatives S fuel g0 x y order k l col = some (mixed S us vs col k l x y) := by
  have d1 := sp_dom hS.u (i := us) hpu hx
  have d2 := sp_dom hS.v (i := vs) hpv hy
  obtain ⟨i, ei, _, hi⟩ := findSpan_more S.uCurve hS.u hdu fuel hfu x d1.1 hx'
  obtain ⟨j, ej, _, hj⟩ := findSpan_more S.vCurve hS.v hdv fuel hfv y d2.1 hy'
  have ku := hS.u.knots
  have kv := hS.v.knots
  have := sp_unique S.U S.nu S.mu hS.u.mono (by simp only [Surf.uCurve] at ku; omega) x i us hi hx
  have := sp_unique S.V S.nv S.mv hS.v.mono (by simp only [Surf.vCurve] at kv; omega) y j vs hj hy
  subst i j
  exact surfDer_eq S hS fuel g0 x y us vs ei ej hpu hpv hx hy order k l col hk hl

theorem rat_congr (g : Nat → ℝ) (A W A' W' R0 : Nat → Nat → ℝ) (order : Nat) (ho : order ≤ 30) (hW : W 0 0 ≠ 0)
    (hA : ∀ k l, k ≤ order → l ≤ order → A k l = A' k l) (hW' : ∀ k l, k ≤ order → l ≤ order → W k l = W' k l)
    (k l : Nat) (hk : k ≤ order) (hl : l ≤ order) :
    ratSurfaceDerivs g A W order R0 k l = ratSurfaceDerivs g A' W' order R0 k l := by
  have hW0 : W' 0 0 ≠ 0 := by rw [← hW' 0 0 (by omega) (by omega)]; exact hW
  refine C128_leibniz g A W _ R0 order ho hW (fun k l hk hl => ?_) k l hk hl
  rw [hA k l hk hl, rat_leib g A' W' order ho R0 hW0 k l hk hl, leib]
  refine sum_congr rfl fun i hi => sum_congr rfl fun j hj => ?_
  have := mem_range.1 hi
  have := mem_range.1 hj
  rw [hW' i j (by omega) (by omega)]

/-- C128 without derivatives: entry `(0, 0)` is the point of the surface. -/
theorem C128_value_partial (S : Surf ℝ) (hS : SValid S) (hdu : 1 ≤ S.pu) (hdv : 1 ≤ S.pv) (fuel : Nat)
    (hfu : S.nu + 1 ≤ fuel) (hfv : S.nv + 1 ≤ fuel) (g0 : Nat → Nat → ℝ) (g : Nat → ℝ) (R0 : Nat → Nat → ℝ) (u v : ℝ)
    (hu1 : S.U S.pu ≤ u) (hu2 : u < S.U S.nu) (hv1 : S.V S.pv ≤ v) (hv2 : v < S.V S.nv) (hw : surfVal S 3 u v ≠ 0)
    (order : Nat) (ho : order ≤ 30) (col : Nat) :
    S.evaluate fuel u v col = some (rational S fuel g0 g R0 order col u v 0 0) := by
  obtain ⟨us, eu, hpu, hu⟩ := findSpan_more S.uCurve hS.u hdu fuel hfu u hu1 hu2
  obtain ⟨vs, ev, hpv, hv⟩ := findSpan_more S.vCurve hS.v hdv fuel hfv v hv1 hv2
  have e : ∀ c, surfaceDerivatives S fuel g0 u v order 0 0 c = some (surfVal S c u v) := fun c => by
    rw [surfDer_eq S hS fuel g0 u v us vs eu ev hpu hpv hu hv order 0 0 c (by omega) (by omega), mixed_val S hS us vs c u v hpu hpv hu hv]
  rw [surf_evaluate S hS fuel (by omega) (by omega) u v hu1 hu2.le hv1 hv2.le col]
  have h := rat_leib g (fun k l => num (surfaceDerivatives S fuel g0 u v order k l col))
    (fun k l => num (surfaceDerivatives S fuel g0 u v order k l 3)) order ho R0 (by rw [e]; exact hw) 0 0 (by omega) (by omega)
  simp only [leib, e, zero_add, sum_range_one, Nat.choose_zero_right, Nat.cast_one, one_mul, Nat.sub_zero] at h
  rw [rational]
  congr 1
  have h' : surfVal S col u v = surfVal S 3 u v * _ := h
  rw [h', mul_div_cancel_left₀ _ hw]

/-- The general form of C128 in the first direction: `s` is a set in which parameters near `u` stay on the span of `u`. -/
theorem rational_deriv_u (S : Surf ℝ) (hS : SValid S) (hdu : 1 ≤ S.pu) (hdv : 1 ≤ S.pv) (fuel : Nat)
    (hfu : S.nu + 1 ≤ fuel) (hfv : S.nv + 1 ≤ fuel) (g0 : Nat → Nat → ℝ) (g : Nat → ℝ) (R0 : Nat → Nat → ℝ) (u v : ℝ)
    (hv2 : v < S.V S.nv) (us vs : Nat) (hpu : S.pu ≤ us) (hpv : S.pv ≤ vs) (hv : Sp S.V S.nv v vs)
    (s : Set ℝ) (hs : UniqueDiffWithinAt ℝ s u) (hus : u ∈ s)
    (hnear : ∀ᶠ t in 𝓝[s] u, Sp S.U S.nu t us ∧ t < S.U S.nu) (hw : surfVal S 3 u v ≠ 0) (order : Nat) (ho : order ≤ 30)
    (col k l : Nat) (hk : k < order) (hl : l ≤ order) :
    HasDerivWithinAt (fun t => rational S fuel g0 g R0 order col t v k l) (rational S fuel g0 g R0 order col u v (k + 1) l) s u := by
  obtain ⟨hu, hu2⟩ := hnear.self_of_nhdsWithin hus
  have hd : ∀ (c k l : Nat), HasDerivWithinAt (fun t => mixed S us vs c k l t v) (mixed S us vs c (k + 1) l u v) s u :=
    fun c k l => (mixed_deriv_u S us vs c k l u v).hasDerivWithinAt
  have hw0 : mixed S us vs 3 0 0 u v ≠ 0 := by rw [mixed_val S hS us vs 3 u v hpu hpv hu hv]; exact hw
  have hwn : ∀ᶠ t in 𝓝[s] u, mixed S us vs 3 0 0 t v ≠ 0 :=
    (hd 3 0 0).continuousWithinAt.eventually_ne hw0
  have hre : ∀ t, Sp S.U S.nu t us → t < S.U S.nu → mixed S us vs 3 0 0 t v ≠ 0 → ∀ k l, k ≤ order → l ≤ order →
      rational S fuel g0 g R0 order col t v k l =
        ratSurfaceDerivs g (fun k l => mixed S us vs col k l t v) (fun k l => mixed S us vs 3 k l t v) order R0 k l := by
    intro t ht ht' h0 k l hk hl
    have e := fun c k l hk hl => patch S hS hdu hdv fuel hfu hfv g0 us vs hpu hpv t v ht hv ht' hv2 order k l c hk hl
    refine rat_congr g _ _ _ _ R0 order ho ?_ (fun k l hk hl => ?_) (fun k l hk hl => ?_) k l hk hl
    · rw [e 3 0 0 (by omega) (by omega)]; exact h0
    · rw [e col k l hk hl]; rfl
    · rw [e 3 k l hk hl]; rfl
  have q := quotient_left s u hs hus (fun t k l => mixed S us vs col k l t v) (fun t k l => mixed S us vs 3 k l t v)
    (fun t => ratSurfaceDerivs g (fun k l => mixed S us vs col k l t v) (fun k l => mixed S us vs 3 k l t v) order R0)
    order order (by
      filter_upwards [hwn] with t ht
      exact ⟨ht, fun k l hk hl => rat_leib g (fun k l => mixed S us vs col k l t v) (fun k l => mixed S us vs 3 k l t v)
        order ho R0 ht k l hk hl⟩)
    (fun k l _ _ => hd col k l) (fun k l _ _ => hd 3 k l) k l hk hl
  rw [hre u hu hu2 hw0 (k + 1) l hk hl]
  refine q.congr_of_eventuallyEq ?_ (hre u hu hu2 hw0 k l hk.le hl)
  filter_upwards [hnear, hwn] with t ht h0
  exact hre t ht.1 ht.2 h0 k l hk.le hl

/-- The same in the second direction. -/
theorem rational_deriv_v (S : Surf ℝ) (hS : SValid S) (hdu : 1 ≤ S.pu) (hdv : 1 ≤ S.pv) (fuel : Nat)
    (hfu : S.nu + 1 ≤ fuel) (hfv : S.nv + 1 ≤ fuel) (g0 : Nat → Nat → ℝ) (g : Nat → ℝ) (R0 : Nat → Nat → ℝ) (u v : ℝ)
    (hu2 : u < S.U S.nu) (us vs : Nat) (hpu : S.pu ≤ us) (hpv : S.pv ≤ vs) (hu : Sp S.U S.nu u us)
    (s : Set ℝ) (hs : UniqueDiffWithinAt ℝ s v) (hvs : v ∈ s)
    (hnear : ∀ᶠ t in 𝓝[s] v, Sp S.V S.nv t vs ∧ t < S.V S.nv) (hw : surfVal S 3 u v ≠ 0) (order : Nat) (ho : order ≤ 30)
    (col k l : Nat) (hk : k ≤ order) (hl : l < order) :
    HasDerivWithinAt (fun t => rational S fuel g0 g R0 order col u t k l) (rational S fuel g0 g R0 order col u v k (l + 1)) s v := by
  obtain ⟨hv, hv2⟩ := hnear.self_of_nhdsWithin hvs
  have hd : ∀ (c k l : Nat), HasDerivWithinAt (fun t => mixed S us vs c k l u t) (mixed S us vs c k (l + 1) u v) s v :=
    fun c k l => (mixed_deriv_v S us vs c k l u v).hasDerivWithinAt
  have hw0 : mixed S us vs 3 0 0 u v ≠ 0 := by rw [mixed_val S hS us vs 3 u v hpu hpv hu hv]; exact hw
  have hwn : ∀ᶠ t in 𝓝[s] v, mixed S us vs 3 0 0 u t ≠ 0 :=
    (hd 3 0 0).continuousWithinAt.eventually_ne hw0
  have hre : ∀ t, Sp S.V S.nv t vs → t < S.V S.nv → mixed S us vs 3 0 0 u t ≠ 0 → ∀ k l, k ≤ order → l ≤ order →
      rational S fuel g0 g R0 order col u t k l =
        ratSurfaceDerivs g (fun k l => mixed S us vs col k l u t) (fun k l => mixed S us vs 3 k l u t) order R0 k l := by
    intro t ht ht' h0 k l hk hl
    have e := fun c k l hk hl => patch S hS hdu hdv fuel hfu hfv g0 us vs hpu hpv u t hu ht hu2 ht' order k l c hk hl
    refine rat_congr g _ _ _ _ R0 order ho ?_ (fun k l hk hl => ?_) (fun k l hk hl => ?_) k l hk hl
    · rw [e 3 0 0 (by omega) (by omega)]; exact h0
    · rw [e col k l hk hl]; rfl
    · rw [e 3 k l hk hl]; rfl
  have q := quotient_right s v hs hvs (fun t k l => mixed S us vs col k l u t) (fun t k l => mixed S us vs 3 k l u t)
    (fun t => ratSurfaceDerivs g (fun k l => mixed S us vs col k l u t) (fun k l => mixed S us vs 3 k l u t) order R0)
    order order (by
      filter_upwards [hwn] with t ht
      exact ⟨ht, fun k l hk hl => rat_leib g (fun k l => mixed S us vs col k l u t) (fun k l => mixed S us vs 3 k l u t)
        order ho R0 ht k l hk hl⟩)
    (fun k l _ _ => hd col k l) (fun k l _ _ => hd 3 k l) k l hk hl
  rw [hre v hv hv2 hw0 k (l + 1) hk hl]
  refine q.congr_of_eventuallyEq ?_ (hre v hv hv2 hw0 k l hk hl.le)
  filter_upwards [hnear, hwn] with t ht h0
  exact hre t ht.1 ht.2 h0 k l hk hl.le

theorem near_right (c : Curve ℝ) (x : ℝ) (i : Nat) (h : Sp c.U c.n x i) (hx : x < c.U c.n) :
    ∀ᶠ t in 𝓝[Set.Ici x] x, Sp c.U c.n t i ∧ t < c.U c.n := by
  have hlt : x < c.U (i + 1) := by
    rcases h.2.2.2 with h' | ⟨_, h'⟩
    · exact h'
    · exact absurd h' (ne_of_lt hx)
  have h1 : Set.Iio (c.U (i + 1)) ∈ 𝓝[Set.Ici x] x := mem_nhdsWithin_of_mem_nhds (Iio_mem_nhds hlt)
  have h2 : Set.Iio (c.U c.n) ∈ 𝓝[Set.Ici x] x := mem_nhdsWithin_of_mem_nhds (Iio_mem_nhds hx)
  filter_upwards [h1, h2, self_mem_nhdsWithin] with y hy hy2 hy'
  exact ⟨⟨h.1, h.2.1, le_trans h.2.2.1 hy', .inl hy⟩, hy2⟩

theorem near_inner (c : Curve ℝ) (hc : Valid c) (x : ℝ) (i : Nat) (h : Sp c.U c.n x i) (hx : x < c.U c.n)
    (hk : ∀ j, j < c.m → c.U j ≠ x) : ∀ᶠ t in 𝓝[Set.univ] x, Sp c.U c.n t i ∧ t < c.U c.n := by
  have hkn := hc.knots
  have hlt : x < c.U (i + 1) := by
    rcases h.2.2.2 with h' | ⟨_, h'⟩
    · exact h'
    · exact absurd h' (ne_of_lt hx)
  have hgt : c.U i < x := lt_of_le_of_ne h.2.2.1 (hk i (by have := h.1; omega))
  rw [nhdsWithin_univ]
  filter_upwards [Ioo_mem_nhds hgt hlt, Iio_mem_nhds hx] with y hy hy2
  exact ⟨⟨h.1, h.2.1, le_of_lt hy.1, .inl hy.2⟩, hy2⟩

/-- C128 (partial): for every rational surface, order up to 30 and parameters before the right ends, entry `(k + 1, l)` is the
derivative of entry `(k, l)` in the first parameter and entry `(k, l + 1)` that in the second, from the right (also at knots).
With `C128_value_partial` all entries are mixed derivatives of `evaluate`.  Missing: right ends. -/
theorem C128_mixed_partial (S : Surf ℝ) (hS : SValid S) (hdu : 1 ≤ S.pu) (hdv : 1 ≤ S.pv) (fuel : Nat)
    (hfu : S.nu + 1 ≤ fuel) (hfv : S.nv + 1 ≤ fuel) (g0 : Nat → Nat → ℝ) (g : Nat → ℝ) (R0 : Nat → Nat → ℝ) (u v : ℝ)
    (hu1 : S.U S.pu ≤ u) (hu2 : u < S.U S.nu) (hv1 : S.V S.pv ≤ v) (hv2 : v < S.V S.nv) (hw : surfVal S 3 u v ≠ 0)
    (order : Nat) (ho : order ≤ 30) (col k l : Nat) :
    (k < order → l ≤ order → HasDerivWithinAt (fun t => rational S fuel g0 g R0 order col t v k l)
      (rational S fuel g0 g R0 order col u v (k + 1) l) (Set.Ici u) u) ∧
    (k ≤ order → l < order → HasDerivWithinAt (fun t => rational S fuel g0 g R0 order col u t k l)
      (rational S fuel g0 g R0 order col u v k (l + 1)) (Set.Ici v) v) := by
  obtain ⟨us, eu, hpu, hu⟩ := findSpan_more S.uCurve hS.u hdu fuel hfu u hu1 hu2
  obtain ⟨vs, ev, hpv, hv⟩ := findSpan_more S.vCurve hS.v hdv fuel hfv v hv1 hv2
  exact ⟨fun hk hl => rational_deriv_u S hS hdu hdv fuel hfu hfv g0 g R0 u v hv2 us vs hpu hpv hv _ (uniqueDiffWithinAt_Ici u)
      Set.self_mem_Ici (near_right S.uCurve u us hu hu2) hw order ho col k l hk hl,
    fun hk hl => rational_deriv_v S hS hdu hdv fuel hfu hfv g0 g R0 u v hu2 us vs hpu hpv hu _ (uniqueDiffWithinAt_Ici v)
      Set.self_mem_Ici (near_right S.vCurve v vs hv hv2) hw order ho col k l hk hl⟩

/-- Off the knots the derivatives are two-sided. -/
theorem C128_inner_partial (S : Surf ℝ) (hS : SValid S) (hdu : 1 ≤ S.pu) (hdv : 1 ≤ S.pv) (fuel : Nat)
    (hfu : S.nu + 1 ≤ fuel) (hfv : S.nv + 1 ≤ fuel) (g0 : Nat → Nat → ℝ) (g : Nat → ℝ) (R0 : Nat → Nat → ℝ) (u v : ℝ)
    (hu1 : S.U S.pu ≤ u) (hu2 : u < S.U S.nu) (hv1 : S.V S.pv ≤ v) (hv2 : v < S.V S.nv) (hw : surfVal S 3 u v ≠ 0)
    (hku : ∀ j, j < S.mu → S.U j ≠ u) (hkv : ∀ j, j < S.mv → S.V j ≠ v)
    (order : Nat) (ho : order ≤ 30) (col k l : Nat) :
    (k < order → l ≤ order → HasDerivAt (fun t => rational S fuel g0 g R0 order col t v k l)
      (rational S fuel g0 g R0 order col u v (k + 1) l) u) ∧
    (k ≤ order → l < order → HasDerivAt (fun t => rational S fuel g0 g R0 order col u t k l)
      (rational S fuel g0 g R0 order col u v k (l + 1)) v) := by
  obtain ⟨us, eu, hpu, hu⟩ := findSpan_more S.uCurve hS.u hdu fuel hfu u hu1 hu2
  obtain ⟨vs, ev, hpv, hv⟩ := findSpan_more S.vCurve hS.v hdv fuel hfv v hv1 hv2
  exact ⟨fun hk hl => hasDerivWithinAt_univ.1 (rational_deriv_u S hS hdu hdv fuel hfu hfv g0 g R0 u v hv2 us vs hpu hpv hv _
      uniqueDiffWithinAt_univ (Set.mem_univ _) (near_inner S.uCurve hS.u u us hu hu2 hku) hw order ho col k l hk hl),
    fun hk hl => hasDerivWithinAt_univ.1 (rational_deriv_v S hS hdu hdv fuel hfu hfv g0 g R0 u v hu2 us vs hpu hpv hu _
      uniqueDiffWithinAt_univ (Set.mem_univ _) (near_inner S.vCurve hS.v v vs hv hv2 hkv) hw order ho col k l hk hl)⟩

/-- A rational surface over the reals that meets the conditions: degree (1, 1), weights 1 and 2. -/
noncomputable def exReal : Surf ℝ :=
  { pu := 1, pv := 1, nu := 2, nv := 2, mu := 4, mv := 4, U := fun l => if l < 2 then 0 else 1,
    V := fun l => if l < 2 then 0 else 1, P := fun i j c => if c = 3 then (i : ℝ) + 1 else (i : ℝ) * j }

theorem exReal_valid : SValid exReal := by
  have hm : MonoUpTo (fun l => if l < 2 then (0 : ℝ) else 1) 4 := by
    intro a b hab hb
    dsimp only
    split_ifs <;> first | omega | norm_num
  exact ⟨⟨by norm_num [exReal, Surf.uCurve], rfl, hm, by norm_num [exReal, Surf.uCurve]⟩,
    ⟨by norm_num [exReal, Surf.vCurve], rfl, hm, by norm_num [exReal, Surf.vCurve]⟩⟩

theorem exReal_weight (x y : ℝ) (hx : 0 ≤ x) (hx1 : x < 1) (hy : 0 ≤ y) (hy1 : y < 1) : surfVal exReal 3 x y = 1 + x := by
  have hu : Sp exReal.U exReal.nu x 1 := ⟨by norm_num [exReal], by norm_num [exReal], by simpa [exReal] using hx,
    .inl (by simpa [exReal] using hx1)⟩
  have hv : Sp exReal.V exReal.nv y 1 := ⟨by norm_num [exReal], by norm_num [exReal], by simpa [exReal] using hy,
    .inl (by simpa [exReal] using hy1)⟩
  rw [← mixed_val exReal exReal_valid 1 1 3 x y (by norm_num [exReal]) (by norm_num [exReal]) hu hv, mixed_sum]
  simp only [exReal, sum_range_succ, sum_range_zero, Function.iterate_zero, id, eval_coxP, cox, spike]
  norm_num
  ring

example : HasDerivAt (fun t => rational exReal 3 (fun _ _ => 7) (fun _ => 0) (fun _ _ => 0) 2 0 t (1 / 4) 0 1)
    (rational exReal 3 (fun _ _ => 7) (fun _ => 0) (fun _ _ => 0) 2 0 (1 / 2) (1 / 4) 1 1) (1 / 2) := by
  refine (C128_inner_partial exReal exReal_valid (by norm_num [exReal]) (by norm_num [exReal]) 3 (by norm_num [exReal])
    (by norm_num [exReal]) _ _ _ (1 / 2) (1 / 4) (by norm_num [exReal]) (by norm_num [exReal]) (by norm_num [exReal])
    (by norm_num [exReal]) (by rw [exReal_weight] <;> norm_num) (fun j _ => ?_) (fun j _ => ?_) 2 (by omega) 0 0 1).1
    (by omega) (by omega)
  · simp only [exReal]; split_ifs <;> norm_num
  · simp only [exReal]; split_ifs <;> norm_num

end real
end Verif.NSDer
