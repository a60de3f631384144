import Verif.NSDer.Model
import Verif.NDer.Spline
import Verif.Nurbs.Surf
import Mathlib.Tactic.Ring

/-! # Mixed derivatives of a tensor product spline on one patch -/

set_option linter.unusedSectionVars false

namespace Verif.NSDer
open Finset Polynomial Verif.Nurbs Verif.NDer
variable {K : Type} [Field K] [LinearOrder K] [IsStrictOrderedRing K]

/-- The `(k, l)`-th mixed derivative of the tensor product of the pieces on the spans `us`, `vs`. -/
noncomputable def mixed (S : Surf K) (us vs col k l : Nat) (x y : K) : K :=
  (Polynomial.derivative^[l] (splineP vs S.V S.pv fun b =>
    (Polynomial.derivative^[k] (splineP us S.U S.pu fun a => S.P a b col)).eval x)).eval y

theorem mixed_sum (S : Surf K) (us vs col k l : Nat) (x y : K) : mixed S us vs col k l x y =
    ∑ s ∈ range (S.pv + 1), ∑ r ∈ range (S.pu + 1), S.P (us - S.pu + r) (vs - S.pv + s) col *
      (Polynomial.derivative^[k] (coxP us S.U S.pu (us - S.pu + r))).eval x *
      (Polynomial.derivative^[l] (coxP vs S.V S.pv (vs - S.pv + s))).eval y := by
  rw [mixed, iterate_sum, eval_finsetSum]
  refine sum_congr rfl fun s _ => ?_
  rw [eval_mul, eval_C, iterate_sum, eval_finsetSum, sum_mul]
  refine sum_congr rfl fun r _ => ?_
  rw [eval_mul, eval_C]

/-- The directions can be exchanged. -/
theorem mixed_swap (S : Surf K) (us vs col k l : Nat) (x y : K) : mixed S us vs col k l x y =
    (Polynomial.derivative^[k] (splineP us S.U S.pu fun a =>
      (Polynomial.derivative^[l] (splineP vs S.V S.pv fun b => S.P a b col)).eval y)).eval x := by
  rw [mixed_sum, sum_comm, iterate_sum, eval_finsetSum]
  refine sum_congr rfl fun r _ => ?_
  rw [eval_mul, eval_C, iterate_sum, eval_finsetSum, sum_mul]
  refine sum_congr rfl fun s _ => ?_
  rw [eval_mul, eval_C]
  ring

theorem splineP_zero (i : Nat) (U : Nat → K) (p : Nat) : splineP i U p (fun _ => 0) = 0 := by
  rw [splineP]; exact sum_eq_zero fun j _ => by rw [C_0, zero_mul]

/-- Without derivatives it is the tensor product spline. -/
theorem mixed_val (S : Surf K) (hS : SValid S) (us vs col : Nat) (x y : K) (hpu : S.pu ≤ us) (hpv : S.pv ≤ vs)
    (hu : Sp S.U S.nu x us) (hv : Sp S.V S.nv y vs) : mixed S us vs col 0 0 x y = surfVal S col x y := by
  rw [surfVal_u]
  have e : ∀ j, specVal S.uCurve (fun i => S.P i j col) x = (splineP us S.U S.pu fun a => S.P a j col).eval x := by
    intro j
    rw [specVal_eq S.uCurve hS.u _ x us hu]
    exact (eval_splineP us S.U S.pu S.nu _ x hpu hu.1).symm
  have e2 : ∑ j ∈ range S.nv, bspl S.V S.nv y S.pv j * specVal S.uCurve (fun i => S.P i j col) x =
      specVal S.vCurve (fun j => (splineP us S.U S.pu fun a => S.P a j col).eval x) y :=
    sum_congr rfl fun j _ => by rw [mul_comm, e]; rfl
  rw [e2, specVal_eq S.vCurve hS.v _ y vs hv]
  exact eval_splineP vs S.V S.pv S.nv _ y hpv hv.1

/-- The span found with one knot too many is right before the end of the domain. -/
theorem findSpan_more (c : Curve K) (hc : Valid c) (hd : 1 ≤ c.degree) (fuel : Nat) (hf : c.n + 1 ≤ fuel) (x : K)
    (hl : c.U c.degree ≤ x) (hh : x < c.U c.n) :
    ∃ i, findSpan fuel c.n c.degree x c.U false = some i ∧ c.degree ≤ i ∧ Sp c.U c.n x i := by
  have h1 := hc.npos
  have h2 := hc.knots
  obtain ⟨i, e, a, b, d, f⟩ := findSpan_spec fuel c.n c.degree x c.U (by omega) (by omega)
    (hc.mono _ _ (by omega) (by omega)) hl (lt_of_lt_of_le hh (hc.mono _ _ (by omega) (by omega)))
  have hi : i < c.n := by
    by_contra h
    have : i = c.n := by omega
    subst this
    exact absurd (lt_of_le_of_lt d hh) (lt_irrefl _)
  exact ⟨i, e, a, hi, lt_of_le_of_lt d f, d, .inl f⟩

/-- `surface_derivatives` at a parameter with known spans. -/
theorem surfDer_eq (S : Surf K) (hS : SValid S) (fuel : Nat) (g0 : Nat → Nat → K) (x y : K) (us vs : Nat)
    (eu : findSpan fuel S.nu S.pu x S.U false = some us) (ev : findSpan fuel S.nv S.pv y S.V false = some vs)
    (hpu : S.pu ≤ us) (hpv : S.pv ≤ vs) (hu : Sp S.U S.nu x us) (hv : Sp S.V S.nv y vs) (order k l col : Nat)
    (hk : k ≤ order) (hl : l ≤ order) :
    surfaceDerivatives S fuel g0 x y order k l col = some (mixed S us vs col k l x y) := by
  have hmu : us + S.pu + 1 < S.mu := by
    have := hS.u.knots; have := hu.1; simp only [Surf.uCurve] at *; omega
  have hmv : vs + S.pv + 1 < S.mv := by
    have := hS.v.knots; have := hv.1; simp only [Surf.vCurve] at *; omega
  have hin : vs + S.nv * us < S.nu * S.nv := by
    have h1 := hu.1
    have h2 := hv.1
    calc vs + S.nv * us < S.nv + S.nv * us := by omega
      _ = S.nv * (us + 1) := by ring
      _ ≤ S.nv * S.nu := Nat.mul_le_mul_left _ h1
      _ = S.nu * S.nv := Nat.mul_comm _ _
  rw [surfaceDerivatives, eu, ev]
  dsimp only
  rw [if_neg (by rintro (h | h | h); exacts [ne_of_lt hu.2.1 h, ne_of_lt hv.2.1 h, by omega])]
  by_cases hkl : k ≤ S.pu ∧ l ≤ S.pv
  · rw [if_pos (by omega), NDer.foldl_sum, mixed_sum]
    congr 1
    refine sum_congr rfl fun s hs => ?_
    rw [tempAt, NDer.foldl_sum, mul_sum]
    refine sum_congr rfl fun r hr => ?_
    rw [dersBasisFuns_eq S.U S.mu hS.u.mono us hu.2.1 x S.pu _ hpu hmu (by omega), if_pos ⟨by omega, mem_range.1 hr⟩,
      dersBasisFuns_eq S.V S.mv hS.v.mono vs hv.2.1 y S.pv _ hpv hmv (by omega), if_pos ⟨by omega, mem_range.1 hs⟩]
    ring
  · rw [if_neg (by omega)]
    congr 1
    by_cases hk' : S.pu < k
    · rw [mixed]
      have : (fun b => (Polynomial.derivative^[k] (splineP us S.U S.pu fun a => S.P a b col)).eval x) = fun _ => (0 : K) := by
        funext b
        rw [iterate_splineP_zero S.U S.mu hS.u.mono us hu.2.1 S.pu hpu hmu _ k hk', eval_zero]
      rw [this, splineP_zero, iterate_derivative_zero, eval_zero]
    · rw [mixed, iterate_splineP_zero S.V S.mv hS.v.mono vs hv.2.1 S.pv hpv hmv _ l (by omega), eval_zero]

end Verif.NSDer
