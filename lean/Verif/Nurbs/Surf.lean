import Verif.Nurbs.SurfModel
import Verif.Nurbs.Reverse
import Verif.Nurbs.Props
import Mathlib.Data.Nat.Pairing
import Mathlib.Algebra.BigOperators.Ring.Finset

/-! # Surfaces: reduction to curves in each direction -/

set_option linter.unusedSectionVars false

namespace Verif.Nurbs
open Finset
variable {K : Type} [Field K] [LinearOrder K]

/-- The curve of all rows: column `pair j c` of this curve is entry `(·, j, c)` of the surface. -/
def Surf.uCurve (S : Surf K) : Curve K :=
  { degree := S.pu, n := S.nu, m := S.mu, U := S.U, periodic := false,
    P := fun i col => S.P i col.unpair.1 col.unpair.2 }

def Surf.vCurve (S : Surf K) : Curve K :=
  { degree := S.pv, n := S.nv, m := S.mv, U := S.V, periodic := false,
    P := fun j col => S.P col.unpair.1 j col.unpair.2 }

/-- The surface with the rows of a curve. -/
def Surf.withU (S : Surf K) (c : Curve K) : Surf K :=
  { S with nu := c.n, mu := c.m, U := c.U, P := fun i j col => c.P i (Nat.pair j col) }

def Surf.withV (S : Surf K) (c : Curve K) : Surf K :=
  { S with nv := c.n, mv := c.m, V := c.U, P := fun i j col => c.P j (Nat.pair i col) }

def curry3 (f : Nat → Nat → Nat → K) : Nat → Nat → K := fun i col => f i col.unpair.1 col.unpair.2
def curry3' (f : Nat → Nat → Nat → K) : Nat → Nat → K := fun j col => f col.unpair.1 j col.unpair.2

theorem insertU_eq (S : Surf K) (fuel : Nat) (eps : K → K) (init junk : Nat → Nat → Nat → K) (t : K) (count : Nat) :
    S.insertU fuel eps init junk t count =
      (S.uCurve.insertKnot fuel eps (curry3 init) (curry3 junk) t count).map S.withU := by
  rw [Surf.insertU, Curve.insertKnot]
  show (match findSpan fuel (S.nu - 1) S.pu t S.U false with | none => _ | some span => _) =
    Option.map _ (match findSpan fuel (S.nu - 1) S.pu t S.U false with | none => _ | some span => _)
  cases findSpan fuel (S.nu - 1) S.pu t S.U false with
  | none => rfl
  | some span => simp [Surf.withU, Surf.uCurve, curry3, Nat.unpair_pair]

theorem insertV_eq (S : Surf K) (fuel : Nat) (eps : K → K) (init junk : Nat → Nat → Nat → K) (t : K) (count : Nat) :
    S.insertV fuel eps init junk t count =
      (S.vCurve.insertKnot fuel eps (curry3' init) (curry3' junk) t count).map S.withV := by
  rw [Surf.insertV, Curve.insertKnot]
  show (match findSpan fuel (S.nv - 1) S.pv t S.V false with | none => _ | some span => _) =
    Option.map _ (match findSpan fuel (S.nv - 1) S.pv t S.V false with | none => _ | some span => _)
  cases findSpan fuel (S.nv - 1) S.pv t S.V false with
  | none => rfl
  | some span => simp [Surf.withV, Surf.vCurve, curry3', Nat.unpair_pair]

theorem splitU_eq (S : Surf K) (fuel : Nat) (eps : K → K) (tol : K) (init junk : Nat → Nat → Nat → K) (t : K) :
    splitU S fuel eps tol init junk t =
      (splitCurve S.uCurve fuel eps tol (curry3 init) (curry3 junk) t).map
        (Option.map fun cs => (S.withU cs.1, S.withU cs.2)) := by
  rw [splitU, splitCurve]
  simp only [insertU_eq]
  show (if t ≤ S.U 0 ∨ S.U (S.mu - 1) ≤ t ∨ |t - S.U 0| ≤ tol ∨ |t - S.U (S.mu - 1)| ≤ tol then _ else _) =
    Option.map _ (if t ≤ S.U 0 ∨ S.U (S.mu - 1) ≤ t ∨ |t - S.U 0| ≤ tol ∨ |t - S.U (S.mu - 1)| ≤ tol then _ else _)
  by_cases hc : t ≤ S.U 0 ∨ S.U (S.mu - 1) ≤ t ∨ |t - S.U 0| ≤ tol ∨ |t - S.U (S.mu - 1)| ≤ tol
  · rw [if_pos hc, if_pos hc]; rfl
  · rw [if_neg hc, if_neg hc]
    show (match findSpan fuel S.nu S.pu t S.U false with | none => _ | some sp => _) =
      Option.map _ (match findSpan fuel S.nu S.pu t S.U false with | none => _ | some sp => _)
    cases findSpan fuel S.nu S.pu t S.U false with
    | none => rfl
    | some sp =>
      simp only [Surf.uCurve]
      cases h : Curve.insertKnot _ fuel eps (curry3 init) (curry3 junk) t (S.pu - findMultiplicity eps t S.U S.mu) with
      | none => rfl
      | some tc =>
        simp only [Option.map_some]
        show (match findSpan fuel tc.n S.pu t tc.U false with | none => _ | some sp => _) =
          Option.map _ (match findSpan fuel tc.n S.pu t tc.U false with | none => _ | some sp => _)
        cases findSpan fuel tc.n S.pu t tc.U false with
        | none => rfl
        | some sp2 => rfl

theorem splitV_eq (S : Surf K) (fuel : Nat) (eps : K → K) (tol : K) (init junk : Nat → Nat → Nat → K) (t : K) :
    splitV S fuel eps tol init junk t =
      (splitCurve S.vCurve fuel eps tol (curry3' init) (curry3' junk) t).map
        (Option.map fun cs => (S.withV cs.1, S.withV cs.2)) := by
  rw [splitV, splitCurve]
  simp only [insertV_eq]
  show (if t ≤ S.V 0 ∨ S.V (S.mv - 1) ≤ t ∨ |t - S.V 0| ≤ tol ∨ |t - S.V (S.mv - 1)| ≤ tol then _ else _) =
    Option.map _ (if t ≤ S.V 0 ∨ S.V (S.mv - 1) ≤ t ∨ |t - S.V 0| ≤ tol ∨ |t - S.V (S.mv - 1)| ≤ tol then _ else _)
  by_cases hc : t ≤ S.V 0 ∨ S.V (S.mv - 1) ≤ t ∨ |t - S.V 0| ≤ tol ∨ |t - S.V (S.mv - 1)| ≤ tol
  · rw [if_pos hc, if_pos hc]; rfl
  · rw [if_neg hc, if_neg hc]
    show (match findSpan fuel S.nv S.pv t S.V false with | none => _ | some sp => _) =
      Option.map _ (match findSpan fuel S.nv S.pv t S.V false with | none => _ | some sp => _)
    cases findSpan fuel S.nv S.pv t S.V false with
    | none => rfl
    | some sp =>
      simp only [Surf.vCurve]
      cases h : Curve.insertKnot _ fuel eps (curry3' init) (curry3' junk) t (S.pv - findMultiplicity eps t S.V S.mv) with
      | none => rfl
      | some tc =>
        simp only [Option.map_some]
        show (match findSpan fuel tc.n S.pv t tc.U false with | none => _ | some sp => _) =
          Option.map _ (match findSpan fuel tc.n S.pv t tc.U false with | none => _ | some sp => _)
        cases findSpan fuel tc.n S.pv t tc.U false with
        | none => rfl
        | some sp2 => rfl

/-! ## The value of a surface -/

/-- Specification: the tensor product spline `Σ_i Σ_j N_i(u) N_j(v) P_ij` of one column. -/
def surfVal (S : Surf K) (col : Nat) (u v : K) : K :=
  ∑ i ∈ range S.nu, ∑ j ∈ range S.nv, bspl S.U S.nu u S.pu i * bspl S.V S.nv v S.pv j * S.P i j col

theorem surfVal_u (S : Surf K) (col : Nat) (u v : K) :
    surfVal S col u v = ∑ j ∈ range S.nv, bspl S.V S.nv v S.pv j * specVal S.uCurve (fun i => S.P i j col) u := by
  rw [surfVal, sum_comm]
  refine sum_congr rfl fun j _ => ?_
  rw [specVal, mul_sum]
  exact sum_congr rfl fun i _ => by show _ = _ * (_ * bspl S.U S.nu u S.pu i); ring

theorem surfVal_v (S : Surf K) (col : Nat) (u v : K) :
    surfVal S col u v = ∑ i ∈ range S.nu, bspl S.U S.nu u S.pu i * specVal S.vCurve (fun j => S.P i j col) v := by
  rw [surfVal]
  refine sum_congr rfl fun i _ => ?_
  rw [specVal, mul_sum]
  exact sum_congr rfl fun j _ => by show _ = _ * (_ * bspl S.V S.nv v S.pv j); ring

theorem foldl_sum (f : Nat → K) (n : Nat) : (List.range n).foldl (fun acc k => acc + f k) 0 = ∑ k ∈ range n, f k := by
  induction n with
  | zero => rfl
  | succ n ih => rw [List.range_succ, List.foldl_append, ih, sum_range_succ]; rfl

theorem spSum_eq (us vs p q : Nat) (Nu Nv : Nat → K) (P : Nat → Nat → Nat → K) (col : Nat) :
    spSum us vs p q Nu Nv P col =
      ∑ l ∈ range (q + 1), Nv l * ∑ k ∈ range (p + 1), Nu k * P (us - p + k) (vs - q + l) col := by
  rw [spSum, foldl_sum]
  exact sum_congr rfl fun l _ => by rw [spRow, foldl_sum]

/-- A surface is well formed when it is so in both directions. -/
structure SValid (S : Surf K) : Prop where
  u : Valid S.uCurve
  v : Valid S.vCurve

theorem spSum_val (S : Surf K) (hS : SValid S) (u v : K) (us vs : Nat) (hpu : S.pu ≤ us) (hpv : S.pv ≤ vs)
    (hu : Sp S.U S.nu u us) (hv : Sp S.V S.nv v vs) (col : Nat) :
    spSum us vs S.pu S.pv (basisFuns us u S.pu S.U fun _ => 0) (basisFuns vs v S.pv S.V fun _ => 0) S.P col =
      surfVal S col u v := by
  have hkv := hS.v.knots
  have hnv := hS.v.npos
  have e1 : ∀ j, specVal S.uCurve (fun i => S.P i j col) u =
      ∑ k ∈ range (S.pu + 1), basisFuns us u S.pu S.U (fun _ => 0) k * S.P (us - S.pu + k) j col := by
    intro j
    rw [specVal_eq S.uCurve hS.u _ u us hu]
    show spline S.U S.pu S.nu _ u us = _
    rw [spline_window S.U S.pu S.nu _ u us hpu hu.1]
    exact sum_congr rfl fun k hk => by
      rw [basisFuns_eq us u S.U _ S.pu hpu k (by have := mem_range.mp hk; omega)]; ring
  rw [surfVal_u, spSum_eq]
  have e2 : ∑ j ∈ range S.nv, bspl S.V S.nv v S.pv j * specVal S.uCurve (fun i => S.P i j col) u =
      specVal S.vCurve (fun j => specVal S.uCurve (fun i => S.P i j col) u) v :=
    sum_congr rfl fun j _ => by rw [mul_comm]; rfl
  rw [e2, specVal_eq S.vCurve hS.v _ v vs hv]
  show _ = spline S.V S.pv S.nv _ v vs
  rw [spline_window S.V S.pv S.nv _ v vs hpv hv.1]
  refine sum_congr rfl fun l hl => ?_
  rw [basisFuns_eq vs v S.V _ S.pv hpv l (by have := mem_range.mp hl; omega), e1, mul_comm]

/-- `evaluate` is the quotient of the tensor product splines of the homogeneous coordinates. -/
theorem surf_evaluate (S : Surf K) (hS : SValid S) (fuel : Nat) (hfu : S.nu ≤ fuel) (hfv : S.nv ≤ fuel) (u v : K)
    (hu1 : S.U S.pu ≤ u) (hu2 : u ≤ S.U S.nu) (hv1 : S.V S.pv ≤ v) (hv2 : v ≤ S.V S.nv) (col : Nat) :
    S.evaluate fuel u v col = some (surfVal S col u v / surfVal S 3 u v) := by
  have hkv := hS.v.knots
  have hnv := hS.v.npos
  have hku := hS.u.knots
  have hnu := hS.u.npos
  obtain ⟨us, e, hpu, hsu⟩ := findSpan_sp fuel S.nu S.pu u S.U hnu hfu S.mu hS.u.mono
    (by show S.nu < S.uCurve.m; rw [hku]; show S.nu < S.nu + S.pu + 1; omega) hS.u.last hu1 hu2
  obtain ⟨vs, e', hpv, hsv⟩ := findSpan_sp fuel S.nv S.pv v S.V hnv hfv S.mv hS.v.mono
    (by show S.nv < S.vCurve.m; rw [hkv]; show S.nv < S.nv + S.pv + 1; omega) hS.v.last hv1 hv2
  rw [Surf.evaluate, surfacePoint, e, e']
  simp only
  rw [spSum_val S hS u v us vs hpu hpv hsu hsv, spSum_val S hS u v us vs hpu hpv hsu hsv]

end Verif.Nurbs
