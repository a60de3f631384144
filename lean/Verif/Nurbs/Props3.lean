import Verif.Nurbs.Decompose
import Verif.Nurbs.Props2

/-! # C61-C66: surfaces -/

set_option linter.unusedSectionVars false

namespace Verif.Nurbs
open Finset
variable {K : Type} [Field K] [LinearOrder K]

/-! ## Example data -/

/-- Degree (2, 1), 4 x 3 control points, different weights, an inner knot in each direction (examples). -/
def exSurf : Surf ℚ :=
  { pu := 2, pv := 1, nu := 4, nv := 3, mu := 7, mv := 5
    U := kvec [0, 0, 0, 1, 2, 2, 2]
    V := kvec [0, 0, 1, 3, 3]
    P := fun i j c => if c = 3 then (i : ℚ) + j + 1 else ((i : ℚ) * i + (c : ℚ) * j + 2 * j) * ((i : ℚ) + j + 1) }

theorem exSurf_valid : SValid exSurf := by
  refine ⟨⟨by decide, by decide, ?_, by norm_num [exSurf, Surf.uCurve, kvec]⟩,
    ⟨by decide, by decide, ?_, by norm_num [exSurf, Surf.vCurve, kvec]⟩⟩
  · apply monoUpTo_of_step
    intro a ha
    have h7 : a + 1 < 7 := ha
    have : a < 6 := by omega
    interval_cases a <;> norm_num [exSurf, Surf.uCurve, kvec]
  · apply monoUpTo_of_step
    intro a ha
    have h5 : a + 1 < 5 := ha
    have : a < 4 := by omega
    interval_cases a <;> norm_num [exSurf, Surf.vCurve, kvec]

theorem exSurf_noJump : NoJump exSurf.uCurve ∧ NoJump exSurf.vCurve := by
  constructor
  · intro j hj
    have h7 : j + 2 < 7 := hj
    have : j < 5 := by omega
    show kvec [0, 0, 0, 1, 2, 2, 2] 2 < kvec [0, 0, 0, 1, 2, 2, 2] j →
      kvec [0, 0, 0, 1, 2, 2, 2] j < kvec [0, 0, 0, 1, 2, 2, 2] 4 →
      kvec [0, 0, 0, 1, 2, 2, 2] j < kvec [0, 0, 0, 1, 2, 2, 2] (j + 2)
    interval_cases j <;> norm_num [kvec]
  · intro j hj
    have h7 : j + 1 < 5 := hj
    have : j < 4 := by omega
    show kvec [0, 0, 1, 3, 3] 1 < kvec [0, 0, 1, 3, 3] j →
      kvec [0, 0, 1, 3, 3] j < kvec [0, 0, 1, 3, 3] 3 →
      kvec [0, 0, 1, 3, 3] j < kvec [0, 0, 1, 3, 3] (j + 1)
    interval_cases j <;> norm_num [kvec]

section ordered
variable [IsStrictOrderedRing K]

/-! ## C61 -/

/-- The parameter lies in the domain of the surface. -/
def InDom (S : Surf K) (u v : K) : Prop := S.U S.pu ≤ u ∧ u ≤ S.U S.nu ∧ S.V S.pv ≤ v ∧ v ≤ S.V S.nv

theorem bspl_nonneg (c : Curve K) (hc : Valid c) (x : K) (h1 : c.U c.degree ≤ x) (h2 : x ≤ c.U c.n) (l : Nat)
    (hl : l < c.n) : 0 ≤ bspl c.U c.n x c.degree l := by
  have hk := hc.knots
  have hnp := hc.npos
  obtain ⟨i, _, _, hsp⟩ := findSpan_sp c.n c.n c.degree x c.U hnp (le_refl _) c.m hc.mono (by omega) hc.last h1 h2
  rw [bspl_eq c.U c.n c.m hc.mono (by omega) hc.last x i hsp]
  refine cox_nonneg c.U c.m hc.mono i hsp.2.1 x hsp.2.2.1 ?_ _ _ (by omega)
  rcases hsp.2.2.2 with h | ⟨h, h'⟩
  · exact le_of_lt h
  · rw [h, h']

theorem bspl_sum_one (c : Curve K) (hc : Valid c) (x : K) (h1 : c.U c.degree ≤ x) (h2 : x ≤ c.U c.n) :
    ∑ l ∈ range c.n, bspl c.U c.n x c.degree l = 1 := by
  have hk := hc.knots
  have hnp := hc.npos
  obtain ⟨i, _, hpi, hsp⟩ := findSpan_sp c.n c.n c.degree x c.U hnp (le_refl _) c.m hc.mono (by omega) hc.last h1 h2
  have := spline_ones c.U c.m hc.mono c.degree c.n x i hsp.2.1 hpi hsp.1 (by have := hsp.1; omega)
  rw [← specVal_eq c hc _ x i hsp, specVal] at this
  simpa using this

/-- **C61.** For every point of the domain of a well formed surface, `evaluate` returns
`Σ N_i(u) N_j(v) P_ij / Σ N_i(u) N_j(v) w_ij`, summed over all control points (homogeneous coordinates); with positive
weights the divisor is positive and the result is a convex combination of the control points `P_ij / w_ij`. -/
theorem C61_surface_evaluate (S : Surf K) (hS : SValid S) (fuel : Nat) (hfu : S.nu ≤ fuel) (hfv : S.nv ≤ fuel) (u v : K)
    (hd : InDom S u v) :
    (∀ col, S.evaluate fuel u v col = some (
      (∑ i ∈ range S.nu, ∑ j ∈ range S.nv, bspl S.U S.nu u S.pu i * bspl S.V S.nv v S.pv j * S.P i j col) /
      (∑ i ∈ range S.nu, ∑ j ∈ range S.nv, bspl S.U S.nu u S.pu i * bspl S.V S.nv v S.pv j * S.P i j 3))) ∧
    ((∀ i j, i < S.nu → j < S.nv → 0 < S.P i j 3) →
      0 < ∑ i ∈ range S.nu, ∑ j ∈ range S.nv, bspl S.U S.nu u S.pu i * bspl S.V S.nv v S.pv j * S.P i j 3 ∧
      ∃ lam : Nat → Nat → K, (∀ i j, i < S.nu → j < S.nv → 0 ≤ lam i j) ∧
        ∑ i ∈ range S.nu, ∑ j ∈ range S.nv, lam i j = 1 ∧
        ∀ col, S.evaluate fuel u v col =
          some (∑ i ∈ range S.nu, ∑ j ∈ range S.nv, lam i j * (S.P i j col / S.P i j 3))) := by
  obtain ⟨hu1, hu2, hv1, hv2⟩ := hd
  have hev := surf_evaluate S hS fuel hfu hfv u v hu1 hu2 hv1 hv2
  refine ⟨hev, fun hw => ?_⟩
  have nn : ∀ i j, i < S.nu → j < S.nv → 0 ≤ bspl S.U S.nu u S.pu i * bspl S.V S.nv v S.pv j := fun i j hi hj =>
    mul_nonneg (bspl_nonneg S.uCurve hS.u u hu1 hu2 i hi) (bspl_nonneg S.vCurve hS.v v hv1 hv2 j hj)
  have su : ∑ i ∈ range S.nu, bspl S.U S.nu u S.pu i = 1 := bspl_sum_one S.uCurve hS.u u hu1 hu2
  have sv : ∑ j ∈ range S.nv, bspl S.V S.nv v S.pv j = 1 := bspl_sum_one S.vCurve hS.v v hv1 hv2
  have s1 : ∑ i ∈ range S.nu, ∑ j ∈ range S.nv, bspl S.U S.nu u S.pu i * bspl S.V S.nv v S.pv j = 1 := by
    rw [← sum_mul_sum, su, sv, one_mul]
  have hpos : 0 < ∑ i ∈ range S.nu, ∑ j ∈ range S.nv, bspl S.U S.nu u S.pu i * bspl S.V S.nv v S.pv j * S.P i j 3 := by
    have hex : ∃ i ∈ range S.nu, ∃ j ∈ range S.nv, 0 < bspl S.U S.nu u S.pu i * bspl S.V S.nv v S.pv j := by
      by_contra hcon
      have : ∑ i ∈ range S.nu, ∑ j ∈ range S.nv, bspl S.U S.nu u S.pu i * bspl S.V S.nv v S.pv j ≤ 0 := by
        refine sum_nonpos fun i hi => sum_nonpos fun j hj => ?_
        by_contra h
        exact hcon ⟨i, hi, j, hj, not_le.mp h⟩
      rw [s1] at this
      exact absurd one_pos (not_lt.mpr this)
    obtain ⟨i, hi, j, hj, h⟩ := hex
    refine sum_pos' (fun i hi => sum_nonneg fun j hj => ?_) ⟨i, hi, sum_pos' (fun j hj => ?_) ⟨j, hj, ?_⟩⟩
    · exact mul_nonneg (nn i j (mem_range.mp hi) (mem_range.mp hj)) (le_of_lt (hw i j (mem_range.mp hi) (mem_range.mp hj)))
    · exact mul_nonneg (nn i j (mem_range.mp hi) (mem_range.mp hj)) (le_of_lt (hw i j (mem_range.mp hi) (mem_range.mp hj)))
    · exact mul_pos h (hw i j (mem_range.mp hi) (mem_range.mp hj))
  obtain ⟨D, hD⟩ : ∃ D, ∑ i ∈ range S.nu, ∑ j ∈ range S.nv, bspl S.U S.nu u S.pu i * bspl S.V S.nv v S.pv j * S.P i j 3 = D :=
    ⟨_, rfl⟩
  rw [hD] at hpos
  refine ⟨by rw [hD]; exact hpos, fun i j => bspl S.U S.nu u S.pu i * bspl S.V S.nv v S.pv j * S.P i j 3 / D,
    fun i j hi hj => div_nonneg (mul_nonneg (nn i j hi hj) (le_of_lt (hw i j hi hj))) (le_of_lt hpos), ?_, fun col => ?_⟩
  · simp only [← sum_div]
    rw [hD, div_self (ne_of_gt hpos)]
  · rw [hev col, surfVal, surfVal, hD, sum_div]
    congr 1
    refine sum_congr rfl fun i hi => ?_
    rw [sum_div]
    refine sum_congr rfl fun j hj => ?_
    have := ne_of_gt (hw i j (mem_range.mp hi) (mem_range.mp hj))
    field_simp

/-- The hypotheses hold on the example, with different weights. -/
example : SValid exSurf ∧ InDom exSurf (1 / 2) 2 ∧ (∀ i j, i < exSurf.nu → j < exSurf.nv → 0 < exSurf.P i j 3) ∧
    exSurf.evaluate 4 (1 / 2) 2 0 = some (241 / 54) := by
  refine ⟨exSurf_valid, by norm_num [InDom, exSurf, kvec], fun i j _ _ => ?_, by decide +kernel⟩
  have : exSurf.P i j 3 = (i : ℚ) + j + 1 := by simp [exSurf]
  rw [this]; positivity

/-! ## C62 -/

theorem withU_valid (S : Surf K) (hS : SValid S) (c : Curve K) (hc : Valid c) (hd : c.degree = S.pu) :
    SValid (S.withU c) := by
  obtain ⟨a1, a2, a3, a4⟩ := hc
  rw [hd] at a1 a2
  exact ⟨⟨a1, a2, a3, a4⟩, ⟨hS.v.1, hS.v.2, hS.v.3, hS.v.4⟩⟩

theorem withV_valid (S : Surf K) (hS : SValid S) (c : Curve K) (hc : Valid c) (hd : c.degree = S.pv) :
    SValid (S.withV c) := by
  obtain ⟨a1, a2, a3, a4⟩ := hc
  rw [hd] at a1 a2
  exact ⟨⟨hS.u.1, hS.u.2, hS.u.3, hS.u.4⟩, ⟨a1, a2, a3, a4⟩⟩

theorem withU_val (S : Surf K) (c : Curve K) (hd : c.degree = S.pu) (u : K)
    (h : ∀ col, specVal c (fun l => c.P l col) u = specVal S.uCurve (fun l => S.uCurve.P l col) u) (col : Nat) (v : K) :
    surfVal (S.withU c) col u v = surfVal S col u v := by
  rw [surfVal_u, surfVal_u]
  refine sum_congr rfl fun j _ => ?_
  have e := h (Nat.pair j col)
  have e1 : specVal (S.withU c).uCurve (fun i => (S.withU c).P i j col) u = specVal c (fun l => c.P l (Nat.pair j col)) u := by
    rw [specVal, specVal, hd]; rfl
  have e2 : specVal S.uCurve (fun l => S.uCurve.P l (Nat.pair j col)) u = specVal S.uCurve (fun i => S.P i j col) u := by
    simp only [Surf.uCurve, Nat.unpair_pair]
  rw [e1, e, e2]
  rfl

theorem withV_val (S : Surf K) (c : Curve K) (hd : c.degree = S.pv) (v : K)
    (h : ∀ col, specVal c (fun l => c.P l col) v = specVal S.vCurve (fun l => S.vCurve.P l col) v) (col : Nat) (u : K) :
    surfVal (S.withV c) col u v = surfVal S col u v := by
  rw [surfVal_v, surfVal_v]
  refine sum_congr rfl fun i _ => ?_
  have e := h (Nat.pair i col)
  have e1 : specVal (S.withV c).vCurve (fun j => (S.withV c).P i j col) v = specVal c (fun l => c.P l (Nat.pair i col)) v := by
    rw [specVal, specVal, hd]; rfl
  have e2 : specVal S.vCurve (fun l => S.vCurve.P l (Nat.pair i col)) v = specVal S.vCurve (fun j => S.P i j col) v := by
    simp only [Surf.vCurve, Nat.unpair_pair]
  rw [e1, e, e2]
  rfl

/-- **C62, direction u.** `insert_knot_u` at a parameter of the domain (right end excluded), as long as the multiplicity does
not exceed the degree, for arbitrary weights: no exception, a well formed surface with `count` more rows and knots, same
domain, and the same value at every point of the domain, whatever the reallocated memory held. -/
theorem C62_insert_knot_u (S : Surf K) (hS : SValid S) (fuel : Nat) (eps : K → K) (t : K) (count : Nat)
    (hf : S.nu + count ≤ fuel) (hfv : S.nv ≤ fuel) (hl : S.U S.pu ≤ t) (hh : t < S.U S.nu)
    (hsep : ∀ i, i < S.mu → |t - S.U i| ≤ eps (S.U i) → S.U i = t)
    (hcount : count + findMultiplicity eps t S.U S.mu ≤ S.pu) (init junk : Nat → Nat → Nat → K) :
    ∃ T, S.insertU fuel eps init junk t count = some T ∧ SValid T ∧ T.nu = S.nu + count ∧ T.mu = S.mu + count ∧
      T.nv = S.nv ∧ T.pu = S.pu ∧ T.pv = S.pv ∧ T.V = S.V ∧
      (∀ u v, InDom T u v ↔ InDom S u v) ∧
      ∀ u v, InDom S u v → ∀ col, T.evaluate fuel u v col = S.evaluate fuel u v col := by
  obtain ⟨c, he, hv, h1, h2, h3, _, h5, h6, h7, _⟩ :=
    C36_insert_knot_columns S.uCurve hS.u fuel eps t count hf hl hh hsep hcount (curry3 init) (curry3 junk)
  have hTv := withU_valid S hS c hv h3
  have hd1 : c.U S.pu = S.U S.pu := by rw [h3] at h5; exact h5
  have hdom : ∀ u v, InDom (S.withU c) u v ↔ InDom S u v := fun u v => by
    show c.U S.pu ≤ u ∧ u ≤ c.U c.n ∧ _ ∧ _ ↔ _
    rw [hd1, h6]; rfl
  refine ⟨S.withU c, by rw [insertU_eq, he]; rfl, hTv, h1, h2, rfl, rfl, rfl, rfl, hdom, fun u v hd col => ?_⟩
  obtain ⟨a1, a2, a3, a4⟩ := hd
  obtain ⟨b1, b2, b3, b4⟩ := (hdom u v).mpr ⟨a1, a2, a3, a4⟩
  rw [surf_evaluate S hS fuel (by omega) hfv u v a1 a2 a3 a4,
    surf_evaluate (S.withU c) hTv fuel (by show c.n ≤ fuel; rw [h1]; exact hf) hfv u v b1 b2 b3 b4]
  rw [withU_val S c h3 u (h7 u a1 a2), withU_val S c h3 u (h7 u a1 a2)]

/-- **C62, direction v.** -/
theorem C62_insert_knot_v (S : Surf K) (hS : SValid S) (fuel : Nat) (eps : K → K) (t : K) (count : Nat)
    (hf : S.nv + count ≤ fuel) (hfu : S.nu ≤ fuel) (hl : S.V S.pv ≤ t) (hh : t < S.V S.nv)
    (hsep : ∀ i, i < S.mv → |t - S.V i| ≤ eps (S.V i) → S.V i = t)
    (hcount : count + findMultiplicity eps t S.V S.mv ≤ S.pv) (init junk : Nat → Nat → Nat → K) :
    ∃ T, S.insertV fuel eps init junk t count = some T ∧ SValid T ∧ T.nv = S.nv + count ∧ T.mv = S.mv + count ∧
      T.nu = S.nu ∧ T.pu = S.pu ∧ T.pv = S.pv ∧ T.U = S.U ∧
      (∀ u v, InDom T u v ↔ InDom S u v) ∧
      ∀ u v, InDom S u v → ∀ col, T.evaluate fuel u v col = S.evaluate fuel u v col := by
  obtain ⟨c, he, hv, h1, h2, h3, _, h5, h6, h7, _⟩ :=
    C36_insert_knot_columns S.vCurve hS.v fuel eps t count hf hl hh hsep hcount (curry3' init) (curry3' junk)
  have hTv := withV_valid S hS c hv h3
  have hd1 : c.U S.pv = S.V S.pv := by rw [h3] at h5; exact h5
  have hdom : ∀ u v, InDom (S.withV c) u v ↔ InDom S u v := fun u v => by
    show _ ∧ _ ∧ c.U S.pv ≤ v ∧ v ≤ c.U c.n ↔ _
    rw [hd1, h6]; rfl
  refine ⟨S.withV c, by rw [insertV_eq, he]; rfl, hTv, h1, h2, rfl, rfl, rfl, rfl, hdom, fun u v hd col => ?_⟩
  obtain ⟨a1, a2, a3, a4⟩ := hd
  obtain ⟨b1, b2, b3, b4⟩ := (hdom u v).mpr ⟨a1, a2, a3, a4⟩
  rw [surf_evaluate S hS fuel hfu (by omega) u v a1 a2 a3 a4,
    surf_evaluate (S.withV c) hTv fuel hfu (by show c.n ≤ fuel; rw [h1]; exact hf) u v b1 b2 b3 b4]
  rw [withV_val S c h3 v (h7 v a3 a4), withV_val S c h3 v (h7 v a3 a4)]

end ordered

/-- The hypotheses on the example, a second copy of the inner knot 1 in direction u and a new knot 2 in direction v. -/
example : (∀ i, i < exSurf.mu → |1 - exSurf.U i| ≤ (1 / 100 : ℚ) → exSurf.U i = 1) ∧
    1 + findMultiplicity (fun _ => (1 / 100 : ℚ)) 1 exSurf.U exSurf.mu ≤ exSurf.pu ∧
    1 + findMultiplicity (fun _ => (1 / 100 : ℚ)) 2 exSurf.V exSurf.mv ≤ exSurf.pv ∧
    ((exSurf.insertU 9 (fun _ => 1 / 100) (fun _ _ _ => 5) (fun _ _ _ => 6) 1 1).bind
      fun T => T.evaluate 9 (1 / 2) 2 0) = some (241 / 54) ∧
    ((exSurf.insertV 9 (fun _ => 1 / 100) (fun _ _ _ => 5) (fun _ _ _ => 6) 2 1).bind
      fun T => T.evaluate 9 (1 / 2) 2 0) = some (241 / 54) := by
  refine ⟨fun i hi => ?_, by decide +kernel, by decide +kernel, by decide +kernel, by decide +kernel⟩
  have : i < 7 := hi
  interval_cases i <;> norm_num [exSurf, kvec]

/-! ## C63 -/

section ordered
variable [IsStrictOrderedRing K]

/-- `T` is a well formed surface of the same degrees on `[a, b] × [c, d]` taking there the values of `S`. -/
def SurfPiece (S : Surf K) (fuel : Nat) (T : Surf K) (ab cd : K × K) : Prop :=
  SValid T ∧ T.pu = S.pu ∧ T.pv = S.pv ∧ T.U T.pu = ab.1 ∧ T.U T.nu = ab.2 ∧ T.V T.pv = cd.1 ∧ T.V T.nv = cd.2 ∧
    ∀ u v, ab.1 ≤ u → u ≤ ab.2 → cd.1 ≤ v → v ≤ cd.2 → ∀ col, T.evaluate fuel u v col = S.evaluate fuel u v col

theorem piece_u (S : Surf K) (hS : SValid S) (fuel : Nat) (hfu : S.nu + S.pu ≤ fuel) (hfv : S.nv ≤ fuel) (c : Curve K) (a b : K)
    (ha : S.U S.pu ≤ a) (hb : b ≤ S.U S.nu) (h : ColPiece S.uCurve c a b) :
    SurfPiece S fuel (S.withU c) (a, b) (S.V S.pv, S.V S.nv) ∧ (S.withU c).nu = c.n := by
  obtain ⟨h1, h2, h3, h4, h5, h6, h7⟩ := h
  have h2' : c.degree = S.pu := h2
  rw [h2'] at h5
  have hv := withU_valid S hS c h1 h2
  refine ⟨⟨hv, rfl, rfl, h5, h6, rfl, rfl, fun u v hu1 hu2 hv1 hv2 col => ?_⟩, rfl⟩
  have hcn : c.n ≤ S.nu + S.pu := h4
  rw [surf_evaluate S hS fuel (by omega) hfv u v (le_trans ha hu1) (le_trans hu2 hb) hv1 hv2,
    surf_evaluate (S.withU c) hv fuel (by show c.n ≤ fuel; omega) hfv u v
      (by show c.U S.pu ≤ u; rw [h5]; exact hu1) (by show u ≤ c.U c.n; rw [h6]; exact hu2) hv1 hv2,
    withU_val S c h2 u (h7 u hu1 hu2), withU_val S c h2 u (h7 u hu1 hu2)]

theorem piece_v (S : Surf K) (hS : SValid S) (fuel : Nat) (hfu : S.nu ≤ fuel) (hfv : S.nv + S.pv ≤ fuel) (c : Curve K) (a b : K)
    (ha : S.V S.pv ≤ a) (hb : b ≤ S.V S.nv) (h : ColPiece S.vCurve c a b) :
    SurfPiece S fuel (S.withV c) (S.U S.pu, S.U S.nu) (a, b) ∧ (S.withV c).nv = c.n := by
  obtain ⟨h1, h2, h3, h4, h5, h6, h7⟩ := h
  have h2' : c.degree = S.pv := h2
  rw [h2'] at h5
  have hv := withV_valid S hS c h1 h2
  refine ⟨⟨hv, rfl, rfl, rfl, rfl, h5, h6, fun u v hu1 hu2 hv1 hv2 col => ?_⟩, rfl⟩
  have hcn : c.n ≤ S.nv + S.pv := h4
  rw [surf_evaluate S hS fuel hfu (by omega) u v hu1 hu2 (le_trans ha hv1) (le_trans hv2 hb),
    surf_evaluate (S.withV c) hv fuel hfu (by show c.n ≤ fuel; omega) u v hu1 hu2
      (by show c.U S.pv ≤ v; rw [h5]; exact hv1) (by show v ≤ c.U c.n; rw [h6]; exact hv2),
    withV_val S c h2 v (h7 v hv1 hv2), withV_val S c h2 v (h7 v hv1 hv2)]

/-- Conditions on a split parameter: inside the domain, further than `tol` from the ends of the knot vector, and told apart
from the knots it differs from by the multiplicity tolerance. -/
def SplitAt (c : Curve K) (eps : K → K) (tol t : K) : Prop :=
  c.U c.degree < t ∧ t < c.U c.n ∧ tol < t - c.U 0 ∧ tol < c.U (c.m - 1) - t ∧
    ∀ i, i < c.m → |t - c.U i| ≤ eps (c.U i) → c.U i = t

/-- **C63, direction u.** `split_surface_u` inside the domain, inner knots of multiplicity at most the degree, arbitrary
weights: no exception; both parts are well formed, have the degrees of the surface, lie on `[a, t]` and `[t, b]`, and
agree with the surface at every point of their domain, edges included. -/
theorem C63_split_surface_u (S : Surf K) (hS : SValid S) (hj : NoJump S.uCurve) (hdeg : 1 ≤ S.pu) (fuel : Nat) (eps : K → K)
    (heps : ∀ y, 0 ≤ eps y) (t tol : K) (hfu : S.nu + S.pu + 1 ≤ fuel) (hfv : S.nv ≤ fuel)
    (ht : SplitAt S.uCurve eps tol t) (init junk : Nat → Nat → Nat → K) :
    ∃ S1 S2, splitU S fuel eps tol init junk t = some (some (S1, S2)) ∧
      SurfPiece S fuel S1 (S.U S.pu, t) (S.V S.pv, S.V S.nv) ∧ SurfPiece S fuel S2 (t, S.U S.nu) (S.V S.pv, S.V S.nv) ∧
      S1.V = S.V ∧ S1.mv = S.mv ∧ S1.nv = S.nv ∧ S2.V = S.V ∧ S2.mv = S.mv ∧ S2.nv = S.nv ∧ S1.nu ≤ S.nu ∧ S2.nu ≤ S.nu := by
  obtain ⟨hl, hh, ht1, ht2, hsep⟩ := ht
  have hmult := mult_le_degree S.uCurve hS.u hj eps t hl hh hsep
  obtain ⟨c1, c2, h0, v1, v2, d1, d2, p1, p2, e1, e2, e3, e4, hn, f1, f2, _⟩ :=
    split_columns S.uCurve hS.u hdeg fuel eps heps t tol hfu hl hh ht1 ht2 hsep hmult (curry3 init) (curry3 junk)
  have hb1 := v1.npos
  have hb2 := v2.npos
  have hn' : c1.n + c2.n = S.nu + (S.pu - findMultiplicity eps t S.U S.mu) + 1 := hn
  have d1' : c1.degree = S.pu := d1
  have d2' : c2.degree = S.pu := d2
  refine ⟨S.withU c1, S.withU c2, by rw [splitU_eq, h0]; rfl, ?_, ?_, rfl, rfl, rfl, rfl, rfl, rfl, ?_, ?_⟩
  · exact (piece_u S hS fuel (by omega) hfv c1 _ _ (le_refl _) (le_of_lt hh)
      ⟨v1, d1, p1, by show c1.n ≤ S.nu + S.pu; omega, e1, e2, f1⟩).1
  · exact (piece_u S hS fuel (by omega) hfv c2 _ _ (le_of_lt hl) (le_refl _)
      ⟨v2, d2, p2, by show c2.n ≤ S.nu + S.pu; omega, e3, e4, f2⟩).1
  · show c1.n ≤ S.nu; omega
  · show c2.n ≤ S.nu; omega

/-- **C63, direction v.** -/
theorem C63_split_surface_v (S : Surf K) (hS : SValid S) (hj : NoJump S.vCurve) (hdeg : 1 ≤ S.pv) (fuel : Nat) (eps : K → K)
    (heps : ∀ y, 0 ≤ eps y) (t tol : K) (hfu : S.nu ≤ fuel) (hfv : S.nv + S.pv + 1 ≤ fuel)
    (ht : SplitAt S.vCurve eps tol t) (init junk : Nat → Nat → Nat → K) :
    ∃ S1 S2, splitV S fuel eps tol init junk t = some (some (S1, S2)) ∧
      SurfPiece S fuel S1 (S.U S.pu, S.U S.nu) (S.V S.pv, t) ∧ SurfPiece S fuel S2 (S.U S.pu, S.U S.nu) (t, S.V S.nv) ∧
      S1.U = S.U ∧ S1.mu = S.mu ∧ S1.nu = S.nu ∧ S2.U = S.U ∧ S2.mu = S.mu ∧ S2.nu = S.nu ∧ S1.nv ≤ S.nv ∧ S2.nv ≤ S.nv := by
  obtain ⟨hl, hh, ht1, ht2, hsep⟩ := ht
  have hmult := mult_le_degree S.vCurve hS.v hj eps t hl hh hsep
  obtain ⟨c1, c2, h0, v1, v2, d1, d2, p1, p2, e1, e2, e3, e4, hn, f1, f2, _⟩ :=
    split_columns S.vCurve hS.v hdeg fuel eps heps t tol hfv hl hh ht1 ht2 hsep hmult (curry3' init) (curry3' junk)
  have hb1 := v1.npos
  have hb2 := v2.npos
  have hn' : c1.n + c2.n = S.nv + (S.pv - findMultiplicity eps t S.V S.mv) + 1 := hn
  have d1' : c1.degree = S.pv := d1
  have d2' : c2.degree = S.pv := d2
  refine ⟨S.withV c1, S.withV c2, by rw [splitV_eq, h0]; rfl, ?_, ?_, rfl, rfl, rfl, rfl, rfl, rfl, ?_, ?_⟩
  · exact (piece_v S hS fuel hfu (by omega) c1 _ _ (le_refl _) (le_of_lt hh)
      ⟨v1, d1, p1, by show c1.n ≤ S.nv + S.pv; omega, e1, e2, f1⟩).1
  · exact (piece_v S hS fuel hfu (by omega) c2 _ _ (le_of_lt hl) (le_refl _)
      ⟨v2, d2, p2, by show c2.n ≤ S.nv + S.pv; omega, e3, e4, f2⟩).1
  · show c1.n ≤ S.nv; omega
  · show c2.n ≤ S.nv; omega

/-- At the ends of the knot range the split raises. -/
theorem C63_split_ends (S : Surf K) (fuel : Nat) (eps : K → K) (tol : K) (init junk : Nat → Nat → Nat → K) (t : K)
    (h : t ≤ S.U 0 ∨ S.U (S.mu - 1) ≤ t) : splitU S fuel eps tol init junk t = some none := by
  rw [splitU]
  simp only
  rw [if_pos (by rcases h with h | h
                 · exact Or.inl h
                 · exact Or.inr (Or.inl h))]

end ordered

theorem exSurf_splitU : SplitAt exSurf.uCurve (fun _ => 1 / 100) (1 / 100) (1 / 2) := by
  refine ⟨by norm_num [exSurf, Surf.uCurve, kvec], by norm_num [exSurf, Surf.uCurve, kvec],
    by norm_num [exSurf, Surf.uCurve, kvec], by norm_num [exSurf, Surf.uCurve, kvec], fun i hi => ?_⟩
  have : i < 7 := hi
  interval_cases i <;> norm_num [exSurf, Surf.uCurve, kvec, abs_le]

theorem exSurf_splitV : SplitAt exSurf.vCurve (fun _ => 1 / 100) (1 / 100) 1 := by
  refine ⟨by norm_num [exSurf, Surf.vCurve, kvec], by norm_num [exSurf, Surf.vCurve, kvec],
    by norm_num [exSurf, Surf.vCurve, kvec], by norm_num [exSurf, Surf.vCurve, kvec], fun i hi => ?_⟩
  have : i < 5 := hi
  interval_cases i <;> norm_num [exSurf, Surf.vCurve, kvec, abs_le]

/-- The hypotheses hold on the example (at a parameter between knots, and at the inner knot 1 of direction v), and the two
parts meet. -/
example : SValid exSurf ∧ NoJump exSurf.uCurve ∧ NoJump exSurf.vCurve ∧
    SplitAt exSurf.uCurve (fun _ => 1 / 100) (1 / 100) (1 / 2) ∧ SplitAt exSurf.vCurve (fun _ => 1 / 100) (1 / 100) 1 ∧
    ((splitU exSurf 20 (fun _ => 1 / 100) (1 / 100) (fun _ _ _ => 5) (fun _ _ _ => 6) (1 / 2)).map
      (Option.map fun p => (p.1.evaluate 20 (1 / 2) 2 0, p.2.evaluate 20 (1 / 2) 2 0, p.1.nu, p.2.nu))) =
      some (some (some (241 / 54), some (241 / 54), 3, 4)) :=
  ⟨exSurf_valid, exSurf_noJump.1, exSurf_noJump.2, exSurf_splitU, exSurf_splitV, by decide +kernel⟩

/-! ## C64 -/

section ordered
variable [IsStrictOrderedRing K]

/-- **C64.** With positive weights the box returned by `bbox` contains every point of the surface. -/
theorem C64_surface_bbox (S : Surf K) (hS : SValid S) (fuel : Nat) (hfu : S.nu ≤ fuel) (hfv : S.nv ≤ fuel)
    (hw : ∀ i j, i < S.nu → j < S.nv → 0 < S.P i j 3) (u v : K) (hd : InDom S u v) (col : Nat) :
    ∃ y, S.evaluate fuel u v col = some y ∧ (S.bbox col).1 ≤ y ∧ y ≤ (S.bbox col).2 := by
  obtain ⟨_, h⟩ := C61_surface_evaluate S hS fuel hfu hfv u v hd
  obtain ⟨_, lam, hpos, hsum, hev⟩ := h hw
  have hbox : ∀ i j, i < S.nu → j < S.nv → (S.bbox col).1 ≤ S.P i j col / S.P i j 3 ∧
      S.P i j col / S.P i j 3 ≤ (S.bbox col).2 := by
    intro i j hi hj
    have hlt : i * S.nv + j < S.nu * S.nv := by
      have : (i + 1) * S.nv ≤ S.nu * S.nv := Nat.mul_le_mul_right _ hi
      rw [Nat.add_mul, Nat.one_mul] at this
      omega
    have := aabbCol_spec (S.nu * S.nv) (fun f c => S.P (f / S.nv) (f % S.nv) c) col (i * S.nv + j) hlt
    have hd : (i * S.nv + j) / S.nv = i := by
      rw [Nat.add_comm, Nat.add_mul_div_right _ _ (by omega), Nat.div_eq_of_lt hj, Nat.zero_add]
    have hm : (i * S.nv + j) % S.nv = j := by
      rw [Nat.add_comm, Nat.add_mul_mod_self_right, Nat.mod_eq_of_lt hj]
    rw [hd, hm] at this
    exact this
  refine ⟨_, hev col, ?_, ?_⟩
  · calc (S.bbox col).1 = ∑ i ∈ range S.nu, ∑ j ∈ range S.nv, lam i j * (S.bbox col).1 := by
          simp only [← sum_mul]; rw [hsum, one_mul]
      _ ≤ _ := sum_le_sum fun i hi => sum_le_sum fun j hj =>
          mul_le_mul_of_nonneg_left (hbox i j (mem_range.mp hi) (mem_range.mp hj)).1
            (hpos i j (mem_range.mp hi) (mem_range.mp hj))
  · calc _ ≤ ∑ i ∈ range S.nu, ∑ j ∈ range S.nv, lam i j * (S.bbox col).2 := sum_le_sum fun i hi => sum_le_sum fun j hj =>
          mul_le_mul_of_nonneg_left (hbox i j (mem_range.mp hi) (mem_range.mp hj)).2
            (hpos i j (mem_range.mp hi) (mem_range.mp hj))
      _ = (S.bbox col).2 := by simp only [← sum_mul]; rw [hsum, one_mul]

end ordered

example : exSurf.bbox 0 = (0, 13) ∧ InDom exSurf (1 / 2) 2 ∧ exSurf.evaluate 4 (1 / 2) 2 0 = some (241 / 54) :=
  ⟨by decide +kernel, by norm_num [InDom, exSurf, kvec], by decide +kernel⟩

end Verif.Nurbs
