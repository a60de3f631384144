import Verif.Spl.Props2
import Verif.Spl.Props3
import Verif.NSDer.Props

/-! # C378, C379: smoothness of surfaces -/

namespace Verif.Spl
open Finset Polynomial Verif.Nurbs Verif.NDer Verif.NSDer

/-! ## C378: continuity -/

/-- Basis functions of degree `p` are continuous if no inner knot occurs more than `p` times. -/
theorem bspl_continuous (c : Curve ℝ) (hc : Valid c) (hs : MultLe c c.degree) (l : Nat) (hl : l < c.n) :
    ContinuousOn (fun x => bspl c.U c.n x c.degree l) (Set.Icc (c.U c.degree) (c.U c.n)) := by
  have key : ∀ q : Nat → ℝ, ContinuousOn (specVal c q) (Set.Icc (c.U c.degree) (c.U c.n)) := fun q =>
    glue_continuous c hc c.degree hs _ (fun i => splineP i c.U c.degree q)
      (fun i y hpi hy => by rw [specVal_eq c hc _ y i hy, eval_splineP i c.U c.degree c.n _ y hpi hy.1])
      (pieces_join c hc q 0 c.degree (le_refl _))
  have e : (fun x => bspl c.U c.n x c.degree l) = specVal c (fun k => if k = l then 1 else 0) := by
    funext x
    unfold specVal
    rw [sum_eq_single l]
    · simp
    · intro k _ h; simp [h]
    · intro h; exact absurd (mem_range.2 hl) h
  rw [e]
  exact key _

/-- The domain. -/
def dom (S : Surf ℝ) : Set (ℝ × ℝ) := Set.Icc (S.U S.pu) (S.U S.nu) ×ˢ Set.Icc (S.V S.pv) (S.V S.nv)

/-- **C378** A surface with positive weights is continuous on its domain, in both parameters together, if no inner knot occurs more often
than the degree. -/
theorem C378_continuous (S : Surf ℝ) (hS : SValid S) (hw : ∀ i j, i < S.nu → j < S.nv → 0 < S.P i j 3) (hu : MultLe S.uCurve S.pu)
    (hv : MultLe S.vCurve S.pv) (fuel : Nat) (hfu : S.nu ≤ fuel) (hfv : S.nv ≤ fuel) (col : Nat) :
    ContinuousOn (fun t : ℝ × ℝ => valueAt (S.evaluate fuel t.1 t.2 col)) (dom S) := by
  have key : ∀ k, ContinuousOn (fun t : ℝ × ℝ => surfVal S k t.1 t.2) (dom S) := fun k => by
    unfold surfVal
    refine continuousOn_finsetSum _ fun i hi => continuousOn_finsetSum _ fun j hj => ?_
    have h1 : ContinuousOn (fun t : ℝ × ℝ => bspl S.U S.nu t.1 S.pu i) (dom S) :=
      (bspl_continuous S.uCurve hS.u hu i (mem_range.1 hi)).comp continuousOn_fst fun t ht => ht.1
    have h2 : ContinuousOn (fun t : ℝ × ℝ => bspl S.V S.nv t.2 S.pv j) (dom S) :=
      (bspl_continuous S.vCurve hS.v hv j (mem_range.1 hj)).comp continuousOn_snd fun t ht => ht.2
    exact (h1.mul h2).mul continuousOn_const
  refine ((key col).div (key 3) fun t ht => ne_of_gt (weight_pos S hS t.1 t.2 ⟨ht.1.1, ht.1.2, ht.2.1, ht.2.2⟩ hw)).congr fun t ht => ?_
  show valueAt (S.evaluate fuel t.1 t.2 col) = _
  rw [surf_evaluate S hS fuel hfu hfv t.1 t.2 ht.1.1 ht.1.2 ht.2.1 ht.2.2 col]
  rfl

/-! ## C379: derivatives at knots -/

theorem entry_u (S : Surf ℝ) (hS : SValid S) (hdu : 1 ≤ S.pu) (fuel : Nat) (hfu : S.nu + 1 ≤ fuel)
    (g0 : Nat → Nat → ℝ) (vs : Nat) (y : ℝ) (ev : findSpan fuel S.nv S.pv y S.V false = some vs) (hpv : S.pv ≤ vs) (hv : Sp S.V S.nv y vs)
    (order k l col : Nat) (hk : k ≤ order) (hl : l ≤ order) (i : Nat) (x : ℝ) (hpi : S.pu ≤ i) (hx : Sp S.U S.nu x i) (hx2 : x < S.U S.nu) :
    num (surfaceDerivatives S fuel g0 x y order k l col) = (Polynomial.derivative^[k] (splineP i S.U S.pu fun a =>
      (Polynomial.derivative^[l] (splineP vs S.V S.pv fun b => S.P a b col)).eval y)).eval x := by
  obtain ⟨d1, _⟩ := sp_dom hS.u hpi hx
  obtain ⟨us, eu, hpu, hu⟩ := findSpan_more S.uCurve hS.u hdu fuel hfu x d1 hx2
  have hkn := hS.u.knots
  have hnp := hS.u.npos
  have : us = i := sp_unique S.U S.nu S.mu hS.u.mono (by simp only [Surf.uCurve] at hkn hnp; omega) x us i hu hx
  subst this
  rw [surfDer_eq S hS fuel g0 x y us vs eu ev hpu hpv hu hv order k l col hk hl, mixed_swap]
  rfl

theorem entry_v (S : Surf ℝ) (hS : SValid S) (hdv : 1 ≤ S.pv) (fuel : Nat) (hfv : S.nv + 1 ≤ fuel)
    (g0 : Nat → Nat → ℝ) (us : Nat) (x : ℝ) (eu : findSpan fuel S.nu S.pu x S.U false = some us) (hpu : S.pu ≤ us) (hu : Sp S.U S.nu x us)
    (order k l col : Nat) (hk : k ≤ order) (hl : l ≤ order) (j : Nat) (y : ℝ) (hpj : S.pv ≤ j) (hy : Sp S.V S.nv y j) (hy2 : y < S.V S.nv) :
    num (surfaceDerivatives S fuel g0 x y order k l col) = (Polynomial.derivative^[l] (splineP j S.V S.pv fun b =>
      (Polynomial.derivative^[k] (splineP us S.U S.pu fun a => S.P a b col)).eval x)).eval y := by
  obtain ⟨d1, _⟩ := sp_dom hS.v hpj hy
  obtain ⟨vs, ev, hpv, hv⟩ := findSpan_more S.vCurve hS.v hdv fuel hfv y d1 hy2
  have hkn := hS.v.knots
  have hnp := hS.v.npos
  have : vs = j := sp_unique S.V S.nv S.mv hS.v.mono (by simp only [Surf.vCurve] at hkn hnp; omega) y vs j hv hy
  subst this
  rw [surfDer_eq S hS fuel g0 x y us vs eu ev hpu hpv hu hv order k l col hk hl]
  rfl

/-- A function made of the `k`-th derivatives of the pieces of a spline has the `k + 1`-st as derivative, also at the knots. -/
theorem pieces_deriv (c : Curve ℝ) (hc : Valid c) (q : Nat → ℝ) (k s : Nat) (hs : MultLe c s) (hks : s + (k + 1) ≤ c.degree)
    (f : ℝ → ℝ) (hf : ∀ i y, c.degree ≤ i → Sp c.U c.n y i → y < c.U c.n → f y = (Polynomial.derivative^[k] (splineP i c.U c.degree q)).eval y)
    (x : ℝ) (hl : c.U c.degree < x) (hh : x < c.U c.n) (i : Nat) (hpi : c.degree ≤ i) (hsp : Sp c.U c.n x i) :
    HasDerivAt f ((Polynomial.derivative^[k + 1] (splineP i c.U c.degree q)).eval x) x := by
  have hkn := hc.knots
  obtain ⟨j, hpj, hji, hjx, hjj, hall, hyj⟩ := prev_span c.U c.m c.n c.degree hc.mono (by omega) x i hsp hpi hl
  have hd := span_dist c hc s hs x i j hsp hji hl hall
  have hnp := hc.npos
  let g : ℝ → ℝ := fun y => if y < c.U c.n then f y else (Polynomial.derivative^[k] (splineP (c.n - 1) c.U c.degree q)).eval y
  have hg : ∀ i y, c.degree ≤ i → Sp c.U c.n y i → g y = (Polynomial.derivative^[k] (splineP i c.U c.degree q)).eval y := by
    intro i y hpi hy
    by_cases h : y < c.U c.n
    · show (if y < c.U c.n then _ else _) = _
      rw [if_pos h]; exact hf i y hpi hy h
    · show (if y < c.U c.n then _ else _) = _
      rw [if_neg h]
      rcases hy.2.2.2 with h' | ⟨h', _⟩
      · exact absurd (lt_of_lt_of_le h' (hc.mono _ _ (by have := hy.1; omega) (by omega))) h
      · rw [show c.n - 1 = i by omega]
  have hr := glue_right c g _ x i hsp (fun y hy => hg i y hpi hy) hh
  have hlft := glue_left c g _ x j hjx hyj (fun y hy => hg j y hpj hy) (by
    rw [hg i x hpi hsp]
    exact (pieces_join c hc _ k s (by omega) j i x hpj hji hd hsp hjx hjj hall).symm)
  rw [← Function.iterate_succ_apply' Polynomial.derivative k] at hr hlft
  rw [pieces_join c hc q (k + 1) s hks j i x hpj hji hd hsp hjx hjj hall] at hlft
  have := hlft.union hr
  rw [Set.Iic_union_Ici, hasDerivWithinAt_univ] at this
  refine this.congr_of_eventuallyEq ?_
  filter_upwards [Iio_mem_nhds hh] with y hy
  show f y = if y < c.U c.n then f y else _
  rw [if_pos (Set.mem_Iio.1 hy)]

/-- **C379** Entry `(k + 1, l)` of `surface_derivatives` is the derivative along `u` of entry `(k, l)` at every parameter inside the domain,
knots included, if no inner knot of `u` occurs more often than the degree minus `k + 1`. -/
theorem C379_u (S : Surf ℝ) (hS : SValid S) (hdu : 1 ≤ S.pu) (hdv : 1 ≤ S.pv) (fuel : Nat) (hfu : S.nu + 1 ≤ fuel) (hfv : S.nv + 1 ≤ fuel)
    (g0 : Nat → Nat → ℝ) (order k l col s : Nat) (hk : k + 1 ≤ order) (hl : l ≤ order) (hs : MultLe S.uCurve s) (hks : s + (k + 1) ≤ S.pu)
    (u v : ℝ) (hu1 : S.U S.pu < u) (hu2 : u < S.U S.nu) (hv1 : S.V S.pv ≤ v) (hv2 : v < S.V S.nv) :
    HasDerivAt (fun t => num (surfaceDerivatives S fuel g0 t v order k l col)) (num (surfaceDerivatives S fuel g0 u v order (k + 1) l col)) u := by
  obtain ⟨vs, ev, hpv, hv⟩ := findSpan_more S.vCurve hS.v hdv fuel hfv v hv1 hv2
  obtain ⟨i, hpi, hsp⟩ := exists_span S.uCurve hS.u u hu1.le hu2.le
  rw [entry_u S hS hdu fuel hfu g0 vs v ev hpv hv order (k + 1) l col hk hl i u hpi hsp hu2]
  exact pieces_deriv S.uCurve hS.u _ k s hs hks _
    (fun i y hpi hy h => entry_u S hS hdu fuel hfu g0 vs v ev hpv hv order k l col (by omega) hl i y hpi hy h) u hu1 hu2 i hpi hsp

/-- **C379** The same along `v`. -/
theorem C379_v (S : Surf ℝ) (hS : SValid S) (hdu : 1 ≤ S.pu) (hdv : 1 ≤ S.pv) (fuel : Nat) (hfu : S.nu + 1 ≤ fuel) (hfv : S.nv + 1 ≤ fuel)
    (g0 : Nat → Nat → ℝ) (order k l col s : Nat) (hk : k ≤ order) (hl : l + 1 ≤ order) (hs : MultLe S.vCurve s) (hks : s + (l + 1) ≤ S.pv)
    (u v : ℝ) (hu1 : S.U S.pu ≤ u) (hu2 : u < S.U S.nu) (hv1 : S.V S.pv < v) (hv2 : v < S.V S.nv) :
    HasDerivAt (fun t => num (surfaceDerivatives S fuel g0 u t order k l col)) (num (surfaceDerivatives S fuel g0 u v order k (l + 1) col)) v := by
  obtain ⟨us, eu, hpu, hu⟩ := findSpan_more S.uCurve hS.u hdu fuel hfu u hu1 hu2
  obtain ⟨j, hpj, hsp⟩ := exists_span S.vCurve hS.v v hv1.le hv2.le
  rw [entry_v S hS hdv fuel hfv g0 us u eu hpu hu order k (l + 1) col hk hl j v hpj hsp hv2]
  exact pieces_deriv S.vCurve hS.v _ l s hs hks _
    (fun i y hpi hy h => entry_v S hS hdv fuel hfv g0 us u eu hpu hu order k l col hk (by omega) i y hpi hy h) v hv1 hv2 j hpj hsp

/-- A surface of degrees 2 and 2 with the knots 0, 0, 0, 1, 2, 2, 2 in both directions. -/
noncomputable def exS : Surf ℝ :=
  { pu := 2, pv := 2, nu := 4, nv := 4, mu := 7, mv := 7, U := fun l => if l < 3 then 0 else if l < 4 then 1 else 2,
    V := fun l => if l < 3 then 0 else if l < 4 then 1 else 2, P := fun i j c => if c = 3 then (i : ℝ) + 1 else (i : ℝ) * j }

theorem exS_ok : SValid exS ∧ MultLe exS.uCurve 1 ∧ MultLe exS.vCurve 1 ∧ MultLe exS.uCurve 2 ∧ MultLe exS.vCurve 2 ∧
    (∀ i j, i < exS.nu → j < exS.nv → 0 < exS.P i j 3) ∧ exS.U exS.pu < 1 ∧ 1 < exS.U exS.nu := by
  have hm : MonoUpTo (fun l => if l < 3 then (0 : ℝ) else if l < 4 then 1 else 2) 7 := by
    intro a b hab hb
    dsimp only
    split_ifs <;> first | omega | norm_num
  have h1 : ∀ s, 1 ≤ s → ∀ k : Nat, (if 2 < 3 then (0 : ℝ) else if 2 < 4 then 1 else 2) < (if k < 3 then (0 : ℝ) else if k < 4 then 1 else 2) →
      (if k < 3 then (0 : ℝ) else if k < 4 then 1 else 2) < (if 4 < 3 then (0 : ℝ) else if 4 < 4 then 1 else 2) →
      (if k < 3 then (0 : ℝ) else if k < 4 then 1 else 2) < (if k + s < 3 then (0 : ℝ) else if k + s < 4 then 1 else 2) := by
    intro s hs k a b
    by_cases h3 : k < 3
    · simp [h3] at a
    · by_cases h4 : k < 4
      · have e1 : ¬ k + s < 3 := by omega
        have e2 : ¬ k + s < 4 := by omega
        simp [h3, h4, e1, e2]
      · simp [h3, h4] at b
  refine ⟨⟨⟨by norm_num [exS, Surf.uCurve], rfl, hm, by norm_num [exS, Surf.uCurve]⟩, ⟨by norm_num [exS, Surf.vCurve], rfl, hm, by norm_num [exS, Surf.vCurve]⟩⟩,
    fun k _ => h1 1 (by norm_num) k, fun k _ => h1 1 (by norm_num) k, fun k _ => h1 2 (by norm_num) k, fun k _ => h1 2 (by norm_num) k, ?_, ?_, ?_⟩
  · intro i j _ _
    have : exS.P i j 3 = (i : ℝ) + 1 := by simp [exS]
    rw [this]; positivity
  · norm_num [exS]
  · norm_num [exS]

example (g0 : Nat → Nat → ℝ) : ContinuousOn (fun t : ℝ × ℝ => valueAt (exS.evaluate 4 t.1 t.2 0)) (dom exS) ∧
    HasDerivAt (fun t => num (surfaceDerivatives exS 5 g0 t 1 1 0 0 0)) (num (surfaceDerivatives exS 5 g0 1 1 1 1 0 0)) 1 := by
  obtain ⟨h, m1, m1', m2, m2', hw, a, b⟩ := exS_ok
  exact ⟨C378_continuous exS h hw m2 m2' 4 (le_refl _) (le_refl _) 0,
    C379_u exS h (by norm_num [exS]) (by norm_num [exS]) 5 (le_refl _) (le_refl _) g0 1 0 0 0 1 (by norm_num) (by norm_num) m1 (le_refl _) 1 1 a b
      a.le b⟩

end Verif.Spl
