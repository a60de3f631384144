import Verif.Spl.Props
import Verif.Nurbs.Props3

/-! # C374–C377: what the control points say about the surface -/

set_option linter.unusedSectionVars false

namespace Verif.Spl
open Finset Verif.Nurbs Verif.NDer

variable {K : Type} [Field K] [LinearOrder K] [IsStrictOrderedRing K]

/-! ## Basis functions -/

/-- At the start of clamped knots only the first basis function is not zero. -/
theorem bspl_start (c : Curve K) (hc : Valid c) (hx : ∀ k, 1 ≤ k → k ≤ c.degree → c.U k = c.U c.degree) (hx1 : c.U c.degree < c.U (c.degree + 1)) (l : Nat) :
    bspl c.U c.n (c.U c.degree) c.degree l = if l = 0 then 1 else 0 := by
  have hk := hc.knots
  have hnp := hc.npos
  have hsp : Sp c.U c.n (c.U c.degree) c.degree := ⟨hnp, hx1, le_refl _, Or.inl hx1⟩
  rw [bspl_eq c.U c.n c.m hc.mono (by omega) hc.last _ c.degree hsp,
    cox_left c.U c.degree _ (ne_of_gt hx1) c.degree (le_refl _) (fun k a b => hx k (by omega) b)]
  simp [spike]

/-- At the end of clamped knots only the last one. -/
theorem bspl_end (c : Curve K) (hc : Valid c) (hx : ∀ k, c.n ≤ k → k + 1 ≤ c.n + c.degree → c.U k = c.U c.n) (l : Nat) :
    bspl c.U c.n (c.U c.n) c.degree l = if l = c.n - 1 then 1 else 0 := by
  have hk := hc.knots
  have hnp := hc.npos
  have hn1 : c.n - 1 + 1 = c.n := by omega
  have hsp : Sp c.U c.n (c.U c.n) (c.n - 1) := ⟨by omega, by rw [hn1]; exact hc.last, hc.last.le, Or.inr ⟨hn1, rfl⟩⟩
  rw [bspl_eq c.U c.n c.m hc.mono (by omega) hc.last _ (c.n - 1) hsp,
    cox_right c.U (c.n - 1) (c.U c.n) (ne_of_lt hc.last) c.degree (fun k a b => hx k (by omega) (by omega))]
  simp [spike]

/-- The parameter is outside of the knots of basis function `j`. -/
def Outside (U : Nat → K) (n p j : Nat) (x : K) : Prop := x < U j ∨ (U (j + p + 1) ≤ x ∧ (x < U n ∨ j + p + 1 < n))

theorem bspl_outside (c : Curve K) (hc : Valid c) (x : K) (h1 : c.U c.degree ≤ x) (h2 : x ≤ c.U c.n) (j : Nat) (hj : j < c.n)
    (hx : Outside c.U c.n c.degree j x) : bspl c.U c.n x c.degree j = 0 := by
  have hk := hc.knots
  have hnp := hc.npos
  obtain ⟨i, _, hpi, hsp⟩ := findSpan_sp c.n c.n c.degree x c.U hnp (le_refl _) c.m hc.mono (by omega) hc.last h1 h2
  rw [bspl_eq c.U c.n c.m hc.mono (by omega) hc.last x i hsp]
  apply cox_spike_out
  obtain ⟨b1, b2, b3, b4⟩ := hsp
  rcases hx with h | ⟨h1, h2⟩
  · left
    by_contra hcon
    exact absurd (lt_of_lt_of_le h (hc.mono j i (by omega) (by omega))) (not_lt.2 b3)
  · right
    by_contra hcon
    rcases b4 with b4 | ⟨b4, b5⟩
    · exact absurd (lt_of_le_of_lt h1 b4) (not_lt.2 (hc.mono (i + 1) (j + c.degree + 1) (by omega) (by omega)))
    · rcases h2 with h2 | h2
      · exact absurd b5 (ne_of_lt h2)
      · omega

/-- The Greville abscissae reproduce the parameter. -/
theorem bspl_greville (c : Curve K) (hc : Valid c) (hp : 1 ≤ c.degree) (x : K) (h1 : c.U c.degree ≤ x) (h2 : x ≤ c.U c.n) :
    ∑ l ∈ range c.n, greville c.U c.degree l * bspl c.U c.n x c.degree l = x := by
  have hk := hc.knots
  have hnp := hc.npos
  obtain ⟨i, _, hpi, hsp⟩ := findSpan_sp c.n c.n c.degree x c.U hnp (le_refl _) c.m hc.mono (by omega) hc.last h1 h2
  have hi := hsp.1
  show specVal c (fun l => greville c.U c.degree l) x = x
  rw [specVal_eq c hc _ x i hsp, spline_window c.U c.degree c.n _ x i hpi hsp.1]
  have h2 := cox_ksum c.U c.m hc.mono i hsp.2.1 x c.degree hpi (by omega)
  have hp0 : (c.degree : K) ≠ 0 := by positivity
  have e : ∀ r ∈ range (c.degree + 1), greville c.U c.degree (i - c.degree + r) * cox (spike i) c.U x c.degree (i - c.degree + r) =
      1 / c.degree * (ksum c.U c.degree (i - c.degree + r) * cox (spike i) c.U x c.degree (i - c.degree + r)) := by
    intro r _
    rw [greville_eq]
    show ksum c.U c.degree (i - c.degree + r) / c.degree * _ = _
    ring
  rw [sum_congr rfl e, ← mul_sum, h2]
  field_simp

/-- With positive weights the denominator is positive. -/
theorem weight_pos (S : Surf K) (hS : SValid S) (u v : K) (hd : InDom S u v) (hw : ∀ i j, i < S.nu → j < S.nv → 0 < S.P i j 3) :
    0 < surfVal S 3 u v :=
  ((C61_surface_evaluate S hS (max S.nu S.nv) (le_max_left _ _) (le_max_right _ _) u v hd).2 hw).1

/-! ## C374: edges and corners -/

/-- The curve of the control points of row `j` (`v` fixed). -/
def rowU (S : Surf K) (j : Nat) : Curve K :=
  { degree := S.pu, n := S.nu, m := S.mu, U := S.U, periodic := false,
    P := fun i col => if col = 3 then S.P i j 3 else S.P i j col / S.P i j 3 }

/-- The curve of the control points of column `i` (`u` fixed). -/
def rowV (S : Surf K) (i : Nat) : Curve K :=
  { degree := S.pv, n := S.nv, m := S.mv, U := S.V, periodic := false,
    P := fun j col => if col = 3 then S.P i j 3 else S.P i j col / S.P i j 3 }

theorem edge_u (S : Surf K) (hS : SValid S) (fuel : Nat) (hfu : S.nu ≤ fuel) (hfv : S.nv ≤ fuel) (u v : K) (hd : InDom S u v) (j : Nat)
    (hj : j < S.nv) (hv : ∀ l, bspl S.V S.nv v S.pv l = if l = j then 1 else 0) (hw : ∀ i, i < S.nu → S.P i j 3 ≠ 0) (col : Nat) (hcol : col ≠ 3) :
    S.evaluate fuel u v col = (rowU S j).evaluate fuel u col := by
  obtain ⟨hu1, hu2, hv1, hv2⟩ := hd
  have hc : Valid (rowU S j) := ⟨hS.u.npos, hS.u.knots, hS.u.mono, hS.u.last⟩
  rw [surf_evaluate S hS fuel hfu hfv u v hu1 hu2 hv1 hv2 col, C35_evaluate_is_rational_spline (rowU S j) hc rfl fuel hfu u hu1 hu2 col]
  have e : ∀ k, surfVal S k u v = specVal S.uCurve (fun i => S.P i j k) u := fun k => by
    rw [surfVal_u, sum_eq_single j]
    · rw [hv, if_pos rfl, one_mul]
    · intro l _ h; rw [hv, if_neg h, zero_mul]
    · intro h; exact absurd (mem_range.2 hj) h
  rw [e, e]
  have e1 : specVal (rowU S j) (fun l => (rowU S j).P l 3 * (rowU S j).P l col) u = specVal S.uCurve (fun i => S.P i j col) u := by
    unfold specVal
    refine sum_congr rfl fun l hl => ?_
    have := hw l (mem_range.1 hl)
    show (rowU S j).P l 3 * (rowU S j).P l col * bspl S.U S.nu u S.pu l = S.P l j col * bspl S.U S.nu u S.pu l
    simp only [rowU, if_true, if_neg hcol]
    rw [mul_div_cancel₀ _ this]
  have e2 : specVal (rowU S j) (fun l => (rowU S j).P l 3) u = specVal S.uCurve (fun i => S.P i j 3) u := rfl
  rw [e1, e2]

theorem edge_v (S : Surf K) (hS : SValid S) (fuel : Nat) (hfu : S.nu ≤ fuel) (hfv : S.nv ≤ fuel) (u v : K) (hd : InDom S u v) (i : Nat)
    (hi : i < S.nu) (hu : ∀ l, bspl S.U S.nu u S.pu l = if l = i then 1 else 0) (hw : ∀ j, j < S.nv → S.P i j 3 ≠ 0) (col : Nat) (hcol : col ≠ 3) :
    S.evaluate fuel u v col = (rowV S i).evaluate fuel v col := by
  obtain ⟨hu1, hu2, hv1, hv2⟩ := hd
  have hc : Valid (rowV S i) := ⟨hS.v.npos, hS.v.knots, hS.v.mono, hS.v.last⟩
  rw [surf_evaluate S hS fuel hfu hfv u v hu1 hu2 hv1 hv2 col, C35_evaluate_is_rational_spline (rowV S i) hc rfl fuel hfv v hv1 hv2 col]
  have e : ∀ k, surfVal S k u v = specVal S.vCurve (fun j => S.P i j k) v := fun k => by
    rw [surfVal_v, sum_eq_single i]
    · rw [hu, if_pos rfl, one_mul]
    · intro l _ h; rw [hu, if_neg h, zero_mul]
    · intro h; exact absurd (mem_range.2 hi) h
  rw [e, e]
  have e1 : specVal (rowV S i) (fun l => (rowV S i).P l 3 * (rowV S i).P l col) v = specVal S.vCurve (fun j => S.P i j col) v := by
    unfold specVal
    refine sum_congr rfl fun l hl => ?_
    have := hw l (mem_range.1 hl)
    show (rowV S i).P l 3 * (rowV S i).P l col * bspl S.V S.nv v S.pv l = S.P i l col * bspl S.V S.nv v S.pv l
    simp only [rowV, if_true, if_neg hcol]
    rw [mul_div_cancel₀ _ this]
  have e2 : specVal (rowV S i) (fun l => (rowV S i).P l 3) v = specVal S.vCurve (fun j => S.P i j 3) v := rfl
  rw [e1, e2]

/-- Knots with the end knots repeated: at least degree times at the start, followed by another knot, and at least degree times at the end. -/
structure Clamp (c : Curve K) : Prop where
  start : ∀ k, 1 ≤ k → k ≤ c.degree → c.U k = c.U c.degree
  inner : c.U c.degree < c.U (c.degree + 1)
  ending : ∀ k, c.n ≤ k → k + 1 ≤ c.n + c.degree → c.U k = c.U c.n

theorem dom_le (c : Curve K) (hc : Valid c) : c.U c.degree ≤ c.U c.n := by
  have := hc.npos; have := hc.knots
  exact hc.mono _ _ (by omega) (by omega)

/-- **C374** The edges of a clamped surface are the curves of the control points of its border. -/
theorem C374_edges (S : Surf K) (hS : SValid S) (fuel : Nat) (hfu : S.nu ≤ fuel) (hfv : S.nv ≤ fuel) (cu : Clamp S.uCurve) (cv : Clamp S.vCurve)
    (hw : ∀ i j, i < S.nu → j < S.nv → S.P i j 3 ≠ 0) (col : Nat) (hcol : col ≠ 3) :
    (∀ u, S.U S.pu ≤ u → u ≤ S.U S.nu → S.evaluate fuel u (S.V S.pv) col = (rowU S 0).evaluate fuel u col ∧
      S.evaluate fuel u (S.V S.nv) col = (rowU S (S.nv - 1)).evaluate fuel u col) ∧
    (∀ v, S.V S.pv ≤ v → v ≤ S.V S.nv → S.evaluate fuel (S.U S.pu) v col = (rowV S 0).evaluate fuel v col ∧
      S.evaluate fuel (S.U S.nu) v col = (rowV S (S.nu - 1)).evaluate fuel v col) := by
  have nu := hS.u.npos
  have nv := hS.v.npos
  have du := dom_le S.uCurve hS.u
  have dv := dom_le S.vCurve hS.v
  simp only [Surf.uCurve, Surf.vCurve] at nu nv du dv
  refine ⟨fun u h1 h2 => ⟨?_, ?_⟩, fun v h1 h2 => ⟨?_, ?_⟩⟩
  · exact edge_u S hS fuel hfu hfv u _ ⟨h1, h2, le_refl _, dv⟩ 0 (by omega) (bspl_start S.vCurve hS.v cv.start cv.inner)
      (fun i hi => hw i 0 hi (by omega)) col hcol
  · exact edge_u S hS fuel hfu hfv u _ ⟨h1, h2, dv, le_refl _⟩ (S.nv - 1) (by omega) (bspl_end S.vCurve hS.v cv.ending)
      (fun i hi => hw i _ hi (by omega)) col hcol
  · exact edge_v S hS fuel hfu hfv _ v ⟨le_refl _, du, h1, h2⟩ 0 (by omega) (bspl_start S.uCurve hS.u cu.start cu.inner)
      (fun j hj => hw 0 j (by omega) hj) col hcol
  · exact edge_v S hS fuel hfu hfv _ v ⟨du, le_refl _, h1, h2⟩ (S.nu - 1) (by omega) (bspl_end S.uCurve hS.u cu.ending)
      (fun j hj => hw _ j (by omega) hj) col hcol

/-- **C374** Its corners are the control points at the corners. -/
theorem C374_corners (S : Surf K) (hS : SValid S) (fuel : Nat) (hfu : S.nu ≤ fuel) (hfv : S.nv ≤ fuel) (cu : Clamp S.uCurve) (cv : Clamp S.vCurve)
    (hw : ∀ i j, i < S.nu → j < S.nv → S.P i j 3 ≠ 0) (col : Nat) (hcol : col ≠ 3) :
    S.evaluate fuel (S.U S.pu) (S.V S.pv) col = some (S.P 0 0 col / S.P 0 0 3) ∧
    S.evaluate fuel (S.U S.nu) (S.V S.pv) col = some (S.P (S.nu - 1) 0 col / S.P (S.nu - 1) 0 3) ∧
    S.evaluate fuel (S.U S.pu) (S.V S.nv) col = some (S.P 0 (S.nv - 1) col / S.P 0 (S.nv - 1) 3) ∧
    S.evaluate fuel (S.U S.nu) (S.V S.nv) col = some (S.P (S.nu - 1) (S.nv - 1) col / S.P (S.nu - 1) (S.nv - 1) 3) := by
  have nu := hS.u.npos
  have nv := hS.v.npos
  have du := dom_le S.uCurve hS.u
  have dv := dom_le S.vCurve hS.v
  have hu : ∀ j, Valid (rowU S j) := fun j => ⟨hS.u.npos, hS.u.knots, hS.u.mono, hS.u.last⟩
  simp only [Surf.uCurve, Surf.vCurve] at nu nv du dv
  obtain ⟨he, -⟩ := C374_edges S hS fuel hfu hfv cu cv hw col hcol
  have s0 : ∀ j, j < S.nv → (rowU S j).evaluate fuel (S.U S.pu) col = some (S.P 0 j col / S.P 0 j 3) := fun j hj => by
    have := C339_start (rowU S j) (hu j) rfl fuel hfu cu.start cu.inner (by simpa [rowU] using hw 0 j (by omega) hj) col
    simpa [rowU, hcol] using this
  have s1 : ∀ j, j < S.nv → (rowU S j).evaluate fuel (S.U S.nu) col = some (S.P (S.nu - 1) j col / S.P (S.nu - 1) j 3) := fun j hj => by
    have := C339_end (rowU S j) (hu j) rfl fuel hfu cu.ending (by simpa [rowU] using hw (S.nu - 1) j (by omega) hj) col
    simpa [rowU, hcol] using this
  refine ⟨?_, ?_, ?_, ?_⟩
  · rw [(he _ (le_refl _) du).1, s0 0 (by omega)]
  · rw [(he _ du (le_refl _)).1, s1 0 (by omega)]
  · rw [(he _ (le_refl _) du).2, s0 _ (by omega)]
  · rw [(he _ du (le_refl _)).2, s1 _ (by omega)]

/-! ## C375: locality -/

/-- **C375** Changing one control point and its weight changes the surface only on the rectangle of knots belonging to it. -/
theorem C375_local (S S' : Surf K) (hS : SValid S) (a b : Nat) (ha : a < S.nu) (hb : b < S.nv)
    (e : S' = { S with P := S'.P }) (hP : ∀ i j, (i, j) ≠ (a, b) → S'.P i j = S.P i j) (fuel : Nat) (hfu : S.nu ≤ fuel) (hfv : S.nv ≤ fuel)
    (u v : K) (hd : InDom S u v) (hx : Outside S.U S.nu S.pu a u ∨ Outside S.V S.nv S.pv b v) (col : Nat) :
    S'.evaluate fuel u v col = S.evaluate fuel u v col := by
  obtain ⟨hu1, hu2, hv1, hv2⟩ := hd
  have hS' : SValid S' := by
    rw [e]; exact ⟨⟨hS.u.npos, hS.u.knots, hS.u.mono, hS.u.last⟩, ⟨hS.v.npos, hS.v.knots, hS.v.mono, hS.v.last⟩⟩
  have hz : bspl S.U S.nu u S.pu a * bspl S.V S.nv v S.pv b = 0 := by
    rcases hx with h | h
    · have : bspl S.U S.nu u S.pu a = 0 := bspl_outside S.uCurve hS.u u hu1 hu2 a ha h
      rw [this, zero_mul]
    · have : bspl S.V S.nv v S.pv b = 0 := bspl_outside S.vCurve hS.v v hv1 hv2 b hb h
      rw [this, mul_zero]
  have key : ∀ k, surfVal S' k u v = surfVal S k u v := fun k => by
    rw [e]
    unfold surfVal
    refine sum_congr rfl fun i _ => sum_congr rfl fun j _ => ?_
    by_cases h : (i, j) = (a, b)
    · obtain ⟨rfl, rfl⟩ := Prod.mk.inj h
      show bspl S.U S.nu u S.pu i * bspl S.V S.nv v S.pv j * S'.P i j k = _
      rw [hz, zero_mul, zero_mul]
    · show bspl S.U S.nu u S.pu i * bspl S.V S.nv v S.pv j * S'.P i j k = _
      rw [hP i j h]
  have q1 : S'.nu = S.nu ∧ S'.nv = S.nv ∧ S'.U = S.U ∧ S'.V = S.V ∧ S'.pu = S.pu ∧ S'.pv = S.pv := by rw [e]; simp
  obtain ⟨q1, q2, q3, q4, q5, q6⟩ := q1
  rw [surf_evaluate S hS fuel hfu hfv u v hu1 hu2 hv1 hv2 col,
    surf_evaluate S' hS' fuel (by rw [q1]; exact hfu) (by rw [q2]; exact hfv) u v (by rw [q3, q5]; exact hu1) (by rw [q3, q1]; exact hu2)
      (by rw [q4, q6]; exact hv1) (by rw [q4, q2]; exact hv2) col, key, key]

/-! ## C376: affine maps -/

/-- The surface whose control points (homogeneous, as stored) are moved by the affine map with matrix `A` and shift `b`. -/
def movedS (S : Surf K) (A : Nat → Nat → K) (b : Nat → K) : Surf K :=
  { S with P := fun i j col => if col = 3 then S.P i j 3 else A col 0 * S.P i j 0 + A col 1 * S.P i j 1 + A col 2 * S.P i j 2 + b col * S.P i j 3 }

/-- **C376** Moving the control points of a surface with positive weights by an affine map moves all its points by that map. -/
theorem C376_affine (S : Surf K) (hS : SValid S) (hw : ∀ i j, i < S.nu → j < S.nv → 0 < S.P i j 3) (A : Nat → Nat → K) (b : Nat → K)
    (fuel : Nat) (hfu : S.nu ≤ fuel) (hfv : S.nv ≤ fuel) (u v : K) (hd : InDom S u v) :
    ∃ q : Nat → K, (∀ col, S.evaluate fuel u v col = some (q col)) ∧
      ∀ col, col ≠ 3 → (movedS S A b).evaluate fuel u v col = some (A col 0 * q 0 + A col 1 * q 1 + A col 2 * q 2 + b col) := by
  have hpos := weight_pos S hS u v hd hw
  obtain ⟨hu1, hu2, hv1, hv2⟩ := hd
  have hS' : SValid (movedS S A b) := ⟨⟨hS.u.npos, hS.u.knots, hS.u.mono, hS.u.last⟩, ⟨hS.v.npos, hS.v.knots, hS.v.mono, hS.v.last⟩⟩
  refine ⟨fun col => surfVal S col u v / surfVal S 3 u v, surf_evaluate S hS fuel hfu hfv u v hu1 hu2 hv1 hv2, fun col hcol => ?_⟩
  rw [surf_evaluate _ hS' fuel hfu hfv u v hu1 hu2 hv1 hv2 col]
  have e1 : surfVal (movedS S A b) 3 u v = surfVal S 3 u v := by
    unfold surfVal; rfl
  have e2 : surfVal (movedS S A b) col u v = A col 0 * surfVal S 0 u v + A col 1 * surfVal S 1 u v + A col 2 * surfVal S 2 u v +
      b col * surfVal S 3 u v := by
    unfold surfVal
    simp only [movedS, if_neg hcol, mul_sum, ← sum_add_distrib]
    refine sum_congr rfl fun i _ => sum_congr rfl fun j _ => ?_
    ring
  rw [e1, e2]
  congr 1
  have := ne_of_gt hpos
  field_simp

/-! ## C377: linear precision -/

/-- **C377** A surface with equal weights and degrees at least one whose control points are an affine function of the Greville abscissae is
that affine function of the parameters. -/
theorem C377_linear (S : Surf K) (hS : SValid S) (hpu : 1 ≤ S.pu) (hpv : 1 ≤ S.pv) (w : K) (hw0 : w ≠ 0)
    (hw : ∀ i j, i < S.nu → j < S.nv → S.P i j 3 = w) (col : Nat) (a b d : K)
    (hP : ∀ i j, i < S.nu → j < S.nv → S.P i j col = w * (a + b * greville S.U S.pu i + d * greville S.V S.pv j))
    (fuel : Nat) (hfu : S.nu ≤ fuel) (hfv : S.nv ≤ fuel) (u v : K) (hd : InDom S u v) :
    S.evaluate fuel u v col = some (a + b * u + d * v) := by
  obtain ⟨hu1, hu2, hv1, hv2⟩ := hd
  have su : ∑ i ∈ range S.nu, bspl S.U S.nu u S.pu i = 1 := bspl_sum_one S.uCurve hS.u u hu1 hu2
  have sv : ∑ j ∈ range S.nv, bspl S.V S.nv v S.pv j = 1 := bspl_sum_one S.vCurve hS.v v hv1 hv2
  have gu : ∑ i ∈ range S.nu, greville S.U S.pu i * bspl S.U S.nu u S.pu i = u := bspl_greville S.uCurve hS.u hpu u hu1 hu2
  have gv : ∑ j ∈ range S.nv, greville S.V S.pv j * bspl S.V S.nv v S.pv j = v := bspl_greville S.vCurve hS.v hpv v hv1 hv2
  rw [surf_evaluate S hS fuel hfu hfv u v hu1 hu2 hv1 hv2 col]
  have e1 : surfVal S 3 u v = w := by
    unfold surfVal
    rw [sum_congr rfl fun i hi => sum_congr rfl fun j hj => by rw [hw i j (mem_range.1 hi) (mem_range.1 hj)]]
    simp only [← sum_mul, ← mul_sum]
    rw [sv, mul_one, su, one_mul]
  have e2 : surfVal S col u v = w * (a + b * u + d * v) := by
    have : surfVal S col u v = ∑ i ∈ range S.nu, ∑ j ∈ range S.nv, (w * a * (bspl S.U S.nu u S.pu i * bspl S.V S.nv v S.pv j) +
        w * b * ((greville S.U S.pu i * bspl S.U S.nu u S.pu i) * bspl S.V S.nv v S.pv j) +
        w * d * (bspl S.U S.nu u S.pu i * (greville S.V S.pv j * bspl S.V S.nv v S.pv j))) := by
      unfold surfVal
      refine sum_congr rfl fun i hi => sum_congr rfl fun j hj => ?_
      rw [hP i j (mem_range.1 hi) (mem_range.1 hj)]
      ring
    rw [this]
    simp only [sum_add_distrib, ← mul_sum]
    rw [← sum_mul, ← sum_mul, ← sum_mul, su, sv, gu, gv]
    ring
  rw [e1, e2, mul_div_cancel_left₀ _ hw0]

/-! ## Examples -/

/-- Degrees 2 and 1, 4 × 3 control points with different weights. -/
def exSurf : Surf ℚ :=
  { pu := 2, pv := 1, nu := 4, nv := 3, mu := 7, mv := 5, U := kvec [0, 0, 0, 1, 2, 2, 2], V := kvec [0, 0, 1, 3, 3],
    P := fun i j col => let w : ℚ := 1 + i + 2 * j; if col = 3 then w else if col = 0 then w * i else if col = 1 then w * j else w * (i * i + j) }

theorem exSurf_valid : SValid exSurf := by
  refine ⟨⟨by decide, rfl, ?_, by decide +kernel⟩, ⟨by decide, rfl, ?_, by decide +kernel⟩⟩
  · intro a b hab hb
    have hb' : b < 7 := hb
    interval_cases b <;> interval_cases a <;> decide +kernel
  · intro a b hab hb
    have hb' : b < 5 := hb
    interval_cases b <;> interval_cases a <;> decide +kernel

theorem exSurf_clamp : Clamp exSurf.uCurve ∧ Clamp exSurf.vCurve := by
  refine ⟨⟨?_, by decide +kernel, ?_⟩, ⟨?_, by decide +kernel, ?_⟩⟩
  · intro k h1 h2
    have h2' : k ≤ 2 := h2
    interval_cases k <;> decide +kernel
  · intro k h1 h2
    have h1' : 4 ≤ k := h1
    have h2' : k + 1 ≤ 4 + 2 := h2
    have : k ≤ 5 := by omega
    interval_cases k <;> decide +kernel
  · intro k h1 h2
    have h2' : k ≤ 1 := h2
    interval_cases k <;> decide +kernel
  · intro k h1 h2
    have h1' : 3 ≤ k := h1
    have h2' : k + 1 ≤ 3 + 1 := h2
    have : k = 3 := by omega
    subst this; rfl

example : exSurf.evaluate 4 2 3 0 = some 3 ∧ exSurf.evaluate 4 2 3 2 = some 11 ∧ exSurf.evaluate 4 0 3 1 = some 2 := by
  refine ⟨by decide +kernel, by decide +kernel, by decide +kernel⟩

/-- Moving the last control point changes the surface near its corner only. -/
example : let S' : Surf ℚ := { exSurf with P := fun i j col => if i = 3 ∧ j = 2 then 100 else exSurf.P i j col }
    Outside exSurf.U 4 2 3 (1 / 2) ∧ S'.evaluate 4 (1 / 2) 2 0 = exSurf.evaluate 4 (1 / 2) 2 0 ∧
    S'.evaluate 4 (3 / 2) 2 0 ≠ exSurf.evaluate 4 (3 / 2) 2 0 := by
  refine ⟨Or.inl (by decide +kernel), by decide +kernel, by decide +kernel⟩

/-- A plane. -/
example : let S : Surf ℚ := { exSurf with P := fun i j col => if col = 3 then 2 else 2 * (1 + 3 * greville exSurf.U 2 i + 5 * greville exSurf.V 1 j) }
    S.evaluate 4 (3 / 2) (1 / 2) 0 = some (1 + 3 * (3 / 2) + 5 * (1 / 2)) := by decide +kernel

end Verif.Spl
