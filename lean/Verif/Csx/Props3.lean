import Verif.Csx.Props2
import Verif.Csx.NurbsEnv

/-! # C257 to C259: iso-curves, boundary intersections and their pairing -/

set_option linter.unusedSectionVars false

namespace Verif.Csx

open Verif.Mol (V)
open Verif.Ccx (dist2)
open Verif.Nurbs
open Finset

variable {K : Type} [Field K] [LinearOrder K] [IsStrictOrderedRing K]

/-! ## C257: `extract_isocurve` -/

theorem basis_sum (c : Curve K) (hc : Valid c) (N0 : Nat → K) (x : K) (i : Nat) (hp : c.degree ≤ i) (hi : Sp c.U c.n x i) (q : Nat → K) :
    ((List.range (c.degree + 1)).map fun j => basisFuns i x c.degree c.U N0 j * q (i - c.degree + j)).sum = specVal c q x := by
  rw [specVal_eq c hc q x i hi, spline_window c.U c.degree c.n q x i hp hi.1]
  have e : ∀ n, ((List.range n).map fun j => basisFuns i x c.degree c.U N0 j * q (i - c.degree + j)).sum =
      ∑ j ∈ range n, basisFuns i x c.degree c.U N0 j * q (i - c.degree + j) := by
    intro n
    induction n with
    | zero => rfl
    | succ n ih => rw [List.range_succ, List.map_append, List.sum_append, ih, sum_range_succ]; simp
  rw [e]
  refine sum_congr rfl fun r hr => ?_
  rw [basisFuns_eq i x c.U N0 c.degree hp r (by have := mem_range.1 hr; omega)]
  ring

/-- The control points of the iso-curve in direction u. -/
theorem isoU_spec (S : Surf K) (hu : Clean S.uCurve) (fuel : Nat) (hf : S.nu ≤ fuel) (x : K) (h1 : S.U 0 ≤ x) (h2 : x ≤ S.U (S.mu - 1)) :
    isoU S fuel x = some (some
      { degree := S.pv, n := S.nv, m := S.mv, U := S.V, periodic := false
        P := fun i col => specVal S.uCurve (fun k => S.P k i col) x }) := by
  have hk : S.mu = S.nu + S.pu + 1 := hu.valid.knots
  have s0 : S.U 0 = S.U S.pu := hu.start
  have s1 : S.U (S.mu - 1) = S.U S.nu := hu.stop
  obtain ⟨i, e, hp, hsp⟩ := findSpan_sp fuel S.nu S.pu x S.U hu.valid.npos hf S.mu hu.valid.mono (by omega) hu.valid.last
    (by rw [← s0]; exact h1) (by rw [← s1]; exact h2)
  unfold isoU
  rw [if_neg (by push Not; exact ⟨h1, h2⟩), e]
  dsimp only
  congr 2
  rw [Curve.mk.injEq]
  refine ⟨rfl, rfl, ?_, rfl, rfl, rfl⟩
  funext j col
  exact basis_sum S.uCurve hu.valid (fun _ => 1) x i hp hsp fun k => S.P k j col

/-- The control points of the iso-curve in direction v. -/
theorem isoV_spec (S : Surf K) (hv : Clean S.vCurve) (fuel : Nat) (hf : S.nv ≤ fuel) (x : K) (h1 : S.V 0 ≤ x) (h2 : x ≤ S.V (S.mv - 1)) :
    isoV S fuel x = some (some
      { degree := S.pu, n := S.nu, m := S.mu, U := S.U, periodic := false
        P := fun i col => specVal S.vCurve (fun k => S.P i k col) x }) := by
  have hk : S.mv = S.nv + S.pv + 1 := hv.valid.knots
  have s0 : S.V 0 = S.V S.pv := hv.start
  have s1 : S.V (S.mv - 1) = S.V S.nv := hv.stop
  obtain ⟨i, e, hp, hsp⟩ := findSpan_sp fuel S.nv S.pv x S.V hv.valid.npos hf S.mv hv.valid.mono (by omega) hv.valid.last
    (by rw [← s0]; exact h1) (by rw [← s1]; exact h2)
  unfold isoV
  rw [if_neg (by push Not; exact ⟨h1, h2⟩), e]
  dsimp only
  congr 2
  rw [Curve.mk.injEq]
  refine ⟨rfl, rfl, ?_, rfl, rfl, rfl⟩
  funext j col
  exact basis_sum S.vCurve hv.valid (fun _ => 1) x i hp hsp fun k => S.P j k col

/-- A spline with all coefficients `w` is `w`. -/
theorem specVal_const (c : Curve K) (hc : Valid c) (w : K) (q : Nat → K) (hq : ∀ l, l < c.n → q l = w) (x : K) (h1 : c.U c.degree ≤ x)
    (h2 : x ≤ c.U c.n) : specVal c q x = w := by
  have hk := hc.knots
  have hn := hc.npos
  obtain ⟨i, _, hpi, hsp⟩ := findSpan_sp c.n c.n c.degree x c.U hc.npos (le_refl _) c.m hc.mono (by omega) hc.last h1 h2
  rw [specVal_eq c hc _ x i hsp, spline_const c.U c.degree c.n _ (fun _ => w * 1) x i (fun l hl => by rw [hq l hl, mul_one]), spline_smul,
    spline_ones c.U c.m hc.mono c.degree c.n x i hsp.2.1 hpi hsp.1 (by have := hsp.1; omega), mul_one]

theorem surfVal_const (S : Surf K) (hS : SValid S) (w : K) (hw : ∀ i j, i < S.nu → j < S.nv → S.P i j 3 = w) (u v : K) (hd : InDom S u v) :
    surfVal S 3 u v = w := by
  have h1 : ∀ j, j < S.nv → specVal S.uCurve (fun i => S.P i j 3) u = w := fun j hj =>
    specVal_const S.uCurve hS.u w _ (fun l hl => hw l j hl hj) u hd.1 hd.2.1
  have h2 := specVal_const S.vCurve hS.v w (fun j => specVal S.uCurve (fun i => S.P i j 3) u) h1 v hd.2.2.1 hd.2.2.2
  rw [surfVal_u, ← h2]
  exact sum_congr rfl fun j _ => mul_comm _ _

/-- **C257, what `extract_isocurve` returns, direction u**: for a clamped surface with all weights `w` and a parameter in its range:
no exception, a well formed clamped curve of degree `pv` over the knots of direction v, whose point at `v` is `w` times the
point `surface(u, v)`. -/
theorem C257_isocurve_u (S : Surf K) (fuel : Nat) (hS : OkS fuel S) (w : K) (hw0 : w ≠ 0)
    (hw : ∀ i j, i < S.nu → j < S.nv → S.P i j 3 = w) (x : K) (h1 : S.U 0 ≤ x) (h2 : x ≤ S.U (S.mu - 1)) :
    ∃ c, isoU S fuel x = some (some c) ∧ OkC fuel c ∧ c.degree = S.pv ∧ c.U = S.V ∧ (∀ l, l < c.n → c.P l 3 = w) ∧
      ∀ v, S.V 0 ≤ v → v ≤ S.V (S.mv - 1) → ∀ col, ∃ y, S.evaluate fuel x v col = some y ∧ c.evaluate fuel v col = some (w * y) := by
  have hfu := hS.fuelU
  have hfv := hS.fuelV
  have s0 : S.U 0 = S.U S.pu := hS.u.start
  have s1 : S.U (S.mu - 1) = S.U S.nu := hS.u.stop
  have r0 : S.V 0 = S.V S.pv := hS.v.start
  have r1 : S.V (S.mv - 1) = S.V S.nv := hS.v.stop
  refine ⟨_, isoU_spec S hS.u fuel (by omega) x h1 h2, ?_⟩
  rw [s0] at h1
  rw [s1] at h2
  have hwt : ∀ l, l < S.nv → specVal S.uCurve (fun k => S.P k l 3) x = w := fun l hl =>
    specVal_const S.uCurve hS.u.valid w _ (fun k hk => hw k l hk hl) x h1 h2
  have cl : Clean ({ degree := S.pv, n := S.nv, m := S.mv, U := S.V, periodic := false, P := fun i col => specVal S.uCurve (fun k => S.P k i col) x } : Curve K) :=
    clean_congr hS.v rfl rfl rfl rfl
  refine ⟨⟨cl, rfl, hfv, w, hw0, hwt⟩, rfl, rfl, hwt, fun v hv1 hv2 col => ?_⟩
  rw [r0] at hv1
  rw [r1] at hv2
  refine ⟨_, surf_evaluate S hS.valid fuel (by omega) (by omega) x v h1 h2 hv1 hv2 col, ?_⟩
  rw [evaluate_equal_weights _ cl.valid rfl w hw0 hwt fuel (by show S.nv ≤ fuel; omega) v hv1 hv2 col,
    surfVal_const S hS.valid w hw x v ⟨h1, h2, hv1, hv2⟩, mul_div_cancel₀ _ hw0, surfVal_u]
  congr 1
  exact sum_congr rfl fun j _ => mul_comm _ _

/-- **C257, direction v.** -/
theorem C257_isocurve_v (S : Surf K) (fuel : Nat) (hS : OkS fuel S) (w : K) (hw0 : w ≠ 0)
    (hw : ∀ i j, i < S.nu → j < S.nv → S.P i j 3 = w) (x : K) (h1 : S.V 0 ≤ x) (h2 : x ≤ S.V (S.mv - 1)) :
    ∃ c, isoV S fuel x = some (some c) ∧ OkC fuel c ∧ c.degree = S.pu ∧ c.U = S.U ∧ (∀ l, l < c.n → c.P l 3 = w) ∧
      ∀ u, S.U 0 ≤ u → u ≤ S.U (S.mu - 1) → ∀ col, ∃ y, S.evaluate fuel u x col = some y ∧ c.evaluate fuel u col = some (w * y) := by
  have hfu := hS.fuelU
  have hfv := hS.fuelV
  have s0 : S.U 0 = S.U S.pu := hS.u.start
  have s1 : S.U (S.mu - 1) = S.U S.nu := hS.u.stop
  have r0 : S.V 0 = S.V S.pv := hS.v.start
  have r1 : S.V (S.mv - 1) = S.V S.nv := hS.v.stop
  refine ⟨_, isoV_spec S hS.v fuel (by omega) x h1 h2, ?_⟩
  rw [r0] at h1
  rw [r1] at h2
  have hwt : ∀ l, l < S.nu → specVal S.vCurve (fun k => S.P l k 3) x = w := fun l hl =>
    specVal_const S.vCurve hS.v.valid w _ (fun k hk => hw l k hl hk) x h1 h2
  have cl : Clean ({ degree := S.pu, n := S.nu, m := S.mu, U := S.U, periodic := false, P := fun i col => specVal S.vCurve (fun k => S.P i k col) x } : Curve K) :=
    clean_congr hS.u rfl rfl rfl rfl
  refine ⟨⟨cl, rfl, hfu, w, hw0, hwt⟩, rfl, rfl, hwt, fun v hv1 hv2 col => ?_⟩
  rw [s0] at hv1
  rw [s1] at hv2
  refine ⟨_, surf_evaluate S hS.valid fuel (by omega) (by omega) v x hv1 hv2 h1 h2 col, ?_⟩
  rw [evaluate_equal_weights _ cl.valid rfl w hw0 hwt fuel (by show S.nu ≤ fuel; omega) v hv1 hv2 col,
    surfVal_const S hS.valid w hw v x ⟨hv1, hv2, h1, h2⟩, mul_div_cancel₀ _ hw0, surfVal_v]
  congr 1
  exact sum_congr rfl fun j _ => mul_comm _ _

/-- **C257, partial**: with all weights 1 the iso-curve is the curve on the surface. -/
theorem C257_isocurve_partial (S : Surf K) (fuel : Nat) (hS : OkS fuel S) (hw : ∀ i j, i < S.nu → j < S.nv → S.P i j 3 = 1) (x : K)
    (h1 : S.U 0 ≤ x) (h2 : x ≤ S.U (S.mu - 1)) :
    ∃ c, isoU S fuel x = some (some c) ∧ ∀ v, S.V 0 ≤ v → v ≤ S.V (S.mv - 1) → ∀ col, c.evaluate fuel v col = S.evaluate fuel x v col := by
  obtain ⟨c, e, _, _, _, _, h⟩ := C257_isocurve_u S fuel hS 1 one_ne_zero hw x h1 h2
  refine ⟨c, e, fun v hv1 hv2 col => ?_⟩
  obtain ⟨y, e1, e2⟩ := h v hv1 hv2 col
  rw [e1, e2, one_mul]

/-- **C257 refuted**: with equal weights other than 1 the iso-curve misses the surface at every point that has a coordinate
other than 0: the control points of a surface are kept multiplied by their weights (C61), those of a curve are not (C35). -/
theorem C257_weights_refuted (S : Surf K) (fuel : Nat) (hS : OkS fuel S) (w : K) (hw0 : w ≠ 0) (hw1 : w ≠ 1)
    (hw : ∀ i j, i < S.nu → j < S.nv → S.P i j 3 = w) (x v : K) (h1 : S.U 0 ≤ x) (h2 : x ≤ S.U (S.mu - 1)) (h3 : S.V 0 ≤ v)
    (h4 : v ≤ S.V (S.mv - 1)) (col : Nat) (y : K) (hy : S.evaluate fuel x v col = some y) (hy0 : y ≠ 0) :
    ∃ c, isoU S fuel x = some (some c) ∧ c.evaluate fuel v col ≠ S.evaluate fuel x v col := by
  obtain ⟨c, e, _, _, _, _, h⟩ := C257_isocurve_u S fuel hS w hw0 hw x h1 h2
  refine ⟨c, e, ?_⟩
  obtain ⟨y', e1, e2⟩ := h v h3 h4 col
  rw [hy] at e1
  simp only [Option.some.injEq] at e1
  subst e1
  rw [e2, hy]
  intro h
  simp only [Option.some.injEq] at h
  exact hw1 (mul_right_cancel₀ hy0 (by rw [h, one_mul]))

/-- **C257**: outside the range of the knots a `ValueError`. -/
theorem C257_range (S : Surf K) (fuel : Nat) (x : K) :
    ((x < S.U 0 ∨ S.U (S.mu - 1) < x) → isoU S fuel x = some none) ∧ ((x < S.V 0 ∨ S.V (S.mv - 1) < x) → isoV S fuel x = some none) := by
  constructor
  · intro h; unfold isoU; rw [if_pos h]
  · intro h; unfold isoV; rw [if_pos h]

/-- A bilinear patch over `[0, 2] × [0, 3]` with all weights `w`. -/
def exBil (w : ℚ) : Surf ℚ :=
  { pu := 1, pv := 1, nu := 2, nv := 2, mu := 4, mv := 4, U := kvec [0, 0, 2, 2], V := kvec [0, 0, 3, 3]
    P := fun i j col => if col = 3 then w else if col = 0 then w * i else if col = 1 then w * j else w * (1 + i * j) }

theorem exBil_ok (w : ℚ) : OkS 9 (exBil w) := by
  have mono : ∀ b : ℚ, 0 ≤ b → MonoUpTo (kvec [0, 0, b, b]) 4 := by
    intro b hb i j hij hj
    interval_cases j <;> interval_cases i <;> simp [kvec, hb]
  refine ⟨⟨⟨Nat.lt_succ_self 1, rfl, mono 2 (by norm_num), by norm_num [exBil, Surf.uCurve, kvec]⟩, ?_, le_refl 1, by norm_num [exBil, Surf.uCurve, kvec],
    by norm_num [exBil, Surf.uCurve, kvec]⟩, ⟨⟨Nat.lt_succ_self 1, rfl, mono 3 (by norm_num), by norm_num [exBil, Surf.vCurve, kvec]⟩, ?_, le_refl 1,
    by norm_num [exBil, Surf.vCurve, kvec], by norm_num [exBil, Surf.vCurve, kvec]⟩, show 4 ≤ 9 by decide, show 4 ≤ 9 by decide⟩
  · intro j hj
    have : j < 3 := by have : j + 1 < 4 := hj; omega
    interval_cases j <;> norm_num [exBil, Surf.uCurve, kvec]
  · intro j hj
    have : j < 3 := by have : j + 1 < 4 := hj; omega
    interval_cases j <;> norm_num [exBil, Surf.vCurve, kvec]

/-- The two cases: weights 1 and weights 2; the surface is the same, the iso-curve at `u = 1` is not. -/
example : (exBil 1).evaluate 9 1 (3 / 2) 2 = some (5 / 4) ∧ (exBil 2).evaluate 9 1 (3 / 2) 2 = some (5 / 4) ∧
    ((isoU (exBil 1) 9 1).map (Option.map fun c => c.evaluate 9 (3 / 2) 2)) = some (some (some (5 / 4))) ∧
    ((isoU (exBil 2) 9 1).map (Option.map fun c => c.evaluate 9 (3 / 2) 2)) = some (some (some (5 / 2))) ∧
    ((isoV (exBil 1) 9 1).map (Option.map fun c => c.evaluate 9 (3 / 2) 2)) = some (some ((exBil 1).evaluate 9 (3 / 2) 1 2)) := by
  refine ⟨?_, ?_, ?_, ?_, ?_⟩ <;> decide +kernel

/-- The hypotheses of C253_nurbs and C254_nurbs: the iso-curve of one patch and another patch. -/
example : ∃ c : Curve ℚ, OkC 9 c ∧ (∀ l, l < c.n → c.P l 3 = 1) ∧ OkS 9 (exBil 2) ∧ c.evaluate 9 (3 / 2) 2 = some (5 / 4) := by
  obtain ⟨c, e, h1, _, _, h2, h3⟩ := C257_isocurve_u (exBil 1) 9 (exBil_ok 1) 1 one_ne_zero (fun _ _ _ _ => rfl) 1
    (by norm_num [exBil, kvec]) (by norm_num [exBil, kvec])
  obtain ⟨y, e1, e2⟩ := h3 (3 / 2) (by norm_num [exBil, kvec]) (by norm_num [exBil, kvec]) 2
  have : (exBil 1).evaluate 9 1 (3 / 2) 2 = some (5 / 4) := by decide +kernel
  rw [this] at e1
  simp only [Option.some.injEq] at e1
  exact ⟨c, h1, h2, exBil_ok 2, by rw [e2, ← e1, one_mul]⟩

/-- With different weights the iso-curve is wrong as well. -/
theorem C257_rational_refuted : ∃ S : Surf ℚ, OkS 9 S ∧ (∀ i j, i < S.nu → j < S.nv → 0 < S.P i j 3) ∧
    ∃ x v, InDom S x v ∧ ∃ c, isoU S 9 x = some (some c) ∧ c.evaluate 9 v 2 ≠ S.evaluate 9 x v 2 := by
  let S : Surf ℚ := { exBil 1 with P := fun i j col => if col = 3 then 1 + i else if col = 0 then (1 + i) * i else if col = 1 then (1 + i) * j else (1 + i) * (1 + i * j) }
  have hS : OkS 9 S := ⟨clean_congr (exBil_ok 1).u rfl rfl rfl rfl, clean_congr (exBil_ok 1).v rfl rfl rfl rfl, (exBil_ok 1).fuelU, (exBil_ok 1).fuelV⟩
  refine ⟨S, hS, fun i j _ _ => ?_, 1, 3 / 2, by norm_num [InDom, S, exBil, kvec], _,
    isoU_spec S hS.u 9 (by decide) 1 (by norm_num [S, exBil, kvec]) (by norm_num [S, exBil, kvec]), by decide +kernel⟩
  show (0 : ℚ) < 1 + i
  positivity

/-! ## C258: `find_boundary_intersections` -/

/-- What a stored point says: its parameters on both surfaces.  `s1 s2` are the surfaces, `b1 i` and `b2 i` their boundary
curves, `close` the relation "within the tolerance". -/
theorem C258_params (hits1 hits2 : Nat → List (Hit K)) (d1 d2 : (K × K) × (K × K)) (tol : K) (s1 s2 : K → K → V K)
    (b1 b2 : Nat → K → V K)
    (hb1 : ∀ i x, i < 4 → b1 i x = s1 (boundaryParams d1 i x).1 (boundaryParams d1 i x).2)
    (hb2 : ∀ i x, i < 4 → b2 i x = s2 (boundaryParams d2 i x).1 (boundaryParams d2 i x).2)
    (h1 : ∀ i, ∀ h ∈ hits1 i, h.pt = b1 i h.t ∧ dist2 (b1 i h.t) (s2 h.u h.v) ≤ tol ^ 2)
    (h2 : ∀ i, ∀ h ∈ hits2 i, h.pt = b2 i h.t ∧ dist2 (b2 i h.t) (s1 h.u h.v) ≤ tol ^ 2) :
    ∀ p ∈ boundaryIntersections tol hits1 hits2 d1 d2,
      dist2 p.pt (s1 p.uv1.1 p.uv1.2) ≤ tol ^ 2 ∧ dist2 p.pt (s2 p.uv2.1 p.uv2.2) ≤ tol ^ 2 ∧
      (p.pt = s1 p.uv1.1 p.uv1.2 ∨ p.pt = s2 p.uv2.1 p.uv2.2) := by
  have mem : ∀ (ps kept : List (BPoint K)) (p : BPoint K), p ∈ dedup tol kept ps → p ∈ kept ∨ p ∈ ps := by
    intro ps
    induction ps with
    | nil => intro kept p h; exact Or.inl h
    | cons a ps ih =>
      intro kept p h
      unfold dedup at h
      split_ifs at h with hc
      · rcases ih kept p h with h | h
        · exact Or.inl h
        · exact Or.inr (List.mem_cons_of_mem _ h)
      · rcases ih (kept ++ [a]) p h with h | h
        · rcases List.mem_append.1 h with h | h
          · exact Or.inl h
          · rw [List.mem_singleton] at h; subst h; exact Or.inr (by simp)
        · exact Or.inr (List.mem_cons_of_mem _ h)
  have self : ∀ p : V K, dist2 p p ≤ tol ^ 2 := by
    intro p
    have : dist2 p p = 0 := by simp [dist2]
    rw [this]; positivity
  intro p hp
  rcases mem _ _ p hp with h | h
  · simp at h
  · rcases List.mem_append.1 h with h | h
    · simp only [boundaryHits, List.mem_flatMap, List.mem_range, List.mem_map] at h
      obtain ⟨i, hi, x, hx, rfl⟩ := h
      obtain ⟨e1, e2⟩ := h1 i x hx
      have e3 := hb1 i x.t hi
      simp only [bpoint, if_true]
      rw [e1]
      refine ⟨?_, e2, Or.inl e3⟩
      rw [← e3]; exact self _
    · simp only [boundaryHits, List.mem_flatMap, List.mem_range, List.mem_map] at h
      obtain ⟨i, hi, x, hx, rfl⟩ := h
      obtain ⟨e1, e2⟩ := h2 i x hx
      have e3 := hb2 i x.t hi
      simp only [bpoint, Bool.false_eq_true, if_false]
      rw [e1]
      refine ⟨e2, ?_, Or.inr e3⟩
      rw [← e3]; exact self _

/-- **C258**: `get_start_params` of a stored point gives the parameters stored with it. -/
theorem C258_start_params (pt : V K) (param : K) (other : K × K) (i : Nat) (first : Bool) (d : (K × K) × (K × K)) :
    startParams (bpoint pt param other i first d) d = ((bpoint pt param other i first d).uv1, (bpoint pt param other i first d).uv2) := by
  cases first <;> rfl

/-- **C258**: no point is kept twice and none is lost: the points kept are at least `tol` apart, and every point found is within
`tol` of one of them. -/
theorem C258_dedup (tol : K) (htol : 0 < tol) : ∀ (ps kept : List (BPoint K)),
    kept.Pairwise (fun a b => tol ^ 2 ≤ dist2 b.pt a.pt) →
    (dedup tol kept ps).Pairwise (fun a b => tol ^ 2 ≤ dist2 b.pt a.pt) ∧ (∀ p ∈ kept, p ∈ dedup tol kept ps) ∧
      ∀ p ∈ ps, ∃ q ∈ dedup tol kept ps, dist2 p.pt q.pt < tol ^ 2 := by
  have self : ∀ p : V K, dist2 p p < tol ^ 2 := by
    intro p
    have : dist2 p p = 0 := by simp [dist2]
    rw [this]; positivity
  intro ps
  induction ps with
  | nil => intro kept h; exact ⟨h, fun p hp => hp, by simp⟩
  | cons a ps ih =>
    intro kept h
    unfold dedup
    by_cases hc : (kept.any fun q => decide (dist2 a.pt q.pt < tol ^ 2)) = true
    · rw [if_pos hc]
      obtain ⟨i1, i2, i3⟩ := ih kept h
      refine ⟨i1, i2, fun p hp => ?_⟩
      rcases List.mem_cons.1 hp with rfl | hp
      · obtain ⟨q, hq, hd⟩ := List.any_eq_true.1 hc
        exact ⟨q, i2 q hq, by simpa using hd⟩
      · exact i3 p hp
    · rw [if_neg hc]
      have hp : (kept ++ [a]).Pairwise (fun a b => tol ^ 2 ≤ dist2 b.pt a.pt) := by
        rw [List.pairwise_append]
        refine ⟨h, by simp, fun x hx y hy => ?_⟩
        rw [List.mem_singleton] at hy; subst hy
        by_contra hcon
        exact hc (List.any_eq_true.2 ⟨x, hx, by simpa using hcon⟩)
      obtain ⟨i1, i2, i3⟩ := ih (kept ++ [a]) hp
      refine ⟨i1, fun p hp => i2 p (by simp [hp]), fun p hp => ?_⟩
      rcases List.mem_cons.1 hp with rfl | hp
      · exact ⟨p, i2 p (by simp), self _⟩
      · exact i3 p hp

/-- **C258** for the whole function: every hit of a boundary of either surface is represented. -/
theorem C258_find (tol : K) (htol : 0 < tol) (hits1 hits2 : Nat → List (Hit K)) (d1 d2 : (K × K) × (K × K)) :
    (boundaryIntersections tol hits1 hits2 d1 d2).Pairwise (fun a b => tol ^ 2 ≤ dist2 b.pt a.pt) ∧
    (∀ i, i < 4 → ∀ h ∈ hits1 i, ∃ q ∈ boundaryIntersections tol hits1 hits2 d1 d2, dist2 h.pt q.pt < tol ^ 2) ∧
    (∀ i, i < 4 → ∀ h ∈ hits2 i, ∃ q ∈ boundaryIntersections tol hits1 hits2 d1 d2, dist2 h.pt q.pt < tol ^ 2) := by
  obtain ⟨i1, _, i3⟩ := C258_dedup tol htol (boundaryHits hits1 true d1 ++ boundaryHits hits2 false d2) [] List.Pairwise.nil
  refine ⟨i1, fun i hi h hh => ?_, fun i hi h hh => ?_⟩
  · obtain ⟨q, hq, e⟩ := i3 (bpoint h.pt h.t (h.u, h.v) i true d1) (List.mem_append_left _ (by
      simp only [boundaryHits, List.mem_flatMap, List.mem_range, List.mem_map]
      exact ⟨i, hi, h, hh, rfl⟩))
    exact ⟨q, hq, e⟩
  · obtain ⟨q, hq, e⟩ := i3 (bpoint h.pt h.t (h.u, h.v) i false d2) (List.mem_append_right _ (by
      simp only [boundaryHits, List.mem_flatMap, List.mem_range, List.mem_map]
      exact ⟨i, hi, h, hh, rfl⟩))
    exact ⟨q, hq, e⟩

/-- The boundary curves in the order of `extract_surface_boundaries` are what `boundaryParams` says, for the unit square in
`z = 0` and the one in `y = 1/2`; the boundary hits give the two ends of the common segment. -/
example : let s1 : ℚ → ℚ → V ℚ := fun u v => ⟨u, v, 0⟩
    let s2 : ℚ → ℚ → V ℚ := fun u v => ⟨u, 1 / 2, v - 1 / 2⟩
    let sq : (ℚ × ℚ) × (ℚ × ℚ) := ((0, 1), (0, 1))
    (boundaryIntersections (1 / 100) (fun i => if i = 0 then [⟨false, ⟨0, 1 / 2, 0⟩, 1 / 2, 0, 1 / 2⟩] else if i = 1 then [⟨false, ⟨1, 1 / 2, 0⟩, 1 / 2, 1, 1 / 2⟩] else [])
      (fun i => if i = 0 then [⟨false, ⟨0, 1 / 2, 0⟩, 1 / 2, 0, 1 / 2⟩] else if i = 1 then [⟨false, ⟨1, 1 / 2, 0⟩, 1 / 2, 1, 1 / 2⟩] else []) sq sq).map
      (fun p => (p.pt.x, p.uv1, p.uv2)) = [(0, (0, 1 / 2), (0, 1 / 2)), (1, (1, 1 / 2), (1, 1 / 2))] ∧
    s1 (boundaryParams sq 0 (1 / 2)).1 (boundaryParams sq 0 (1 / 2)).2 = ⟨0, 1 / 2, 0⟩ ∧
    s2 (boundaryParams sq 1 (1 / 2)).1 (boundaryParams sq 1 (1 / 2)).2 = ⟨1, 1 / 2, 0⟩ := by
  refine ⟨by decide +kernel, ?_, ?_⟩ <;> norm_num [boundaryParams]

/-! ## C259: `sort_boundary_intersections` -/

/-- The set's `pop` takes an element out, and fails on the empty set only. -/
structure PickSpec (pick : List Nat → Option (Nat × List Nat)) : Prop where
  nil : pick [] = none
  cons : ∀ l, l ≠ [] → ∃ a r, pick l = some (a, r) ∧ (a :: r).Perm l

theorem nearest_mem (d2 : Nat → Nat → K) (a : Nat) (l : List Nat) (b : Nat) (h : nearest d2 a l = some b) :
    b ∈ l ∧ ∀ c ∈ l, d2 a b ≤ d2 a c := by
  have key : ∀ (l : List Nat) (i : Nat), (l.foldl (fun m j => if d2 a j < d2 a m then j else m) i ∈ i :: l) ∧
      ∀ c ∈ i :: l, d2 a (l.foldl (fun m j => if d2 a j < d2 a m then j else m) i) ≤ d2 a c := by
    intro l
    induction l with
    | nil => intro i; simp
    | cons x l ih =>
      intro i
      rw [List.foldl_cons]
      obtain ⟨h1, h2⟩ := ih (if d2 a x < d2 a i then x else i)
      constructor
      · rcases List.mem_cons.1 h1 with h | h
        · rw [h]; split_ifs <;> simp
        · simp [h]
      · intro c hc
        have hm := h2 (if d2 a x < d2 a i then x else i) (by simp)
        rcases List.mem_cons.1 hc with rfl | hc
        · refine hm.trans ?_
          split_ifs with hlt
          · exact hlt.le
          · exact le_rfl
        · rcases List.mem_cons.1 hc with rfl | hc
          · refine hm.trans ?_
            split_ifs with hlt
            · exact le_rfl
            · exact not_lt.1 hlt
          · exact h2 c (by simp [hc])
  cases l with
  | nil => simp [nearest] at h
  | cons i l =>
    simp only [nearest, Option.some.injEq] at h
    subst h
    exact key l i

theorem nearest_none (d2 : Nat → Nat → K) (a : Nat) (l : List Nat) : nearest d2 a l = none ↔ l = [] := by
  cases l <;> simp [nearest]

/-- **C259**: `sort_boundary_intersections` ends and uses every point exactly once; all sequences have two points, except one of a
single point when the number of points is odd; and the second point of a sequence is nearest to the first among the points not yet
used, which are those of the later sequences. -/
theorem C259_pairs (pick : List Nat → Option (Nat × List Nat)) (hp : PickSpec pick) (d2 : Nat → Nat → K) :
    ∀ (k : Nat) (un : List Nat), un.length < k →
      ∃ r, sortPairs pick d2 k un = some r ∧ r.flatten.Perm un ∧ r.length = (un.length + 1) / 2 ∧
        (∀ s ∈ r.dropLast, s.length = 2) ∧ (∀ s ∈ r, 1 ≤ s.length ∧ s.length ≤ 2) ∧
        ∀ i a b l, r.drop i = [a, b] :: l → ∀ c ∈ l.flatten, d2 a b ≤ d2 a c := by
  intro k
  induction k with
  | zero => intro un h; omega
  | succ k ih =>
    intro un hk
    by_cases hn : un = []
    · subst hn
      refine ⟨[], by unfold sortPairs; rw [hp.nil], by simp, by simp, by simp, by simp, by simp⟩
    · obtain ⟨a, rest, e, perm⟩ := hp.cons un hn
      have hlen : rest.length + 1 = un.length := by rw [← perm.length_eq]; simp
      cases e1 : nearest d2 a rest with
      | none =>
        have hr := (nearest_none d2 a rest).1 e1
        subst hr
        obtain ⟨r, h1, h2, h3, h4, h5, h6⟩ := ih [] (by simp; omega)
        have hr0 : r = [] := by
          rw [← List.length_eq_zero_iff, h3]; simp
        subst hr0
        refine ⟨[[a]], ?_, by simpa using perm, ?_, by simp, by simp, ?_⟩
        · unfold sortPairs
          rw [e]
          simp only [e1, h1, Option.map_some]
        · rw [← hlen]; rfl
        · intro i x y l hd
          have : ([[a]] : List (List Nat)).drop i = [[a]] ∨ ([[a]] : List (List Nat)).drop i = [] := by
            rcases i with _ | i
            · left; rfl
            · right; simp
          rcases this with h | h
          · rw [h] at hd; simp at hd
          · rw [h] at hd; simp at hd
      | some b =>
        obtain ⟨hb, hmin⟩ := nearest_mem d2 a rest b e1
        have hel : (rest.erase b).length + 1 = rest.length := by
          rw [List.length_erase_of_mem hb]
          have := List.length_pos_of_mem hb
          omega
        obtain ⟨r, h1, h2, h3, h4, h5, h6⟩ := ih (rest.erase b) (by omega)
        refine ⟨[a, b] :: r, ?_, ?_, ?_, ?_, ?_, ?_⟩
        · unfold sortPairs
          rw [e]
          simp only [e1, h1, Option.map_some]
        · rw [List.flatten_cons]
          refine List.Perm.trans ?_ perm
          show (a :: b :: r.flatten).Perm (a :: rest)
          exact List.Perm.cons _ ((List.Perm.cons _ h2).trans (List.perm_cons_erase hb).symm)
        · rw [List.length_cons, h3]; omega
        · intro s hs
          cases r with
          | nil => simp at hs
          | cons x r =>
            rw [List.dropLast_cons_of_ne_nil (by simp)] at hs
            rcases List.mem_cons.1 hs with rfl | hs
            · rfl
            · exact h4 s hs
        · intro s hs
          rcases List.mem_cons.1 hs with rfl | hs
          · simp
          · exact h5 s hs
        · intro i x y l hd c hc
          cases i with
          | zero =>
            simp only [List.drop_zero, List.cons.injEq, and_true] at hd
            obtain ⟨⟨rfl, rfl⟩, rfl⟩ := hd
            exact hmin c (List.mem_of_mem_erase (h2.subset hc))
          | succ i => exact h6 i x y l (by simpa using hd) c hc

/-- The order of a set of small integers in CPython: the smallest comes first. -/
def pickHead : List Nat → Option (Nat × List Nat)
  | [] => none
  | a :: l => some (a, l)

theorem pickHead_spec : PickSpec pickHead := ⟨rfl, fun l hl => by
  cases l with
  | nil => exact absurd rfl hl
  | cons a l => exact ⟨a, l, rfl, List.Perm.refl _⟩⟩

/-- **C259 refuted**: the sequences need not be the ends of intersection curves.  Two curves run side by side, from `(0, 0)` to
`(w, 0)` and from `(0, h)` to `(w, h)`; whenever they are closer to each other than they are long, the pairs returned join the
starts of the two curves and the ends of the two curves. -/
theorem C259_pairing_refuted (w h : K) (hw : 0 < h) (hh : h < w) :
    let pos : Nat → K × K := fun i => if i = 0 then (0, 0) else if i = 1 then (w, 0) else if i = 2 then (0, h) else (w, h)
    sortPairs pickHead (fun a b => ((pos a).1 - (pos b).1) ^ 2 + ((pos a).2 - (pos b).2) ^ 2) 5 [0, 1, 2, 3] = some [[0, 2], [1, 3]] := by
  intro pos
  have e0 : pos 0 = (0, 0) := rfl
  have e1 : pos 1 = (w, 0) := rfl
  have e2 : pos 2 = (0, h) := rfl
  have e3 : pos 3 = (w, h) := rfl
  have w0 : 0 < w := hw.trans hh
  have s1 : h ^ 2 < w ^ 2 := by nlinarith
  have n1 : nearest (fun a b => ((pos a).1 - (pos b).1) ^ 2 + ((pos a).2 - (pos b).2) ^ 2) 0 [1, 2, 3] = some 2 := by
    simp only [nearest, List.foldl_cons, List.foldl_nil]
    have c1 : ((pos 0).1 - (pos 2).1) ^ 2 + ((pos 0).2 - (pos 2).2) ^ 2 < ((pos 0).1 - (pos 1).1) ^ 2 + ((pos 0).2 - (pos 1).2) ^ 2 := by
      rw [e0, e1, e2]; dsimp only; nlinarith
    have c2 : ¬ ((pos 0).1 - (pos 3).1) ^ 2 + ((pos 0).2 - (pos 3).2) ^ 2 < ((pos 0).1 - (pos 2).1) ^ 2 + ((pos 0).2 - (pos 2).2) ^ 2 := by
      rw [e0, e3, e2]; dsimp only; nlinarith
    simp only [if_pos c1, if_neg c2]
  have n2 : nearest (fun a b => ((pos a).1 - (pos b).1) ^ 2 + ((pos a).2 - (pos b).2) ^ 2) 1 [3] = some 3 := rfl
  unfold sortPairs
  simp only [pickHead, n1]
  rw [show ([1, 2, 3] : List Nat).erase 2 = [1, 3] by decide]
  unfold sortPairs
  simp only [pickHead, n2]
  rw [show ([3] : List Nat).erase 3 = [] by decide]
  unfold sortPairs
  simp [pickHead]

example : sortPairs pickHead (fun a b => ((a : ℚ) - b) ^ 2) 9 [0, 5, 1, 7, 6] = some [[0, 1], [5, 6], [7]] := by decide +kernel

end Verif.Csx
