import Verif.Sinv.Model
import Verif.Srf.Props2
import Verif.DnC.Props2
import Verif.Newt.Props2
import Verif.Bvh.Props
import Mathlib.Algebra.Order.Field.Rat
import Mathlib.LinearAlgebra.Matrix.Determinant.Basic
import Mathlib.Analysis.Calculus.LocalExtr.Basic

set_option linter.unusedSectionVars false

/-! # Parameters of a point on a Python surface, its distance function, frames of curves on surfaces (C451–C453) -/

namespace Verif.Sinv

open Verif.Vec V3 Verif.Pinv Finset

variable {K : Type} [Field K] [LinearOrder K] [IsStrictOrderedRing K]

/-- The plane through `o` along `a` and `b`. -/
def plane (o a b : V3 K) (uv : K × K) : V3 K := add o (add (smul uv.1 a) (smul uv.2 b))

theorem sqDist_plane (o a b p : V3 K) (x : Nat → K) : sqDist (plane o a b) p (x 0, x 1) =
    Fdm.quad 2 (dot (sub o p) (sub o p)) (fun i => if i = 0 then 2 * dot a (sub o p) else 2 * dot b (sub o p))
      (fun i j => if i = 0 then (if j = 0 then dot a a else dot a b) else (if j = 0 then dot a b else dot b b)) x := by
  simp [Fdm.quad, sum_range_succ, sqDist, plane, dot, sub, add, smul]
  ring

/-- **C451, what holds for planes.** When some box of the tree contains the point, the result is the foot of the perpendicular: no point of the
whole plane is nearer; for a point of the plane it is the pair of its parameters.  Missing: the range, refuted below, and other surfaces. -/
theorem C451_plane_partial (cfg : Cfg K) (o a b p : V3 K) (root : Bvh.Node K (Quad K)) (r : DnC.Box K) (hab : cross a b ≠ zero)
    (hit : (Bvh.containsPt root (toPt p)).flatten ≠ []) (ht : 0 < cfg.ntol) (hh : cfg.h ≠ 0) (hm : 2 ≤ cfg.maxIter) :
    ∃ uv, inversion cfg (plane o a b) root r p = some uv ∧ dot a (sub p (plane o a b uv)) = 0 ∧ dot b (sub p (plane o a b uv)) = 0 ∧
      (∀ q, sqDist (plane o a b) p uv ≤ sqDist (plane o a b) p q) ∧ ∀ q, p = plane o a b q → uv = q := by
  have hg : dot a a * dot b b - dot a b * dot a b ≠ 0 := by rw [gram_pos, Ne, dot_self_eq_zero]; exact hab
  unfold inversion
  cases hc : (Bvh.containsPt root (toPt p)).flatten with
  | nil => exact absurd hc hit
  | cons q qs =>
    dsimp only
    rw [show (fun x : Nat → K => sqDist (plane o a b) p (x 0, x 1)) = _ from funext fun x => sqDist_plane o a b p x]
    obtain ⟨y, e, hy⟩ := Newt.C152_quadratic_partial 2 (dot (sub o p) (sub o p))
      (fun i => if i = 0 then 2 * dot a (sub o p) else 2 * dot b (sub o p))
      (fun i j => if i = 0 then (if j = 0 then dot a a else dot a b) else (if j = 0 then dot a b else dot b b)) cfg.ntol cfg.h ht hh cfg.y0
      (by
        rw [Matrix.det_fin_two]
        simp [Lu.toM]
        intro h
        exact hg (by linear_combination h / 4)) cfg.maxIter hm _
    refine ⟨(y 0, y 1), by rw [e]; rfl, ?_⟩
    have h0 := hy 0 (by omega)
    have h1 := hy 1 (by omega)
    simp [sum_range_succ] at h0 h1
    have e0 : dot a (sub p (plane o a b (y 0, y 1))) = 0 := by
      simp only [dot, sub, plane, add, smul] at h0 ⊢
      linear_combination -h0 / 2
    have e1 : dot b (sub p (plane o a b (y 0, y 1))) = 0 := by
      simp only [dot, sub, plane, add, smul] at h1 ⊢
      linear_combination -h1 / 2
    refine ⟨e0, e1, fun q => ?_, fun q hq => ?_⟩
    · have : sqDist (plane o a b) p q = sqDist (plane o a b) p (y 0, y 1) +
          dot (add (smul (q.1 - y 0) a) (smul (q.2 - y 1) b)) (add (smul (q.1 - y 0) a) (smul (q.2 - y 1) b)) := by
        simp only [sqDist, dot, sub, plane, add, smul] at e0 e1 ⊢
        linear_combination (-2) * (q.1 - y 0) * e0 + (-2) * (q.2 - y 1) * e1
      rw [this]
      have := dot_self_nonneg (add (smul (q.1 - y 0) a) (smul (q.2 - y 1) b))
      linarith
    · rw [hq] at e0 e1
      have f0 : (q.1 - y 0) * dot a a + (q.2 - y 1) * dot a b = 0 := by
        simp only [dot, sub, plane, add, smul] at e0 ⊢
        linear_combination e0
      have f1 : (q.1 - y 0) * dot a b + (q.2 - y 1) * dot b b = 0 := by
        simp only [dot, sub, plane, add, smul] at e1 ⊢
        linear_combination e1
      have g0 : (q.1 - y 0) * (dot a a * dot b b - dot a b * dot a b) = 0 := by linear_combination dot b b * f0 - dot a b * f1
      have g1 : (q.2 - y 1) * (dot a a * dot b b - dot a b * dot a b) = 0 := by linear_combination dot a a * f1 - dot a b * f0
      have k0 := (mul_eq_zero.1 g0).resolve_right hg
      have k1 := (mul_eq_zero.1 g1).resolve_right hg
      exact Prod.ext (by show y 0 = q.1; linear_combination -k0) (by show y 1 = q.2; linear_combination -k1)

/-- **C451, what holds without a box.** When no box of the tree contains the point, the result lies in the range of the parameters. -/
theorem C451_range_partial [Archimedean K] (cfg : Cfg K) (ev : K × K → V3 K) (p : V3 K) (root : Bvh.Node K (Quad K)) (r : DnC.Box K)
    (hr : DnC.Within r r) (ht : 0 < cfg.tol) (miss : (Bvh.containsPt root (toPt p)).flatten = []) :
    (∃ k uv, inversion { cfg with k := k } ev root r p = some uv) ∧ ∀ uv, inversion cfg ev root r p = some uv → DnC.InBox uv r := by
  obtain ⟨⟨k, uv, e⟩, h⟩ := DnC.C81_search_partial (sqDist ev p) cfg.tol r hr ht
  refine ⟨⟨k, uv, ?_⟩, fun uv huv => ?_⟩
  · unfold inversion; rw [miss]; exact e
  · unfold inversion at huv; rw [miss] at huv; exact (h _ _ huv).1

/-- Every box of a quad is proper. -/
theorem good_quad (ev : K × K → V3 K) (q : (K × K) × (K × K) × (K × K) × (K × K)) : Bvh.Good (mkQuad ev q).box := by
  refine Bvh.good_mk _ _ fun i _ => ?_
  exact (min_le_left _ _).trans ((min_le_left _ _).trans ((le_max_left _ _).trans (le_max_left _ _)))

/-- The tree of the surface, and which points it finds. -/
theorem tree_hit (ev : K × K → V3 K) (r : DnC.Box K) (nu nv f : Nat) (hne : Srf.quads r.x0 r.x1 r.y0 r.y1 nu nv ≠ [])
    (hf : (Srf.quads r.x0 r.x1 r.y0 r.y1 nu nv).length ≤ 2 ^ f) (p : V3 K) :
    ∃ n, tree ev r nu nv (f + 1) = some n ∧
      ((Bvh.containsPt n (toPt p)).flatten = [] ↔
        ∀ q ∈ Srf.quads r.x0 r.x1 r.y0 r.y1 nu nv, ¬ Aabb.InBox 3 (mkQuad ev q).box.arr (toPt p)) := by
  obtain ⟨n, e, h⟩ := Bvh.C26_contains_point Quad.box ((Srf.quads r.x0 r.x1 r.y0 r.y1 nu nv).map (mkQuad ev)) (by simpa using hne)
    (by intro o ho; obtain ⟨q, _, rfl⟩ := List.mem_map.1 ho; exact good_quad ev q) f (by simpa using hf) (toPt p)
  refine ⟨n, e, ?_⟩
  rw [List.flatten_eq_nil_iff]
  constructor
  · intro hn q hq hin
    have : [mkQuad ev q] ∈ Bvh.containsPt n (toPt p) :=
      h.symm.subset (List.mem_map.2 ⟨_, List.mem_filter.2 ⟨List.mem_map.2 ⟨q, hq, rfl⟩, by simpa using hin⟩, rfl⟩)
    exact absurd (hn _ this) (by simp)
  · intro hn l hl
    obtain ⟨o, ho, rfl⟩ := List.mem_map.1 (h.subset hl)
    obtain ⟨ho, hb⟩ := List.mem_filter.1 ho
    obtain ⟨q, hq, rfl⟩ := List.mem_map.1 ho
    exact absurd (by simpa using hb) (hn q hq)

/-- **C451, refuted, range.** A parallelogram with the tree of `build_tree`: the result for a point beside it, which lies in a box of the tree, is
outside of the range; the nearest point of the surface is another one. -/
theorem C451_interval_refuted (cfg : Cfg ℚ) (ht : 0 < cfg.ntol) (hh : cfg.h ≠ 0) (hm : 2 ≤ cfg.maxIter) :
    ∃ n, tree (plane (⟨0, 0, 0⟩ : V3 ℚ) ⟨1, 1, 0⟩ ⟨1, 0, 0⟩) ⟨0, 1, 0, 1⟩ 5 5 5 = some n ∧
      inversion cfg (plane ⟨0, 0, 0⟩ ⟨1, 1, 0⟩ ⟨1, 0, 0⟩) n ⟨0, 1, 0, 1⟩ ⟨5 / 4, 0, 0⟩ = some (0, 5 / 4) ∧
      ¬ DnC.InBox (0, 5 / 4) (⟨0, 1, 0, 1⟩ : DnC.Box ℚ) := by
  obtain ⟨n, e, h⟩ := tree_hit (plane (⟨0, 0, 0⟩ : V3 ℚ) ⟨1, 1, 0⟩ ⟨1, 0, 0⟩) ⟨0, 1, 0, 1⟩ 5 5 4 (by decide +kernel) (by decide +kernel)
    ⟨5 / 4, 0, 0⟩
  have hit : (Bvh.containsPt n (toPt (⟨5 / 4, 0, 0⟩ : V3 ℚ))).flatten ≠ [] := by
    intro hn
    have := h.1 hn ((0, 3 / 4), (1 / 4, 3 / 4), (1 / 4, 1), (0, 1)) (by decide +kernel)
    refine this fun i hi => ?_
    interval_cases i <;> decide +kernel
  obtain ⟨uv, e1, _, _, _, e2⟩ := C451_plane_partial cfg (⟨0, 0, 0⟩ : V3 ℚ) ⟨1, 1, 0⟩ ⟨1, 0, 0⟩ ⟨5 / 4, 0, 0⟩ n ⟨0, 1, 0, 1⟩
    (by simp [cross, zero]) hit ht hh hm
  refine ⟨n, e, ?_, by simp [DnC.InBox]; norm_num⟩
  rw [e1, e2 (0, 5 / 4) (by simp [plane, add, smul])]

/-- A surface with a hollow between the first two rows of the grid. -/
def hollow (uv : ℚ × ℚ) : V3 ℚ := ⟨uv.1, uv.2, (uv.1 - 1 / 8) ^ 2⟩

/-- **C451, refuted, points of the surface.** No box of the tree of `build_tree` contains this point of the surface, so the search by halving
answers; its result is not the pair of parameters, and `implicit` is not zero. -/
theorem C451_surface_refuted (cfg : Cfg ℚ) (ht : cfg.tol = 1 / 1000) (hk : cfg.k = 20) :
    ∃ n uv, tree hollow ⟨0, 1, 0, 1⟩ 5 5 5 = some n ∧ inversion cfg hollow n ⟨0, 1, 0, 1⟩ (hollow (1 / 8, 1 / 3)) = some uv ∧
      uv ≠ (1 / 8, 1 / 3) ∧ ∃ d, implicit (inversion cfg hollow n ⟨0, 1, 0, 1⟩) hollow (hollow (1 / 8, 1 / 3)) = some d ∧ 0 < d := by
  obtain ⟨n, e, h⟩ := tree_hit hollow ⟨0, 1, 0, 1⟩ 5 5 4 (by decide +kernel) (by decide +kernel) (hollow (1 / 8, 1 / 3))
  have miss : (Bvh.containsPt n (toPt (hollow (1 / 8, 1 / 3)))).flatten = [] := by
    refine h.2 ?_
    have : ∀ q ∈ Srf.quads (0 : ℚ) 1 0 1 5 5, ¬ ∀ i ∈ [0, 1, 2], (mkQuad hollow q).box.arr.lo i ≤ toPt (hollow (1 / 8, 1 / 3)) i ∧
        toPt (hollow (1 / 8, 1 / 3)) i ≤ (mkQuad hollow q).box.arr.hi i := by decide +kernel
    intro q hq hin
    exact this q hq fun i hi => hin i (by simp at hi; omega)
  have hs : ∃ uv, DnC.min2d (sqDist hollow (hollow (1 / 8, 1 / 3))) (1 / 1000) ⟨0, 1, 0, 1⟩ 20 = some uv ∧ uv ≠ (1 / 8, 1 / 3) ∧
      0 < dot (sub (hollow (1 / 8, 1 / 3)) (hollow uv)) (sub (hollow (1 / 8, 1 / 3)) (hollow uv)) := by
    have : ((DnC.min2d (sqDist hollow (hollow (1 / 8, 1 / 3))) (1 / 1000) ⟨0, 1, 0, 1⟩ 20).any fun uv => decide (uv ≠ (1 / 8, 1 / 3) ∧
      0 < dot (sub (hollow (1 / 8, 1 / 3)) (hollow uv)) (sub (hollow (1 / 8, 1 / 3)) (hollow uv)))) = true := by decide +kernel
    obtain ⟨h1, h2⟩ := (Option.any_eq_true_iff_get _ _).1 this
    exact ⟨_, (Option.some_get h1).symm, of_decide_eq_true h2⟩
  obtain ⟨uv, h1, h2, h3⟩ := hs
  have hi : inversion cfg hollow n ⟨0, 1, 0, 1⟩ (hollow (1 / 8, 1 / 3)) = some uv := by
    unfold inversion; rw [miss, ht, hk]; exact h1
  exact ⟨n, uv, e, hi, h2, _, by unfold implicit; rw [hi]; rfl, h3⟩

/-! ## C452: `implicit` and `gradient` -/

/-- **C452, what holds.** The value is zero exactly when the point of the surface at the parameters found is the point itself. -/
theorem C452_zero_partial (inv : V3 K → Option (K × K)) (ev : K × K → V3 K) (p : V3 K) :
    implicit inv ev p = some 0 ↔ ∃ uv, inv p = some uv ∧ ev uv = p := by
  unfold implicit
  rw [Option.map_eq_some_iff]
  refine exists_congr fun uv => and_congr_right fun _ => ?_
  rw [dot_self_eq_zero]
  constructor
  · intro h
    have hx := congrArg V3.x h; have hy := congrArg V3.y h; have hz := congrArg V3.z h
    simp only [sub, zero, sub_eq_zero] at hx hy hz
    exact V3.ext hx.symm hy.symm hz.symm
  · rintro rfl; simp [sub, zero]

/-- **C452, refuted, sign.** The value is never negative: the two sides of a surface are not told apart. -/
theorem C452_sign_refuted (inv : V3 K → Option (K × K)) (ev : K × K → V3 K) (p : V3 K) (d : K) (h : implicit inv ev p = some d) : 0 ≤ d := by
  unfold implicit at h
  obtain ⟨uv, _, rfl⟩ := Option.map_eq_some_iff.1 h
  exact dot_self_nonneg _

/-- **C452, what holds of the gradient.** It has length one and is orthogonal to both derivatives at the parameters found. -/
theorem C452_gradient_partial {nrm : V3 K → K} (hn : Nrm nrm) (inv : V3 K → Option (K × K)) (du dv : K × K → V3 K) (p g : V3 K)
    (h : gradient nrm inv du dv p = some g) :
    dot g g = 1 ∧ ∃ uv, inv p = some uv ∧ dot g (du uv) = 0 ∧ dot g (dv uv) = 0 ∧ 0 < dot g (cross (du uv) (dv uv)) := by
  unfold gradient at h
  obtain ⟨uv, e, h⟩ := Option.bind_eq_some_iff.1 h
  obtain ⟨⟨x, y, z⟩, hf, rfl⟩ := Option.map_eq_some_iff.1 h
  obtain ⟨_, h1, _, _, _, h2, h3, _⟩ := Srf.C276_frame_partial hn _ _ _ _ _ hf
  refine ⟨h1, uv, e, h2, h3, ?_⟩
  unfold Srf.planeAt at hf
  cases hz : Srf.normalOf nrm (du uv) (dv uv) with
  | none => rw [hz] at hf; cases hf
  | some n =>
    rw [hz] at hf
    simp only [Option.bind_eq_bind, Option.bind_some] at hf
    split_ifs at hf with h0
    simp only [pure, Option.some.injEq, Prod.mk.injEq] at hf
    obtain ⟨_, _, rfl⟩ := hf
    obtain ⟨_, _, _, h4, h5⟩ := Srf.normalOf_spec hn _ _ _ hz
    show 0 < dot n _
    rw [h5, Srf.dot_smul_l, ← hn.sq]
    have : 0 < nrm (cross (du uv) (dv uv)) := lt_of_le_of_ne (hn.nonneg _) (Ne.symm h4)
    positivity

/-- **C452, refuted, gradient.** At every point where `implicit` is zero, on every surface, the vector returned by `gradient` is not the gradient
of `implicit`: along it the derivative of `implicit`, if there is one, is zero and not the square of its length. -/
theorem C452_gradient_refuted {nrm : V3 ℝ → ℝ} (hn : Nrm nrm) (inv : V3 ℝ → Option (ℝ × ℝ)) (ev du dv : ℝ × ℝ → V3 ℝ) (p g : V3 ℝ)
    (hg : gradient nrm inv du dv p = some g) (h0 : implicit inv ev p = some 0) (f : ℝ → ℝ)
    (hf : ∀ t, implicit inv ev (add p (smul t g)) = some (f t)) : ¬ HasDerivAt f (dot g g) 0 := by
  intro hd
  have f0 : f 0 = 0 := by
    have e : add p (smul 0 g) = p := by simp [add, smul]
    have := hf 0
    rw [e, h0] at this
    exact (Option.some.inj this).symm
  have hmin : IsLocalMin f 0 := Filter.Eventually.of_forall fun t => by rw [f0]; exact C452_sign_refuted inv ev _ _ (hf t)
  have := hmin.hasDerivAt_eq_zero hd
  rw [(C452_gradient_partial hn inv du dv p g hg).1] at this
  exact one_ne_zero this

/-- The hypotheses of the refutation are met by the plane of the first two coordinates with the orthogonal projection. -/
example : ∃ (inv : V3 ℝ → Option (ℝ × ℝ)) (ev du dv : ℝ × ℝ → V3 ℝ) (p g : V3 ℝ),
    gradient (fun v => Real.sqrt (dot v v)) inv du dv p = some g ∧ implicit inv ev p = some 0 ∧
      ∃ f : ℝ → ℝ, ∀ t, implicit inv ev (add p (smul t g)) = some (f t) := by
  refine ⟨fun p => some (p.x, p.y), fun uv => ⟨uv.1, uv.2, 0⟩, fun _ => ⟨1, 0, 0⟩, fun _ => ⟨0, 1, 0⟩, ⟨2, 3, 0⟩, ⟨0, 0, 1⟩, ?_, ?_,
    fun t => t * t, fun t => ?_⟩
  · simp [gradient, Srf.planeAt, Srf.normalOf, cross, dot, smul]
  · simp [implicit, sub, dot]
  · simp [implicit, sub, dot, add, smul]

/-! ## C453: frames of curves on surfaces -/

theorem scalarUnit_spec {nrm : V3 K → K} (hn : Nrm nrm) (v u : V3 K) (h : scalarUnit nrm (.array v) = some u) :
    dot u u = 1 ∧ ∃ c, 0 < c ∧ u = smul c v := by
  unfold scalarUnit at h
  dsimp only at h
  split_ifs at h with h0
  cases h
  have hp : 0 < nrm v := lt_of_le_of_ne (hn.nonneg v) (Ne.symm h0)
  have e : (⟨v.x / nrm v, v.y / nrm v, v.z / nrm v⟩ : V3 K) = smul (1 / nrm v) v := by
    simp only [smul, one_div]
    congr 1 <;> ring
  rw [e]
  exact ⟨Srf.unit_of hn v h0, 1 / nrm v, by positivity, rfl⟩

/-- **C453, `plane_at`.** For a tangent in the tangent plane of the surface (by the chain rule every derivative of a curve on the surface is one) the
frame is orthonormal and right-handed, its second row points along the tangent and its last along the normal of the surface. -/
theorem C453_frame_partial {nrm : V3 K → K} (hn : Nrm nrm) (o du dv t n T N B : V3 K) (x y : K) (hN : Srf.normalOf nrm du dv = some n)
    (ht : t = add (smul x du) (smul y dv)) (h : planeAt nrm o t n = some (o, T, N, B)) :
    dot T T = 1 ∧ dot N N = 1 ∧ dot B B = 1 ∧ dot T N = 0 ∧ dot N B = 0 ∧ dot T B = 0 ∧ cross T N = B ∧
      (∃ c, 0 < c ∧ T = smul c t) ∧ B = n := by
  obtain ⟨n1, n2, n3, _, _⟩ := Srf.normalOf_spec hn du dv n hN
  unfold planeAt at h
  obtain ⟨T', hT, h⟩ := Option.bind_eq_some_iff.1 h
  obtain ⟨B', hB, h⟩ := Option.bind_eq_some_iff.1 h
  simp only [pure, Option.some.injEq, Prod.mk.injEq] at h
  obtain ⟨-, rfl, rfl, rfl⟩ := h
  obtain ⟨t1, c, hc, e⟩ := scalarUnit_spec hn _ _ hT
  obtain ⟨b1, d, hd, f⟩ := scalarUnit_spec hn _ _ hB
  have d1 : d = 1 := by
    rw [f, Srf.dot_smul_l, Srf.dot_smul_r, n1, mul_one] at b1
    nlinarith
  have fB : B' = n := by rw [f, d1]; simp [smul]
  have hTB : dot T' B' = 0 := by
    rw [e, fB, ht]
    simp only [dot, smul, add] at n2 n3 ⊢
    linear_combination c * x * n2 + c * y * n3
  refine ⟨t1, ?_, b1, ?_, ?_, hTB, ?_, ⟨c, hc, e⟩, fB⟩
  · have : dot (cross B' T') (cross B' T') = dot B' B' * dot T' T' - dot T' B' ^ 2 := by simp only [dot, cross]; ring
    rw [this, t1, b1, hTB]; ring
  · simp only [dot, cross]; ring
  · simp only [dot, cross]; ring
  · have : cross T' (cross B' T') = sub (smul (dot T' T') B') (smul (dot T' B') T') := by
      simp only [dot, cross, sub, smul]; refine V3.ext ?_ ?_ ?_ <;> simp only <;> ring
    rw [this, t1, hTB]
    simp [sub, smul]

/-- A case: the curve `t ↦ (t, t)` on a plane. -/
example : planeAt (fun v : V3 ℚ => if v = ⟨3, 4, 0⟩ then 5 else 1) ⟨1, 1, 0⟩ ⟨3, 4, 0⟩ ⟨0, 0, 1⟩ =
    some (⟨1, 1, 0⟩, ⟨3 / 5, 4 / 5, 0⟩, ⟨-4 / 5, 3 / 5, 0⟩, ⟨0, 0, 1⟩) := by
  simp [planeAt, scalarUnit, cross]
  norm_num

/-- **C453, refuted.** `normal` never returns: `scalar_unit` is called with a list. -/
theorem C453_normal_refuted (nrm : V3 K → K) (n t : V3 K) : normal nrm n t = none := rfl

end Verif.Sinv
