import Verif.Srf.Model
import Verif.Pinv.Props
import Mathlib.Tactic.Ring
import Mathlib.Tactic.Linarith
import Mathlib.Tactic.NormNum
import Mathlib.Tactic.FieldSimp
import Mathlib.Tactic.LinearCombination
import Mathlib.Tactic.Positivity
import Mathlib.Algebra.Order.BigOperators.Group.List

set_option linter.unusedSectionVars false

/-!
# Python surfaces: curves of constant parameter, quads, planes, curvatures, lines (C274–C278)
-/

namespace Verif.Srf

open Verif.Vec Verif.Vec.V3 Verif.Pinv

variable {K : Type} [Field K] [LinearOrder K] [IsStrictOrderedRing K]

/-! ## C274: curves of constant parameter -/

/-- The point at a share `t` of the way between two points of the domain. -/
def between (p q : K × K) (t : K) : K × K := ((1 - t) * p.1 + t * q.1, (1 - t) * p.2 + t * q.2)

/-- **C274, in part.** When none of the four arguments lies below the interval of `u`, the curve runs straight from `(u0, v0)` to
`(u1, v1)`. -/
theorem C274_isocurve_partial (us ue vs ve u0 v0 u1 v1 t : K) (h : us ≤ ue) (hu0 : us ≤ u0) (hv0 : us ≤ v0) (hu1 : us ≤ u1)
    (hv1 : us ≤ v1) : isocurve us ue vs ve u0 v0 u1 v1 t = between (u0, v0) (u1, v1) t := by
  have p : ∀ d x : K, us ≤ x → pickArg us ue d x = x := fun d x hx => by
    rw [pickArg, min_eq_left h, if_neg (not_lt.2 hx)]
  unfold isocurve between
  rw [p _ _ hu0, p _ _ hv0, p _ _ hu1, p _ _ hv1]
  ext <;> dsimp only <;> ring

/-- **C274, refuted.** With the arguments left out (they are -1), on a domain that begins above -1, the curve runs from
`(us, ue)` to `(vs, ve)` and not from corner to corner; on the unit square it does not move at all. -/
theorem C274_default_refuted (us ue vs ve t : K) (h : us ≤ ue) (h1 : -1 < us) :
    isocurve us ue vs ve (-1) (-1) (-1) (-1) t = between (us, ue) (vs, ve) t ∧
    (ue ≠ vs → isocurve us ue vs ve (-1) (-1) (-1) (-1) 0 ≠ (us, vs) ∧ isocurve us ue vs ve (-1) (-1) (-1) (-1) 1 ≠ (ue, ve)) ∧
    isocurve (0 : K) 1 0 1 (-1) (-1) (-1) (-1) t = (0, 1) := by
  have p : ∀ a b d : K, a ≤ b → -1 < a → pickArg a b d (-1) = d := fun a b d hab ha => by
    rw [pickArg, min_eq_left hab, if_pos ha]
  have e : ∀ t : K, isocurve us ue vs ve (-1) (-1) (-1) (-1) t = between (us, ue) (vs, ve) t := fun t => by
    unfold isocurve between
    rw [p _ _ _ h h1, p _ _ _ h h1, p _ _ _ h h1, p _ _ _ h h1]
    ext <;> dsimp only <;> ring
  refine ⟨e t, fun hne => ⟨?_, ?_⟩, ?_⟩
  · rw [e]; intro q
    have := (Prod.ext_iff.1 q).2
    simp only [between] at this
    exact hne (by linarith)
  · rw [e]; intro q
    have := (Prod.ext_iff.1 q).1
    simp only [between] at this
    exact hne (by linarith)
  · unfold isocurve
    have h0 : (-1 : K) < 0 := by linarith [zero_lt_one (α := K)]
    simp only [p _ _ _ zero_le_one h0]
    ext <;> dsimp only <;> ring

/-- **C274, refuted.** The second argument is compared with the interval of `u`: a `v0` below it is replaced by the end of the interval
of `u`, even if it lies in the interval of `v`. -/
theorem C274_v_refuted (us ue vs ve u0 v0 u1 v1 : K) (h : us ≤ ue) (hv : v0 < us) :
    (isocurve us ue vs ve u0 v0 u1 v1 0).2 = ue ∧ (isocurve us ue vs ve u0 v0 u1 v1 0).2 ≠ v0 := by
  have e : (isocurve us ue vs ve u0 v0 u1 v1 0).2 = ue := by
    unfold isocurve
    dsimp only
    have : pickArg us ue ue v0 = ue := by rw [pickArg, min_eq_left h, if_pos hv]
    rw [this]; ring
  exact ⟨e, by rw [e]; exact fun q => absurd (q ▸ hv) (not_lt.2 h)⟩

/-- A domain where it happens: `u` over [2, 3], `v` over [0, 1] and `v0 = 0`. -/
example : (isocurve (2 : ℚ) 3 0 1 2 0 3 0 0).2 = 3 := by decide +kernel
example : (isocurve (0 : ℚ) 1 0 1 (1 / 4) 0 (1 / 4) 1 (1 / 2)) = (1 / 4, 1 / 2) := by decide +kernel

/-- **C274.** `isoline_u` keeps `u` and runs through [0, 1] in `v`, and `isoline_v` the other way round. -/
theorem C274_isoline (w t : K) : isolineU w t = (w, t) ∧ isolineV w t = (t, w) := by
  constructor
  · unfold isolineU; ext <;> dsimp only <;> ring
  · unfold isolineV; ext <;> dsimp only <;> ring

/-- **C274, in part and refuted.** Over its interval [0, 1] the line `isoline_u` runs through the interval of `v` of the surface if and
only if that is [0, 1]. -/
theorem C274_isoline_range (w vs ve : K) (h : vs ≤ ve) :
    (∀ v : K, (vs ≤ v ∧ v ≤ ve) ↔ ∃ t, 0 ≤ t ∧ t ≤ 1 ∧ isolineU w t = (w, v)) ↔ vs = 0 ∧ ve = 1 := by
  constructor
  · intro q
    have e : ∀ v : K, (vs ≤ v ∧ v ≤ ve) ↔ (0 ≤ v ∧ v ≤ 1) := fun v => by
      rw [q v]
      constructor
      · rintro ⟨t, h0, h1, ht⟩
        rw [(C274_isoline w t).1] at ht
        have := (Prod.ext_iff.1 ht).2
        dsimp only at this
        subst this; exact ⟨h0, h1⟩
      · rintro ⟨h0, h1⟩
        exact ⟨v, h0, h1, (C274_isoline w v).1⟩
    have a := (e vs).1 ⟨le_refl _, h⟩
    have b := (e ve).1 ⟨h, le_refl _⟩
    have c := (e 0).2 ⟨le_refl _, zero_le_one⟩
    have d := (e 1).2 ⟨zero_le_one, le_refl _⟩
    exact ⟨le_antisymm c.1 a.1, le_antisymm b.2 d.2⟩
  · rintro ⟨rfl, rfl⟩ v
    constructor
    · rintro ⟨h0, h1⟩; exact ⟨v, h0, h1, (C274_isoline w v).1⟩
    · rintro ⟨t, h0, h1, ht⟩
      rw [(C274_isoline w t).1] at ht
      have := (Prod.ext_iff.1 ht).2
      dsimp only at this
      subst this; exact ⟨h0, h1⟩

/-- **C274, in part.** On a domain of `u` that begins at most at 0, `isocurve_u(u, u)` is the line of constant `u` over [0, 1]. -/
theorem C274_isocurveU_partial (us ue vs ve u t : K) (h : us ≤ ue) (h0 : us ≤ 0) (hu : us ≤ u) :
    isocurveU us ue vs ve u u t = isolineU u t ∧ isocurveV us ue vs ve u u t = isolineV u t := by
  unfold isocurveU isocurveV
  rw [C274_isocurve_partial us ue vs ve u 0 u 1 t h hu h0 hu (by linarith [zero_lt_one (α := K)]),
    C274_isocurve_partial us ue vs ve 0 u 1 u t h h0 hu (by linarith [zero_lt_one (α := K)]) hu,
    (C274_isoline u t).1, (C274_isoline u t).2]
  constructor <;> unfold between <;> ext <;> dsimp only <;> ring

/-! ## C275: the quads of `surface_bvh` -/

theorem mem_quads (us ue vs ve : K) (nu nv : Nat) (q : (K × K) × (K × K) × (K × K) × (K × K)) :
    q ∈ quads us ue vs ve nu nv ↔ ∃ i j, i + 1 < nu ∧ j + 1 < nv ∧
      q = ((lin us ue nu i, lin vs ve nv j), (lin us ue nu (i + 1), lin vs ve nv j),
        (lin us ue nu (i + 1), lin vs ve nv (j + 1)), (lin us ue nu i, lin vs ve nv (j + 1))) := by
  unfold quads
  simp only [List.mem_flatMap, List.mem_range]
  constructor
  · rintro ⟨i, hi, j, hj, hq⟩
    split_ifs at hq with hc
    · exact absurd hq (List.not_mem_nil)
    · push Not at hc
      refine ⟨i, j, by omega, by omega, List.mem_singleton.1 hq⟩
  · rintro ⟨i, j, hi, hj, hq⟩
    refine ⟨i, by omega, j, by omega, ?_⟩
    rw [if_neg (by omega)]
    exact List.mem_singleton.2 hq

theorem cell (f : Nat → K) (x : K) : ∀ n, 0 < n → f 0 ≤ x → x ≤ f n → ∃ i, i < n ∧ f i ≤ x ∧ x ≤ f (i + 1)
  | 0, h, _, _ => absurd h (lt_irrefl 0)
  | n + 1, _, h0, h1 => by
    by_cases hx : f n ≤ x
    · exact ⟨n, by omega, hx, h1⟩
    · rcases Nat.eq_zero_or_pos n with hn | hn
      · subst hn; exact absurd h0 hx
      · obtain ⟨i, hi, a, b⟩ := cell f x n hn h0 (le_of_lt (not_le.1 hx))
        exact ⟨i, by omega, a, b⟩

theorem lin_ends (a b : K) (n : Nat) (h : 2 ≤ n) : lin a b n 0 = a ∧ lin a b n (n - 1) = b := by
  have hn : ¬ n ≤ 1 := by omega
  have h0 : ((n - 1 : Nat) : K) ≠ 0 := Nat.cast_ne_zero.2 (by omega)
  constructor
  · rw [lin, if_neg hn]; simp
  · rw [lin, if_neg hn, mul_div_assoc, div_self h0]; ring

/-- **C275.** Every point of the domain lies in one of the quads that the tree is built from. -/
theorem C275_cover (us ue vs ve u v : K) (nu nv : Nat) (hu : 2 ≤ nu) (hv : 2 ≤ nv) (h1 : us ≤ u) (h2 : u ≤ ue) (h3 : vs ≤ v)
    (h4 : v ≤ ve) : ∃ q ∈ quads us ue vs ve nu nv, q.1.1 ≤ u ∧ u ≤ q.2.2.1.1 ∧ q.1.2 ≤ v ∧ v ≤ q.2.2.1.2 := by
  obtain ⟨i, hi, a, b⟩ := cell (lin us ue nu) u (nu - 1) (by omega) (by rw [(lin_ends us ue nu hu).1]; exact h1)
    (by rw [(lin_ends us ue nu hu).2]; exact h2)
  obtain ⟨j, hj, c, d⟩ := cell (lin vs ve nv) v (nv - 1) (by omega) (by rw [(lin_ends vs ve nv hv).1]; exact h3)
    (by rw [(lin_ends vs ve nv hv).2]; exact h4)
  exact ⟨_, (mem_quads us ue vs ve nu nv _).2 ⟨i, j, by omega, by omega, rfl⟩, a, b, c, d⟩

/-- **C275.** Every quad is a rectangle of the domain, with its corners in turn. -/
theorem C275_rect (us ue vs ve : K) (nu nv : Nat) (hu : us ≤ ue) (hv : vs ≤ ve) (q : (K × K) × (K × K) × (K × K) × (K × K))
    (hq : q ∈ quads us ue vs ve nu nv) :
    q = ((q.1.1, q.1.2), (q.2.2.1.1, q.1.2), (q.2.2.1.1, q.2.2.1.2), (q.1.1, q.2.2.1.2)) ∧
    us ≤ q.1.1 ∧ q.1.1 ≤ q.2.2.1.1 ∧ q.2.2.1.1 ≤ ue ∧ vs ≤ q.1.2 ∧ q.1.2 ≤ q.2.2.1.2 ∧ q.2.2.1.2 ≤ ve := by
  obtain ⟨i, j, hi, hj, rfl⟩ := (mem_quads us ue vs ve nu nv q).1 hq
  have mono : ∀ (a b : K) (n k l : Nat), a ≤ b → k ≤ l → lin a b n k ≤ lin a b n l := fun a b n k l hab hkl => by
    unfold lin
    split_ifs
    · exact le_refl _
    · have hk : (k : K) ≤ l := Nat.cast_le.2 hkl
      have : (b - a) * k ≤ (b - a) * l := mul_le_mul_of_nonneg_left hk (sub_nonneg.2 hab)
      have hp : (0 : K) ≤ ((n - 1 : Nat) : K) := Nat.cast_nonneg _
      linarith [div_le_div_of_nonneg_right this hp]
  refine ⟨rfl, ?_, mono _ _ _ _ _ hu (by omega), ?_, ?_, mono _ _ _ _ _ hv (by omega), ?_⟩
  · rw [← (lin_ends us ue nu (by omega)).1]; dsimp only; rw [(lin_ends us ue nu (by omega)).1]
    conv_lhs => rw [← (lin_ends us ue nu (by omega)).1]
    exact mono _ _ _ _ _ hu (by omega)
  · conv_rhs => rw [← (lin_ends us ue nu (by omega)).2]
    exact mono _ _ _ _ _ hu (by omega)
  · conv_lhs => rw [← (lin_ends vs ve nv (by omega)).1]
    exact mono _ _ _ _ _ hv (by omega)
  · conv_rhs => rw [← (lin_ends vs ve nv (by omega)).2]
    exact mono _ _ _ _ _ hv (by omega)

/-- **C275.** There are `(nu - 1) (nv - 1)` quads. -/
theorem C275_count (us ue vs ve : K) (nu nv : Nat) : (quads us ue vs ve nu nv).length = (nu - 1) * (nv - 1) := by
  have one : ∀ (n : Nat) (P : Nat → Prop) [DecidablePred P] (c : Nat), (∀ i, i < n → (P i ↔ i = n - 1)) →
      ((List.range n).map fun i => if P i then 0 else c).sum = (n - 1) * c := by
    intro n P _ c hP
    cases n with
    | zero => simp
    | succ n =>
      rw [List.range_succ, List.map_append, List.sum_append]
      have hl : (List.range n).map (fun i => if P i then 0 else c) = (List.range n).map (fun _ => c) := by
        apply List.map_congr_left
        intro i hi
        have hi' := List.mem_range.1 hi
        rw [if_neg]
        rw [hP i (by omega)]; omega
      have hz : P n := (hP n (by omega)).2 (by omega)
      rw [hl]
      simp [hz]
  unfold quads
  rw [List.length_flatMap]
  have inner : ∀ i, ((List.range nv).flatMap fun j =>
      if i = nu - 1 ∨ j = nv - 1 then ([] : List ((K × K) × (K × K) × (K × K) × (K × K)))
      else
        let u := lin us ue nu
        let v := lin vs ve nv
        [((u i, v j), (u (i + 1), v j), (u (i + 1), v (j + 1)), (u i, v (j + 1)))]).length = if i = nu - 1 then 0 else nv - 1 := by
    intro i
    rw [List.length_flatMap]
    by_cases hi : i = nu - 1
    · simp [hi]
    · rw [if_neg hi]
      have := one nv (fun j => j = nv - 1) 1 (fun _ _ => Iff.rfl)
      rw [mul_one] at this
      refine Eq.trans ?_ this
      congr 1
      apply List.map_congr_left
      intro j _
      by_cases hj : j = nv - 1
      · rw [if_pos (Or.inr hj), if_pos hj]; rfl
      · rw [if_neg (not_or.2 ⟨hi, hj⟩), if_neg hj]; rfl
  simp only [inner]
  exact one nu (fun i => i = nu - 1) (nv - 1) (fun _ _ => Iff.rfl)

example : (quads (0 : ℚ) 1 0 1 5 5).length = 16 := by rw [C275_count]

/-! ## C276: the plane at a point -/

theorem dot_comm' (a b : V3 K) : dot a b = dot b a := by simp only [dot]; ring
theorem dot_smul_l (s : K) (a b : V3 K) : dot (smul s a) b = s * dot a b := by simp only [dot, smul]; ring
theorem dot_smul_r (s : K) (a b : V3 K) : dot a (smul s b) = s * dot a b := by simp only [dot, smul]; ring
theorem dot_add_l (a b c : V3 K) : dot (add a b) c = dot a c + dot b c := by simp only [dot, add]; ring
theorem dot_add_r (a b c : V3 K) : dot c (add a b) = dot c a + dot c b := by simp only [dot, add]; ring
theorem dot_sub_l (a b c : V3 K) : dot (sub a b) c = dot a c - dot b c := by simp only [dot, sub]; ring
theorem dot_sub_r (a b c : V3 K) : dot c (sub a b) = dot c a - dot c b := by simp only [dot, sub]; ring
theorem cross_dot_l (a b : V3 K) : dot (cross a b) a = 0 := by simp only [dot, cross]; ring
theorem cross_dot_r (a b : V3 K) : dot (cross a b) b = 0 := by simp only [dot, cross]; ring

theorem unit_of {nrm : V3 K → K} (hn : Nrm nrm) (v : V3 K) (h : nrm v ≠ 0) :
    dot (smul (1 / nrm v) v) (smul (1 / nrm v) v) = 1 := by
  rw [dot_smul_l, dot_smul_r, ← hn.sq v]
  field_simp

theorem normalOf_spec {nrm : V3 K → K} (hn : Nrm nrm) (a b n : V3 K) (h : normalOf nrm a b = some n) :
    dot n n = 1 ∧ dot n a = 0 ∧ dot n b = 0 ∧ nrm (cross a b) ≠ 0 ∧ n = smul (1 / nrm (cross a b)) (cross a b) := by
  unfold normalOf at h
  dsimp only at h
  split_ifs at h with h0
  cases h
  refine ⟨unit_of hn _ h0, ?_, ?_, h0, rfl⟩
  · rw [dot_smul_l, cross_dot_l, mul_zero]
  · rw [dot_smul_l, cross_dot_r, mul_zero]

/-- **C276, in part.** The axes returned are orthogonal, the first and the last have length one, and the first points along
`derivative_u`; the second lies in the tangent plane. -/
theorem C276_frame_partial {nrm : V3 K → K} (hn : Nrm nrm) (du dv x y z : V3 K) (h : planeAt nrm du dv = some (x, y, z)) :
    dot x x = 1 ∧ dot z z = 1 ∧ dot x y = 0 ∧ dot x z = 0 ∧ dot y z = 0 ∧ dot z du = 0 ∧ dot z dv = 0 ∧
    (∃ s, 0 < s ∧ x = smul s du) := by
  unfold planeAt at h
  cases hz : normalOf nrm du dv with
  | none => rw [hz] at h; cases h
  | some n =>
    rw [hz] at h
    simp only [Option.bind_eq_bind, Option.bind_some] at h
    split_ifs at h with h0
    push Not at h0
    simp only [pure, Option.some.injEq, Prod.mk.injEq] at h
    obtain ⟨rfl, rfl, rfl⟩ := h
    obtain ⟨n1, n2, n3, _, _⟩ := normalOf_spec hn du dv n hz
    have u := unit_of hn du h0.1
    refine ⟨u, n1, ?_, ?_, ?_, n2, n3, 1 / nrm du, ?_, rfl⟩
    · rw [dot_sub_r, dot_smul_r (dot _ _), u, mul_one, dot_comm', sub_self]
    · rw [dot_smul_l, dot_comm', n2, mul_zero]
    · simp only [dot_sub_l, dot_smul_l, dot_smul_r, dot_comm' dv n, dot_comm' du n, n2, n3]; ring
    · exact div_pos one_pos (lt_of_le_of_ne (hn.nonneg du) (Ne.symm h0.1))

/-- **C276, refuted.** The second axis has length one if and only if the derivatives are orthogonal: it is not brought back to length
one after the projection is taken away. -/
theorem C276_second_axis_refuted {nrm : V3 K → K} (hn : Nrm nrm) (du dv x y z : V3 K) (h : planeAt nrm du dv = some (x, y, z)) :
    dot y y = 1 - dot du dv ^ 2 / (dot du du * dot dv dv) ∧ (dot y y = 1 ↔ dot du dv = 0) := by
  unfold planeAt at h
  cases hz : normalOf nrm du dv with
  | none => rw [hz] at h; cases h
  | some n =>
    rw [hz] at h
    simp only [Option.bind_eq_bind, Option.bind_some] at h
    split_ifs at h with h0
    push Not at h0
    simp only [pure, Option.some.injEq, Prod.mk.injEq] at h
    obtain ⟨rfl, rfl, rfl⟩ := h
    have u := unit_of hn du h0.1
    have w := unit_of hn dv h0.2
    have e : dot (sub (smul (1 / nrm dv) dv) (smul (dot (smul (1 / nrm dv) dv) (smul (1 / nrm du) du)) (smul (1 / nrm du) du)))
        (sub (smul (1 / nrm dv) dv) (smul (dot (smul (1 / nrm dv) dv) (smul (1 / nrm du) du)) (smul (1 / nrm du) du))) =
        1 - dot (smul (1 / nrm dv) dv) (smul (1 / nrm du) du) ^ 2 := by
      generalize smul (1 / nrm dv) dv = p at *
      generalize smul (1 / nrm du) du = q at *
      rw [dot_sub_l, dot_sub_r, dot_sub_r, dot_smul_l, dot_smul_r, dot_smul_l, dot_smul_r, u, w, dot_comm' q p]; ring
    have e2 : dot (smul (1 / nrm dv) dv) (smul (1 / nrm du) du) ^ 2 = dot du dv ^ 2 / (dot du du * dot dv dv) := by
      rw [dot_smul_l, dot_smul_r, ← hn.sq du, ← hn.sq dv, dot_comm' dv du]
      have a := h0.1
      have b := h0.2
      field_simp
    rw [e, e2]
    refine ⟨rfl, ?_⟩
    have a : dot du du ≠ 0 := by rw [← hn.sq du]; exact pow_ne_zero 2 h0.1
    have b : dot dv dv ≠ 0 := by rw [← hn.sq dv]; exact pow_ne_zero 2 h0.2
    constructor
    · intro q
      have : dot du dv ^ 2 / (dot du du * dot dv dv) = 0 := by linarith
      rcases div_eq_zero_iff.1 this with k | k
      · exact pow_eq_zero_iff two_ne_zero |>.1 k
      · exact absurd k (mul_ne_zero a b)
    · intro q; rw [q]; simp

/-- A skew parametrisation of a plane: the second axis is shorter than one. -/
example : ∃ (x y z : V3 ℝ), planeAt (fun v : V3 ℝ => Real.sqrt (dot v v)) ⟨1, 0, 0⟩ ⟨3, 4, 0⟩ = some (x, y, z) ∧ dot y y ≠ 1 := by
  have hz : normalOf (fun v : V3 ℝ => Real.sqrt (dot v v)) ⟨1, 0, 0⟩ ⟨3, 4, 0⟩ =
      some (smul (1 / Real.sqrt (dot (cross ⟨1, 0, 0⟩ ⟨3, 4, 0⟩) (cross ⟨1, 0, 0⟩ ⟨3, 4, 0⟩))) (cross ⟨1, 0, 0⟩ ⟨3, 4, 0⟩)) := by
    rw [normalOf, if_neg]
    rw [Real.sqrt_eq_zero']
    norm_num [dot, cross]
  have hp : planeAt (fun v : V3 ℝ => Real.sqrt (dot v v)) ⟨1, 0, 0⟩ ⟨3, 4, 0⟩ ≠ none := by
    unfold planeAt
    rw [hz]
    simp only [Option.bind_eq_bind, Option.bind_some]
    rw [if_neg]
    · simp
    · rw [Real.sqrt_eq_zero', Real.sqrt_eq_zero']
      norm_num [dot]
  obtain ⟨⟨x, y, z⟩, h⟩ := Option.ne_none_iff_exists'.1 hp
  refine ⟨x, y, z, h, fun q => ?_⟩
  have := (C276_second_axis_refuted nrm_real _ _ _ _ _ h).2.1 q
  norm_num [dot] at this

end Verif.Srf
