import Verif.Sic.Model
import Mathlib.Analysis.Real.Sqrt
import Mathlib.Tactic.Ring
import Mathlib.Tactic.LinearCombination
import Mathlib.Tactic.FieldSimp
import Mathlib.Tactic.Linarith
import Mathlib.Tactic.Positivity

/-! # Curvature of an intersection curve, polygons of trimming curves: properties -/

set_option linter.unusedSectionVars false

namespace Verif.Sic

open Verif.Vec Verif.Vec.V3

variable {K : Type} [Field K] [LinearOrder K] [IsStrictOrderedRing K]

/-- Being the Euclidean norm. -/
def IsNorm (nrm : V3 K → K) : Prop := ∀ v, 0 ≤ nrm v ∧ nrm v * nrm v = dot v v

example : IsNorm (K := ℝ) fun v => √(dot v v) :=
  fun v => ⟨Real.sqrt_nonneg _, Real.mul_self_sqrt (dot_self_nonneg v)⟩

/-- A curve with velocity `c1` and acceleration `c2` at the point runs in the surface with the derivatives `j`: by the
chain rule for `S (u(s), v(s))`. -/
def Runs (j : Jet K) (c1 c2 : V3 K) : Prop :=
  ∃ u v uu vv : K, c1 = (smul u j.su).add (smul v j.sv) ∧
    c2 = (((smul (u ^ 2) j.suu).add (smul (2 * u * v) j.suv)).add (smul (v ^ 2) j.svv)).add
      ((smul uu j.su).add (smul vv j.sv))

/-- Derivatives of length one and perpendicular. -/
def Orthonormal (j : Jet K) : Prop := dot j.su j.su = 1 ∧ dot j.sv j.sv = 1 ∧ dot j.su j.sv = 0

theorem unit_dot {nrm : V3 K → K} (hn : IsNorm nrm) {v : V3 K} (hv : v ≠ zero) : dot (unit nrm v) (unit nrm v) = 1 := by
  have h := (hn v).2
  have h0 : nrm v ≠ 0 := by
    intro h0
    rw [h0, mul_zero] at h
    exact hv (dot_self_eq_zero.1 h.symm)
  have e : dot (unit nrm v) (unit nrm v) = (1 / nrm v) ^ 2 * dot v v := by simp only [unit, smul, dot]; ring
  rw [e, ← h]; field_simp

theorem dot_comm' (a b : V3 K) : dot a b = dot b a := by simp only [dot]; ring

theorem dot_unit (nrm : V3 K → K) (a v : V3 K) : dot a (unit nrm v) = 1 / nrm v * dot a v := by
  simp only [unit, smul, dot]; ring

theorem perp_zero {w n1 n2 : V3 K} (h1 : dot w n1 = 0) (h2 : dot w n2 = 0) (h3 : dot w (cross n1 n2) = 0)
    (hc : cross n1 n2 ≠ zero) : w = zero := by
  have e : dot w w * dot (cross n1 n2) (cross n1 n2) =
      (dot w (cross n1 n2)) ^ 2 + (dot w n2) ^ 2 * dot n1 n1 + (dot w n1) ^ 2 * dot n2 n2
        - 2 * dot w n1 * dot w n2 * dot n1 n2 := by
    simp only [dot, cross]; ring
  rw [h1, h2, h3] at e
  have e' : dot w w * dot (cross n1 n2) (cross n1 n2) = 0 := by rw [e]; ring
  rcases mul_eq_zero.1 e' with h | h
  · exact dot_self_eq_zero.1 h
  · exact absurd (dot_self_eq_zero.1 h) hc

/-- The normal of a surface: unit and perpendicular to the derivatives. -/
theorem normal_spec {nrm : V3 K → K} (hn : IsNorm nrm) {j : Jet K} (hj : cross j.su j.sv ≠ zero) :
    dot (j.normal nrm) (j.normal nrm) = 1 ∧ dot j.su (j.normal nrm) = 0 ∧ dot j.sv (j.normal nrm) = 0 := by
  refine ⟨unit_dot hn hj, ?_, ?_⟩
  · rw [Jet.normal, dot_unit]; simp only [dot, cross]; ring
  · rw [Jet.normal, dot_unit]; simp only [dot, cross]; ring

theorem ortho_cross {j : Jet K} (h : Orthonormal j) : cross j.su j.sv ≠ zero := by
  intro h0
  have := gram_pos j.su j.sv
  rw [h0, h.1, h.2.1, h.2.2] at this
  simp [dot, zero] at this

theorem runs_form {nrm : V3 K → K} (hn : IsNorm nrm) {j : Jet K} (hj : Orthonormal j) {c1 c2 t : V3 K} {s : K}
    (h : Runs j c1 c2) (hs : s ^ 2 = 1) (ht : c1 = smul s t) :
    j.form (j.normal nrm) t = dot c2 (j.normal nrm) := by
  obtain ⟨u, v, uu, vv, h1, h2⟩ := h
  obtain ⟨hN, hu, hv⟩ := normal_spec hn (ortho_cross hj)
  obtain ⟨a, b, c⟩ := hj
  have tt : t = smul s c1 := by
    rw [ht]
    have : smul s (smul s t) = smul (s ^ 2) t := by ext <;> simp only [smul] <;> ring
    rw [this, hs]; ext <;> simp [smul]
  have e1 : dot j.su t = s * u := by
    have : dot j.su t = s * (u * dot j.su j.su + v * dot j.su j.sv) := by
      rw [tt, h1]; simp only [dot, smul, add]; ring
    rw [this, a, c]; ring
  have e2 : dot j.sv t = s * v := by
    have : dot j.sv t = s * (u * dot j.su j.sv + v * dot j.sv j.sv) := by
      rw [tt, h1]; simp only [dot, smul, add]; ring
    rw [this, b, c]; ring
  have e3 : dot c2 (j.normal nrm) = u ^ 2 * dot j.suu (j.normal nrm) + 2 * u * v * dot j.suv (j.normal nrm)
      + v ^ 2 * dot j.svv (j.normal nrm) + uu * dot j.su (j.normal nrm) + vv * dot j.sv (j.normal nrm) := by
    rw [h2]; simp only [dot, smul, add]; ring
  rw [e3, hu, hv, Jet.form, e1, e2]
  linear_combination (dot j.suu (j.normal nrm) * u ^ 2 + 2 * dot j.suv (j.normal nrm) * u * v
    + dot j.svv (j.normal nrm) * v ^ 2) * hs

theorem runs_perp {nrm : V3 K → K} (hn : IsNorm nrm) {j : Jet K} (hj : cross j.su j.sv ≠ zero) {c1 c2 : V3 K}
    (h : Runs j c1 c2) : dot c1 (j.normal nrm) = 0 := by
  obtain ⟨u, v, uu, vv, h1, -⟩ := h
  obtain ⟨hN, hu, hv⟩ := normal_spec hn hj
  have : dot c1 (j.normal nrm) = u * dot j.su (j.normal nrm) + v * dot j.sv (j.normal nrm) := by
    rw [h1]; simp only [dot, smul, add]; ring
  rw [this, hu, hv]; ring

theorem sq_one {x : K} (h : x ^ 2 = 1) : x = 1 ∨ x = -1 := by
  have : (x - 1) * (x + 1) = 0 := by linear_combination h
  rcases mul_eq_zero.1 this with h | h
  · left; linear_combination h
  · right; linear_combination h

/-- The value of a call that returns. -/
theorem curvature_some {nrm : V3 K → K} {eps : K} (he : 0 ≤ eps) {j1 j2 : Jet K} {k t : V3 K}
    (h : curvature nrm eps j1 j2 = some (k, t)) :
    (dot (j1.normal nrm) (j2.normal nrm)) ^ 2 ≠ 1 ∧ t = unit nrm (cross (j1.normal nrm) (j2.normal nrm)) ∧
      k = smul (1 / (1 - (dot (j1.normal nrm) (j2.normal nrm)) ^ 2))
        ((smul (j1.form (j1.normal nrm) t) (j1.normal nrm)).add (smul (j2.form (j2.normal nrm) t) (j2.normal nrm))) := by
  rw [curvature] at h
  simp only at h
  split at h
  · exact absurd h (by simp)
  · rename_i hc
    simp only [Option.some.injEq, Prod.mk.injEq] at h
    refine ⟨?_, h.2.symm, ?_⟩
    · intro h1
      apply hc
      have : |dot (j1.normal nrm) (j2.normal nrm)| = 1 := by
        rcases sq_one h1 with h | h <;> rw [h] <;> simp
      rw [this]; simpa using he
    · rw [← h.1, ← h.2]

/-- **C421.** The tangent returned is a unit vector tangent to both surfaces, and a unit-speed curve in both
surfaces runs along it. -/
theorem C421_tangent (nrm : V3 K → K) (hn : IsNorm nrm) (eps : K) (he : 0 ≤ eps) (j1 j2 : Jet K)
    (h1 : cross j1.su j1.sv ≠ zero) (h2 : cross j2.su j2.sv ≠ zero) (k t : V3 K)
    (h : curvature nrm eps j1 j2 = some (k, t)) :
    dot t t = 1 ∧ dot t (cross j1.su j1.sv) = 0 ∧ dot t (cross j2.su j2.sv) = 0 ∧
      ∀ c1 c2 c2' : V3 K, Runs j1 c1 c2 → Runs j2 c1 c2' → dot c1 c1 = 1 → c1 = t ∨ c1 = smul (-1) t := by
  obtain ⟨hc, ht, -⟩ := curvature_some he h
  obtain ⟨a1, b1, d1⟩ := normal_spec hn h1
  obtain ⟨a2, b2, d2⟩ := normal_spec hn h2
  have hx : cross (j1.normal nrm) (j2.normal nrm) ≠ zero := by
    intro h0
    have := gram_pos (j1.normal nrm) (j2.normal nrm)
    rw [h0, a1, a2] at this
    apply hc
    simp [dot, zero] at this
    simp only [dot]
    linear_combination -this
  have htt : dot t t = 1 := by rw [ht]; exact unit_dot hn hx
  have p1 : dot t (j1.normal nrm) = 0 := by
    rw [ht, dot_comm', dot_unit]; simp only [dot, cross]; ring
  have p2 : dot t (j2.normal nrm) = 0 := by
    rw [ht, dot_comm', dot_unit]; simp only [dot, cross]; ring
  have back : ∀ j : Jet K, cross j.su j.sv ≠ zero → dot t (j.normal nrm) = 0 → dot t (cross j.su j.sv) = 0 := by
    intro j hj hp
    rw [Jet.normal, dot_unit] at hp
    rcases mul_eq_zero.1 hp with h | h
    · exfalso
      have := (hn (cross j.su j.sv)).2
      have h0 : nrm (cross j.su j.sv) = 0 := by simpa using h
      rw [h0, mul_zero] at this
      exact hj (dot_self_eq_zero.1 this.symm)
    · exact h
  refine ⟨htt, back j1 h1 p1, back j2 h2 p2, ?_⟩
  intro c1 c2 c2' r1 r2 hu
  have q1 := runs_perp hn h1 r1
  have q2 := runs_perp hn h2 r2
  have tc : ∃ m : K, m ≠ 0 ∧ cross (j1.normal nrm) (j2.normal nrm) = smul m t := by
    refine ⟨nrm (cross (j1.normal nrm) (j2.normal nrm)), ?_, ?_⟩
    · intro h0
      have := (hn (cross (j1.normal nrm) (j2.normal nrm))).2
      rw [h0, mul_zero] at this
      exact hx (dot_self_eq_zero.1 this.symm)
    · have h0 : nrm (cross (j1.normal nrm) (j2.normal nrm)) ≠ 0 := by
        intro h0
        have := (hn (cross (j1.normal nrm) (j2.normal nrm))).2
        rw [h0, mul_zero] at this
        exact hx (dot_self_eq_zero.1 this.symm)
      rw [ht, unit]
      ext <;> simp only [smul] <;> field_simp
  obtain ⟨m, hm, hmt⟩ := tc
  have hw : c1.sub (smul (dot c1 t) t) = zero := by
    apply perp_zero (n1 := j1.normal nrm) (n2 := j2.normal nrm) _ _ _ hx
    · have : dot (c1.sub (smul (dot c1 t) t)) (j1.normal nrm) =
          dot c1 (j1.normal nrm) - dot c1 t * dot t (j1.normal nrm) := by simp only [dot, sub, smul]; ring
      rw [this, q1, p1]; ring
    · have : dot (c1.sub (smul (dot c1 t) t)) (j2.normal nrm) =
          dot c1 (j2.normal nrm) - dot c1 t * dot t (j2.normal nrm) := by simp only [dot, sub, smul]; ring
      rw [this, q2, p2]; ring
    · rw [hmt]
      have : dot (c1.sub (smul (dot c1 t) t)) (smul m t) = m * (dot c1 t - dot c1 t * dot t t) := by
        simp only [dot, sub, smul]; ring
      rw [this, htt]; ring
  have hc1 : c1 = smul (dot c1 t) t := by
    have hx' := congrArg V3.x hw
    have hy' := congrArg V3.y hw
    have hz' := congrArg V3.z hw
    simp only [sub, zero] at hx' hy' hz'
    ext
    · linear_combination hx'
    · linear_combination hy'
    · linear_combination hz'
  have hs : dot c1 t * dot c1 t = 1 := by
    have : dot c1 c1 = dot c1 t * dot c1 t * dot t t := by
      conv_lhs => rw [hc1]
      simp only [dot, smul]; ring
    rw [hu, htt] at this
    linear_combination -this
  rcases mul_self_eq_one_iff.1 hs with h | h
  · left; rw [hc1, h]; ext <;> simp [smul]
  · right; rw [hc1, h]

theorem forms {nrm : V3 K → K} (hn : IsNorm nrm) {eps : K} (he : 0 ≤ eps) {j1 j2 : Jet K}
    (o1 : Orthonormal j1) (o2 : Orthonormal j2) {k t : V3 K} (h : curvature nrm eps j1 j2 = some (k, t)) {c1 c2 : V3 K}
    (r1 : Runs j1 c1 c2) (r2 : Runs j2 c1 c2) (hu : dot c1 c1 = 1) :
    j1.form (j1.normal nrm) t = dot c2 (j1.normal nrm) ∧ j2.form (j2.normal nrm) t = dot c2 (j2.normal nrm) := by
  obtain ⟨-, -, -, hc⟩ := C421_tangent nrm hn eps he j1 j2 (ortho_cross o1) (ortho_cross o2) k t h
  rcases hc c1 c2 c2 r1 r2 hu with e | e
  · have e' : c1 = smul 1 t := by rw [e]; ext <;> simp [smul]
    exact ⟨runs_form hn o1 r1 (by ring) e', runs_form hn o2 r2 (by ring) e'⟩
  · exact ⟨runs_form hn o1 r1 (by ring) e, runs_form hn o2 r2 (by ring) e⟩

/-- **C421.** Where both parametrisations have unit perpendicular derivatives and the surfaces cross at a right angle,
the vector returned is the curvature vector of the intersection: the second derivative of a curve in both surfaces,
parametrised by arc length.

`_partial`: surfaces at another angle, `C421_angle_refuted`; other parametrisations, `C421_scale_refuted`. -/
theorem C421_partial (nrm : V3 K → K) (hn : IsNorm nrm) (eps : K) (he : 0 ≤ eps) (j1 j2 : Jet K)
    (o1 : Orthonormal j1) (o2 : Orthonormal j2) (hp : dot (cross j1.su j1.sv) (cross j2.su j2.sv) = 0)
    (k t : V3 K) (h : curvature nrm eps j1 j2 = some (k, t)) (c1 c2 : V3 K)
    (r1 : Runs j1 c1 c2) (r2 : Runs j2 c1 c2) (hu : dot c1 c1 = 1) (ha : dot c1 c2 = 0) : k = c2 := by
  obtain ⟨f1, f2⟩ := forms hn he o1 o2 h r1 r2 hu
  obtain ⟨hc, ht, hk⟩ := curvature_some he h
  obtain ⟨-, -, -, hcc⟩ := C421_tangent nrm hn eps he j1 j2 (ortho_cross o1) (ortho_cross o2) k t h
  obtain ⟨a1, b1, d1⟩ := normal_spec hn (ortho_cross o1)
  obtain ⟨a2, b2, d2⟩ := normal_spec hn (ortho_cross o2)
  have hd : dot (j1.normal nrm) (j2.normal nrm) = 0 := by
    have : dot (j1.normal nrm) (j2.normal nrm) = 1 / nrm (cross j1.su j1.sv) * (1 / nrm (cross j2.su j2.sv)) *
        dot (cross j1.su j1.sv) (cross j2.su j2.sv) := by
      simp only [Jet.normal, unit, dot, smul]; ring
    rw [this, hp, mul_zero]
  have hx : cross (j1.normal nrm) (j2.normal nrm) ≠ zero := by
    intro h0
    have := gram_pos (j1.normal nrm) (j2.normal nrm)
    rw [h0, a1, a2, hd] at this
    simp [dot, zero] at this
  have htc : dot c2 t = 0 := by
    rcases hcc c1 c2 c2 r1 r2 hu with e | e
    · rw [← e, dot_comm']; exact ha
    · have : dot c2 t = - dot c1 c2 := by rw [e]; simp only [dot, smul]; ring
      rw [this, ha, neg_zero]
  have hxt : dot c2 (cross (j1.normal nrm) (j2.normal nrm)) = 0 := by
    rw [ht, dot_unit] at htc
    rcases mul_eq_zero.1 htc with h | h
    · exfalso
      have := (hn (cross (j1.normal nrm) (j2.normal nrm))).2
      have h0 : nrm (cross (j1.normal nrm) (j2.normal nrm)) = 0 := by simpa using h
      rw [h0, mul_zero] at this
      exact hx (dot_self_eq_zero.1 this.symm)
    · exact h
  rw [f1, f2, hd] at hk
  generalize j1.normal nrm = n1 at *
  generalize j2.normal nrm = n2 at *
  have hw : c2.sub k = zero := by
    apply perp_zero (n1 := n1) (n2 := n2) _ _ _ hx
    · have : dot (c2.sub k) n1 = dot c2 n1 - (dot c2 n1 * dot n1 n1 + dot c2 n2 * dot n1 n2) := by
        rw [hk]; simp only [dot, sub, smul, add]; ring
      rw [this, a1, hd]; ring
    · have : dot (c2.sub k) n2 = dot c2 n2 - (dot c2 n1 * dot n1 n2 + dot c2 n2 * dot n2 n2) := by
        rw [hk]; simp only [dot, sub, smul, add]; ring
      rw [this, a2, hd]; ring
    · have : dot (c2.sub k) (cross n1 n2) = dot c2 (cross n1 n2) := by
        rw [hk]; simp only [dot, sub, smul, add, cross]; ring
      rw [this, hxt]
  have hx' := congrArg V3.x hw
  have hy' := congrArg V3.y hw
  have hz' := congrArg V3.z hw
  simp only [sub, zero] at hx' hy' hz'
  ext
  · linear_combination -hx'
  · linear_combination -hy'
  · linear_combination -hz'

/-- **C421, refutation.** Where the surfaces cross at an angle that is not right, and the intersection is curved out of
one of the tangent planes, the vector returned is never its curvature vector. -/
theorem C421_angle_refuted (nrm : V3 K → K) (hn : IsNorm nrm) (eps : K) (he : 0 ≤ eps) (j1 j2 : Jet K)
    (o1 : Orthonormal j1) (o2 : Orthonormal j2) (hp : dot (cross j1.su j1.sv) (cross j2.su j2.sv) ≠ 0)
    (k t : V3 K) (h : curvature nrm eps j1 j2 = some (k, t)) (c1 c2 : V3 K)
    (r1 : Runs j1 c1 c2) (r2 : Runs j2 c1 c2) (hu : dot c1 c1 = 1)
    (hb : dot c2 (cross j1.su j1.sv) ≠ 0 ∨ dot c2 (cross j2.su j2.sv) ≠ 0) : k ≠ c2 := by
  intro hkc
  obtain ⟨f1, f2⟩ := forms hn he o1 o2 h r1 r2 hu
  obtain ⟨hc, ht, hk⟩ := curvature_some he h
  obtain ⟨a1, b1, d1⟩ := normal_spec hn (ortho_cross o1)
  obtain ⟨a2, b2, d2⟩ := normal_spec hn (ortho_cross o2)
  have hnz : ∀ j : Jet K, Orthonormal j → nrm (cross j.su j.sv) ≠ 0 := by
    intro j oj h0
    have := (hn (cross j.su j.sv)).2
    rw [h0, mul_zero] at this
    exact ortho_cross oj (dot_self_eq_zero.1 this.symm)
  have hd : dot (j1.normal nrm) (j2.normal nrm) ≠ 0 := by
    have : dot (j1.normal nrm) (j2.normal nrm) = 1 / nrm (cross j1.su j1.sv) * (1 / nrm (cross j2.su j2.sv)) *
        dot (cross j1.su j1.sv) (cross j2.su j2.sv) := by
      simp only [Jet.normal, unit, dot, smul]; ring
    rw [this]
    exact mul_ne_zero (mul_ne_zero (one_div_ne_zero (hnz j1 o1)) (one_div_ne_zero (hnz j2 o2))) hp
  have hb' : dot c2 (j1.normal nrm) ≠ 0 ∨ dot c2 (j2.normal nrm) ≠ 0 := by
    rcases hb with h | h
    · left; rw [Jet.normal, dot_unit]; exact mul_ne_zero (one_div_ne_zero (hnz j1 o1)) h
    · right; rw [Jet.normal, dot_unit]; exact mul_ne_zero (one_div_ne_zero (hnz j2 o2)) h
  rw [f1, f2, hkc] at hk
  generalize j1.normal nrm = n1 at *
  generalize j2.normal nrm = n2 at *
  have hq : (1 : K) - dot n1 n2 ^ 2 ≠ 0 := fun h => hc (by linear_combination -h)
  have e1 : dot c2 n1 * (1 - dot n1 n2 ^ 2) = dot c2 n1 + dot n1 n2 * dot c2 n2 := by
    have : dot c2 n1 = 1 / (1 - dot n1 n2 ^ 2) * (dot c2 n1 * dot n1 n1 + dot c2 n2 * dot n1 n2) := by
      refine (congrArg (fun w => dot w n1) hk).trans ?_
      generalize dot c2 n1 = p
      generalize dot c2 n2 = q
      generalize dot n1 n2 ^ 2 = r
      simp only [dot, smul, add]; ring
    rw [a1] at this
    field_simp at this
    linear_combination this
  have e2 : dot c2 n2 * (1 - dot n1 n2 ^ 2) = dot n1 n2 * dot c2 n1 + dot c2 n2 := by
    have : dot c2 n2 = 1 / (1 - dot n1 n2 ^ 2) * (dot c2 n1 * dot n1 n2 + dot c2 n2 * dot n2 n2) := by
      refine (congrArg (fun w => dot w n2) hk).trans ?_
      generalize dot c2 n1 = p
      generalize dot c2 n2 = q
      generalize dot n1 n2 ^ 2 = r
      simp only [dot, smul, add]; ring
    rw [a2] at this
    field_simp at this
    linear_combination this
  generalize dot c2 n1 = p at *
  generalize dot c2 n2 = q at *
  generalize dot n1 n2 = c at *
  have g1 : q + c * p = 0 := by
    have : c * (q + c * p) = 0 := by linear_combination -e1
    exact (mul_eq_zero.1 this).resolve_left hd
  have g2 : p + c * q = 0 := by
    have : c * (p + c * q) = 0 := by linear_combination -e2
    exact (mul_eq_zero.1 this).resolve_left hd
  have hp0 : p = 0 := by
    have : p * (1 - c ^ 2) = 0 := by linear_combination g2 - c * g1
    exact (mul_eq_zero.1 this).resolve_right hq
  have hq0 : q = 0 := by rw [hp0] at g1; linear_combination g1
  rcases hb' with h | h
  · exact h hp0
  · exact h hq0

/-- The derivatives of the same surface with the first parameter run through `l` times as fast. -/
def Jet.faster (l : K) (j : Jet K) : Jet K := ⟨smul l j.su, j.sv, smul (l ^ 2) j.suu, smul l j.suv, j.svv⟩

/-- The parametrisation does not matter for the curves in the surface. -/
theorem runs_faster {l : K} (hl : 0 < l) {j : Jet K} {c1 c2 : V3 K} (h : Runs j c1 c2) : Runs (j.faster l) c1 c2 := by
  obtain ⟨u, v, uu, vv, h1, h2⟩ := h
  have h0 : l ≠ 0 := hl.ne'
  refine ⟨u / l, v, uu / l, vv, ?_, ?_⟩
  · rw [h1]; ext <;> simp only [Jet.faster, smul, add] <;> field_simp
  · rw [h2]; ext <;> simp only [Jet.faster, smul, add] <;> field_simp

theorem normal_faster {nrm : V3 K → K} (hn : IsNorm nrm) {l : K} (hl : 0 < l) {j : Jet K} :
    (j.faster l).normal nrm = j.normal nrm := by
  have h0 : l ≠ 0 := hl.ne'
  have e : cross (smul l j.su) j.sv = smul l (cross j.su j.sv) := by ext <;> simp only [cross, smul] <;> ring
  have en : nrm (smul l (cross j.su j.sv)) = l * nrm (cross j.su j.sv) := by
    have a := (hn (smul l (cross j.su j.sv)))
    have b := (hn (cross j.su j.sv))
    have c : dot (smul l (cross j.su j.sv)) (smul l (cross j.su j.sv)) =
        l ^ 2 * dot (cross j.su j.sv) (cross j.su j.sv) := by simp only [dot, smul]; ring
    rw [c, ← b.2] at a
    have hs : nrm (smul l (cross j.su j.sv)) * nrm (smul l (cross j.su j.sv)) =
        (l * nrm (cross j.su j.sv)) * (l * nrm (cross j.su j.sv)) := by rw [a.2]; ring
    exact (mul_self_eq_mul_self_iff.1 hs).elim id fun h => by
      have p := mul_nonneg hl.le b.1
      have z : l * nrm (cross j.su j.sv) = 0 := by linarith [a.1]
      rw [h, z, neg_zero]
  show unit nrm (cross (smul l j.su) j.sv) = unit nrm (cross j.su j.sv)
  rw [e, unit, unit, en]
  by_cases hz : nrm (cross j.su j.sv) = 0
  · simp [hz, smul]
  · ext <;> simp only [smul] <;> field_simp

/-- **C421, refutation.** The vector returned depends on the speed of the parametrisation: surfaces as in
`C421_partial`, the first curved along its first parameter only, and that parameter run through faster or slower — the
same two surfaces, the same intersection, and never its curvature vector unless the intersection is straight across the
first surface. -/
theorem C421_scale_refuted (nrm : V3 K → K) (hn : IsNorm nrm) (eps : K) (he : 0 ≤ eps) (j1 j2 : Jet K)
    (o1 : Orthonormal j1) (o2 : Orthonormal j2) (hp : dot (cross j1.su j1.sv) (cross j2.su j2.sv) = 0)
    (hw1 : j1.suv = zero) (hw2 : j1.svv = zero) (l : K) (hl : 0 < l) (hl1 : l ≠ 1)
    (k t : V3 K) (h : curvature nrm eps (j1.faster l) j2 = some (k, t)) (c1 c2 : V3 K)
    (r1 : Runs j1 c1 c2) (r2 : Runs j2 c1 c2) (hu : dot c1 c1 = 1) (hb : dot c2 (cross j1.su j1.sv) ≠ 0) :
    Runs (j1.faster l) c1 c2 ∧ k ≠ c2 := by
  refine ⟨runs_faster hl r1, fun hkc => ?_⟩
  have hno := normal_faster hn hl (j := j1)
  obtain ⟨hc, ht, hk⟩ := curvature_some he h
  rw [hno] at hc ht hk
  obtain ⟨a1, b1, d1⟩ := normal_spec hn (ortho_cross o1)
  obtain ⟨a2, b2, d2⟩ := normal_spec hn (ortho_cross o2)
  have hd : dot (j1.normal nrm) (j2.normal nrm) = 0 := by
    have : dot (j1.normal nrm) (j2.normal nrm) = 1 / nrm (cross j1.su j1.sv) * (1 / nrm (cross j2.su j2.sv)) *
        dot (cross j1.su j1.sv) (cross j2.su j2.sv) := by
      simp only [Jet.normal, unit, dot, smul]; ring
    rw [this, hp, mul_zero]
  have hnz : nrm (cross j1.su j1.sv) ≠ 0 := by
    intro h0
    have := (hn (cross j1.su j1.sv)).2
    rw [h0, mul_zero] at this
    exact ortho_cross o1 (dot_self_eq_zero.1 this.symm)
  have hb' : dot c2 (j1.normal nrm) ≠ 0 := by
    rw [Jet.normal, dot_unit]; exact mul_ne_zero (one_div_ne_zero hnz) hb
  have hret : ∃ k0, curvature nrm eps j1 j2 = some (k0, t) := by
    rw [curvature] at h ⊢
    simp only [hno] at h ⊢
    split at h
    · exact absurd h (by simp)
    · rename_i hh
      rw [if_neg hh]
      simp only [Option.some.injEq, Prod.mk.injEq] at h
      exact ⟨_, congrArg some (Prod.ext rfl h.2)⟩
  obtain ⟨k0, hk0⟩ := hret
  have f1 := (forms hn he o1 o2 hk0 r1 r2 hu).1
  have hform : (j1.faster l).form (j1.normal nrm) t = l ^ 4 * dot c2 (j1.normal nrm) := by
    rw [← f1, Jet.form, Jet.form, hw1, hw2]
    simp only [Jet.faster, hw1, hw2]
    simp only [dot, smul, zero]; ring
  rw [hform, hd, hkc] at hk
  have e1 : dot c2 (j1.normal nrm) = l ^ 4 * dot c2 (j1.normal nrm) := by
    refine (congrArg (fun w => dot w (j1.normal nrm)) hk).trans ?_
    generalize dot c2 (j1.normal nrm) = p
    generalize j2.form (j2.normal nrm) t = q
    have : dot (smul (1 / (1 - 0 ^ 2)) ((smul (l ^ 4 * p) (j1.normal nrm)).add (smul q (j2.normal nrm)))) (j1.normal nrm)
        = l ^ 4 * p * dot (j1.normal nrm) (j1.normal nrm) + q * dot (j1.normal nrm) (j2.normal nrm) := by
      simp only [dot, smul, add]; ring
    refine this.trans ?_
    rw [a1, hd]; ring
  have : (l - 1) * ((l + 1) * (l ^ 2 + 1) * dot c2 (j1.normal nrm)) = 0 := by linear_combination -e1
  rcases mul_eq_zero.1 this with h | h
  · exact hl1 (by linear_combination h)
  · exact mul_ne_zero (mul_ne_zero (by positivity) (by positivity)) hb' h

/-! A cylinder of radius 1 about the `z` axis and the plane `z = 0`, crossing at a right angle in a circle: the vector
returned is the vector to the centre. The norm here gives the right values at the vectors met. -/

def cyl : Jet ℚ := ⟨⟨0, 1, 0⟩, ⟨0, 0, 1⟩, ⟨-1, 0, 0⟩, zero, zero⟩
def flat : Jet ℚ := ⟨⟨1, 0, 0⟩, ⟨0, 1, 0⟩, zero, zero, zero⟩

example : Orthonormal cyl ∧ Orthonormal flat ∧ dot (cross cyl.su cyl.sv) (cross flat.su flat.sv) = 0 := by
  refine ⟨⟨?_, ?_, ?_⟩, ⟨?_, ?_, ?_⟩, ?_⟩ <;> decide +kernel
example : Runs cyl ⟨0, 1, 0⟩ ⟨-1, 0, 0⟩ ∧ Runs flat ⟨0, 1, 0⟩ ⟨-1, 0, 0⟩ :=
  ⟨⟨1, 0, 0, 0, by decide +kernel, by decide +kernel⟩, ⟨0, 1, -1, 0, by decide +kernel, by decide +kernel⟩⟩
example : curvature (fun _ => 1) (1 / 100000) cyl flat = some (⟨-1, 0, 0⟩, ⟨0, -1, 0⟩) := by decide +kernel
/-- The same with the angle on the cylinder measured in halves: sixteen times the curvature. -/
example : curvature (fun v => if v.x = 2 then 2 else 1) (1 / 100000) (cyl.faster 2) flat =
    some (⟨-16, 0, 0⟩, ⟨0, -1, 0⟩) := by decide +kernel
/-- The same circle cut by a cone-like surface at another angle (normal `(3/5, 0, 4/5)`). -/
def tilted : Jet ℚ := ⟨⟨0, 1, 0⟩, ⟨-4 / 5, 0, 3 / 5⟩, ⟨-1, 0, 0⟩, zero, zero⟩
example : Orthonormal tilted ∧ dot (cross cyl.su cyl.sv) (cross tilted.su tilted.sv) ≠ 0 ∧
    Runs tilted ⟨0, 1, 0⟩ ⟨-1, 0, 0⟩ := by
  refine ⟨⟨?_, ?_, ?_⟩, ?_, ⟨1, 0, 0, 0, ?_, ?_⟩⟩ <;> decide +kernel
example : curvature (fun v => if v.x = 0 then 4 / 5 else 1) (1 / 100000) cyl tilted =
    some (⟨-17 / 8, 0, -3 / 4⟩, ⟨0, -1, 0⟩) := by decide +kernel

/-! ## C422: the polygon of a trimming curve of degree one -/

variable [FloorRing K]

theorem arange_length (a b : K) : (arange a b).length = ⌈b - a⌉.toNat := by simp [arange]

/-- **C422.** On an interval `[a, a + n]`, for a curve whose vertices are the points at `a, a + 1, …`: the polygon is the
list of vertices without the last, its edges are the consecutive pairs, and for a closed curve the last edge returns to
the start as the last segment of the curve does.

`_partial`: other intervals, `C422_short_refuted`, `C422_skips_refuted`. -/
theorem C422_partial {P : Type} (crv : K → P) (a : K) (n : ℕ) (hn : 0 < n) (hc : crv (a + n) = crv a) :
    polygon1 crv a (a + n) = (List.range n).map (fun i : ℕ => crv (a + i)) ∧
      edges (polygon1 crv a (a + n)) = (List.range n).map fun i : ℕ => (some (crv (a + i)), some (crv (a + (i + 1 : ℕ)))) := by
  have h1 : polygon1 crv a (a + n) = (List.range n).map (fun i : ℕ => crv (a + i)) := by
    simp only [polygon1, arange, List.map_map]
    have : ⌈a + (n : K) - a⌉.toNat = n := by
      rw [add_sub_cancel_left]; simp
    rw [this]; rfl
  refine ⟨h1, ?_⟩
  rw [h1, edges]
  simp only [List.length_map, List.length_range]
  apply List.map_congr_left
  intro i hi
  rw [List.mem_range] at hi
  have hm : (i + 1) % n < n := Nat.mod_lt _ hn
  simp only [List.getElem?_map, List.getElem?_range hi, List.getElem?_range hm, Option.map_some]
  by_cases h : i + 1 < n
  · rw [Nat.mod_eq_of_lt h]
  · have : i + 1 = n := by omega
    rw [this, Nat.mod_self, hc]; simp

/-- **C422, refutation.** On an interval no longer than one, such as the usual `[0, 1]`, the polygon has one vertex and
one edge from it to itself, whatever the curve. -/
theorem C422_short_refuted {P : Type} (crv : K → P) (a b : K) (h1 : a < b) (h2 : b ≤ a + 1) :
    polygon1 crv a b = [crv a] ∧ edges (polygon1 crv a b) = [(some (crv a), some (crv a))] := by
  have hc : ⌈b - a⌉ = 1 := by
    rw [Int.ceil_eq_iff]
    constructor
    · simp; exact h1
    · simp; linarith
  have : polygon1 crv a b = [crv a] := by
    simp [polygon1, arange, hc]
  exact ⟨this, by rw [this]; simp [edges]⟩

/-- **C422, refutation.** A vertex of the curve at a parameter that is not a whole number of steps from the start is
never evaluated: the polygon does not depend on the curve there. -/
theorem C422_skips_refuted {P : Type} (f g : K → P) (a b s : K) (hs : ∀ i : ℕ, s ≠ a + i)
    (h : ∀ t, t ≠ s → f t = g t) : polygon1 f a b = polygon1 g a b := by
  rw [polygon1, polygon1]
  apply List.map_congr_left
  intro t ht
  simp only [arange, List.mem_map] at ht
  obtain ⟨i, -, rfl⟩ := ht
  exact h _ (hs i).symm

/-- The unit square with a corner at each whole parameter, and with corners at quarters. -/
def corner (t : ℚ) : ℚ × ℚ :=
  if t ≤ 1 then (t, 0) else if t ≤ 2 then (1, t - 1) else if t ≤ 3 then (3 - t, 1) else (0, 4 - t)
example : corner (0 + (4 : ℕ)) = corner 0 ∧ polygon1 corner 0 4 = [(0, 0), (1, 0), (1, 1), (0, 1)] := by decide +kernel
example : polygon1 (fun t => corner (4 * t)) 0 1 = [(0, 0)] := by decide +kernel
example : ∀ i : ℕ, (1 / 2 : ℚ) ≠ 0 + i := by
  intro i h
  have h2 : ((2 * i : ℕ) : ℚ) = (1 : ℕ) := by push_cast; linarith
  have := Nat.cast_injective h2
  omega

end Verif.Sic
