import Verif.Ppx.Model
import Mathlib.Tactic.Ring
import Mathlib.Tactic.Linarith
import Mathlib.Tactic.NormNum
import Mathlib.Tactic.LinearCombination
import Mathlib.Tactic.FieldSimp
import Mathlib.Tactic.Positivity
import Mathlib.Tactic.SplitIfs
import Mathlib.Algebra.Order.Ring.Rat
import Mathlib.Algebra.Field.Rat
import Mathlib.Algebra.Order.Ring.Abs

/-! # C327–C332: planes, lines and steps of `pp.py` -/

set_option linter.unusedSectionVars false

namespace Verif.Ppx

open Verif.Vec (V3)
open Verif.Vec.V3

variable {K : Type} [Field K] [LinearOrder K] [IsStrictOrderedRing K]

/-- The point is on the plane with origin `o` and normal `n`. -/
def InPlane (o n p : V3 K) : Prop := dot (sub p o) n = 0

/-- What `np.linalg.solve` does with the system. -/
structure Solves (solve : Solve5 K) : Prop where
  sound : ∀ n1 n2 r d1 d2 x l1 l2, solve n1 n2 r d1 d2 = some (x, l1, l2) →
    add (smul 2 x) (add (smul l1 n1) (smul l2 n2)) = r ∧ dot n1 x = d1 ∧ dot n2 x = d2
  regular : ∀ n1 n2 r d1 d2, cross n1 n2 ≠ zero → ∃ s, solve n1 n2 r d1 d2 = some s

/-- A solver by elimination of `x`: the multipliers solve a system with the Gram matrix. -/
def gramSolve : Solve5 K := fun n1 n2 r d1 d2 =>
  let g := dot n1 n1 * dot n2 n2 - dot n1 n2 * dot n1 n2
  if g = 0 then none
  else
    let c1 := dot n1 r - 2 * d1
    let c2 := dot n2 r - 2 * d2
    let l1 := (c1 * dot n2 n2 - c2 * dot n1 n2) / g
    let l2 := (c2 * dot n1 n1 - c1 * dot n1 n2) / g
    some (smul (1 / 2) (sub r (add (smul l1 n1) (smul l2 n2))), l1, l2)

/-- The system of the code has such a solver, so the hypothesis `Solves` below is met. -/
theorem solves_gram : Solves (gramSolve (K := K)) where
  sound := by
    intro n1 n2 r d1 d2 x l1 l2 h
    unfold gramSolve at h
    simp only at h
    split_ifs at h with hg
    simp only [Option.some.injEq, Prod.mk.injEq] at h
    obtain ⟨hx, h1, h2⟩ := h
    rw [h1, h2] at hx
    have e1 : l1 * (dot n1 n1 * dot n2 n2 - dot n1 n2 * dot n1 n2) = (dot n1 r - 2 * d1) * dot n2 n2 - (dot n2 r - 2 * d2) * dot n1 n2 := by
      rw [← h1, div_mul_cancel₀ _ hg]
    have e2 : l2 * (dot n1 n1 * dot n2 n2 - dot n1 n2 * dot n1 n2) = (dot n2 r - 2 * d2) * dot n1 n1 - (dot n1 r - 2 * d1) * dot n1 n2 := by
      rw [← h2, div_mul_cancel₀ _ hg]
    have f1 : l1 * dot n1 n1 + l2 * dot n1 n2 = dot n1 r - 2 * d1 := by
      apply mul_right_cancel₀ hg
      linear_combination dot n1 n1 * e1 + dot n1 n2 * e2
    have f2 : l1 * dot n1 n2 + l2 * dot n2 n2 = dot n2 r - 2 * d2 := by
      apply mul_right_cancel₀ hg
      linear_combination dot n1 n2 * e1 + dot n2 n2 * e2
    subst hx
    refine ⟨?_, ?_, ?_⟩
    · ext <;> simp only [add, sub, smul] <;> ring
    · unfold dot at f1 ⊢
      simp only [add, sub, smul]
      linear_combination -(1 / 2) * f1
    · unfold dot at f2 ⊢
      simp only [add, sub, smul]
      linear_combination -(1 / 2) * f2
  regular := by
    intro n1 n2 r d1 d2 h
    unfold gramSolve
    simp only
    have hg : dot n1 n1 * dot n2 n2 - dot n1 n2 * dot n1 n2 ≠ 0 := by
      intro h0
      apply h
      have e : dot n1 n1 * dot n2 n2 - dot n1 n2 * dot n1 n2 =
          (cross n1 n2).x * (cross n1 n2).x + (cross n1 n2).y * (cross n1 n2).y + (cross n1 n2).z * (cross n1 n2).z := by
        unfold dot cross; ring
      rw [e] at h0
      have hx := mul_self_nonneg (cross n1 n2).x
      have hy := mul_self_nonneg (cross n1 n2).y
      have hz := mul_self_nonneg (cross n1 n2).z
      ext
      · exact mul_self_eq_zero.1 (le_antisymm (by linarith) hx)
      · exact mul_self_eq_zero.1 (le_antisymm (by linarith) hy)
      · exact mul_self_eq_zero.1 (le_antisymm (by linarith) hz)
    rw [if_neg hg]
    exact ⟨_, rfl⟩

example : planePlane (K := ℚ) gramSolve ⟨0, 0, 4⟩ ⟨0, 1, 0⟩ ⟨3, 0, 0⟩ ⟨1, 0, 0⟩ = some (⟨3, 0, 2⟩, ⟨0, 0, -1⟩) := by decide +kernel

/-! ## C327 -/

/-- For planes that are not parallel there is a result: a point on both planes and a direction along both. -/
theorem C327_planes {solve : Solve5 K} (hs : Solves solve) (o1 n1 o2 n2 : V3 K) (h : cross n1 n2 ≠ zero) :
    ∃ p d, planePlane solve o1 n1 o2 n2 = some (p, d) ∧ d ≠ zero ∧ ∀ t, InPlane o1 n1 (add p (smul t d)) ∧ InPlane o2 n2 (add p (smul t d)) := by
  obtain ⟨⟨x, l1, l2⟩, e⟩ := hs.regular n1 n2 o1 (dot o1 n1) (dot o2 n2) h
  obtain ⟨_, h1, h2⟩ := hs.sound _ _ _ _ _ _ _ _ e
  refine ⟨x, cross n1 n2, by unfold planePlane; rw [e], h, ?_⟩
  intro t
  unfold InPlane dot at *
  simp only [sub, add, smul, cross]
  constructor
  · linear_combination h1
  · linear_combination h2

/-- The point is not the one nearest to the first origin `o1`, but the one nearest to `o1 / 2`: it depends on where the origin of coordinates is. -/
theorem C327_nearest_refuted {solve : Solve5 K} (hs : Solves solve) (o1 n1 o2 n2 p d : V3 K) (h : planePlane solve o1 n1 o2 n2 = some (p, d)) :
    dot (sub p (smul (1 / 2) o1)) d = 0 ∧ dot (sub p o1) d = -(dot o1 d / 2) := by
  unfold planePlane at h
  cases e : solve n1 n2 o1 (dot o1 n1) (dot o2 n2) with
  | none => rw [e] at h; simp at h
  | some s =>
    rw [e] at h
    simp only [Option.some.injEq, Prod.mk.injEq] at h
    obtain ⟨hp, hd⟩ := h
    obtain ⟨x, l1, l2⟩ := s
    simp only at hp
    subst hp hd
    obtain ⟨h0, _, _⟩ := hs.sound _ _ _ _ _ _ _ _ e
    have hx := congrArg V3.x h0
    have hy := congrArg V3.y h0
    have hz := congrArg V3.z h0
    unfold dot
    simp only [sub, add, smul, cross] at *
    constructor
    · linear_combination (n1.y * n2.z - n1.z * n2.y) / 2 * hx + (n1.z * n2.x - n1.x * n2.z) / 2 * hy + (n1.x * n2.y - n1.y * n2.x) / 2 * hz
    · linear_combination (n1.y * n2.z - n1.z * n2.y) / 2 * hx + (n1.z * n2.x - n1.x * n2.z) / 2 * hy + (n1.x * n2.y - n1.y * n2.x) / 2 * hz

/-! ## C328 -/

/-- Nothing exactly for lines that are parallel to the plane up to the tolerance; otherwise a point of the line on the plane. -/
theorem C328_line (o n ro rd : V3 K) (tol : K) (ht : 0 < tol) :
    (planeLine o n ro rd tol = none ↔ |dot n rd| < tol) ∧
      ∀ p, planeLine o n ro rd tol = some p → InPlane o n p ∧ ∃ t, p = add ro (smul t rd) := by
  unfold planeLine
  simp only
  constructor
  · split_ifs with h <;> simp [h]
  · intro p hp
    split_ifs at hp with h
    simp only [Option.some.injEq] at hp
    have h0 : dot n rd ≠ 0 := by
      intro h0
      rw [h0, abs_zero] at h
      exact h ht
    subst hp
    constructor
    · unfold InPlane
      have e : dot (sub (add (add (sub ro o) (smul (dot (smul (-1) n) (sub ro o) / dot n rd) rd)) o) o) n =
          dot n (sub ro o) + dot (smul (-1) n) (sub ro o) / dot n rd * dot n rd := by
        generalize dot (smul (-1) n) (sub ro o) / dot n rd = k
        unfold dot; simp only [sub, add, smul]; ring
      rw [e, div_mul_cancel₀ _ h0]
      unfold dot; simp only [sub, smul]; ring
    · refine ⟨dot (smul (-1) n) (sub ro o) / dot n rd, ?_⟩
      generalize dot (smul (-1) n) (sub ro o) / dot n rd = k
      ext <;> simp only [add, sub, smul] <;> ring

/-- The point of three planes is on all of them. -/
theorem C328_three {solve : Solve5 K} (hs : Solves solve) (o1 n1 o2 n2 o3 n3 : V3 K) (tol : K) (ht : 0 < tol) (p : V3 K)
    (h : threePlanes solve o1 n1 o2 n2 o3 n3 tol = some p) : InPlane o1 n1 p ∧ InPlane o2 n2 p ∧ InPlane o3 n3 p := by
  unfold threePlanes at h
  cases e : planePlane solve o1 n1 o2 n2 with
  | none => rw [e] at h; simp at h
  | some l =>
    rw [e] at h
    simp only at h
    obtain ⟨h3, t, ht⟩ := (C328_line o3 n3 l.1 l.2 tol ht).2 p h
    unfold planePlane at e
    cases e' : solve n1 n2 o1 (dot o1 n1) (dot o2 n2) with
    | none => rw [e'] at e; simp at e
    | some s =>
      rw [e'] at e
      simp only [Option.some.injEq] at e
      obtain ⟨x, l1, l2⟩ := s
      obtain ⟨_, g1, g2⟩ := hs.sound _ _ _ _ _ _ _ _ e'
      refine ⟨?_, ?_, h3⟩
      · rw [ht, ← e]
        unfold InPlane dot at *
        simp only [sub, add, smul, cross]
        linear_combination g1
      · rw [ht, ← e]
        unfold InPlane dot at *
        simp only [sub, add, smul, cross]
        linear_combination g2

/-- And there is one whenever the normals are independent enough. -/
theorem C328_three_exists {solve : Solve5 K} (hs : Solves solve) (o1 n1 o2 n2 o3 n3 : V3 K) (tol : K) (ht : 0 < tol)
    (h : tol ≤ |dot n3 (cross n1 n2)|) : ∃ p, threePlanes solve o1 n1 o2 n2 o3 n3 tol = some p := by
  have hc : cross n1 n2 ≠ zero := by
    intro h0
    rw [h0] at h
    have : dot n3 (zero : V3 K) = 0 := by simp [dot, zero]
    rw [this, abs_zero] at h
    exact absurd ht (not_lt.2 h)
  obtain ⟨s, e⟩ := hs.regular n1 n2 o1 (dot o1 n1) (dot o2 n2) hc
  unfold threePlanes planePlane
  rw [e]
  simp only
  cases e2 : planeLine o3 n3 s.1 (cross n1 n2) tol with
  | none => exact absurd ((C328_line _ _ _ _ _ ht).1.1 e2) (not_lt.2 h)
  | some p => exact ⟨p, rfl⟩

/-! ## C329 -/

theorem closest_eq (start stop p : V3 K) :
    closestOnLine start stop p = add start (smul (((sub stop start).x + (sub stop start).y + (sub stop start).z) / dot (sub stop start) (sub stop start)) (sub p start)) := by
  unfold closestOnLine vectorProjection
  ext <;> simp [add, smul] <;> ring

/-- What is returned lies on the line from the start to the point itself: unless the point is on the given line or the coordinates of the
direction add up to zero, it is not on the given line at all. -/
theorem C329_closest_refuted (start stop p : V3 K) (hd : (sub stop start).x + (sub stop start).y + (sub stop start).z ≠ 0)
    (hp : cross (sub p start) (sub stop start) ≠ zero) : ∀ t, closestOnLine start stop p ≠ add start (smul t (sub stop start)) := by
  intro t h
  apply hp
  have hdd : dot (sub stop start) (sub stop start) ≠ 0 := by
    intro h0
    apply hd
    unfold dot at h0
    have hx := mul_self_nonneg (sub stop start).x
    have hy := mul_self_nonneg (sub stop start).y
    have hz := mul_self_nonneg (sub stop start).z
    have ex := mul_self_eq_zero.1 (le_antisymm (by linarith) hx)
    have ey := mul_self_eq_zero.1 (le_antisymm (by linarith) hy)
    have ez := mul_self_eq_zero.1 (le_antisymm (by linarith) hz)
    rw [ex, ey, ez]; ring
  rw [closest_eq] at h
  have hk : ((sub stop start).x + (sub stop start).y + (sub stop start).z) / dot (sub stop start) (sub stop start) ≠ 0 := div_ne_zero hd hdd
  generalize ((sub stop start).x + (sub stop start).y + (sub stop start).z) / dot (sub stop start) (sub stop start) = k at h hk
  generalize sub stop start = d at *
  generalize sub p start = w at *
  have hx := congrArg V3.x h
  have hy := congrArg V3.y h
  have hz := congrArg V3.z h
  simp only [add, smul] at hx hy hz
  ext
  · simp only [cross, zero]; apply mul_left_cancel₀ hk; linear_combination d.z * hy - d.y * hz
  · simp only [cross, zero]; apply mul_left_cancel₀ hk; linear_combination d.x * hz - d.z * hx
  · simp only [cross, zero]; apply mul_left_cancel₀ hk; linear_combination d.y * hx - d.x * hy

/-- A point of the line is kept when the coordinates of the direction add up to its squared length, as for a unit vector along an axis. -/
theorem C329_closest_partial (start stop : V3 K) (t : K)
    (hd : (sub stop start).x + (sub stop start).y + (sub stop start).z = dot (sub stop start) (sub stop start))
    (h0 : dot (sub stop start) (sub stop start) ≠ 0) :
    closestOnLine start stop (add start (smul t (sub stop start))) = add start (smul t (sub stop start)) := by
  rw [closest_eq, hd, div_self h0]
  ext <;> simp [add, sub, smul]

example : closestOnLine (⟨0, 0, 0⟩ : V3 ℚ) ⟨1, 0, 0⟩ ⟨3, 4, 0⟩ = ⟨3, 4, 0⟩ := by decide +kernel
example : planeLine (⟨0, 0, 2⟩ : V3 ℚ) ⟨0, 0, 1⟩ ⟨1, 1, 6⟩ ⟨1, 2, -2⟩ (1/1000000) = some ⟨3, 5, 2⟩ := by decide +kernel

/-! ## C330 -/

/-- What `np.linalg.lstsq` does: the residual is perpendicular to both columns. -/
def Lstsq (lstsq : V3 K → V3 K → V3 K → K × K) : Prop :=
  ∀ du dv b, dot du du * dot dv dv - dot du dv * dot du dv ≠ 0 →
    dot (sub b (add (smul (lstsq du dv b).1 du) (smul (lstsq du dv b).2 dv))) du = 0 ∧ dot (sub b (add (smul (lstsq du dv b).1 du) (smul (lstsq du dv b).2 dv))) dv = 0

/-- Cramer's rule for the normal equations. -/
def cramer (du dv b : V3 K) : K × K :=
  ((dot b du * dot dv dv - dot b dv * dot du dv) / (dot du du * dot dv dv - dot du dv * dot du dv),
    (dot b dv * dot du du - dot b du * dot du dv) / (dot du du * dot dv dv - dot du dv * dot du dv))

theorem lstsq_cramer : Lstsq (cramer (K := K)) := by
  intro du dv b h
  unfold cramer
  simp only
  have e1 : dot (sub b (add (smul ((dot b du * dot dv dv - dot b dv * dot du dv) / (dot du du * dot dv dv - dot du dv * dot du dv)) du)
      (smul ((dot b dv * dot du du - dot b du * dot du dv) / (dot du du * dot dv dv - dot du dv * dot du dv)) dv))) du =
      dot b du - (dot b du * dot dv dv - dot b dv * dot du dv) / (dot du du * dot dv dv - dot du dv * dot du dv) * dot du du -
        (dot b dv * dot du du - dot b du * dot du dv) / (dot du du * dot dv dv - dot du dv * dot du dv) * dot du dv := by
    generalize (dot b du * dot dv dv - dot b dv * dot du dv) / (dot du du * dot dv dv - dot du dv * dot du dv) = p
    generalize (dot b dv * dot du du - dot b du * dot du dv) / (dot du du * dot dv dv - dot du dv * dot du dv) = q
    unfold dot; simp only [sub, add, smul]; ring
  have e2 : dot (sub b (add (smul ((dot b du * dot dv dv - dot b dv * dot du dv) / (dot du du * dot dv dv - dot du dv * dot du dv)) du)
      (smul ((dot b dv * dot du du - dot b du * dot du dv) / (dot du du * dot dv dv - dot du dv * dot du dv)) dv))) dv =
      dot b dv - (dot b du * dot dv dv - dot b dv * dot du dv) / (dot du du * dot dv dv - dot du dv * dot du dv) * dot du dv -
        (dot b dv * dot du du - dot b du * dot du dv) / (dot du du * dot dv dv - dot du dv * dot du dv) * dot dv dv := by
    generalize (dot b du * dot dv dv - dot b dv * dot du dv) / (dot du du * dot dv dv - dot du dv * dot du dv) = p
    generalize (dot b dv * dot du du - dot b du * dot du dv) / (dot du du * dot dv dv - dot du dv * dot du dv) = q
    unfold dot; simp only [sub, add, smul]; ring
  rw [e1, e2]
  generalize dot b du = a1 at *
  generalize dot b dv = a2 at *
  generalize dot du du = g11 at *
  generalize dot du dv = g12 at *
  generalize dot dv dv = g22 at *
  have hp := div_mul_cancel₀ (a1 * g22 - a2 * g12) h
  have hq := div_mul_cancel₀ (a2 * g11 - a1 * g12) h
  clear e1 e2
  generalize (a1 * g22 - a2 * g12) / (g11 * g22 - g12 * g12) = p at *
  generalize (a2 * g11 - a1 * g12) / (g11 * g22 - g12 * g12) = q at *
  constructor
  · apply mul_left_cancel₀ h
    linear_combination -g11 * hp - g12 * hq
  · apply mul_left_cancel₀ h
    linear_combination -g12 * hp - g22 * hq

/-- For independent derivatives a displacement in the tangent plane gives exactly its parameters; for any displacement what remains is
perpendicular to the tangent plane. -/
theorem C330_improve {lstsq : V3 K → V3 K → V3 K → K × K} (hl : Lstsq lstsq) (old du dv : V3 K)
    (hi : dot du du * dot dv dv - dot du dv * dot du dv ≠ 0) (s t : K) (w : V3 K) (hu : dot w du = 0) (hv : dot w dv = 0) :
    improve lstsq old du dv (add old (add (add (smul s du) (smul t dv)) w)) = (s, t) := by
  unfold improve
  obtain ⟨h1, h2⟩ := hl du dv (sub (add old (add (add (smul s du) (smul t dv)) w)) old) hi
  set r := lstsq du dv (sub (add old (add (add (smul s du) (smul t dv)) w)) old)
  clear_value r
  have e1 : (s - r.1) * dot du du + (t - r.2) * dot du dv = 0 := by
    unfold dot at *
    simp only [sub, add, smul] at *
    linear_combination h1 - hu
  have e2 : (s - r.1) * dot du dv + (t - r.2) * dot dv dv = 0 := by
    unfold dot at *
    simp only [sub, add, smul] at *
    linear_combination h2 - hv
  have f1 : (s - r.1) * (dot du du * dot dv dv - dot du dv * dot du dv) = 0 := by linear_combination dot dv dv * e1 - dot du dv * e2
  have f2 : (t - r.2) * (dot du du * dot dv dv - dot du dv * dot du dv) = 0 := by linear_combination dot du du * e2 - dot du dv * e1
  ext
  · exact (sub_eq_zero.1 ((mul_eq_zero.1 f1).resolve_right hi)).symm
  · exact (sub_eq_zero.1 ((mul_eq_zero.1 f2).resolve_right hi)).symm

/-! ## C331 -/

variable {S A : Type}

/-- If the points are close after the first step, the pair is returned. -/
theorem C331_first_partial (better : S → S) (neg close : S → Bool) (a1 a2 : S → A) (step : S → K) (k : ℕ) (s : S) (hn : neg (better s) = false)
    (hc : close (better s) = true) :
    freeform better neg close a1 a2 (k + 1) s = some (.two (a1 (better s)) (a2 (better s))) ∧
      marching better neg close a1 a2 step (k + 1) s = some (.done (a1 (better s)) (a2 (better s)) (step s)) := by
  constructor
  · simp [freeform, hn, hc]
  · simp [marching, hn, hc]

/-- If they are not, whatever the further steps find: the first part of the result is that of the first step, not close, and the second part is
not a point with its parameters but a whole result. -/
theorem C331_freeform_refuted (better : S → S) (neg close : S → Bool) (a1 a2 : S → A) (k : ℕ) (s : S) (r : Res A)
    (hn : neg (better s) = false) (hc : close (better s) = false) (h : freeform better neg close a1 a2 k s = some r) :
    ∃ r', r = .nest (a1 (better s)) r' := by
  cases k with
  | zero => simp [freeform] at h
  | succ k =>
    simp only [freeform, hn, hc, Bool.false_eq_true, if_false, Option.map_eq_some_iff] at h
    obtain ⟨r', _, h⟩ := h
    exact ⟨r', h.symm⟩

/-- A marching step always returns the points of its first correction, close or not; only the entry for the step differs. -/
theorem C331_marching_refuted (better : S → S) (neg close : S → Bool) (a1 a2 : S → A) (step : S → K) (k : ℕ) (s : S) (r : MRes A K)
    (hn : neg (better s) = false) (h : marching better neg close a1 a2 step k s = some r) :
    (∃ l, r = .done (a1 (better s)) (a2 (better s)) l) ∨ ∃ r', r = .nest (a1 (better s)) (a2 (better s)) r' := by
  cases k with
  | zero => simp [marching] at h
  | succ k =>
    simp only [marching, hn, Bool.false_eq_true, if_false] at h
    split_ifs at h
    · exact Or.inl ⟨step s, by simpa using h.symm⟩
    · rw [Option.map_eq_some_iff] at h
      obtain ⟨r', _, h⟩ := h
      exact Or.inr ⟨r', h.symm⟩

/-- Steps that never come close and never leave have no result at any depth of recursion. -/
theorem C331_endless_refuted (better : S → S) (neg close : S → Bool) (a1 a2 : S → A) (step : S → K) (s : S)
    (hn : ∀ i, neg (better^[i + 1] s) = false) (hc : ∀ i, close (better^[i + 1] s) = false) (k : ℕ) :
    freeform better neg close a1 a2 k s = none ∧ marching better neg close a1 a2 step k s = none := by
  induction k generalizing s with
  | zero => exact ⟨rfl, rfl⟩
  | succ k ih =>
    have h1 := hn 0
    have h2 := hc 0
    simp only [Nat.zero_add, Function.iterate_one] at h1 h2
    obtain ⟨i1, i2⟩ := ih (better s) (fun i => by rw [← Function.iterate_succ_apply]; exact hn (i + 1))
      (fun i => by rw [← Function.iterate_succ_apply]; exact hc (i + 1))
    constructor
    · simp [freeform, h1, h2, i1]
    · simp [marching, h1, h2, i2]

example : freeform (fun n : ℕ => n + 1) (fun _ => false) (fun n => decide (3 ≤ n)) id (· + 100) 10 0 = some (.nest 1 (.nest 2 (.two 3 103))) := by decide
example : marching (K := ℚ) (fun n : ℕ => n + 1) (fun _ => false) (fun n => decide (2 ≤ n)) id (· + 100) (fun _ => 5) 10 0 =
    some (.nest 1 101 (.done 2 102 5)) := by decide +kernel

/-! ## C332 -/

/-- On the unit square the edge test is right. -/
theorem C332_unit_partial (u v : K) : surfaceEdge (u, v) ((0, 1), (0, 1)) = false ↔ (0 < u ∧ u < 1) ∧ (0 < v ∧ v < 1) := by
  simp [surfaceEdge]

/-- The interval given has no influence: an inner point of a surface outside the unit square counts as on the edge. -/
theorem C332_interval_refuted (uv : K × K) (i i' : (K × K) × (K × K)) :
    surfaceEdge uv i = surfaceEdge uv i' ∧ (1 ≤ uv.1 → surfaceEdge uv i = true) := by
  refine ⟨rfl, fun h => ?_⟩
  simp [surfaceEdge, not_lt.2 h]

/-! ## C333 -/

/-- The radius is the squared sine of the angle between the normals and does not depend on the surfaces otherwise: for unit normals the step is the chord
with the height `tol` in a circle of that radius. -/
theorem C333_radius_refuted {nrm : V3 K → K} (hn : ∀ v, 0 ≤ nrm v ∧ nrm v * nrm v = dot v v) (sqrt : K → K) (o1 n1 n2 : V3 K) (tol : K)
    (h1 : dot n1 n1 = 1) (hc : nrm (cross n1 n2) ≠ 0) :
    (marchStep nrm sqrt o1 n1 n2 tol).1 =
      sqrt (dot (cross n1 n2) (cross n1 n2) * dot (cross n1 n2) (cross n1 n2) -
        (dot (cross n1 n2) (cross n1 n2) - tol) * (dot (cross n1 n2) (cross n1 n2) - tol)) * 2 := by
  have perp : dot n1 (cross n1 n2) = 0 := by unfold dot cross; ring
  have hpos : 0 < nrm (cross n1 n2) := lt_of_le_of_ne (hn _).1 (Ne.symm hc)
  have hl2 := (hn (cross n1 n2)).2
  have hk : nrm (smul (1 / (nrm (cross n1 n2) * nrm (cross n1 n2)))
      (add n1 (smul (-(dot n1 (smul (1 / nrm (cross n1 n2)) (cross n1 n2)))) (smul (1 / nrm (cross n1 n2)) (cross n1 n2))))) =
      1 / (nrm (cross n1 n2) * nrm (cross n1 n2)) := by
    have e0 : dot n1 (smul (1 / nrm (cross n1 n2)) (cross n1 n2)) = 0 := by
      have : dot n1 (smul (1 / nrm (cross n1 n2)) (cross n1 n2)) = 1 / nrm (cross n1 n2) * dot n1 (cross n1 n2) := by
        generalize cross n1 n2 = c
        unfold dot smul; ring
      rw [this, perp, mul_zero]
    rw [e0]
    have e1 : add n1 (smul (-0) (smul (1 / nrm (cross n1 n2)) (cross n1 n2))) = n1 := by ext <;> simp [add, smul]
    rw [e1]
    have hq : 0 ≤ 1 / (nrm (cross n1 n2) * nrm (cross n1 n2)) := by positivity
    generalize 1 / (nrm (cross n1 n2) * nrm (cross n1 n2)) = q at *
    have e2 := (hn (smul q n1)).2
    have e3 : dot (smul q n1) (smul q n1) = q * q := by unfold dot smul at *; linear_combination q * q * h1
    rw [e3] at e2
    rcases mul_self_eq_mul_self_iff.1 e2 with h | h
    · exact h
    · have := (hn (smul q n1)).1
      rw [h] at this ⊢
      linarith
  unfold marchStep
  simp only
  rw [hk, one_div_one_div, hl2]

/-- The origin of the third plane is not at the distance of the step: the direction is not brought to length one. -/
theorem C333_origin_refuted (nrm : V3 K → K) (sqrt : K → K) (o1 n1 n2 : V3 K) (tol : K) :
    let m := marchStep nrm sqrt o1 n1 n2 tol
    dot (sub m.2 o1) (sub m.2 o1) = m.1 ^ 2 * dot (cross n1 n2) (cross n1 n2) ∧
      (m.1 ≠ 0 → dot (cross n1 n2) (cross n1 n2) ≠ 1 → dot (sub m.2 o1) (sub m.2 o1) ≠ m.1 ^ 2) := by
  have key : ∀ (s : K) (d : V3 K), dot (sub (add o1 (smul s d)) o1) (sub (add o1 (smul s d)) o1) = s ^ 2 * dot d d := by
    intro s d; simp only [dot, sub, add, smul]; ring
  intro m
  have h : dot (sub m.2 o1) (sub m.2 o1) = m.1 ^ 2 * dot (cross n1 n2) (cross n1 n2) := key _ _
  refine ⟨h, fun h0 h1 h2 => h1 ?_⟩
  rw [h2] at h
  exact mul_left_cancel₀ (pow_ne_zero 2 h0) (by rw [← h, mul_one])

/-- The middle point of the debug step is the middle of the two feet. -/
theorem C329_middle (solve : Solve5 K) (o1 n1 o2 n2 p m q : V3 K) (h : freeformDebug solve o1 n1 o2 n2 = some (p, m, q)) :
    add m m = add p q ∧ ∃ l, planePlane solve o1 n1 o2 n2 = some l ∧ p = closestOnLine l.1 (add l.1 l.2) o1 ∧ q = closestOnLine l.1 (add l.1 l.2) o2 := by
  unfold freeformDebug at h
  cases hl : planePlane solve o1 n1 o2 n2 with
  | none => rw [hl] at h; cases h
  | some l =>
    rw [hl] at h
    simp only [Option.some.injEq, Prod.mk.injEq] at h
    obtain ⟨rfl, rfl, rfl⟩ := h
    refine ⟨?_, l, rfl, rfl, rfl⟩
    simp only [add, smul, sub]
    ext <;> simp only <;> ring

example : (marchStep (K := ℚ) (fun v => |v.x| + |v.y| + |v.z|) (fun x => if x = 36/100 then 6/10 else 0) ⟨7, 8, 9⟩ ⟨0, 0, 1⟩ ⟨0, 1, 0⟩ (1/5)).1 = 6/5 := by
  decide +kernel

end Verif.Ppx
