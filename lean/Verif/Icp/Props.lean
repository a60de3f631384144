import Verif.Icp.Model
import Verif.Pinv.Props
import Mathlib.Tactic.Ring
import Mathlib.Tactic.Linarith
import Mathlib.Tactic.NormNum
import Mathlib.Tactic.LinearCombination
import Mathlib.Tactic.FieldSimp
import Mathlib.Tactic.Positivity

set_option linter.unusedSectionVars false

/-! # Points on the intersection of implicit surfaces (C467–C470) -/

namespace Verif.Icp

open Verif.Vec V3
open Verif.Pinv (Nrm)

variable {K : Type} [Field K] [LinearOrder K] [IsStrictOrderedRing K]

theorem nrm_zero {nrm : V3 K → K} (h : Nrm nrm) : nrm zero = 0 := by
  have := h.sq zero
  simp only [dot, zero, mul_zero, add_zero] at this
  exact pow_eq_zero_iff (n := 2) (by norm_num) |>.1 this

/-! ## C467 -/

/-- The surface of a linear function: a plane. -/
def planeSurf (n : V3 K) (c : K) : Surf K := ⟨fun q => dot n q - c, fun _ => n⟩

/-- **C467, planes.** For two planes that are not parallel the answer is success, and the point is the point of both planes closest to the start. -/
theorem C467_planes (nrm : V3 K → K) (hn : Nrm nrm) (tol : K) (ht : 0 ≤ tol) (maxIter : Nat) (n1 n2 q0 : V3 K) (c1 c2 : K) (h : cross n1 n2 ≠ zero) :
    ∃ r, curvePoint nrm tol maxIter (planeSurf n1 c1) (planeSurf n2 c2) q0 = (true, some r) ∧ dot n1 r = c1 ∧ dot n2 r = c2 ∧
      ∀ x, dot n1 x = c1 → dot n2 x = c2 → dot (sub r q0) (sub r q0) ≤ dot (sub x q0) (sub x q0) := by
  have hd : dot n1 n1 * dot n2 n2 - dot n2 n1 * dot n1 n2 ≠ 0 := by
    have e : dot n1 n1 * dot n2 n2 - dot n2 n1 * dot n1 n2 = dot (cross n1 n2) (cross n1 n2) := by unfold dot cross; ring
    rw [e]
    exact fun h0 => h (dot_self_eq_zero.1 h0)
  have hs : ∀ y0 y1 : K, solve2x2 (dot n1 n1) (dot n2 n1) (dot n1 n2) (dot n2 n2) y0 y1 =
      some ((y0 * dot n2 n2 - dot n2 n1 * y1) / (dot n1 n1 * dot n2 n2 - dot n2 n1 * dot n1 n2),
        (dot n1 n1 * y1 - y0 * dot n1 n2) / (dot n1 n1 * dot n2 n2 - dot n2 n1 * dot n1 n2)) := by
    intro y0 y1; unfold solve2x2; exact if_neg hd
  have hc : ∀ ab q, coeffs (planeSurf n1 c1) (planeSurf n2 c2) ab q =
      (true, ((-(dot n1 q - c1) * dot n2 n2 - dot n2 n1 * -(dot n2 q - c2)) / (dot n1 n1 * dot n2 n2 - dot n2 n1 * dot n1 n2),
        (dot n1 n1 * -(dot n2 q - c2) - -(dot n1 q - c1) * dot n1 n2) / (dot n1 n1 * dot n2 n2 - dot n2 n1 * dot n1 n2))) := by
    intro ab q
    unfold coeffs planeSurf
    dsimp only
    rw [hs]
  obtain ⟨a, b, hab⟩ : ∃ a b, coeffs (planeSurf n1 c1) (planeSurf n2 c2) (0, 0) q0 = (true, (a, b)) := ⟨_, _, hc _ _⟩
  have hab' := (hc (0, 0) q0).symm.trans hab
  simp only [Prod.mk.injEq, true_and] at hab'
  obtain ⟨ha, hb⟩ := hab'
  -- the point after one step
  have k1 : dot n1 (add (add (smul a n1) (smul b n2)) q0) = c1 := by
    have : a * dot n1 n1 + b * dot n2 n1 = c1 - dot n1 q0 := by rw [← ha, ← hb, div_mul_eq_mul_div, div_mul_eq_mul_div, ← add_div, div_eq_iff hd]; ring
    unfold dot add smul at *; linear_combination this
  have k2 : dot n2 (add (add (smul a n1) (smul b n2)) q0) = c2 := by
    have : a * dot n1 n2 + b * dot n2 n2 = c2 - dot n2 q0 := by rw [← ha, ← hb, div_mul_eq_mul_div, div_mul_eq_mul_div, ← add_div, div_eq_iff hd]; ring
    unfold dot add smul at *; linear_combination this
  refine ⟨add (add (smul a n1) (smul b n2)) q0, ?_, k1, k2, ?_⟩
  · have e0 : delta (planeSurf n1 c1) (planeSurf n2 c2) (a, b) q0 = add (smul a n1) (smul b n2) := rfl
    unfold curvePoint
    rw [hab]
    dsimp only
    rw [e0]
    unfold loop
    split_ifs with h1
    · dsimp only
      rw [hc]
      dsimp only
      rw [k1, k2]
      have z : ∀ q, delta (planeSurf n1 c1) (planeSurf n2 c2)
          ((-(c1 - c1) * dot n2 n2 - dot n2 n1 * -(c2 - c2)) / (dot n1 n1 * dot n2 n2 - dot n2 n1 * dot n1 n2),
            (dot n1 n1 * -(c2 - c2) - -(c1 - c1) * dot n1 n2) / (dot n1 n1 * dot n2 n2 - dot n2 n1 * dot n1 n2)) q = zero := by
        intro q
        simp [delta, add, smul, zero]
      rw [z]
      have az : ∀ q : V3 K, add zero q = q := by intro q; simp [add, zero]
      rw [az]
      unfold loop
      rw [nrm_zero hn, if_neg (not_lt.2 ht)]
    · rfl
  · intro x x1 x2
    set r := add (add (smul a n1) (smul b n2)) q0 with hr
    have o : dot (sub x r) (sub r q0) = 0 := by
      have e : dot (sub x r) (sub r q0) = a * (dot n1 x - dot n1 r) + b * (dot n2 x - dot n2 r) := by
        rw [hr]; unfold dot sub add smul; ring
      rw [e, x1, x2, k1, k2]; ring
    have e : dot (sub x q0) (sub x q0) = dot (sub r q0) (sub r q0) + dot (sub x r) (sub x r) + 2 * dot (sub x r) (sub r q0) := by
      unfold dot sub; ring
    rw [e, o]
    linarith [dot_self_nonneg (sub x r)]

theorem loop_last (nrm : V3 K → K) (tol : K) (s1 s2 : Surf K) (b : Bool) : ∀ (n : Nat) (ab : K × K) (q d : V3 K) (ab0 : K × K) (q0 : V3 K),
    q = add d q0 → d = delta s1 s2 ab0 q0 → ∀ f r, loop nrm tol s1 s2 b n ab q d = (f, some r) →
      f = b ∧ ∃ ab' q', r = add (delta s1 s2 ab' q') q' ∧ nrm (delta s1 s2 ab' q') ≤ tol
  | n, ab, q, d, ab0, q0, hq, hd, f, r, h => by
    unfold loop at h
    split_ifs at h with h1
    · cases n with
      | zero => simp at h
      | succ n => exact loop_last nrm tol s1 s2 b n _ _ _ _ _ rfl rfl f r h
    · simp only [Prod.mk.injEq, Option.some.injEq] at h
      obtain ⟨rfl, rfl⟩ := h
      exact ⟨rfl, ab0, q0, by rw [hq, hd], by rw [← hd]; exact not_lt.1 h1⟩

/-- **C467, last step, partial.** A point that is written was reached by a last step not longer than the tolerance.  Missing: that it lies near both
surfaces, which is false. -/
theorem C467_step_partial (nrm : V3 K → K) (tol : K) (maxIter : Nat) (s1 s2 : Surf K) (q0 r : V3 K) (f : Bool)
    (h : curvePoint nrm tol maxIter s1 s2 q0 = (f, some r)) :
    ∃ ab q, r = add (delta s1 s2 ab q) q ∧ nrm (delta s1 s2 ab q) ≤ tol :=
  (loop_last nrm tol s1 s2 _ _ _ _ _ _ _ rfl rfl f r h).2

/-- **C467, limit.** When the number of rounds is exceeded the answer is failure and nothing is written. -/
theorem C467_limit (nrm : V3 K → K) (tol : K) (maxIter : Nat) (s1 s2 : Surf K) (q0 : V3 K) :
    (curvePoint nrm tol maxIter s1 s2 q0).2 = none → (curvePoint nrm tol maxIter s1 s2 q0).1 = false := by
  have key : ∀ (b : Bool) (n : Nat) (ab : K × K) (q d : V3 K), (loop nrm tol s1 s2 b n ab q d).2 = none → (loop nrm tol s1 s2 b n ab q d).1 = false := by
    intro b n
    induction n with
    | zero =>
      intro ab q d h
      unfold loop at h ⊢
      split_ifs at h ⊢
      · rfl
    | succ n ih =>
      intro ab q d h
      unfold loop at h ⊢
      split_ifs at h ⊢
      · exact ih _ _ _ h
  exact key _ _ _ _ _

/-- **C467, refuted, contact.** When the gradients at the start are parallel the answer is failure, even if the start lies on both surfaces; the start is
written as the result. -/
theorem C467_contact_refuted (nrm : V3 K → K) (hn : Nrm nrm) (tol : K) (ht : 0 ≤ tol) (maxIter : Nat) (s1 s2 : Surf K) (q0 : V3 K)
    (h : cross (s1.g q0) (s2.g q0) = zero) : curvePoint nrm tol maxIter s1 s2 q0 = (false, some q0) := by
  have hd : dot (s1.g q0) (s1.g q0) * dot (s2.g q0) (s2.g q0) - dot (s2.g q0) (s1.g q0) * dot (s1.g q0) (s2.g q0) = 0 := by
    have e : dot (s1.g q0) (s1.g q0) * dot (s2.g q0) (s2.g q0) - dot (s2.g q0) (s1.g q0) * dot (s1.g q0) (s2.g q0) =
      dot (cross (s1.g q0) (s2.g q0)) (cross (s1.g q0) (s2.g q0)) := by unfold dot cross; ring
    rw [e, h]; simp [dot, zero]
  have hc : coeffs s1 s2 (0, 0) q0 = (false, (0, 0)) := by
    unfold coeffs solve2x2
    dsimp only
    rw [if_pos hd]
  unfold curvePoint
  rw [hc]
  have hz : delta s1 s2 (0, 0) q0 = zero := by simp [delta, add, smul, zero]
  dsimp only
  rw [hz]
  unfold loop
  rw [nrm_zero hn, if_neg (not_lt.2 ht)]
  simp [add, zero]

/-- The function `x² + 1` with its gradient: a surface without points. -/
def empty : Surf K := ⟨fun q => q.x ^ 2 + 1, fun q => ⟨2 * q.x, 0, 0⟩⟩

/-- **C467, refuted, success.** The answer can be success although the first surface has no points at all: the return code of the later systems is not used. -/
theorem C467_success_refuted (nrm : V3 K → K) (hn : Nrm nrm) (tol : K) (ht : 0 ≤ tol) (ht1 : tol < 1) (maxIter : Nat) :
    curvePoint nrm tol maxIter empty (planeSurf ⟨0, 1, 0⟩ 0) ⟨1, 0, 0⟩ = (true, some zero) ∧ ∀ q : V3 K, 0 < (empty : Surf K).f q := by
  refine ⟨?_, fun q => by unfold empty; positivity⟩
  have h1 : coeffs empty (planeSurf ⟨0, 1, 0⟩ 0) (0, 0) (⟨1, 0, 0⟩ : V3 K) = (true, (-(1 / 2), 0)) := by
    unfold coeffs solve2x2 empty planeSurf dot
    norm_num
  have h2 : ∀ ab, coeffs empty (planeSurf ⟨0, 1, 0⟩ 0) ab (zero : V3 K) = (false, ab) := by
    intro ab
    unfold coeffs solve2x2 empty planeSurf dot zero
    norm_num
  have d1 : delta empty (planeSurf ⟨0, 1, 0⟩ 0) (-(1 / 2), 0) (⟨1, 0, 0⟩ : V3 K) = ⟨-1, 0, 0⟩ := by
    simp [delta, empty, planeSurf, add, smul]
  have d2 : delta empty (planeSurf ⟨0, 1, 0⟩ 0) (-(1 / 2), 0) (zero : V3 K) = zero := by
    simp [delta, empty, planeSurf, add, smul, zero]
  have hl : nrm ⟨-1, 0, 0⟩ = 1 := by
    have := hn.sq ⟨-1, 0, 0⟩
    have h0 := hn.nonneg ⟨-1, 0, 0⟩
    simp only [dot] at this
    have : (nrm ⟨-1, 0, 0⟩ - 1) * (nrm ⟨-1, 0, 0⟩ + 1) = 0 := by linear_combination this
    rcases mul_eq_zero.1 this with e | e
    · linarith
    · linarith
  unfold curvePoint
  rw [h1]
  dsimp only
  rw [d1]
  have a1 : add (⟨-1, 0, 0⟩ : V3 K) ⟨1, 0, 0⟩ = zero := by simp [add, zero]
  rw [a1]
  unfold loop
  rw [hl, if_pos ht1]
  dsimp only
  rw [h2]
  dsimp only
  rw [d2]
  unfold loop
  rw [nrm_zero hn, if_neg (not_lt.2 ht)]
  simp [add, zero]

/-! ## C468 -/

/-- **C468, lines.** For a linear function the point of the line next to the start is found in two rounds. -/
theorem C468_line (a b c tol : K) (h : a ≠ 0 ∨ b ≠ 0) (ht : 0 < tol) (n : Nat) (p : K × K) :
    ∃ q, curvePoint2 (fun p => a * p.1 + b * p.2 - c) (fun _ => (a, b)) tol (n + 2) p = some q ∧ a * q.1 + b * q.2 = c ∧
      ∀ x : K × K, a * x.1 + b * x.2 = c → (q.1 - p.1) ^ 2 + (q.2 - p.2) ^ 2 ≤ (x.1 - p.1) ^ 2 + (x.2 - p.2) ^ 2 := by
  have hc : 0 < a ^ 2 + b ^ 2 := by
    rcases h with h | h
    · have := pow_pos (abs_pos.2 h) 2; rw [sq_abs] at this; nlinarith [sq_nonneg b]
    · have := pow_pos (abs_pos.2 h) 2; rw [sq_abs] at this; nlinarith [sq_nonneg a]
  have hs : ∀ p : K × K, newtonStep (fun p => a * p.1 + b * p.2 - c) (fun _ => (a, b)) p =
      (p.1 + -(a * p.1 + b * p.2 - c) / (a ^ 2 + b ^ 2) * a, p.2 + -(a * p.1 + b * p.2 - c) / (a ^ 2 + b ^ 2) * b) := by
    intro p; unfold newtonStep; dsimp only; rw [if_pos hc]
  obtain ⟨t, htt⟩ : ∃ t, t = -(a * p.1 + b * p.2 - c) / (a ^ 2 + b ^ 2) := ⟨_, rfl⟩
  have on : a * (p.1 + t * a) + b * (p.2 + t * b) = c := by rw [htt]; field_simp; ring
  refine ⟨(p.1 + t * a, p.2 + t * b), ?_, on, ?_⟩
  · have e1 : newtonStep (fun p => a * p.1 + b * p.2 - c) (fun _ => (a, b)) p = (p.1 + t * a, p.2 + t * b) := by rw [hs, ← htt]
    have e2 : newtonStep (fun p => a * p.1 + b * p.2 - c) (fun _ => (a, b)) (p.1 + t * a, p.2 + t * b) = (p.1 + t * a, p.2 + t * b) := by
      rw [hs]
      dsimp only
      rw [on]
      simp
    rw [curvePoint2]
    rw [e1]
    split_ifs
    · rw [curvePoint2]
      dsimp only
      rw [e2]
      dsimp only
      rw [sub_self, sub_self, abs_zero, add_zero, if_neg (not_le.2 ht)]
    · rfl
  · intro x hx
    dsimp only
    have o : (x.1 - (p.1 + t * a)) * (t * a) + (x.2 - (p.2 + t * b)) * (t * b) = 0 := by linear_combination t * hx - t * on
    nlinarith [sq_nonneg (x.1 - (p.1 + t * a)), sq_nonneg (x.2 - (p.2 + t * b))]

/-- **C468, refuted.** At a critical point of the function the start is returned, whatever the value of the function; and `surface_plane` raises for every
point of space. -/
theorem C468_critical_refuted (f : K × K → K) (g : K × K → K × K) (tol : K) (ht : 0 < tol) (n : Nat) (p : K × K) (h : g p = (0, 0)) :
    curvePoint2 f g tol (n + 1) p = some p ∧ ∀ (R : Type) (x y z : K) (rest : K → K → Option R), surfacePlane [x, y, z] rest = none := by
  refine ⟨?_, fun R x y z rest => rfl⟩
  have e : newtonStep f g p = p := by
    unfold newtonStep
    rw [h]
    simp
  rw [curvePoint2]
  rw [e, sub_self, sub_self, abs_zero, add_zero, if_neg (not_le.2 ht)]

/-- **C468, last step.** A result is one step from a point at a distance (sum of coordinates) less than the tolerance. -/
theorem C468_step_partial (f : K × K → K) (g : K × K → K × K) (tol : K) : ∀ (n : Nat) (p q : K × K), curvePoint2 f g tol n p = some q →
    ∃ s, q = newtonStep f g s ∧ |s.1 - q.1| + |s.2 - q.2| < tol
  | 0, p, q, h => by cases h
  | n + 1, p, q, h => by
    rw [curvePoint2] at h
    split_ifs at h with h1
    · exact C468_step_partial f g tol n _ q h
    · cases h
      exact ⟨p, rfl, not_le.1 h1⟩

/-! ## C469 -/

theorem back_spec (c : K) (f : List K → K) (x dx : List K) (slope : K) : ∀ (m : Nat) (α : K),
    (∃ k < m, backLoop c f x dx slope m α = (List.zipWith (fun a b => a + α * (1 / 2) ^ k * b) x dx, true) ∧
      f (List.zipWith (fun a b => a + α * (1 / 2) ^ k * b) x dx) ≤ f x + c * (α * (1 / 2) ^ k) * slope ∧
      ∀ j < k, f x + c * (α * (1 / 2) ^ j) * slope < f (List.zipWith (fun a b => a + α * (1 / 2) ^ j * b) x dx)) ∨
    (backLoop c f x dx slope m α = (x, false) ∧
      ∀ j < m, f x + c * (α * (1 / 2) ^ j) * slope < f (List.zipWith (fun a b => a + α * (1 / 2) ^ j * b) x dx))
  | 0, α => Or.inr ⟨rfl, by simp⟩
  | m + 1, α => by
    rw [backLoop]
    have e0 : α * (1 / 2) ^ 0 = α := by simp
    by_cases h : f (List.zipWith (fun a b => a + α * b) x dx) ≤ f x + c * α * slope
    · rw [if_pos h]
      refine Or.inl ⟨0, Nat.succ_pos _, ?_, ?_, by simp⟩
      · rw [e0]
      · rw [e0]; exact h
    · rw [if_neg h]
      have ek : ∀ k, α * (1 / 2) * (1 / 2) ^ k = α * (1 / 2) ^ (k + 1) := fun k => by ring
      have back : ∀ {k}, (∀ j < k, f x + c * (α * (1 / 2) * (1 / 2) ^ j) * slope < f (List.zipWith (fun a b => a + α * (1 / 2) * (1 / 2) ^ j * b) x dx)) →
          ∀ j < k + 1, f x + c * (α * (1 / 2) ^ j) * slope < f (List.zipWith (fun a b => a + α * (1 / 2) ^ j * b) x dx) := by
        intro k hk j hj
        cases j with
        | zero => rw [e0]; exact not_le.1 h
        | succ j => have := hk j (by omega); rw [ek] at this; exact this
      rcases back_spec c f x dx slope m (α * (1 / 2)) with ⟨k, hk, h1, h2, h3⟩ | ⟨h1, h2⟩
      · rw [ek] at h1 h2
        exact Or.inl ⟨k + 1, Nat.succ_lt_succ hk, h1, h2, back h3⟩
      · exact Or.inr ⟨h1, back h2⟩

/-- **C469, backtracking.** The result is the first of the points `x + α/2^k·dx`, `k < max_iter`, that meets the condition of sufficient decrease, with
`True`; when none does, `x` and `False`. -/
theorem C469_first (c : K) (f : List K → K) (g : List K → List K) (x dx : List K) (α : K) (m : Nat) :
    (∃ k < m, backtrack c f g x dx α m = (List.zipWith (fun a b => a + α * (1 / 2) ^ k * b) x dx, true) ∧
      f (List.zipWith (fun a b => a + α * (1 / 2) ^ k * b) x dx) ≤ f x + c * (α * (1 / 2) ^ k) * (List.zipWith (· * ·) (g x) dx).sum ∧
      ∀ j < k, f x + c * (α * (1 / 2) ^ j) * (List.zipWith (· * ·) (g x) dx).sum < f (List.zipWith (fun a b => a + α * (1 / 2) ^ j * b) x dx)) ∨
    (backtrack c f g x dx α m = (x, false) ∧
      ∀ j < m, f x + c * (α * (1 / 2) ^ j) * (List.zipWith (· * ·) (g x) dx).sum < f (List.zipWith (fun a b => a + α * (1 / 2) ^ j * b) x dx)) :=
  back_spec c f x dx _ m α

/-- **C469, no increase.** In a direction of descent the value never gets larger. -/
theorem C469_descent (c : K) (hc : 0 ≤ c) (f : List K → K) (g : List K → List K) (x dx : List K) (α : K) (ha : 0 ≤ α) (m : Nat)
    (hs : (List.zipWith (· * ·) (g x) dx).sum ≤ 0) : f (backtrack c f g x dx α m).1 ≤ f x := by
  rcases C469_first c f g x dx α m with ⟨k, _, h1, h2, _⟩ | ⟨h1, _⟩
  · rw [h1]
    have : c * (α * (1 / 2) ^ k) * (List.zipWith (· * ·) (g x) dx).sum ≤ 0 :=
      mul_nonpos_of_nonneg_of_nonpos (mul_nonneg hc (mul_nonneg ha (by positivity))) hs
    dsimp only
    linarith
  · rw [h1]

/-- A case: `x²` from 1 along -4: the value at the first two trials is not smaller (9, then 1), the third trial is the minimum. -/
example : backtrack (1 / 10000) (fun l => (l.getD 0 0) ^ 2) (fun l => [2 * l.getD 0 0]) [(1 : ℚ)] [-4] 1 5 = ([0], true) := by decide +kernel

/-! ## C470 -/

theorem flatMap_getElem? {A B : Type} (g : A → List B) (m : Nat) (hm : ∀ a, (g a).length = m) : ∀ (l : List A) (i j : Nat) (a : A), l[i]? = some a → j < m →
    (l.flatMap g)[i * m + j]? = (g a)[j]?
  | [], i, j, a, h, _ => by simp at h
  | b :: l, 0, j, a, h, hj => by
    simp only [List.getElem?_cons_zero, Option.some.injEq] at h
    subst h
    rw [List.flatMap_cons, List.getElem?_append_left (by rw [hm]; omega)]
    congr 1
    omega
  | b :: l, i + 1, j, a, h, hj => by
    rw [List.flatMap_cons, List.getElem?_append_right (by rw [hm]; nlinarith), hm]
    have e : (i + 1) * m + j - m = i * m + j := by rw [Nat.succ_mul]; omega
    rw [e]
    exact flatMap_getElem? g m hm l i j a (by simpa using h) hj

theorem linspace_length (a b : K) (n : Nat) : (linspace a b n).length = n := by unfold linspace; simp

/-- **C470, order of the grid.** The point with the numbers `i`, `j`, `k` along the axes has the place `(i·ny + j)·nz + k`. -/
theorem C470_grid_place (lo hi : V3 K) (nx ny nz i j k : Nat) (x y z : K) (hx : (linspace lo.x hi.x nx)[i]? = some x)
    (hy : (linspace lo.y hi.y ny)[j]? = some y) (hz : (linspace lo.z hi.z nz)[k]? = some z) :
    (mgrid3d lo hi nx ny nz)[(i * ny + j) * nz + k]? = some ⟨x, y, z⟩ := by
  have hj : j < ny := by have := (List.getElem?_eq_some_iff.1 hy).1; rwa [linspace_length] at this
  have hk : k < nz := by have := (List.getElem?_eq_some_iff.1 hz).1; rwa [linspace_length] at this
  unfold mgrid3d
  have e : (i * ny + j) * nz + k = i * (ny * nz) + (j * nz + k) := by ring
  have hl : j * nz + k < ny * nz := by
    calc j * nz + k < j * nz + nz := by omega
      _ = (j + 1) * nz := by ring
      _ ≤ ny * nz := Nat.mul_le_mul_right _ hj
  rw [e, flatMap_getElem? _ (ny * nz) _ _ i (j * nz + k) x hx hl, flatMap_getElem? _ nz _ _ j k y hy hk, List.getElem?_map, hz]
  · rfl
  · intro a; rw [List.length_map, linspace_length]
  · intro a
    rw [List.length_flatMap]
    simp [linspace_length, Function.comp_def]

/-- **C470, grid.** The grid has `nx·ny·nz` points. -/
theorem C470_grid_length (lo hi : V3 K) (nx ny nz : Nat) : (mgrid3d lo hi nx ny nz).length = nx * ny * nz := by
  unfold mgrid3d
  simp [List.length_flatMap, linspace, Function.comp_def]
  ring

theorem linspace_mem (a b : K) (hab : a ≤ b) (n : Nat) (t : K) (h : t ∈ linspace a b n) : a ≤ t ∧ t ≤ b := by
  unfold linspace at h
  obtain ⟨i, hi, rfl⟩ := List.mem_map.1 h
  have hi' : i < n := List.mem_range.1 hi
  split_ifs with h1
  · exact ⟨le_refl _, hab⟩
  · have hn : (0 : K) < (n : K) - 1 := by
      have : (1 : K) < n := by exact_mod_cast (show 1 < n by omega)
      linarith
    have hin : (i : K) ≤ (n : K) - 1 := by
      have : (i : K) + 1 ≤ n := by exact_mod_cast hi'
      linarith
    have h0 : (0 : K) ≤ i := Nat.cast_nonneg i
    constructor
    · have : 0 ≤ (b - a) * i / ((n : K) - 1) := div_nonneg (mul_nonneg (sub_nonneg.2 hab) h0) hn.le
      linarith
    · have : (b - a) * i / ((n : K) - 1) ≤ b - a := by
        rw [div_le_iff₀ hn]
        exact mul_le_mul_of_nonneg_left hin (sub_nonneg.2 hab)
      linarith

theorem linspace_ends (a b : K) (n : Nat) (h : 2 ≤ n) : a ∈ linspace a b n ∧ b ∈ linspace a b n := by
  unfold linspace
  have hn : (n : K) - 1 ≠ 0 := by
    have : (1 : K) < n := by exact_mod_cast (show 1 < n by omega)
    linarith
  constructor
  · refine List.mem_map.2 ⟨0, List.mem_range.2 (by omega), ?_⟩
    rw [if_neg (by omega)]
    simp
  · refine List.mem_map.2 ⟨n - 1, List.mem_range.2 (by omega), ?_⟩
    rw [if_neg (by omega)]
    have : ((n - 1 : ℕ) : K) = (n : K) - 1 := by push_cast [Nat.cast_sub (show 1 ≤ n by omega)]; ring
    rw [this]
    field_simp
    ring

/-- **C470, points of the grid.** All points lie in the box, and with at least two points along each axis the eight corners are among them. -/
theorem C470_grid (lo hi : V3 K) (nx ny nz : Nat) :
    (∀ p ∈ mgrid3d lo hi nx ny nz, lo.x ≤ hi.x → lo.y ≤ hi.y → lo.z ≤ hi.z →
      (lo.x ≤ p.x ∧ p.x ≤ hi.x) ∧ (lo.y ≤ p.y ∧ p.y ≤ hi.y) ∧ (lo.z ≤ p.z ∧ p.z ≤ hi.z)) ∧
    (2 ≤ nx → 2 ≤ ny → 2 ≤ nz → ∀ p : V3 K, (p.x = lo.x ∨ p.x = hi.x) → (p.y = lo.y ∨ p.y = hi.y) → (p.z = lo.z ∨ p.z = hi.z) →
      p ∈ mgrid3d lo hi nx ny nz) := by
  constructor
  · intro p hp hx hy hz
    unfold mgrid3d at hp
    obtain ⟨x, h1, hp⟩ := List.mem_flatMap.1 hp
    obtain ⟨y, h2, hp⟩ := List.mem_flatMap.1 hp
    obtain ⟨z, h3, rfl⟩ := List.mem_map.1 hp
    exact ⟨linspace_mem _ _ hx _ _ h1, linspace_mem _ _ hy _ _ h2, linspace_mem _ _ hz _ _ h3⟩
  · intro h1 h2 h3 p hx hy hz
    unfold mgrid3d
    refine List.mem_flatMap.2 ⟨p.x, ?_, List.mem_flatMap.2 ⟨p.y, ?_, List.mem_map.2 ⟨p.z, ?_, rfl⟩⟩⟩
    · rcases hx with e | e
      · rw [e]; exact (linspace_ends _ _ _ h1).1
      · rw [e]; exact (linspace_ends _ _ _ h1).2
    · rcases hy with e | e
      · rw [e]; exact (linspace_ends _ _ _ h2).1
      · rw [e]; exact (linspace_ends _ _ _ h2).2
    · rcases hz with e | e
      · rw [e]; exact (linspace_ends _ _ _ h3).1
      · rw [e]; exact (linspace_ends _ _ _ h3).2

theorem unit_dot {nrm : V3 K → K} (hn : Nrm nrm) {v : V3 K} (h : v ≠ zero) : dot (unit nrm v) (unit nrm v) = 1 := by
  have hv : dot v v ≠ 0 := fun e => h (dot_self_eq_zero.1 e)
  have hk : nrm v ≠ 0 := by
    intro e
    have := hn.sq v
    rw [e] at this
    exact hv (by linear_combination -this)
  have := hn.sq v
  unfold dot unit at *
  field_simp
  linear_combination -this

/-- **C470, frame.** Where the gradients are independent the frame is orthonormal and right-handed, its first axis is tangent to both surfaces and the
second is the normal of the first surface. -/
theorem C470_frame (nrm : V3 K → K) (hn : Nrm nrm) (o n1 n2 : V3 K) (h : cross n1 n2 ≠ zero) :
    let p := plane nrm o n1 n2
    p.1 = o ∧ dot p.2.1 p.2.1 = 1 ∧ dot p.2.1 n1 = 0 ∧ dot p.2.1 n2 = 0 ∧ dot p.2.2.1 p.2.2.1 = 1 ∧ p.2.2.1 = unit nrm n1 ∧ dot p.2.1 p.2.2.1 = 0 ∧
      p.2.2.2 = cross p.2.1 p.2.2.1 ∧ dot p.2.2.2 p.2.2.2 = 1 := by
  have hu := unit_dot hn h
  have h1 : dot (unit nrm (cross n1 n2)) n1 = 0 := by
    have : dot (unit nrm (cross n1 n2)) n1 = dot (cross n1 n2) n1 / nrm (cross n1 n2) := by unfold dot unit; ring
    rw [this]
    have : dot (cross n1 n2) n1 = 0 := by unfold dot cross; ring
    rw [this, zero_div]
  have h2 : dot (unit nrm (cross n1 n2)) n2 = 0 := by
    have : dot (unit nrm (cross n1 n2)) n2 = dot (cross n1 n2) n2 / nrm (cross n1 n2) := by unfold dot unit; ring
    rw [this]
    have : dot (cross n1 n2) n2 = 0 := by unfold dot cross; ring
    rw [this, zero_div]
  have hn1 : n1 ≠ zero := by
    rintro rfl
    exact h (by simp [cross, zero])
  have hc : dot n1 (unit nrm (cross n1 n2)) = 0 := by
    have : dot n1 (unit nrm (cross n1 n2)) = dot (unit nrm (cross n1 n2)) n1 := by unfold dot; ring
    rw [this, h1]
  have hs : sub n1 (smul (dot n1 (unit nrm (cross n1 n2))) (unit nrm (cross n1 n2))) = n1 := by
    rw [hc]
    simp [sub, smul]
  intro p
  have e : p = (o, unit nrm (cross n1 n2), unit nrm n1, cross (unit nrm (cross n1 n2)) (unit nrm n1)) := by
    show plane nrm o n1 n2 = _
    unfold plane
    dsimp only
    rw [hs]
  have h3 : dot (unit nrm (cross n1 n2)) (unit nrm n1) = 0 := by
    have : dot (unit nrm (cross n1 n2)) (unit nrm n1) = dot (unit nrm (cross n1 n2)) n1 / nrm n1 := by
      generalize unit nrm (cross n1 n2) = w
      unfold dot unit
      ring
    rw [this, h1, zero_div]
  have hv := unit_dot hn hn1
  rw [e]
  dsimp only
  refine ⟨rfl, hu, h1, h2, hv, rfl, h3, rfl, ?_⟩
  generalize unit nrm (cross n1 n2) = w at *
  generalize unit nrm n1 = v at *
  have : dot (cross w v) (cross w v) = dot w w * dot v v - dot w v ^ 2 := by unfold dot cross; ring
  rw [this, hu, hv, h3]
  ring

/-- A case: the gradients of two planes through an axis. -/
example : cross (⟨1, 0, 0⟩ : V3 ℚ) ⟨1, 1, 0⟩ ≠ zero := by decide +kernel

end Verif.Icp
