import Verif.Csx.Props3

/-! # More on C256 and C258: the answer of Newton's method, the boundaries of a surface -/

set_option linter.unusedSectionVars false

namespace Verif.Csx

open Verif.Nurbs

variable {K : Type} [Field K] [LinearOrder K] [IsStrictOrderedRing K]

/-- **C256**: an answer of `newton_raphson` either is one whole step after a point where the step was small, or the number of steps is used
up; so if the last step is too large the answer has not been tested (`C256_unconverged_refuted`). -/
theorem C256_newton (delta : K × K × K → Option (K × K × K)) (small : K × K × K → Bool) : ∀ (n : Nat) (x y : K × K × K),
    newtonRaphson delta small n x = some y →
    (∃ z d, delta z = some d ∧ small d = true ∧ y = (z.1 + d.1, z.2.1 + d.2.1, z.2.2 + d.2.2)) ∨
    ∃ p : Nat → K × K × K, p 0 = x ∧ p n = y ∧ ∀ i < n, ∃ d, delta (p i) = some d ∧ small d = false ∧
      p (i + 1) = ((p i).1 + d.1, (p i).2.1 + d.2.1, (p i).2.2 + d.2.2) := by
  intro n
  induction n with
  | zero =>
    intro x y h
    simp only [newtonRaphson, Option.some.injEq] at h
    exact .inr ⟨fun _ => x, rfl, h, fun i hi => absurd hi (Nat.not_lt_zero i)⟩
  | succ n ih =>
    intro x y h
    unfold newtonRaphson at h
    cases hd : delta x with
    | none => rw [hd] at h; cases h
    | some d =>
      rw [hd] at h
      dsimp only at h
      by_cases hs : small d = true
      · rw [if_pos hs] at h
        exact .inl ⟨x, d, hd, hs, (Option.some.inj h).symm⟩
      · rw [if_neg hs] at h
        rcases ih _ _ h with g | ⟨p, p0, pn, g⟩
        · exact .inl g
        · refine .inr ⟨fun i => if i = 0 then x else p (i - 1), rfl, by simpa using pn, fun i hi => ?_⟩
          cases i with
          | zero => exact ⟨d, by simpa using hd, by simpa using hs, by simpa using p0⟩
          | succ i =>
            obtain ⟨e, e1, e2, e3⟩ := g i (by omega)
            exact ⟨e, by simpa using e1, e2, by simpa using e3⟩

/-- Halving the distance from 1 in the first coordinate: the answer is one step after the first small one. -/
example : newtonRaphson (fun x : ℚ × ℚ × ℚ => some ((1 - x.1) / 2, 0, 0)) (fun d => decide (d.1 < 1 / 4)) 9 (0, 0, 0) = some (7 / 8, 0, 0) := by
  decide +kernel

/-- **C258**: the boundary curves, in their order, run along the sides of the parameter rectangle that `_boundary_index_to_params` gives, for
surfaces with weights 1 (for others see C257). -/
theorem C258_boundary (S : Surf K) (fuel : Nat) (hS : OkS fuel S) (hw : ∀ i j, i < S.nu → j < S.nv → S.P i j 3 = 1) (i : Nat) :
    let d := ((S.U 0, S.U (S.mu - 1)), (S.V 0, S.V (S.mv - 1)))
    ∃ c, boundaryCurve S fuel d i = some (some c) ∧ ∀ x, c.U 0 ≤ x → x ≤ c.U (c.m - 1) →
      ∀ col, c.evaluate fuel x col = S.evaluate fuel (boundaryParams d i x).1 (boundaryParams d i x).2 col := by
  have s0 : S.U 0 = S.U S.pu := hS.u.start
  have s1 : S.U (S.mu - 1) = S.U S.nu := hS.u.stop
  have r0 : S.V 0 = S.V S.pv := hS.v.start
  have r1 : S.V (S.mv - 1) = S.V S.nv := hS.v.stop
  have uu : S.U 0 ≤ S.U (S.mu - 1) := by rw [s0, s1]; exact hS.u.valid.mono _ _ hS.u.valid.npos.le (by have := hS.u.valid.knots; show S.nu < S.uCurve.m; rw [this]; show S.nu < S.nu + S.pu + 1; omega)
  have vv : S.V 0 ≤ S.V (S.mv - 1) := by rw [r0, r1]; exact hS.v.valid.mono _ _ hS.v.valid.npos.le (by have := hS.v.valid.knots; show S.nv < S.vCurve.m; rw [this]; show S.nv < S.nv + S.pv + 1; omega)
  have hu : ∀ p, S.U 0 ≤ p → p ≤ S.U (S.mu - 1) → ∃ c, isoU S fuel p = some (some c) ∧ ∀ x, c.U 0 ≤ x → x ≤ c.U (c.m - 1) →
      ∀ col, c.evaluate fuel x col = S.evaluate fuel p x col := by
    intro p h1 h2
    obtain ⟨c, e, _, _, e2, _, h⟩ := C257_isocurve_u S fuel hS 1 one_ne_zero hw p h1 h2
    have e' := isoU_spec S hS.u fuel (by have := hS.fuelU; omega) p h1 h2
    rw [e] at e'
    have em : c.m = S.mv := by
      have := Option.some.inj (Option.some.inj e'); rw [this]
    refine ⟨c, e, fun x h3 h4 col => ?_⟩
    rw [e2] at h3 h4
    rw [em] at h4
    obtain ⟨y, y1, y2⟩ := h x h3 h4 col
    rw [y1, y2, one_mul]
  have hv : ∀ p, S.V 0 ≤ p → p ≤ S.V (S.mv - 1) → ∃ c, isoV S fuel p = some (some c) ∧ ∀ x, c.U 0 ≤ x → x ≤ c.U (c.m - 1) →
      ∀ col, c.evaluate fuel x col = S.evaluate fuel x p col := by
    intro p h1 h2
    obtain ⟨c, e, _, _, e2, _, h⟩ := C257_isocurve_v S fuel hS 1 one_ne_zero hw p h1 h2
    have e' := isoV_spec S hS.v fuel (by have := hS.fuelV; omega) p h1 h2
    rw [e] at e'
    have em : c.m = S.mu := by
      have := Option.some.inj (Option.some.inj e'); rw [this]
    refine ⟨c, e, fun x h3 h4 col => ?_⟩
    rw [e2] at h3 h4
    rw [em] at h4
    obtain ⟨y, y1, y2⟩ := h x h3 h4 col
    rw [y1, y2, one_mul]
  intro d
  unfold boundaryCurve boundaryParams
  by_cases i0 : i = 0
  · simp only [i0, if_true]
    exact hu _ (le_refl _) uu
  by_cases i1 : i = 1
  · subst i1
    exact hu _ uu (le_refl _)
  by_cases i2 : i = 2
  · subst i2
    exact hv _ (le_refl _) vv
  · simp only [i0, i1, i2, if_false]
    exact hv _ vv (le_refl _)

example : ((boundaryCurve (exBil 1) 9 ((0, 2), (0, 3)) 3).map (Option.map fun c => c.evaluate 9 (3 / 2) 2)) =
    some (some ((exBil 1).evaluate 9 (3 / 2) 3 2)) ∧ ((boundaryCurve (exBil 1) 9 ((0, 2), (0, 3)) 2).map (Option.map fun c => c.evaluate 9 (3 / 2) 2)) =
    some (some (some 1)) := by constructor <;> decide +kernel

end Verif.Csx
