import Verif.Par.Model
import Mathlib.Analysis.Calculus.Deriv.MeanValue
import Mathlib.Analysis.Calculus.Deriv.Mul
import Mathlib.Analysis.Calculus.Deriv.Pow
import Mathlib.Analysis.Calculus.Deriv.Shift

/-! Difference quotients and derivatives. -/

set_option linter.unusedSectionVars false

namespace Verif.Par
open Verif.Prim Verif.Dg Set

/-- `f'` is the derivative of the curve `f` at `t`. -/
def HasDer (f : ℝ → P) (f' : P) (t : ℝ) : Prop :=
  HasDerivAt (fun s => (f s).x) f'.x t ∧ HasDerivAt (fun s => (f s).y) f'.y t ∧ HasDerivAt (fun s => (f s).z) f'.z t

/-- All three coordinates are continuous. -/
def Cont (f : ℝ → P) (s : Set ℝ) : Prop :=
  ContinuousOn (fun t => (f t).x) s ∧ ContinuousOn (fun t => (f t).y) s ∧ ContinuousOn (fun t => (f t).z) s

/-- The mean value theorem in the form used here. -/
theorem mvt (g g' : ℝ → ℝ) (a b : ℝ) (hab : a < b) (hc : ContinuousOn g (Icc a b))
    (hd : ∀ x ∈ Ioo a b, HasDerivAt g (g' x) x) : ∃ ξ ∈ Ioo a b, g b - g a = g' ξ * (b - a) := by
  obtain ⟨ξ, hξ, e⟩ := exists_hasDerivAt_eq_slope g g' hab hc hd
  refine ⟨ξ, hξ, ?_⟩
  rw [e, div_mul_cancel₀]
  exact (sub_pos.mpr hab).ne'

/-- The mean value theorem for a function with a derivative everywhere. -/
theorem mvt' (g g' : ℝ → ℝ) (a b : ℝ) (hab : a < b) (hd : ∀ x ∈ Icc a b, HasDerivAt g (g' x) x) :
    ∃ ξ ∈ Ioo a b, g b - g a = g' ξ * (b - a) :=
  mvt g g' a b hab (fun x hx => (hd x hx).continuousAt.continuousWithinAt) fun x hx => hd x (Ioo_subset_Icc_self hx)

/-- The second difference is the second derivative at a point between. -/
theorem mvt2 (g g' g'' : ℝ → ℝ) (t h : ℝ) (hh : 0 < h) (hd : ∀ x ∈ Icc (t - h) (t + h), HasDerivAt g (g' x) x)
    (hd' : ∀ x ∈ Icc (t - h) (t + h), HasDerivAt g' (g'' x) x) :
    ∃ ξ ∈ Ioo (t - h) (t + h), g (t + h) - 2 * g t + g (t - h) = g'' ξ * h ^ 2 := by
  obtain ⟨η, hη, e⟩ := mvt' (fun s => g (s + h) - g s) (fun s => g' (s + h) - g' s) (t - h) t (by linarith) (by
    intro x hx
    have h1 := (hd (x + h) ⟨by linarith [hx.1], by linarith [hx.2]⟩).comp_add_const x h
    exact h1.sub (hd x ⟨hx.1, by linarith [hx.2]⟩))
  obtain ⟨ξ, hξ, e'⟩ := mvt' g' g'' η (η + h) (by linarith) (by
    intro x hx
    exact hd' x ⟨by linarith [hx.1, hη.1], by linarith [hx.2, hη.2]⟩)
  refine ⟨ξ, ⟨by linarith [hξ.1, hη.1], by linarith [hξ.2, hη.2]⟩, ?_⟩
  rw [e', sub_add_cancel] at e
  linear_combination e

end Verif.Par
