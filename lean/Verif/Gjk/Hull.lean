import Mathlib.Analysis.Convex.Combination
import Verif.Gjk.Sound

set_option linter.unusedSectionVars false

/-! Convex hulls of vertex lists. -/

namespace Verif.Gjk

open Pointwise

variable {K : Type} [Field K] [LinearOrder K] [IsStrictOrderedRing K]

/-- A vector as an element of `K³`. -/
def pt (v : V K) : Fin 3 → K := ![v.x, v.y, v.z]

/-- The convex hull of a vertex list. -/
def hull (vs : List (V K)) : Set (Fin 3 → K) := convexHull K (pt '' {v | v ∈ vs})

/-- The convex hulls of two vertex lists have a point in common. -/
def Meet (vs ws : List (V K)) : Prop := (hull vs ∩ hull ws).Nonempty

/-- The difference of two vertex lists. -/
def Diff (vs ws : List (V K)) (p : V K) : Prop := ∃ v ∈ vs, ∃ w ∈ ws, p = sub v w

/-- The linear form of a direction. -/
def form (d : V K) (p : Fin 3 → K) : K := p 0 * d.x + p 1 * d.y + p 2 * d.z

theorem form_pt (d v : V K) : form d (pt v) = dot v d := rfl

theorem form_linear (d : V K) : IsLinearMap K (form d) := by
  constructor
  · intro a b; simp only [form, Pi.add_apply]; ring
  · intro c a; simp only [form, Pi.smul_apply, smul_eq_mul]; ring

/-- A plane strictly between the vertices is strictly between the hulls. -/
theorem not_meet_of_plane {vs ws : List (V K)} (hv : vs ≠ []) (d : V K)
    (h : ∀ v ∈ vs, ∀ w ∈ ws, dot v d < dot w d) : ¬ Meet vs ws := by
  rintro ⟨x, hx1, hx2⟩
  -- first: form of x is below every w
  have h1 : ∀ w ∈ ws, form d x < dot w d := by
    intro w hw
    have : hull vs ⊆ {p | form d p < dot w d} := by
      apply convexHull_min
      · rintro _ ⟨v, hv, rfl⟩
        exact h v hv w hw
      · exact convex_halfSpace_lt (form_linear d) _
    exact this hx1
  have h2 : hull ws ⊆ {p | form d x < form d p} := by
    apply convexHull_min
    · rintro _ ⟨w, hw, rfl⟩
      exact h1 w hw
    · exact convex_halfSpace_gt (form_linear d) _
  exact lt_irrefl _ (h2 hx2)

theorem pt_sub (a b : V K) : pt (sub a b) = pt a - pt b := by
  funext i; fin_cases i <;> rfl

theorem meet_iff (vs ws : List (V K)) :
    Meet vs ws ↔ (0 : Fin 3 → K) ∈ convexHull K (pt '' {p | Diff vs ws p}) := by
  have e : pt '' {p | Diff vs ws p} = (pt '' {v | v ∈ vs}) - (pt '' {w | w ∈ ws}) := by
    ext x
    simp only [Set.mem_image, Set.mem_setOf_eq, Set.mem_sub, Diff]
    constructor
    · rintro ⟨_, ⟨v, hv, w, hw, rfl⟩, rfl⟩
      exact ⟨_, ⟨v, hv, rfl⟩, _, ⟨w, hw, rfl⟩, (pt_sub v w).symm⟩
    · rintro ⟨_, ⟨v, hv, rfl⟩, _, ⟨w, hw, rfl⟩, rfl⟩
      exact ⟨_, ⟨v, hv, w, hw, rfl⟩, pt_sub v w⟩
  rw [e, convexHull_sub, Set.mem_sub]
  constructor
  · rintro ⟨x, h1, h2⟩
    exact ⟨x, h1, x, h2, sub_self x⟩
  · rintro ⟨x, h1, y, h2, h3⟩
    have : x = y := sub_eq_zero.mp h3
    subst this
    exact ⟨x, h1, h2⟩

theorem meet_of_hit {vs ws : List (V K)} (h : Hit (Diff vs ws)) : Meet vs ws := by
  rw [meet_iff]
  obtain ⟨p, q, r, s, hp, hq, hr, hs, wp, wq, wr, wt, h1, h2, h3, h4, h5, ex, ey, ez⟩ := h
  have hc := convex_convexHull K (pt '' {p | Diff vs ws p})
  have m : ∀ u, Diff vs ws u → pt u ∈ convexHull K (pt '' {p | Diff vs ws p}) := fun u hu =>
    subset_convexHull K _ ⟨u, hu, rfl⟩
  set S := wp + wq + wr + wt with hS
  have key : ∑ i : Fin 4, (![wp / S, wq / S, wr / S, wt / S] i) • (![pt p, pt q, pt r, pt s] i)
      ∈ convexHull K (pt '' {p | Diff vs ws p}) := by
    apply hc.sum_mem
    · intro i _
      fin_cases i
      · exact div_nonneg h1 h5.le
      · exact div_nonneg h2 h5.le
      · exact div_nonneg h3 h5.le
      · exact div_nonneg h4 h5.le
    · rw [Fin.sum_univ_four]
      show wp / S + wq / S + wr / S + wt / S = 1
      rw [← add_div, ← add_div, ← add_div]
      exact div_self h5.ne'
    · intro i _
      fin_cases i
      · exact m p hp
      · exact m q hq
      · exact m r hr
      · exact m s hs
  have e0 : ∑ i : Fin 4, (![wp / S, wq / S, wr / S, wt / S] i) • (![pt p, pt q, pt r, pt s] i)
      = 0 := by
    rw [Fin.sum_univ_four]
    funext i
    show wp / S * pt p i + wq / S * pt q i + wr / S * pt r i + wt / S * pt s i = 0
    have e : wp / S * pt p i + wq / S * pt q i + wr / S * pt r i + wt / S * pt s i
        = (wp * pt p i + wq * pt q i + wr * pt r i + wt * pt s i) / S := by ring
    rw [e]
    fin_cases i
    · exact (congrArg (· / S) ex).trans (zero_div S)
    · exact (congrArg (· / S) ey).trans (zero_div S)
    · exact (congrArg (· / S) ez).trans (zero_div S)
  rw [e0] at key
  exact key

end Verif.Gjk
