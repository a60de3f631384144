import Verif.Aabb.Props
import Mathlib.Algebra.BigOperators.Group.List.Basic
import Mathlib.Algebra.Order.BigOperators.Group.List
import Mathlib.Tactic.FieldSimp
import Verif.Gjk.Model2
import Verif.Gjk.Props

set_option linter.unusedSectionVars false

/-! # C165-C166: separability of point sets -/

namespace Verif.Gjk

variable {K : Type} [Field K] [LinearOrder K] [IsStrictOrderedRing K]

theorem hull_in_box (ps : List (V K)) (b : Aabb.Box K) (h : ∀ p ∈ ps.map row, Aabb.InBox 3 b p)
    (x : Fin 3 → K) (hx : x ∈ hull ps) :
    ∀ i : Fin 3, b.lo i.val ≤ x i ∧ x i ≤ b.hi i.val := by
  intro i
  have hlin : IsLinearMap K (fun p : Fin 3 → K => p i) := ⟨fun _ _ => rfl, fun _ _ => rfl⟩
  have hrow : ∀ v : V K, row v i.val = pt v i := by
    intro v; fin_cases i <;> rfl
  constructor
  · have : hull ps ⊆ {p | b.lo i.val ≤ p i} := by
      apply convexHull_min
      · rintro _ ⟨v, hv, rfl⟩
        have := (h (row v) (List.mem_map.mpr ⟨v, hv, rfl⟩) i.val i.isLt).1
        rw [hrow] at this
        exact this
      · exact convex_halfSpace_ge hlin _
    exact this hx
  · have : hull ps ⊆ {p | p i ≤ b.hi i.val} := by
      apply convexHull_min
      · rintro _ ⟨v, hv, rfl⟩
        have := (h (row v) (List.mem_map.mpr ⟨v, hv, rfl⟩) i.val i.isLt).2
        rw [hrow] at this
        exact this
      · exact convex_halfSpace_le hlin _
    exact this hx

/-- What the box test of `spatial_separability` contributes. -/
theorem separability_cases (ps qs : List (V K)) (tol : K) (h1 : ps ≠ []) (h2 : qs ≠ []) :
    (spatialSeparability ps qs tol = some true ∧ ¬ Meet ps qs) ∨
    spatialSeparability ps qs tol = (gjk ps qs tol 25).map not := by
  obtain ⟨b1, e1, in1, least1, -⟩ := Aabb.C17_aabb_smallest 3 (le_refl _) (ps.map row) (by simpa using h1)
  obtain ⟨b2, e2, in2, least2, -⟩ := Aabb.C17_aabb_smallest 3 (le_refl _) (qs.map row) (by simpa using h2)
  have e3 : Aabb.aabbIntersect 3 b1 b2 = some (Aabb.intersect3d b1 b2) := if_pos rfl
  unfold spatialSeparability
  rw [e1, e2]
  simp only [Option.bind_eq_bind, Option.bind_some, e3]
  by_cases ht : Aabb.intersect3d b1 b2 = false
  · left
    rw [if_pos ht]
    refine ⟨rfl, ?_⟩
    rintro ⟨x, hx1, hx2⟩
    have : Aabb.intersect3d b1 b2 = true := by
      rw [Aabb.intersect3d_iff]
      intro i hi
      have a1 := hull_in_box ps b1 in1 x hx1 ⟨i, hi⟩
      have a2 := hull_in_box qs b2 in2 x hx2 ⟨i, hi⟩
      exact ⟨le_trans a1.1 a2.2, le_trans a2.1 a1.2⟩
    rw [this] at ht; cases ht
  · right
    rw [if_neg ht]

/-- **C165.** With tolerance 0, `spatial_separability` answers `False` only for point sets whose convex hulls meet: point
sets that can be separated are always reported as separable. -/
theorem C165_separated (ps qs : List (V K)) (h1 : ps ≠ []) (h2 : qs ≠ []) (h : ¬ Meet ps qs) :
    spatialSeparability ps qs 0 = some true := by
  rcases separability_cases ps qs 0 h1 h2 with ⟨e, -⟩ | e
  · exact e
  · rw [e]
    rcases (C163_bookkeeping ps qs 0 (le_refl _) 25).1 h1 h2 with e' | e' | e'
    · exact absurd (C161_collide ps qs 25 (by unfold gjk; rw [e']; rfl)) h
    · unfold gjk; rw [e']; rfl
    · unfold gjk; rw [e']; rfl

/-- **C165 refuted (small).** "True means that there is no intersection" fails for every point set whose extent `r` has
`6 r² ≤ tol`: it is reported as separable from itself. -/
theorem C165_self_refuted (ps : List (V K)) (tol r : K) (h1 : ps ≠ []) (hr : 6 * (r * r) ≤ tol)
    (hb : ∀ v ∈ ps, ∀ w ∈ ps, |v.x - w.x| ≤ r ∧ |v.y - w.y| ≤ r ∧ |v.z - w.z| ≤ r) :
    Meet ps ps ∧ spatialSeparability ps ps tol = some true := by
  refine ⟨meet_self ps h1, ?_⟩
  rcases separability_cases ps ps tol h1 h1 with ⟨e, -⟩ | e
  · exact e
  · rw [e, (C162_small_refuted ps tol r 25 h1 hr hb).2]; rfl

/-- **C165 refuted (cycle).** At every scale from 1 on and every tolerance in `[0, 1)` a triangle and a segment that
crosses it are reported as separable, and as not separable when the arguments are exchanged. -/
theorem C165_cycle_refuted (s tol : K) (hs : 1 ≤ s) (h0 : 0 ≤ tol) (h1 : tol < 1) :
    Meet (lattice s cycTriangle) (lattice s cycSegment) ∧
      spatialSeparability (lattice s cycTriangle) (lattice s cycSegment) tol = some true ∧
      spatialSeparability (lattice s cycSegment) (lattice s cycTriangle) tol = some false := by
  obtain ⟨hM, e1, e2⟩ := C162_cycle_refuted s tol hs h0 h1 25
  have n1 : lattice s cycTriangle ≠ [] := by simp [lattice, cycTriangle]
  have n2 : lattice s cycSegment ≠ [] := by simp [lattice, cycSegment]
  refine ⟨hM, ?_, ?_⟩
  · rcases separability_cases _ _ tol n1 n2 with ⟨e, -⟩ | e
    · exact e
    · rw [e, e1]; rfl
  · rcases separability_cases _ _ tol n2 n1 with ⟨-, h⟩ | e
    · obtain ⟨x, hx1, hx2⟩ := hM
      exact absurd ⟨x, hx2, hx1⟩ h
    · rw [e, e2]; rfl

/-- **C165 partial.** Whatever the tolerance, the answer `True` is right unless the collision test ran out of its 25
rounds.  Missing: those cases (`C165_self_refuted`, `C165_cycle_refuted`). -/
theorem C165_true_partial (ps qs : List (V K)) (tol : K) (ht : 0 ≤ tol) (h1 : ps ≠ []) (h2 : qs ≠ [])
    (h : spatialSeparability ps qs tol = some true) (hx : verdict ps qs tol 25 ≠ some .exhausted) :
    ¬ Meet ps qs := by
  rcases separability_cases ps qs tol h1 h2 with ⟨-, e⟩ | e
  · exact e
  · rcases (C163_bookkeeping ps qs tol ht 25).1 h1 h2 with e' | e' | e'
    · rw [e] at h; unfold gjk at h; rw [e'] at h; cases h
    · exact (C160_apart ps qs tol 25 e').2
    · exact absurd e' hx

example : spatialSeparability [⟨0, 0, 0⟩, ⟨1, 0, 0⟩, ⟨0, 1, 0⟩, ⟨0, 0, 1⟩]
    [⟨1, 1, 0⟩, ⟨1, 0, 1⟩, ⟨0, 1, 1⟩, ⟨1, 1, 1⟩] (1 / 1000000 : ℚ) = some true ∧
    verdict [⟨0, 0, 0⟩, ⟨1, 0, 0⟩, ⟨0, 1, 0⟩, ⟨0, 0, 1⟩] [⟨1, 1, 0⟩, ⟨1, 0, 1⟩, ⟨0, 1, 1⟩, ⟨1, 1, 1⟩]
    (1 / 1000000 : ℚ) 25 ≠ some .exhausted ∧
    spatialSeparability [⟨0, 0, 0⟩, ⟨2, 0, 0⟩, ⟨0, 2, 0⟩, ⟨0, 0, 2⟩] [⟨1/2, 1/2, 1/2⟩, ⟨3, 3, 3⟩]
    (1 / 1000000 : ℚ) = some false := by decide +kernel

/-! ## The plane test -/

theorem sum_dot (n : V K) (ps : List (V K)) :
    (ps.map (fun p => dot p n)).sum = (ps.map V.x).sum * n.x + (ps.map V.y).sum * n.y + (ps.map V.z).sum * n.z := by
  induction ps with
  | nil => simp
  | cons p ps ih =>
    rw [List.map_cons, List.sum_cons, ih]
    simp only [List.map_cons, List.sum_cons, dot]; ring

theorem sum_sub_const (c : K) (l : List K) : (l.map (fun x => x - c)).sum = l.sum - l.length * c := by
  induction l with
  | nil => simp
  | cons p ps ih =>
    simp only [List.map_cons, List.sum_cons, ih, List.length_cons]; push_cast; ring

theorem all_zero_of_sum (l : List K) (h0 : ∀ x ∈ l, 0 ≤ x) (hs : l.sum = 0) : ∀ x ∈ l, x = 0 := by
  induction l with
  | nil => simp
  | cons a l ih =>
    rw [List.sum_cons] at hs
    have ha := h0 a List.mem_cons_self
    have hl : 0 ≤ l.sum := List.sum_nonneg (fun x hx => h0 x (List.mem_cons_of_mem _ hx))
    intro x hx
    rcases List.mem_cons.mp hx with rfl | hx
    · linarith
    · exact ih (fun x hx => h0 x (List.mem_cons_of_mem _ hx)) (by linarith) x hx

/-- **C166.** The plane test answers true exactly when the first point set is flat (it lies in one plane with the given
normal) and the second set does not rise above that plane. -/
theorem C166_plane (n : V K) (ps qs : List (V K)) (h : ps ≠ []) :
    planeSeparates n ps qs = true ↔
      (∀ p ∈ ps, ∀ p' ∈ ps, dot p n = dot p' n) ∧ ∀ p ∈ ps, ∀ q ∈ qs, dot q n ≤ dot p n := by
  have hlen : (0 : K) < ps.length := by
    have := List.length_pos_of_ne_nil h
    exact_mod_cast this
  have hmean : (ps.length : K) * dot n (mean ps) = (ps.map (fun p => dot p n)).sum := by
    rw [sum_dot]
    simp only [dot, mean]
    field_simp
  unfold planeSeparates
  simp only [Bool.and_eq_true, List.all_eq_true, decide_eq_true_eq]
  constructor
  · rintro ⟨a, b⟩
    have hz : ∀ p ∈ ps, dot p n = dot n (mean ps) := by
      have h1 : ((ps.map (fun p => dot p n)).map (fun x => x - dot n (mean ps))).sum = 0 := by
        rw [sum_sub_const, List.length_map, hmean]; ring
      have h2 := all_zero_of_sum _ (by
        intro x hx
        simp only [List.mem_map] at hx
        obtain ⟨y, ⟨p, hp, rfl⟩, rfl⟩ := hx
        have := a p hp
        linarith) h1
      intro p hp
      have := h2 (dot p n - dot n (mean ps)) (by
        simp only [List.mem_map]
        exact ⟨_, ⟨p, hp, rfl⟩, rfl⟩)
      linarith
    refine ⟨fun p hp p' hp' => (hz p hp).trans (hz p' hp').symm, fun p hp q hq => ?_⟩
    have := b q hq
    rw [hz p hp]; linarith
  · rintro ⟨a, b⟩
    obtain ⟨p0, l, hpl⟩ := List.exists_cons_of_ne_nil h
    have hp0 : p0 ∈ ps := by rw [hpl]; simp
    have hm : dot n (mean ps) = dot p0 n := by
      have : (ps.map (fun p => dot p n)).sum = ps.length * dot p0 n := by
        have e : ps.map (fun p => dot p n) = ps.map (fun _ => dot p0 n) :=
          List.map_congr_left (fun p hp => a p hp p0 hp0)
        rw [e]; simp
      rw [this] at hmean
      exact mul_left_cancel₀ hlen.ne' hmean
    rw [hm]
    refine ⟨fun p hp => ?_, fun q hq => ?_⟩
    · rw [a p hp p0 hp0]; simp
    · have := b p0 hp0 q hq
      linarith

/-- **C166 refuted.** "The plane test only accepts sets without a common point" fails for every flat patch: it is accepted
against itself, and against every set that lies in the same plane. -/
theorem C166_same_plane_refuted (A B C D A' B' C' D' : V K) (ps qs : List (V K)) (h : ps ≠ [])
    (hp : ∀ p ∈ ps, dot p (boundingPlaneNormal A B C D) = dot A (boundingPlaneNormal A B C D))
    (hq : ∀ q ∈ qs, dot q (boundingPlaneNormal A B C D) = dot A (boundingPlaneNormal A B C D)) :
    boundingPlaneTest A B C D ps A' B' C' D' qs = true ∧ (qs = ps → Meet ps qs) := by
  constructor
  · unfold boundingPlaneTest
    rw [Bool.or_eq_true]
    left
    rw [C166_plane _ _ _ h]
    exact ⟨fun p h1 p' h2 => (hp p h1).trans (hp p' h2).symm,
      fun p h1 q h2 => ((hq q h2).trans (hp p h1).symm).le⟩
  · rintro rfl
    exact meet_self _ h

/-- A square patch against itself. -/
example : boundingPlaneTest ⟨0, 0, 0⟩ ⟨1, 0, 0⟩ ⟨1, 1, 0⟩ ⟨0, 1, 0⟩
    [⟨0, 0, 0⟩, ⟨1, 0, 0⟩, ⟨1, 1, 0⟩, ⟨0, 1, 0⟩] ⟨0, 0, 0⟩ ⟨1, 0, 0⟩ ⟨1, 1, 0⟩ ⟨0, 1, 0⟩
    [⟨0, 0, 0⟩, ⟨1, 0, 0⟩, ⟨1, 1, 0⟩, (⟨0, 1, 0⟩ : V ℚ)] = true := by decide +kernel

/-- **C166 partial.** When the test accepts through the first plane and the second set stays strictly off that plane, the
hulls have no common point.  Missing: sets that touch the plane. -/
theorem C166_strict_partial (n : V K) (ps qs : List (V K)) (h : ps ≠ []) (hq : qs ≠ [])
    (ht : planeSeparates n ps qs = true) (hs : ∀ p ∈ ps, ∀ q ∈ qs, dot q n ≠ dot p n) : ¬ Meet ps qs := by
  rw [C166_plane n ps qs h] at ht
  rintro ⟨x, hx1, hx2⟩
  refine not_meet_of_plane (vs := qs) (ws := ps) hq n (fun q hq p hp =>
    lt_of_le_of_ne (ht.2 p hp q hq) (hs p hp q hq)) ⟨x, hx2, hx1⟩

example : planeSeparates ⟨0, 0, 1⟩ [⟨0, 0, 0⟩, ⟨1, 0, 0⟩, ⟨0, 1, 0⟩] [⟨0, 0, -1⟩, (⟨5, 5, -3⟩ : V ℚ)] = true := by
  decide +kernel

end Verif.Gjk
