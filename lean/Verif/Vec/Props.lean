import Verif.Vec.Gauss
import Mathlib.Algebra.Order.Ring.Abs
import Mathlib.Data.Rat.Lemmas
import Mathlib.Algebra.Order.Ring.Rat
import Mathlib.Data.Rat.Floor
import Mathlib.Tactic.Positivity

/-! # Small systems, planes, rays and triangles -/

set_option linter.unusedSectionVars false

namespace Verif.Vec

open V3 Finset

variable {K : Type} [Field K] [LinearOrder K] [IsStrictOrderedRing K]

/-! ## C42: 2×2 systems -/

/-- Failure exactly on a singular matrix; otherwise the only solution. -/
theorem C42_solve2x2 (a b c d y0 y1 : K) :
    (solve2x2 a b c d y0 y1 = none ↔ a * d - b * c = 0) ∧
    ∀ r, solve2x2 a b c d y0 y1 = some r →
      (a * r.1 + b * r.2 = y0 ∧ c * r.1 + d * r.2 = y1) ∧
      ∀ s : K × K, a * s.1 + b * s.2 = y0 → c * s.1 + d * s.2 = y1 → s = r := by
  unfold solve2x2
  dsimp only
  by_cases h : a * d - b * c = 0
  · simp [h]
  · rw [if_neg h]
    refine ⟨by simp [h], ?_⟩
    intro r hr
    cases hr
    dsimp only
    refine ⟨?_, ?_⟩
    · generalize hD : a * d - b * c = D at h ⊢
      constructor <;> field_simp <;> rw [← hD] <;> ring
    rintro ⟨s0, s1⟩ h0 h1
    dsimp only at h0 h1
    ext
    · dsimp only
      rw [eq_div_iff h]; linear_combination d * h0 - b * h1
    · dsimp only
      rw [eq_div_iff h]; linear_combination a * h1 - c * h0

/-- Failure exactly on a singular matrix; otherwise the inverse on both sides. -/
theorem C42_invert_jacobian (a b c d : K) :
    (invertJacobian a b c d = none ↔ a * d - b * c = 0) ∧
    ∀ r, invertJacobian a b c d = some r →
      (a * r.1.1 + b * r.2.1 = 1 ∧ a * r.1.2 + b * r.2.2 = 0 ∧
        c * r.1.1 + d * r.2.1 = 0 ∧ c * r.1.2 + d * r.2.2 = 1) ∧
      (r.1.1 * a + r.1.2 * c = 1 ∧ r.1.1 * b + r.1.2 * d = 0 ∧
        r.2.1 * a + r.2.2 * c = 0 ∧ r.2.1 * b + r.2.2 * d = 1) := by
  unfold invertJacobian
  dsimp only
  by_cases h : a * d - b * c = 0
  · simp [h]
  · rw [if_neg h]
    refine ⟨by simp [h], ?_⟩
    intro r hr
    cases hr
    dsimp only
    generalize hD : a * d - b * c = D at h ⊢
    refine ⟨⟨?_, ?_, ?_, ?_⟩, ?_, ?_, ?_, ?_⟩ <;> field_simp <;> (try rw [← hD]) <;> ring

example : solve2x2 (2 : ℚ) 1 1 1 3 2 = some (1, 1) ∧ solve2x2 (2 : ℚ) 1 4 2 3 2 = none := by
  decide +kernel

/-! ## C87: `decompose_vector` -/

theorem gram_pos (a b : V3 K) :
    dot a a * dot b b - dot a b * dot a b = dot (cross a b) (cross a b) := by
  simp only [dot, cross]; ring

theorem dot_self_eq_zero {a : V3 K} : dot a a = 0 ↔ a = zero := by
  constructor
  · intro h
    simp only [dot] at h
    have hx := mul_self_nonneg a.x
    have hy := mul_self_nonneg a.y
    have hz := mul_self_nonneg a.z
    have h1 : a.x = 0 := mul_self_eq_zero.1 (by linarith)
    have h2 : a.y = 0 := mul_self_eq_zero.1 (by linarith)
    have h3 : a.z = 0 := mul_self_eq_zero.1 (by linarith)
    ext <;> simp [zero, h1, h2, h3]
  · rintro rfl; simp [dot, zero]

theorem dot_self_nonneg (a : V3 K) : 0 ≤ dot a a := by
  simp only [dot]
  have hx := mul_self_nonneg a.x
  have hy := mul_self_nonneg a.y
  have hz := mul_self_nonneg a.z
  linarith

/-- For vectors with nonzero cross product, whatever the memory held: what is left of `v` is
orthogonal to both, and coefficients of a combination are recovered.

`_partial`: dependent vectors, `C87_dependent_refuted`. -/
theorem C87_decompose_partial (u : K × K) (v a b : V3 K) (h : cross a b ≠ zero) :
    let r := decomposeVector u v a b
    dot a (v.sub ((smul r.1 a).add (smul r.2 b))) = 0 ∧
    dot b (v.sub ((smul r.1 a).add (smul r.2 b))) = 0 ∧
    ∀ s t : K, v = (smul s a).add (smul t b) → r = (s, t) := by
  have hd : dot a a * dot b b - dot a b * dot a b ≠ 0 := by
    rw [gram_pos]; exact fun h' => h (dot_self_eq_zero.1 h')
  obtain ⟨r, hr⟩ : ∃ r, solve2x2 (dot a a) (dot a b) (dot a b) (dot b b) (dot a v) (dot b v) =
      some r := by
    cases hs : solve2x2 (dot a a) (dot a b) (dot a b) (dot b b) (dot a v) (dot b v) with
    | none => exact absurd ((C42_solve2x2 _ _ _ _ _ _).1.1 hs) hd
    | some r => exact ⟨r, rfl⟩
  obtain ⟨⟨e1, e2⟩, huni⟩ := (C42_solve2x2 _ _ _ _ _ _).2 r hr
  have hres : decomposeVector u v a b = r := by rw [decomposeVector, hr]; rfl
  dsimp only
  rw [hres]
  refine ⟨?_, ?_, ?_⟩
  · simp only [dot, sub, add, smul] at e1 ⊢
    linear_combination -e1
  · simp only [dot, sub, add, smul] at e2 ⊢
    linear_combination -e2
  · rintro s t rfl
    refine (huni (s, t) ?_ ?_).symm
    · simp only [dot, add, smul]; ring
    · simp only [dot, add, smul]; ring

/-- For dependent vectors the result is whatever the freshly allocated array held. -/
theorem C87_dependent_refuted (u : K × K) (v a : V3 K) (t : K) :
    decomposeVector u v a (smul t a) = u := by
  have : solve2x2 (dot a a) (dot a (smul t a)) (dot a (smul t a)) (dot (smul t a) (smul t a))
      (dot a v) (dot (smul t a) v) = none := by
    rw [(C42_solve2x2 _ _ _ _ _ _).1]
    simp only [dot, smul]; ring
  rw [decomposeVector, this]; rfl

example : cross (⟨1, 2, 0⟩ : V3 ℚ) ⟨0, 1, 1⟩ ≠ zero ∧
    decomposeVector (7, 7) (⟨2, 7, 3⟩ : V3 ℚ) ⟨1, 2, 0⟩ ⟨0, 1, 1⟩ = (2, 3) := by decide +kernel

/-! ## C43: plane intersections -/

/-- `p` lies on the plane through `o` with normal `n`. -/
def OnPlane (p o n : V3 K) : Prop := dot (p.sub o) n = 0

theorem onPlane_iff {p o n : V3 K} : OnPlane p o n ↔ dot n p = dot o n := by
  unfold OnPlane
  simp only [dot, sub]
  constructor <;> intro h <;> linear_combination h

/-- For every size: what the solver returns solves the system, and no other vector does. -/
theorem C43_solver (n : Nat) (m : Nat → Nat → K) (v x : Nat → K) (h : solve n m v = some x) :
    (∀ r < n, ∑ c ∈ range n, m r c * x c = v r) ∧
    ∀ y : Nat → K, (∀ r < n, ∑ c ∈ range n, m r c * y c = v r) → ∀ c < n, y c = x c :=
  solve_spec h

theorem solve3_iff (o1 n1 o2 n2 o3 n3 p : V3 K) :
    Sol 3 (fun r c => comp (match r with | 0 => n1 | 1 => n2 | _ => n3) c)
      (fun r => match r with | 0 => dot o1 n1 | 1 => dot o2 n2 | _ => dot o3 n3) (comp p) ↔
    OnPlane p o1 n1 ∧ OnPlane p o2 n2 ∧ OnPlane p o3 n3 := by
  rw [onPlane_iff, onPlane_iff, onPlane_iff]
  constructor
  · intro h
    have h0 := h 0 (by omega)
    have h1 := h 1 (by omega)
    have h2 := h 2 (by omega)
    simp only [sum_range_succ, range_zero, sum_empty, zero_add, comp] at h0 h1 h2
    exact ⟨h0, h1, h2⟩
  · rintro ⟨h0, h1, h2⟩ r hr
    interval_cases r <;> simp only [sum_range_succ, range_zero, sum_empty, zero_add, comp] <;>
      assumption

/-- A point that is returned is the one point on all three planes.

`_partial`: for independent normals a point should be returned; `C43_three_planes_refuted`. -/
theorem C43_three_planes_partial (o1 n1 o2 n2 o3 n3 p : V3 K)
    (h : intersect3 o1 n1 o2 n2 o3 n3 = some p) (q : V3 K) :
    OnPlane q o1 n1 ∧ OnPlane q o2 n2 ∧ OnPlane q o3 n3 ↔ q = p := by
  rw [intersect3] at h
  obtain ⟨x, hx, rfl⟩ := Option.map_eq_some_iff.1 h
  obtain ⟨h1, h2⟩ := solve_spec hx
  rw [← solve3_iff]
  constructor
  · intro hq
    have := h2 _ hq
    ext
    · exact this 0 (by omega)
    · exact this 1 (by omega)
    · exact this 2 (by omega)
  · rintro rfl
    intro r hr
    refine Eq.trans ?_ (h1 r hr)
    apply sum_congr rfl
    intro c hc
    have hc := mem_range.1 hc
    have : comp (⟨x 0, x 1, x 2⟩ : V3 K) c = x c := by
      interval_cases c <;> rfl
    rw [this]
    rfl

/-- When the second and third normals have no `x` component nothing is returned, whatever the rest:
the pivot search ends on the last row. -/
theorem C43_three_planes_refuted (o1 n1 o2 n2 o3 n3 : V3 K) (h2 : n2.x = 0) (h3 : n3.x = 0) :
    intersect3 o1 n1 o2 n2 o3 n3 = none := by
  have hp : ∀ m : Nat → Nat → K, m 1 0 = 0 → m 2 0 = 0 → findMaxRow m 0 3 = 2 := by
    intro m hm1 hm2
    simp [findMaxRow, findMaxLoop, hm1, hm2]
  rw [intersect3, Option.map_eq_none_iff, solve, Option.bind_eq_none_iff]
  intro s hs
  rw [elim] at hs
  obtain ⟨s1, hs1, -⟩ := Option.bind_eq_some_iff.1 hs
  rw [elimStep_eq, hp _ (by simpa [comp] using h2) (by simpa [comp] using h3), if_pos] at hs1
  · cases hs1
  · exact ⟨by omega, by simpa [swapIdx, comp] using h3⟩

/-- The three coordinate planes: independent normals, common point the origin, nothing returned. -/
example : intersect3 (⟨0, 0, 0⟩ : V3 ℚ) ⟨1, 0, 0⟩ ⟨0, 0, 0⟩ ⟨0, 1, 0⟩ ⟨0, 0, 0⟩ ⟨0, 0, 1⟩ = none :=
  C43_three_planes_refuted _ _ _ _ _ _ rfl rfl

/-- In another order they are intersected. -/
example : intersect3 (⟨0, 2, 0⟩ : V3 ℚ) ⟨0, 1, 0⟩ ⟨0, 0, 3⟩ ⟨0, 0, 1⟩ ⟨1, 0, 0⟩ ⟨1, 0, 0⟩ =
    some ⟨1, 2, 3⟩ := by decide +kernel

theorem kkt_iff (o1 n1 o2 n2 : V3 K) (x : Nat → K) :
    Sol 5 (kktMatrix n1 n2) (fun r => match r with
      | 3 => dot o1 n1 | 4 => dot o2 n2 | r => comp o1 r) x ↔
    (2 * x 0 + n1.x * x 3 + n2.x * x 4 = o1.x ∧ 2 * x 1 + n1.y * x 3 + n2.y * x 4 = o1.y ∧
     2 * x 2 + n1.z * x 3 + n2.z * x 4 = o1.z ∧
     n1.x * x 0 + n1.y * x 1 + n1.z * x 2 = dot o1 n1 ∧
     n2.x * x 0 + n2.y * x 1 + n2.z * x 2 = dot o2 n2) := by
  constructor
  · intro h
    have h0 := h 0 (by omega)
    have h1 := h 1 (by omega)
    have h2 := h 2 (by omega)
    have h3 := h 3 (by omega)
    have h4 := h 4 (by omega)
    simp [sum_range_succ, comp, kktMatrix] at h0 h1 h2 h3 h4
    exact ⟨h0, h1, h2, h3, h4⟩
  · rintro ⟨h0, h1, h2, h3, h4⟩ r hr
    interval_cases r <;> simp [sum_range_succ, comp, kktMatrix] <;> assumption

/-- What is returned is a line on both planes: the direction is not zero and orthogonal to both
normals, the point is on both planes, and it is the point of the line closest to half the first
origin.

`_partial`: for non-parallel planes a line should be returned; `C43_two_planes_refuted`. -/
theorem C43_two_planes_partial (o1 n1 o2 n2 p d : V3 K)
    (h : intersect2 o1 n1 o2 n2 = some (p, d)) :
    d ≠ zero ∧ dot d n1 = 0 ∧ dot d n2 = 0 ∧
    (∀ t : K, OnPlane (p.add (smul t d)) o1 n1 ∧ OnPlane (p.add (smul t d)) o2 n2) ∧
    ∀ q, OnPlane q o1 n1 → OnPlane q o2 n2 →
      dot (p.sub (smul (1 / 2) o1)) (p.sub (smul (1 / 2) o1)) ≤
        dot (q.sub (smul (1 / 2) o1)) (q.sub (smul (1 / 2) o1)) := by
  rw [intersect2] at h
  obtain ⟨x, hx, he⟩ := Option.map_eq_some_iff.1 h
  cases he
  obtain ⟨h1, h2⟩ := solve_spec hx
  obtain ⟨e0, e1, e2, e3, e4⟩ := (kkt_iff o1 n1 o2 n2 x).1 h1
  have hd1 : dot (cross n1 n2) n1 = 0 := by simp only [dot, cross]; ring
  have hd2 : dot (cross n1 n2) n2 = 0 := by simp only [dot, cross]; ring
  refine ⟨?_, hd1, hd2, ?_, ?_⟩
  · -- parallel normals would give a second solution
    intro hz
    have hx0 : n1.y * n2.z - n1.z * n2.y = 0 := congrArg V3.x hz
    have hy0 : n1.z * n2.x - n1.x * n2.z = 0 := congrArg V3.y hz
    have hz0 : n1.x * n2.y - n1.y * n2.x = 0 := congrArg V3.z hz
    by_cases hn : n1 = zero
    · -- the fourth unknown is free
      have := h2 (fun j => if j = 3 then x 3 + 1 else x j) ((kkt_iff o1 n1 o2 n2 _).2 (by
        have a1 : n1.x = 0 := congrArg V3.x hn
        have a2 : n1.y = 0 := congrArg V3.y hn
        have a3 : n1.z = 0 := congrArg V3.z hn
        refine ⟨?_, ?_, ?_, ?_, ?_⟩ <;> simp only [reduceIte, Nat.reduceEqDiff, OfNat.zero_ne_ofNat,
          OfNat.one_ne_ofNat] <;> simp only [a1, a2, a3] at e0 e1 e2 e3 ⊢ <;>
          linarith)) 3 (by omega)
      simp at this
    · have hpos : 0 < dot n1 n1 := lt_of_le_of_ne (dot_self_nonneg n1)
        (fun h' => hn (dot_self_eq_zero.1 h'.symm))
      -- moving along (n1·n2, -n1·n1) in the multipliers changes nothing
      have := h2 (fun j => if j = 3 then x 3 + dot n1 n2 else if j = 4 then x 4 - dot n1 n1 else x j)
        ((kkt_iff o1 n1 o2 n2 _).2 (by
          have b1 : n1.x * dot n1 n2 - n2.x * dot n1 n1 = 0 := by
            simp only [dot]; linear_combination n1.y * hz0 - n1.z * hy0
          have b2 : n1.y * dot n1 n2 - n2.y * dot n1 n1 = 0 := by
            simp only [dot]; linear_combination n1.z * hx0 - n1.x * hz0
          have b3 : n1.z * dot n1 n2 - n2.z * dot n1 n1 = 0 := by
            simp only [dot]; linear_combination n1.x * hy0 - n1.y * hx0
          refine ⟨?_, ?_, ?_, ?_, ?_⟩ <;> simp only [reduceIte, Nat.reduceEqDiff,
            OfNat.zero_ne_ofNat, OfNat.one_ne_ofNat]
          · linear_combination e0 + b1
          · linear_combination e1 + b2
          · linear_combination e2 + b3
          · exact e3
          · exact e4)) 4 (by omega)
      simp at this
      exact hpos.ne' this
  · intro t
    rw [onPlane_iff, onPlane_iff]
    constructor
    · simp only [dot, add, smul, cross] at e3 ⊢
      linear_combination e3
    · simp only [dot, add, smul, cross] at e4 ⊢
      linear_combination e4
  · intro q hq1 hq2
    rw [onPlane_iff] at hq1 hq2
    simp only [dot, sub, smul] at hq1 hq2 e3 e4 ⊢
    have key : (q.x - x 0) * (2 * x 0 - o1.x) + (q.y - x 1) * (2 * x 1 - o1.y) +
        (q.z - x 2) * (2 * x 2 - o1.z) = 0 := by
      linear_combination (q.x - x 0) * e0 + (q.y - x 1) * e1 + (q.z - x 2) * e2 -
        x 3 * (hq1 - e3) - x 4 * (hq2 - e4)
    have s0 := mul_self_nonneg (q.x - x 0)
    have s1 := mul_self_nonneg (q.y - x 1)
    have s2 := mul_self_nonneg (q.z - x 2)
    nlinarith [key, s0, s1, s2]

/-- When neither normal has an `x` component nothing is returned: for every pair of planes parallel
to the x axis. -/
theorem C43_two_planes_refuted (o1 n1 o2 n2 : V3 K) (h1 : n1.x = 0) (h2 : n2.x = 0) :
    intersect2 o1 n1 o2 n2 = none := by
  have hp : ∀ m : Nat → Nat → K, m 2 0 = 0 → m 3 0 = 0 → m 4 0 = 0 → findMaxRow m 0 5 = 4 := by
    intro m hm2 hm3 hm4
    simp [findMaxRow, findMaxLoop, hm2, hm3, hm4]
  rw [intersect2, Option.map_eq_none_iff, solve, Option.bind_eq_none_iff]
  intro s hs
  rw [elim] at hs
  obtain ⟨s1, hs1, -⟩ := Option.bind_eq_some_iff.1 hs
  rw [elimStep_eq, hp _ (by simp [kktMatrix]) (by simpa [kktMatrix, comp] using h1)
    (by simpa [kktMatrix, comp] using h2), if_pos] at hs1
  · cases hs1
  · exact ⟨by omega, by simpa [swapIdx, kktMatrix, comp] using h2⟩

example : intersect2 (⟨0, 0, 0⟩ : V3 ℚ) ⟨0, 1, 0⟩ ⟨0, 0, 0⟩ ⟨0, 0, 1⟩ = none :=
  C43_two_planes_refuted _ _ _ _ rfl rfl

example : intersect2 (⟨1, 0, 0⟩ : V3 ℚ) ⟨1, 1, 0⟩ ⟨0, 1, 0⟩ ⟨2, 1, 1⟩ =
    some (⟨1 / 2, 1 / 2, -1 / 2⟩, ⟨1, -1, -1⟩) := by decide +kernel

/-! ## C97: the pivot search -/

/-- The search returns a row of the remaining block whose neighbours in the block are not larger. -/
theorem C97_local_max (m : Nat → Nat → K) (i n : Nat) (h : i < n) :
    i ≤ findMaxRow m i n ∧ findMaxRow m i n < n ∧
    (findMaxRow m i n + 1 < n → |m (findMaxRow m i n) i| > |m (findMaxRow m i n + 1) i|) ∧
    (i < findMaxRow m i n → |m (findMaxRow m i n - 1) i| ≤ |m (findMaxRow m i n) i|) := by
  obtain ⟨b1, b2⟩ := findMaxRow_bounds m h
  refine ⟨b1, b2, ?_⟩
  obtain ⟨h1, h2⟩ := findMaxLoop_peak m i n i (n - 1) (by omega) (by omega) _ rfl
  exact ⟨fun h' => h1 (by unfold findMaxRow at h'; omega), h2⟩

/-- On a column that first does not decrease and then strictly decreases, it is the largest entry.

`_partial`: on other columns it need not be, `C97_max_refuted`. -/
theorem C97_max_partial (m : Nat → Nat → K) (i n p : Nat) (h : i < n) (hp : i ≤ p ∧ p < n)
    (hup : ∀ r, i ≤ r → r < p → |m r i| < |m (r + 1) i|)
    (hdown : ∀ r, p ≤ r → r + 1 < n → |m (r + 1) i| < |m r i|) :
    ∀ r, i ≤ r → r < n → |m r i| ≤ |m (findMaxRow m i n) i| := by
  obtain ⟨b1, b2, h1, h2⟩ := C97_local_max m i n h
  have e : findMaxRow m i n = p := by
    rcases lt_trichotomy (findMaxRow m i n) p with hlt | heq | hgt
    · exact absurd (hup _ b1 hlt) (lt_asymm (h1 (by omega)))
    · exact heq
    · have := hdown (findMaxRow m i n - 1) (by omega) (by omega)
      rw [Nat.sub_add_cancel (by omega)] at this
      exact absurd (h2 (by omega)) (not_le.2 this)
  rw [e]
  have up : ∀ d r, r + d = p → i ≤ r → |m r i| ≤ |m p i| := by
    intro d
    induction d with
    | zero => intro r hr _; rw [show r = p by omega]
    | succ d ih =>
      intro r hr hir
      exact (hup r hir (by omega)).le.trans (ih (r + 1) (by omega) (by omega))
  have down : ∀ d, p + d < n → |m (p + d) i| ≤ |m p i| := by
    intro d
    induction d with
    | zero => intro _; exact le_rfl
    | succ d ih =>
      intro hd
      exact (hdown (p + d) (by omega) (by omega)).le.trans (ih (by omega))
  intro r hr hrn
  rcases Nat.lt_or_ge r p with h' | h'
  · exact up (p - r) r (by omega) hr
  · have := down (r - p) (by omega)
    rwa [Nat.add_sub_cancel' h'] at this

/-- First column of the identity: a zero entry is chosen. -/
theorem C97_max_refuted :
    findMaxRow (fun r c => if r = c then (1 : ℚ) else 0) 0 3 = 2 := by decide +kernel

example : findMaxRow (fun r _ => if r = 1 then (5 : ℚ) else if r = 2 then -3 else 1) 0 3 = 1 := by
  decide +kernel

/-! ## C44: local and world coordinates -/

/-- The axes are orthonormal. -/
structure Ortho (p : Plane K) : Prop where
  xx : dot p.x p.x = 1
  yy : dot p.y p.y = 1
  nn : dot p.n p.n = 1
  xy : dot p.x p.y = 0
  xn : dot p.x p.n = 0
  yn : dot p.y p.n = 0

/-- World after local: the identity, for orthonormal axes. -/
theorem C44_local_of_world (p : Plane K) (h : Ortho p) (q : V3 K) :
    inverseEvaluatePlane p (evaluatePlane p q) = q := by
  obtain ⟨hx, hy, hn, hxy, hxn, hyn⟩ := h
  simp only [dot] at hx hy hn hxy hxn hyn
  ext <;> simp only [inverseEvaluatePlane, evaluatePlane, dot, sub]
  · linear_combination q.x * hx + q.y * hxy + q.z * hxn
  · linear_combination q.x * hxy + q.y * hy + q.z * hyn
  · linear_combination q.x * hxn + q.y * hyn + q.z * hn

/-- The columns of a matrix with orthonormal rows are orthonormal. -/
theorem ortho_cols {p : Plane K} (h : Ortho p) (q : V3 K) :
    (smul (dot q p.x) p.x).add ((smul (dot q p.y) p.y).add (smul (dot q p.n) p.n)) = q := by
  obtain ⟨hx, hy, hn, hxy, hxn, hyn⟩ := h
  -- the rest is orthogonal to the three axes, whose determinant is not zero
  let w := q.sub ((smul (dot q p.x) p.x).add ((smul (dot q p.y) p.y).add (smul (dot q p.n) p.n)))
  have w1 : dot w p.x = 0 := by
    simp only [w, dot, sub, add, smul] at hx hy hn hxy hxn hyn ⊢
    linear_combination -(q.x * p.x.x + q.y * p.x.y + q.z * p.x.z) * hx -
      (q.x * p.y.x + q.y * p.y.y + q.z * p.y.z) * hxy -
      (q.x * p.n.x + q.y * p.n.y + q.z * p.n.z) * hxn
  have w2 : dot w p.y = 0 := by
    simp only [w, dot, sub, add, smul] at hx hy hn hxy hxn hyn ⊢
    linear_combination -(q.x * p.x.x + q.y * p.x.y + q.z * p.x.z) * hxy -
      (q.x * p.y.x + q.y * p.y.y + q.z * p.y.z) * hy -
      (q.x * p.n.x + q.y * p.n.y + q.z * p.n.z) * hyn
  have w3 : dot w p.n = 0 := by
    simp only [w, dot, sub, add, smul] at hx hy hn hxy hxn hyn ⊢
    linear_combination -(q.x * p.x.x + q.y * p.x.y + q.z * p.x.z) * hxn -
      (q.x * p.y.x + q.y * p.y.y + q.z * p.y.z) * hyn -
      (q.x * p.n.x + q.y * p.n.y + q.z * p.n.z) * hn
  have hdet : dot (cross p.x p.y) p.n * dot (cross p.x p.y) p.n = 1 := by
    have e : dot (cross p.x p.y) p.n * dot (cross p.x p.y) p.n =
        dot p.x p.x * (dot p.y p.y * dot p.n p.n - dot p.y p.n * dot p.y p.n) -
        dot p.x p.y * (dot p.x p.y * dot p.n p.n - dot p.y p.n * dot p.x p.n) +
        dot p.x p.n * (dot p.x p.y * dot p.y p.n - dot p.y p.y * dot p.x p.n) := by
      simp only [dot, cross]; ring
    rw [e, hx, hy, hn, hxy, hxn, hyn]; ring
  have hne : dot (cross p.x p.y) p.n ≠ 0 := by
    intro h0; rw [h0] at hdet; simp at hdet
  have wz : w = zero := by
    have c1 : dot (cross p.x p.y) p.n * w.x = 0 := by
      simp only [dot, cross] at w1 w2 w3 ⊢
      linear_combination (p.y.y * p.n.z - p.y.z * p.n.y) * w1 +
        (p.n.y * p.x.z - p.n.z * p.x.y) * w2 + (p.x.y * p.y.z - p.x.z * p.y.y) * w3
    have c2 : dot (cross p.x p.y) p.n * w.y = 0 := by
      simp only [dot, cross] at w1 w2 w3 ⊢
      linear_combination (p.y.z * p.n.x - p.y.x * p.n.z) * w1 +
        (p.n.z * p.x.x - p.n.x * p.x.z) * w2 + (p.x.z * p.y.x - p.x.x * p.y.z) * w3
    have c3 : dot (cross p.x p.y) p.n * w.z = 0 := by
      simp only [dot, cross] at w1 w2 w3 ⊢
      linear_combination (p.y.x * p.n.y - p.y.y * p.n.x) * w1 +
        (p.n.x * p.x.y - p.n.y * p.x.x) * w2 + (p.x.x * p.y.y - p.x.y * p.y.x) * w3
    ext
    · exact (mul_eq_zero.1 c1).resolve_left hne
    · exact (mul_eq_zero.1 c2).resolve_left hne
    · exact (mul_eq_zero.1 c3).resolve_left hne
  have wx : w.x = 0 := congrArg V3.x wz
  have wy : w.y = 0 := congrArg V3.y wz
  have wzz : w.z = 0 := congrArg V3.z wz
  simp only [w, sub] at wx wy wzz
  ext
  · linarith
  · linarith
  · linarith

/-- Local after world: the identity, for orthonormal axes. -/
theorem C44_world_of_local (p : Plane K) (h : Ortho p) (q : V3 K) :
    evaluatePlane p (inverseEvaluatePlane p q) = q := by
  have := ortho_cols h (q.sub p.o)
  have hx := congrArg V3.x this
  have hy := congrArg V3.y this
  have hz := congrArg V3.z this
  ext <;> simp only [inverseEvaluatePlane, evaluatePlane, sub, add, smul] at hx hy hz ⊢ <;> linarith

/-- Distances are kept. -/
theorem C44_isometry (p : Plane K) (h : Ortho p) (q r : V3 K) :
    dot ((evaluatePlane p q).sub (evaluatePlane p r)) ((evaluatePlane p q).sub (evaluatePlane p r)) =
      dot (q.sub r) (q.sub r) := by
  obtain ⟨hx, hy, hn, hxy, hxn, hyn⟩ := h
  simp only [dot, sub, evaluatePlane] at hx hy hn hxy hxn hyn ⊢
  linear_combination (q.x - r.x) ^ 2 * hx + (q.y - r.y) ^ 2 * hy + (q.z - r.z) ^ 2 * hn +
    2 * (q.x - r.x) * (q.y - r.y) * hxy + 2 * (q.x - r.x) * (q.z - r.z) * hxn +
    2 * (q.y - r.y) * (q.z - r.z) * hyn

/-- Without orthonormal axes it is not the identity. -/
theorem C44_scaled_refuted : ∃ (p : Plane ℚ) (q : V3 ℚ),
    dot p.x p.y = 0 ∧ dot p.x p.n = 0 ∧ dot p.y p.n = 0 ∧
    inverseEvaluatePlane p (evaluatePlane p q) ≠ q :=
  ⟨⟨zero, ⟨2, 0, 0⟩, ⟨0, 1, 0⟩, ⟨0, 0, 1⟩⟩, ⟨1, 0, 0⟩, by decide +kernel⟩

example : Ortho (⟨⟨1, 2, 3⟩, ⟨3 / 5, 4 / 5, 0⟩, ⟨-4 / 5, 3 / 5, 0⟩, ⟨0, 0, 1⟩⟩ : Plane ℚ) := by
  constructor <;> decide +kernel

end Verif.Vec
