import Verif.Pip.Model
import Mathlib.Tactic.Ring
import Mathlib.Tactic.Linarith
import Mathlib.Tactic.LinearCombination
import Mathlib.Tactic.FieldSimp
import Mathlib.Tactic.SplitIfs

/-! Orientation, boxes, crossing of two segments. -/

set_option linter.unusedSectionVars false

namespace Verif.Pip
variable {K : Type} [Field K] [LinearOrder K]

/-- Twice the signed area of the triangle `a b c`: positive when `c` is on the left of the line from `a` to `b`. -/
def orient (a b c : K × K) : K := (b.1 - a.1) * (c.2 - a.2) - (b.2 - a.2) * (c.1 - a.1)

/-- The point `a + t (b - a)`. -/
def lerp (a b : K × K) (t : K) : K × K := (a.1 + t * (b.1 - a.1), a.2 + t * (b.2 - a.2))

/-- `x` lies on the segment from `a` to `b`. -/
def OnSegment (a b x : K × K) : Prop := ∃ t, 0 ≤ t ∧ t ≤ 1 ∧ x = lerp a b t

variable [IsStrictOrderedRing K]

theorem ccw_iff (a b c : K × K) : ccw a b c = true ↔ 0 < orient a b c := by
  unfold ccw orient
  rw [decide_eq_true_iff]
  constructor <;> intro h <;> linarith

theorem ccw_false_iff (a b c : K × K) : ccw a b c = false ↔ orient a b c ≤ 0 := by
  rw [← Bool.not_eq_true, ccw_iff, not_lt]

theorem orient_cycle (a b c : K × K) : orient b c a = orient a b c := by unfold orient; ring

theorem orient_swap (a b c : K × K) : orient b a c = -orient a b c := by unfold orient; ring

theorem orient_lerp (a b c d : K × K) (t : K) : orient a b (lerp c d t) = (1 - t) * orient a b c + t * orient a b d := by
  unfold orient lerp; ring

/-- The four orientations of two segments. -/
theorem orient_four (a b c d : K × K) : orient a b c - orient a b d = orient c d b - orient c d a := by unfold orient; ring

theorem aabb_two (a b : K × K) : aabb a [b] = ⟨(min a.1 b.1, min a.2 b.2), (max a.1 b.1, max a.2 b.2)⟩ := rfl

theorem lerp_between (x y t : K) (h0 : 0 ≤ t) (h1 : t ≤ 1) : min x y ≤ x + t * (y - x) ∧ x + t * (y - x) ≤ max x y := by
  rcases le_total x y with h | h
  · rw [min_eq_left h, max_eq_right h]
    constructor <;> nlinarith
  · rw [min_eq_right h, max_eq_left h]
    constructor <;> nlinarith

/-- Segments with a common point have overlapping boxes. -/
theorem overlap_of_common (a b c d x : K × K) (h1 : OnSegment a b x) (h2 : OnSegment c d x) :
    aabbOverlap (aabb a [b]) (aabb c [d]) = true := by
  obtain ⟨t, t0, t1, e1⟩ := h1
  obtain ⟨s, s0, s1, e2⟩ := h2
  have ex : a.1 + t * (b.1 - a.1) = c.1 + s * (d.1 - c.1) := by
    have := congrArg Prod.fst (e1.symm.trans e2); exact this
  have ey : a.2 + t * (b.2 - a.2) = c.2 + s * (d.2 - c.2) := by
    have := congrArg Prod.snd (e1.symm.trans e2); exact this
  have b1 := lerp_between a.1 b.1 t t0 t1
  have b2 := lerp_between a.2 b.2 t t0 t1
  have b3 := lerp_between c.1 d.1 s s0 s1
  have b4 := lerp_between c.2 d.2 s s0 s1
  rw [aabb_two, aabb_two]
  unfold aabbOverlap
  simp only [Bool.and_eq_true, decide_eq_true_eq, ge_iff_le]
  refine ⟨⟨⟨?_, ?_⟩, ?_⟩, ?_⟩
  · exact le_trans b1.1 (by rw [ex]; exact b3.2)
  · exact le_trans b3.1 (by rw [← ex]; exact b1.2)
  · exact le_trans b2.1 (by rw [ey]; exact b4.2)
  · exact le_trans b4.1 (by rw [← ey]; exact b2.2)

/-- If the ends of each segment are on different sides of the other (a point on the line counts as right), there is a
common point. -/
theorem common_of_sides (a b c d : K × K) (h1 : (0 < orient c d a) ≠ (0 < orient c d b))
    (h2 : (0 < orient a b c) ≠ (0 < orient a b d)) : ∃ x, OnSegment a b x ∧ OnSegment c d x := by
  have four := orient_four a b c d
  have hF : orient c d b - orient c d a ≠ 0 := by
    intro h
    apply h1
    rw [sub_eq_zero.mp h]
  have hs : ∀ u v : K, (0 < u) ≠ (0 < v) → v - u ≠ 0 → 0 ≤ -u / (v - u) ∧ -u / (v - u) ≤ 1 := by
    intro u v h hne
    by_cases hu : 0 < u
    · have hv : v ≤ 0 := by
        by_contra hv; apply h; simp [hu, not_le.mp hv]
      have hneg : v - u < 0 := by linarith
      constructor
      · exact div_nonneg_of_nonpos (by linarith) hneg.le
      · rw [div_le_one_of_neg hneg]; linarith
    · have hv : 0 < v := by
        by_contra hv; apply h; simp [hu, hv]
      have hpos : 0 < v - u := by linarith [not_lt.mp hu]
      constructor
      · exact div_nonneg (by linarith [not_lt.mp hu]) hpos.le
      · rw [div_le_one hpos]; linarith
  have t := hs _ _ h1 hF
  have hG : orient a b d - orient a b c ≠ 0 := by
    intro h; apply hF; linarith
  have s := hs _ _ h2 hG
  refine ⟨lerp a b (-orient c d a / (orient c d b - orient c d a)), ⟨_, t.1, t.2, rfl⟩, ⟨_, s.1, s.2, ?_⟩⟩
  have e : orient a b d - orient a b c = -(orient c d b - orient c d a) := by linarith
  rw [e]
  unfold lerp
  have hF' := hF
  unfold orient at hF' ⊢
  rw [Prod.mk.injEq]
  constructor
  · field_simp; ring
  · field_simp; ring

end Verif.Pip
