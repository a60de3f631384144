import Verif.Aabb.Lemmas
import Mathlib.Algebra.Order.Field.Rat
import Mathlib.Tactic.NormNum

/-! # C17-C19: axis-aligned boxes -/

namespace Verif.Aabb
variable {K : Type}

/-- Specification: `x` lies in the closed box, looking at the first `d` coordinates. -/
def InBox [LE K] (d : Nat) (b : Box K) (x : Pt K) : Prop := ∀ i, i < d → b.lo i ≤ x i ∧ x i ≤ b.hi i

/-- Specification: the corners are in order. -/
def Proper [LE K] (d : Nat) (b : Box K) : Prop := ∀ i, i < d → b.lo i ≤ b.hi i

/-- Helper to write points in examples. -/
def pt (xs : List ℚ) : Pt ℚ := fun i => xs.getD i 0

/-- **C17.** For every non-empty list of points with at most three columns, `aabb` returns a box that contains every
point, lies inside every box that contains every point, and is 0 in the columns the points do not have. -/
theorem C17_aabb_smallest [LinearOrder K] [Zero K] (d : Nat) (hd : d ≤ 3) (pts : List (Pt K)) (hne : pts ≠ []) :
    ∃ b, aabb d pts = some b ∧ (∀ p ∈ pts, InBox d b p) ∧
      (∀ c : Box K, (∀ p ∈ pts, InBox d c p) → ∀ x, InBox d b x → InBox d c x) ∧
      ∀ i, d ≤ i → b.lo i = 0 ∧ b.hi i = 0 := by
  cases pts with
  | nil => exact absurd rfl hne
  | cons p0 ps =>
    refine ⟨ps.foldl (fun b p => (List.range d).foldl (coordStep p) b)
        ((List.range d).foldl (fun (b : Box K) i => ⟨upd b.lo i (p0 i), upd b.hi i (p0 i)⟩) ⟨fun _ => 0, fun _ => 0⟩),
      by simp only [aabb, hd, if_true, caabb], ?_, ?_, ?_⟩
    · intro p hp i hi
      obtain ⟨h1, _⟩ := foldl_pts d ps ((List.range d).foldl (fun (b : Box K) i => ⟨upd b.lo i (p0 i), upd b.hi i (p0 i)⟩)
        ⟨fun _ => 0, fun _ => 0⟩) i
      obtain ⟨f1, f2⟩ := foldl_init p0 (List.range d) ⟨fun _ => 0, fun _ => 0⟩ i
      obtain ⟨a1, a2, a3, _, _⟩ := h1 hi
      simp only [List.mem_range, if_pos hi] at f1 f2
      rw [f1] at a1
      rw [f2] at a2
      rcases List.mem_cons.1 hp with rfl | hp
      · exact ⟨a1, a2⟩
      · exact a3 p hp
    · intro c hc x hx i hi
      obtain ⟨h1, _⟩ := foldl_pts d ps ((List.range d).foldl (fun (b : Box K) i => ⟨upd b.lo i (p0 i), upd b.hi i (p0 i)⟩)
        ⟨fun _ => 0, fun _ => 0⟩) i
      obtain ⟨f1, f2⟩ := foldl_init p0 (List.range d) ⟨fun _ => 0, fun _ => 0⟩ i
      obtain ⟨_, _, _, a4, a5⟩ := h1 hi
      simp only [List.mem_range, if_pos hi] at f1 f2
      rw [f1] at a4
      rw [f2] at a5
      have hx' := hx i hi
      refine ⟨le_trans (a4 _ (hc p0 List.mem_cons_self i hi).1
          (fun p hp => (hc p (List.mem_cons_of_mem _ hp) i hi).1)) hx'.1,
        hx'.2.trans (a5 _ (hc p0 List.mem_cons_self i hi).2 (fun p hp => (hc p (List.mem_cons_of_mem _ hp) i hi).2))⟩
    · intro i hi
      obtain ⟨_, h2⟩ := foldl_pts d ps ((List.range d).foldl (fun (b : Box K) i => ⟨upd b.lo i (p0 i), upd b.hi i (p0 i)⟩)
        ⟨fun _ => 0, fun _ => 0⟩) i
      obtain ⟨f1, f2⟩ := foldl_init p0 (List.range d) ⟨fun _ => 0, fun _ => 0⟩ i
      obtain ⟨a1, a2⟩ := h2 (by omega)
      have hn : ¬ i < d := by omega
      simp only [List.mem_range, if_neg hn] at f1 f2
      exact ⟨a1.trans f1, a2.trans f2⟩

example : ((aabb 2 [pt [3, 1], pt [-1, 5], pt [2, 2]]).map
    (fun b => (b.lo 0, b.lo 1, b.lo 2, b.hi 0, b.hi 1, b.hi 2))) = some (-1, 1, 0, 3, 5, 0) := by decide +kernel

/-- **C17 (segment).** The box of a segment contains exactly the points between the coordinates of its ends. -/
theorem C17_segment_box [LinearOrder K] (s e x : Pt K) :
    InBox 3 (caabbSegm3d s e) x ↔ ∀ i, i < 3 → (s i ≤ x i ∧ x i ≤ e i) ∨ (e i ≤ x i ∧ x i ≤ s i) := by
  unfold InBox caabbSegm3d
  refine forall_congr' fun i => imp_congr_right fun _ => ?_
  simp only [min_le_iff, le_max_iff]
  constructor
  · rintro ⟨h1 | h1, h2 | h2⟩
    · rcases le_total (x i) (e i) with h | h
      · exact .inl ⟨h1, h⟩
      · exact .inr ⟨h, h2⟩
    · exact .inl ⟨h1, h2⟩
    · exact .inr ⟨h1, h2⟩
    · rcases le_total (x i) (s i) with h | h
      · exact .inr ⟨h1, h⟩
      · exact .inl ⟨h, h2⟩
  · rintro (⟨h1, h2⟩ | ⟨h1, h2⟩)
    · exact ⟨.inl h1, .inr h2⟩
    · exact ⟨.inr h1, .inl h2⟩

example : InBox 3 (caabbSegm3d (pt [3, 1, 0]) (pt [-1, 5, 2])) (pt [0, 2, 1]) := by
  unfold InBox
  decide +kernel

/-- Two boxes have a common point exactly when they overlap in every coordinate. -/
theorem common_iff [LinearOrder K] (d : Nat) (a b : Box K) (ha : Proper d a) (hb : Proper d b) :
    (∃ x, InBox d a x ∧ InBox d b x) ↔ ∀ i, i < d → a.lo i ≤ b.hi i ∧ b.lo i ≤ a.hi i := by
  constructor
  · rintro ⟨x, h1, h2⟩ i hi
    exact ⟨(h1 i hi).1.trans (h2 i hi).2, (h2 i hi).1.trans (h1 i hi).2⟩
  · intro h
    refine ⟨fun i => max (a.lo i) (b.lo i), fun i hi => ⟨le_max_left _ _, max_le (ha i hi) (h i hi).2⟩,
      fun i hi => ⟨le_max_right _ _, max_le (h i hi).1 (hb i hi)⟩⟩

theorem lt3 {P : Nat → Prop} : (∀ i, i < 3 → P i) ↔ P 0 ∧ P 1 ∧ P 2 := by
  constructor
  · intro h; exact ⟨h 0 (by omega), h 1 (by omega), h 2 (by omega)⟩
  · rintro ⟨h0, h1, h2⟩ i hi
    match i, hi with
    | 0, _ => exact h0
    | 1, _ => exact h1
    | 2, _ => exact h2

theorem lt2 {P : Nat → Prop} : (∀ i, i < 2 → P i) ↔ P 0 ∧ P 1 := by
  constructor
  · intro h; exact ⟨h 0 (by omega), h 1 (by omega)⟩
  · rintro ⟨h0, h1⟩ i hi
    match i, hi with
    | 0, _ => exact h0
    | 1, _ => exact h1

theorem intersect3d_iff [LinearOrder K] (a b : Box K) :
    intersect3d a b = true ↔ ∀ i, i < 3 → a.lo i ≤ b.hi i ∧ b.lo i ≤ a.hi i := by
  rw [lt3]
  simp only [intersect3d, ge_iff_le, Bool.and_eq_true, decide_eq_true_eq]
  tauto

/-- **C18.** For well-formed boxes of any dimension `d ≥ 1`, `aabb_intersect` answers true exactly when some point lies
in both; for three columns the same holds for `aabb_intersect_fast_3d` and `aabb_overlap`, for two for `aabb_overlap`. -/
theorem C18_intersect_iff_common [LinearOrder K] (d : Nat) (hd : 0 < d) (a b : Box K) (ha : Proper d a) (hb : Proper d b) :
    (∃ r, aabbIntersect d a b = some r ∧ (r = true ↔ ∃ x, InBox d a x ∧ InBox d b x)) ∧
    (d = 3 → (intersect3d a b = true ↔ ∃ x, InBox d a x ∧ InBox d b x)) ∧
    (d = 2 → (overlap2d a b = true ↔ ∃ x, InBox d a x ∧ InBox d b x)) := by
  rw [common_iff d a b ha hb]
  refine ⟨?_, ?_, ?_⟩
  · unfold aabbIntersect
    by_cases h3 : d = 3
    · subst h3
      exact ⟨_, if_pos rfl, intersect3d_iff a b⟩
    · rw [if_neg h3]
      obtain ⟨r, e, h⟩ := intersectLoop_iff a b (List.range d) none (by
        intro h; have := congrArg List.length h; simp at this; omega)
      refine ⟨r, e, h.trans ?_⟩
      constructor
      · rintro ⟨h1, _⟩ i hi
        exact h1 i (List.mem_range.2 hi)
      · intro h1
        refine ⟨fun i hi => h1 i (List.mem_range.1 hi), fun h => ?_⟩
        have := congrArg List.length h; simp at this; omega
  · rintro rfl
    exact intersect3d_iff a b
  · rintro rfl
    rw [lt2]
    simp only [overlap2d, ge_iff_le, Bool.and_eq_true, decide_eq_true_eq]
    tauto

/-- Touching boxes overlap, separated ones do not. -/
example : aabbIntersect 2 ⟨pt [0, 0], pt [1, 1]⟩ ⟨pt [1, 1], pt [2, 2]⟩ = some true ∧
    aabbIntersect 3 ⟨pt [0, 0, 0], pt [1, 1, 1]⟩ ⟨pt [0, 0, 2], pt [2, 2, 3]⟩ = some false := by decide +kernel

/-- **C18 (symmetry).** -/
theorem C18_intersect_symm [LinearOrder K] (a b : Box K) : intersect3d a b = intersect3d b a := by
  rw [Bool.eq_iff_iff, intersect3d_iff, intersect3d_iff]
  exact forall_congr' fun i => imp_congr_right fun _ => and_comm

/-- **C18 (common part).** `aabb_intersection` returns `None` exactly when the boxes have no common point, and
otherwise a box with exactly the common points. -/
theorem C18_intersection_box [LinearOrder K] (a b : Box K) (ha : Proper 3 a) (hb : Proper 3 b) :
    (aabbIntersection a b = none ↔ ¬ ∃ x, InBox 3 a x ∧ InBox 3 b x) ∧
    ∀ c, aabbIntersection a b = some c → ∀ x, InBox 3 c x ↔ InBox 3 a x ∧ InBox 3 b x := by
  constructor
  · rw [common_iff 3 a b ha hb, lt3]
    have h0 := ha 0 (by omega); have h1 := ha 1 (by omega); have h2 := ha 2 (by omega)
    have g0 := hb 0 (by omega); have g1 := hb 1 (by omega); have g2 := hb 2 (by omega)
    have key : ∀ {l1 l2 u1 u2 : K}, l1 ≤ u1 → l2 ≤ u2 → (max l1 l2 > min u1 u2 ↔ ¬ (l1 ≤ u2 ∧ l2 ≤ u1)) := by
      intro l1 l2 u1 u2 h g
      rw [gt_iff_lt, ← not_le, max_le_iff, le_min_iff, le_min_iff]
      tauto
    unfold aabbIntersection
    dsimp only
    split
    · rename_i h
      rw [key h0 g0, key h1 g1, key h2 g2] at h
      simp only [true_iff]; tauto
    · rename_i h
      rw [key h0 g0, key h1 g1, key h2 g2] at h
      simp only [reduceCtorEq, false_iff]; tauto
  · intro c hc x
    unfold aabbIntersection at hc
    dsimp only at hc
    split at hc
    · cases hc
    · cases hc
      simp only [InBox]
      rw [lt3, lt3, lt3]
      simp only [if_true, one_ne_zero, if_false, OfNat.ofNat_ne_zero, OfNat.ofNat_ne_one, max_le_iff, le_min_iff]
      tauto

example : (aabbIntersection ⟨pt [0, 0, 0], pt [2, 2, 2]⟩ ⟨pt [1, 1, 1], pt [3, 3, 3]⟩).map
    (fun c => (c.lo 0, c.hi 0)) = some (1, 2) := by decide +kernel

/-- `point_in_aabb` is the specification for two or three columns. -/
theorem C18_point_in_aabb [LinearOrder K] (d : Nat) (hd : d = 2 ∨ d = 3) (b : Box K) (p : Pt K) :
    pointInAabb d b p = true ↔ InBox d b p := by
  unfold InBox
  rcases hd with rfl | rfl
  · rw [lt2]; simp only [pointInAabb, if_true, decide_eq_true_eq]; tauto
  · rw [lt3]; simp only [pointInAabb, OfNat.ofNat_eq_ofNat, decide_eq_true_eq]
    rw [if_neg (by decide)]
    simp only [decide_eq_true_eq]
    tauto

/-! ## C19 -/

variable [Field K] [LinearOrder K] [IsStrictOrderedRing K]

/-- The point of the line at parameter `t`. -/
def at' (s e : Pt K) (t : K) : Pt K := fun i => s i + (e i - s i) * t

/-- `x` lies on the segment from `p` to `q` (three coordinates). -/
def OnSegment (p q x : Pt K) : Prop := ∃ t, 0 ≤ t ∧ t ≤ 1 ∧ ∀ i, i < 3 → x i = p i + (q i - p i) * t

theorem mem012 {P : Nat → Prop} : (∀ i ∈ [0, 1, 2], P i) ↔ ∀ i, i < 3 → P i := by
  rw [lt3]; simp

/-- **C19 (segment parameters).** For a well-formed box and a segment none of whose direction components lies strictly
between 0 and the tolerance in size, `segment_aabb_intersect` returns nothing exactly when no point of the segment is in
the box, and otherwise the exact parameter interval. -/
theorem C19_segment_exact (tol : K) (htol : 0 < tol) (b : Box K) (hb : Proper 3 b) (s e : Pt K)
    (hd : ∀ i, i < 3 → e i - s i = 0 ∨ tol ≤ |e i - s i|) :
    (segmentAabb tol b s e = none → ∀ t, 0 ≤ t → t ≤ 1 → ¬ InBox 3 b (at' s e t)) ∧
    ∀ t0 t1, segmentAabb tol b s e = some (t0, t1) → 0 ≤ t0 ∧ t0 ≤ t1 ∧ t1 ≤ 1 ∧
      ∀ t, 0 ≤ t → t ≤ 1 → (InBox 3 b (at' s e t) ↔ t0 ≤ t ∧ t ≤ t1) := by
  obtain ⟨h1, h2⟩ := slabLoop_exact tol htol b s (fun i => e i - s i) [0, 1, 2] 0 1 (mem012.2 hd) (mem012.2 hb)
  obtain ⟨e1, _⟩ := segmentAabb_eq tol b s e (fun x y h => by
    obtain ⟨a1, a2, a3, _⟩ := h1 x y h
    exact ⟨a1 zero_le_one, a2, a3⟩)
  rw [e1]
  refine ⟨fun h t ht0 ht1 hin => h2 h t ⟨⟨ht0, ht1⟩, mem012.2 hin⟩, fun t0 t1 h => ?_⟩
  obtain ⟨a1, a2, a3, a4⟩ := h1 t0 t1 h
  refine ⟨a2, a1 zero_le_one, a3, fun t ht0 ht1 => ?_⟩
  rw [a4 t, mem012]
  exact ⟨fun h => ⟨⟨ht0, ht1⟩, h⟩, fun h => h.2⟩

/-- A segment that enters and leaves, with one axis parallel to the box. -/
example : segmentAabb (1 / 1000) ⟨pt [0, 0, 0], pt [2, 2, 2]⟩ (pt [-2, 1, 0]) (pt [6, 1, 4]) = some (1 / 4, 1 / 2) := by
  decide +kernel

/-- **C19 (segment clip).** Under the same conditions `segment_aabb_clip` returns a segment with exactly the points of
the input segment that lie in the box, and nothing when there are none. -/
theorem C19_clip_exact (tol : K) (htol : 0 < tol) (b : Box K) (hb : Proper 3 b) (s e : Pt K)
    (hd : ∀ i, i < 3 → e i - s i = 0 ∨ tol ≤ |e i - s i|) :
    (segmentClip tol b s e = none → ∀ x, OnSegment s e x → ¬ InBox 3 b x) ∧
    ∀ p q, segmentClip tol b s e = some (p, q) → ∀ x, (OnSegment s e x ∧ InBox 3 b x) ↔ OnSegment p q x := by
  obtain ⟨h1, h2⟩ := slabLoop_exact tol htol b s (fun i => e i - s i) [0, 1, 2] 0 1 (mem012.2 hd) (mem012.2 hb)
  obtain ⟨e1, e2⟩ := segmentAabb_eq tol b s e (fun x y h => by
    obtain ⟨a1, a2, a3, _⟩ := h1 x y h
    exact ⟨a1 zero_le_one, a2, a3⟩)
  obtain ⟨c1, c2⟩ := C19_segment_exact tol htol b hb s e hd
  have transfer : ∀ (x : Pt K) (t : K), (∀ i, i < 3 → x i = s i + (e i - s i) * t) → (InBox 3 b x ↔ InBox 3 b (at' s e t)) := by
    intro x t hx
    refine forall_congr' fun i => forall_congr' fun hi => ?_
    rw [hx i hi]; rfl
  rw [e2]
  cases hs : segmentAabb tol b s e with
  | none =>
    refine ⟨fun _ x hx hin => ?_, fun p q h => by simp at h⟩
    obtain ⟨t, ht0, ht1, hx⟩ := hx
    exact c1 hs t ht0 ht1 ((transfer x t hx).1 hin)
  | some pr =>
    obtain ⟨t0, t1⟩ := pr
    obtain ⟨b1, b2, b3, b4⟩ := c2 t0 t1 hs
    refine ⟨fun h => by simp at h, fun p q h x => ?_⟩
    simp only [Option.map_some, Option.some.injEq, Prod.mk.injEq] at h
    obtain ⟨rfl, rfl⟩ := h
    constructor
    · rintro ⟨⟨t, ht0, ht1, hx⟩, hin⟩
      obtain ⟨l, r⟩ := (b4 t ht0 ht1).1 ((transfer x t hx).1 hin)
      rcases b2.lt_or_eq with hlt | heq
      · have hpos : 0 < t1 - t0 := sub_pos.2 hlt
        refine ⟨(t - t0) / (t1 - t0), div_nonneg (sub_nonneg.2 l) hpos.le, ?_, fun i hi => ?_⟩
        · rw [div_le_one hpos]; linarith
        · rw [hx i hi]; field_simp; ring
      · have : t = t0 := le_antisymm (heq ▸ r) l
        subst this
        exact ⟨0, le_rfl, zero_le_one, fun i hi => by rw [hx i hi]; ring⟩
    · rintro ⟨u, hu0, hu1, hx⟩
      have hd0 : 0 ≤ t1 - t0 := sub_nonneg.2 b2
      have k1 := mul_nonneg hd0 hu0
      have k2 := mul_le_mul_of_nonneg_left hu1 hd0
      have hx' : ∀ i, i < 3 → x i = s i + (e i - s i) * (t0 + (t1 - t0) * u) := fun i hi => by rw [hx i hi]; ring
      have r0 : 0 ≤ t0 + (t1 - t0) * u := by linarith
      have r1 : t0 + (t1 - t0) * u ≤ 1 := by linarith
      refine ⟨⟨_, r0, r1, hx'⟩, (transfer x _ hx').2 ((b4 _ r0 r1).2 ⟨by linarith, by linarith⟩)⟩

example : (segmentClip (1 / 1000) ⟨pt [0, 0, 0], pt [2, 2, 2]⟩ (pt [-2, 1, 0]) (pt [6, 1, 4])).map
    (fun s => (s.1 0, s.1 2, s.2 0, s.2 2)) = some (0, 1, 2, 2) := by decide +kernel

/-- The box grown by `r` on every side (shrunk for negative `r`). -/
def grow (b : Box K) (r : K) : Box K := ⟨fun i => b.lo i - r, fun i => b.hi i + r⟩

/-- **C19 (segment, any direction).** Without the condition on the direction the answer is right up to the tolerance:
every reported parameter gives a point of the box grown by `tol`, and every parameter whose point is in the box shrunk by
`tol` is reported. -/
theorem C19_segment_within_tol (tol : K) (htol : 0 < tol) (b : Box K) (hb : Proper 3 b) (s e : Pt K) :
    (segmentAabb tol b s e = none → ∀ t, 0 ≤ t → t ≤ 1 → ¬ InBox 3 (grow b (-tol)) (at' s e t)) ∧
    ∀ t0 t1, segmentAabb tol b s e = some (t0, t1) → 0 ≤ t0 ∧ t0 ≤ t1 ∧ t1 ≤ 1 ∧
      (∀ t, t0 ≤ t → t ≤ t1 → InBox 3 (grow b tol) (at' s e t)) ∧
      ∀ t, 0 ≤ t → t ≤ 1 → InBox 3 (grow b (-tol)) (at' s e t) → t0 ≤ t ∧ t ≤ t1 := by
  obtain ⟨h1, h2⟩ := slabLoop_tol tol htol b s (fun i => e i - s i) [0, 1, 2] 0 1 le_rfl le_rfl (mem012.2 hb)
  obtain ⟨e1, _⟩ := segmentAabb_eq tol b s e (fun x y h => by
    obtain ⟨a1, a2, a3, _⟩ := h1 x y h
    exact ⟨a1 zero_le_one, a2, a3⟩)
  have shrink : ∀ x : Pt K, InBox 3 (grow b (-tol)) x → ∀ i ∈ [0, 1, 2], b.lo i + tol ≤ x i ∧ x i ≤ b.hi i - tol := by
    intro x hx
    refine mem012.2 fun i hi => ?_
    have := hx i hi
    simp only [grow, sub_neg_eq_add, ← sub_eq_add_neg] at this
    exact this
  rw [e1]
  refine ⟨fun h t ht0 ht1 hin => h2 h t ⟨⟨ht0, ht1⟩, shrink _ hin⟩, fun t0 t1 h => ?_⟩
  obtain ⟨a1, a2, a3, a4⟩ := h1 t0 t1 h
  refine ⟨a2, a1 zero_le_one, a3, fun t hl hr => ?_, fun t ht0 ht1 hin => ?_⟩
  · exact mem012.1 ((a4 t).1 ⟨hl, hr⟩).2
  · exact (a4 t).2 ⟨⟨ht0, ht1⟩, shrink _ hin⟩

/-- The full ray claim: the two numbers returned delimit parameters of points in the box. -/
def RayClaim (b : Box ℚ) (o d : Pt ℚ) : Prop :=
  ∀ t0 t1, rayAabb (1 / 10 ^ 15) (10 ^ 300) b o d = some (t0, t1) → t0 ≤ t1

/-- **C19 (refuted, ray).** Only the far parameter is clamped to 1, so a box that starts beyond parameter 1 is reported
as the reversed pair `[5, 1]`: neither is in order, nor is the point at 1 in the box. -/
theorem C19_ray_clamp_refuted : ¬ RayClaim ⟨pt [5, -1, -1], pt [6, 1, 1]⟩ (pt [0, 0, 0]) (pt [1, 0, 0]) := by
  intro h
  have := h 5 1 (by decide +kernel)
  norm_num at this

/-- **C19 (partial, ray).** When `ray_aabb_intersect` reports a pair in order, it is the exact set of parameters in
`[0,1]` whose points are in the box; a reversed pair means there is none; `None` means no parameter in `[0, huge]` is in
the box.  Missing compared with the full claim: reversed pairs do occur (refuted above). -/
theorem C19_ray_partial (tol huge : K) (htol : 0 < tol) (hh : 1 ≤ huge) (b : Box K) (hb : Proper 3 b) (o d : Pt K)
    (hd : ∀ i, i < 3 → d i = 0 ∨ tol ≤ |d i|) :
    (rayAabb tol huge b o d = none → ∀ t, 0 ≤ t → t ≤ huge → ¬ InBox 3 b (fun i => o i + d i * t)) ∧
    ∀ t0 t1, rayAabb tol huge b o d = some (t0, t1) → 0 ≤ t0 ∧ t1 ≤ 1 ∧
      ∀ t, 0 ≤ t → t ≤ 1 → (InBox 3 b (fun i => o i + d i * t) ↔ t0 ≤ t ∧ t ≤ t1) := by
  obtain ⟨h1, h2⟩ := slabLoop_exact tol htol b o d [0, 1, 2] (-huge) huge (mem012.2 hd) (mem012.2 hb)
  unfold rayAabb rayRaw
  cases hs : slabLoop tol b o d [0, 1, 2] (-huge) huge with
  | none =>
    dsimp only
    have hneg : ¬ ((-1 : K) ≥ 0) := by rw [ge_iff_le, not_le]; linarith
    rw [if_neg hneg]
    refine ⟨fun _ t ht0 ht1 hin => h2 hs t ⟨⟨by linarith, ht1⟩, mem012.2 hin⟩, fun t0 t1 h => (by cases h)⟩
  | some p =>
    obtain ⟨x, y⟩ := p
    obtain ⟨a1, a2, a3, a4⟩ := h1 x y hs
    have a1 := a1 (by linarith)
    dsimp only
    have hneg : ¬ ((-1 : K) ≥ 0) := by rw [ge_iff_le, not_le]; linarith
    have hin : ∀ t, 0 ≤ t → t ≤ huge → (InBox 3 b (fun i => o i + d i * t) ↔ x ≤ t ∧ t ≤ y) := by
      intro t ht0 ht1
      rw [a4 t, mem012]
      exact ⟨fun h => ⟨⟨by linarith, ht1⟩, h⟩, fun h => h.2⟩
    have main : ∀ r : K, r ≥ 0 → (if r ≥ 0 then some (if x ≤ 0 then 0 else x, if y ≥ 1 then 1 else y) else none) =
        some (if x ≤ 0 then 0 else x, if y ≥ 1 then 1 else y) := fun r hr => if_pos hr
    have fin : 0 ≤ y → ∀ t0 t1, some (if x ≤ 0 then (0 : K) else x, if y ≥ 1 then (1 : K) else y) = some (t0, t1) → 0 ≤ t0 ∧ t1 ≤ 1 ∧
        ∀ t, 0 ≤ t → t ≤ 1 → (InBox 3 b (fun i => o i + d i * t) ↔ t0 ≤ t ∧ t ≤ t1) := by
      intro hy t0 t1 h
      simp only [Option.some.injEq, Prod.mk.injEq] at h
      obtain ⟨rfl, rfl⟩ := h
      refine ⟨?_, ?_, ?_⟩
      · split
        · exact le_rfl
        · rename_i h; exact (not_le.1 h).le
      · split
        · exact le_rfl
        · rename_i h; exact (not_le.1 h).le
      · intro t ht0 ht1
        rw [hin t ht0 (ht1.trans hh)]
        refine and_congr ?_ ?_
        · split
          · rename_i h; exact ⟨fun _ => ht0, fun _ => h.trans ht0⟩
          · rfl
        · split
          · rename_i h; exact ⟨fun _ => ht1, fun _ => ht1.trans h⟩
          · rfl
    by_cases hy : y < 0
    · rw [if_pos hy]
      dsimp only
      rw [if_neg hneg]
      refine ⟨fun _ t ht0 ht1 h => ?_, fun t0 t1 h => (by cases h)⟩
      have := (hin t ht0 ht1).1 h
      linarith [this.2]
    · rw [if_neg hy]
      have hy' := not_lt.1 hy
      by_cases hx : x ≥ 0
      · rw [if_pos hx]
        dsimp only
        rw [main x hx]
        exact ⟨fun h => (by cases h), fin hy'⟩
      · rw [if_neg hx, if_pos hy']
        dsimp only
        rw [main y hy']
        exact ⟨fun h => (by cases h), fin hy'⟩

example : rayAabb (1 / 1000) 1000 ⟨pt [0, 0, 0], pt [2, 2, 2]⟩ (pt [-1, 1, 1]) (pt [2, 0, 0]) = some (1 / 2, 1) := by
  decide +kernel

end Verif.Aabb
