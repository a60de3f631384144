import Verif.ApiBox.Model
import Mathlib.Data.Rat.Defs
import Mathlib.Algebra.Order.Ring.Rat
import Mathlib.Tactic.Linarith

/-! # Bounding boxes of the API -/

set_option linter.unusedSectionVars false

namespace Verif.ApiBox

variable {K : Type} [LinearOrder K]

/-- The point is between the corners on every axis. -/
def In3 (p : P3 K) (b : B3 K) : Prop :=
  (b.min.x ≤ p.x ∧ p.x ≤ b.max.x) ∧ (b.min.y ≤ p.y ∧ p.y ≤ b.max.y) ∧ (b.min.z ≤ p.z ∧ p.z ≤ b.max.z)

/-- The point is between the corners on both axes. -/
def In2 (p : P2 K) (b : B2 K) : Prop :=
  (b.min.x ≤ p.x ∧ p.x ≤ b.max.x) ∧ (b.min.y ≤ p.y ∧ p.y ≤ b.max.y)

/-- The corners are in order. -/
def Valid3 (b : B3 K) : Prop := b.min.x ≤ b.max.x ∧ b.min.y ≤ b.max.y ∧ b.min.z ≤ b.max.z

/-- The corners are in order. -/
def Valid2 (b : B2 K) : Prop := b.min.x ≤ b.max.x ∧ b.min.y ≤ b.max.y

/-! ## C50 -/

/-- `contains` in the plane. -/
theorem C50_contains_plane (b : B2 K) (p : P2 K) : contains2 b p = true ↔ In2 p b := by
  simp only [contains2, In2, Bool.and_eq_true, decide_eq_true_eq, ge_iff_le]
  tauto

/-- `contains` in space accepts exactly the points whose first two coordinates are in range.

`_partial`: the third one is not looked at, `C50_contains_refuted`. -/
theorem C50_contains_partial (b : B3 K) (p : P3 K) :
    (In3 p b → contains3 b p = true) ∧
    (contains3 b p = true ↔ In2 ⟨p.x, p.y⟩ ⟨⟨b.min.x, b.min.y⟩, ⟨b.max.x, b.max.y⟩⟩) := by
  simp only [contains3, In2, In3, Bool.and_eq_true, decide_eq_true_eq, ge_iff_le]
  tauto

/-- Every box contains, according to `contains`, points above it. -/
theorem C50_contains_refuted (b : B3 K) (hv : Valid3 b) (z : K) (hz : b.max.z < z) :
    ∃ p, contains3 b p = true ∧ ¬ In3 p b := by
  refine ⟨⟨b.min.x, b.min.y, z⟩, ?_, ?_⟩
  · simp [contains3, hv.1, hv.2.1]
  · rintro ⟨-, -, -, h⟩
    exact absurd h (not_le.2 hz)

/-- `copy` exchanges the corners, so copying twice gives the box back.

`_partial`: one copy does not, `C50_copy_refuted`. -/
theorem C50_copy_partial (b : B3 K) (c : B2 K) :
    copy3 (copy3 b) = b ∧ copy2 (copy2 c) = c ∧
    (b.min = b.max → copy3 b = b) ∧ (c.min = c.max → copy2 c = c) := by
  refine ⟨rfl, rfl, ?_, ?_⟩
  · intro h; ext <;> simp [copy3, fromMinMax3, h]
  · intro h; ext <;> simp [copy2, fromMinMax2, h]

/-- A copy equals the box only if the box is a single point, and the copy of a box with some extent
contains no point at all. -/
theorem C50_copy_refuted (b : B3 K) :
    (copy3 b = b → b.min = b.max) ∧ (b.min.x < b.max.x → ∀ p, contains3 (copy3 b) p = false) := by
  constructor
  · intro h
    exact (congrArg B3.max h)
  · intro h p
    by_contra hc
    have hc : contains3 (copy3 b) p = true := by simpa using hc
    have := ((C50_contains_partial _ _).2.1 hc).1
    simp only [copy3, fromMinMax3] at this
    exact absurd (this.1.trans this.2) (not_le.2 h)

/-- The same in the plane. -/
theorem C50_copy_plane_refuted (b : B2 K) :
    (copy2 b = b → b.min = b.max) ∧ (b.min.x < b.max.x → ∀ p, contains2 (copy2 b) p = false) := by
  constructor
  · intro h
    exact (congrArg B2.max h)
  · intro h p
    by_contra hc
    have hc : contains2 (copy2 b) p = true := by simpa using hc
    have := ((C50_contains_plane _ _).1 hc).1
    simp only [copy2, fromMinMax2] at this
    exact absurd (this.1.trans this.2) (not_le.2 h)

/-- The result of `combine` contains both boxes and is inside every box that does. -/
theorem C50_combine (a b : B3 K) :
    (∀ p, In3 p a ∨ In3 p b → In3 p (combine3 a b)) ∧
    (Valid3 a → Valid3 b → ∀ c, (∀ p, In3 p a ∨ In3 p b → In3 p c) →
      ∀ p, In3 p (combine3 a b) → In3 p c) := by
  constructor
  · rintro p (h | h)
    all_goals
      simp only [In3, combine3, min_le_iff, le_max_iff] at h ⊢
      tauto
  · intro va vb c hc p hp
    obtain ⟨a1, a2, a3⟩ := va
    obtain ⟨b1, b2, b3⟩ := vb
    have h1 := hc a.min (Or.inl ⟨⟨le_rfl, a1⟩, ⟨le_rfl, a2⟩, ⟨le_rfl, a3⟩⟩)
    have h2 := hc a.max (Or.inl ⟨⟨a1, le_rfl⟩, ⟨a2, le_rfl⟩, ⟨a3, le_rfl⟩⟩)
    have h3 := hc b.min (Or.inr ⟨⟨le_rfl, b1⟩, ⟨le_rfl, b2⟩, ⟨le_rfl, b3⟩⟩)
    have h4 := hc b.max (Or.inr ⟨⟨b1, le_rfl⟩, ⟨b2, le_rfl⟩, ⟨b3, le_rfl⟩⟩)
    obtain ⟨⟨p1, p2⟩, ⟨p3, p4⟩, p5, p6⟩ := hp
    simp only [combine3] at p1 p2 p3 p4 p5 p6
    exact ⟨⟨(le_min h1.1.1 h3.1.1).trans p1, p2.trans (max_le h2.1.2 h4.1.2)⟩,
      ⟨(le_min h1.2.1.1 h3.2.1.1).trans p3, p4.trans (max_le h2.2.1.2 h4.2.1.2)⟩,
      (le_min h1.2.2.1 h3.2.2.1).trans p5, p6.trans (max_le h2.2.2.2 h4.2.2.2)⟩

/-- In the plane too. -/
theorem C50_combine_plane (a b : B2 K) :
    (∀ p, In2 p a ∨ In2 p b → In2 p (combine2 a b)) ∧
    (Valid2 a → Valid2 b → ∀ c, (∀ p, In2 p a ∨ In2 p b → In2 p c) →
      ∀ p, In2 p (combine2 a b) → In2 p c) := by
  constructor
  · rintro p (h | h)
    all_goals
      simp only [In2, combine2, min_le_iff, le_max_iff] at h ⊢
      tauto
  · intro va vb c hc p hp
    obtain ⟨a1, a2⟩ := va
    obtain ⟨b1, b2⟩ := vb
    have h1 := hc a.min (Or.inl ⟨⟨le_rfl, a1⟩, ⟨le_rfl, a2⟩⟩)
    have h2 := hc a.max (Or.inl ⟨⟨a1, le_rfl⟩, ⟨a2, le_rfl⟩⟩)
    have h3 := hc b.min (Or.inr ⟨⟨le_rfl, b1⟩, ⟨le_rfl, b2⟩⟩)
    have h4 := hc b.max (Or.inr ⟨⟨b1, le_rfl⟩, ⟨b2, le_rfl⟩⟩)
    obtain ⟨⟨p1, p2⟩, p3, p4⟩ := hp
    simp only [combine2] at p1 p2 p3 p4
    exact ⟨⟨(le_min h1.1.1 h3.1.1).trans p1, p2.trans (max_le h2.1.2 h4.1.2)⟩,
      (le_min h1.2.1 h3.2.1).trans p3, p4.trans (max_le h2.2.2 h4.2.2)⟩

/-- `expand` is `combine` with the box of one point. -/
theorem C50_expand (b : B3 K) (c : B2 K) (p : P3 K) (q : P2 K) :
    expand3 b p = combine3 b ⟨p, p⟩ ∧ expand2 c q = combine2 c ⟨q, q⟩ ∧ In3 p (expand3 b p) ∧
    In2 q (expand2 c q) := by
  refine ⟨rfl, rfl, ?_, ?_⟩
  · simp [In3, expand3]
  · simp [In2, expand2]

/-- `intersects` and `overlap` hold exactly when valid boxes share a point. -/
theorem C50_intersects (a b : B3 K) (va : Valid3 a) (vb : Valid3 b) :
    (intersects3 a b = true ↔ ∃ p, In3 p a ∧ In3 p b) ∧ overlap3 a b = intersects3 a b := by
  have key : (intersects3 a b = true ↔ (b.min.x ≤ a.max.x ∧ a.min.x ≤ b.max.x) ∧
      (b.min.y ≤ a.max.y ∧ a.min.y ≤ b.max.y) ∧ (b.min.z ≤ a.max.z ∧ a.min.z ≤ b.max.z)) := by
    simp only [intersects3, Bool.not_eq_true', Bool.or_eq_false_iff, decide_eq_false_iff_not, not_lt]
    tauto
  constructor
  · rw [key]
    obtain ⟨a1, a2, a3⟩ := va
    obtain ⟨b1, b2, b3⟩ := vb
    constructor
    · rintro ⟨⟨x1, x2⟩, ⟨y1, y2⟩, z1, z2⟩
      refine ⟨⟨max a.min.x b.min.x, max a.min.y b.min.y, max a.min.z b.min.z⟩, ?_, ?_⟩
      · exact ⟨⟨le_max_left _ _, max_le a1 x1⟩, ⟨le_max_left _ _, max_le a2 y1⟩,
          le_max_left _ _, max_le a3 z1⟩
      · exact ⟨⟨le_max_right _ _, max_le x2 b1⟩, ⟨le_max_right _ _, max_le y2 b2⟩,
          le_max_right _ _, max_le z2 b3⟩
    · rintro ⟨p, ⟨⟨p1, p2⟩, ⟨p3, p4⟩, p5, p6⟩, ⟨q1, q2⟩, ⟨q3, q4⟩, q5, q6⟩
      exact ⟨⟨q1.trans p2, p1.trans q2⟩, ⟨q3.trans p4, p3.trans q4⟩, q5.trans p6, p5.trans q6⟩
  · rw [Bool.eq_iff_iff, key]
    unfold overlap3
    split_ifs with c1 c2
    · simp only [gt_iff_lt, Bool.false_eq_true, false_iff] at c1 ⊢
      rintro ⟨⟨x1, x2⟩, ⟨y1, y2⟩, z1, z2⟩
      rcases c1 with c | c | c
      · exact absurd x1 (not_le.2 c)
      · exact absurd y1 (not_le.2 c)
      · exact absurd z1 (not_le.2 c)
    · simp only [gt_iff_lt, Bool.false_eq_true, false_iff] at c2 ⊢
      rintro ⟨⟨x1, x2⟩, ⟨y1, y2⟩, z1, z2⟩
      rcases c2 with c | c | c
      · exact absurd x2 (not_le.2 c)
      · exact absurd y2 (not_le.2 c)
      · exact absurd z2 (not_le.2 c)
    · push Not at c1 c2
      simp only [true_iff]
      exact ⟨⟨c1.1, c2.1⟩, ⟨c1.2.1, c2.2.1⟩, c1.2.2, c2.2.2⟩

/-- In the plane too. -/
theorem C50_intersects_plane (a b : B2 K) (va : Valid2 a) (vb : Valid2 b) :
    (intersects2 a b = true ↔ ∃ p, In2 p a ∧ In2 p b) ∧ overlap2 a b = intersects2 a b := by
  have key : (intersects2 a b = true ↔ (b.min.x ≤ a.max.x ∧ a.min.x ≤ b.max.x) ∧
      (b.min.y ≤ a.max.y ∧ a.min.y ≤ b.max.y)) := by
    simp only [intersects2, Bool.not_eq_true', Bool.or_eq_false_iff, decide_eq_false_iff_not, not_lt]
  constructor
  · rw [key]
    obtain ⟨a1, a2⟩ := va
    obtain ⟨b1, b2⟩ := vb
    constructor
    · rintro ⟨⟨x1, x2⟩, y1, y2⟩
      refine ⟨⟨max a.min.x b.min.x, max a.min.y b.min.y⟩, ?_, ?_⟩
      · exact ⟨⟨le_max_left _ _, max_le a1 x1⟩, le_max_left _ _, max_le a2 y1⟩
      · exact ⟨⟨le_max_right _ _, max_le x2 b1⟩, le_max_right _ _, max_le y2 b2⟩
    · rintro ⟨p, ⟨⟨p1, p2⟩, p3, p4⟩, ⟨q1, q2⟩, q3, q4⟩
      exact ⟨⟨q1.trans p2, p1.trans q2⟩, q3.trans p4, p3.trans q4⟩
  · rw [Bool.eq_iff_iff, key]
    unfold overlap2
    split_ifs with c1 c2
    · simp only [gt_iff_lt, Bool.false_eq_true, false_iff] at c1 ⊢
      rintro ⟨⟨x1, x2⟩, y1, y2⟩
      rcases c1 with c | c
      · exact absurd x1 (not_le.2 c)
      · exact absurd y1 (not_le.2 c)
    · simp only [gt_iff_lt, Bool.false_eq_true, false_iff] at c2 ⊢
      rintro ⟨⟨x1, x2⟩, y1, y2⟩
      rcases c2 with c | c
      · exact absurd x2 (not_le.2 c)
      · exact absurd y2 (not_le.2 c)
    · push Not at c1 c2
      simp only [true_iff]
      exact ⟨⟨c1.1, c2.1⟩, c1.2, c2.2⟩

example : Valid3 (⟨⟨0, 0, 0⟩, ⟨1, 2, 3⟩⟩ : B3 ℚ) ∧ Valid3 (⟨⟨1, 1, 1⟩, ⟨2, 2, 2⟩⟩ : B3 ℚ) := by
  norm_num [Valid3]

/-- The box of an array contains every point and is inside every box that does. -/
theorem C50_from_points (ps : List (P3 K)) (b : B3 K) (h : fromArray3 ps = some b) :
    (∀ p ∈ ps, In3 p b) ∧ (∀ c, (∀ p ∈ ps, In3 p c) → ∀ p, In3 p b → In3 p c) ∧ Valid3 b := by
  cases ps with
  | nil => cases h
  | cons p ps =>
    simp only [fromArray3, Option.some.injEq] at h
    subst h
    have gen : ∀ (ps : List (P3 K)) (b0 : B3 K), Valid3 b0 →
        (∀ p, In3 p b0 → In3 p (ps.foldl expand3 b0)) ∧ (∀ p ∈ ps, In3 p (ps.foldl expand3 b0)) ∧
        (∀ c, (∀ p, In3 p b0 → In3 p c) → (∀ p ∈ ps, In3 p c) →
          ∀ p, In3 p (ps.foldl expand3 b0) → In3 p c) ∧ Valid3 (ps.foldl expand3 b0) := by
      intro ps
      induction ps with
      | nil => intro b0 hv; exact ⟨fun p h => h, by simp, fun c h _ => h, hv⟩
      | cons q ps ih =>
        intro b0 hv
        have hq : Valid3 (⟨q, q⟩ : B3 K) := ⟨le_rfl, le_rfl, le_rfl⟩
        have hc := C50_combine b0 ⟨q, q⟩
        have hin : ∀ p, In3 p b0 → In3 p (expand3 b0 q) := fun p h => hc.1 p (Or.inl h)
        have hv' : Valid3 (expand3 b0 q) := by
          obtain ⟨v1, v2, v3⟩ := hv
          exact ⟨(min_le_left _ _).trans (v1.trans (le_max_left _ _)),
            (min_le_left _ _).trans (v2.trans (le_max_left _ _)),
            (min_le_left _ _).trans (v3.trans (le_max_left _ _))⟩
        obtain ⟨i1, i2, i3, i4⟩ := ih (expand3 b0 q) hv'
        rw [List.foldl_cons]
        refine ⟨fun p h => i1 p (hin p h), ?_, ?_, i4⟩
        · intro p hp
          rcases List.mem_cons.1 hp with rfl | hp
          · exact i1 p (C50_expand b0 ⟨⟨p.x, p.y⟩, ⟨p.x, p.y⟩⟩ p ⟨p.x, p.y⟩).2.2.1
          · exact i2 p hp
        · intro c h1 h2
          refine i3 c ?_ (fun p hp => h2 p (by simp [hp]))
          refine hc.2 hv hq c ?_
          rintro p (h | h)
          · exact h1 p h
          · have : p = q := by
              obtain ⟨⟨a, b⟩, ⟨c, d⟩, e, f⟩ := h
              ext
              · exact le_antisymm b a
              · exact le_antisymm d c
              · exact le_antisymm f e
            rw [this]; exact h2 q (by simp)
    obtain ⟨g1, g2, g3, g4⟩ := gen ps ⟨p, p⟩ ⟨le_rfl, le_rfl, le_rfl⟩
    refine ⟨?_, ?_, g4⟩
    · intro q hq
      rcases List.mem_cons.1 hq with rfl | hq
      · exact g1 q ⟨⟨le_rfl, le_rfl⟩, ⟨le_rfl, le_rfl⟩, le_rfl, le_rfl⟩
      · exact g2 q hq
    · intro c hc
      refine g3 c ?_ (fun q hq => hc q (by simp [hq]))
      intro q h
      have : q = p := by
        obtain ⟨⟨a, b⟩, ⟨c, d⟩, e, f⟩ := h
        ext
        · exact le_antisymm b a
        · exact le_antisymm d c
        · exact le_antisymm f e
      rw [this]; exact hc p (by simp)

/-- `union` is the smallest box around two valid boxes. -/
theorem C50_union (a b : B3 K) (va : Valid3 a) (vb : Valid3 b) : union3 a b = some (combine3 a b) := by
  obtain ⟨a1, a2, a3⟩ := va
  obtain ⟨b1, b2, b3⟩ := vb
  simp only [union3, fromArray3, List.cons_append, List.nil_append, List.foldl_cons, List.foldl_nil,
    expand3, combine3, Option.some.injEq]
  rw [min_eq_right a1, min_eq_right a2, min_eq_right a3, max_eq_left a1, max_eq_left a2,
    max_eq_left a3, min_assoc, min_assoc, min_assoc, max_assoc, max_assoc, max_assoc,
    min_eq_right b1, min_eq_right b2, min_eq_right b3, max_eq_left b1, max_eq_left b2,
    max_eq_left b3]

/-! ## C100: intersection of boxes -/

/-- In space: `none` exactly when the boxes share no point, otherwise the common part. -/
theorem C100_intersection (a b : B3 K) (va : Valid3 a) (vb : Valid3 b) :
    (intersection3 a b = none ↔ ¬ ∃ p, In3 p a ∧ In3 p b) ∧
    ∀ c, intersection3 a b = some c → Valid3 c ∧ ∀ p, In3 p c ↔ In3 p a ∧ In3 p b := by
  have hi := (C50_intersects a b va vb).1
  unfold intersection3
  by_cases h : intersects3 a b = true
  · rw [if_pos h]
    refine ⟨by simp [← hi, h], ?_⟩
    intro c hc
    cases hc
    constructor
    · obtain ⟨p, ⟨⟨p1, p2⟩, ⟨p3, p4⟩, p5, p6⟩, ⟨q1, q2⟩, ⟨q3, q4⟩, q5, q6⟩ := hi.1 h
      exact ⟨(max_le p1 q1).trans (le_min p2 q2), (max_le p3 q3).trans (le_min p4 q4),
        (max_le p5 q5).trans (le_min p6 q6)⟩
    · intro p
      simp only [In3, max_le_iff, le_min_iff]
      tauto
  · rw [if_neg h]
    exact ⟨by simp [← hi, h], by simp⟩

theorem foldl_expand2 (ps : List (P2 K)) : ∀ (b0 : B2 K) (p : P2 K), In2 p b0 →
    In2 p (ps.foldl expand2 b0) := by
  induction ps with
  | nil => intro b0 p h; exact h
  | cons q ps ih =>
    intro b0 p h
    rw [List.foldl_cons]
    refine ih _ p ?_
    obtain ⟨⟨h1, h2⟩, h3, h4⟩ := h
    exact ⟨⟨(min_le_left _ _).trans h1, h2.trans (le_max_left _ _)⟩,
      (min_le_left _ _).trans h3, h4.trans (le_max_left _ _)⟩

/-- In the plane: if the first box is inside the second, the intersection is the first.

`_partial`: for boxes that overlap otherwise the common part may be missing or wrong,
`C100_plane_refuted`. -/
theorem C100_plane_partial (a b : B2 K) (va : Valid2 a) (hab : ∀ p, In2 p a → In2 p b)
    (hne : ∀ v ∈ vertices2 b, contains2 a v = true → v ∈ vertices2 a) :
    ∃ c, intersection2 a b = some c ∧ ∀ p, In2 p c ↔ In2 p a := by
  obtain ⟨a1, a2⟩ := va
  have hall : ∀ v ∈ vertices2 a, contains2 b v = true := by
    intro v hv
    rw [C50_contains_plane]
    apply hab
    simp only [vertices2, List.mem_cons, List.not_mem_nil, or_false] at hv
    rcases hv with rfl | rfl | rfl | rfl
    · exact ⟨⟨le_rfl, a1⟩, le_rfl, a2⟩
    · exact ⟨⟨le_rfl, a1⟩, a2, le_rfl⟩
    · exact ⟨⟨a1, le_rfl⟩, le_rfl, a2⟩
    · exact ⟨⟨a1, le_rfl⟩, a2, le_rfl⟩
  have hf : (vertices2 a).filter (contains2 b) = vertices2 a :=
    List.filter_eq_self.2 hall
  have hrest : ∀ v ∈ (vertices2 b).filter (contains2 a), v ∈ vertices2 a := by
    intro v hv
    rw [List.mem_filter] at hv
    exact hne v hv.1 hv.2
  unfold intersection2
  rw [hf]
  generalize (vertices2 b).filter (contains2 a) = rest at hrest
  have stay : ∀ (ps : List (P2 K)), (∀ v ∈ ps, v ∈ vertices2 a) → ps.foldl expand2 a = a := by
    intro ps
    induction ps with
    | nil => intro _; rfl
    | cons q ps ih =>
      intro h
      have hq := h q (by simp)
      have : expand2 a q = a := by
        simp only [vertices2, List.mem_cons, List.not_mem_nil, or_false] at hq
        rcases hq with rfl | rfl | rfl | rfl <;> ext <;> simp [expand2, a1, a2]
      rw [List.foldl_cons, this]
      exact ih (fun v hv => h v (by simp [hv]))
  refine ⟨a, ?_, fun p => Iff.rfl⟩
  simp only [vertices2, List.cons_append, List.nil_append, fromArray2, List.foldl_cons]
  have e : expand2 (expand2 (expand2 (⟨⟨a.min.x, a.min.y⟩, ⟨a.min.x, a.min.y⟩⟩ : B2 K)
      ⟨a.min.x, a.max.y⟩) ⟨a.max.x, a.min.y⟩) ⟨a.max.x, a.max.y⟩ = a := by
    ext <;> simp [expand2, a1, a2]
  rw [e, stay rest hrest]

example : Valid2 (⟨⟨1, 1⟩, ⟨2, 2⟩⟩ : B2 ℚ) ∧
    (∀ v ∈ vertices2 (⟨⟨0, 0⟩, ⟨3, 3⟩⟩ : B2 ℚ), contains2 (⟨⟨1, 1⟩, ⟨2, 2⟩⟩ : B2 ℚ) v = true →
      v ∈ vertices2 (⟨⟨1, 1⟩, ⟨2, 2⟩⟩ : B2 ℚ)) ∧
    intersection2 (⟨⟨1, 1⟩, ⟨2, 2⟩⟩ : B2 ℚ) ⟨⟨0, 0⟩, ⟨3, 3⟩⟩ = some ⟨⟨1, 1⟩, ⟨2, 2⟩⟩ := by
  refine ⟨by norm_num [Valid2], by decide +kernel, by decide +kernel⟩

/-- A cross of two boxes raises; two boxes sharing a corner region give too small a box: the
intersection of `[0,2]²` and `[1,3]²` is found, but of `[0,4]×[0,2]` and `[1,3]×[1,3]` only the
segment at `y = 1`. -/
theorem C100_plane_refuted :
    intersection2 (⟨⟨0, 1⟩, ⟨3, 2⟩⟩ : B2 ℚ) ⟨⟨1, 0⟩, ⟨2, 3⟩⟩ = none ∧
    intersects2 (⟨⟨0, 1⟩, ⟨3, 2⟩⟩ : B2 ℚ) ⟨⟨1, 0⟩, ⟨2, 3⟩⟩ = true ∧
    intersection2 (⟨⟨0, 0⟩, ⟨4, 2⟩⟩ : B2 ℚ) ⟨⟨1, 1⟩, ⟨3, 3⟩⟩ = some ⟨⟨1, 1⟩, ⟨3, 1⟩⟩ := by
  decide +kernel

/-- Whenever neither box has a corner in the other, the call raises. -/
theorem C100_plane_raises (a b : B2 K) (h1 : ∀ v ∈ vertices2 a, ¬ In2 v b)
    (h2 : ∀ v ∈ vertices2 b, ¬ In2 v a) : intersection2 a b = none := by
  have e : ∀ (l : List (P2 K)) (c : B2 K), (∀ v ∈ l, ¬ In2 v c) → l.filter (contains2 c) = [] := by
    intro l c h
    rw [List.filter_eq_nil_iff]
    intro v hv hc
    exact h v hv ((C50_contains_plane _ _).1 hc)
  unfold intersection2
  rw [e _ _ h1, e _ _ h2]
  rfl

/-! ## C101: calls change only the box they are made on -/

/-- Every box has corner points of its own. -/
def Heap.Sep (h : Heap K) : Prop :=
  (∀ r ∈ h.boxes, r.min < h.next ∧ r.max < h.next ∧ r.min ≠ r.max) ∧
  ∀ i j : Nat, i ≠ j → ∀ r s : BoxRef, h.boxes[i]? = some r → h.boxes[j]? = some s →
    r.min ≠ s.min ∧ r.min ≠ s.max ∧ r.max ≠ s.min ∧ r.max ≠ s.max

theorem sep_alloc (h : Heap K) (b : B3 K) (hs : h.Sep) : (h.alloc b).Sep := by
  obtain ⟨h1, h2⟩ := hs
  constructor
  · intro r hr
    simp only [Heap.alloc, List.mem_append, List.mem_singleton] at hr ⊢
    rcases hr with hr | rfl
    · obtain ⟨a, b, c⟩ := h1 r hr
      exact ⟨by omega, by omega, c⟩
    · exact ⟨by simp, by simp, by simp⟩
  · intro i j hij r s hr hs
    simp only [Heap.alloc] at hr hs
    rw [List.getElem?_append] at hr hs
    split_ifs at hr hs with c1 c2 c2
    · exact h2 i j hij r s hr hs
    · have hm := h1 r (List.mem_of_getElem? hr)
      rw [List.getElem?_singleton] at hs
      split_ifs at hs
      cases hs
      exact ⟨by simp; omega, by simp; omega, by simp; omega, by simp; omega⟩
    · have hm := h1 s (List.mem_of_getElem? hs)
      rw [List.getElem?_singleton] at hr
      split_ifs at hr
      cases hr
      exact ⟨by simp; omega, by simp; omega, by simp; omega, by simp; omega⟩
    · rw [List.getElem?_singleton] at hr hs
      split_ifs at hr hs
      omega

theorem sep_step (h : Heap K) (op : Op K) (ho : op.isSetMin = false) (hs : h.Sep) :
    (h.step op).Sep := by
  cases op with
  | create lo hi => exact sep_alloc h _ hs
  | copy i =>
    simp only [Heap.step]
    split
    · exact sep_alloc h _ hs
    · exact hs
  | inter i j =>
    simp only [Heap.step]
    split
    · split
      · exact sep_alloc h _ hs
      · exact hs
    · exact hs
  | expand i p =>
    simp only [Heap.step]
    split
    · exact hs
    · exact hs
  | combine i j =>
    simp only [Heap.step]
    split
    · exact hs
    · exact hs
  | setMin i j => simp [Op.isSetMin] at ho

theorem sep_run (ops : List (Op K)) : ∀ (h : Heap K), h.Sep → (∀ op ∈ ops, op.isSetMin = false) →
    (h.run ops).Sep := by
  induction ops with
  | nil => intro h hs _; exact hs
  | cons op ops ih =>
    intro h hs ho
    exact ih _ (sep_step h op (ho op (by simp)) hs) (fun o h' => ho o (by simp [h']))

/-- After any history of calls that never assigns a corner point, the next call leaves every other
box as it was.

`_partial`: with the corner setter two boxes share a point, `C101_setter_refuted`. -/
theorem C101_frame_partial (p0 : P3 K) (ops : List (Op K)) (op : Op K)
    (ho : ∀ o ∈ op :: ops, o.isSetMin = false) (i : Nat) (r : BoxRef)
    (hr : ((Heap.empty p0).run ops).boxes[i]? = some r) (hi : op.target ≠ some i) :
    (((Heap.empty p0).run ops).step op).boxes[i]? = some r ∧
    (((Heap.empty p0).run ops).step op).val r = ((Heap.empty p0).run ops).val r := by
  have hsep : ((Heap.empty p0).run ops).Sep := by
    refine sep_run ops _ ⟨by simp [Heap.empty], by simp [Heap.empty]⟩
      (fun o h => ho o (by simp [h]))
  generalize (Heap.empty p0).run ops = h at hr hsep
  have hm := hsep.1 r (List.mem_of_getElem? hr)
  have hal : ∀ b, (h.alloc b).boxes[i]? = some r ∧ (h.alloc b).val r = h.val r := by
    intro b
    have hlt : i < h.boxes.length := by
      by_contra hc
      rw [List.getElem?_eq_none (by omega)] at hr
      cases hr
    refine ⟨?_, ?_⟩
    · simp only [Heap.alloc]
      rw [List.getElem?_append_left hlt, hr]
    · simp only [Heap.val, Heap.alloc]
      rw [if_neg (by omega), if_neg (by omega), if_neg (by omega), if_neg (by omega)]
  have hwr : ∀ j s b, j ≠ i → h.boxes[j]? = some s →
      (h.write s b).boxes[i]? = some r ∧ (h.write s b).val r = h.val r := by
    intro j s b hj hs
    refine ⟨hr, ?_⟩
    obtain ⟨d1, d2, d3, d4⟩ := hsep.2 i j (Ne.symm hj) r s hr hs
    simp only [Heap.val, Heap.write]
    rw [if_neg d2, if_neg d1, if_neg d4, if_neg d3]
  have ho' := ho op (by simp)
  cases op with
  | create lo hi => exact hal _
  | copy j =>
    simp only [Heap.step]
    split
    · exact hal _
    · exact ⟨hr, rfl⟩
  | inter j k =>
    simp only [Heap.step]
    split
    · split
      · exact hal _
      · exact ⟨hr, rfl⟩
    · exact ⟨hr, rfl⟩
  | expand j p =>
    simp only [Heap.step]
    split
    · next s hs => exact hwr j s _ (by rintro rfl; exact hi rfl) hs
    · exact ⟨hr, rfl⟩
  | combine j k =>
    simp only [Heap.step]
    split
    · next s t hs ht => exact hwr j s _ (by rintro rfl; exact hi rfl) hs
    · exact ⟨hr, rfl⟩
  | setMin j k => simp [Op.isSetMin] at ho'

/-- The box a call is made on gets the value of the pure function: for `expand` and `combine` after
any history without the setter. -/
theorem C101_effect_partial (p0 : P3 K) (ops : List (Op K)) (ho : ∀ o ∈ ops, o.isSetMin = false)
    (i j : Nat) (r s : BoxRef) (hr : ((Heap.empty p0).run ops).boxes[i]? = some r)
    (hs : ((Heap.empty p0).run ops).boxes[j]? = some s) (p : P3 K) :
    (((Heap.empty p0).run ops).step (.expand i p)).val r =
      expand3 (((Heap.empty p0).run ops).val r) p ∧
    (((Heap.empty p0).run ops).step (.combine i j)).val r =
      combine3 (((Heap.empty p0).run ops).val r) (((Heap.empty p0).run ops).val s) := by
  have hsep : ((Heap.empty p0).run ops).Sep :=
    sep_run ops _ ⟨by simp [Heap.empty], by simp [Heap.empty]⟩ ho
  generalize (Heap.empty p0).run ops = h at hr hs hsep
  have hm := (hsep.1 r (List.mem_of_getElem? hr)).2.2
  have hw : ∀ b, (h.write r b).val r = b := by
    intro b
    simp [Heap.val, Heap.write, hm]
  simp only [Heap.step, hr, hs]
  exact ⟨hw _, hw _⟩

/-- Two boxes; the second takes the first one's minimum; expanding the second changes the first. -/
theorem C101_setter_refuted :
    let h := (Heap.empty (⟨0, 0, 0⟩ : P3 ℚ)).run
      [.create ⟨0, 0, 0⟩ ⟨1, 1, 1⟩, .create ⟨5, 5, 5⟩ ⟨6, 6, 6⟩, .setMin 1 0]
    (h.step (.expand 1 ⟨-7, 0, 0⟩)).val ⟨0, 1⟩ ≠ h.val ⟨0, 1⟩ ∧ h.boxes[0]? = some ⟨0, 1⟩ := by
  decide +kernel

end Verif.ApiBox
