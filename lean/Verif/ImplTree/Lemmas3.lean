import Verif.ImplTree.Lemmas2
import Mathlib.Tactic.Push

/-! # Lemmas about the adaptive octree -/

set_option linter.unusedSectionVars false

namespace Verif.ImplTree

variable {K : Type} [Field K] [LinearOrder K] [IsStrictOrderedRing K]

/-- What is used of `round(·, 4)`: on nonnegative widths the result is nonnegative, at most twice
the width, and within `ε` of it. -/
structure RoundSpec (rnd : K → K) (ε : K) : Prop where
  nonneg : ∀ d, 0 ≤ d → 0 ≤ rnd d
  le : ∀ d, 0 ≤ d → rnd d ≤ 2 * d
  near : ∀ d, 0 ≤ d → |rnd d - d| ≤ ε

/-- A box whose lower corner is not above its upper corner. -/
def Valid (b : B K) : Prop := b.1.1 ≤ b.2.1 ∧ b.1.2.1 ≤ b.2.2.1 ∧ b.1.2.2 ≤ b.2.2.2

/-- Every dimension of the box, as the node records it, is within the target. -/
def Fits (rnd : K → K) (target : K × K × K) (b : B K) : Prop :=
  (dims rnd b).1 ≤ target.1 ∧ (dims rnd b).2.1 ≤ target.2.1 ∧ (dims rnd b).2.2 ≤ target.2.2

theorem center_mem {rnd : K → K} {ε : K} (hr : RoundSpec rnd ε) {b : B K} (hb : Valid b) :
    (b.1.1 ≤ (center rnd b).1 ∧ (center rnd b).1 ≤ b.2.1) ∧
    (b.1.2.1 ≤ (center rnd b).2.1 ∧ (center rnd b).2.1 ≤ b.2.2.1) ∧
    (b.1.2.2 ≤ (center rnd b).2.2 ∧ (center rnd b).2.2 ≤ b.2.2.2) := by
  obtain ⟨h1, h2, h3⟩ := hb
  have g1 := sub_nonneg.2 h1
  have g2 := sub_nonneg.2 h2
  have g3 := sub_nonneg.2 h3
  have := hr.nonneg _ g1; have := hr.le _ g1
  have := hr.nonneg _ g2; have := hr.le _ g2
  have := hr.nonneg _ g3; have := hr.le _ g3
  refine ⟨⟨?_, ?_⟩, ⟨?_, ?_⟩, ⟨?_, ?_⟩⟩ <;> simp only [center, dims] <;> linarith

section Two

variable {mn mx c : K × K × K}

theorem divideX_tiles (h1 : mn.1 ≤ c.1) (h2 : c.1 ≤ mx.1) :
    Tiles (geo3 K) (divideX mn mx c) (mn, mx) := by
  unfold divideX
  refine ⟨?_, ?_, ?_, ?_, ?_⟩
  · intro x hx p hp
    simp only [List.mem_cons, List.not_mem_nil, or_false] at hx
    rcases hx with rfl | rfl <;>
    · obtain ⟨k1, k2, k3, k4, k5, k6⟩ := hp
      dsimp only at k1 k2 k3 k4 k5 k6
      refine ⟨?_, ?_, ?_, ?_, ?_, ?_⟩ <;> dsimp only <;> linarith
  · intro x hx p hp
    simp only [List.mem_cons, List.not_mem_nil, or_false] at hx
    rcases hx with rfl | rfl <;>
    · obtain ⟨k1, k2, k3, k4, k5, k6⟩ := hp
      dsimp only at k1 k2 k3 k4 k5 k6
      refine ⟨?_, ?_, ?_, ?_, ?_, ?_⟩ <;> dsimp only <;> linarith
  · rintro p ⟨k1, k2, k3, k4, k5, k6⟩
    simp only [List.mem_cons, List.not_mem_nil, or_false, exists_eq_or_imp, exists_eq_left]
    rcases le_total p.1 c.1 with hx | hx
    · exact Or.inl ⟨k1, hx, k3, k4, k5, k6⟩
    · exact Or.inr ⟨hx, k2, k3, k4, k5, k6⟩
  · simp only [List.pairwise_cons, List.mem_cons, List.not_mem_nil, or_false,
      forall_eq, false_implies, implies_true, List.Pairwise.nil, and_true]
    rintro p ⟨⟨h1, h2, h3, h4, h5, h6⟩, ⟨k1, k2, k3, k4, k5, k6⟩⟩
    dsimp only at h1 h2 h3 h4 h5 h6 k1 k2 k3 k4 k5 k6
    linarith
  · simp only [List.map_cons, List.map_nil, List.sum_cons, List.sum_nil, geo3]
    ring

theorem divideY_tiles (h1 : mn.2.1 ≤ c.2.1) (h2 : c.2.1 ≤ mx.2.1) :
    Tiles (geo3 K) (divideY mn mx c) (mn, mx) := by
  unfold divideY
  refine ⟨?_, ?_, ?_, ?_, ?_⟩
  · intro x hx p hp
    simp only [List.mem_cons, List.not_mem_nil, or_false] at hx
    rcases hx with rfl | rfl <;>
    · obtain ⟨k1, k2, k3, k4, k5, k6⟩ := hp
      dsimp only at k1 k2 k3 k4 k5 k6
      refine ⟨?_, ?_, ?_, ?_, ?_, ?_⟩ <;> dsimp only <;> linarith
  · intro x hx p hp
    simp only [List.mem_cons, List.not_mem_nil, or_false] at hx
    rcases hx with rfl | rfl <;>
    · obtain ⟨k1, k2, k3, k4, k5, k6⟩ := hp
      dsimp only at k1 k2 k3 k4 k5 k6
      refine ⟨?_, ?_, ?_, ?_, ?_, ?_⟩ <;> dsimp only <;> linarith
  · rintro p ⟨k1, k2, k3, k4, k5, k6⟩
    simp only [List.mem_cons, List.not_mem_nil, or_false, exists_eq_or_imp, exists_eq_left]
    rcases le_total p.2.1 c.2.1 with hx | hx
    · exact Or.inl ⟨k1, k2, k3, hx, k5, k6⟩
    · exact Or.inr ⟨k1, k2, hx, k4, k5, k6⟩
  · simp only [List.pairwise_cons, List.mem_cons, List.not_mem_nil, or_false,
      forall_eq, false_implies, implies_true, List.Pairwise.nil, and_true]
    rintro p ⟨⟨h1, h2, h3, h4, h5, h6⟩, ⟨k1, k2, k3, k4, k5, k6⟩⟩
    dsimp only at h1 h2 h3 h4 h5 h6 k1 k2 k3 k4 k5 k6
    linarith
  · simp only [List.map_cons, List.map_nil, List.sum_cons, List.sum_nil, geo3]
    ring

theorem divideZ_tiles (h1 : mn.2.2 ≤ c.2.2) (h2 : c.2.2 ≤ mx.2.2) :
    Tiles (geo3 K) (divideZ mn mx c) (mn, mx) := by
  unfold divideZ
  refine ⟨?_, ?_, ?_, ?_, ?_⟩
  · intro x hx p hp
    simp only [List.mem_cons, List.not_mem_nil, or_false] at hx
    rcases hx with rfl | rfl <;>
    · obtain ⟨k1, k2, k3, k4, k5, k6⟩ := hp
      dsimp only at k1 k2 k3 k4 k5 k6
      refine ⟨?_, ?_, ?_, ?_, ?_, ?_⟩ <;> dsimp only <;> linarith
  · intro x hx p hp
    simp only [List.mem_cons, List.not_mem_nil, or_false] at hx
    rcases hx with rfl | rfl <;>
    · obtain ⟨k1, k2, k3, k4, k5, k6⟩ := hp
      dsimp only at k1 k2 k3 k4 k5 k6
      refine ⟨?_, ?_, ?_, ?_, ?_, ?_⟩ <;> dsimp only <;> linarith
  · rintro p ⟨k1, k2, k3, k4, k5, k6⟩
    simp only [List.mem_cons, List.not_mem_nil, or_false, exists_eq_or_imp, exists_eq_left]
    rcases le_total p.2.2 c.2.2 with hx | hx
    · exact Or.inl ⟨k1, k2, k3, k4, k5, hx⟩
    · exact Or.inr ⟨k1, k2, k3, k4, hx, k6⟩
  · simp only [List.pairwise_cons, List.mem_cons, List.not_mem_nil, or_false,
      forall_eq, false_implies, implies_true, List.Pairwise.nil, and_true]
    rintro p ⟨⟨h1, h2, h3, h4, h5, h6⟩, ⟨k1, k2, k3, k4, k5, k6⟩⟩
    dsimp only at h1 h2 h3 h4 h5 h6 k1 k2 k3 k4 k5 k6
    linarith
  · simp only [List.map_cons, List.map_nil, List.sum_cons, List.sum_nil, geo3]
    ring

theorem divideXy_tiles (h1 : mn.1 ≤ c.1) (h2 : c.1 ≤ mx.1)
    (h3 : mn.2.1 ≤ c.2.1) (h4 : c.2.1 ≤ mx.2.1) :
    Tiles (geo3 K) (divideXy mn mx c) (mn, mx) := by
  unfold divideXy
  refine ⟨?_, ?_, ?_, ?_, ?_⟩
  · intro x hx p hp
    simp only [List.mem_cons, List.not_mem_nil, or_false] at hx
    rcases hx with rfl | rfl | rfl | rfl <;>
    · obtain ⟨k1, k2, k3, k4, k5, k6⟩ := hp
      dsimp only at k1 k2 k3 k4 k5 k6
      refine ⟨?_, ?_, ?_, ?_, ?_, ?_⟩ <;> dsimp only <;> linarith
  · intro x hx p hp
    simp only [List.mem_cons, List.not_mem_nil, or_false] at hx
    rcases hx with rfl | rfl | rfl | rfl <;>
    · obtain ⟨k1, k2, k3, k4, k5, k6⟩ := hp
      dsimp only at k1 k2 k3 k4 k5 k6
      refine ⟨?_, ?_, ?_, ?_, ?_, ?_⟩ <;> dsimp only <;> linarith
  · rintro p ⟨k1, k2, k3, k4, k5, k6⟩
    simp only [List.mem_cons, List.not_mem_nil, or_false, exists_eq_or_imp, exists_eq_left]
    rcases le_total p.1 c.1 with hx | hx <;> rcases le_total p.2.1 c.2.1 with hy | hy
    · exact Or.inl ⟨k1, hx, k3, hy, k5, k6⟩
    · exact Or.inr (Or.inr (Or.inr ⟨k1, hx, hy, k4, k5, k6⟩))
    · exact Or.inr (Or.inl ⟨hx, k2, k3, hy, k5, k6⟩)
    · exact Or.inr (Or.inr (Or.inl ⟨hx, k2, hy, k4, k5, k6⟩))
  · simp only [List.pairwise_cons, List.mem_cons, List.not_mem_nil, or_false, forall_eq_or_imp,
      forall_eq, false_implies, implies_true, List.Pairwise.nil, and_true]
    refine ⟨⟨?_, ?_, ?_⟩, ⟨?_, ?_⟩, ?_⟩ <;>
    · rintro p ⟨⟨h1, h2, h3, h4, h5, h6⟩, ⟨k1, k2, k3, k4, k5, k6⟩⟩
      dsimp only at h1 h2 h3 h4 h5 h6 k1 k2 k3 k4 k5 k6
      linarith
  · simp only [List.map_cons, List.map_nil, List.sum_cons, List.sum_nil, geo3]
    ring

theorem divideXz_tiles (h1 : mn.1 ≤ c.1) (h2 : c.1 ≤ mx.1)
    (h3 : mn.2.2 ≤ c.2.2) (h4 : c.2.2 ≤ mx.2.2) :
    Tiles (geo3 K) (divideXz mn mx c) (mn, mx) := by
  unfold divideXz
  refine ⟨?_, ?_, ?_, ?_, ?_⟩
  · intro x hx p hp
    simp only [List.mem_cons, List.not_mem_nil, or_false] at hx
    rcases hx with rfl | rfl | rfl | rfl <;>
    · obtain ⟨k1, k2, k3, k4, k5, k6⟩ := hp
      dsimp only at k1 k2 k3 k4 k5 k6
      refine ⟨?_, ?_, ?_, ?_, ?_, ?_⟩ <;> dsimp only <;> linarith
  · intro x hx p hp
    simp only [List.mem_cons, List.not_mem_nil, or_false] at hx
    rcases hx with rfl | rfl | rfl | rfl <;>
    · obtain ⟨k1, k2, k3, k4, k5, k6⟩ := hp
      dsimp only at k1 k2 k3 k4 k5 k6
      refine ⟨?_, ?_, ?_, ?_, ?_, ?_⟩ <;> dsimp only <;> linarith
  · rintro p ⟨k1, k2, k3, k4, k5, k6⟩
    simp only [List.mem_cons, List.not_mem_nil, or_false, exists_eq_or_imp, exists_eq_left]
    rcases le_total p.1 c.1 with hx | hx <;> rcases le_total p.2.2 c.2.2 with hy | hy
    · exact Or.inl ⟨k1, hx, k3, k4, k5, hy⟩
    · exact Or.inr (Or.inr (Or.inr ⟨k1, hx, k3, k4, hy, k6⟩))
    · exact Or.inr (Or.inl ⟨hx, k2, k3, k4, k5, hy⟩)
    · exact Or.inr (Or.inr (Or.inl ⟨hx, k2, k3, k4, hy, k6⟩))
  · simp only [List.pairwise_cons, List.mem_cons, List.not_mem_nil, or_false, forall_eq_or_imp,
      forall_eq, false_implies, implies_true, List.Pairwise.nil, and_true]
    refine ⟨⟨?_, ?_, ?_⟩, ⟨?_, ?_⟩, ?_⟩ <;>
    · rintro p ⟨⟨h1, h2, h3, h4, h5, h6⟩, ⟨k1, k2, k3, k4, k5, k6⟩⟩
      dsimp only at h1 h2 h3 h4 h5 h6 k1 k2 k3 k4 k5 k6
      linarith
  · simp only [List.map_cons, List.map_nil, List.sum_cons, List.sum_nil, geo3]
    ring

theorem divideYz_tiles (h1 : mn.2.1 ≤ c.2.1) (h2 : c.2.1 ≤ mx.2.1)
    (h3 : mn.2.2 ≤ c.2.2) (h4 : c.2.2 ≤ mx.2.2) :
    Tiles (geo3 K) (divideYz mn mx c) (mn, mx) := by
  unfold divideYz
  refine ⟨?_, ?_, ?_, ?_, ?_⟩
  · intro x hx p hp
    simp only [List.mem_cons, List.not_mem_nil, or_false] at hx
    rcases hx with rfl | rfl | rfl | rfl <;>
    · obtain ⟨k1, k2, k3, k4, k5, k6⟩ := hp
      dsimp only at k1 k2 k3 k4 k5 k6
      refine ⟨?_, ?_, ?_, ?_, ?_, ?_⟩ <;> dsimp only <;> linarith
  · intro x hx p hp
    simp only [List.mem_cons, List.not_mem_nil, or_false] at hx
    rcases hx with rfl | rfl | rfl | rfl <;>
    · obtain ⟨k1, k2, k3, k4, k5, k6⟩ := hp
      dsimp only at k1 k2 k3 k4 k5 k6
      refine ⟨?_, ?_, ?_, ?_, ?_, ?_⟩ <;> dsimp only <;> linarith
  · rintro p ⟨k1, k2, k3, k4, k5, k6⟩
    simp only [List.mem_cons, List.not_mem_nil, or_false, exists_eq_or_imp, exists_eq_left]
    rcases le_total p.2.1 c.2.1 with hx | hx <;> rcases le_total p.2.2 c.2.2 with hy | hy
    · exact Or.inl ⟨k1, k2, k3, hx, k5, hy⟩
    · exact Or.inr (Or.inl ⟨k1, k2, k3, hx, hy, k6⟩)
    · exact Or.inr (Or.inr (Or.inr ⟨k1, k2, hx, k4, k5, hy⟩))
    · exact Or.inr (Or.inr (Or.inl ⟨k1, k2, hx, k4, hy, k6⟩))
  · simp only [List.pairwise_cons, List.mem_cons, List.not_mem_nil, or_false, forall_eq_or_imp,
      forall_eq, false_implies, implies_true, List.Pairwise.nil, and_true]
    refine ⟨⟨?_, ?_, ?_⟩, ⟨?_, ?_⟩, ?_⟩ <;>
    · rintro p ⟨⟨h1, h2, h3, h4, h5, h6⟩, ⟨k1, k2, k3, k4, k5, k6⟩⟩
      dsimp only at h1 h2 h3 h4 h5 h6 k1 k2 k3 k4 k5 k6
      linarith
  · simp only [List.map_cons, List.map_nil, List.sum_cons, List.sum_nil, geo3]
    ring

/-- On one axis a piece keeps the whole extent when the dimension is within the target, and takes
one of the two parts otherwise. -/
def AxisOk (d t lo hi mid plo phi : K) : Prop :=
  (d ≤ t ∧ plo = lo ∧ phi = hi) ∨
  (t < d ∧ ((plo = lo ∧ phi = mid) ∨ (plo = mid ∧ phi = hi)))

theorem findDivision_axis {d t : K × K × K} {x : B K} (hx : x ∈ findDivision mn mx c d t) :
    AxisOk d.1 t.1 mn.1 mx.1 c.1 x.1.1 x.2.1 ∧
    AxisOk d.2.1 t.2.1 mn.2.1 mx.2.1 c.2.1 x.1.2.1 x.2.2.1 ∧
    AxisOk d.2.2 t.2.2 mn.2.2 mx.2.2 c.2.2 x.1.2.2 x.2.2.2 := by
  unfold AxisOk
  by_cases h1 : d.1 > t.1 <;> by_cases h2 : d.2.1 > t.2.1 <;> by_cases h3 : d.2.2 > t.2.2 <;>
  · simp only [findDivision, h1, h2, h3, decide_true, decide_false, divideX, divideY, divideZ,
      divideXy, divideXz, divideYz, divideXyz, List.mem_cons, List.not_mem_nil, or_false] at hx
    try simp only [gt_iff_lt] at h1 h2 h3
    first
      | done
      | (rcases hx with rfl | rfl | rfl | rfl | rfl | rfl | rfl | rfl <;>
          simp_all [not_lt, le_of_lt, not_le_of_gt])
      | (rcases hx with rfl | rfl | rfl | rfl <;> simp_all [not_lt, le_of_lt, not_le_of_gt])
      | (rcases hx with rfl | rfl <;> simp_all [not_lt, le_of_lt, not_le_of_gt])

theorem findDivision_tiles {d t : K × K × K}
    (hc : (mn.1 ≤ c.1 ∧ c.1 ≤ mx.1) ∧ (mn.2.1 ≤ c.2.1 ∧ c.2.1 ≤ mx.2.1) ∧
      (mn.2.2 ≤ c.2.2 ∧ c.2.2 ≤ mx.2.2))
    (hd : ¬ (d.1 ≤ t.1 ∧ d.2.1 ≤ t.2.1 ∧ d.2.2 ≤ t.2.2)) :
    Tiles (geo3 K) (findDivision mn mx c d t) (mn, mx) ∧ findDivision mn mx c d t ≠ [] := by
  obtain ⟨⟨c1, c2⟩, ⟨c3, c4⟩, ⟨c5, c6⟩⟩ := hc
  by_cases h1 : d.1 > t.1 <;> by_cases h2 : d.2.1 > t.2.1 <;> by_cases h3 : d.2.2 > t.2.2 <;>
    simp only [findDivision, h1, h2, h3, decide_true, decide_false]
  · exact ⟨divideXyz_tiles c1 c2 c3 c4 c5 c6, List.cons_ne_nil _ _⟩
  · exact ⟨divideXy_tiles c1 c2 c3 c4, List.cons_ne_nil _ _⟩
  · exact ⟨divideXz_tiles c1 c2 c5 c6, List.cons_ne_nil _ _⟩
  · exact ⟨divideX_tiles c1 c2, List.cons_ne_nil _ _⟩
  · exact ⟨divideYz_tiles c3 c4 c5 c6, List.cons_ne_nil _ _⟩
  · exact ⟨divideY_tiles c3 c4, List.cons_ne_nil _ _⟩
  · exact ⟨divideZ_tiles c5 c6, List.cons_ne_nil _ _⟩
  · exact absurd ⟨not_lt.1 h1, not_lt.1 h2, not_lt.1 h3⟩ hd

end Two

/-- The box of a node. -/
def Oc.box : Oc K → B K
  | .node b _ _ => b

/-- The children of a node. -/
def Oc.child : Oc K → List (Oc K)
  | .node _ _ ch => ch

mutual
/-- The boxes of the nodes without children. -/
def Oc.leaves : Oc K → List (B K)
  | .node b _ ch => match ch with
    | [] => [b]
    | c :: cs => leavesIn (c :: cs)
/-- The same for a list of nodes. -/
def leavesIn : List (Oc K) → List (B K)
  | [] => []
  | c :: cs => c.leaves ++ leavesIn cs
end

theorem leavesIn_eq (L : List (Oc K)) : leavesIn L = L.flatMap Oc.leaves := by
  induction L with
  | nil => rw [leavesIn]; rfl
  | cons c l ih => rw [leavesIn, ih, List.flatMap_cons]

theorem leaves_nil (b : B K) (l : Bool) : (Oc.node b l []).leaves = [b] := by rw [Oc.leaves]

theorem leaves_cons (b : B K) (l : Bool) {ch : List (Oc K)} (h : ch ≠ []) :
    (Oc.node b l ch).leaves = ch.flatMap Oc.leaves := by
  cases ch with
  | nil => exact absurd rfl h
  | cons c cs => rw [Oc.leaves, leavesIn_eq]

/-- A tree in which the children of every inner node tile it, and only nodes without children
carry the lamp. -/
inductive Good : Oc K → Prop
  | leaf (b : B K) (l : Bool) : Good (.node b l [])
  | node (b : B K) (ch : List (Oc K)) : ch ≠ [] → Tiles (geo3 K) (ch.map Oc.box) b →
      (∀ c ∈ ch, Good c) → Good (.node b false ch)

theorem good_tiles {t : Oc K} (h : Good t) : Tiles (geo3 K) t.leaves t.box := by
  induction h with
  | leaf b l => rw [leaves_nil]; exact tiles_single b
  | node b ch hne ht _ ih =>
    rw [leaves_cons b false hne]
    exact tiles_flatMap ch Oc.box _ b ht ih

theorem mapM_some {α γ : Type} {f : α → Option γ} {L : List α} {M : List γ}
    (h : L.mapM f = some M) : List.Forall₂ (fun a c => f a = some c) L M := by
  induction L generalizing M with
  | nil => simp at h; subst h; exact List.Forall₂.nil
  | cons a l ih =>
    rw [List.mapM_cons] at h
    cases ha : f a with
    | none => simp [ha] at h
    | some c =>
      cases hl : l.mapM f with
      | none => simp [ha, hl] at h
      | some m =>
        simp [ha, hl] at h
        subst h
        exact List.Forall₂.cons ha (ih hl)

theorem mapM_isSome {α γ : Type} {f : α → Option γ} {L : List α} (h : ∀ a ∈ L, ∃ c, f a = some c) :
    ∃ M, L.mapM f = some M := by
  induction L with
  | nil => exact ⟨[], by simp⟩
  | cons a l ih =>
    obtain ⟨c, hc⟩ := h a (by simp)
    obtain ⟨m, hm⟩ := ih (fun b hb => h b (by simp [hb]))
    exact ⟨c :: m, by rw [List.mapM_cons, hc, hm]; rfl⟩

theorem create_fit {rnd : K → K} {target : K × K × K} {k : Nat} {b : B K} {l : Bool}
    {old : List (Oc K)} (h : Fits rnd target b) :
    create rnd target (k + 1) b l old = some (.node b true old) := by
  rw [create]; exact if_pos h

theorem create_split {rnd : K → K} {target : K × K × K} {k : Nat} {b : B K} {l : Bool}
    {old : List (Oc K)} (h : ¬ Fits rnd target b) :
    create rnd target (k + 1) b l old =
      ((findDivision b.1 b.2 (center rnd b) (dims rnd b) target).mapM
        (fun x => create rnd target k x false [])).map (fun cs => .node b l (old ++ cs)) := by
  rw [create]; exact if_neg h

theorem valid_of_axis {rnd : K → K} {ε : K} (hr : RoundSpec rnd ε) {b : B K} (hb : Valid b)
    {t : K × K × K} {x : B K}
    (hx : x ∈ findDivision b.1 b.2 (center rnd b) (dims rnd b) t) : Valid x := by
  obtain ⟨a1, a2, a3⟩ := findDivision_axis hx
  obtain ⟨⟨c1, c2⟩, ⟨c3, c4⟩, ⟨c5, c6⟩⟩ := center_mem hr hb
  obtain ⟨b1, b2, b3⟩ := hb
  refine ⟨?_, ?_, ?_⟩
  · rcases a1 with ⟨_, h, h'⟩ | ⟨_, ⟨h, h'⟩ | ⟨h, h'⟩⟩ <;> rw [h, h'] <;> assumption
  · rcases a2 with ⟨_, h, h'⟩ | ⟨_, ⟨h, h'⟩ | ⟨h, h'⟩⟩ <;> rw [h, h'] <;> assumption
  · rcases a3 with ⟨_, h, h'⟩ | ⟨_, ⟨h, h'⟩ | ⟨h, h'⟩⟩ <;> rw [h, h'] <;> assumption

/-- Whatever `create_octree` returns on a fresh node is a good tree over the same box whose leaves
fit the target and are valid. -/
theorem create_good {rnd : K → K} {ε : K} (hr : RoundSpec rnd ε) {target : K × K × K} (k : Nat) :
    ∀ {b : B K} {t : Oc K}, Valid b → create rnd target k b false [] = some t →
      Good t ∧ t.box = b ∧ (∀ x ∈ t.leaves, Fits rnd target x ∧ Valid x) := by
  induction k with
  | zero => intro b t _ h; simp [create] at h
  | succ k ih =>
    intro b t hb h
    by_cases hf : Fits rnd target b
    · rw [create_fit hf] at h
      cases h
      refine ⟨Good.leaf b true, rfl, ?_⟩
      intro x hx
      rw [leaves_nil, List.mem_singleton] at hx
      subst hx; exact ⟨hf, hb⟩
    · rw [create_split hf] at h
      obtain ⟨cs, hcs, rfl⟩ := Option.map_eq_some_iff.1 h
      have hfa := mapM_some hcs
      have hdiv := findDivision_tiles (center_mem hr hb) hf
      have hall : ∀ x ∈ findDivision b.1 b.2 (center rnd b) (dims rnd b) target, Valid x :=
        fun x hx => valid_of_axis hr hb hx
      generalize findDivision b.1 b.2 (center rnd b) (dims rnd b) target = D at hfa hdiv hall
      rw [List.nil_append]
      have key : cs.map Oc.box = D ∧ (∀ c ∈ cs, Good c) ∧
          (∀ c ∈ cs, ∀ x ∈ c.leaves, Fits rnd target x ∧ Valid x) := by
        clear hdiv hcs h
        induction hfa with
        | nil => simp
        | cons hx _ ihx =>
          obtain ⟨g1, g2, g3⟩ := ih (hall _ (by simp)) hx
          obtain ⟨i1, i2, i3⟩ := ihx (fun x hx => hall x (by simp [hx]))
          refine ⟨by rw [List.map_cons, g2, i1], ?_, ?_⟩
          · intro c hc
            rcases List.mem_cons.1 hc with rfl | hc
            · exact g1
            · exact i2 c hc
          · intro c hc
            rcases List.mem_cons.1 hc with rfl | hc
            · exact g3
            · exact i3 c hc
      obtain ⟨k1, k2, k3⟩ := key
      have hne : cs ≠ [] := by
        intro h0; rw [h0] at k1; exact hdiv.2 k1.symm
      refine ⟨Good.node b cs hne (by rw [k1]; exact hdiv.1) k2, rfl, ?_⟩
      intro x hx
      rw [leaves_cons b false hne] at hx
      obtain ⟨c, hc, hx⟩ := List.mem_flatMap.1 hx
      exact k3 c hc x hx

/-- Progress on one axis: after `k` more levels the dimension fits. -/
def Near (rnd : K → K) (ε δ t : K) (k : Nat) (lo hi : K) : Prop :=
  rnd (hi - lo) ≤ t ∨ hi - lo - ε ≤ 2 ^ k * δ

theorem near_step {rnd : K → K} {ε δ t : K} (hr : RoundSpec rnd ε) {k : Nat} {lo hi plo phi : K}
    (hb : lo ≤ hi) (h : Near rnd ε δ t (k + 1) lo hi)
    (hx : AxisOk (rnd (hi - lo)) t lo hi (lo + rnd (hi - lo) / 2) plo phi) :
    Near rnd ε δ t k plo phi := by
  have g1 := sub_nonneg.2 hb
  have hn := abs_le.1 (hr.near _ g1)
  rcases hx with ⟨hd, rfl, rfl⟩ | ⟨hd, hp⟩
  · exact Or.inl hd
  · rcases h with h | h
    · exact absurd h (not_le.2 hd)
    · right
      rw [pow_succ] at h
      rcases hp with ⟨rfl, rfl⟩ | ⟨rfl, rfl⟩ <;> linarith

theorem create_some {rnd : K → K} {ε δ : K} (hr : RoundSpec rnd ε) {target : K × K × K}
    (h1 : 2 * ε + δ ≤ target.1) (h2 : 2 * ε + δ ≤ target.2.1) (h3 : 2 * ε + δ ≤ target.2.2)
    (k : Nat) : ∀ {b : B K}, Valid b →
      Near rnd ε δ target.1 k b.1.1 b.2.1 → Near rnd ε δ target.2.1 k b.1.2.1 b.2.2.1 →
      Near rnd ε δ target.2.2 k b.1.2.2 b.2.2.2 →
      ∃ t, create rnd target (k + 1) b false [] = some t := by
  have base : ∀ {t lo hi : K}, 2 * ε + δ ≤ t → lo ≤ hi → Near rnd ε δ t 0 lo hi →
      rnd (hi - lo) ≤ t := by
    intro t lo hi ht hle h
    rcases h with h | h
    · exact h
    · have hn := abs_le.1 (hr.near _ (sub_nonneg.2 hle))
      rw [pow_zero] at h; linarith
  induction k with
  | zero =>
    intro b hb n1 n2 n3
    exact ⟨_, create_fit ⟨base h1 hb.1 n1, base h2 hb.2.1 n2, base h3 hb.2.2 n3⟩⟩
  | succ k ih =>
    intro b hb n1 n2 n3
    by_cases hf : Fits rnd target b
    · exact ⟨_, create_fit hf⟩
    · rw [create_split hf]
      obtain ⟨M, hM⟩ := mapM_isSome (f := fun x => create rnd target (k + 1) x false [])
        (L := findDivision b.1 b.2 (center rnd b) (dims rnd b) target) (by
          intro x hx
          obtain ⟨a1, a2, a3⟩ := findDivision_axis hx
          exact ih (valid_of_axis hr hb hx) (near_step hr hb.1 n1 a1)
            (near_step hr hb.2.1 n2 a2) (near_step hr hb.2.2 n3 a3))
      exact ⟨_, by rw [hM]; rfl⟩

theorem containsPoint_iff (b : B K) (p : K × K × K) :
    containsPoint b p = true ↔ (geo3 K).mem p b := by
  simp only [containsPoint, geo3, Bool.and_eq_true, decide_eq_true_eq, ge_iff_le]
  tauto

theorem closestNode_leaf (p : K × K × K) (b : B K) (l : Bool) :
    closestNode p (.node b l []) = if containsPoint b p then some b else none := by
  rw [closestNode]

theorem closestNode_node (p : K × K × K) (b : B K) (l : Bool) {ch : List (Oc K)} (h : ch ≠ []) :
    closestNode p (.node b l ch) = if containsPoint b p then closestIn p ch else none := by
  cases ch with
  | nil => exact absurd rfl h
  | cons c cs => rw [closestNode]

theorem closestNode_spec {t : Oc K} (h : Good t) (p : K × K × K) :
    ((geo3 K).mem p t.box → ∃ r, closestNode p t = some r ∧ r ∈ t.leaves ∧ (geo3 K).mem p r) ∧
    (¬ (geo3 K).mem p t.box → closestNode p t = none) := by
  induction h with
  | leaf b l =>
    rw [closestNode_leaf, leaves_nil]
    refine ⟨fun hp => ⟨b, if_pos ((containsPoint_iff b p).2 hp), by simp, hp⟩, fun hp => ?_⟩
    exact if_neg (fun h => hp ((containsPoint_iff b p).1 h))
  | node b ch hne ht hgood ih =>
    rw [closestNode_node p b false hne, leaves_cons b false hne]
    refine ⟨fun hp => ?_, fun hp => if_neg (fun h => hp ((containsPoint_iff b p).1 h))⟩
    rw [if_pos ((containsPoint_iff b p).2 hp)]
    obtain ⟨x, hx, hpx⟩ := ht.cover p hp
    obtain ⟨c, hc, rfl⟩ := List.mem_map.1 hx
    clear ht hx hne hp hgood
    induction ch with
    | nil => simp at hc
    | cons a l ihl =>
      by_cases ha : (geo3 K).mem p a.box
      · obtain ⟨r, h1, h2, h3⟩ := (ih a (by simp)).1 ha
        exact ⟨r, by rw [closestIn, h1], by simp [h2], h3⟩
      · rcases List.mem_cons.1 hc with rfl | hc'
        · exact absurd hpx ha
        · obtain ⟨r, h1, h2, h3⟩ := ihl (fun c hc => ih c (by simp [hc])) hc'
          refine ⟨r, ?_, ?_, h3⟩
          · rw [closestIn, (ih a (by simp)).2 ha]; exact h1
          · rw [List.flatMap_cons]; exact List.mem_append_right _ h2

end Verif.ImplTree
