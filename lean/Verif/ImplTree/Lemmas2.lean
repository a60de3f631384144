import Verif.ImplTree.Lemmas
import Mathlib.Data.List.Perm.Basic
import Mathlib.Algebra.Order.Ring.Abs
import Mathlib.Algebra.Order.Archimedean.Basic

/-! # Lemmas: the cell lists of the implicit trees, concrete splittings -/

set_option linter.unusedSectionVars false

namespace Verif.ImplTree

variable {P β K : Type} [AddCommMonoid K] {g : Geo P β K} {n : Nat}

theorem tiles_perm {L L' : List β} {b : β} (hp : L.Perm L') (h : Tiles g L b) : Tiles g L' b where
  sub := fun x hx => h.sub x (hp.mem_iff.2 hx)
  isub := fun x hx => h.isub x (hp.mem_iff.2 hx)
  cover := fun p hpb => by
    obtain ⟨x, hx, hpx⟩ := h.cover p hpb
    exact ⟨x, hp.mem_iff.1 hx, hpx⟩
  disj := (hp.pairwise_iff (fun {x y} hxy p hp => hxy p ⟨hp.2, hp.1⟩)).1 h.disj
  vol := by rw [← h.vol]; exact ((hp.map g.vol).sum_eq).symm

/-- The kind of a cell reported by an implicit tree. -/
inductive Kind | full | empty | border
  deriving DecidableEq

/-- The cells `build_node` reports, in the order it visits them. -/
def cells (sp : β → Fin n → β) : T n β → β → List (Kind × β)
  | .empty _, q => [(.empty, q)]
  | .full _, q => [(.full, q)]
  | .leaf _, q => [(.border, q)]
  | .root ch, q => (List.finRange n).flatMap (fun i => cells sp (ch i) (sp q i))

/-- The boxes of one kind. -/
def only (k : Kind) (L : List (Kind × β)) : List β := (L.filter (fun x => decide (x.1 = k))).map (·.2)

theorem only_append (k : Kind) (L M : List (Kind × β)) : only k (L ++ M) = only k L ++ only k M := by
  simp [only]

theorem only_flatMap {α : Type} (k : Kind) (L : List α) (f : α → List (Kind × β)) :
    only k (L.flatMap f) = L.flatMap (fun a => only k (f a)) := by
  induction L with
  | nil => rfl
  | cons a l ih => rw [List.flatMap_cons, only_append, ih, List.flatMap_cons]

theorem buildNode_eq (sp : β → Fin n → β) (t : T n β) : ∀ (q : β) (s : Lists β),
    buildNode sp t q s = ⟨s.full ++ only .full (cells sp t q), s.empty ++ only .empty (cells sp t q),
      s.border ++ only .border (cells sp t q)⟩ := by
  induction t with
  | leaf d => intro q s; simp [buildNode, cells, only]
  | empty t _ => intro q s; simp [buildNode, cells, only]
  | full t _ => intro q s; simp [buildNode, cells, only]
  | root ch ih =>
    intro q s
    rw [buildNode, cells]
    generalize List.finRange n = L
    induction L generalizing s with
    | nil => simp [only]
    | cons i l ihl =>
      rw [List.foldl_cons, ihl, ih]
      simp only [List.flatMap_cons, only_append, List.append_assoc]

theorem perm_kinds (L : List (Kind × β)) :
    (L.map (·.2)).Perm (only .full L ++ only .empty L ++ only .border L) := by
  induction L with
  | nil => exact List.Perm.refl _
  | cons x l ih =>
    obtain ⟨k, b⟩ := x
    cases k with
    | full => simpa [only] using ih
    | empty =>
      have : (b :: List.map (·.2) l).Perm (b :: (only .full l ++ (only .empty l ++ only .border l))) := by
        rw [← List.append_assoc]; exact List.Perm.cons b ih
      simpa [only] using this.trans List.perm_middle.symm
    | border =>
      have : (b :: List.map (·.2) l).Perm (b :: (only .full l ++ only .empty l ++ only .border l)) :=
        List.Perm.cons b ih
      have h2 := this.trans (List.perm_middle (l₁ := only .full l ++ only .empty l)).symm
      simpa [only] using h2

section Collapse

variable {F : Type} [Zero F] [LinearOrder F] (vals : β → List F)

/-- The cells of the collapsed tree tile the domain. -/
theorem cells_tiles {sp : β → Fin n → β} (hs : Splits g sp) (i : Nat) (b : β) :
    Tiles g ((cells sp (collapse vals (buildTree sp i b)) b).map (·.2)) b := by
  induction i generalizing b with
  | zero =>
    rw [buildTree]
    by_cases h1 : inside vals b
    · rw [collapse_leaf_full vals h1]; exact tiles_single b
    · by_cases h2 : outside vals b
      · rw [collapse_leaf_empty vals h1 h2]; exact tiles_single b
      · rw [collapse_leaf_mixed vals h1 h2]; exact tiles_single b
  | succ i ih =>
    rw [buildTree]
    by_cases h1 : ∀ j, (collapse vals (buildTree sp i (sp b j))).isEmpty = true
    · rw [collapse_root_empty vals h1]; exact tiles_single b
    · by_cases h2 : ∀ j, (collapse vals (buildTree sp i (sp b j))).isFull = true
      · rw [collapse_root_full vals h1 h2]; exact tiles_single b
      · rw [collapse_root_root vals h1 h2, cells, List.map_flatMap]
        exact tiles_flatMap (List.finRange n) (sp b) _ b (hs b) (fun j _ => ih (sp b j))

/-- The border cells are the leaves that stayed leaves. -/
theorem cells_border {sp : β → Fin n → β} (i : Nat) (b : β) :
    only .border (cells sp (collapse vals (buildTree sp i b)) b)
      = (collapse vals (buildTree sp i b)).open := by
  induction i generalizing b with
  | zero =>
    rw [buildTree]
    by_cases h1 : inside vals b
    · rw [collapse_leaf_full vals h1]; rfl
    · by_cases h2 : outside vals b
      · rw [collapse_leaf_empty vals h1 h2]; rfl
      · rw [collapse_leaf_mixed vals h1 h2]; rfl
  | succ i ih =>
    rw [buildTree]
    by_cases h1 : ∀ j, (collapse vals (buildTree sp i (sp b j))).isEmpty = true
    · rw [collapse_root_empty vals h1]; rfl
    · by_cases h2 : ∀ j, (collapse vals (buildTree sp i (sp b j))).isFull = true
      · rw [collapse_root_full vals h1 h2]; rfl
      · rw [collapse_root_root vals h1 h2, cells, only_flatMap, T.open]
        exact flatMap_congr' _ (fun j _ => ih (sp b j))

/-- Each full (empty) cell is tiled by leaves of the original tree all of which are inside
(outside), and each such leaf is in one of them. -/
theorem cells_kind (hv : ∀ b, vals b ≠ []) (hn : 0 < n) {sp : β → Fin n → β} (hs : Splits g sp)
    (i : Nat) (b : β) :
    (∀ q ∈ only .full (cells sp (collapse vals (buildTree sp i b)) b), ∃ L : List β,
      (∀ x ∈ L, x ∈ (buildTree sp i b).leaves ∧ inside vals x) ∧ Tiles g L q) ∧
    (∀ q ∈ only .empty (cells sp (collapse vals (buildTree sp i b)) b), ∃ L : List β,
      (∀ x ∈ L, x ∈ (buildTree sp i b).leaves ∧ outside vals x) ∧ Tiles g L q) ∧
    (∀ x ∈ (buildTree sp i b).leaves, inside vals x →
      ∃ q ∈ only .full (cells sp (collapse vals (buildTree sp i b)) b),
        ∀ p, g.mem p x → g.mem p q) ∧
    (∀ x ∈ (buildTree sp i b).leaves, outside vals x →
      ∃ q ∈ only .empty (cells sp (collapse vals (buildTree sp i b)) b),
        ∀ p, g.mem p x → g.mem p q) := by
  have excl : ∀ b, inside vals b → ¬ outside vals b := by
    intro b h1 h2
    obtain ⟨v, hv'⟩ := List.exists_mem_of_ne_nil _ (hv b)
    exact absurd (h1 v hv') (not_lt.2 (h2 v hv'))
  have caseF : ∀ i b, collapse vals (buildTree sp i b) = .full (buildTree sp i b) →
    (∀ q ∈ only .full (cells sp (collapse vals (buildTree sp i b)) b), ∃ L : List β,
      (∀ x ∈ L, x ∈ (buildTree sp i b).leaves ∧ inside vals x) ∧ Tiles g L q) ∧
    (∀ q ∈ only .empty (cells sp (collapse vals (buildTree sp i b)) b), ∃ L : List β,
      (∀ x ∈ L, x ∈ (buildTree sp i b).leaves ∧ outside vals x) ∧ Tiles g L q) ∧
    (∀ x ∈ (buildTree sp i b).leaves, inside vals x →
      ∃ q ∈ only .full (cells sp (collapse vals (buildTree sp i b)) b),
        ∀ p, g.mem p x → g.mem p q) ∧
    (∀ x ∈ (buildTree sp i b).leaves, outside vals x →
      ∃ q ∈ only .empty (cells sp (collapse vals (buildTree sp i b)) b),
        ∀ p, g.mem p x → g.mem p q) := by
    intro i b h
    have hall := (((collapse_spec vals hv _ (buildTree_pure sp i b) hn).1 _).1 h).2
    have ht := buildTree_tiles hs i b
    rw [h]
    refine ⟨?_, ?_, ?_, ?_⟩
    · intro q hq
      have : q = b := by simpa [cells, only] using hq
      subst this
      exact ⟨_, fun x hx => ⟨hx, hall x hx⟩, ht⟩
    · intro q hq
      simp [cells, only] at hq
    · intro x hx _
      exact ⟨b, by simp [cells, only], ht.sub x hx⟩
    · intro x hx ho
      exact absurd ho (excl x (hall x hx))
  have caseE : ∀ i b, collapse vals (buildTree sp i b) = .empty (buildTree sp i b) →
    (∀ q ∈ only .full (cells sp (collapse vals (buildTree sp i b)) b), ∃ L : List β,
      (∀ x ∈ L, x ∈ (buildTree sp i b).leaves ∧ inside vals x) ∧ Tiles g L q) ∧
    (∀ q ∈ only .empty (cells sp (collapse vals (buildTree sp i b)) b), ∃ L : List β,
      (∀ x ∈ L, x ∈ (buildTree sp i b).leaves ∧ outside vals x) ∧ Tiles g L q) ∧
    (∀ x ∈ (buildTree sp i b).leaves, inside vals x →
      ∃ q ∈ only .full (cells sp (collapse vals (buildTree sp i b)) b),
        ∀ p, g.mem p x → g.mem p q) ∧
    (∀ x ∈ (buildTree sp i b).leaves, outside vals x →
      ∃ q ∈ only .empty (cells sp (collapse vals (buildTree sp i b)) b),
        ∀ p, g.mem p x → g.mem p q) := by
    intro i b h
    have hall := (((collapse_spec vals hv _ (buildTree_pure sp i b) hn).2 _).1 h).2
    have ht := buildTree_tiles hs i b
    rw [h]
    refine ⟨?_, ?_, ?_, ?_⟩
    · intro q hq
      simp [cells, only] at hq
    · intro q hq
      have : q = b := by simpa [cells, only] using hq
      subst this
      exact ⟨_, fun x hx => ⟨hx, hall x hx⟩, ht⟩
    · intro x hx ho
      exact absurd (hall x hx) (excl x ho)
    · intro x hx _
      exact ⟨b, by simp [cells, only], ht.sub x hx⟩
  induction i generalizing b with
  | zero =>
    by_cases h1 : inside vals b
    · exact caseF 0 b (collapse_leaf_full vals h1)
    · by_cases h2 : outside vals b
      · exact caseE 0 b (collapse_leaf_empty vals h1 h2)
      · have h3 := collapse_leaf_mixed (n := n) vals h1 h2
        rw [buildTree, h3]
        refine ⟨?_, ?_, ?_, ?_⟩
        · intro q hq; simp [cells, only] at hq
        · intro q hq; simp [cells, only] at hq
        · intro x hx h
          have : x = b := by simpa [T.leaves] using hx
          subst this; exact absurd h h1
        · intro x hx h
          have : x = b := by simpa [T.leaves] using hx
          subst this; exact absurd h h2
  | succ i ih =>
    by_cases h1 : ∀ j, (collapse vals (buildTree sp i (sp b j))).isEmpty = true
    · exact caseE (i + 1) b (collapse_root_empty vals h1)
    · by_cases h2 : ∀ j, (collapse vals (buildTree sp i (sp b j))).isFull = true
      · exact caseF (i + 1) b (collapse_root_full vals h1 h2)
      · have h3 := collapse_root_root vals h1 h2
        rw [buildTree, h3, cells, only_flatMap, only_flatMap]
        refine ⟨?_, ?_, ?_, ?_⟩
        · intro q hq
          obtain ⟨j, _, hq⟩ := List.mem_flatMap.1 hq
          obtain ⟨L, hL, hT⟩ := (ih (sp b j)).1 q hq
          exact ⟨L, fun x hx => ⟨List.mem_flatMap.2 ⟨j, List.mem_finRange j, (hL x hx).1⟩,
            (hL x hx).2⟩, hT⟩
        · intro q hq
          obtain ⟨j, _, hq⟩ := List.mem_flatMap.1 hq
          obtain ⟨L, hL, hT⟩ := (ih (sp b j)).2.1 q hq
          exact ⟨L, fun x hx => ⟨List.mem_flatMap.2 ⟨j, List.mem_finRange j, (hL x hx).1⟩,
            (hL x hx).2⟩, hT⟩
        · intro x hx hin
          obtain ⟨j, _, hx⟩ := List.mem_flatMap.1 hx
          obtain ⟨q, hq, hs⟩ := (ih (sp b j)).2.2.1 x hx hin
          exact ⟨q, List.mem_flatMap.2 ⟨j, List.mem_finRange j, hq⟩, hs⟩
        · intro x hx hin
          obtain ⟨j, _, hx⟩ := List.mem_flatMap.1 hx
          obtain ⟨q, hq, hs⟩ := (ih (sp b j)).2.2.2 x hx hin
          exact ⟨q, List.mem_flatMap.2 ⟨j, List.mem_finRange j, hq⟩, hs⟩

end Collapse

/-! ## Concrete boxes -/

section Boxes

variable {K : Type} [Field K] [LinearOrder K] [IsStrictOrderedRing K]

/-- Points, inner points and area of a planar cell. -/
def geo2 (K : Type) [Field K] [LinearOrder K] : Geo (K × K) (Q K) K where
  mem p b := b.1.1 ≤ p.1 ∧ p.1 ≤ b.2.1 ∧ b.1.2 ≤ p.2 ∧ p.2 ≤ b.2.2
  imem p b := b.1.1 < p.1 ∧ p.1 < b.2.1 ∧ b.1.2 < p.2 ∧ p.2 < b.2.2
  vol b := (b.2.1 - b.1.1) * (b.2.2 - b.1.2)

/-- Points, inner points and volume of a spatial cell. -/
def geo3 (K : Type) [Field K] [LinearOrder K] : Geo (K × K × K) (B K) K where
  mem p b := b.1.1 ≤ p.1 ∧ p.1 ≤ b.2.1 ∧ b.1.2.1 ≤ p.2.1 ∧ p.2.1 ≤ b.2.2.1 ∧
    b.1.2.2 ≤ p.2.2 ∧ p.2.2 ≤ b.2.2.2
  imem p b := b.1.1 < p.1 ∧ p.1 < b.2.1 ∧ b.1.2.1 < p.2.1 ∧ p.2.1 < b.2.2.1 ∧
    b.1.2.2 < p.2.2 ∧ p.2.2 < b.2.2.2
  vol b := (b.2.1 - b.1.1) * (b.2.2.1 - b.1.2.1) * (b.2.2.2 - b.1.2.2)

theorem half_le {a b p : K} (h : a ≤ p) (h' : p ≤ (a + b) / 2) : p ≤ b := by linarith
theorem half_ge {a b p : K} (h : (a + b) / 2 ≤ p) (h' : p ≤ b) : a ≤ p := by linarith
theorem half_lt {a b p : K} (h : a < p) (h' : p < (a + b) / 2) : p < b := by linarith
theorem half_gt {a b p : K} (h : (a + b) / 2 < p) (h' : p < b) : a < p := by linarith

theorem quad_splits : Splits (geo2 K) quadSplit := by
  rintro ⟨⟨a, b⟩, ⟨c, d⟩⟩
  have hL : (List.finRange 4).map (quadSplit ((a, b), (c, d))) =
      [((a, b), ((a + c) / 2, (b + d) / 2)), (((a + c) / 2, b), (c, (b + d) / 2)),
       ((a, (b + d) / 2), ((a + c) / 2, d)), (((a + c) / 2, (b + d) / 2), (c, d))] := rfl
  rw [hL]
  refine ⟨?_, ?_, ?_, ?_, ?_⟩
  · intro x hx p hp
    simp only [List.mem_cons, List.not_mem_nil, or_false] at hx
    rcases hx with rfl | rfl | rfl | rfl <;>
    · obtain ⟨h1, h2, h3, h4⟩ := hp
      dsimp only at h1 h2 h3 h4
      refine ⟨?_, ?_, ?_, ?_⟩ <;> dsimp only <;> linarith
  · intro x hx p hp
    simp only [List.mem_cons, List.not_mem_nil, or_false] at hx
    rcases hx with rfl | rfl | rfl | rfl <;>
    · obtain ⟨h1, h2, h3, h4⟩ := hp
      dsimp only at h1 h2 h3 h4
      refine ⟨?_, ?_, ?_, ?_⟩ <;> dsimp only <;> linarith
  · rintro p ⟨h1, h2, h3, h4⟩
    rcases le_total p.1 ((a + c) / 2) with hx | hx <;> rcases le_total p.2 ((b + d) / 2) with hy | hy
    · exact ⟨((a, b), ((a + c) / 2, (b + d) / 2)), by simp, h1, hx, h3, hy⟩
    · exact ⟨((a, (b + d) / 2), ((a + c) / 2, d)), by simp, h1, hx, hy, h4⟩
    · exact ⟨(((a + c) / 2, b), (c, (b + d) / 2)), by simp, hx, h2, h3, hy⟩
    · exact ⟨(((a + c) / 2, (b + d) / 2), (c, d)), by simp, hx, h2, hy, h4⟩
  · simp only [List.pairwise_cons, List.mem_cons, List.not_mem_nil, or_false, forall_eq_or_imp,
      forall_eq, false_implies, implies_true, List.Pairwise.nil, and_true]
    refine ⟨⟨?_, ?_, ?_⟩, ⟨?_, ?_⟩, ?_⟩ <;>
    · rintro p ⟨⟨h1, h2, h3, h4⟩, ⟨k1, k2, k3, k4⟩⟩
      dsimp only at h1 h2 h3 h4 k1 k2 k3 k4
      linarith
  · simp only [List.map_cons, List.map_nil, List.sum_cons, List.sum_nil, geo2]
    ring

/-- Splitting at a point between the corners, all eight octants. -/
theorem divideXyz_tiles {mn mx c : K × K × K} (h1 : mn.1 ≤ c.1) (h2 : c.1 ≤ mx.1)
    (h3 : mn.2.1 ≤ c.2.1) (h4 : c.2.1 ≤ mx.2.1) (h5 : mn.2.2 ≤ c.2.2) (h6 : c.2.2 ≤ mx.2.2) :
    Tiles (geo3 K) (divideXyz mn mx c) (mn, mx) := by
  unfold divideXyz
  refine ⟨?_, ?_, ?_, ?_, ?_⟩
  · intro x hx p hp
    simp only [List.mem_cons, List.not_mem_nil, or_false] at hx
    rcases hx with rfl | rfl | rfl | rfl | rfl | rfl | rfl | rfl <;>
    · obtain ⟨k1, k2, k3, k4, k5, k6⟩ := hp
      dsimp only at k1 k2 k3 k4 k5 k6
      refine ⟨?_, ?_, ?_, ?_, ?_, ?_⟩ <;> dsimp only <;> linarith
  · intro x hx p hp
    simp only [List.mem_cons, List.not_mem_nil, or_false] at hx
    rcases hx with rfl | rfl | rfl | rfl | rfl | rfl | rfl | rfl <;>
    · obtain ⟨k1, k2, k3, k4, k5, k6⟩ := hp
      dsimp only at k1 k2 k3 k4 k5 k6
      refine ⟨?_, ?_, ?_, ?_, ?_, ?_⟩ <;> dsimp only <;> linarith
  · rintro p ⟨k1, k2, k3, k4, k5, k6⟩
    rcases le_total p.1 c.1 with hx | hx <;> rcases le_total p.2.1 c.2.1 with hy | hy <;>
      rcases le_total p.2.2 c.2.2 with hz | hz
    · exact ⟨(mn, c), by simp, k1, hx, k3, hy, k5, hz⟩
    · exact ⟨((mn.1, mn.2.1, c.2.2), (c.1, c.2.1, mx.2.2)), by simp, k1, hx, k3, hy, hz, k6⟩
    · exact ⟨((mn.1, c.2.1, mn.2.2), (c.1, mx.2.1, c.2.2)), by simp, k1, hx, hy, k4, k5, hz⟩
    · exact ⟨((mn.1, c.2.1, c.2.2), (c.1, mx.2.1, mx.2.2)), by simp, k1, hx, hy, k4, hz, k6⟩
    · exact ⟨((c.1, mn.2.1, mn.2.2), (mx.1, c.2.1, c.2.2)), by simp, hx, k2, k3, hy, k5, hz⟩
    · exact ⟨((c.1, mn.2.1, c.2.2), (mx.1, c.2.1, mx.2.2)), by simp, hx, k2, k3, hy, hz, k6⟩
    · exact ⟨((c.1, c.2.1, mn.2.2), (mx.1, mx.2.1, c.2.2)), by simp, hx, k2, hy, k4, k5, hz⟩
    · exact ⟨(c, mx), by simp, hx, k2, hy, k4, hz, k6⟩
  · simp only [List.pairwise_cons, List.mem_cons, List.not_mem_nil, or_false, forall_eq_or_imp,
      forall_eq, false_implies, implies_true, List.Pairwise.nil, and_true]
    refine ⟨⟨?_, ?_, ?_, ?_, ?_, ?_, ?_⟩, ⟨?_, ?_, ?_, ?_, ?_, ?_⟩, ⟨?_, ?_, ?_, ?_, ?_⟩,
      ⟨?_, ?_, ?_, ?_⟩, ⟨?_, ?_, ?_⟩, ⟨?_, ?_⟩, ?_⟩ <;>
    · rintro p ⟨⟨h1, h2, h3, h4, h5, h6⟩, ⟨k1, k2, k3, k4, k5, k6⟩⟩
      dsimp only at h1 h2 h3 h4 h5 h6 k1 k2 k3 k4 k5 k6
      linarith
  · simp only [List.map_cons, List.map_nil, List.sum_cons, List.sum_nil, geo3]
    ring

theorem oct_splits : Splits (geo3 K) octSplit := by
  rintro ⟨⟨a, b, c⟩, ⟨d, e, f⟩⟩
  have hL : (List.finRange 8).map (octSplit ((a, b, c), (d, e, f))) =
      [((a, b, c), ((a + d) / 2, (b + e) / 2, (c + f) / 2)),
       (((a + d) / 2, b, c), (d, (b + e) / 2, (c + f) / 2)),
       ((a, (b + e) / 2, c), ((a + d) / 2, e, (c + f) / 2)),
       (((a + d) / 2, (b + e) / 2, c), (d, e, (c + f) / 2)),
       ((a, b, (c + f) / 2), ((a + d) / 2, (b + e) / 2, f)),
       (((a + d) / 2, b, (c + f) / 2), (d, (b + e) / 2, f)),
       ((a, (b + e) / 2, (c + f) / 2), ((a + d) / 2, e, f)),
       (((a + d) / 2, (b + e) / 2, (c + f) / 2), (d, e, f))] := rfl
  rw [hL]
  refine ⟨?_, ?_, ?_, ?_, ?_⟩
  · intro x hx p hp
    simp only [List.mem_cons, List.not_mem_nil, or_false] at hx
    rcases hx with rfl | rfl | rfl | rfl | rfl | rfl | rfl | rfl <;>
    · obtain ⟨k1, k2, k3, k4, k5, k6⟩ := hp
      dsimp only at k1 k2 k3 k4 k5 k6
      refine ⟨?_, ?_, ?_, ?_, ?_, ?_⟩ <;> dsimp only <;> linarith
  · intro x hx p hp
    simp only [List.mem_cons, List.not_mem_nil, or_false] at hx
    rcases hx with rfl | rfl | rfl | rfl | rfl | rfl | rfl | rfl <;>
    · obtain ⟨k1, k2, k3, k4, k5, k6⟩ := hp
      dsimp only at k1 k2 k3 k4 k5 k6
      refine ⟨?_, ?_, ?_, ?_, ?_, ?_⟩ <;> dsimp only <;> linarith
  · rintro p ⟨k1, k2, k3, k4, k5, k6⟩
    simp only [List.mem_cons, List.not_mem_nil, or_false, exists_eq_or_imp, exists_eq_left]
    dsimp only at k1 k2 k3 k4 k5 k6
    rcases le_total p.1 ((a + d) / 2) with hx | hx <;>
      rcases le_total p.2.1 ((b + e) / 2) with hy | hy <;>
      rcases le_total p.2.2 ((c + f) / 2) with hz | hz
    · exact Or.inl ⟨k1, hx, k3, hy, k5, hz⟩
    · exact Or.inr (Or.inr (Or.inr (Or.inr (Or.inl ⟨k1, hx, k3, hy, hz, k6⟩))))
    · exact Or.inr (Or.inr (Or.inl ⟨k1, hx, hy, k4, k5, hz⟩))
    · exact Or.inr (Or.inr (Or.inr (Or.inr (Or.inr (Or.inr (Or.inl ⟨k1, hx, hy, k4, hz, k6⟩))))))
    · exact Or.inr (Or.inl ⟨hx, k2, k3, hy, k5, hz⟩)
    · exact Or.inr (Or.inr (Or.inr (Or.inr (Or.inr (Or.inl ⟨hx, k2, k3, hy, hz, k6⟩)))))
    · exact Or.inr (Or.inr (Or.inr (Or.inl ⟨hx, k2, hy, k4, k5, hz⟩)))
    · exact Or.inr (Or.inr (Or.inr (Or.inr (Or.inr (Or.inr (Or.inr ⟨hx, k2, hy, k4, hz, k6⟩))))))
  · simp only [List.pairwise_cons, List.mem_cons, List.not_mem_nil, or_false, forall_eq_or_imp,
      forall_eq, false_implies, implies_true, List.Pairwise.nil, and_true]
    refine ⟨⟨?_, ?_, ?_, ?_, ?_, ?_, ?_⟩, ⟨?_, ?_, ?_, ?_, ?_, ?_⟩, ⟨?_, ?_, ?_, ?_, ?_⟩,
      ⟨?_, ?_, ?_, ?_⟩, ⟨?_, ?_, ?_⟩, ⟨?_, ?_⟩, ?_⟩ <;>
    · rintro p ⟨⟨h1, h2, h3, h4, h5, h6⟩, ⟨k1, k2, k3, k4, k5, k6⟩⟩
      dsimp only at h1 h2 h3 h4 h5 h6 k1 k2 k3 k4 k5 k6
      linarith
  · simp only [List.map_cons, List.map_nil, List.sum_cons, List.sum_nil, geo3]
    ring

end Boxes

end Verif.ImplTree
