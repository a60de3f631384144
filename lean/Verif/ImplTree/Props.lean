import Verif.ImplTree.Lemmas3
import Mathlib.Tactic.NormNum
import Mathlib.Data.Rat.Floor
import Mathlib.Algebra.Order.Round
import Mathlib.Data.Nat.Log

/-! # Properties of the implicit trees and of the adaptive octree -/

set_option linter.unusedSectionVars false

namespace Verif.ImplTree

variable {K : Type} [Field K] [LinearOrder K] [IsStrictOrderedRing K]

/-! ## C29: the leaves tile the domain -/

/-- `build_tree2d` at depth `i`: `4^i` leaves that tile the domain, for every domain (also one given
with swapped corners) and every depth. -/
theorem C29_quadtree (i : Nat) (b : Q K) :
    (buildTree quadSplit i b).leaves.length = 4 ^ i ∧
    Tiles (geo2 K) (buildTree quadSplit i b).leaves b :=
  ⟨buildTree_count _ i b, buildTree_tiles quad_splits i b⟩

/-- `build_tree3d` at depth `i`: `8^i` leaves that tile the domain. -/
theorem C29_octree (i : Nat) (b : B K) :
    (buildTree octSplit i b).leaves.length = 8 ^ i ∧
    Tiles (geo3 K) (buildTree octSplit i b).leaves b :=
  ⟨buildTree_count _ i b, buildTree_tiles oct_splits i b⟩

/-- All leaves have the same size: the domain's, divided by `2^i` on every axis. -/
theorem C29_quadtree_size (i : Nat) (b : Q K) :
    ∀ x ∈ (buildTree quadSplit i b).leaves,
      x.2.1 - x.1.1 = (b.2.1 - b.1.1) / 2 ^ i ∧ x.2.2 - x.1.2 = (b.2.2 - b.1.2) / 2 ^ i := by
  induction i generalizing b with
  | zero =>
    intro x hx
    have : x = b := by simpa [buildTree, T.leaves] using hx
    subst this; simp
  | succ i ih =>
    intro x hx
    obtain ⟨j, _, hx⟩ := List.mem_flatMap.1 hx
    obtain ⟨h1, h2⟩ := ih _ x hx
    rw [h1, h2, pow_succ]
    obtain ⟨⟨a, c⟩, ⟨d, e⟩⟩ := b
    fin_cases j <;> constructor <;> simp only [quadSplit, Fin.mk_zero, Fin.mk_one,
      Fin.zero_eta, Fin.isValue, Matrix.cons_val, Fin.reduceFinMk] <;> field_simp <;> ring

/-- The same for `build_tree3d`. -/
theorem C29_octree_size (i : Nat) (b : B K) :
    ∀ x ∈ (buildTree octSplit i b).leaves,
      x.2.1 - x.1.1 = (b.2.1 - b.1.1) / 2 ^ i ∧ x.2.2.1 - x.1.2.1 = (b.2.2.1 - b.1.2.1) / 2 ^ i ∧
      x.2.2.2 - x.1.2.2 = (b.2.2.2 - b.1.2.2) / 2 ^ i := by
  induction i generalizing b with
  | zero =>
    intro x hx
    have : x = b := by simpa [buildTree, T.leaves] using hx
    subst this; simp
  | succ i ih =>
    intro x hx
    obtain ⟨j, _, hx⟩ := List.mem_flatMap.1 hx
    obtain ⟨h1, h2, h3⟩ := ih _ x hx
    rw [h1, h2, h3, pow_succ]
    obtain ⟨⟨a, c, u⟩, ⟨d, e, v⟩⟩ := b
    fin_cases j <;> refine ⟨?_, ?_, ?_⟩ <;> simp only [octSplit, Fin.mk_zero, Fin.mk_one,
      Fin.zero_eta, Fin.isValue, Matrix.cons_val, Fin.reduceFinMk] <;> field_simp <;> ring

/-- A concrete tree: the unit square at depth 1. -/
example : (buildTree quadSplit 1 (((0, 0), (1, 1)) : Q ℚ)).leaves =
    [((0, 0), (1/2, 1/2)), ((1/2, 0), (1, 1/2)), ((0, 1/2), (1/2, 1)), ((1/2, 1/2), (1, 1))] := by
  decide +kernel

/-! ## C30: collapse classifies cells consistently -/

/-- `collapse2d` on any tree made of leaves and roots, for any shape function: the result is
`Full` (`Empty`) exactly when all corners of all leaves are inside (outside), and then it wraps the
original tree; the leaves that are still visible are exactly those with corners on both sides, in
order; those below `Full` (`Empty`) nodes are exactly the leaves with all corners inside
(outside). -/
theorem C30_collapse2d (shape : K × K → K) (t : T 4 (Q K)) (ht : t.pure) :
    ((∃ u, collapse (vals2 shape) t = .full u) ↔ ∀ b ∈ t.leaves, inside (vals2 shape) b) ∧
    ((∃ u, collapse (vals2 shape) t = .empty u) ↔ ∀ b ∈ t.leaves, outside (vals2 shape) b) ∧
    (∀ u, collapse (vals2 shape) t = .full u ∨ collapse (vals2 shape) t = .empty u → u = t) ∧
    (collapse (vals2 shape) t).open = t.leaves.filter (fun b =>
      decide (¬ inside (vals2 shape) b) && decide (¬ outside (vals2 shape) b)) ∧
    (collapse (vals2 shape) t).fullLeaves =
      t.leaves.filter (fun b => decide (inside (vals2 shape) b)) ∧
    (collapse (vals2 shape) t).emptyLeaves =
      t.leaves.filter (fun b => decide (outside (vals2 shape) b)) := by
  have hv : ∀ b, vals2 shape b ≠ [] := fun b => List.cons_ne_nil _ _
  have hs := collapse_spec (vals2 shape) hv t ht (by decide)
  have hl := collapse_lists (vals2 shape) hv t ht (by decide)
  refine ⟨⟨fun ⟨u, hu⟩ => ((hs.1 u).1 hu).2, fun h => ⟨t, (hs.1 t).2 ⟨rfl, h⟩⟩⟩,
    ⟨fun ⟨u, hu⟩ => ((hs.2 u).1 hu).2, fun h => ⟨t, (hs.2 t).2 ⟨rfl, h⟩⟩⟩, ?_, hl⟩
  rintro u (hu | hu)
  · exact ((hs.1 u).1 hu).1
  · exact ((hs.2 u).1 hu).1

/-- The same for `collapse3d`. -/
theorem C30_collapse3d (shape : K × K × K → K) (t : T 8 (B K)) (ht : t.pure) :
    ((∃ u, collapse (vals3 shape) t = .full u) ↔ ∀ b ∈ t.leaves, inside (vals3 shape) b) ∧
    ((∃ u, collapse (vals3 shape) t = .empty u) ↔ ∀ b ∈ t.leaves, outside (vals3 shape) b) ∧
    (∀ u, collapse (vals3 shape) t = .full u ∨ collapse (vals3 shape) t = .empty u → u = t) ∧
    (collapse (vals3 shape) t).open = t.leaves.filter (fun b =>
      decide (¬ inside (vals3 shape) b) && decide (¬ outside (vals3 shape) b)) ∧
    (collapse (vals3 shape) t).fullLeaves =
      t.leaves.filter (fun b => decide (inside (vals3 shape) b)) ∧
    (collapse (vals3 shape) t).emptyLeaves =
      t.leaves.filter (fun b => decide (outside (vals3 shape) b)) := by
  have hv : ∀ b, vals3 shape b ≠ [] := fun b => List.cons_ne_nil _ _
  have hs := collapse_spec (vals3 shape) hv t ht (by decide)
  have hl := collapse_lists (vals3 shape) hv t ht (by decide)
  refine ⟨⟨fun ⟨u, hu⟩ => ((hs.1 u).1 hu).2, fun h => ⟨t, (hs.1 t).2 ⟨rfl, h⟩⟩⟩,
    ⟨fun ⟨u, hu⟩ => ((hs.2 u).1 hu).2, fun h => ⟨t, (hs.2 t).2 ⟨rfl, h⟩⟩⟩, ?_, hl⟩
  rintro u (hu | hu)
  · exact ((hs.1 u).1 hu).1
  · exact ((hs.2 u).1 hu).1

/-- The corners that the predicates of `C30` look at are the corners of the cell. -/
theorem C30_corners (shape : K × K → K) (b : Q K) :
    (inside (vals2 shape) b ↔ ∀ x y, (x = b.1.1 ∨ x = b.2.1) → (y = b.1.2 ∨ y = b.2.2) →
      shape (x, y) < 0) ∧
    (outside (vals2 shape) b ↔ ∀ x y, (x = b.1.1 ∨ x = b.2.1) → (y = b.1.2 ∨ y = b.2.2) →
      0 ≤ shape (x, y)) := by
  obtain ⟨⟨a, c⟩, ⟨d, e⟩⟩ := b
  constructor
  · constructor
    · intro h x y hx hy
      rcases hx with rfl | rfl <;> rcases hy with rfl | rfl <;> exact h _ (by simp [vals2])
    · intro h v hv
      simp only [vals2, List.mem_cons, List.not_mem_nil, or_false] at hv
      rcases hv with rfl | rfl | rfl | rfl <;> exact h _ _ (by simp) (by simp)
  · constructor
    · intro h x y hx hy
      rcases hx with rfl | rfl <;> rcases hy with rfl | rfl <;> exact h _ (by simp [vals2])
    · intro h v hv
      simp only [vals2, List.mem_cons, List.not_mem_nil, or_false] at hv
      rcases hv with rfl | rfl | rfl | rfl <;> exact h _ _ (by simp) (by simp)

/-- The same in space. -/
theorem C30_corners3 (shape : K × K × K → K) (b : B K) :
    (inside (vals3 shape) b ↔ ∀ x y z, (x = b.1.1 ∨ x = b.2.1) → (y = b.1.2.1 ∨ y = b.2.2.1) →
      (z = b.1.2.2 ∨ z = b.2.2.2) → shape (x, y, z) < 0) ∧
    (outside (vals3 shape) b ↔ ∀ x y z, (x = b.1.1 ∨ x = b.2.1) → (y = b.1.2.1 ∨ y = b.2.2.1) →
      (z = b.1.2.2 ∨ z = b.2.2.2) → 0 ≤ shape (x, y, z)) := by
  obtain ⟨⟨a, c, u⟩, ⟨d, e, v⟩⟩ := b
  constructor
  · constructor
    · intro h x y z hx hy hz
      rcases hx with rfl | rfl <;> rcases hy with rfl | rfl <;> rcases hz with rfl | rfl <;>
        exact h _ (by simp [vals3])
    · intro h v hv
      simp only [vals3, List.mem_cons, List.not_mem_nil, or_false] at hv
      rcases hv with rfl | rfl | rfl | rfl | rfl | rfl | rfl | rfl <;>
        exact h _ _ _ (by simp) (by simp) (by simp)
  · constructor
    · intro h x y z hx hy hz
      rcases hx with rfl | rfl <;> rcases hy with rfl | rfl <;> rcases hz with rfl | rfl <;>
        exact h _ (by simp [vals3])
    · intro h v hv
      simp only [vals3, List.mem_cons, List.not_mem_nil, or_false] at hv
      rcases hv with rfl | rfl | rfl | rfl | rfl | rfl | rfl | rfl <;>
        exact h _ _ _ (by simp) (by simp) (by simp)

/-- A tree where all three kinds occur: the half plane `x < 3/4` on the unit square at depth 2. -/
example :
    let t := buildTree quadSplit 2 (((0, 0), (1, 1)) : Q ℚ)
    let c := collapse (vals2 (fun p => p.1 - 3/4)) t
    t.pure ∧ c.open.length = 4 ∧ c.fullLeaves.length = 8 ∧ c.emptyLeaves.length = 4 := by
  refine ⟨buildTree_pure _ _ _, ?_⟩
  decide +kernel

/-! ## C73: `reduce` undoes `collapse2d` -/

/-- `collapse2d(shape, tree).reduce()` is the tree that was collapsed, for every shape. -/
theorem C73_reduce_collapse (shape : K × K → K) (t : T 4 (Q K)) (ht : t.pure) :
    (collapse (vals2 shape) t).reduce = t := by
  rw [reduce_collapse, reduce_pure t ht]

/-- Collapsing again after reducing, even for another shape, forgets nothing: it is the same as
collapsing the original tree. -/
theorem C73_recollapse (shape shape' : K × K → K) (t : T 4 (Q K)) (ht : t.pure) :
    collapse (vals2 shape') (collapse (vals2 shape) t).reduce = collapse (vals2 shape') t := by
  rw [C73_reduce_collapse shape t ht]

example : (collapse (vals2 (fun p : ℚ × ℚ => p.1 - 3/4))
    (buildTree quadSplit 2 ((0, 0), (1, 1)))).reduce.leaves.length = 16 := by decide +kernel

/-! ## C74: the lists of an implicit tree -/

section Build

variable {P β K : Type} [AddCommMonoid K] {g : Geo P β K} {n : Nat}
variable {F : Type} [Zero F] [LinearOrder F]

/-- What a user expects of the lists `full`, `empty`, `border` after `build`: together they tile the
domain; the border cells are the leaves of the full tree with corners on both sides; each full
(empty) cell is tiled by leaves with all corners inside (outside) and each such leaf is in one of
them. -/
structure ListsOk (g : Geo P β K) (vals : β → List F) (leaves : List β) (dom : β)
    (r : Lists β) : Prop where
  tiles : Tiles g (r.full ++ r.empty ++ r.border) dom
  border : r.border =
    leaves.filter (fun b => decide (¬ inside vals b) && decide (¬ outside vals b))
  full : ∀ q ∈ r.full, ∃ L : List β, (∀ x ∈ L, x ∈ leaves ∧ inside vals x) ∧ Tiles g L q
  empty : ∀ q ∈ r.empty, ∃ L : List β, (∀ x ∈ L, x ∈ leaves ∧ outside vals x) ∧ Tiles g L q
  allFull : ∀ x ∈ leaves, inside vals x → ∃ q ∈ r.full, ∀ p, g.mem p x → g.mem p q
  allEmpty : ∀ x ∈ leaves, outside vals x → ∃ q ∈ r.empty, ∀ p, g.mem p x → g.mem p q

theorem lists_ok (vals : β → List F) (hv : ∀ b, vals b ≠ []) (hn : 0 < n) {sp : β → Fin n → β}
    (hs : Splits g sp) (i : Nat) (b : β) :
    ListsOk g vals (buildTree sp i b).leaves b
      (buildNode sp (collapse vals (buildTree sp i b)) b ⟨[], [], []⟩) := by
  rw [buildNode_eq]
  simp only [List.nil_append]
  have hk := cells_kind vals hv hn hs i b
  refine ⟨tiles_perm (perm_kinds _) (cells_tiles vals hs i b), ?_, hk.1, hk.2.1, hk.2.2.1,
    hk.2.2.2⟩
  change only .border _ = _
  rw [cells_border vals i b]
  exact (collapse_lists vals hv _ (buildTree_pure sp i b) hn).1

end Build

/-- `ImplicitTree3D.build`: for every shape, bounds, depth and whatever the lists held before. -/
theorem C74_tree3d (shape : K × K × K → K) (bounds : B K) (depth : Nat) (s : Lists (B K)) :
    ListsOk (geo3 K) (vals3 shape) (buildTree octSplit depth bounds).leaves bounds
      (build3 octSplit (vals3 shape) bounds depth s) :=
  lists_ok (vals3 shape) (fun _ => List.cons_ne_nil _ _) (by decide) oct_splits depth bounds

/-- `ImplicitTree2D.build` when the bounds are those of the shape.

`_partial`: with bounds passed to the constructor the statement is false, see
`C74_bounds_refuted`. -/
theorem C74_tree2d_partial (shape : K × K → K) (bounds : Q K) (depth : Nat) (s : Lists (Q K)) :
    ListsOk (geo2 K) (vals2 shape) (buildTree quadSplit depth bounds).leaves bounds
      (build2 quadSplit (vals2 shape) bounds bounds depth s) :=
  lists_ok (vals2 shape) (fun _ => List.cons_ne_nil _ _) (by decide) quad_splits depth bounds

/-- Building again, after any history of the object, gives the same lists. -/
theorem C74_rebuild (shape : K × K × K → K) (bounds : B K) (depth : Nat) (s s' : Lists (B K)) :
    build3 octSplit (vals3 shape) bounds depth s = build3 octSplit (vals3 shape) bounds depth s' :=
  rfl

/-- `ImplicitTree2D(shape, depth, bounds=((0,0),(2,2)))` of a shape whose own bounds are
`((0,0),(1,1))`: the classification is made on the given bounds but the cells reported are those of
the shape's bounds, so the single full cell misses the point `(3/2, 3/2)` of the domain and a
reported cell is not tiled by leaves of the tree. -/
theorem C74_bounds_refuted :
    ∃ (shape : ℚ × ℚ → ℚ) (bounds shapeBounds : Q ℚ) (depth : Nat),
      ¬ ListsOk (geo2 ℚ) (vals2 shape) (buildTree quadSplit depth bounds).leaves bounds
        (build2 quadSplit (vals2 shape) bounds shapeBounds depth ⟨[], [], []⟩) := by
  refine ⟨fun _ => -1, ((0, 0), (2, 2)), ((0, 0), (1, 1)), 1, fun h => ?_⟩
  have hf : build2 quadSplit (vals2 (fun _ : ℚ × ℚ => (-1 : ℚ))) ((0, 0), (2, 2))
      ((0, 0), (1, 1)) 1 ⟨[], [], []⟩ = ⟨[((0, 0), (1, 1))], [], []⟩ := by rfl
  have := h.tiles.vol
  rw [hf] at this
  simp only [geo2, List.append_nil, List.map_cons, List.map_nil, List.sum_cons, List.sum_nil] at this
  norm_num at this

/-- The classification only looks at corners: a full cell can contain points outside the shape. -/
theorem C74_full_inside_refuted :
    ∃ (shape : ℚ × ℚ → ℚ) (bounds : Q ℚ) (q : Q ℚ) (p : ℚ × ℚ),
      q ∈ (build2 quadSplit (vals2 shape) bounds bounds 0 ⟨[], [], []⟩).full ∧
      (geo2 ℚ).mem p q ∧ shape p > 0 := by
  refine ⟨fun p => 1/2 - (p.1 * p.1 + p.2 * p.2), ((-1, -1), (1, 1)), ((-1, -1), (1, 1)), (0, 0),
    ?_, ?_, ?_⟩
  · decide +kernel
  · simp only [geo2]; norm_num
  · norm_num

/-- The lists of the half plane `x < 3/4`, depth 2. -/
example : (build2 quadSplit (vals2 (fun p : ℚ × ℚ => p.1 - 3/4)) ((0, 0), (1, 1)) ((0, 0), (1, 1)) 2
    ⟨[], [((7, 7), (8, 8))], []⟩).full.length = 2 := by decide +kernel

/-! ## C75: the adaptive octree -/

/-- `create_octree` on a new node with a valid box terminates whenever every target is larger than
twice the rounding error of the node dimensions (`2·0.00005` for `round(·, 4)`). -/
theorem C75_terminates [Archimedean K] {rnd : K → K} {ε : K} (hr : RoundSpec rnd ε)
    (target : K × K × K) (h1 : 2 * ε < target.1) (h2 : 2 * ε < target.2.1)
    (h3 : 2 * ε < target.2.2) (b : B K) (hb : Valid b) :
    ∃ k t, create rnd target k b false [] = some t := by
  obtain ⟨δ, hδ, d1, d2, d3⟩ : ∃ δ : K, 0 < δ ∧ 2 * ε + δ ≤ target.1 ∧ 2 * ε + δ ≤ target.2.1 ∧
      2 * ε + δ ≤ target.2.2 := by
    refine ⟨min (target.1 - 2 * ε) (min (target.2.1 - 2 * ε) (target.2.2 - 2 * ε)), ?_, ?_, ?_, ?_⟩
    · exact lt_min (by linarith) (lt_min (by linarith) (by linarith))
    · have := min_le_left (target.1 - 2 * ε) (min (target.2.1 - 2 * ε) (target.2.2 - 2 * ε))
      linarith
    · have := (min_le_right (target.1 - 2 * ε) (min (target.2.1 - 2 * ε) (target.2.2 - 2 * ε))).trans
        (min_le_left _ _)
      linarith
    · have := (min_le_right (target.1 - 2 * ε) (min (target.2.1 - 2 * ε) (target.2.2 - 2 * ε))).trans
        (min_le_right _ _)
      linarith
  obtain ⟨k, hk⟩ : ∃ k : Nat, max (b.2.1 - b.1.1 - ε) (max (b.2.2.1 - b.1.2.1 - ε)
      (b.2.2.2 - b.1.2.2 - ε)) / δ < 2 ^ k := pow_unbounded_of_one_lt _ one_lt_two
  rw [div_lt_iff₀ hδ] at hk
  obtain ⟨m1, m23⟩ := max_lt_iff.1 hk
  obtain ⟨m2, m3⟩ := max_lt_iff.1 m23
  exact ⟨k + 1, create_some hr d1 d2 d3 k hb (Or.inr m1.le) (Or.inr m2.le) (Or.inr m3.le)⟩

/-- Every result of `create_octree` on a new node: the leaves tile the box of the node, and each is
within the target on every axis. -/
theorem C75_leaves {rnd : K → K} {ε : K} (hr : RoundSpec rnd ε) (target : K × K × K) (b : B K)
    (hb : Valid b) (k : Nat) (t : Oc K) (h : create rnd target k b false [] = some t) :
    Tiles (geo3 K) t.leaves b ∧ ∀ x ∈ t.leaves, Fits rnd target x := by
  obtain ⟨h1, h2, h3⟩ := create_good hr k hb h
  exact ⟨by have := good_tiles h1; rwa [h2] at this, fun x hx => (h3 x hx).1⟩

/-- Rounding to four decimals satisfies what the theorems assume. -/
theorem round_spec : RoundSpec (fun d : ℚ => (round (d * 10000) : ℚ) / 10000) (1 / 20000) := by
  have key : ∀ d : ℚ, |(round (d * 10000) : ℚ) - d * 10000| ≤ 1 / 2 := fun d => by
    rw [abs_sub_comm]; exact abs_sub_round _
  refine ⟨?_, ?_, ?_⟩
  · intro d hd
    have h := abs_le.1 (key d)
    have h0 : (-1 : ℚ) < (round (d * 10000) : ℚ) := by linarith
    have h0 : (-1 : Int) < round (d * 10000) := by exact_mod_cast h0
    have h0 : (0 : Int) ≤ round (d * 10000) := by omega
    have h0 : (0 : ℚ) ≤ (round (d * 10000) : ℚ) := by exact_mod_cast h0
    exact div_nonneg h0 (by norm_num)
  · intro d hd
    have h := abs_le.1 (key d)
    change (round (d * 10000) : ℚ) / 10000 ≤ 2 * d
    rw [div_le_iff₀ (by norm_num)]
    by_cases hlt : d * 10000 < 1 / 2
    · have h0 : (round (d * 10000) : ℚ) < 1 := by linarith
      have h0 : round (d * 10000) < (1 : Int) := by exact_mod_cast h0
      have h0 : round (d * 10000) ≤ (0 : Int) := by omega
      have h0 : (round (d * 10000) : ℚ) ≤ 0 := by exact_mod_cast h0
      linarith
    · linarith [not_lt.1 hlt]
  · intro d _
    have h := abs_le.1 (key d)
    rw [abs_le]
    change _ ≤ (round (d * 10000) : ℚ) / 10000 - d ∧ (round (d * 10000) : ℚ) / 10000 - d ≤ _
    constructor <;> linarith

/-- So does no rounding at all. -/
theorem id_spec : RoundSpec (id : K → K) 0 :=
  ⟨fun _ h => h, fun d h => by rw [id]; linarith, fun d _ => by simp⟩

/-- The hypotheses of the two theorems on a box that is split on one, two and three axes. -/
example : ∃ (k : Nat) (t : Oc ℚ), create (fun d : ℚ => (round (d * 10000) : ℚ) / 10000)
    (3/5, 3/5, 3/5) k ((0, 0, 0), (4, 2, 1)) false [] = some t :=
  C75_terminates round_spec _ (by norm_num) (by norm_num) (by norm_num) _
    ⟨by norm_num, by norm_num, by norm_num⟩

example : (create (id : ℚ → ℚ) (3/5, 3/5, 3/5) 9 ((0, 0, 0), (4, 2, 1)) false []).map
    (fun t => t.leaves.length) = some 64 := by decide +kernel

/-- `create_octree` called a second time on the same root appends a second set of children: the
leaves no longer tile the box. -/
theorem C75_twice_refuted :
    ∃ (target : ℚ × ℚ × ℚ) (b : B ℚ) (t t' : Oc ℚ),
      create id target 3 b false [] = some t ∧ create id target 3 b false t.child = some t' ∧
      ¬ Tiles (geo3 ℚ) t'.leaves b := by
  refine ⟨(1/2, 1, 1), ((0, 0, 0), (1, 1, 1)),
    .node ((0, 0, 0), (1, 1, 1)) false [.node ((0, 0, 0), (1/2, 1, 1)) true [],
      .node ((1/2, 0, 0), (1, 1, 1)) true []],
    .node ((0, 0, 0), (1, 1, 1)) false [.node ((0, 0, 0), (1/2, 1, 1)) true [],
      .node ((1/2, 0, 0), (1, 1, 1)) true [], .node ((0, 0, 0), (1/2, 1, 1)) true [],
      .node ((1/2, 0, 0), (1, 1, 1)) true []], ?_, ?_, ?_⟩
  · have d1 : (1 : ℚ) - 1/2 = 1/2 := by norm_num
    norm_num [create, findDivision, divideX, dims, center]
  · norm_num [create, findDivision, divideX, dims, center, Oc.child]
  · intro h
    have := h.vol
    norm_num [Oc.leaves, leavesIn, geo3] at this

/-! ## C76: `closest_node` finds the leaf containing a point -/

/-- On every octree made by `create_octree` and every point: outside the root box the answer is
`None`, inside it is a leaf that contains the point. -/
theorem C76_closest_node {rnd : K → K} {ε : K} (hr : RoundSpec rnd ε) (target : K × K × K)
    (b : B K) (hb : Valid b) (k : Nat) (t : Oc K) (h : create rnd target k b false [] = some t)
    (p : K × K × K) :
    ((geo3 K).mem p b → ∃ r, closestNode p t = some r ∧ r ∈ t.leaves ∧ (geo3 K).mem p r) ∧
    (¬ (geo3 K).mem p b → closestNode p t = none) := by
  obtain ⟨h1, h2, _⟩ := create_good hr k hb h
  have := closestNode_spec h1 p
  rwa [h2] at this

example : (create (id : ℚ → ℚ) (3/5, 3/5, 3/5) 9 ((0, 0, 0), (4, 2, 1)) false []).bind
    (closestNode (3/4, 1/2, 1)) = some ((1/2, 0, 1/2), (1, 1/2, 1)) := by decide +kernel

/-! ## C77: `traverse` refines every leaf -/

/-- Every node without children carries the lamp. -/
inductive Lit : Oc K → Prop
  | leaf (b : B K) : Lit (.node b true [])
  | node (b : B K) (ch : List (Oc K)) : ch ≠ [] → (∀ c ∈ ch, Lit c) → Lit (.node b false ch)

theorem findDivision_ne {rnd : K → K} {target : K × K × K} {b : B K} (h : ¬ Fits rnd target b) :
    findDivision b.1 b.2 (center rnd b) (dims rnd b) target ≠ [] := by
  intro h0
  apply h
  by_cases h1 : (dims rnd b).1 > target.1 <;> by_cases h2 : (dims rnd b).2.1 > target.2.1 <;>
    by_cases h3 : (dims rnd b).2.2 > target.2.2 <;>
    simp only [findDivision, h1, h2, h3, decide_true, decide_false, divideX, divideY, divideZ,
      divideXy, divideXz, divideYz, divideXyz, reduceCtorEq] at h0
  exact ⟨not_lt.1 h1, not_lt.1 h2, not_lt.1 h3⟩

theorem create_lit {rnd : K → K} {target : K × K × K} (k : Nat) :
    ∀ {b : B K} {t : Oc K}, create rnd target k b false [] = some t → Lit t := by
  induction k with
  | zero => intro b t h; simp [create] at h
  | succ k ih =>
    intro b t h
    by_cases hf : Fits rnd target b
    · rw [create_fit hf] at h; cases h; exact Lit.leaf b
    · rw [create_split hf] at h
      obtain ⟨cs, hcs, rfl⟩ := Option.map_eq_some_iff.1 h
      rw [List.nil_append]
      have hfa := mapM_some hcs
      have hD := findDivision_ne hf
      clear hcs h
      generalize findDivision b.1 b.2 (center rnd b) (dims rnd b) target = D at hfa hD
      have hne : cs ≠ [] := by
        intro h0; subst h0; cases hfa; exact hD rfl
      refine Lit.node b cs hne ?_
      clear hD hne
      induction hfa with
      | nil => simp
      | cons hx _ ihx =>
        intro c hc
        rcases List.mem_cons.1 hc with rfl | hc
        · exact ih hx
        · exact ihx c hc

theorem traverseList_eq (rnd : K → K) (L : List (Oc K)) :
    traverseList rnd L = L.map (traverse rnd) := by
  induction L with
  | nil => rw [traverseList]; rfl
  | cons c l ih => rw [traverseList, ih, List.map_cons]

/-- What `traverse` keeps and what it changes. -/
theorem traverse_spec {rnd : K → K} {ε : K} (hr : RoundSpec rnd ε) {t : Oc K} (hg : Good t)
    (hl : Lit t) (hv : ∀ x ∈ t.leaves, Valid x) :
    Good (traverse rnd t) ∧ Lit (traverse rnd t) ∧ (traverse rnd t).box = t.box ∧
    (∀ x ∈ (traverse rnd t).leaves, Valid x) ∧
    (traverse rnd t).leaves.length = 8 * t.leaves.length := by
  induction hg with
  | leaf b l =>
    cases hl with
    | node _ _ h _ => exact absurd rfl h
    | leaf _ =>
      have hb : Valid b := hv b (by rw [leaves_nil]; simp)
      obtain ⟨⟨c1, c2⟩, ⟨c3, c4⟩, ⟨c5, c6⟩⟩ := center_mem hr hb
      rw [traverse, createChildren, List.nil_append]
      have hne : (divideXyz b.1 b.2 (center rnd b)).map (fun x => Oc.node x true []) ≠ [] := by
        simp [divideXyz]
      have hlv : ((divideXyz b.1 b.2 (center rnd b)).map (fun x => Oc.node x true [])).flatMap
          Oc.leaves = divideXyz b.1 b.2 (center rnd b) := by
        simp only [divideXyz, List.map_cons, List.map_nil, List.flatMap_cons, List.flatMap_nil,
          leaves_nil, List.cons_append, List.nil_append]
      refine ⟨Good.node b _ hne ?_ ?_, Lit.node b _ hne ?_, rfl, ?_, ?_⟩
      · rw [List.map_map]
        exact (List.map_id' _).symm ▸ divideXyz_tiles c1 c2 c3 c4 c5 c6
      · intro c hc
        obtain ⟨x, _, rfl⟩ := List.mem_map.1 hc
        exact Good.leaf x true
      · intro c hc
        obtain ⟨x, _, rfl⟩ := List.mem_map.1 hc
        exact Lit.leaf x
      · rw [leaves_cons b false hne, hlv]
        obtain ⟨b1, b2, b3⟩ := hb
        intro x hx
        simp only [divideXyz, List.mem_cons, List.not_mem_nil, or_false] at hx
        rcases hx with rfl | rfl | rfl | rfl | rfl | rfl | rfl | rfl <;>
          exact ⟨by assumption, by assumption, by assumption⟩
      · rw [leaves_cons b false hne, hlv, leaves_nil]; rfl
  | node b ch hne ht hgc ih =>
    cases hl with
    | node _ _ hne2 hlc =>
      rw [traverse, traverseList_eq]
      have hne' : ch.map (traverse rnd) ≠ [] := by simpa using hne
      rw [leaves_cons b false hne] at hv
      have ih' : ∀ c ∈ ch, Good (traverse rnd c) ∧ Lit (traverse rnd c) ∧
          (traverse rnd c).box = c.box ∧ (∀ x ∈ (traverse rnd c).leaves, Valid x) ∧
          (traverse rnd c).leaves.length = 8 * c.leaves.length := fun c hc =>
        ih c hc (hlc c hc) (fun x hx => hv x (List.mem_flatMap.2 ⟨c, hc, hx⟩))
      refine ⟨Good.node b _ hne' ?_ ?_, Lit.node b _ hne' ?_, rfl, ?_, ?_⟩
      · have : (ch.map (traverse rnd)).map Oc.box = ch.map Oc.box := by
          rw [List.map_map]
          exact List.map_congr_left (fun c hc => (ih' c hc).2.2.1)
        rw [this]; exact ht
      · intro c hc
        obtain ⟨x, hx, rfl⟩ := List.mem_map.1 hc
        exact (ih' x hx).1
      · intro c hc
        obtain ⟨x, hx, rfl⟩ := List.mem_map.1 hc
        exact (ih' x hx).2.1
      · intro x hx
        rw [leaves_cons b false hne'] at hx
        obtain ⟨c, hc, hx⟩ := List.mem_flatMap.1 hx
        obtain ⟨y, hy, rfl⟩ := List.mem_map.1 hc
        exact (ih' y hy).2.2.2.1 x hx
      · rw [leaves_cons b false hne', leaves_cons b false hne]
        clear ih hgc ht hne hv hlc hne' hne2
        induction ch with
        | nil => rfl
        | cons c l ihl =>
          rw [List.map_cons, List.flatMap_cons, List.flatMap_cons, List.length_append,
            List.length_append, ihl (fun d hd => ih' d (by simp [hd])), (ih' c (by simp)).2.2.2.2]
          ring

/-- `traverse` applied `m` times. -/
def traverseN (rnd : K → K) : Nat → Oc K → Oc K
  | 0, t => t
  | m + 1, t => traverseN rnd m (traverse rnd t)

/-- After `create_octree`, each call of `traverse` splits every leaf in eight, and the leaves still
tile the root box, for any number of calls; `closest_node` keeps finding a leaf that contains the
point. -/
theorem C77_traverse {rnd : K → K} {ε : K} (hr : RoundSpec rnd ε) (target : K × K × K)
    (b : B K) (hb : Valid b) (k : Nat) (t : Oc K) (h : create rnd target k b false [] = some t)
    (m : Nat) :
    (traverseN rnd m t).leaves.length = 8 ^ m * t.leaves.length ∧
    Tiles (geo3 K) (traverseN rnd m t).leaves b ∧
    ∀ p, (geo3 K).mem p b →
      ∃ r, closestNode p (traverseN rnd m t) = some r ∧ r ∈ (traverseN rnd m t).leaves ∧
        (geo3 K).mem p r := by
  obtain ⟨h1, h2, h3⟩ := create_good hr k hb h
  have hlit := create_lit k h
  have hv : ∀ x ∈ t.leaves, Valid x := fun x hx => (h3 x hx).2
  clear h h3
  induction m generalizing t with
  | zero =>
    refine ⟨by simp [traverseN], ?_, ?_⟩
    · have := good_tiles h1; rwa [h2] at this
    · intro p hp
      exact (closestNode_spec h1 p).1 (by rw [h2]; exact hp)
  | succ m ih =>
    obtain ⟨g1, g2, g3, g4, g5⟩ := traverse_spec hr h1 hlit hv
    obtain ⟨i1, i2, i3⟩ := ih (traverse rnd t) g1 (by rw [g3, h2]) g2 g4
    refine ⟨?_, i2, i3⟩
    rw [traverseN, i1, g5, pow_succ]; ring

example : (create (id : ℚ → ℚ) (3/5, 3/5, 3/5) 9 ((0, 0, 0), (1, 1, 1/2)) false []).map
    (fun t => (traverseN id 2 t).leaves.length) = some 256 := by decide +kernel

/-! ## C78: the box predicates of `OCNode` -/

/-- `contains_point`, `in_bbox`, `contains_bbox` and `overlap` of boxes with at least one point:
membership, inclusion both ways, and having a common point. -/
theorem C78_predicates (b m : B K) (hb : Valid b) (hm : Valid m) :
    (∀ p, containsPoint b p = true ↔ (geo3 K).mem p b) ∧
    (inBbox b m = true ↔ ∀ p, (geo3 K).mem p b → (geo3 K).mem p m) ∧
    (containsBbox b m = true ↔ ∀ p, (geo3 K).mem p m → (geo3 K).mem p b) ∧
    (overlap b m = true ↔ ∃ p, (geo3 K).mem p b ∧ (geo3 K).mem p m) := by
  obtain ⟨⟨b1, b2, b3⟩, ⟨b4, b5, b6⟩⟩ := b
  obtain ⟨⟨m1, m2, m3⟩, ⟨m4, m5, m6⟩⟩ := m
  obtain ⟨hb1, hb2, hb3⟩ := hb
  obtain ⟨hm1, hm2, hm3⟩ := hm
  dsimp only at hb1 hb2 hb3 hm1 hm2 hm3
  refine ⟨containsPoint_iff _, ?_, ?_, ?_⟩
  · simp only [inBbox, Bool.and_eq_true, decide_eq_true_eq, ge_iff_le, geo3]
    constructor
    · rintro ⟨⟨⟨⟨⟨h1, h2⟩, h3⟩, h4⟩, h5⟩, h6⟩ p ⟨k1, k2, k3, k4, k5, k6⟩
      exact ⟨by linarith, by linarith, by linarith, by linarith, by linarith, by linarith⟩
    · intro h
      obtain ⟨l1, _, l3, _, l5, _⟩ := h (b1, b2, b3) ⟨le_refl _, hb1, le_refl _, hb2, le_refl _, hb3⟩
      obtain ⟨_, l2, _, l4, _, l6⟩ := h (b4, b5, b6) ⟨hb1, le_refl _, hb2, le_refl _, hb3, le_refl _⟩
      exact ⟨⟨⟨⟨⟨l1, l3⟩, l5⟩, l2⟩, l4⟩, l6⟩
  · simp only [containsBbox, Bool.and_eq_true, decide_eq_true_eq, ge_iff_le, geo3]
    constructor
    · rintro ⟨⟨⟨⟨⟨h1, h2⟩, h3⟩, h4⟩, h5⟩, h6⟩ p ⟨k1, k2, k3, k4, k5, k6⟩
      exact ⟨by linarith, by linarith, by linarith, by linarith, by linarith, by linarith⟩
    · intro h
      obtain ⟨l1, _, l3, _, l5, _⟩ := h (m1, m2, m3) ⟨le_refl _, hm1, le_refl _, hm2, le_refl _, hm3⟩
      obtain ⟨_, l2, _, l4, _, l6⟩ := h (m4, m5, m6) ⟨hm1, le_refl _, hm2, le_refl _, hm3, le_refl _⟩
      exact ⟨⟨⟨⟨⟨l1, l3⟩, l5⟩, l2⟩, l4⟩, l6⟩
  · constructor
    · intro h
      simp only [overlap, gt_iff_lt, sub_pos] at h
      split_ifs at h with h1 h2
      push Not at h1 h2
      refine ⟨(max b1 m1, max b2 m2, max b3 m3), ⟨le_max_left _ _, max_le hb1 h1.1, le_max_left _ _,
        max_le hb2 h1.2.1, le_max_left _ _, max_le hb3 h1.2.2⟩, ⟨le_max_right _ _, max_le h2.1 hm1,
        le_max_right _ _, max_le h2.2.1 hm2, le_max_right _ _, max_le h2.2.2 hm3⟩⟩
    · rintro ⟨p, ⟨k1, k2, k3, k4, k5, k6⟩, ⟨l1, l2, l3, l4, l5, l6⟩⟩
      dsimp only at k1 k2 k3 k4 k5 k6 l1 l2 l3 l4 l5 l6
      simp only [overlap, gt_iff_lt, sub_pos]
      rw [if_neg, if_neg]
      · rintro (h | h | h) <;> linarith
      · rintro (h | h | h) <;> linarith

example : Valid (((0, 0, 0), (1, 1, 1)) : B ℚ) ∧
    overlap (((0, 0, 0), (1, 1, 1)) : B ℚ) ((1, 0, 0), (2, 1, 1)) = true ∧
    overlap (((0, 0, 0), (1, 1, 1)) : B ℚ) ((3/2, 0, 0), (2, 1, 1)) = false := by
  refine ⟨⟨by norm_num, by norm_num, by norm_num⟩, ?_⟩
  decide +kernel

/-! ## C79: the two dimensional division -/

/-- `find_division_option_2d`: raises exactly when both dimensions are within the target, and
otherwise the pieces tile the cell, for every division point between the corners; a dimension
within the target is not divided. -/
theorem C79_division2d (mn mx c dims target : K × K) (h1 : mn.1 ≤ c.1) (h2 : c.1 ≤ mx.1)
    (h3 : mn.2 ≤ c.2) (h4 : c.2 ≤ mx.2) :
    (findDivision2 mn mx c dims target = none ↔ dims.1 ≤ target.1 ∧ dims.2 ≤ target.2) ∧
    (∀ L, findDivision2 mn mx c dims target = some L → Tiles (geo2 K) L (mn, mx) ∧
      (dims.1 ≤ target.1 → ∀ x ∈ L, x.1.1 = mn.1 ∧ x.2.1 = mx.1) ∧
      (dims.2 ≤ target.2 → ∀ x ∈ L, x.1.2 = mn.2 ∧ x.2.2 = mx.2)) := by
  by_cases d1 : dims.1 > target.1 <;> by_cases d2 : dims.2 > target.2 <;>
    simp only [findDivision2, d1, d2, decide_true, decide_false, reduceCtorEq, false_iff, true_iff,
      Option.some.injEq, forall_eq', false_implies, implies_true, and_true]
  · refine ⟨fun h => absurd h.1 (not_le.2 d1), ⟨?_, ?_, ?_, ?_, ?_⟩,
      fun h => absurd h (not_le.2 d1), fun h => absurd h (not_le.2 d2)⟩
    · intro x hx p hp
      simp only [List.mem_cons, List.not_mem_nil, or_false] at hx
      rcases hx with rfl | rfl | rfl | rfl <;>
      · obtain ⟨k1, k2, k3, k4⟩ := hp
        dsimp only at k1 k2 k3 k4
        refine ⟨?_, ?_, ?_, ?_⟩ <;> dsimp only <;> linarith
    · intro x hx p hp
      simp only [List.mem_cons, List.not_mem_nil, or_false] at hx
      rcases hx with rfl | rfl | rfl | rfl <;>
      · obtain ⟨k1, k2, k3, k4⟩ := hp
        dsimp only at k1 k2 k3 k4
        refine ⟨?_, ?_, ?_, ?_⟩ <;> dsimp only <;> linarith
    · rintro p ⟨k1, k2, k3, k4⟩
      simp only [List.mem_cons, List.not_mem_nil, or_false, exists_eq_or_imp, exists_eq_left]
      rcases le_total p.1 c.1 with hx | hx <;> rcases le_total p.2 c.2 with hy | hy
      · exact Or.inl ⟨k1, hx, k3, hy⟩
      · exact Or.inr (Or.inr (Or.inr ⟨k1, hx, hy, k4⟩))
      · exact Or.inr (Or.inl ⟨hx, k2, k3, hy⟩)
      · exact Or.inr (Or.inr (Or.inl ⟨hx, k2, hy, k4⟩))
    · simp only [List.pairwise_cons, List.mem_cons, List.not_mem_nil, or_false, forall_eq_or_imp,
        forall_eq, false_implies, implies_true, List.Pairwise.nil, and_true]
      refine ⟨⟨?_, ?_, ?_⟩, ⟨?_, ?_⟩, ?_⟩ <;>
      · rintro p ⟨⟨h1, h2, h3, h4⟩, ⟨k1, k2, k3, k4⟩⟩
        dsimp only at h1 h2 h3 h4 k1 k2 k3 k4
        linarith
    · simp only [List.map_cons, List.map_nil, List.sum_cons, List.sum_nil, geo2]
      ring
  · refine ⟨fun h => absurd h.1 (not_le.2 d1), ⟨?_, ?_, ?_, ?_, ?_⟩,
      fun h => absurd h (not_le.2 d1), fun _ => by simp⟩
    · intro x hx p hp
      simp only [List.mem_cons, List.not_mem_nil, or_false] at hx
      rcases hx with rfl | rfl <;>
      · obtain ⟨k1, k2, k3, k4⟩ := hp
        dsimp only at k1 k2 k3 k4
        refine ⟨?_, ?_, ?_, ?_⟩ <;> dsimp only <;> linarith
    · intro x hx p hp
      simp only [List.mem_cons, List.not_mem_nil, or_false] at hx
      rcases hx with rfl | rfl <;>
      · obtain ⟨k1, k2, k3, k4⟩ := hp
        dsimp only at k1 k2 k3 k4
        refine ⟨?_, ?_, ?_, ?_⟩ <;> dsimp only <;> linarith
    · rintro p ⟨k1, k2, k3, k4⟩
      simp only [List.mem_cons, List.not_mem_nil, or_false, exists_eq_or_imp, exists_eq_left]
      rcases le_total p.1 c.1 with hx | hx
      · exact Or.inl ⟨k1, hx, k3, k4⟩
      · exact Or.inr ⟨hx, k2, k3, k4⟩
    · simp only [List.pairwise_cons, List.mem_cons, List.not_mem_nil, or_false,
        forall_eq, false_implies, implies_true, List.Pairwise.nil, and_true]
      rintro p ⟨⟨h1, h2, h3, h4⟩, ⟨k1, k2, k3, k4⟩⟩
      dsimp only at h1 h2 h3 h4 k1 k2 k3 k4
      linarith
    · simp only [List.map_cons, List.map_nil, List.sum_cons, List.sum_nil, geo2]
      ring
  · refine ⟨fun h => absurd h.2 (not_le.2 d2), ⟨?_, ?_, ?_, ?_, ?_⟩,
      fun _ => by simp, fun h => absurd h (not_le.2 d2)⟩
    · intro x hx p hp
      simp only [List.mem_cons, List.not_mem_nil, or_false] at hx
      rcases hx with rfl | rfl <;>
      · obtain ⟨k1, k2, k3, k4⟩ := hp
        dsimp only at k1 k2 k3 k4
        refine ⟨?_, ?_, ?_, ?_⟩ <;> dsimp only <;> linarith
    · intro x hx p hp
      simp only [List.mem_cons, List.not_mem_nil, or_false] at hx
      rcases hx with rfl | rfl <;>
      · obtain ⟨k1, k2, k3, k4⟩ := hp
        dsimp only at k1 k2 k3 k4
        refine ⟨?_, ?_, ?_, ?_⟩ <;> dsimp only <;> linarith
    · rintro p ⟨k1, k2, k3, k4⟩
      simp only [List.mem_cons, List.not_mem_nil, or_false, exists_eq_or_imp, exists_eq_left]
      rcases le_total p.2 c.2 with hx | hx
      · exact Or.inl ⟨k1, k2, k3, hx⟩
      · exact Or.inr ⟨k1, k2, hx, k4⟩
    · simp only [List.pairwise_cons, List.mem_cons, List.not_mem_nil, or_false,
        forall_eq, false_implies, implies_true, List.Pairwise.nil, and_true]
      rintro p ⟨⟨h1, h2, h3, h4⟩, ⟨k1, k2, k3, k4⟩⟩
      dsimp only at h1 h2 h3 h4 k1 k2 k3 k4
      linarith
    · simp only [List.map_cons, List.map_nil, List.sum_cons, List.sum_nil, geo2]
      ring
  · exact ⟨not_lt.1 d1, not_lt.1 d2⟩

example : findDivision2 ((0, 0) : ℚ × ℚ) (4, 1) (2, 1/2) (4, 1) (1, 1) =
    some [((0, 0), (2, 1)), ((2, 0), (4, 1))] := by decide +kernel

/-! ## C80: `power_of_two` -/

/-- For every positive integer, `power_of_two(x)` is the least power of two not below `x`. -/
theorem C80_power_of_two (x : Int) (hx : 1 ≤ x) :
    (∃ k, powerOfTwo x = 2 ^ k) ∧ x ≤ powerOfTwo x ∧
    ∀ k : Nat, x ≤ 2 ^ k → powerOfTwo x ≤ 2 ^ k := by
  obtain ⟨m, rfl⟩ : ∃ m : Nat, x = (m : Int) + 1 := ⟨(x - 1).toNat, by omega⟩
  have hm : (((m : Int) + 1 - 1).natAbs) = m := by omega
  have he : powerOfTwo ((m : Int) + 1) = 2 ^ bitLength ((m : Int) + 1 - 1) := by
    rw [powerOfTwo, Nat.one_shiftLeft]
  rw [he, bitLength, hm]
  by_cases h0 : m = 0
  · subst h0
    refine ⟨⟨0, by simp⟩, by simp, fun k _ => ?_⟩
    simpa using Nat.one_le_two_pow
  · rw [if_neg h0]
    refine ⟨⟨_, rfl⟩, ?_, ?_⟩
    · have := Nat.lt_pow_succ_log_self (b := 2) (by norm_num) m
      rw [Nat.log2_eq_log_two]
      exact_mod_cast this
    · intro k hk
      have hk' : m + 1 ≤ 2 ^ k := by exact_mod_cast hk
      have : Nat.log 2 m < k := Nat.log_lt_of_lt_pow h0 (by omega)
      rw [Nat.log2_eq_log_two]
      exact Nat.pow_le_pow_right (by norm_num) this

/-- The comment in the source ("the closest power of two") is not what it computes: for `5` it
gives `8`, though `4` is closer. -/
theorem C80_closest_refuted : ∃ (x : Int) (k : Nat),
    |(2 ^ k : Int) - x| < |(powerOfTwo x : Int) - x| := ⟨5, 2, by decide⟩

example : powerOfTwo 1 = 1 ∧ powerOfTwo 64 = 64 ∧ powerOfTwo 65 = 128 ∧ powerOfTwo 0 = 2 := by
  decide +kernel

end Verif.ImplTree
