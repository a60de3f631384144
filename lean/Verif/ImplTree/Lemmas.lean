import Verif.ImplTree.Model
import Mathlib.Tactic.Linarith
import Mathlib.Tactic.Ring
import Mathlib.Tactic.FieldSimp
import Mathlib.Tactic.FinCases
import Mathlib.Algebra.BigOperators.Group.List.Lemmas
import Mathlib.Algebra.BigOperators.Fin
import Mathlib.Data.List.Flatten

/-! # Tilings: vocabulary and composition lemmas -/

set_option linter.unusedSectionVars false

namespace Verif.ImplTree

/-- What it takes to talk about tilings: the points of a box, its inner points, its measure. -/
structure Geo (P β K : Type) where
  mem : P → β → Prop
  imem : P → β → Prop
  vol : β → K

/-- The boxes in the list tile `b`: they lie in `b`, cover it, have pairwise disjoint interiors,
and their measures add up to the measure of `b`. -/
structure Tiles {P β K : Type} [AddCommMonoid K] (g : Geo P β K) (L : List β) (b : β) : Prop where
  sub : ∀ x ∈ L, ∀ p, g.mem p x → g.mem p b
  isub : ∀ x ∈ L, ∀ p, g.imem p x → g.imem p b
  cover : ∀ p, g.mem p b → ∃ x ∈ L, g.mem p x
  disj : L.Pairwise (fun x y => ∀ p, ¬ (g.imem p x ∧ g.imem p y))
  vol : (L.map g.vol).sum = g.vol b

variable {P β K : Type} [AddCommMonoid K] {g : Geo P β K}

theorem tiles_single (b : β) : Tiles g [b] b where
  sub := by intro x hx p h; rw [List.mem_singleton] at hx; subst hx; exact h
  isub := by intro x hx p h; rw [List.mem_singleton] at hx; subst hx; exact h
  cover := fun p h => ⟨b, List.mem_singleton_self b, h⟩
  disj := List.pairwise_singleton _ _
  vol := by simp

theorem pairwise_flatMap' {α : Type} {R : β → β → Prop} {f : α → List β} {S : α → α → Prop}
    {L : List α} (hL : L.Pairwise S) (hin : ∀ a ∈ L, (f a).Pairwise R)
    (hx : ∀ a ∈ L, ∀ b ∈ L, S a b → ∀ x ∈ f a, ∀ y ∈ f b, R x y) :
    (L.flatMap f).Pairwise R := by
  induction L with
  | nil => simp
  | cons a l ih =>
    rw [List.pairwise_cons] at hL
    rw [List.flatMap_cons, List.pairwise_append]
    refine ⟨hin a (by simp), ih hL.2 (fun b hb => hin b (by simp [hb]))
      (fun b hb c hc => hx b (by simp [hb]) c (by simp [hc])), ?_⟩
    intro x hxa y hy
    obtain ⟨b, hb, hyb⟩ := List.mem_flatMap.1 hy
    exact hx a (by simp) b (by simp [hb]) (hL.1 b hb) x hxa y hyb

/-- Tilings compose.  The pieces are indexed so that equal boxes at different places stay
apart. -/
theorem tiles_flatMap {α : Type} (L : List α) (box : α → β) (f : α → List β) (b : β)
    (h : Tiles g (L.map box) b) (hf : ∀ a ∈ L, Tiles g (f a) (box a)) :
    Tiles g (L.flatMap f) b where
  sub := by
    intro x hx p hp
    obtain ⟨a, ha, hxa⟩ := List.mem_flatMap.1 hx
    exact h.sub _ (List.mem_map_of_mem ha) p ((hf a ha).sub x hxa p hp)
  isub := by
    intro x hx p hp
    obtain ⟨a, ha, hxa⟩ := List.mem_flatMap.1 hx
    exact h.isub _ (List.mem_map_of_mem ha) p ((hf a ha).isub x hxa p hp)
  cover := by
    intro p hp
    obtain ⟨y, hy, hpy⟩ := h.cover p hp
    obtain ⟨a, ha, rfl⟩ := List.mem_map.1 hy
    obtain ⟨x, hx, hpx⟩ := (hf a ha).cover p hpy
    exact ⟨x, List.mem_flatMap.2 ⟨a, ha, hx⟩, hpx⟩
  disj := by
    refine pairwise_flatMap' (List.pairwise_map.1 h.disj) (fun a ha => (hf a ha).disj) ?_
    intro a ha c hc hac x hx y hy p hp
    exact hac p ⟨(hf a ha).isub x hx p hp.1, (hf c hc).isub y hy p hp.2⟩
  vol := by
    rw [← h.vol, List.map_map]
    clear h
    induction L with
    | nil => rfl
    | cons a l ih =>
      rw [List.flatMap_cons, List.map_append, List.sum_append, List.map_cons, List.sum_cons,
        ih (fun c hc => hf c (by simp [hc])), (hf a (by simp)).vol]
      rfl

/-- Splitting into the children of a node: the shape of one refinement step. -/
def Splits {n : Nat} (g : Geo P β K) (sp : β → Fin n → β) : Prop :=
  ∀ b, Tiles g ((List.finRange n).map (sp b)) b

variable {n : Nat}

/-- The leaf boxes of a tree, looking also below `Empty` and `Full` nodes. -/
def T.leaves : T n β → List β
  | .leaf d => [d]
  | .root ch => (List.finRange n).flatMap (fun i => (ch i).leaves)
  | .empty t => t.leaves
  | .full t => t.leaves

/-- A tree without `Empty` and `Full` nodes, as `build_tree` makes it. -/
def T.pure : T n β → Prop
  | .leaf _ => True
  | .root ch => ∀ i, (ch i).pure
  | .empty _ => False
  | .full _ => False

/-- The leaves that are still `Leaf` objects in the (collapsed) tree: not hidden below `Empty` or
`Full`. -/
def T.open : T n β → List β
  | .leaf d => [d]
  | .root ch => (List.finRange n).flatMap (fun i => (ch i).open)
  | .empty _ => []
  | .full _ => []

/-- The leaf boxes below the topmost `Full` nodes. -/
def T.fullLeaves : T n β → List β
  | .leaf _ => []
  | .root ch => (List.finRange n).flatMap (fun i => (ch i).fullLeaves)
  | .empty _ => []
  | .full t => t.leaves

/-- The leaf boxes below the topmost `Empty` nodes. -/
def T.emptyLeaves : T n β → List β
  | .leaf _ => []
  | .root ch => (List.finRange n).flatMap (fun i => (ch i).emptyLeaves)
  | .empty t => t.leaves
  | .full _ => []

theorem buildTree_pure (sp : β → Fin n → β) (i : Nat) (b : β) : (buildTree sp i b).pure := by
  induction i generalizing b with
  | zero => trivial
  | succ i ih => exact fun j => ih (sp b j)

theorem buildTree_tiles {sp : β → Fin n → β} (hs : Splits g sp) (i : Nat) (b : β) :
    Tiles g (buildTree sp i b).leaves b := by
  induction i generalizing b with
  | zero => exact tiles_single b
  | succ i ih =>
    exact tiles_flatMap (List.finRange n) (sp b) _ b (hs b) (fun j _ => ih (sp b j))

theorem flatMap_len {α : Type} (L : List α) (f : α → List β) (k : Nat)
    (h : ∀ a ∈ L, (f a).length = k) : (L.flatMap f).length = L.length * k := by
  induction L with
  | nil => simp
  | cons a l ih =>
    rw [List.flatMap_cons, List.length_append, h a (by simp), ih (fun c hc => h c (by simp [hc])),
      List.length_cons]
    ring

theorem buildTree_count (sp : β → Fin n → β) (i : Nat) (b : β) :
    (buildTree sp i b).leaves.length = n ^ i := by
  induction i generalizing b with
  | zero => rfl
  | succ i ih =>
    change ((List.finRange n).flatMap _).length = _
    rw [flatMap_len _ _ (n ^ i) (fun j _ => ih (sp b j)), List.length_finRange, pow_succ]
    ring

/-! ## Collapse -/

section Collapse

variable {F : Type} [Zero F] [LinearOrder F] (vals : β → List F)

/-- Every corner value is negative. -/
def inside (b : β) : Prop := ∀ v ∈ vals b, v < 0
/-- Every corner value is nonnegative. -/
def outside (b : β) : Prop := ∀ v ∈ vals b, v ≥ 0

instance (b : β) : Decidable (inside vals b) := inferInstanceAs (Decidable (∀ v ∈ vals b, v < 0))
instance (b : β) : Decidable (outside vals b) := inferInstanceAs (Decidable (∀ v ∈ vals b, v ≥ 0))

theorem all_lt (b : β) : ((vals b).all (fun v => decide (v < 0))) = true ↔ inside vals b := by
  simp [inside]

theorem all_ge (b : β) : ((vals b).all (fun v => decide (v ≥ 0))) = true ↔ outside vals b := by
  simp [outside]

theorem collapse_leaf_full {d : β} (h : inside vals d) :
    collapse vals (.leaf d : T n β) = .full (.leaf d) := by
  rw [collapse]; exact if_pos ((all_lt vals d).2 h)

theorem collapse_leaf_empty {d : β} (h : ¬ inside vals d) (h' : outside vals d) :
    collapse vals (.leaf d : T n β) = .empty (.leaf d) := by
  rw [collapse, if_neg (fun c => h ((all_lt vals d).1 c))]
  exact if_pos ((all_ge vals d).2 h')

theorem collapse_leaf_mixed {d : β} (h : ¬ inside vals d) (h' : ¬ outside vals d) :
    collapse vals (.leaf d : T n β) = .leaf d := by
  rw [collapse, if_neg (fun c => h ((all_lt vals d).1 c))]
  exact if_neg (fun c => h' ((all_ge vals d).1 c))

theorem collapse_root_empty {ch : Fin n → T n β}
    (h : ∀ i, (collapse vals (ch i)).isEmpty = true) :
    collapse vals (.root ch) = .empty (.root ch) := by
  rw [collapse]; exact if_pos (by simpa using h)

theorem collapse_root_full {ch : Fin n → T n β}
    (h' : ¬ ∀ i, (collapse vals (ch i)).isEmpty = true)
    (h : ∀ i, (collapse vals (ch i)).isFull = true) :
    collapse vals (.root ch) = .full (.root ch) := by
  rw [collapse, if_neg (by simpa using h')]; exact if_pos (by simpa using h)

theorem collapse_root_root {ch : Fin n → T n β}
    (h' : ¬ ∀ i, (collapse vals (ch i)).isEmpty = true)
    (h : ¬ ∀ i, (collapse vals (ch i)).isFull = true) :
    collapse vals (.root ch) = .root (fun i => collapse vals (ch i)) := by
  rw [collapse, if_neg (by simpa using h')]; exact if_neg (by simpa using h)

theorem isFull_cases {t : T n β} (h : t.isFull = true) : ∃ u, t = .full u := by
  cases t <;> simp [T.isFull] at h ⊢

theorem isEmpty_cases {t : T n β} (h : t.isEmpty = true) : ∃ u, t = .empty u := by
  cases t <;> simp [T.isEmpty] at h ⊢

/-- A collapsed `Full` node wraps the original tree, and every leaf of it is inside; dually for
`Empty`. -/
theorem collapse_spec (hv : ∀ b, vals b ≠ []) (t : T n β) (ht : t.pure) (hn : 0 < n) :
    (∀ u, collapse vals t = .full u ↔ (u = t ∧ ∀ b ∈ t.leaves, inside vals b)) ∧
    (∀ u, collapse vals t = .empty u ↔ (u = t ∧ ∀ b ∈ t.leaves, outside vals b)) := by
  have excl : ∀ b, ¬ (inside vals b ∧ outside vals b) := by
    intro b ⟨h1, h2⟩
    obtain ⟨v, hv'⟩ := List.exists_mem_of_ne_nil _ (hv b)
    exact absurd (h1 v hv') (not_lt.2 (h2 v hv'))
  induction t with
  | leaf d =>
    by_cases h1 : inside vals d
    · rw [collapse_leaf_full vals h1]
      have h2 : ¬ outside vals d := fun h => excl d ⟨h1, h⟩
      constructor
      · intro u
        constructor
        · intro h; cases h; exact ⟨rfl, by simpa [T.leaves] using h1⟩
        · rintro ⟨rfl, _⟩; rfl
      · intro u
        constructor
        · intro h; cases h
        · rintro ⟨_, h⟩; exact absurd (h d (by simp [T.leaves])) h2
    · by_cases h2 : outside vals d
      · rw [collapse_leaf_empty vals h1 h2]
        constructor
        · intro u
          constructor
          · intro h; cases h
          · rintro ⟨_, h⟩; exact absurd (h d (by simp [T.leaves])) h1
        · intro u
          constructor
          · intro h; cases h; exact ⟨rfl, by simpa [T.leaves] using h2⟩
          · rintro ⟨rfl, _⟩; rfl
      · rw [collapse_leaf_mixed vals h1 h2]
        constructor
        · intro u
          constructor
          · intro h; cases h
          · rintro ⟨_, h⟩; exact absurd (h d (by simp [T.leaves])) h1
        · intro u
          constructor
          · intro h; cases h
          · rintro ⟨_, h⟩; exact absurd (h d (by simp [T.leaves])) h2
  | root ch ih =>
    have ht : ∀ i, (ch i).pure := ht
    have hF : (∀ i, (collapse vals (ch i)).isFull = true) ↔
        ∀ b ∈ (T.root ch).leaves, inside vals b := by
      constructor
      · intro h b hb
        obtain ⟨i, _, hb⟩ := List.mem_flatMap.1 hb
        obtain ⟨u, hu⟩ := isFull_cases (h i)
        exact (((ih i (ht i)).1 u).1 hu).2 b hb
      · intro h i
        rw [((ih i (ht i)).1 (ch i)).2 ⟨rfl, fun b hb =>
          h b (List.mem_flatMap.2 ⟨i, List.mem_finRange i, hb⟩)⟩]
        rfl
    have hE : (∀ i, (collapse vals (ch i)).isEmpty = true) ↔
        ∀ b ∈ (T.root ch).leaves, outside vals b := by
      constructor
      · intro h b hb
        obtain ⟨i, _, hb⟩ := List.mem_flatMap.1 hb
        obtain ⟨u, hu⟩ := isEmpty_cases (h i)
        exact (((ih i (ht i)).2 u).1 hu).2 b hb
      · intro h i
        rw [((ih i (ht i)).2 (ch i)).2 ⟨rfl, fun b hb =>
          h b (List.mem_flatMap.2 ⟨i, List.mem_finRange i, hb⟩)⟩]
        rfl
    by_cases h1 : ∀ i, (collapse vals (ch i)).isEmpty = true
    · rw [collapse_root_empty vals h1]
      have h2 : ¬ ∀ i, (collapse vals (ch i)).isFull = true := by
        intro h
        obtain ⟨u, hu⟩ := isEmpty_cases (h1 ⟨0, hn⟩)
        obtain ⟨w, hw⟩ := isFull_cases (h ⟨0, hn⟩)
        rw [hu] at hw; cases hw
      constructor
      · intro u
        constructor
        · intro h; cases h
        · rintro ⟨_, h⟩; exact absurd (hF.2 h) h2
      · intro u
        constructor
        · intro h; cases h; exact ⟨rfl, hE.1 h1⟩
        · rintro ⟨rfl, _⟩; rfl
    · by_cases h2 : ∀ i, (collapse vals (ch i)).isFull = true
      · rw [collapse_root_full vals h1 h2]
        constructor
        · intro u
          constructor
          · intro h; cases h; exact ⟨rfl, hF.1 h2⟩
          · rintro ⟨rfl, _⟩; rfl
        · intro u
          constructor
          · intro h; cases h
          · rintro ⟨_, h⟩; exact absurd (hE.2 h) h1
      · rw [collapse_root_root vals h1 h2]
        constructor
        · intro u
          constructor
          · intro h; cases h
          · rintro ⟨_, h⟩; exact absurd (hF.2 h) h2
        · intro u
          constructor
          · intro h; cases h
          · rintro ⟨_, h⟩; exact absurd (hE.2 h) h1
  | empty t _ => exact ht.elim
  | full t _ => exact ht.elim

theorem filter_flatMap' {α : Type} (L : List α) (f : α → List β) (p : β → Bool) :
    (L.flatMap f).filter p = L.flatMap (fun a => (f a).filter p) := by
  induction L with
  | nil => rfl
  | cons a l ih => rw [List.flatMap_cons, List.filter_append, ih, List.flatMap_cons]

theorem flatMap_congr' {α : Type} (L : List α) {f f' : α → List β} (h : ∀ a ∈ L, f a = f' a) :
    L.flatMap f = L.flatMap f' := by
  induction L with
  | nil => rfl
  | cons a l ih =>
    rw [List.flatMap_cons, List.flatMap_cons, h a (by simp), ih (fun c hc => h c (by simp [hc]))]

/-- The collapsed tree sorts the leaves of the original tree into three lists, keeping their
order. -/
theorem collapse_lists (hv : ∀ b, vals b ≠ []) (t : T n β) (ht : t.pure) (hn : 0 < n) :
    (collapse vals t).open =
        t.leaves.filter (fun b => decide (¬ inside vals b) && decide (¬ outside vals b)) ∧
    (collapse vals t).fullLeaves = t.leaves.filter (fun b => decide (inside vals b)) ∧
    (collapse vals t).emptyLeaves = t.leaves.filter (fun b => decide (outside vals b)) := by
  have excl : ∀ b, inside vals b → ¬ outside vals b := by
    intro b h1 h2
    obtain ⟨v, hv'⟩ := List.exists_mem_of_ne_nil _ (hv b)
    exact absurd (h1 v hv') (not_lt.2 (h2 v hv'))
  have caseF : ∀ t : T n β, t.pure → collapse vals t = .full t →
      (collapse vals t).open =
        t.leaves.filter (fun b => decide (¬ inside vals b) && decide (¬ outside vals b)) ∧
      (collapse vals t).fullLeaves = t.leaves.filter (fun b => decide (inside vals b)) ∧
      (collapse vals t).emptyLeaves = t.leaves.filter (fun b => decide (outside vals b)) := by
    intro t ht h
    have hall := (((collapse_spec vals hv t ht hn).1 t).1 h).2
    rw [h]
    refine ⟨?_, ?_, ?_⟩
    · symm; apply List.filter_eq_nil_iff.2
      intro b hb; simp [hall b hb]
    · symm; apply List.filter_eq_self.2
      intro b hb; simp [hall b hb]
    · symm; apply List.filter_eq_nil_iff.2
      intro b hb; simp [excl b (hall b hb)]
  have caseE : ∀ t : T n β, t.pure → collapse vals t = .empty t →
      (collapse vals t).open =
        t.leaves.filter (fun b => decide (¬ inside vals b) && decide (¬ outside vals b)) ∧
      (collapse vals t).fullLeaves = t.leaves.filter (fun b => decide (inside vals b)) ∧
      (collapse vals t).emptyLeaves = t.leaves.filter (fun b => decide (outside vals b)) := by
    intro t ht h
    have hall := (((collapse_spec vals hv t ht hn).2 t).1 h).2
    rw [h]
    refine ⟨?_, ?_, ?_⟩
    · symm; apply List.filter_eq_nil_iff.2
      intro b hb; simp [hall b hb]
    · symm; apply List.filter_eq_nil_iff.2
      intro b hb
      have : ¬ inside vals b := fun h => excl b h (hall b hb)
      simp [this]
    · symm; apply List.filter_eq_self.2
      intro b hb; simp [hall b hb]
  induction t with
  | leaf d =>
    by_cases h1 : inside vals d
    · exact caseF _ ht (collapse_leaf_full vals h1)
    · by_cases h2 : outside vals d
      · exact caseE _ ht (collapse_leaf_empty vals h1 h2)
      · rw [collapse_leaf_mixed vals h1 h2]
        simp [T.open, T.leaves, T.fullLeaves, T.emptyLeaves, h1, h2]
  | root ch ih =>
    by_cases h1 : ∀ i, (collapse vals (ch i)).isEmpty = true
    · exact caseE _ ht (collapse_root_empty vals h1)
    · by_cases h2 : ∀ i, (collapse vals (ch i)).isFull = true
      · exact caseF _ ht (collapse_root_full vals h1 h2)
      · rw [collapse_root_root vals h1 h2]
        have ht : ∀ i, (ch i).pure := ht
        simp only [T.open, T.leaves, T.fullLeaves, T.emptyLeaves, filter_flatMap']
        exact ⟨flatMap_congr' _ (fun i _ => (ih i (ht i)).1),
          flatMap_congr' _ (fun i _ => (ih i (ht i)).2.1),
          flatMap_congr' _ (fun i _ => (ih i (ht i)).2.2)⟩
  | empty t _ => exact ht.elim
  | full t _ => exact ht.elim

theorem reduce_pure (t : T n β) (ht : t.pure) : t.reduce = t := by
  induction t with
  | leaf d => rfl
  | root ch ih =>
    rw [T.reduce]
    congr 1
    funext i
    exact ih i (ht i)
  | empty t _ => exact ht.elim
  | full t _ => exact ht.elim

theorem reduce_collapse (t : T n β) : (collapse vals t).reduce = t.reduce := by
  induction t with
  | leaf d =>
    by_cases h1 : inside vals d
    · rw [collapse_leaf_full vals h1]; rfl
    · by_cases h2 : outside vals d
      · rw [collapse_leaf_empty vals h1 h2]; rfl
      · rw [collapse_leaf_mixed vals h1 h2]
  | root ch ih =>
    by_cases h1 : ∀ i, (collapse vals (ch i)).isEmpty = true
    · rw [collapse_root_empty vals h1]; rfl
    · by_cases h2 : ∀ i, (collapse vals (ch i)).isFull = true
      · rw [collapse_root_full vals h1 h2]; rfl
      · rw [collapse_root_root vals h1 h2, T.reduce, T.reduce]
        congr 1
        funext i
        exact ih i
  | empty t _ => rfl
  | full t _ => rfl

end Collapse

end Verif.ImplTree
