import Verif.Bvh.Model
import Verif.Aabb.Props
import Mathlib.Tactic.Ring
import Mathlib.Tactic.Linarith

/-! # Structure of a built tree -/

set_option linter.unusedSectionVars false

namespace Verif.Bvh
open Verif.Aabb (Pt Box InBox Proper)
variable {K : Type} [Field K] [LinearOrder K]
variable {α β : Type}

/-- A box whose cached array agrees with its corners, corners in order: what the constructor gives for ordered corners. -/
structure Good (b : BB K) : Prop where
  arr : b.arr = ⟨b.min, b.max⟩
  le : ∀ i, i < 3 → b.min i ≤ b.max i

/-- Box `a` lies inside box `b`. -/
def Sub (a b : BB K) : Prop := ∀ i, i < 3 → b.min i ≤ a.min i ∧ a.max i ≤ b.max i

theorem Sub.refl (a : BB K) : Sub a a := fun _ _ => ⟨le_refl _, le_refl _⟩

theorem Sub.trans {a b c : BB K} (h1 : Sub a b) (h2 : Sub b c) : Sub a c := fun i hi =>
  ⟨le_trans (h2 i hi).1 (h1 i hi).1, le_trans (h1 i hi).2 (h2 i hi).2⟩

/-- All objects stored below a node. -/
def Node.objs (n : Node K α) : List α := (leafs n).flatten

/-- Specification of the boxes: at every node the box is well formed, contains the box of every object below, and lies inside
every box that does. -/
def Nested (bb : α → BB K) : Node K α → Prop
  | .leaf b os => Good b ∧ (∀ o ∈ os, Sub (bb o) b) ∧ ∀ c, (∀ o ∈ os, Sub (bb o) c) → Sub b c
  | .node b l r => (Good b ∧ (∀ o ∈ (Node.node b l r).objs, Sub (bb o) b) ∧
      ∀ c, (∀ o ∈ (Node.node b l r).objs, Sub (bb o) c) → Sub b c) ∧ Nested bb l ∧ Nested bb r

theorem nested_box (bb : α → BB K) (n : Node K α) (h : Nested bb n) :
    Good n.box ∧ (∀ o ∈ n.objs, Sub (bb o) n.box) ∧ ∀ c, (∀ o ∈ n.objs, Sub (bb o) c) → Sub n.box c := by
  cases n with
  | leaf b os => simpa [Nested, Node.objs, leafs, Node.box] using h
  | node b l r => exact h.1

theorem objs_node (b : BB K) (l r : Node K α) : (Node.node b l r).objs = l.objs ++ r.objs := by
  simp [Node.objs, leafs]

/-- Leaves with their boxes. -/
def leafB : Node K α → List (BB K × List α)
  | .leaf b os => [(b, os)]
  | .node _ l r => leafB l ++ leafB r

theorem leafB_snd (n : Node K α) : (leafB n).map Prod.snd = leafs n := by
  induction n with
  | leaf b os => rfl
  | node b l r ihl ihr => rw [leafB, leafs, List.map_append, ihl, ihr]

theorem leafB_sub (bb : α → BB K) (n : Node K α) (h : Nested bb n) : ∀ x ∈ leafB n, Sub x.1 n.box ∧ Good x.1 := by
  induction n with
  | leaf b os =>
    intro x hx
    rw [leafB, List.mem_singleton] at hx
    subst hx
    exact ⟨Sub.refl _, h.1⟩
  | node b l r ihl ihr =>
    intro x hx
    have hb := nested_box bb _ h
    obtain ⟨_, hl, hr⟩ := h
    rw [leafB] at hx
    rcases List.mem_append.mp hx with h' | h'
    · obtain ⟨s, g⟩ := ihl hl x h'
      exact ⟨s.trans ((nested_box bb l hl).2.2 _ (fun o ho => hb.2.1 o (by rw [objs_node]; exact List.mem_append_left _ ho))), g⟩
    · obtain ⟨s, g⟩ := ihr hr x h'
      exact ⟨s.trans ((nested_box bb r hr).2.2 _ (fun o ho => hb.2.1 o (by rw [objs_node]; exact List.mem_append_right _ ho))), g⟩

theorem inBox_sub (a b : BB K) (ha : Good a) (hb : Good b) (h : Sub a b) (x : Pt K) (hx : InBox 3 a.arr x) : InBox 3 b.arr x := by
  rw [ha.arr] at hx
  rw [hb.arr]
  exact fun i hi => ⟨le_trans (h i hi).1 (hx i hi).1, le_trans (hx i hi).2 (h i hi).2⟩

theorem good_proper (b : BB K) (h : Good b) : Proper 3 b.arr := by
  rw [h.arr]; exact h.le

/-- Two boxes have a common point. -/
def Meet (a b : BB K) : Prop := ∃ x, InBox 3 a.arr x ∧ InBox 3 b.arr x

theorem intersect_iff (a b : BB K) (ha : Good a) (hb : Good b) : a.intersect b = true ↔ Meet a b := by
  rw [BB.intersect, Aabb.intersect3d_iff, Meet, Aabb.common_iff 3 _ _ (good_proper a ha) (good_proper b hb)]

theorem meet_mono (a b c d : BB K) (ha : Good a) (hb : Good b) (hc : Good c) (hd : Good d) (h1 : Sub a c) (h2 : Sub b d)
    (h : Meet a b) : Meet c d := by
  obtain ⟨x, hx, hy⟩ := h
  exact ⟨x, inBox_sub a c ha hc h1 x hx, inBox_sub b d hb hd h2 x hy⟩

/-! ### Building -/

theorem good_mk (lo hi : Pt K) (h : ∀ i, i < 3 → lo i ≤ hi i) : Good (BB.mk' lo hi) := ⟨rfl, h⟩

theorem merge_spec (a b : BB K) (ha : Good a) (hb : Good b) :
    Good (a.merge b) ∧ Sub a (a.merge b) ∧ Sub b (a.merge b) ∧ ∀ c, Sub a c → Sub b c → Sub (a.merge b) c := by
  refine ⟨good_mk _ _ (fun i hi => le_trans (min_le_left _ _) (le_trans (ha.le i hi) (le_max_left _ _))), ?_, ?_, ?_⟩
  · exact fun i _ => ⟨min_le_left _ _, le_max_left _ _⟩
  · exact fun i _ => ⟨min_le_right _ _, le_max_right _ _⟩
  · exact fun c h1 h2 i hi => ⟨le_min (h1 i hi).1 (h2 i hi).1, max_le (h1 i hi).2 (h2 i hi).2⟩

theorem compound_spec (bb : α → BB K) (objs : List α) (hne : objs ≠ []) (hg : ∀ o ∈ objs, Good (bb o)) :
    ∃ b, compoundBox bb objs = some b ∧ Good b ∧ (∀ o ∈ objs, Sub (bb o) b) ∧ ∀ c, (∀ o ∈ objs, Sub (bb o) c) → Sub b c := by
  have hne' : (objs.flatMap fun o => [(bb o).arr.lo, (bb o).arr.hi]) ≠ [] := by
    cases objs with
    | nil => exact absurd rfl hne
    | cons o os => simp
  obtain ⟨b, e, h1, h2, _⟩ := Aabb.C17_aabb_smallest 3 (le_refl _) _ hne'
  have hlo : ∀ o ∈ objs, InBox 3 b (bb o).min := fun o ho => by
    have := h1 (bb o).arr.lo (List.mem_flatMap.mpr ⟨o, ho, by simp⟩)
    rwa [(hg o ho).arr] at this
  have hhi : ∀ o ∈ objs, InBox 3 b (bb o).max := fun o ho => by
    have := h1 (bb o).arr.hi (List.mem_flatMap.mpr ⟨o, ho, by simp⟩)
    rwa [(hg o ho).arr] at this
  have hle : ∀ i, i < 3 → b.lo i ≤ b.hi i := by
    intro i hi
    cases objs with
    | nil => exact absurd rfl hne
    | cons o os => exact le_trans (hlo o (by simp) i hi).1 (hlo o (by simp) i hi).2
  refine ⟨BB.mk' b.lo b.hi, by rw [compoundBox, e]; rfl, good_mk _ _ hle, ?_, ?_⟩
  · exact fun o ho i hi => ⟨(hlo o ho i hi).1, (hhi o ho i hi).2⟩
  · intro c hc
    have := h2 ⟨c.min, c.max⟩ (by
      intro p hp
      obtain ⟨o, ho, hp⟩ := List.mem_flatMap.mp hp
      have hs := hc o ho
      have hl := (hg o ho).le
      rw [(hg o ho).arr] at hp
      simp only [List.mem_cons, List.not_mem_nil, or_false] at hp
      rcases hp with rfl | rfl
      · exact fun i hi => ⟨(hs i hi).1, le_trans (hl i hi) (hs i hi).2⟩
      · exact fun i hi => ⟨le_trans (hs i hi).1 (hl i hi), (hs i hi).2⟩)
    intro i hi
    exact ⟨(this b.lo (fun j hj => ⟨le_refl _, hle j hj⟩) i hi).1, (this b.hi (fun j hj => ⟨hle j hj, le_refl _⟩) i hi).2⟩

theorem split_spec (bb : α → BB K) (objs : List α) :
    ((splitObjects bb objs).1 ++ (splitObjects bb objs).2).Perm objs ∧ (splitObjects bb objs).1.length = objs.length / 2 ∧
    (splitObjects bb objs).2.length = objs.length - objs.length / 2 := by
  have hp : (sortObjects bb objs).Perm objs := List.perm_insertionSort _ _
  refine ⟨?_, ?_, ?_⟩
  · simp only [splitObjects, List.take_append_drop]; exact hp
  · simp only [splitObjects, List.length_take, hp.length_eq]; omega
  · simp only [splitObjects, List.length_drop, hp.length_eq]

theorem build_spec (bb : α → BB K) (k : Nat) (hk : 1 ≤ k) : ∀ (f : Nat) (objs : List α), objs ≠ [] → objs.length ≤ 2 ^ f →
    (∀ o ∈ objs, Good (bb o)) → ∃ n, build bb k (f + 1) objs = some n ∧ n.objs.Perm objs ∧
      (∀ g ∈ leafs n, g ≠ [] ∧ g.length ≤ k) ∧ Nested bb n ∧ (k = 1 → (leafB n).Perm (objs.map fun o => (bb o, [o]))) := by
  intro f
  induction f with
  | zero =>
    intro objs hne hlen hg
    obtain ⟨o, rfl⟩ : ∃ o, objs = [o] := by
      cases objs with
      | nil => exact absurd rfl hne
      | cons o os =>
        cases os with
        | nil => exact ⟨o, rfl⟩
        | cons a as => simp at hlen
    by_cases h1 : k = 1
    · subst h1
      refine ⟨.leaf (bb o) [o], by simp [build], by simp [Node.objs, leafs], by simp [leafs], ?_, fun _ => by simp [leafB]⟩
      exact ⟨hg o (by simp), fun x hx => by rw [List.mem_singleton] at hx; rw [hx]; exact Sub.refl _, fun c hc => hc o (by simp)⟩
    · obtain ⟨b, e, g1, g2, g3⟩ := compound_spec bb [o] (by simp) hg
      refine ⟨.leaf b [o], ?_, by simp [Node.objs, leafs], by simp [leafs]; omega, ⟨g1, g2, g3⟩, fun h => absurd h h1⟩
      rw [build.eq_def]; dsimp only; rw [if_neg (fun h => h1 h.2), if_pos (by simpa using hk), e]
      rfl
  | succ f ih =>
    intro objs hne hlen hg
    by_cases h1 : objs.length = 1 ∧ k = 1
    · obtain ⟨o, rfl⟩ := List.length_eq_one_iff.mp h1.1
      obtain ⟨_, rfl⟩ := h1
      refine ⟨.leaf (bb o) [o], by simp [build], by simp [Node.objs, leafs], by simp [leafs], ?_, fun _ => by simp [leafB]⟩
      exact ⟨hg o (by simp), fun x hx => by rw [List.mem_singleton] at hx; rw [hx]; exact Sub.refl _, fun c hc => hc o (by simp)⟩
    by_cases h2 : objs.length ≤ k
    · obtain ⟨b, e, g1, g2, g3⟩ := compound_spec bb objs hne hg
      refine ⟨.leaf b objs, ?_, by simp [Node.objs, leafs], by simp [leafs, hne, h2], ⟨g1, g2, g3⟩, fun h => ?_⟩
      · rw [build.eq_def]; dsimp only; rw [if_neg h1, if_pos h2, e]; rfl
      · exfalso
        have : objs.length ≠ 0 := by simpa using hne
        exact h1 ⟨by omega, h⟩
    obtain ⟨hp, hl, hr⟩ := split_spec bb objs
    have hpow : 2 ^ (f + 1) = 2 * 2 ^ f := by ring
    have hmem : ∀ o, o ∈ (splitObjects bb objs).1 ∨ o ∈ (splitObjects bb objs).2 → Good (bb o) := fun o h =>
      hg o (hp.subset (List.mem_append.mpr h))
    obtain ⟨ln, l1, l2, l3, l4, l5⟩ := ih (splitObjects bb objs).1 (fun h => by rw [h] at hl; simp at hl; omega) (by omega)
      (fun o ho => hmem o (Or.inl ho))
    obtain ⟨rn, r1, r2, r3, r4, r5⟩ := ih (splitObjects bb objs).2 (fun h => by rw [h] at hr; simp at hr; omega) (by omega)
      (fun o ho => hmem o (Or.inr ho))
    refine ⟨.node (ln.box.merge rn.box) ln rn, ?_, ?_, ?_, ?_, ?_⟩
    · rw [build.eq_def]; dsimp only; rw [if_neg h1, if_neg h2]
      simp only [l1, r1]
    · rw [objs_node]; exact (l2.append r2).trans hp
    · intro g hg'
      rw [leafs] at hg'
      rcases List.mem_append.mp hg' with h | h
      · exact l3 g h
      · exact r3 g h
    · obtain ⟨a1, a2, a3⟩ := nested_box bb ln l4
      obtain ⟨b1, b2, b3⟩ := nested_box bb rn r4
      obtain ⟨m1, m2, m3, m4⟩ := merge_spec ln.box rn.box a1 b1
      refine ⟨⟨m1, ?_, ?_⟩, l4, r4⟩
      · intro o ho
        rw [objs_node] at ho
        rcases List.mem_append.mp ho with h | h
        · exact (a2 o h).trans m2
        · exact (b2 o h).trans m3
      · intro c hc
        rw [objs_node] at hc
        exact m4 c (a3 c fun o ho => hc o (List.mem_append_left _ ho)) (b3 c fun o ho => hc o (List.mem_append_right _ ho))
    · intro h
      rw [leafB]
      refine ((l5 h).append (r5 h)).trans ?_
      rw [← List.map_append]
      exact hp.map _

/-! ### Queries -/

theorem traverse_eq (bb : α → BB K) (t : BB K) (ht : Good t) (n : Node K α) (h : Nested bb n) :
    traverse t n = ((leafB n).filter fun x => x.1.intersect t).map Prod.snd := by
  induction n with
  | leaf b os =>
    rw [traverse, leafB, List.filter_singleton]
    cases hb : b.intersect t <;> simp
  | node b l r ihl ihr =>
    have hsub := leafB_sub bb _ h
    have hb := (nested_box bb _ h).1
    rw [traverse]
    cases hi : b.intersect t with
    | true =>
      rw [leafB, List.filter_append, List.map_append, ← ihl h.2.1, ← ihr h.2.2]
      rfl
    | false =>
      have : (leafB (.node b l r)).filter (fun x => x.1.intersect t) = [] := by
        rw [List.filter_eq_nil_iff]
        intro x hx hc
        obtain ⟨s, g⟩ := hsub x hx
        have hb : Good b := hb
        have := meet_mono x.1 t b t g ht hb ht s (Sub.refl t) ((intersect_iff _ _ g ht).mp hc)
        rw [← intersect_iff _ _ hb ht, hi] at this
        cases this
      rw [this]
      rfl

/-- Number of nodes. -/
def Node.size : Node K α → Nat
  | .leaf _ _ => 1
  | .node _ l r => l.size + r.size + 1

theorem size_pos (n : Node K α) : 1 ≤ n.size := by cases n <;> simp [Node.size]

/-- Work left on the stack of `intersect_bvh_objects`. -/
def work : List (Node K α × Node K β) → Nat
  | [] => 0
  | x :: st => x.1.size * x.2.size + work st

/-- Leaf pairs of two nodes whose boxes meet. -/
def hits (n1 : Node K α) (n2 : Node K β) : List (List α × List β) :=
  (((leafB n1).flatMap fun x => (leafB n2).map fun y => (x, y)).filter fun z => z.1.1.intersect z.2.1).map
    fun z => (z.1.2, z.2.2)

theorem perm_swap4 (a b c d e : List α) : (d ++ (c ++ (b ++ (a ++ e)))).Perm (a ++ b ++ (c ++ d) ++ e) := by
  classical
  rw [List.perm_iff_count]
  intro x
  simp only [List.count_append]
  omega

theorem perm_prod_append {γ δ : Type} (l : List γ) (a b : List δ) :
    (l.flatMap fun x => (a ++ b).map fun y => (x, y)).Perm ((l.flatMap fun x => a.map fun y => (x, y)) ++
      l.flatMap fun x => b.map fun y => (x, y)) := by
  induction l with
  | nil => simp
  | cons x l ih =>
    simp only [List.flatMap_cons, List.map_append]
    have := ih
    simp only [List.map_append] at this
    refine (List.Perm.append_left _ this).trans ?_
    classical
    rw [List.perm_iff_count]
    intro z
    simp only [List.count_append]
    omega

theorem hits_left (b : BB K) (l r : Node K α) (n : Node K β) : hits (.node b l r) n = hits l n ++ hits r n := by
  simp only [hits, leafB, List.flatMap_append, List.filter_append, List.map_append]

theorem hits_right (b : BB K) (l r : Node K β) (n : Node K α) : (hits n (.node b l r)).Perm (hits n l ++ hits n r) := by
  simp only [hits, leafB]
  rw [← List.map_append, ← List.filter_append]
  exact ((perm_prod_append _ _ _).filter _).map _

theorem hits_none (bb1 : α → BB K) (bb2 : β → BB K) (n1 : Node K α) (n2 : Node K β) (h1 : Nested bb1 n1) (h2 : Nested bb2 n2)
    (h : n1.box.intersect n2.box = false) : hits n1 n2 = [] := by
  have g1 := (nested_box bb1 _ h1).1
  have g2 := (nested_box bb2 _ h2).1
  rw [hits, List.map_eq_nil_iff, List.filter_eq_nil_iff]
  intro z hz hc
  obtain ⟨x, hx, hz⟩ := List.mem_flatMap.mp hz
  obtain ⟨y, hy, rfl⟩ := List.mem_map.mp hz
  obtain ⟨s1, k1⟩ := leafB_sub bb1 n1 h1 x hx
  obtain ⟨s2, k2⟩ := leafB_sub bb2 n2 h2 y hy
  have := meet_mono _ _ _ _ k1 k2 g1 g2 s1 s2 ((intersect_iff _ _ k1 k2).mp hc)
  rw [← intersect_iff _ _ g1 g2, h] at this
  cases this

theorem pairLoop_spec (bb1 : α → BB K) (bb2 : β → BB K) : ∀ (fuel : Nat) (st : List (Node K α × Node K β))
    (acc : List (List α × List β)), work st ≤ fuel → (∀ x ∈ st, Nested bb1 x.1 ∧ Nested bb2 x.2) →
    ∃ res, pairLoop fuel st acc = some res ∧ res.Perm (acc ++ st.flatMap fun x => hits x.1 x.2) := by
  intro fuel
  induction fuel with
  | zero =>
    intro st acc hw hn
    cases st with
    | nil => exact ⟨acc, rfl, by simp⟩
    | cons x st =>
      exfalso
      have := Nat.mul_le_mul (size_pos x.1) (size_pos x.2)
      rw [work] at hw
      omega
  | succ fuel ih =>
    intro st acc hw hn
    cases st with
    | nil => exact ⟨acc, rfl, by simp⟩
    | cons x st =>
      obtain ⟨n1, n2⟩ := x
      obtain ⟨h1, h2⟩ := hn (n1, n2) (by simp)
      have hst : ∀ x ∈ st, Nested bb1 x.1 ∧ Nested bb2 x.2 := fun x hx => hn x (List.mem_cons_of_mem _ hx)
      have hpos := Nat.mul_le_mul (size_pos n1) (size_pos n2)
      rw [work] at hw
      dsimp only at hw h1 h2
      rw [pairLoop.eq_def]
      dsimp only
      cases hb : n1.box.intersect n2.box with
      | false =>
        obtain ⟨res, e, p⟩ := ih st acc (by omega) hst
        refine ⟨res, by simpa using e, ?_⟩
        rw [List.flatMap_cons, hits_none bb1 bb2 n1 n2 h1 h2 hb, List.nil_append]
        exact p
      | true =>
        cases n1 with
        | leaf b1 o1 =>
          cases n2 with
          | leaf b2 o2 =>
            obtain ⟨res, e, p⟩ := ih st (acc ++ [(o1, o2)]) (by omega) hst
            refine ⟨res, by simpa using e, ?_⟩
            have : hits (.leaf b1 o1) (.leaf b2 o2) = [(o1, o2)] := by
              have : b1.intersect b2 = true := hb
              simp [hits, leafB, this]
            rw [List.flatMap_cons, this]
            simpa using p
          | node b2 l2 r2 =>
            obtain ⟨res, e, p⟩ := ih ((.leaf b1 o1, r2) :: (.leaf b1 o1, l2) :: st) acc (by
                simp only [work, Node.size] at hw ⊢; omega) (by
                intro x hx
                rcases List.mem_cons.mp hx with rfl | hx
                · exact ⟨h1, h2.2.2⟩
                rcases List.mem_cons.mp hx with rfl | hx
                · exact ⟨h1, h2.2.1⟩
                exact hst x hx)
            refine ⟨res, by simpa using e, p.trans (List.Perm.append_left _ ?_)⟩
            simp only [List.flatMap_cons]
            have := hits_right b2 l2 r2 (.leaf b1 o1)
            refine (List.Perm.trans ?_ (List.Perm.append_right _ this.symm))
            rw [← List.append_assoc]
            exact List.Perm.append_right _ List.perm_append_comm
        | node b1 l1 r1 =>
          cases n2 with
          | leaf b2 o2 =>
            obtain ⟨res, e, p⟩ := ih ((r1, .leaf b2 o2) :: (l1, .leaf b2 o2) :: st) acc (by
                simp only [work, Node.size] at hw ⊢; omega) (by
                intro x hx
                rcases List.mem_cons.mp hx with rfl | hx
                · exact ⟨h1.2.2, h2⟩
                rcases List.mem_cons.mp hx with rfl | hx
                · exact ⟨h1.2.1, h2⟩
                exact hst x hx)
            refine ⟨res, by simpa using e, p.trans (List.Perm.append_left _ ?_)⟩
            simp only [List.flatMap_cons]
            rw [hits_left, ← List.append_assoc]
            exact List.Perm.append_right _ List.perm_append_comm
          | node b2 l2 r2 =>
            obtain ⟨res, e, p⟩ := ih ((r1, r2) :: (r1, l2) :: (l1, r2) :: (l1, l2) :: st) acc (by
                have : (l1.size + r1.size + 1) * (l2.size + r2.size + 1) =
                    l1.size * l2.size + l1.size * r2.size + r1.size * l2.size + r1.size * r2.size +
                      l1.size + r1.size + l2.size + r2.size + 1 := by ring
                simp only [work, Node.size] at hw ⊢
                rw [this] at hw
                omega) (by
                intro x hx
                rcases List.mem_cons.mp hx with rfl | hx
                · exact ⟨h1.2.2, h2.2.2⟩
                rcases List.mem_cons.mp hx with rfl | hx
                · exact ⟨h1.2.2, h2.2.1⟩
                rcases List.mem_cons.mp hx with rfl | hx
                · exact ⟨h1.2.1, h2.2.2⟩
                rcases List.mem_cons.mp hx with rfl | hx
                · exact ⟨h1.2.1, h2.2.1⟩
                exact hst x hx)
            refine ⟨res, by simpa using e, p.trans (List.Perm.append_left _ ?_)⟩
            simp only [List.flatMap_cons]
            rw [hits_left]
            refine (perm_swap4 _ _ _ _ _).trans (List.Perm.append_right _ ?_)
            exact List.Perm.append (hits_right b2 l2 r2 l1).symm (hits_right b2 l2 r2 r1).symm

end Verif.Bvh
