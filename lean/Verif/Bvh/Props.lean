import Verif.Bvh.Lemmas
import Mathlib.Tactic.NormNum
import Mathlib.Tactic.FieldSimp
import Mathlib.Tactic.LinearCombination

/-! # C25–C28, C70, C71: bounding volume hierarchies -/

set_option linter.unusedSectionVars false

namespace Verif.Bvh
open Verif.Aabb (Pt Box InBox Proper OnSegment pt)
variable {K : Type} [Field K] [LinearOrder K]
variable {α β : Type}

/-! ## Examples -/

/-- Four boxes: unit cubes with the given lower corners. -/
def cube (x y z : ℚ) : BB ℚ := BB.mk' (pt [x, y, z]) (pt [x + 1, y + 1, z + 1])

def sample : List (BB ℚ) := [cube 5 0 0, cube 0 0 0, cube 9 1 0, cube 2 2 0, cube 7 0 3]

theorem good_cube (x y z : ℚ) : Good (cube x y z) := by
  refine good_mk _ _ ?_
  rw [Aabb.lt3]
  simp only [pt]
  norm_num

/-- **C25.** For every non-empty list of objects with well-formed boxes and every leaf size `k ≥ 1`, `build_bvh` returns a tree
after a recursion no deeper than `⌈log2 n⌉ + 1`.  Its leaves hold the objects, each once, in non-empty groups of at most `k`.
At every node the box is the smallest one that contains the boxes of all objects below. -/
theorem C25_build (bb : α → BB K) (k : Nat) (hk : 1 ≤ k) (objs : List α) (hne : objs ≠ []) (hg : ∀ o ∈ objs, Good (bb o))
    (f : Nat) (hf : objs.length ≤ 2 ^ f) :
    ∃ n, build bb k (f + 1) objs = some n ∧ (leafs n).flatten.Perm objs ∧ (∀ g ∈ leafs n, g ≠ [] ∧ g.length ≤ k) ∧ Nested bb n := by
  obtain ⟨n, h1, h2, h3, h4, _⟩ := build_spec bb k hk f objs hne hf hg
  exact ⟨n, h1, h2, h3, h4⟩

/-- With the default leaf size every leaf is one object with its own box. -/
theorem C25_build_single (bb : α → BB K) (objs : List α) (hne : objs ≠ []) (hg : ∀ o ∈ objs, Good (bb o)) (f : Nat)
    (hf : objs.length ≤ 2 ^ f) : ∃ n, build bb 1 (f + 1) objs = some n ∧ (leafs n).Perm (objs.map fun o => [o]) := by
  obtain ⟨n, h1, _, _, _, h5⟩ := build_spec bb 1 (le_refl _) f objs hne hf hg
  refine ⟨n, h1, ?_⟩
  have := (h5 rfl).map Prod.snd
  rwa [leafB_snd, List.map_map] at this

/-- An empty list raises for every leaf size. -/
theorem C25_build_empty (bb : α → BB K) (k fuel : Nat) : build bb k fuel [] = none := by
  cases fuel with
  | zero => rfl
  | succ n => simp [build, compoundBox, Aabb.aabb, Aabb.caabb]

example : ∀ o ∈ sample, Good ((fun b => b) o) := by
  intro o ho
  simp only [sample, List.mem_cons, List.not_mem_nil, or_false] at ho
  rcases ho with rfl | rfl | rfl | rfl | rfl <;> exact good_cube _ _ _

example : ((build (fun b : BB ℚ => b) 2 4 sample).map fun n => (leafs n).map fun g => g.map fun b => (b.min 0)) =
    some [[0, 2], [5], [7, 9]] := by decide +kernel

/-! ## C26 -/

open Classical in
/-- **C26, box query.** On the tree built from `objs`, `traverse_bvh` returns exactly the objects whose box has a point in common
with the query box, each once. -/
theorem C26_traverse (bb : α → BB K) (objs : List α) (hne : objs ≠ []) (hg : ∀ o ∈ objs, Good (bb o)) (f : Nat)
    (hf : objs.length ≤ 2 ^ f) (t : BB K) (ht : Good t) :
    ∃ n, build bb 1 (f + 1) objs = some n ∧
      (traverse t n).Perm ((objs.filter fun o => decide (∃ x, InBox 3 (bb o).arr x ∧ InBox 3 t.arr x)).map fun o => [o]) := by
  obtain ⟨n, h1, _, _, h4, h5⟩ := build_spec bb 1 (le_refl _) f objs hne hf hg
  refine ⟨n, h1, ?_⟩
  rw [traverse_eq bb t ht n h4]
  refine (((h5 rfl).filter _).map _).trans ?_
  rw [List.filter_map, List.map_map]
  have : objs.filter ((fun x : BB K × List α => x.1.intersect t) ∘ fun o => (bb o, [o])) =
      objs.filter fun o => decide (∃ x, InBox 3 (bb o).arr x ∧ InBox 3 t.arr x) := by
    apply List.filter_congr
    intro o ho
    rw [Bool.eq_iff_iff, decide_eq_true_iff]
    exact intersect_iff _ _ (hg o ho) ht
  rw [this]
  rfl

/-- The same for larger leaves: every object that meets the query box is in a returned group, and only groups whose own smallest
box meets it are returned. -/
theorem C26_traverse_groups (bb : α → BB K) (k : Nat) (hk : 1 ≤ k) (objs : List α) (hne : objs ≠ []) (hg : ∀ o ∈ objs, Good (bb o))
    (f : Nat) (hf : objs.length ≤ 2 ^ f) (t : BB K) (ht : Good t) :
    ∃ n, build bb k (f + 1) objs = some n ∧ (traverse t n).Sublist (leafs n) ∧
      (∀ o ∈ objs, (∃ x, InBox 3 (bb o).arr x ∧ InBox 3 t.arr x) → ∃ g ∈ traverse t n, o ∈ g) ∧
      ∀ g ∈ traverse t n, ∀ c : BB K, Good c → (∀ o ∈ g, Sub (bb o) c) → ∃ x, InBox 3 c.arr x ∧ InBox 3 t.arr x := by
  obtain ⟨n, h1, h2, _, h4, _⟩ := build_spec bb k hk f objs hne hf hg
  have hleaf : ∀ n : Node K α, Nested bb n → ∀ x ∈ leafB n, (∀ o ∈ x.2, Sub (bb o) x.1) ∧
      ∀ c, (∀ o ∈ x.2, Sub (bb o) c) → Sub x.1 c := by
    intro n
    induction n with
    | leaf b os => intro h x hx; rw [leafB, List.mem_singleton] at hx; subst hx; exact h.2
    | node b l r ihl ihr =>
      intro h x hx
      rw [leafB] at hx
      rcases List.mem_append.mp hx with h' | h'
      · exact ihl h.2.1 x h'
      · exact ihr h.2.2 x h'
  refine ⟨n, h1, ?_, ?_, ?_⟩
  · rw [traverse_eq bb t ht n h4, ← leafB_snd]
    exact List.filter_sublist.map _
  · intro o ho hx
    obtain ⟨g, hgm, hog⟩ := List.mem_flatten.mp (h2.symm.subset ho)
    rw [← leafB_snd] at hgm
    obtain ⟨x, hxm, rfl⟩ := List.mem_map.mp hgm
    have hgood := (leafB_sub bb n h4 x hxm).2
    refine ⟨x.2, ?_, hog⟩
    rw [traverse_eq bb t ht n h4]
    refine List.mem_map.mpr ⟨x, List.mem_filter.mpr ⟨hxm, ?_⟩, rfl⟩
    exact (intersect_iff _ _ hgood ht).mpr (meet_mono (bb o) t x.1 t (hg o ho) ht hgood ht ((hleaf n h4 x hxm).1 o hog) (Sub.refl _) hx)
  · intro g hgm c hc hs
    rw [traverse_eq bb t ht n h4] at hgm
    obtain ⟨x, hx, rfl⟩ := List.mem_map.mp hgm
    obtain ⟨hxm, hi⟩ := List.mem_filter.mp hx
    have hgood := (leafB_sub bb n h4 x hxm).2
    exact meet_mono x.1 t c t hgood ht hc ht ((hleaf n h4 x hxm).2 c hs) (Sub.refl _) ((intersect_iff _ _ hgood ht).mp hi)

open Classical in
/-- **C26, point query.** `contains_point` on the tree returns exactly the objects whose box contains the point. -/
theorem C26_contains_point (bb : α → BB K) (objs : List α) (hne : objs ≠ []) (hg : ∀ o ∈ objs, Good (bb o)) (f : Nat)
    (hf : objs.length ≤ 2 ^ f) (p : Pt K) :
    ∃ n, build bb 1 (f + 1) objs = some n ∧
      (containsPt n p).Perm ((objs.filter fun o => decide (InBox 3 (bb o).arr p)).map fun o => [o]) := by
  obtain ⟨n, h1, h2⟩ := C26_traverse bb objs hne hg f hf (BB.mk' p p) (good_mk _ _ fun _ _ => le_refl _)
  refine ⟨n, h1, h2.trans ?_⟩
  have : objs.filter (fun o => decide (∃ x, InBox 3 (bb o).arr x ∧ InBox 3 (BB.mk' p p).arr x)) =
      objs.filter fun o => decide (InBox 3 (bb o).arr p) := by
    apply List.filter_congr
    intro o _
    rw [decide_eq_decide]
    constructor
    · rintro ⟨x, hx, hy⟩ i hi
      have e : x i = p i := le_antisymm (hy i hi).2 (hy i hi).1
      rw [← e]; exact hx i hi
    · intro h
      exact ⟨p, h, fun i _ => ⟨le_refl _, le_refl _⟩⟩
  rw [this]

open Classical in
/-- **C26, pairs.** On the trees built from two lists, `intersect_bvh_objects` ends and returns exactly the pairs of objects
whose boxes have a common point, each once. -/
theorem C26_pairs (bb1 : α → BB K) (bb2 : β → BB K) (objs1 : List α) (objs2 : List β) (hne1 : objs1 ≠ []) (hne2 : objs2 ≠ [])
    (hg1 : ∀ o ∈ objs1, Good (bb1 o)) (hg2 : ∀ o ∈ objs2, Good (bb2 o)) (f1 f2 : Nat) (hf1 : objs1.length ≤ 2 ^ f1)
    (hf2 : objs2.length ≤ 2 ^ f2) :
    ∃ n1 n2, build bb1 1 (f1 + 1) objs1 = some n1 ∧ build bb2 1 (f2 + 1) objs2 = some n2 ∧
      ∀ fuel, n1.size * n2.size ≤ fuel → ∃ res, intersectBvhObjects fuel n1 n2 = some res ∧
        res.Perm (((objs1.flatMap fun a => objs2.map fun b => (a, b)).filter fun z =>
          decide (∃ x, InBox 3 (bb1 z.1).arr x ∧ InBox 3 (bb2 z.2).arr x)).map fun z => ([z.1], [z.2])) := by
  obtain ⟨n1, a1, _, _, a4, a5⟩ := build_spec bb1 1 (le_refl _) f1 objs1 hne1 hf1 hg1
  obtain ⟨n2, b1, _, _, b4, b5⟩ := build_spec bb2 1 (le_refl _) f2 objs2 hne2 hf2 hg2
  refine ⟨n1, n2, a1, b1, fun fuel hfuel => ?_⟩
  obtain ⟨res, e, p⟩ := pairLoop_spec bb1 bb2 fuel [(n1, n2)] [] (by simpa [work] using hfuel)
    (fun x hx => by rw [List.mem_singleton] at hx; subst hx; exact ⟨a4, b4⟩)
  refine ⟨res, e, p.trans ?_⟩
  simp only [List.nil_append, List.flatMap_cons, List.flatMap_nil, List.append_nil, hits]
  have hprod : ((leafB n1).flatMap fun x => (leafB n2).map fun y => (x, y)).Perm
      ((objs1.flatMap fun a => objs2.map fun b => (a, b)).map fun z => ((bb1 z.1, [z.1]), (bb2 z.2, [z.2]))) := by
    refine (List.Perm.flatMap (a5 rfl) (fun x _ => (b5 rfl).map _)).trans ?_
    rw [List.flatMap_map, List.map_flatMap]
    simp only [List.map_map]
    exact List.Perm.refl _
  refine ((hprod.filter _).map _).trans ?_
  rw [List.filter_map, List.map_map]
  have : (objs1.flatMap fun a => objs2.map fun b => (a, b)).filter
      ((fun z : (BB K × List α) × (BB K × List β) => z.1.1.intersect z.2.1) ∘ fun z => ((bb1 z.1, [z.1]), (bb2 z.2, [z.2]))) =
      (objs1.flatMap fun a => objs2.map fun b => (a, b)).filter fun z =>
        decide (∃ x, InBox 3 (bb1 z.1).arr x ∧ InBox 3 (bb2 z.2).arr x) := by
    apply List.filter_congr
    intro z hz
    obtain ⟨a, ha, hz⟩ := List.mem_flatMap.mp hz
    obtain ⟨b, hb, rfl⟩ := List.mem_map.mp hz
    rw [Bool.eq_iff_iff, decide_eq_true_iff]
    exact intersect_iff _ _ (hg1 a ha) (hg2 b hb)
  rw [this]
  exact List.Perm.refl _

/-- Two objects of the sample meet the query box. -/
example : ((build (fun b : BB ℚ => b) 1 4 sample).map fun n =>
    (traverse (BB.mk' (pt [1, 0, 0]) (pt [2, 3, 1])) n).map fun g => g.map fun b => b.min 0) = some [[0], [2]] := by decide +kernel

/-! ## C70: segment queries -/

variable [IsStrictOrderedRing K]

/-- The segment from `s` to `e` passes through the box. -/
def SegMeets (s e : Pt K) (b : BB K) : Prop := ∃ x, OnSegment s e x ∧ InBox 3 b.arr x

theorem seg_test (tol : K) (htol : 0 < tol) (s e : Pt K) (hd : ∀ i, i < 3 → e i - s i = 0 ∨ tol ≤ |e i - s i|) (b : BB K)
    (hb : Good b) : (Aabb.intersect3d b.arr (Aabb.caabbSegm3d s e) = true ∧ (Aabb.segmentClip tol b.arr s e).isSome = true) ↔
      SegMeets s e b := by
  obtain ⟨c1, c2⟩ := Aabb.C19_clip_exact tol htol b.arr (good_proper b hb) s e hd
  constructor
  · rintro ⟨_, h⟩
    obtain ⟨⟨p, q⟩, hpq⟩ := Option.isSome_iff_exists.mp h
    exact ⟨p, (c2 p q hpq p).mpr ⟨0, le_refl _, zero_le_one, fun i _ => by simp⟩⟩
  · rintro ⟨x, h1, h2⟩
    constructor
    · rw [Aabb.intersect3d_iff]
      obtain ⟨t, t0, t1, ex⟩ := h1
      intro i hi
      have e1 := ex i hi
      have hin := h2 i hi
      simp only [Aabb.caabbSegm3d]
      rcases le_total (s i) (e i) with h | h
      · rw [min_eq_left h, max_eq_right h]
        have h3 : 0 ≤ (e i - s i) * t := mul_nonneg (by linarith) t0
        have h4 : (e i - s i) * t ≤ (e i - s i) * 1 := mul_le_mul_of_nonneg_left t1 (by linarith)
        exact ⟨by linarith [hin.1], by linarith [hin.2]⟩
      · rw [min_eq_right h, max_eq_left h]
        have h3 : (e i - s i) * t ≤ 0 := mul_nonpos_of_nonpos_of_nonneg (by linarith) t0
        have h4 : (e i - s i) * 1 ≤ (e i - s i) * t := mul_le_mul_of_nonpos_left t1 (by linarith)
        exact ⟨by linarith [hin.1], by linarith [hin.2]⟩
    · rw [Option.isSome_iff_ne_none]
      intro hn
      exact c1 hn x h1 h2

/-- Work left on the stack. -/
def work1 : List (Node K α) → Nat
  | [] => 0
  | n :: st => n.size + work1 st

open Classical in
/-- Leaves the segment passes through. -/
noncomputable def segHits (s e : Pt K) (n : Node K α) : List (List α) :=
  ((leafB n).filter fun x => decide (SegMeets s e x.1)).map Prod.snd

theorem segHits_none (bb : α → BB K) (s e : Pt K) (n : Node K α) (h : Nested bb n) (hn : ¬ SegMeets s e n.box) :
    segHits s e n = [] := by
  rw [segHits, List.map_eq_nil_iff, List.filter_eq_nil_iff]
  intro x hx hc
  replace hc : SegMeets s e x.1 := by classical exact of_decide_eq_true hc
  obtain ⟨y, h1, h2⟩ := hc
  obtain ⟨s1, g1⟩ := leafB_sub bb n h x hx
  exact hn ⟨y, h1, inBox_sub x.1 n.box g1 (nested_box bb n h).1 s1 y h2⟩

theorem segLoop_spec (bb : α → BB K) (tol : K) (htol : 0 < tol) (s e : Pt K)
    (hd : ∀ i, i < 3 → e i - s i = 0 ∨ tol ≤ |e i - s i|) : ∀ (fuel : Nat) (st : List (Node K α)) (acc : List (List α)),
    work1 st ≤ fuel → (∀ n ∈ st, Nested bb n) →
    ∃ res, segLoop tol s e fuel st acc = some res ∧ res.Perm (acc ++ st.flatMap (segHits s e)) := by
  intro fuel
  induction fuel with
  | zero =>
    intro st acc hw _
    cases st with
    | nil => exact ⟨acc, rfl, by simp⟩
    | cons n st =>
      exfalso
      have := size_pos n
      rw [work1] at hw; omega
  | succ fuel ih =>
    intro st acc hw hn
    cases st with
    | nil => exact ⟨acc, rfl, by simp⟩
    | cons n st =>
      have hnn := hn n (by simp)
      have hst : ∀ x ∈ st, Nested bb x := fun x hx => hn x (List.mem_cons_of_mem _ hx)
      have hb := (nested_box bb n hnn).1
      have ht := seg_test tol htol s e hd n.box hb
      have hpos := size_pos n
      rw [work1] at hw
      rw [segLoop.eq_def]
      dsimp only
      by_cases hm : SegMeets s e n.box
      · obtain ⟨h1, h2⟩ := ht.mpr hm
        obtain ⟨c, hc⟩ := Option.isSome_iff_exists.mp h2
        simp only [h1, hc, Bool.not_true, Bool.false_eq_true, if_false]
        cases n with
        | leaf b os =>
          obtain ⟨res, e1, p⟩ := ih st (acc ++ [os]) (by omega) hst
          refine ⟨res, e1, ?_⟩
          have : segHits s e (.leaf b os) = [os] := by
            have hm' : SegMeets s e b := hm
            simp [segHits, leafB, hm']
          rw [List.flatMap_cons, this]
          simpa using p
        | node b l r =>
          obtain ⟨res, e1, p⟩ := ih (r :: l :: st) acc (by simp only [work1, Node.size] at hw ⊢; omega) (by
            intro x hx
            rcases List.mem_cons.mp hx with rfl | hx
            · exact hnn.2.2
            rcases List.mem_cons.mp hx with rfl | hx
            · exact hnn.2.1
            exact hst x hx)
          refine ⟨res, e1, p.trans (List.Perm.append_left _ ?_)⟩
          have : segHits s e (.node b l r) = segHits s e l ++ segHits s e r := by
            simp [segHits, leafB]
          simp only [List.flatMap_cons, this]
          rw [← List.append_assoc]
          exact List.Perm.append_right _ List.perm_append_comm
      · obtain ⟨res, e1, p⟩ := ih st acc (by omega) hst
        refine ⟨res, ?_, ?_⟩
        · cases h1 : Aabb.intersect3d n.box.arr (Aabb.caabbSegm3d s e) with
          | false => simpa using e1
          | true =>
            cases h2 : Aabb.segmentClip tol n.box.arr s e with
            | none => simpa using e1
            | some c => exact absurd (ht.mp ⟨h1, by rw [h2]; rfl⟩) hm
        · rw [List.flatMap_cons, segHits_none bb s e n hnn hm, List.nil_append]
          exact p

open Classical in
/-- **C70.** On the tree built from `objs`, `bvh_segment_intersection` ends and returns exactly the objects whose box the segment
passes through, each once.  The hypothesis on the direction is that of the slab test: each component is zero or at least the
tolerance. -/
theorem C70_segment_query (bb : α → BB K) (objs : List α) (hne : objs ≠ []) (hg : ∀ o ∈ objs, Good (bb o)) (f : Nat)
    (hf : objs.length ≤ 2 ^ f) (tol : K) (htol : 0 < tol) (s e : Pt K) (hd : ∀ i, i < 3 → e i - s i = 0 ∨ tol ≤ |e i - s i|) :
    ∃ n, build bb 1 (f + 1) objs = some n ∧ ∀ fuel, n.size ≤ fuel → ∃ res, segmentQuery tol fuel n s e = some res ∧
      res.Perm ((objs.filter fun o => decide (∃ x, OnSegment s e x ∧ InBox 3 (bb o).arr x)).map fun o => [o]) := by
  obtain ⟨n, h1, _, _, h4, h5⟩ := build_spec bb 1 (le_refl _) f objs hne hf hg
  refine ⟨n, h1, fun fuel hfuel => ?_⟩
  obtain ⟨res, e1, p⟩ := segLoop_spec bb tol htol s e hd fuel [n] [] (by simpa [work1] using hfuel)
    (fun x hx => by rw [List.mem_singleton] at hx; subst hx; exact h4)
  refine ⟨res, e1, p.trans ?_⟩
  simp only [List.nil_append, List.flatMap_cons, List.flatMap_nil, List.append_nil, segHits]
  refine (((h5 rfl).filter _).map _).trans ?_
  rw [List.filter_map, List.map_map]
  exact List.Perm.refl _

/-- A diagonal segment through two of the five cubes. -/
example : ((build (fun b : BB ℚ => b) 1 4 sample).bind fun n =>
    (segmentQuery (1 / 10 ^ 15) 9 n (pt [0, 0, 0]) (pt [4, 4, 1])).map fun l => l.map fun g => g.map fun b => b.min 0) =
    some [[2], [0]] := by decide +kernel

/-! ## C71 -/

/-- **C71, partial.** `build_bvh` leaves the caller's list with the same objects. -/
theorem C71_list_kept_partial (bb : α → BB K) (k : Nat) (objs : List α) : (listAfterBuild bb k objs).Perm objs := by
  unfold listAfterBuild
  split
  · exact List.Perm.refl _
  · exact List.perm_insertionSort _ _

/-- **C71, refuted.** It does not leave them in the same order: the list passed in is sorted in place. -/
theorem C71_list_order_refuted : ∃ objs : List (BB ℚ), (listAfterBuild (fun b => b) 1 objs).map (fun b => b.min 0) ≠
    objs.map fun b => b.min 0 := ⟨sample, by decide +kernel⟩

/-! ## C28 -/

/-- Along `axis`, `(l, r)` is the box `b` cut at `v`. -/
def CutAt (b l r : BB K) (axis : Nat) (v : K) : Prop :=
  ∀ p : Pt K, (l.containsPoint p = true ↔ b.containsPoint p = true ∧ p axis ≤ v) ∧
    (r.containsPoint p = true ↔ b.containsPoint p = true ∧ v ≤ p axis)

theorem contains_iff (b : BB K) (p : Pt K) : b.containsPoint p = true ↔ ∀ i, i < 3 → b.min i ≤ p i ∧ p i ≤ b.max i := by
  rw [Aabb.lt3, BB.containsPoint, Bool.and_eq_true, decide_eq_true_iff, decide_eq_true_iff]
  tauto

/-- **C28, split, partial.** At the default parameter one half the two pieces are the box cut at the middle, for `contains_point`.
Missing: other parameters and the queries that read the cached array; both are refuted below. -/
theorem C28_split_half_partial (b : BB K) (hb : Good b) (axis : Nat) (ha : axis < 3) :
    CutAt b (b.split axis (1 / 2)).1 (b.split axis (1 / 2)).2 axis (b.min axis + (b.max axis - b.min axis) / 2) := by
  have hv : (b.min axis + b.max axis) * (1 / 2) = b.min axis + (b.max axis - b.min axis) / 2 := by ring
  have hle := hb.le axis ha
  intro p
  rw [contains_iff, contains_iff, contains_iff]
  simp only [BB.split, BB.mk', hv, Aabb.upd]
  constructor
  · constructor
    · intro h
      have hax := h axis ha
      simp only [if_true] at hax
      refine ⟨fun i hi => ⟨(h i hi).1, ?_⟩, hax.2⟩
      by_cases e : i = axis
      · subst e; linarith [hax.2]
      · have := (h i hi).2; rwa [if_neg e] at this
    · rintro ⟨h, h'⟩ i hi
      refine ⟨(h i hi).1, ?_⟩
      by_cases e : i = axis
      · rw [if_pos e, e]; exact h'
      · rw [if_neg e]; exact (h i hi).2
  · constructor
    · intro h
      have hax := h axis ha
      simp only [if_true] at hax
      refine ⟨fun i hi => ⟨?_, (h i hi).2⟩, hax.1⟩
      by_cases e : i = axis
      · subst e; linarith [hax.1]
      · have := (h i hi).1; rwa [if_neg e] at this
    · rintro ⟨h, h'⟩ i hi
      refine ⟨?_, (h i hi).2⟩
      by_cases e : i = axis
      · rw [if_pos e, e]; exact h'
      · rw [if_neg e]; exact (h i hi).1

/-- **C28, expand and merge, partial.** After `expand` the box contains, for `contains_point`, what `merge` returns, and that is
the smallest box around both; `intersection` is the common part. -/
theorem C28_expand_partial (a b : BB K) (ha : Good a) (hb : Good b) :
    (∀ p, (a.expand b).containsPoint p = (a.merge b).containsPoint p) ∧ Sub a (a.merge b) ∧ Sub b (a.merge b) ∧
    (∀ c, Sub a c → Sub b c → Sub (a.merge b) c) ∧
    (a.intersection b = none ↔ ¬ ∃ p, a.containsPoint p = true ∧ b.containsPoint p = true) ∧
    ∀ c, a.intersection b = some c → ∀ p, c.containsPoint p = true ↔ a.containsPoint p = true ∧ b.containsPoint p = true := by
  obtain ⟨_, m2, m3, m4⟩ := merge_spec a b ha hb
  refine ⟨fun p => rfl, m2, m3, m4, ?_, ?_⟩
  · rw [BB.intersection]
    dsimp only
    constructor
    · intro h
      rintro ⟨p, hp, hq⟩
      rw [contains_iff] at hp hq
      split at h
      · rename_i hc
        rcases hc with hc | hc | hc
        · exact absurd hc (not_lt.mpr (le_trans (max_le (hp 0 (by omega)).1 (hq 0 (by omega)).1)
            (le_min (hp 0 (by omega)).2 (hq 0 (by omega)).2)))
        · exact absurd hc (not_lt.mpr (le_trans (max_le (hp 1 (by omega)).1 (hq 1 (by omega)).1)
            (le_min (hp 1 (by omega)).2 (hq 1 (by omega)).2)))
        · exact absurd hc (not_lt.mpr (le_trans (max_le (hp 2 (by omega)).1 (hq 2 (by omega)).1)
            (le_min (hp 2 (by omega)).2 (hq 2 (by omega)).2)))
      · cases h
    · intro h
      by_contra hn
      split at hn
      · exact hn rfl
      · rename_i hc
        rw [not_or, not_or] at hc
        have hc' : ∀ i, i < 3 → Max.max (a.min i) (b.min i) ≤ Min.min (a.max i) (b.max i) := by
          rw [Aabb.lt3]; exact ⟨not_lt.mp hc.1, not_lt.mp hc.2.1, not_lt.mp hc.2.2⟩
        apply h
        refine ⟨fun i => Max.max (a.min i) (b.min i), ?_, ?_⟩
        · rw [contains_iff]
          exact fun i hi => ⟨le_max_left _ _, le_trans (hc' i hi) (min_le_left _ _)⟩
        · rw [contains_iff]
          exact fun i hi => ⟨le_max_right _ _, le_trans (hc' i hi) (min_le_right _ _)⟩
  · intro c hc p
    rw [BB.intersection] at hc
    dsimp only at hc
    split at hc
    · cases hc
    · rw [Option.some_inj] at hc
      subst hc
      rw [contains_iff, contains_iff, contains_iff]
      simp only [BB.mk', max_le_iff, le_min_iff]
      constructor
      · intro h; exact ⟨fun i hi => ⟨(h i hi).1.1, (h i hi).2.1⟩, fun i hi => ⟨(h i hi).1.2, (h i hi).2.2⟩⟩
      · rintro ⟨h, h'⟩ i hi; exact ⟨⟨(h i hi).1, (h' i hi).1⟩, (h i hi).2, (h' i hi).2⟩

/-- **C28, refuted (split parameter).** At parameter 1/4 the box `[2,4]` is cut at 3/2, outside it: the left piece contains no
point although the box does at the quarter point. -/
theorem C28_split_parameter_refuted : ∃ (b : BB ℚ) (p : Pt ℚ), Good b ∧ b.containsPoint p = true ∧
    p 0 = b.min 0 + (b.max 0 - b.min 0) * (1 / 8) ∧ (b.split 0 (1 / 4)).1.containsPoint p = false := by
  refine ⟨BB.mk' (pt [2, 0, 0]) (pt [4, 1, 1]), pt [9 / 4, 0, 0], good_mk _ _ ?_, by decide +kernel, by decide +kernel,
    by decide +kernel⟩
  rw [Aabb.lt3]; simp only [pt]; norm_num

/-- **C28, refuted (stale array).** A half of a split box still answers `intersect` for the whole box, and an expanded box for the
old one, while `contains_point` uses the new corners. -/
theorem C28_stale_refuted : ∃ (b q : BB ℚ), Good b ∧ Good q ∧
    ((b.split 0 (1 / 2)).1.intersect q = true ∧ ∀ p, q.containsPoint p = true → (b.split 0 (1 / 2)).1.containsPoint p = false) ∧
    (∃ c, Good c ∧ (c.expand b).intersect q = false ∧ ∃ p, (c.expand b).containsPoint p = true ∧ q.containsPoint p = true) := by
  refine ⟨BB.mk' (pt [0, 0, 0]) (pt [2, 1, 1]), BB.mk' (pt [3 / 2, 0, 0]) (pt [2, 1, 1]), good_mk _ _ ?_, good_mk _ _ ?_,
    ⟨by decide +kernel, fun p hp => ?_⟩, BB.mk' (pt [0, 0, 0]) (pt [1, 1, 1]), good_mk _ _ ?_, by decide +kernel,
    pt [2, 0, 0], by decide +kernel, by decide +kernel⟩
  · rw [Aabb.lt3]; simp only [pt]; norm_num
  · rw [Aabb.lt3]; simp only [pt]; norm_num
  · rw [Bool.eq_false_iff]
    intro hc
    rw [contains_iff] at hp hc
    have h1 := (hp 0 (by omega)).1
    have h2 := (hc 0 (by omega)).2
    simp only [BB.split, BB.mk', Aabb.upd, pt] at h1 h2
    norm_num at h1 h2
    linarith
  · rw [Aabb.lt3]; simp only [pt]; norm_num

example : CutAt (cube 2 0 0) ((cube 2 0 0).split 0 (1 / 2)).1 ((cube 2 0 0).split 0 (1 / 2)).2 0
    ((cube 2 0 0).min 0 + ((cube 2 0 0).max 0 - (cube 2 0 0).min 0) / 2) :=
  C28_split_half_partial _ (good_cube 2 0 0) 0 (by omega)

end Verif.Bvh
