import Verif.Bvh.Props
import Mathlib.Data.Rat.Sqrt
import Mathlib.Analysis.SpecialFunctions.Sqrt
import Mathlib.Tactic.Positivity

/-! # C27: closest object -/

set_option linter.unusedSectionVars false

namespace Verif.Bvh
open Verif.Aabb (Pt Box InBox Proper OnSegment pt)
variable {K : Type} [Field K] [LinearOrder K] [IsStrictOrderedRing K]
variable {α : Type}

/-- What the proofs need of a norm. -/
structure IsNorm (nrm : K → K → K → K) : Prop where
  zero : nrm 0 0 0 = 0
  pos : ∀ x y z, 0 ≤ x → 0 ≤ y → 0 ≤ z → (0 < x ∨ 0 < y ∨ 0 < z) → 0 < nrm x y z

theorem sd_le_zero_iff (nrm : K → K → K → K) (hn : IsNorm nrm) (b : BB K) (hb : Good b) (p : Pt K) :
    sdAabb nrm b.arr p ≤ 0 ↔ b.containsPoint p = true := by
  rw [contains_iff, hb.arr]
  have key : ∀ i, (|p i - (b.min i + b.max i) / 2| - (b.max i - (b.min i + b.max i) / 2) ≤ 0) ↔ b.min i ≤ p i ∧ p i ≤ b.max i := by
    intro i
    rw [sub_nonpos, abs_le]
    constructor
    · rintro ⟨h1, h2⟩; constructor <;> linarith
    · rintro ⟨h1, h2⟩; constructor <;> linarith
  obtain ⟨d, hd⟩ : ∃ d : Nat → K, d = fun i => |p i - (b.min i + b.max i) / 2| - (b.max i - (b.min i + b.max i) / 2) := ⟨_, rfl⟩
  have e : sdAabb nrm ⟨b.min, b.max⟩ p = min (max (max (d 0) (d 1)) (d 2)) 0 + nrm (max (d 0) 0) (max (d 1) 0) (max (d 2) 0) := by
    rw [hd]; rfl
  have key' : ∀ i, d i ≤ 0 ↔ b.min i ≤ p i ∧ p i ≤ b.max i := fun i => by rw [hd]; exact key i
  rw [e, Aabb.lt3, ← key' 0, ← key' 1, ← key' 2]
  constructor
  · intro h
    by_contra hc
    have hpos : 0 < d 0 ∨ 0 < d 1 ∨ 0 < d 2 := by
      by_contra hh
      rw [not_or, not_or] at hh
      exact hc ⟨not_lt.mp hh.1, not_lt.mp hh.2.1, not_lt.mp hh.2.2⟩
    have h1 : min (max (max (d 0) (d 1)) (d 2)) 0 = 0 := by
      apply min_eq_right
      rcases hpos with h | h | h
      · exact le_trans (le_of_lt h) (le_trans (le_max_left _ _) (le_max_left _ _))
      · exact le_trans (le_of_lt h) (le_trans (le_max_right _ _) (le_max_left _ _))
      · exact le_trans (le_of_lt h) (le_max_right _ _)
    have h2 := hn.pos (max (d 0) 0) (max (d 1) 0) (max (d 2) 0) (le_max_right _ _) (le_max_right _ _) (le_max_right _ _) (by
      rcases hpos with h | h | h
      · exact Or.inl (lt_of_lt_of_le h (le_max_left _ _))
      · exact Or.inr (Or.inl (lt_of_lt_of_le h (le_max_left _ _)))
      · exact Or.inr (Or.inr (lt_of_lt_of_le h (le_max_left _ _))))
    rw [h1, zero_add] at h
    exact absurd h2 (not_lt.mpr h)
  · rintro ⟨h0, h1, h2⟩
    rw [max_eq_right h0, max_eq_right h1, max_eq_right h2, hn.zero, add_zero]
    exact min_le_right _ _

/-- Leaves at exactly distance `d`. -/
def atDist (nrm : K → K → K → K) (p : Pt K) (n : Node K α) (d : K) : List (List α) :=
  ((leafB n).filter fun x => decide (sdAabb nrm x.1.arr p = d)).map Prod.snd

theorem atDist_node (nrm : K → K → K → K) (p : Pt K) (b : BB K) (l r : Node K α) (d : K) :
    atDist nrm p (.node b l r) d = atDist nrm p l d ++ atDist nrm p r d := by
  simp [atDist, leafB]

theorem atDist_nil (nrm : K → K → K → K) (p : Pt K) (n : Node K α) (d : K) (h : ∀ x ∈ leafB n, d < sdAabb nrm x.1.arr p) :
    atDist nrm p n d = [] := by
  rw [atDist, List.map_eq_nil_iff, List.filter_eq_nil_iff]
  intro x hx hc
  exact absurd (of_decide_eq_true hc) (ne_of_gt (h x hx))

theorem mem_sub_contains (a b : BB K) (h : Sub a b) (p : Pt K) (hp : a.containsPoint p = true) : b.containsPoint p = true := by
  rw [contains_iff] at *
  exact fun i hi => ⟨le_trans (h i hi).1 (hp i hi).1, le_trans (hp i hi).2 (h i hi).2⟩

theorem vicinity_spec (bb : α → BB K) (nrm : K → K → K → K) (hn : IsNorm nrm) (p : Pt K) : ∀ n : Node K α, Nested bb n →
    n.box.containsPoint p = true →
    ((∃ x ∈ leafB n, x.1.containsPoint p = true) → ∃ d, vicinity nrm p n = some (atDist nrm p n d, d) ∧ d ≤ 0 ∧
      ∀ x ∈ leafB n, d ≤ sdAabb nrm x.1.arr p) ∧
    ((¬ ∃ x ∈ leafB n, x.1.containsPoint p = true) → vicinity nrm p n = none) := by
  intro n
  induction n with
  | leaf b os =>
    intro h hc
    refine ⟨fun _ => ⟨sdAabb nrm b.arr p, ?_, ?_, ?_⟩, fun hno => ?_⟩
    · simp [vicinity, atDist, leafB]
    · exact (sd_le_zero_iff nrm hn b h.1 p).mpr hc
    · intro x hx; rw [leafB, List.mem_singleton] at hx; rw [hx]
    · exact absurd ⟨(b, os), by simp [leafB], hc⟩ hno
  | node b l r ihl ihr =>
    intro h hc
    have hl := h.2.1
    have hr := h.2.2
    have outside : ∀ m : Node K α, Nested bb m → (¬ ∃ x ∈ leafB m, x.1.containsPoint p = true) →
        ∀ x ∈ leafB m, 0 < sdAabb nrm x.1.arr p := by
      intro m hm hno x hx
      by_contra hlt
      exact hno ⟨x, hx, (sd_le_zero_iff nrm hn x.1 (leafB_sub bb m hm x hx).2 p).mp (not_lt.mp hlt)⟩
    have noleaf : ∀ m : Node K α, Nested bb m → m.box.containsPoint p = false → ¬ ∃ x ∈ leafB m, x.1.containsPoint p = true := by
      rintro m hm hf ⟨x, hx, hxc⟩
      rw [mem_sub_contains x.1 m.box (leafB_sub bb m hm x hx).1 p hxc] at hf
      cases hf
    -- joining the two sides
    have onlyL : (¬ ∃ x ∈ leafB r, x.1.containsPoint p = true) → ∀ d, d ≤ 0 → (∀ x ∈ leafB l, d ≤ sdAabb nrm x.1.arr p) →
        atDist nrm p (.node b l r) d = atDist nrm p l d ∧ ∀ x ∈ leafB (.node b l r), d ≤ sdAabb nrm x.1.arr p := by
      intro hno d d0 hd
      have hout := outside r hr hno
      refine ⟨?_, fun x hx => ?_⟩
      · rw [atDist_node, atDist_nil nrm p r d (fun x hx => lt_of_le_of_lt d0 (hout x hx)), List.append_nil]
      · rw [leafB] at hx
        rcases List.mem_append.mp hx with h' | h'
        · exact hd x h'
        · exact le_trans d0 (le_of_lt (hout x h'))
    have onlyR : (¬ ∃ x ∈ leafB l, x.1.containsPoint p = true) → ∀ d, d ≤ 0 → (∀ x ∈ leafB r, d ≤ sdAabb nrm x.1.arr p) →
        atDist nrm p (.node b l r) d = atDist nrm p r d ∧ ∀ x ∈ leafB (.node b l r), d ≤ sdAabb nrm x.1.arr p := by
      intro hno d d0 hd
      have hout := outside l hl hno
      refine ⟨?_, fun x hx => ?_⟩
      · rw [atDist_node, atDist_nil nrm p l d (fun x hx => lt_of_le_of_lt d0 (hout x hx)), List.nil_append]
      · rw [leafB] at hx
        rcases List.mem_append.mp hx with h' | h'
        · exact le_trans d0 (le_of_lt (hout x h'))
        · exact hd x h'
    have split : (∃ x ∈ leafB (.node b l r), x.1.containsPoint p = true) ↔
        (∃ x ∈ leafB l, x.1.containsPoint p = true) ∨ ∃ x ∈ leafB r, x.1.containsPoint p = true := by
      rw [leafB]
      constructor
      · rintro ⟨x, hx, hxc⟩
        rcases List.mem_append.mp hx with h' | h'
        · exact Or.inl ⟨x, h', hxc⟩
        · exact Or.inr ⟨x, h', hxc⟩
      · rintro (⟨x, hx, hxc⟩ | ⟨x, hx, hxc⟩)
        · exact ⟨x, List.mem_append_left _ hx, hxc⟩
        · exact ⟨x, List.mem_append_right _ hx, hxc⟩
    rw [split, vicinity, show b.containsPoint p = true from hc]
    simp only [Bool.not_true, Bool.false_eq_true, if_false]
    cases cl : l.box.containsPoint p with
    | true =>
      have il := ihl hl cl
      cases cr : r.box.containsPoint p with
      | true =>
        have ir := ihr hr cr
        dsimp only
        by_cases eL : ∃ x ∈ leafB l, x.1.containsPoint p = true
        · obtain ⟨d1, v1, z1, m1⟩ := il.1 eL
          by_cases eR : ∃ x ∈ leafB r, x.1.containsPoint p = true
          · obtain ⟨d2, v2, z2, m2⟩ := ir.1 eR
            refine ⟨fun _ => ?_, fun hno => absurd (Or.inl eL) hno⟩
            rw [v1, v2]
            dsimp only [pick]
            rcases lt_trichotomy d1 d2 with h | h | h
            · rw [if_pos h]
              refine ⟨d1, ?_, z1, fun x hx => ?_⟩
              · rw [atDist_node, atDist_nil nrm p r d1 (fun x hx => lt_of_lt_of_le h (m2 x hx)), List.append_nil]
              · rw [leafB] at hx
                rcases List.mem_append.mp hx with h' | h'
                · exact m1 x h'
                · exact le_trans (le_of_lt h) (m2 x h')
            · subst h
              rw [if_neg (lt_irrefl _), if_neg (lt_irrefl _)]
              refine ⟨d1, by rw [atDist_node], z1, fun x hx => ?_⟩
              rw [leafB] at hx
              rcases List.mem_append.mp hx with h' | h'
              · exact m1 x h'
              · exact m2 x h'
            · rw [if_neg (lt_asymm h), if_pos h]
              refine ⟨d2, ?_, z2, fun x hx => ?_⟩
              · rw [atDist_node, atDist_nil nrm p l d2 (fun x hx => lt_of_lt_of_le h (m1 x hx)), List.nil_append]
              · rw [leafB] at hx
                rcases List.mem_append.mp hx with h' | h'
                · exact le_trans (le_of_lt h) (m1 x h')
                · exact m2 x h'
          · refine ⟨fun _ => ?_, fun hno => absurd (Or.inl eL) hno⟩
            rw [v1, ir.2 eR]
            obtain ⟨a1, a2⟩ := onlyL eR d1 z1 m1
            exact ⟨d1, by rw [a1], z1, a2⟩
        · by_cases eR : ∃ x ∈ leafB r, x.1.containsPoint p = true
          · obtain ⟨d2, v2, z2, m2⟩ := ir.1 eR
            refine ⟨fun _ => ?_, fun hno => absurd (Or.inr eR) hno⟩
            rw [v2, il.2 eL]
            obtain ⟨a1, a2⟩ := onlyR eL d2 z2 m2
            exact ⟨d2, by rw [a1], z2, a2⟩
          · refine ⟨fun h => absurd h (by rw [not_or]; exact ⟨eL, eR⟩), fun _ => ?_⟩
            rw [il.2 eL, ir.2 eR]
      | false =>
        have eR := noleaf r hr cr
        dsimp only
        refine ⟨fun h => ?_, fun hno => il.2 (fun h => hno (Or.inl h))⟩
        obtain ⟨d1, v1, z1, m1⟩ := il.1 (h.resolve_right eR)
        obtain ⟨a1, a2⟩ := onlyL eR d1 z1 m1
        exact ⟨d1, by rw [v1, a1], z1, a2⟩
    | false =>
      have eL := noleaf l hl cl
      cases cr : r.box.containsPoint p with
      | true =>
        have ir := ihr hr cr
        dsimp only
        refine ⟨fun h => ?_, fun hno => ir.2 (fun h => hno (Or.inr h))⟩
        obtain ⟨d2, v2, z2, m2⟩ := ir.1 (h.resolve_left eL)
        obtain ⟨a1, a2⟩ := onlyR eL d2 z2 m2
        exact ⟨d2, by rw [v2, a1], z2, a2⟩
      | false =>
        have eR := noleaf r hr cr
        dsimp only
        exact ⟨fun h => absurd h (by rw [not_or]; exact ⟨eL, eR⟩), fun _ => rfl⟩

theorem vicinity_ne (nrm : K → K → K → K) (p : Pt K) : ∀ (n : Node K α) gs d, vicinity nrm p n = some (gs, d) → gs ≠ [] := by
  intro n
  induction n with
  | leaf b os => intro gs d h; simp only [vicinity, Option.some_inj, Prod.mk.injEq] at h; rw [← h.1]; simp
  | node b l r ihl ihr =>
    intro gs d h
    rw [vicinity] at h
    split at h
    · cases h
    · split at h
      · exact ihl gs d h
      · exact ihr gs d h
      · split at h
        · rename_i a c ea ec
          rw [Option.some_inj, pick] at h
          split at h
          · exact ihl gs d (by rw [ea, h])
          · split at h
            · exact ihr gs d (by rw [ec, h])
            · rw [Prod.mk.injEq] at h
              have := ihl a.1 a.2 ea
              rw [← h.1]
              simp [this]
        · rename_i c ea ec; exact ihr gs d (by rw [ec, h])
        · rename_i c ea ec; exact ihl gs d (by rw [ea, h])
        · cases h
      · cases h

/-- **C27, vicinity search.** On the tree built from `objs`: if the point lies in some object's box, `find_closest(...,
breadth=False)` returns exactly the objects of least signed box distance, with that distance.  If it lies in none (and there are
at least two objects) it returns `None`. -/
theorem C27_vicinity (bb : α → BB K) (objs : List α) (hne : objs ≠ []) (hg : ∀ o ∈ objs, Good (bb o)) (f : Nat)
    (hf : objs.length ≤ 2 ^ f) (nrm : K → K → K → K) (hn : IsNorm nrm) (p : Pt K) :
    ∃ n, build bb 1 (f + 1) objs = some n ∧
      ((∃ o ∈ objs, InBox 3 (bb o).arr p) → ∃ gs d, vicinity nrm p n = some (gs, d) ∧
        (∀ o ∈ objs, d ≤ sdAabb nrm (bb o).arr p) ∧
        gs.Perm ((objs.filter fun o => decide (sdAabb nrm (bb o).arr p = d)).map fun o => [o]) ∧ gs ≠ []) ∧
      ((¬ ∃ o ∈ objs, InBox 3 (bb o).arr p) → 2 ≤ objs.length → vicinity nrm p n = none) := by
  obtain ⟨n, h1, h2, h3, h4, h5⟩ := build_spec bb 1 (le_refl _) f objs hne hf hg
  have h5 := h5 rfl
  have hin : ∀ b : BB K, Good b → (InBox 3 b.arr p ↔ b.containsPoint p = true) := by
    intro b hb; rw [contains_iff, hb.arr]; exact Iff.rfl
  have hex : (∃ x ∈ leafB n, x.1.containsPoint p = true) ↔ ∃ o ∈ objs, InBox 3 (bb o).arr p := by
    constructor
    · rintro ⟨x, hx, hc⟩
      obtain ⟨o, ho, rfl⟩ := List.mem_map.mp (h5.subset hx)
      exact ⟨o, ho, (hin _ (hg o ho)).mpr hc⟩
    · rintro ⟨o, ho, hc⟩
      exact ⟨(bb o, [o]), h5.symm.subset (List.mem_map.mpr ⟨o, ho, rfl⟩), (hin _ (hg o ho)).mp hc⟩
  refine ⟨n, h1, fun h => ?_, fun h hlen => ?_⟩
  · obtain ⟨x, hx, hxc⟩ := hex.mpr h
    obtain ⟨d, v, z, m⟩ := (vicinity_spec bb nrm hn p n h4 (mem_sub_contains _ _ (leafB_sub bb n h4 x hx).1 p hxc)).1 ⟨x, hx, hxc⟩
    have hperm : (atDist nrm p n d).Perm ((objs.filter fun o => decide (sdAabb nrm (bb o).arr p = d)).map fun o => [o]) := by
      refine ((h5.filter _).map _).trans ?_
      rw [List.filter_map, List.map_map]
      exact List.Perm.refl _
    refine ⟨atDist nrm p n d, d, v, fun o ho => m (bb o, [o]) (h5.symm.subset (List.mem_map.mpr ⟨o, ho, rfl⟩)), hperm, ?_⟩
    exact vicinity_ne nrm p n _ _ v
  · rw [← hex] at h
    cases n with
    | leaf b os =>
      exfalso
      have : os.length ≤ 1 := (h3 os (by simp [leafs])).2
      have := h2.length_eq
      simp [Node.objs, leafs] at this
      omega
    | node b l r =>
      by_cases hc : (Node.node b l r).box.containsPoint p = true
      · exact (vicinity_spec bb nrm hn p _ h4 hc).2 h
      · rw [vicinity]
        have : b.containsPoint p = false := Bool.eq_false_iff.mpr hc
        simp [this]

/-- **C27, breadth search, partial.** The default search returns at least one stored group, and all it returns are at the distance
it reports.  Missing: that no other object is closer, which is false (below). -/
theorem C27_breadth_partial (nrm : K → K → K → K) (p : Pt K) (n : Node K α) :
    (breadth nrm p n).1 ≠ [] ∧ ∀ g ∈ (breadth nrm p n).1, ∃ b, (b, g) ∈ leafB n ∧ sdAabb nrm b.arr p = (breadth nrm p n).2 := by
  induction n with
  | leaf b os => simp [breadth, leafB]
  | node b l r ihl ihr =>
    have hL : ∀ g ∈ (breadth nrm p l).1, ∃ c, (c, g) ∈ leafB (.node b l r) ∧ sdAabb nrm c.arr p = (breadth nrm p l).2 := by
      intro g hg
      obtain ⟨c, h1, h2⟩ := ihl.2 g hg
      exact ⟨c, List.mem_append_left _ h1, h2⟩
    have hR : ∀ g ∈ (breadth nrm p r).1, ∃ c, (c, g) ∈ leafB (.node b l r) ∧ sdAabb nrm c.arr p = (breadth nrm p r).2 := by
      intro g hg
      obtain ⟨c, h1, h2⟩ := ihr.2 g hg
      exact ⟨c, List.mem_append_right _ h1, h2⟩
    rw [breadth]
    split
    · exact ⟨ihl.1, hL⟩
    · split
      · exact ⟨ihr.1, hR⟩
      · rw [pick]
        split
        · exact ⟨ihl.1, hL⟩
        · split
          · exact ⟨ihr.1, hR⟩
          · rename_i h1 h2
            have he : (breadth nrm p l).2 = (breadth nrm p r).2 := le_antisymm (not_lt.mp h2) (not_lt.mp h1)
            refine ⟨by simp [ihl.1], fun g hg => ?_⟩
            rcases List.mem_append.mp hg with h | h
            · exact hL g h
            · rw [he]; exact hR g h

/-- Euclidean norm of rational triples; exact whenever the norm is rational, as in the examples. -/
def nrmQ (x y z : ℚ) : ℚ := Rat.sqrt (x * x + y * y + z * z)

/-- The norm the code uses satisfies the specification. -/
theorem euclid_isNorm : IsNorm fun x y z : ℝ => Real.sqrt (x * x + y * y + z * z) := by
  refine ⟨by norm_num, fun x y z hx hy hz h => Real.sqrt_pos.mpr ?_⟩
  rcases h with h | h | h <;> positivity

/-- Four point boxes. -/
def corners : List (BB ℚ) := [BB.mk' (pt [4, 0, 0]) (pt [4, 0, 0]), BB.mk' (pt [4, 10, 0]) (pt [4, 10, 0]),
  BB.mk' (pt [6, 5, 0]) (pt [6, 5, 0]), BB.mk' (pt [20, 5, 0]) (pt [20, 5, 0])]

/-- **C27, breadth search, refuted.** The default search follows the child whose box is nearer and never looks back: for the
point (4,5,0) it answers distance 5 although an object is at distance 2. -/
theorem C27_breadth_refuted : ∃ (objs : List (BB ℚ)) (p : Pt ℚ) (n : Node ℚ (BB ℚ)), (∀ o ∈ objs, Good o) ∧
    build (fun b => b) 1 3 objs = some n ∧ ∃ o ∈ objs, sdAabb nrmQ o.arr p < (breadth nrmQ p n).2 := by
  have h : (build (fun b : BB ℚ => b) 1 3 corners).map (fun n => (breadth nrmQ (pt [4, 5, 0]) n).2) = some 5 := by decide +kernel
  obtain ⟨n, hn, hd⟩ := Option.map_eq_some_iff.mp h
  refine ⟨corners, pt [4, 5, 0], n, ?_, hn, BB.mk' (pt [6, 5, 0]) (pt [6, 5, 0]), by simp [corners], ?_⟩
  · intro o ho
    simp only [corners, List.mem_cons, List.not_mem_nil, or_false] at ho
    rcases ho with rfl | rfl | rfl | rfl <;> exact good_mk _ _ fun _ _ => le_refl _
  · rw [hd]; decide +kernel

/-- The vicinity search in a sample: the point lies in two overlapping boxes, the deeper one is returned. -/
example : ((build (fun b : BB ℚ => b) 1 3 [BB.mk' (pt [0, 0, 0]) (pt [4, 4, 4]), BB.mk' (pt [1, 1, 1]) (pt [9, 9, 9]),
    cube 20 0 0]).bind fun n => (vicinity nrmQ (pt [2, 2, 3]) n).map fun r => (r.1.map fun g => g.map fun b => b.min 0, r.2)) =
    some ([[0], [1]], -1) := by decide +kernel

/-! ## C72 -/

/-- **C72.** `traverse_bvh_point` returns `None` exactly when the point is outside the root's box.  Otherwise it returns a subtree
whose box contains the point and that holds every leaf whose box contains the point. -/
theorem C72_traverse_point (bb : α → BB K) (p : Pt K) : ∀ n : Node K α, Nested bb n →
    (traversePoint p n = none ↔ n.box.containsPoint p = false) ∧
    ∀ m, traversePoint p n = some m → m.box.containsPoint p = true ∧ (leafB m).Sublist (leafB n) ∧
      ∀ x ∈ leafB n, InBox 3 x.1.arr p → x ∈ leafB m := by
  intro n
  induction n with
  | leaf b os =>
    intro h
    rw [traversePoint]
    cases hb : b.containsPoint p with
    | false => exact ⟨by simp [Node.box, hb], fun m hm => by simp at hm⟩
    | true =>
      refine ⟨by simp [Node.box, hb], fun m hm => ?_⟩
      simp only [Bool.not_true, Bool.false_eq_true, if_false, Option.some_inj] at hm
      subst hm
      exact ⟨hb, List.Sublist.refl _, fun x hx _ => hx⟩
  | node b l r ihl ihr =>
    intro h
    obtain ⟨l1, l2⟩ := ihl h.2.1
    obtain ⟨r1, r2⟩ := ihr h.2.2
    have noleaf : ∀ m : Node K α, Nested bb m → m.box.containsPoint p = false → ∀ x ∈ leafB m, ¬ InBox 3 x.1.arr p := by
      intro m hm hf x hx hxc
      have hg := (leafB_sub bb m hm x hx).2
      rw [hg.arr] at hxc
      have : x.1.containsPoint p = true := (contains_iff _ _).mpr hxc
      rw [mem_sub_contains x.1 m.box (leafB_sub bb m hm x hx).1 p this] at hf
      cases hf
    rw [traversePoint]
    cases hb : b.containsPoint p with
    | false => exact ⟨by simp [Node.box, hb], fun m hm => by simp at hm⟩
    | true =>
      simp only [Bool.not_true, Bool.false_eq_true, if_false]
      have hbox : (Node.node b l r).box.containsPoint p = true := hb
      have whole : (Node.node b l r).box.containsPoint p = true ∧ (leafB (.node b l r)).Sublist (leafB (.node b l r)) ∧
          ∀ x ∈ leafB (.node b l r), InBox 3 x.1.arr p → x ∈ leafB (.node b l r) := ⟨hbox, List.Sublist.refl _, fun x hx _ => hx⟩
      rw [hbox]
      cases el : traversePoint p l with
      | none =>
        have nl := noleaf l h.2.1 (l1.mp el)
        cases er : traversePoint p r with
        | none =>
          refine ⟨by simp, fun m hm => ?_⟩
          rw [Option.some_inj] at hm; subst hm; exact whole
        | some y =>
          refine ⟨by simp, fun m hm => ?_⟩
          rw [Option.some_inj] at hm; subst hm
          obtain ⟨c1, c2, c3⟩ := r2 y er
          refine ⟨c1, c2.trans (List.sublist_append_right _ _), fun x hx hxc => ?_⟩
          rcases List.mem_append.mp hx with h' | h'
          · exact absurd hxc (nl x h')
          · exact c3 x h' hxc
      | some y =>
        cases er : traversePoint p r with
        | none =>
          have nr := noleaf r h.2.2 (r1.mp er)
          refine ⟨by simp, fun m hm => ?_⟩
          rw [Option.some_inj] at hm; subst hm
          obtain ⟨c1, c2, c3⟩ := l2 y el
          refine ⟨c1, c2.trans (List.sublist_append_left _ _), fun x hx hxc => ?_⟩
          rcases List.mem_append.mp hx with h' | h'
          · exact c3 x h' hxc
          · exact absurd hxc (nr x h')
        | some z =>
          refine ⟨by simp, fun m hm => ?_⟩
          rw [Option.some_inj] at hm; subst hm; exact whole

example : ((build (fun b : BB ℚ => b) 1 4 sample).bind fun n => (traversePoint (pt [5, 1, 1 / 2]) n).map fun m =>
    (leafs m).map fun g => g.map fun b => b.min 0) = some [[5]] := by decide +kernel

end Verif.Bvh
