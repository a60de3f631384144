import Verif.Edg.Model
import Verif.Bvh.Props2

/-! # C435–C437 -/

set_option linter.unusedSectionVars false

namespace Verif.Edg

open Verif.Bvh
open Verif.Aabb (Pt InBox pt)

variable {K : Type} [Field K] [LinearOrder K] [IsStrictOrderedRing K] {α : Type}

theorem best_fold (l : List (K × K)) : ∀ x : K × K,
    let r := l.foldl (fun b y => if y.2 < b.2 then y else b) x
    (r = x ∨ r ∈ l) ∧ r.2 ≤ x.2 ∧ ∀ y ∈ l, r.2 ≤ y.2 := by
  induction l with
  | nil => intro x; simp
  | cons a l ih =>
    intro x
    simp only [List.foldl_cons]
    by_cases h : a.2 < x.2
    · rw [if_pos h]
      obtain ⟨h1, h2, h3⟩ := ih a
      refine ⟨?_, le_trans h2 h.le, ?_⟩
      · rcases h1 with h1 | h1
        · right; rw [h1]; simp
        · right; exact List.mem_cons_of_mem _ h1
      · intro y hy
        rcases List.mem_cons.1 hy with rfl | hy
        · exact h2
        · exact h3 y hy
    · rw [if_neg h]
      obtain ⟨h1, h2, h3⟩ := ih x
      refine ⟨?_, h2, ?_⟩
      · rcases h1 with h1 | h1
        · left; exact h1
        · right; exact List.mem_cons_of_mem _ h1
      · intro y hy
        rcases List.mem_cons.1 hy with rfl | hy
        · exact le_trans h2 (not_lt.1 h)
        · exact h3 y hy

theorem best_spec {l : List (K × K)} (h : l ≠ []) : ∃ r, best l = some r ∧ r ∈ l ∧ ∀ y ∈ l, r.2 ≤ y.2 := by
  rcases l with _ | ⟨x, l⟩
  · exact absurd rfl h
  · obtain ⟨h1, h2, h3⟩ := best_fold l x
    refine ⟨_, rfl, ?_, ?_⟩
    · rcases h1 with h1 | h1
      · rw [h1]; simp
      · exact List.mem_cons_of_mem _ h1
    · intro y hy
      rcases List.mem_cons.1 hy with rfl | hy
      · exact h2
      · exact h3 y hy

/-- **C435** (part).  If the point lies in the box of a piece, the call with `on_curve=True` returns `True` with the parameter that the solver
gives for a piece of the least signed distance to its box, the best one of these. -/
theorem C435_partial (bb : α → BB K) (objs : List α) (hne : objs ≠ []) (hg : ∀ o ∈ objs, Good (bb o)) (f : Nat)
    (hf : objs.length ≤ 2 ^ f) (nrm : K → K → K → K) (hn : IsNorm nrm) (p : Pt K) (h : ∃ o ∈ objs, InBox 3 (bb o).arr p) (bounded : α → K)
    (newton : α → Option K) (obj : K → K) :
    ∃ n, build bb 1 (f + 1) objs = some n ∧ ∃ o ∈ objs, closestOn nrm n p bounded newton obj = some (true, bounded o, obj (bounded o)) ∧
      (∀ o' ∈ objs, sdAabb nrm (bb o).arr p ≤ sdAabb nrm (bb o').arr p) ∧
      ∀ o' ∈ objs, sdAabb nrm (bb o').arr p = sdAabb nrm (bb o).arr p → obj (bounded o) ≤ obj (bounded o') := by
  obtain ⟨n, hb, h1, -⟩ := C27_vicinity bb objs hne hg f hf nrm hn p
  obtain ⟨gs, d, hv, hd, hp, hgne⟩ := h1 h
  have hmem : ∀ o, o ∈ gs.flatten ↔ o ∈ objs ∧ sdAabb nrm (bb o).arr p = d := by
    intro o
    have : gs.flatten.Perm (((objs.filter fun o => decide (sdAabb nrm (bb o).arr p = d)).map fun o => [o])).flatten := hp.flatten
    rw [this.mem_iff]
    simp
  have hl : gs.length ≠ 0 := fun h0 => hgne (List.length_eq_zero_iff.1 h0)
  have hfl : (gs.flatten.map fun o => (bounded o, obj (bounded o))) ≠ [] := by
    intro h0
    rw [List.map_eq_nil_iff] at h0
    obtain ⟨g, hg'⟩ := List.exists_mem_of_ne_nil _ hgne
    obtain ⟨o, -, ho⟩ := List.mem_map.1 (hp.subset hg')
    have : o ∈ gs.flatten := List.mem_flatten.2 ⟨g, hg', by rw [← ho]; simp⟩
    rw [h0] at this
    simp at this
  obtain ⟨r, hr, hrm, hrl⟩ := best_spec hfl
  obtain ⟨o, ho, rfl⟩ := List.mem_map.1 hrm
  obtain ⟨ho1, ho2⟩ := (hmem o).1 ho
  refine ⟨n, hb, o, ho1, ?_, fun o' ho' => by rw [ho2]; exact hd o' ho', fun o' ho' he => ?_⟩
  · unfold closestOn
    rw [hv]
    simp only [hl, if_false, hr]
    rfl
  · exact hrl _ (List.mem_map.2 ⟨o', (hmem o').2 ⟨ho', by rw [he, ho2]⟩, rfl⟩)

/-- **C435** refuted, one piece.  For a curve with a single Bezier piece the answer with `on_curve=True` is `True` for every point, in or out of
the box, on the curve or not. -/
theorem C435_single_refuted (bb : α → BB K) (o : α) (f : Nat) (nrm : K → K → K → K) (p : Pt K) (bounded : α → K) (newton : α → Option K)
    (obj : K → K) :
    ∃ n, build bb 1 (f + 1) [o] = some n ∧ closestOn nrm n p bounded newton obj = some (true, bounded o, obj (bounded o)) := by
  refine ⟨.leaf (bb o) [o], by simp [build], ?_⟩
  simp [closestOn, vicinity, best]

/-- **C435** refuted, more pieces.  Whatever the distance from the curve is, `True` is returned for every point in the box of a piece. -/
theorem C435_inside_refuted (bb : α → BB K) (objs : List α) (hne : objs ≠ []) (hg : ∀ o ∈ objs, Good (bb o)) (f : Nat)
    (hf : objs.length ≤ 2 ^ f) (nrm : K → K → K → K) (hn : IsNorm nrm) (p : Pt K) (h : ∃ o ∈ objs, InBox 3 (bb o).arr p) (bounded : α → K)
    (newton : α → Option K) (obj : K → K) (hoff : ∀ t, 0 < obj t) :
    ∃ n, build bb 1 (f + 1) objs = some n ∧ ∃ t d, closestOn nrm n p bounded newton obj = some (true, t, d) ∧ 0 < d := by
  obtain ⟨n, hb, o, -, h1, -⟩ := C435_partial bb objs hne hg f hf nrm hn p h bounded newton obj
  exact ⟨n, hb, _, _, h1, hoff _⟩

/-- **C435** refuted, the nearest point.  If one piece has the least signed distance to its box, its parameter is the answer, whatever the other
pieces hold; a point on the curve in another piece does not change it. -/
theorem C435_nearest_refuted (bb : α → BB K) (objs : List α) (hg : ∀ o ∈ objs, Good (bb o)) (f : Nat)
    (hf : objs.length ≤ 2 ^ f) (nrm : K → K → K → K) (hn : IsNorm nrm) (p : Pt K) (h : ∃ o ∈ objs, InBox 3 (bb o).arr p) (bounded : α → K)
    (newton : α → Option K) (obj : K → K) (o : α) (ho : o ∈ objs)
    (hleast : ∀ o' ∈ objs, o' ≠ o → sdAabb nrm (bb o).arr p < sdAabb nrm (bb o').arr p) :
    ∃ n, build bb 1 (f + 1) objs = some n ∧ closestOn nrm n p bounded newton obj = some (true, bounded o, obj (bounded o)) := by
  obtain ⟨n, hb, o1, ho1, h1, h2, -⟩ := C435_partial bb objs (List.ne_nil_of_mem ho) hg f hf nrm hn p h bounded newton obj
  have : o1 = o := by
    by_contra hne
    exact absurd (h2 o ho) (not_le.2 (hleast o1 ho1 hne))
  exact ⟨n, hb, by rw [h1, this]⟩

/-- The second number is the square of the distance: it is the distance only if that is 0 or 1. -/
theorem C435_square_refuted (nrm : K → K → K → K) (n : Node K α) (p : Pt K) (bounded : α → K) (newton : α → Option K) (dist : K → K)
    {b : Bool} {t d : K} (h : closestOn nrm n p bounded newton (fun t => dist t * dist t) = some (b, t, d)) :
    d = dist t * dist t ∧ (d = dist t ↔ dist t = 0 ∨ dist t = 1) := by
  have key : ∀ l : List (K × K), (∀ x ∈ l, x.2 = dist x.1 * dist x.1) → ∀ r, best l = some r → r.2 = dist r.1 * dist r.1 := by
    intro l hl r hr
    rcases l with _ | ⟨x, l⟩
    · simp [best] at hr
    · obtain ⟨r', hr', hm, -⟩ := best_spec (l := x :: l) (by simp)
      rw [hr'] at hr
      cases hr
      exact hl _ hm
  have free : ∀ r, closestFree nrm n p newton (fun t => dist t * dist t) = some r → r.2.2 = dist r.2.1 * dist r.2.1 := by
    intro r hr
    unfold closestFree at hr
    split at hr
    · cases hr
    · obtain ⟨q, hq, rfl⟩ := Option.map_eq_some_iff.1 hr
      exact key _ (by intro x hx; obtain ⟨y, -, rfl⟩ := List.mem_map.1 hx; rfl) _ hq
  have e : d = dist t * dist t := by
    unfold closestOn at h
    split at h
    · obtain ⟨q, hq, hqe⟩ := Option.map_eq_some_iff.1 h
      have := free q hq
      obtain ⟨q1, q2, q3⟩ := q
      cases hqe
      exact this
    · split at h
      · obtain ⟨q, hq, hqe⟩ := Option.map_eq_some_iff.1 h
        have := free q hq
        obtain ⟨q1, q2, q3⟩ := q
        cases hqe
        exact this
      · obtain ⟨q, hq, hqe⟩ := Option.map_eq_some_iff.1 h
        have := key _ (by intro x hx; obtain ⟨y, -, rfl⟩ := List.mem_map.1 hx; rfl) _ hq
        cases hqe
        exact this
  refine ⟨e, ?_⟩
  rw [e]
  constructor
  · intro h'
    have : dist t * (dist t - 1) = 0 := by rw [mul_sub, mul_one, sub_eq_zero]; exact h'
    rcases mul_eq_zero.1 this with h0 | h0
    · exact Or.inl h0
    · exact Or.inr (sub_eq_zero.1 h0)
  · rintro (h' | h') <;> rw [h'] <;> simp

/-- The boxes `[0,4]³` and `[1,9]³`; the point `(2,2,3)` is as deep in both; `(2,2,2)` is deeper in the first.  The curve passes through the point in
the second piece only (`obj 1 = 0`, `obj 0 = 5`), the answer is the first piece. -/
example : ((build (fun b : BB ℚ => b) 1 3 [BB.mk' (pt [0, 0, 0]) (pt [4, 4, 4]), BB.mk' (pt [1, 1, 1]) (pt [9, 9, 9]),
    cube 20 0 0]).bind fun n => closestOn nrmQ n (pt [2, 2, 2]) (fun b => b.min 0) (fun b => some (b.min 0)) (fun t => if t = 1 then 0 else 5)) =
    some (true, 0, 5) := by decide +kernel

/-! ## The ends of an edge -/

/-- **C436** refuted.  `get_ends_parameters` raises for all vertices and curves: arrays cannot be hashed, other values are not arrays. -/
theorem C436_refuted {P : Type} (cp : P → Option (Bool × K × K)) (chk : Bool) (s e : Val P) (r : K × K) :
    endsParameters cp chk s e ≠ .ok r := by
  rcases s with s | s <;> rcases e with e | e <;> simp [endsParameters, Val.canHash, Val.buffer]

/-- **C436** (part).  Without the cache: the parameters are those of the two searches; with `check` a value is returned exactly if both searches
say `True`. -/
theorem C436_partial {P : Type} (cp : P → Option (Bool × K × K)) (s e : P) {bs be : Bool} {ts ds te de : K} (hs : cp s = some (bs, ts, ds))
    (he : cp e = some (be, te, de)) :
    endsUncached cp false s e = .ok (ts, te) ∧ (endsUncached cp true s e = .ok (ts, te) ↔ bs = true ∧ be = true) := by
  constructor
  · simp [endsUncached, endsBody, hs, he]
  · cases bs <;> cases be <;> simp [endsUncached, endsBody, hs, he, check]

/-- **C436** refuted, the check and the error.  For an edge whose curve is a single piece the check passes for all vertices, also those away from
the curve; and the distance reported for the start is its parameter. -/
theorem C436_check_refuted (bb : α → BB K) (o : α) (f : Nat) (nrm : K → K → K → K) (bounded : Pt K → α → K) (newton : Pt K → α → Option K)
    (obj : Pt K → K → K) (s e : Pt K) :
    ∃ n, build bb 1 (f + 1) [o] = some n ∧
      endsUncached (fun p => closestOn nrm n p (bounded p) (newton p) (obj p)) true s e = .ok (bounded s o, bounded e o) ∧
      (endsBody (fun p => closestOn nrm n p (bounded p) (newton p) (obj p)) s e).map (fun r => r.1.dist) = some (bounded s o) := by
  refine ⟨.leaf (bb o) [o], by simp [build], ?_, ?_⟩
  · simp [endsUncached, endsBody, closestOn, vicinity, best, check]
  · simp [endsBody, closestOn, vicinity, best]

/-! ## Surfaces -/

/-- **C437** refuted.  `closest_point_on_nurbs_surface` never returns a point. -/
theorem C437_nurbs_refuted (n : Node K α) (p : Pt K) (dcMin : α → K × K) (f : α → K × K → K) (tol : K) :
    closestOnNurbsSurface n p dcMin f tol = none := by
  unfold closestOnNurbsSurface
  split
  · rfl
  · split <;> rfl

/-- **C437** (part).  `closest_point_on_surface` for a point that is in no box of the tree: the search on the whole of the bounds that are given, or
on the surface's own. -/
theorem C437_partial (newton : K × K → Option (K × K)) (dcMin : (K × K) × (K × K) → K × K) (own b : (K × K) × (K × K)) :
    closestOnSurface [] newton dcMin own (some b) = .ok (dcMin b) ∧ closestOnSurface [] newton dcMin own none = .ok (dcMin own) :=
  ⟨rfl, rfl⟩

/-- **C437** refuted, bounds.  If the point is in some box, the bounds are not looked at: for any answer there are bounds that do not hold it and
with which it is given all the same. -/
theorem C437_bounds_refuted (cpt : List (K × (K × K))) (hne : cpt ≠ []) (newton : K × K → Option (K × K))
    (dcMin : (K × K) × (K × K) → K × K) (own : (K × K) × (K × K)) {u v : K} (h : closestOnSurface cpt newton dcMin own none = .ok (u, v)) :
    (∀ b, closestOnSurface cpt newton dcMin own (some b) = .ok (u, v)) ∧ ∃ b : (K × K) × (K × K), b.1.1 < b.1.2 ∧ b.2.1 < b.2.2 ∧
      ¬ (b.1.1 ≤ u ∧ u ≤ b.1.2) ∧ closestOnSurface cpt newton dcMin own (some b) = .ok (u, v) := by
  rcases cpt with _ | ⟨x, l⟩
  · exact absurd rfl hne
  · have key : ∀ b, closestOnSurface (x :: l) newton dcMin own (some b) = .ok (u, v) := fun b => h
    refine ⟨key, ((u + 1, u + 2), (v, v + 1)), by simp, by simp, fun hh => ?_, key _⟩
    have := hh.1
    simp only at this
    linarith

/-- Newton's method that goes to `(7, 7)`: the answer with the bounds `[0,1]²` is `(7, 7)`. -/
example : closestOnSurface [((3 : ℚ), (1 / 2, 1 / 2))] (fun _ => some (7, 7)) (fun _ => (0, 0)) ((0, 1), (0, 1)) (some ((0, 1), (0, 1))) = .ok (7, 7) :=
  rfl

end Verif.Edg
