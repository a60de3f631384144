import Verif.Edg.Props

/-! # C435, the free search -/

set_option linter.unusedSectionVars false

namespace Verif.Edg

open Verif.Bvh
open Verif.Aabb (Pt InBox pt)

variable {K : Type} [Field K] [LinearOrder K] [IsStrictOrderedRing K] {α : Type}

theorem mapM_some {newton : α → Option K} {g : α → K} : ∀ l : List α, (∀ o ∈ l, newton o = some (g o)) → l.mapM newton = some (l.map g)
  | [], _ => rfl
  | a :: l, h => by
    rw [List.mapM_cons, h a (by simp), mapM_some l (fun o ho => h o (by simp [ho]))]
    rfl

/-- **C435** (part, `on_curve=False`).  If Newton's method returns a parameter from every piece, the search returns `True` with the parameter of one of the
pieces and the objective there; it is the best among the pieces the tree proposes, which all have the same signed distance from their boxes. -/
theorem C435_free_partial (bb : α → BB K) (objs : List α) (hne : objs ≠ []) (hg : ∀ o ∈ objs, Good (bb o)) (f : Nat)
    (hf : objs.length ≤ 2 ^ f) (nrm : K → K → K → K) (p : Pt K) (newton : α → Option K) (g : α → K) (hg' : ∀ o ∈ objs, newton o = some (g o))
    (obj : K → K) :
    ∃ n, build bb 1 (f + 1) objs = some n ∧ ∃ cand : List α, ∃ o ∈ cand, (∀ o' ∈ cand, o' ∈ objs ∧ sdAabb nrm (bb o').arr p = sdAabb nrm (bb o).arr p) ∧
      closestFree nrm n p newton obj = some (true, g o, obj (g o)) ∧ ∀ o' ∈ cand, obj (g o) ≤ obj (g o') := by
  obtain ⟨n, h1, -, -, -, h5⟩ := build_spec bb 1 (le_refl _) f objs hne hf hg
  have h5 := h5 rfl
  obtain ⟨b1, b2⟩ := C27_breadth_partial nrm p n
  have hc : ∀ o ∈ (breadth nrm p n).1.flatten, o ∈ objs ∧ sdAabb nrm (bb o).arr p = (breadth nrm p n).2 := by
    intro o ho
    obtain ⟨gr, hgr, hog⟩ := List.mem_flatten.1 ho
    obtain ⟨b, hb, hs⟩ := b2 gr hgr
    obtain ⟨o', ho', he⟩ := List.mem_map.1 (h5.subset hb)
    cases he
    rw [List.mem_singleton] at hog
    subst hog
    exact ⟨ho', hs⟩
  have hfl : (breadth nrm p n).1.flatten ≠ [] := by
    obtain ⟨gr, hgr⟩ := List.exists_mem_of_ne_nil _ b1
    obtain ⟨b, hb, -⟩ := b2 gr hgr
    obtain ⟨o', -, he⟩ := List.mem_map.1 (h5.subset hb)
    cases he
    exact List.ne_nil_of_mem (List.mem_flatten.2 ⟨_, hgr, List.mem_singleton.2 rfl⟩)
  have hm := mapM_some (newton := newton) (g := g) _ (fun o ho => hg' o (hc o ho).1)
  have hmne : (((breadth nrm p n).1.flatten.map g).map fun t => (t, obj t)) ≠ [] := by simpa using hfl
  obtain ⟨r, hr, hrm, hrl⟩ := best_spec hmne
  obtain ⟨t, ht, rfl⟩ := List.mem_map.1 hrm
  obtain ⟨o, ho, rfl⟩ := List.mem_map.1 ht
  refine ⟨n, h1, _, o, ho, fun o' ho' => ⟨(hc o' ho').1, by rw [(hc o' ho').2, (hc o ho).2]⟩, ?_, fun o' ho' => ?_⟩
  · unfold closestFree
    rw [hm]
    dsimp only
    rw [hr]
    rfl
  · exact hrl _ (List.mem_map.2 ⟨_, List.mem_map.2 ⟨o', ho', rfl⟩, rfl⟩)

/-- **C435** (part, `on_curve=True` outside).  For a curve of at least two pieces and a point in none of the boxes the answer is `False`, with the
parameter and the objective of the free search. -/
theorem C435_outside_partial (bb : α → BB K) (objs : List α) (h2 : 2 ≤ objs.length) (hg : ∀ o ∈ objs, Good (bb o)) (f : Nat)
    (hf : objs.length ≤ 2 ^ f) (nrm : K → K → K → K) (hn : IsNorm nrm) (p : Pt K) (hout : ∀ o ∈ objs, ¬ InBox 3 (bb o).arr p) (bounded : α → K)
    (newton : α → Option K) (g : α → K) (hg' : ∀ o ∈ objs, newton o = some (g o)) (obj : K → K) :
    ∃ n, build bb 1 (f + 1) objs = some n ∧ ∃ o ∈ objs, closestOn nrm n p bounded newton obj = some (false, g o, obj (g o)) ∧
      closestFree nrm n p newton obj = some (true, g o, obj (g o)) := by
  have hne : objs ≠ [] := by rintro rfl; simp at h2
  obtain ⟨n, hb, -, hv⟩ := C27_vicinity bb objs hne hg f hf nrm hn p
  obtain ⟨n', hb', cand, o, ho, hc, hfree, -⟩ := C435_free_partial bb objs hne hg f hf nrm p newton g hg' obj
  rw [hb] at hb'
  cases hb'
  have hv := hv (by rintro ⟨o, ho, hi⟩; exact hout o ho hi) h2
  refine ⟨n, hb, o, (hc o ho).1, ?_, hfree⟩
  unfold closestOn
  rw [hv]
  dsimp only
  rw [hfree]
  rfl

/-- Two pieces and a point in none of their boxes. -/
example : ((build (fun b : BB ℚ => b) 1 3 [cube 0 0 0, cube 20 0 0]).bind fun n =>
      closestOn nrmQ n (pt [10, 0, 5]) (fun b => b.min 0) (fun b => some (b.min 0)) (fun t => t + 1)) = some (false, 0, 1) ∧
    ((build (fun b : BB ℚ => b) 1 3 [cube 0 0 0, cube 20 0 0]).bind fun n =>
      closestFree nrmQ n (pt [10, 0, 5]) (fun b => some (b.min 0)) (fun t => t + 1)) = some (true, 0, 1) := by
  constructor <;> decide +kernel

/-- **C436** (which exception).  The call raises the `TypeError` of the cache exactly if a vertex is an array. -/
theorem C436_unhashable_iff {P : Type} (cp : P → Option (Bool × K × K)) (chk : Bool) (s e : Val P) :
    endsParameters cp chk s e = .error .unhashable ↔ (∃ p, s = .array p) ∨ ∃ p, e = .array p := by
  rcases s with s | s <;> rcases e with e | e <;> simp [endsParameters, Val.canHash, Val.buffer]

theorem least_fold {A : Type} (l : List (K × A)) : ∀ x : K × A,
    let r := l.foldl (fun b y => if y.1 < b.1 then y else b) x
    (r = x ∨ r ∈ l) ∧ r.1 ≤ x.1 ∧ ∀ y ∈ l, r.1 ≤ y.1 := by
  induction l with
  | nil => intro x; simp
  | cons a l ih =>
    intro x
    simp only [List.foldl_cons]
    by_cases h : a.1 < x.1
    · rw [if_pos h]
      obtain ⟨h1, h2, h3⟩ := ih a
      refine ⟨Or.inr ?_, le_trans h2 h.le, ?_⟩
      · rcases h1 with h1 | h1
        · rw [h1]; simp
        · exact List.mem_cons_of_mem _ h1
      · intro y hy
        rcases List.mem_cons.1 hy with rfl | hy
        · exact h2
        · exact h3 y hy
    · rw [if_neg h]
      obtain ⟨h1, h2, h3⟩ := ih x
      refine ⟨h1.imp id (List.mem_cons_of_mem _), h2, ?_⟩
      intro y hy
      rcases List.mem_cons.1 hy with rfl | hy
      · exact le_trans h2 (not_lt.1 h)
      · exact h3 y hy

/-- **C437** (part, a point in some box).  The answer of `closest_point_on_surface` is that of Newton's method from the average of the parameters of a
box of least volume among those that hold the point; if the method fails there, the call raises. -/
theorem C437_smallest_partial (cpt : List (K × (K × K))) (hne : cpt ≠ []) (newton : K × K → Option (K × K))
    (dcMin : (K × K) × (K × K) → K × K) (own : (K × K) × (K × K)) (bounds : Option ((K × K) × (K × K))) :
    ∃ b ∈ cpt, (∀ b' ∈ cpt, b.1 ≤ b'.1) ∧
      (∀ uv, closestOnSurface cpt newton dcMin own bounds = .ok uv ↔ newton b.2 = some uv) ∧
      (closestOnSurface cpt newton dcMin own bounds = .error () ↔ newton b.2 = none) := by
  rcases cpt with _ | ⟨x, l⟩
  · exact absurd rfl hne
  · obtain ⟨h1, h2, h3⟩ := least_fold l x
    refine ⟨l.foldl (fun b y => if y.1 < b.1 then y else b) x, ?_, ?_, ?_⟩
    · rcases h1 with h1 | h1
      · rw [h1]; simp
      · exact List.mem_cons_of_mem _ h1
    · intro b' hb'
      rcases List.mem_cons.1 hb' with rfl | hb'
      · exact h2
      · exact h3 _ hb'
    · unfold closestOnSurface
      dsimp only
      cases newton (l.foldl (fun b y => if y.1 < b.1 then y else b) x).2 <;> simp

/-- The second box is the smallest. -/
example : closestOnSurface [((3 : ℚ), (1 / 2, 1 / 2)), (1, (1 / 4, 1 / 4)), (2, (0, 0))] (fun x => some x) (fun _ => (0, 0)) ((0, 1), (0, 1)) none =
    .ok (1 / 4, 1 / 4) := by decide +kernel

end Verif.Edg
