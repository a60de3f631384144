import Verif.Ssx.Props2
import Verif.Vec.Props

/-! # More on C264, C266 and C269: the Python version of `improve_uv`, the domain -/

set_option linter.unusedSectionVars false

namespace Verif.Ssx

open Verif.Vec V3 Verif.Pinv

variable {K : Type} [Field K] [LinearOrder K] [IsStrictOrderedRing K]

theorem maxDet_spec : ∀ (l : List (Sys K)) (s : Sys K), (maxDet s l = s ∨ maxDet s l ∈ l) ∧ s.det ≤ (maxDet s l).det ∧ ∀ t ∈ l, t.det ≤ (maxDet s l).det
  | [], s => ⟨.inl rfl, le_refl _, by simp⟩
  | t :: l, s => by
    unfold maxDet
    by_cases c : t.det > s.det
    · rw [if_pos c]
      obtain ⟨h1, h2, h3⟩ := maxDet_spec l t
      refine ⟨.inr ?_, le_trans c.le h2, fun x hx => ?_⟩
      · rcases h1 with h1 | h1
        · rw [h1]; simp
        · exact List.mem_cons_of_mem _ h1
      · rcases List.mem_cons.1 hx with rfl | hx
        · exact h2
        · exact h3 x hx
    · rw [if_neg c]
      obtain ⟨h1, h2, h3⟩ := maxDet_spec l s
      refine ⟨?_, h2, fun x hx => ?_⟩
      · rcases h1 with h1 | h1
        · exact .inl h1
        · exact .inr (List.mem_cons_of_mem _ h1)
      · rcases List.mem_cons.1 hx with rfl | hx
        · exact le_trans (not_lt.1 c) h2
        · exact h3 x hx

/-- The Python version of `improve_uv` works with the largest minor. -/
theorem py_spec (du dv old better : V3 K) : ∃ s ∈ systems du dv (better.sub old), (∀ t ∈ systems du dv (better.sub old), t.det ≤ s.det) ∧
    improveUvPy du dv old better = solve2x2 s.a s.b s.c s.d s.y0 s.y1 := by
  unfold improveUvPy systems
  dsimp only
  obtain ⟨h1, h2, h3⟩ := maxDet_spec [(⟨du.x, dv.x, du.z, dv.z, (better.sub old).x, (better.sub old).z⟩ : Sys K),
    ⟨du.y, dv.y, du.z, dv.z, (better.sub old).y, (better.sub old).z⟩] ⟨du.x, dv.x, du.y, dv.y, (better.sub old).x, (better.sub old).y⟩
  refine ⟨_, ?_, ?_, rfl⟩
  · rcases h1 with h1 | h1
    · rw [h1]; simp
    · exact List.mem_cons_of_mem _ h1
  · intro t ht
    rcases List.mem_cons.1 ht with rfl | ht
    · exact h2
    · exact h3 t ht

theorem det_minors (du dv d : V3 K) : (systems du dv d).map Sys.det = minors du dv := rfl

/-- **C264, partial**: the Python version succeeds if some minor is positive, and for a tangent displacement its answer is right. -/
theorem C264_py_partial (du dv old better : V3 K) (hm : ∃ m ∈ minors du dv, 0 < m) : ∃ r, improveUvPy du dv old better = some r ∧
    ∀ a b : K, better.sub old = (smul a du).add (smul b dv) → r = (a, b) := by
  obtain ⟨s, hs, hmax, e⟩ := py_spec du dv old better
  obtain ⟨m, hm, h0⟩ := hm
  rw [← det_minors du dv (better.sub old)] at hm
  obtain ⟨t, ht, rfl⟩ := List.mem_map.1 hm
  have hd : s.a * s.d - s.b * s.c ≠ 0 := ne_of_gt (lt_of_lt_of_le h0 (hmax t ht))
  obtain ⟨c1, c2⟩ := C42_solve2x2 s.a s.b s.c s.d s.y0 s.y1
  cases hr : solve2x2 s.a s.b s.c s.d s.y0 s.y1 with
  | none => exact absurd (c1.1 hr) hd
  | some r =>
    rw [hr] at e
    refine ⟨r, e, fun a b hab => ?_⟩
    have hx := congrArg V3.x hab
    have hy := congrArg V3.y hab
    have hz := congrArg V3.z hab
    simp only [add, smul] at hx hy hz
    refine ((c2 r hr).2 (a, b) ?_ ?_).symm
    · simp only [systems, List.mem_cons, List.not_mem_nil, or_false] at hs
      rcases hs with rfl | rfl | rfl <;> dsimp only
      · linear_combination -hx
      · linear_combination -hx
      · linear_combination -hy
    · simp only [systems, List.mem_cons, List.not_mem_nil, or_false] at hs
      rcases hs with rfl | rfl | rfl <;> dsimp only
      · linear_combination -hy
      · linear_combination -hz
      · linear_combination -hz

/-- **C264 refuted**, Python version: if the largest minor is 0 it fails, though another minor may be negative and the system regular. -/
theorem C264_py_refuted (du dv old better : V3 K) (h0 : 0 ∈ minors du dv) (hm : ∀ m ∈ minors du dv, m ≤ 0) : improveUvPy du dv old better = none := by
  obtain ⟨s, hs, hmax, e⟩ := py_spec du dv old better
  rw [← det_minors du dv (better.sub old)] at h0 hm
  obtain ⟨t, ht, h0⟩ := List.mem_map.1 h0
  rw [e, (C42_solve2x2 _ _ _ _ _ _).1]
  have h1 : s.det ≤ 0 := hm _ (List.mem_map_of_mem hs)
  have h2 := hmax t ht
  rw [h0] at h2
  exact le_antisymm h1 h2

example : improveUvPy (⟨0, 1, 5⟩ : V3 ℚ) ⟨1, 0, 0⟩ ⟨0, 0, 0⟩ ⟨3, 4, 20⟩ = none ∧ improveUvPy (⟨1, 1, 0⟩ : V3 ℚ) ⟨0, 0, 1⟩ ⟨0, 0, 0⟩ ⟨3, 3, 4⟩ = some (3, 4) := by
  decide +kernel

/-- Being in a rectangle. -/
theorem inRect_iff (b : (K × K) × (K × K)) (uv : K × K) : inRect b uv = true ↔ (b.1.1 ≤ uv.1 ∧ uv.1 ≤ b.1.2) ∧ b.2.1 ≤ uv.2 ∧ uv.2 ≤ b.2.2 := by
  unfold inRect
  simp only [Bool.and_eq_true, decide_eq_true_eq]
  tauto

/-- **C266**: a step that does not report the edge ends with parameters in both domains; a step that reports it ends, if there are terminators, in
the terminator closest to the point outside. -/
theorem C266_edge (E : Env K) (s1 s2 : Srf K) (b1 b2 : (K × K) × (K × K)) (closest : Option (V3 K → Pt K)) (tol side : K) (uv1 uv2 : K × K)
    (p : Pt K) (len : K) (edge : Bool) (h : marchStep E s1 s2 b1 b2 closest tol side uv1 uv2 = some (p, len, edge)) :
    (edge = false → ((b1.1.1 ≤ p.uv1.1 ∧ p.uv1.1 ≤ b1.1.2) ∧ b1.2.1 ≤ p.uv1.2 ∧ p.uv1.2 ≤ b1.2.2) ∧
      (b2.1.1 ≤ p.uv2.1 ∧ p.uv2.1 ≤ b2.1.2) ∧ b2.2.1 ≤ p.uv2.2 ∧ p.uv2.2 ≤ b2.2.2) ∧
    (edge = true → ∃ q : Pt K, (inRect b1 q.uv1 = false ∨ inRect b2 q.uv2 = false) ∧ p = (closest.map fun f => f q.xyz).getD q) := by
  unfold marchStep at h
  simp only [Option.bind_eq_bind, Option.bind_eq_some_iff, Option.pure_def, Option.some.injEq, Prod.mk.injEq] at h
  obtain ⟨d, _, kv, _, st, _, x, _, uvs, _, e1, e2, e3⟩ := h
  unfold handleEdge at e1 e3
  by_cases c : (inRect b1 uvs.1 && inRect b2 uvs.2) = true
  · simp only [c, if_true] at e1 e3
    subst e1 e3
    rw [Bool.and_eq_true, inRect_iff, inRect_iff] at c
    exact ⟨fun _ => c, fun q => by cases q⟩
  · simp only [c] at e1 e3
    have c' : inRect b1 uvs.1 = false ∨ inRect b2 uvs.2 = false := by
      rw [Bool.and_eq_true, not_and_or] at c
      simpa using c
    cases closest with
    | none =>
      simp only [Bool.false_eq_true, if_false] at e1 e3
      subst e1 e3
      exact ⟨(fun q => by cases q), fun _ => ⟨_, c', rfl⟩⟩
    | some f =>
      simp only [Bool.false_eq_true, if_false] at e1 e3
      subst e1 e3
      exact ⟨(fun q => by cases q), fun _ => ⟨⟨x, uvs.1, uvs.2⟩, c', rfl⟩⟩

/-- **C269, partial**: the parameters returned are in the intervals of both surfaces. -/
theorem C269_domain_partial (E : Env K) (s1 s2 : Srf K) (b1 b2 : (K × K) × (K × K)) (tol : K) (n : Nat) (uv1 uv2 : K × K) (p : Pt K)
    (h : freeSolve E s1 s2 b1 b2 tol n uv1 uv2 = .found p) :
    ((b1.1.1 ≤ p.uv1.1 ∧ p.uv1.1 ≤ b1.1.2) ∧ b1.2.1 ≤ p.uv1.2 ∧ p.uv1.2 ≤ b1.2.2) ∧
      (b2.1.1 ≤ p.uv2.1 ∧ p.uv2.1 ≤ b2.1.2) ∧ b2.2.1 ≤ p.uv2.2 ∧ p.uv2.2 ≤ b2.2.2 := by
  obtain ⟨h1, h2, _⟩ := C269_found_partial E s1 s2 b1 b2 tol n uv1 uv2 p h
  exact ⟨(inRect_iff _ _).1 h1, (inRect_iff _ _).1 h2⟩

end Verif.Ssx
