import Verif.Ssx.Model
import Verif.Pinv.Props
import Mathlib.Tactic.FieldSimp
import Mathlib.Tactic.Positivity

/-! # C264 to C266: improving parameters, terminators, one step of marching -/

set_option linter.unusedSectionVars false

namespace Verif.Ssx

open Verif.Vec V3 Verif.Pinv

variable {K : Type} [Field K] [LinearOrder K] [IsStrictOrderedRing K]

/-! ## C264: `improve_uv` -/

/-- The three minors of the matrix with columns `du` and `dv`. -/
def minors (du dv : V3 K) : List K := [du.x * dv.y - dv.x * du.y, du.x * dv.z - dv.x * du.z, du.y * dv.z - dv.y * du.z]

theorem pick_mem : ∀ (l : List (Sys K)) (st : K × Sys K), 0 ≤ st.1 →
    (0 ≤ (pick l st).1) ∧ (pick l st = st ∨ (pick l st).2 ∈ l ∧ (pick l st).1 = (pick l st).2.det) ∧ st.1 ≤ (pick l st).1 ∧ ∀ s ∈ l, s.det ≤ (pick l st).1 := by
  intro l
  induction l with
  | nil => intro st h; exact ⟨h, Or.inl rfl, le_refl _, by simp⟩
  | cons a l ih =>
    intro st h
    unfold pick
    by_cases c : a.det > st.1
    · rw [if_pos c]
      obtain ⟨h1, h2, h3, h4⟩ := ih (a.det, a) (le_trans h (le_of_lt c))
      refine ⟨h1, Or.inr ?_, le_trans (le_of_lt c) h3, ?_⟩
      · rcases h2 with h2 | h2
        · rw [h2]; simp
        · exact ⟨by simp [h2.1], h2.2⟩
      · intro s hs
        rcases List.mem_cons.1 hs with rfl | hs
        · exact h3
        · exact h4 s hs
    · rw [if_neg c]
      obtain ⟨h1, h2, h3, h4⟩ := ih st h
      refine ⟨h1, ?_, h3, ?_⟩
      · rcases h2 with h2 | h2
        · exact Or.inl h2
        · exact Or.inr ⟨by simp [h2.1], h2.2⟩
      · intro s hs
        rcases List.mem_cons.1 hs with rfl | hs
        · exact le_trans (not_lt.1 c) h3
        · exact h4 s hs

/-- `improve_uv` fails exactly when no minor reaches `eps`. -/
theorem C264_fails_iff (eps : K) (he : 0 < eps) (du dv old better : V3 K) :
    improveUv eps du dv old better = none ↔ ∀ m ∈ minors du dv, m < eps := by
  obtain ⟨h1, h2, h3, h4⟩ := pick_mem (systems du dv (better.sub old)) (0, ⟨du.x, dv.x, du.y, dv.y, (better.sub old).x, (better.sub old).y⟩) (le_refl _)
  unfold improveUv
  dsimp only
  rw [ite_eq_left_iff]
  simp only [reduceCtorEq, imp_false, not_not]
  constructor
  · intro h m hm
    refine lt_of_le_of_lt ?_ h
    simp only [minors, List.mem_cons, List.not_mem_nil, or_false] at hm
    simp only [systems, List.mem_cons, List.not_mem_nil, or_false, forall_eq_or_imp, forall_eq, Sys.det] at h4
    rcases hm with rfl | rfl | rfl
    · exact h4.1
    · exact h4.2.1
    · exact h4.2.2
  · intro h
    rcases h2 with h2 | ⟨h2, e⟩
    · rw [h2]; exact he
    · rw [e]
      apply h
      clear e
      generalize (pick (systems du dv (better.sub old)) (0, ⟨du.x, dv.x, du.y, dv.y, (better.sub old).x, (better.sub old).y⟩)).2 = s at h2 ⊢
      simp only [systems, List.mem_cons, List.not_mem_nil, or_false] at h2
      simp only [minors, List.mem_cons, List.not_mem_nil, or_false]
      rcases h2 with h2 | h2 | h2 <;> rw [h2] <;> simp [Sys.det]

/-- **C264**: when `improve_uv` succeeds, its answer reproduces the displacement in the two coordinates of some minor that is at least
`eps` and the largest, and in all three if the displacement is tangent; it is then the only pair that does. -/
theorem C264_solves (eps : K) (he : 0 < eps) (du dv old better : V3 K) (r : K × K) (h : improveUv eps du dv old better = some r) :
    let w := (smul r.1 du).add (smul r.2 dv)
    let d := better.sub old
    (w.x = d.x ∧ w.y = d.y ∨ w.x = d.x ∧ w.z = d.z ∨ w.y = d.y ∧ w.z = d.z) ∧
    ∀ a b : K, d = (smul a du).add (smul b dv) → r = (a, b) := by
  obtain ⟨h1, h2, h3, h4⟩ := pick_mem (systems du dv (better.sub old)) (0, ⟨du.x, dv.x, du.y, dv.y, (better.sub old).x, (better.sub old).y⟩) (le_refl _)
  unfold improveUv at h
  dsimp only at h ⊢
  split_ifs at h with c
  simp only [Option.some.injEq] at h
  rcases h2 with h2 | ⟨h2, e⟩
  · exact absurd (by rw [h2]; exact he) c
  · have hne : (pick (systems du dv (better.sub old)) (0, ⟨du.x, dv.x, du.y, dv.y, (better.sub old).x, (better.sub old).y⟩)).2.det ≠ 0 := by
      rw [← e]; exact ne_of_gt (lt_of_lt_of_le he (not_lt.1 c))
    rw [e] at h
    generalize (pick (systems du dv (better.sub old)) (0, ⟨du.x, dv.x, du.y, dv.y, (better.sub old).x, (better.sub old).y⟩)).2 = s at *
    have e1 : s.a * r.1 + s.b * r.2 = s.y0 := by
      rw [← h]; dsimp only
      have : s.a * ((s.y0 * s.d - s.b * s.y1) / s.det) + s.b * ((s.a * s.y1 - s.y0 * s.c) / s.det) = s.y0 * s.det / s.det := by
        rw [mul_div_assoc', mul_div_assoc', ← add_div]; congr 1; unfold Sys.det; ring
      rw [this, mul_div_cancel_right₀ _ hne]
    have e2 : s.c * r.1 + s.d * r.2 = s.y1 := by
      rw [← h]; dsimp only
      have : s.c * ((s.y0 * s.d - s.b * s.y1) / s.det) + s.d * ((s.a * s.y1 - s.y0 * s.c) / s.det) = s.y1 * s.det / s.det := by
        rw [mul_div_assoc', mul_div_assoc', ← add_div]; congr 1; unfold Sys.det; ring
      rw [this, mul_div_cancel_right₀ _ hne]
    have key : ∀ a b : K, s.y0 = s.a * a + s.b * b → s.y1 = s.c * a + s.d * b → r = (a, b) := by
      intro a b q0 q1
      have g1 : s.det * (r.1 - a) = 0 := by unfold Sys.det; linear_combination s.d * e1 - s.b * e2 + s.d * q0 - s.b * q1
      have g2 : s.det * (r.2 - b) = 0 := by unfold Sys.det; linear_combination s.a * e2 - s.c * e1 + s.a * q1 - s.c * q0
      have g1 := (mul_eq_zero.1 g1).resolve_left hne
      have g2 := (mul_eq_zero.1 g2).resolve_left hne
      ext
      · exact sub_eq_zero.1 g1
      · exact sub_eq_zero.1 g2
    simp only [systems, List.mem_cons, List.not_mem_nil, or_false] at h2
    constructor
    · rcases h2 with h2 | h2 | h2 <;> rw [h2] at e1 e2 <;> dsimp only at e1 e2
      · left; simp only [add, smul]; exact ⟨by linear_combination e1, by linear_combination e2⟩
      · right; left; simp only [add, smul]; exact ⟨by linear_combination e1, by linear_combination e2⟩
      · right; right; simp only [add, smul]; exact ⟨by linear_combination e1, by linear_combination e2⟩
    · intro a b hd
      have hx := congrArg V3.x hd
      have hy := congrArg V3.y hd
      have hz := congrArg V3.z hd
      simp only [add, smul] at hx hy hz
      rcases h2 with h2 | h2 | h2 <;> rw [h2] at key <;> dsimp only at key
      · exact key a b (by linear_combination hx) (by linear_combination hy)
      · exact key a b (by linear_combination hx) (by linear_combination hz)
      · exact key a b (by linear_combination hy) (by linear_combination hz)

/-- **C264 refuted**: minors are compared with their sign.  If one order of the derivatives is accepted and no minor is negative, the
other order is rejected, although it has the same plane. -/
theorem C264_swap_refuted (eps : K) (he : 0 < eps) (du dv old better : V3 K) (hm : ∀ m ∈ minors du dv, 0 ≤ m) :
    improveUv eps dv du old better = none := by
  rw [C264_fails_iff eps he]
  simp only [minors, List.mem_cons, List.not_mem_nil, or_false, forall_eq_or_imp, forall_eq] at hm ⊢
  refine ⟨?_, ?_, ?_⟩ <;> linarith [hm.1, hm.2.1, hm.2.2]

/-- Derivatives along the axes: accepted in one order, rejected in the other. -/
example : improveUv (1 / 1000000000 : ℚ) ⟨1, 0, 0⟩ ⟨0, 1, 0⟩ ⟨0, 0, 0⟩ ⟨3, 4, 0⟩ = some (3, 4) ∧
    improveUv (1 / 1000000000 : ℚ) ⟨0, 1, 0⟩ ⟨1, 0, 0⟩ ⟨0, 0, 0⟩ ⟨3, 4, 0⟩ = none ∧
    improveUvPy (⟨0, 1, 0⟩ : V3 ℚ) ⟨1, 0, 0⟩ ⟨0, 0, 0⟩ ⟨3, 4, 0⟩ = none := by decide +kernel

/-- **C264 refuted**: on a plane for which `improve_uv` fails, `improve_uv_robust` returns the old parameters for every point. -/
theorem C264_plane_refuted (E : Env K) (hn : Nrm E.nrm) (he : 0 < E.eps) (hp : 0 ≤ E.ptol) (o a b : V3 K) (hab : cross a b ≠ zero)
    (hm : ∀ m ∈ minors a b, m < E.eps) (uv : K × K) (better : V3 K) :
    improveRobust E (plane o a b) uv a b ((plane o a b).ev uv) better = some uv := by
  unfold improveRobust
  rw [(C264_fails_iff E.eps he a b _ better).2 hm]
  exact C262_plane_refuted E.nrm hn E.nrm2 o a b hab better E.ptol E.ptol hp hp E.iters uv

/-- **C264, partial**: on a plane with a minor of at least `eps` the parameters of every point of the plane are found in one step. -/
theorem C264_plane_partial (E : Env K) (he : 0 < E.eps) (o a b : V3 K) (hm : ∃ m ∈ minors a b, E.eps ≤ m) (uv w : K × K) :
    improveRobust E (plane o a b) uv a b ((plane o a b).ev uv) ((plane o a b).ev w) = some w := by
  unfold improveRobust
  cases h : improveUv E.eps a b ((plane o a b).ev uv) ((plane o a b).ev w) with
  | none =>
    obtain ⟨m, hm1, hm2⟩ := hm
    exact absurd ((C264_fails_iff E.eps he a b _ _).1 h m hm1) (not_lt.2 hm2)
  | some r =>
    have := (C264_solves E.eps he a b _ _ r h).2 (w.1 - uv.1) (w.2 - uv.2) (by
      simp only [plane, add, sub, smul, V3.mk.injEq]
      exact ⟨by ring, by ring, by ring⟩)
    subst this
    simp

/-- A plane of each kind, the parameters of the point being (3, 4). -/
example : let E : Env ℝ := ⟨fun v => Real.sqrt (dot v v), fun x => Real.sqrt (x.1 ^ 2 + x.2 ^ 2), Real.sqrt, 1 / 1000, 1 / 1000, 100⟩
    improveRobust E (plane ⟨0, 0, 0⟩ ⟨1, 0, 0⟩ ⟨0, 1, 0⟩) (0, 0) ⟨1, 0, 0⟩ ⟨0, 1, 0⟩ ((plane ⟨0, 0, 0⟩ ⟨1, 0, 0⟩ ⟨0, 1, 0⟩).ev (0, 0))
      ((plane ⟨0, 0, 0⟩ ⟨1, 0, 0⟩ ⟨0, 1, 0⟩).ev (3, 4)) = some (3, 4) ∧
    improveRobust E (plane ⟨0, 0, 0⟩ ⟨0, 1, 0⟩ ⟨1, 0, 0⟩) (0, 0) ⟨0, 1, 0⟩ ⟨1, 0, 0⟩ ((plane ⟨0, 0, 0⟩ ⟨0, 1, 0⟩ ⟨1, 0, 0⟩).ev (0, 0))
      ((plane ⟨0, 0, 0⟩ ⟨0, 1, 0⟩ ⟨1, 0, 0⟩).ev (3, 4)) = some (0, 0) := by
  intro E
  refine ⟨C264_plane_partial E (by norm_num [E]) _ _ _ ⟨1, by simp [minors], by norm_num [E]⟩ _ _,
    C264_plane_refuted E nrm_real (by norm_num [E]) (by norm_num [E]) _ _ _ (by simp [cross, zero, V3.ext_iff]) ?_ _ _⟩
  simp [minors, E]; norm_num

/-! ## C265: `Terminator` -/

theorem nearest_spec (q : V3 K) : ∀ (l : List (V3 K)), l ≠ [] →
    ∃ p, l[nearest q l]? = some p ∧ ∀ p' ∈ l, dot (p.sub q) (p.sub q) ≤ dot (p'.sub q) (p'.sub q) := by
  intro l
  induction l with
  | nil => intro h; exact absurd rfl h
  | cons a l ih =>
    intro _
    cases l with
    | nil => exact ⟨a, by simp [nearest], by simp⟩
    | cons b l =>
      obtain ⟨p, hp, hmin⟩ := ih (by simp)
      have hg : (b :: l).getD (nearest q (b :: l)) a = p := by
        rw [List.getD_eq_getElem?_getD, hp]; rfl
      unfold nearest
      dsimp only
      rw [hg]
      split_ifs with c
      · refine ⟨a, by simp, fun p' hp' => ?_⟩
        rcases List.mem_cons.1 hp' with rfl | hp'
        · exact le_refl _
        · exact le_trans c (hmin p' hp')
      · refine ⟨p, by simpa using hp, fun p' hp' => ?_⟩
        rcases List.mem_cons.1 hp' with rfl | hp'
        · exact le_of_lt (not_le.1 c)
        · exact hmin p' hp'

/-- A terminator whose size and tree are those of its points. -/
def Fresh (t : Trm K) : Prop := t.size = t.pts.length ∧ (t.kd = some (t.pts.map Pt.xyz) ∨ t.kd = none ∧ t.pts.length ≤ 1)

/-- **C265, partial**: a new terminator is fresh, and `pop` keeps it so, gives the points in order and raises `IndexError` when there
is none. -/
theorem C265_pop_partial (ps : List (Pt K)) (t : Trm K) (ht : Fresh t) :
    Fresh (Trm.new ps) ∧ (t.pop = none ↔ t.size = 0) ∧ ∀ p t', t.pop = some (p, t') → Fresh t' ∧ t.pts = p :: t'.pts ∧ t'.size + 1 = t.size := by
  refine ⟨⟨rfl, Or.inl rfl⟩, ?_, ?_⟩
  · rw [ht.1]
    unfold Trm.pop
    cases t.pts <;> simp
  · intro p t' h
    unfold Trm.pop at h
    have h1 := ht.1
    cases e : t.pts with
    | nil => rw [e] at h; simp at h
    | cons a l =>
      rw [e] at h h1
      simp only [Option.some.injEq, Prod.mk.injEq] at h
      obtain ⟨rfl, rfl⟩ := h
      have hs : t.size = l.length + 1 := by simpa using h1
      dsimp only
      refine ⟨⟨by dsimp only; omega, ?_⟩, rfl, by omega⟩
      dsimp only
      split_ifs with c
      · exact Or.inl rfl
      · exact Or.inr ⟨rfl, by omega⟩

/-- **C265, partial**: on a fresh terminator `get_closest` returns the point at least distance; it raises exactly when there is none.
Missing: terminators from which an item was removed. -/
theorem C265_closest_partial (t : Trm K) (ht : Fresh t) (q : V3 K) :
    (t.getClosest q = none ↔ t.pts = []) ∧
    ∀ p, t.getClosest q = some p → p ∈ t.pts ∧ ∀ p' ∈ t.pts, dot (p.xyz.sub q) (p.xyz.sub q) ≤ dot (p'.xyz.sub q) (p'.xyz.sub q) := by
  unfold Trm.getClosest
  rcases ht.2 with h | ⟨h, hl⟩
  · rw [h]
    dsimp only
    by_cases he : t.pts = []
    · simp [he, nearest]
    · obtain ⟨p, hp, hmin⟩ := nearest_spec q (t.pts.map Pt.xyz) (by simpa using he)
      rw [List.getElem?_map, Option.map_eq_some_iff] at hp
      obtain ⟨x, hx, rfl⟩ := hp
      rw [hx]
      refine ⟨by simp [he], fun p hp => ?_⟩
      simp only [Option.some.injEq] at hp
      subst hp
      exact ⟨List.mem_of_getElem? hx, fun p' hp' => hmin _ (List.mem_map_of_mem hp')⟩
  · rw [h]
    dsimp only
    cases e : t.pts with
    | nil => simp
    | cons a l =>
      rw [e] at hl
      have : l = [] := by
        cases l with
        | nil => rfl
        | cons b l => simp at hl
      subst this
      simp

/-- **C265 refuted**: an item that was deleted is still returned, by every terminator: with more than two points for any query, and in
the end, when one is left or none, the first point always. -/
theorem C265_delete_refuted (t : Trm K) (ht : Fresh t) (i : Nat) :
    (2 < t.size → ∀ q, (t.del i).getClosest q = t.getClosest q ∧ (t.del i).size + 1 = t.size) ∧
    (t.size ≤ 2 → ∀ q, (t.del i).getClosest q = t.pts[0]?) := by
  constructor
  · intro h q
    have h1 : t.size - 1 > 1 := by omega
    unfold Trm.del Trm.getClosest
    dsimp only
    rw [if_pos h1]
    rcases ht.2 with h' | ⟨-, hl⟩
    · rw [h']; exact ⟨rfl, by omega⟩
    · have := ht.1; omega
  · intro h q
    have h1 : ¬ t.size - 1 > 1 := by omega
    unfold Trm.del Trm.getClosest
    dsimp only
    rw [if_neg h1]

/-- Three points, the middle one deleted, and asked for again; one point, deleted, and returned with the size 0. -/
example : let t : Trm ℚ := Trm.new [⟨⟨0, 0, 0⟩, (0, 0), (0, 0)⟩, ⟨⟨5, 0, 0⟩, (1, 0), (1, 0)⟩, ⟨⟨9, 0, 0⟩, (2, 0), (2, 0)⟩]
    let t1 : Trm ℚ := Trm.new [⟨⟨5, 0, 0⟩, (0, 0), (0, 0)⟩]
    ((t.del 1).getClosest ⟨5, 0, 0⟩).map (fun p => p.uv1) = some (1, 0) ∧ (t.del 1).size = 2 ∧
    ((t1.del 0).getClosest ⟨7, 0, 0⟩).map (fun p => p.xyz.x) = some 5 ∧ (t1.del 0).size = 0 := by decide +kernel

/-! ## C266: one step of marching -/

/-- **C266 refuted**: two planes that intersect in a line: the curvature is 0 and the step raises `ZeroDivisionError`, whatever the
planes, their parametrisation, the start and the tolerance. -/
theorem C266_planes_refuted (E : Env K) (hn : Nrm E.nrm) (b1 b2 : (K × K) × (K × K)) (closest : Option (V3 K → Pt K)) (tol side : K)
    (o1 a1 c1 o2 a2 c2 : V3 K) (uv1 uv2 : K × K) :
    marchStep E (plane o1 a1 c1) (plane o2 a2 c2) b1 b2 closest tol side uv1 uv2 = none := by
  unfold marchStep
  cases hd : stepData E (plane o1 a1 c1) (plane o2 a2 c2) uv1 uv2 with
  | none => rfl
  | some d =>
    simp only [Option.bind_eq_bind, Option.bind_some]
    cases hk : sectionalCurvature E (plane o1 a1 c1) (plane o2 a2 c2) d with
    | none => rfl
    | some kv =>
      have e : kv = zero := by
        unfold stepData at hd
        simp only [Option.bind_eq_bind, Option.bind_eq_some_iff, Option.pure_def, Option.some.injEq] at hd
        obtain ⟨x, hx, y, hy, t, ht, rfl⟩ := hd
        unfold derivData at hx hy
        obtain ⟨n1, hn1, rfl⟩ := Option.map_eq_some_iff.1 hx
        obtain ⟨n2, hn2, rfl⟩ := Option.map_eq_some_iff.1 hy
        unfold sectionalCurvature at hk
        obtain ⟨tn, htn, rfl⟩ := Option.map_eq_some_iff.1 hk
        unfold sectionalTangent at htn
        simp only [Option.bind_eq_bind, Option.bind_eq_some_iff] at htn
        obtain ⟨w, -, m1, hm1, m2, hm2, htn⟩ := htn
        have g1 : m1 = n1 := Option.some.inj ((hm1.symm.trans (by rfl)).trans hn1)
        have g2 : m2 = n2 := Option.some.inj ((hm2.symm.trans (by rfl)).trans hn2)
        subst g1 g2
        have g3 : tn = t := Option.some.inj (htn.symm.trans ht)
        subst g3
        simp [sub, smul, zero]
      have : E.nrm kv = 0 := hn.eq_zero.2 e
      simp only [Option.bind_some, stepLen, this, if_true, Option.bind_none]

/-- The planes `z = 0` and `y = 0`: the data of the step are defined, so it is the division by the curvature that raises. -/
example : let E : Env ℚ := ⟨fun v => |v.x| + |v.y| + |v.z|, fun x => |x.1| + |x.2|, fun x => x, 1 / 1000, 1 / 1000, 100⟩
    let s1 : Srf ℚ := plane ⟨0, 0, 0⟩ ⟨1, 0, 0⟩ ⟨0, 1, 0⟩
    let s2 : Srf ℚ := plane ⟨0, 0, 0⟩ ⟨1, 0, 0⟩ ⟨0, 0, 1⟩
    (stepData E s1 s2 (1 / 2, 0) (1 / 2, 0)).map (fun d => (d.t.x, d.t.y, d.t.z)) = some (1, 0, 0) ∧
    ((stepData E s1 s2 (1 / 2, 0) (1 / 2, 0)).bind fun d => (sectionalCurvature E s1 s2 d).map fun k => (k.x, k.y, k.z)) = some (0, 0, 0) := by
  decide +kernel

/-- **C266**: for a circle of radius `1 / k` not less than `tol` the length of the step is that of the chord with sagitta `tol`. -/
theorem C266_sagitta (tol k s : ℝ) (hk : 0 < k) (ht : 0 < tol) (hr : tol ≤ 1 / k) (h : stepLen Real.sqrt tol k = some s) :
    0 < s ∧ 1 / k - Real.sqrt ((1 / k) ^ 2 - (s / 2) ^ 2) = tol := by
  unfold stepLen at h
  rw [if_neg (ne_of_gt hk)] at h
  dsimp only at h
  have hq : 0 < (1 / k) ^ 2 - (1 / k - tol) ^ 2 := by nlinarith
  rw [if_neg (not_lt.2 (le_of_lt hq))] at h
  simp only [Option.some.injEq] at h
  subst h
  refine ⟨mul_pos (Real.sqrt_pos.2 hq) two_pos, ?_⟩
  rw [mul_div_assoc, div_self two_ne_zero, mul_one, Real.sq_sqrt (le_of_lt hq), sub_sub_cancel, Real.sqrt_sq (by linarith)]
  ring

/-- The point found lies on both tangent planes, and on the plane across the tangent at the length of the step; if the two points
agree it is the point at that length on the tangent. -/
theorem C266_refine (d : StepD K) (side step : K) (p : V3 K) (h : refinePoint d side step = some p) :
    OnPlane p d.first.pt d.first.n ∧ OnPlane p d.second.pt d.second.n ∧
    (d.first.pt = d.second.pt → dot d.t d.first.n = 0 → dot d.t d.second.n = 0 → p = d.first.pt.add (smul (side * step) d.t)) := by
  have key := C43_three_planes_partial _ _ _ _ _ _ p h
  have hp := (key p).2 rfl
  refine ⟨hp.1, hp.2.1, fun e h1 h2 => ?_⟩
  symm
  rw [← key]
  simp only [OnPlane, dot, sub, add, smul, e] at h1 h2 ⊢
  refine ⟨by linear_combination (side * step) * h1, by linear_combination (side * step) * h2, by ring⟩

/-- **C266 refuted**: the points found are points of the tangents.  If the intersection is a circle of radius `1 / k ≥ tol` with the
centre `c`, on which the current point is, the new point is further than `tol` from the circle: its distance from the centre is greater
than the radius by more than `tol`. -/
theorem C266_tolerance_refuted (sqrt : K → K) (tol k s side : K) (hsq : sqrt ((1 / k) ^ 2 - (1 / k - tol) ^ 2) ^ 2 = (1 / k) ^ 2 - (1 / k - tol) ^ 2)
    (hk : 0 < k) (ht : 0 < tol) (hr : tol ≤ 1 / k) (h : stepLen sqrt tol k = some s)
    (hside : side = 1 ∨ side = -1) (d : StepD K) (c p : V3 K) (hp : refinePoint d side s = some p) (he : d.first.pt = d.second.pt)
    (h1 : dot d.t d.first.n = 0) (h2 : dot d.t d.second.n = 0) (hT : dot d.t d.t = 1)
    (hc : dot (d.first.pt.sub c) (d.first.pt.sub c) = (1 / k) ^ 2) (hperp : dot (d.first.pt.sub c) d.t = 0) :
    (1 / k + tol) ^ 2 < dot (p.sub c) (p.sub c) := by
  have e := (C266_refine d side s p hp).2.2 he h1 h2
  have hs : s ^ 2 = 4 * ((1 / k) ^ 2 - (1 / k - tol) ^ 2) := by
    unfold stepLen at h
    rw [if_neg (ne_of_gt hk)] at h
    dsimp only at h
    have hq : 0 < (1 / k) ^ 2 - (1 / k - tol) ^ 2 := by nlinarith
    rw [if_neg (not_lt.2 (le_of_lt hq))] at h
    simp only [Option.some.injEq] at h
    subst h
    rw [mul_pow, hsq]; ring
  have hd : dot (p.sub c) (p.sub c) = (1 / k) ^ 2 + s ^ 2 := by
    have hss : (side * s) ^ 2 = s ^ 2 := by rcases hside with rfl | rfl <;> ring
    rw [e, ← hss, ← hc]
    simp only [dot, sub, add, smul] at hperp hT ⊢
    linear_combination 2 * (side * s) * hperp + (side * s) ^ 2 * hT
  rw [hd, hs]
  nlinarith

/-- The same with the square root of the reals. -/
theorem C266_tolerance_refuted' (tol k s side : ℝ) (hk : 0 < k) (ht : 0 < tol) (hr : tol ≤ 1 / k) (h : stepLen Real.sqrt tol k = some s)
    (hside : side = 1 ∨ side = -1) (d : StepD ℝ) (c p : V3 ℝ) (hp : refinePoint d side s = some p) (he : d.first.pt = d.second.pt)
    (h1 : dot d.t d.first.n = 0) (h2 : dot d.t d.second.n = 0) (hT : dot d.t d.t = 1)
    (hc : dot (d.first.pt.sub c) (d.first.pt.sub c) = (1 / k) ^ 2) (hperp : dot (d.first.pt.sub c) d.t = 0) :
    1 / k + tol < Real.sqrt (dot (p.sub c) (p.sub c)) :=
  Real.lt_sqrt_of_sq_lt (C266_tolerance_refuted Real.sqrt tol k s side (Real.sq_sqrt (by nlinarith)) hk ht hr h hside d c p hp he h1 h2 hT hc hperp)

/-- The circle of radius 1 in the plane `z = 0` on a cylinder: at (0, 1, 0) the normals are (0, 1, 0) and (0, 0, 1), the tangent
(1, 0, 0); the curvature is 1.  With the tolerance 1/5 the step is 6/5 and the new point (6/5, 1, 0). -/
example : let sd1 : SD ℚ := ⟨(0, 0), ⟨0, 1, 0⟩, ⟨1, 0, 0⟩, ⟨0, 0, 1⟩, ⟨0, 1, 0⟩⟩
    let sd2 : SD ℚ := ⟨(0, 1), ⟨0, 1, 0⟩, ⟨1, 0, 0⟩, ⟨0, 1, 0⟩, ⟨0, 0, 1⟩⟩
    stepLen (fun _ => (3 / 5 : ℚ)) (1 / 5) 1 = some (6 / 5) ∧ (3 / 5 : ℚ) ^ 2 = (1 / 1) ^ 2 - (1 / 1 - 1 / 5) ^ 2 ∧
    (refinePoint ⟨sd1, sd2, ⟨1, 0, 0⟩⟩ 1 (6 / 5)).map (fun p => (p.x, p.y, p.z)) = some (6 / 5, 1, 0) ∧ ((1 : ℚ) + 1 / 5) ^ 2 < (6 / 5) ^ 2 + 1 := by
  decide +kernel

/-- **C266 refuted**: where the tangent and the second normal have no component along x there is no new point, although the three planes
meet in one. -/
theorem C266_aligned_refuted (d : StepD K) (side step : K) (h1 : d.t.x = 0) (h2 : d.second.n.x = 0) : refinePoint d side step = none :=
  C43_three_planes_refuted _ _ _ _ _ _ h2 h1

/-- The same circle at (1, 0, 0). -/
example : let sd1 : SD ℚ := ⟨(0, 0), ⟨1, 0, 0⟩, ⟨0, 1, 0⟩, ⟨0, 0, 1⟩, ⟨1, 0, 0⟩⟩
    let sd2 : SD ℚ := ⟨(1, 0), ⟨1, 0, 0⟩, ⟨1, 0, 0⟩, ⟨0, 1, 0⟩, ⟨0, 0, 1⟩⟩
    (refinePoint ⟨sd1, sd2, ⟨0, -1, 0⟩⟩ 1 (6 / 5)).isNone = true := by
  decide +kernel

/-- **C266 refuted**: the length of the step is not defined when the radius is less than half of the tolerance. -/
theorem C266_sharp_refuted (sqrt : K → K) (tol k : K) (hk : 0 < k) (ht : 0 < tol) (hr : 1 / k < tol / 2) : stepLen sqrt tol k = none := by
  unfold stepLen
  rw [if_neg (ne_of_gt hk)]
  dsimp only
  rw [if_pos]
  have : 0 < 1 / k := by positivity
  nlinarith

example : stepLen (fun x : ℚ => x) (1 / 10) 50 = none := by decide +kernel

end Verif.Ssx
