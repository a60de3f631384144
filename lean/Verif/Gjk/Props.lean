import Mathlib.Data.Rat.Cast.Order
import Mathlib.Algebra.Order.Field.Rat
import Mathlib.Tactic.NormNum
import Mathlib.Tactic.FinCases
import Verif.Gjk.Hull
import Verif.Gjk.Sim

set_option linter.unusedSectionVars false

/-! # C159-C163: the collision test -/

namespace Verif.Gjk

section ring
variable {K : Type} [CommRing K] [LinearOrder K] [IsStrictOrderedRing K]

/-- **C159.** For every non-empty vertex list and every direction `supportVector` returns a position of the
list whose vertex reaches furthest in that direction, and the first such position. -/
theorem C159_support_vertex (vs : List (V K)) (d : V K) (h : vs ≠ []) :
    ∃ k, supportVector vs d = some k ∧ ∃ hk : k < vs.length,
      (∀ v ∈ vs, dot v d ≤ dot vs[k] d) ∧
      ∀ m (hm : m < k), dot (vs[m]'(Nat.lt_trans hm hk)) d < dot vs[k] d := by
  obtain ⟨k, e⟩ := supportVector_some vs d h
  exact ⟨k, e, supportVector_spec vs d k e⟩

/-- **C159 (difference).** The point added to the simplex is a difference of a vertex of the first and one of
the second list, and no such difference reaches further. -/
theorem C159_support_difference (vs ws : List (V K)) (d : V K) (h1 : vs ≠ []) (h2 : ws ≠ []) :
    ∃ p k, support vs ws d = some (p, k) ∧ (∃ v ∈ vs, ∃ w ∈ ws, p = sub v w) ∧
      ∀ v ∈ vs, ∀ w ∈ ws, dot (sub v w) d ≤ dot p d := by
  obtain ⟨⟨p, k⟩, e⟩ := support_some vs ws d h1 h2
  obtain ⟨i, j, hi, hj, h3, -, h4⟩ := support_spec vs ws d p k e
  exact ⟨p, k, e, ⟨_, List.getElem_mem hi, _, List.getElem_mem hj, h3⟩, h4⟩

example : supportVector [⟨0, 0, 1⟩, ⟨2, 1, 0⟩, ⟨1, 2, 5⟩, ⟨0, 0, 0⟩] (⟨1, 1, 0⟩ : V ℤ) = some 1 := by decide
example : support [⟨0, 0, 1⟩, ⟨2, 1, 0⟩] [⟨1, 1, 1⟩, ⟨-1, 0, 0⟩] (⟨1, 1, 0⟩ : V ℤ)
    = some (⟨3, 1, 0⟩, 3) := by decide

theorem plainLoop_kinds (vs ws : List (V K)) (tol : K) (h1 : vs ≠ []) (h2 : ws ≠ []) :
    ∀ (n : Nat) (s : List (V K)) (d : V K), plainLoop vs ws tol n s d ≠ .moved ∧
      plainLoop vs ws tol n s d ≠ .invalid
  | 0, _, _ => by simp [plainLoop]
  | n + 1, s, d => by
    rw [plainLoop.eq_def]
    dsimp only
    obtain ⟨⟨p, k⟩, e⟩ := support_some vs ws d h1 h2
    rw [e]
    dsimp only
    by_cases hd : dot p d < 0
    · rw [if_pos hd]; simp
    · rw [if_neg hd]
      rcases handleSimplex tol (s ++ [p]) d with _ | ⟨s', d'⟩
      · simp
      · exact plainLoop_kinds vs ws tol h1 h2 n s' d'

/-- **C163.** With a tolerance that is not negative the search over two non-empty vertex lists never ends because a
remembered pair of vertices moved, and never lacks a support point; with an empty list it always fails. -/
theorem C163_bookkeeping (vs ws : List (V K)) (tol : K) (ht : 0 ≤ tol) (m : Nat) :
    (vs ≠ [] → ws ≠ [] → verdict vs ws tol m = some .collide ∨ verdict vs ws tol m = some .apart ∨
      verdict vs ws tol m = some .exhausted) ∧
    (vs = [] ∨ ws = [] → gjk vs ws tol m = none) := by
  constructor
  · intro h1 h2
    obtain ⟨p, k, -, e⟩ := verdict_eq vs ws tol ht m h1 h2
    have h := plainLoop_kinds vs ws tol h1 h2 (if m = 0 then vs.length * ws.length else m) [p] (neg p)
    rw [e]
    revert h
    rcases plainLoop vs ws tol (if m = 0 then vs.length * ws.length else m) [p] (neg p) <;> simp
  · rintro (rfl | rfl)
    · rfl
    · simp [gjk, verdict]

theorem support_translate (t : V K) (vs ws : List (V K)) (d : V K) :
    support (vs.map (fun v => ⟨v.x + t.x, v.y + t.y, v.z + t.z⟩))
      (ws.map (fun v => ⟨v.x + t.x, v.y + t.y, v.z + t.z⟩)) d = support vs ws d := by
  have hg : ∀ e : V K, StrictMono (fun x : K => x + dot t e) := fun e a b h => by simpa using h
  have hf : ∀ e v : V K, dot (⟨v.x + t.x, v.y + t.y, v.z + t.z⟩ : V K) e = dot v e + dot t e := by
    intro e v; simp only [dot]; ring
  unfold support
  rw [supportVector_map (fun x => x + dot t d) (hg d) _ d d vs (fun v _ => hf d v),
    supportVector_map (fun x => x + dot t (neg d)) (hg (neg d)) _ (neg d) (neg d) ws
      (fun v _ => hf (neg d) v)]
  rcases supportVector vs d with _ | i
  · rfl
  rcases supportVector ws (neg d) with _ | j
  · rfl
  simp only [Option.bind_eq_bind, Option.bind_some, List.getElem?_map, List.length_map]
  rcases vs[i]? with _ | p
  · rfl
  rcases ws[j]? with _ | q
  · rfl
  simp only [Option.map_some, Option.bind_some, Option.pure_def, sub, add_sub_add_right_eq_sub]

theorem loop_translate (t : V K) (vs ws : List (V K)) (tol : K) :
    ∀ (n : Nat) (s : List (V K)) (d : V K) (cache : Nat → Option (V K)),
    loop (vs.map (fun v => ⟨v.x + t.x, v.y + t.y, v.z + t.z⟩))
      (ws.map (fun v => ⟨v.x + t.x, v.y + t.y, v.z + t.z⟩)) tol n s d cache
      = loop vs ws tol n s d cache
  | 0, _, _, _ => rfl
  | n + 1, s, d, cache => by
    rw [loop.eq_def, loop.eq_def vs]
    dsimp only
    rw [support_translate]
    simp only [loop_translate t vs ws tol n]

/-- **C164 (translation).** Moving both vertex lists by the same vector does not change the answer. -/
theorem C164_translation (t : V K) (vs ws : List (V K)) (tol : K) (m : Nat) :
    gjk (vs.map (fun v => ⟨v.x + t.x, v.y + t.y, v.z + t.z⟩))
      (ws.map (fun v => ⟨v.x + t.x, v.y + t.y, v.z + t.z⟩)) tol m = gjk vs ws tol m := by
  unfold gjk verdict
  dsimp only
  simp only [support_translate, loop_translate, List.isEmpty_map, List.length_map]

/-- **C164 (scale).** With tolerance 0 the answer does not depend on the unit of length. -/
theorem C164_scale (s : K) (hs : 0 < s) (vs ws : List (V K)) (m : Nat) :
    gjk (vs.map (fun v => ⟨s * v.x, s * v.y, s * v.z⟩)) (ws.map (fun v => ⟨s * v.x, s * v.y, s * v.z⟩)) 0 m
      = gjk vs ws 0 m := by
  have h := verdict_copy (φ := RingHom.id K) (s := s) (tol := 0) strictMono_id hs
    ⟨le_refl _, fun x hx => by simp only [RingHom.id_apply]; positivity,
      fun x hx => by simp only [RingHom.id_apply]; positivity,
      fun x hx => by simp only [RingHom.id_apply]; positivity⟩ vs ws m
  unfold gjk
  rw [← h]
  rfl

/-- The data of a lattice as vectors over `K`, in units of `s`. -/
def lattice (s : K) (vs : List (V ℤ)) : List (V K) :=
  vs.map (fun v => ⟨s * (v.x : K), s * (v.y : K), s * (v.z : K)⟩)

/-- **C164 (lattice).** For vertices on a lattice with spacing `s ≥ 1` every tolerance below 1 gives the same answer as
exact integer arithmetic with tolerance 0. -/
theorem C164_lattice (s tol : K) (hs : 1 ≤ s) (h0 : 0 ≤ tol) (h1 : tol < 1) (vs ws : List (V ℤ))
    (m : Nat) : verdict (lattice s vs) (lattice s ws) tol m = verdict vs ws 0 m := by
  have hs0 : 0 < s := lt_of_lt_of_le one_pos hs
  have hx : ∀ x : ℤ, 0 < x → (1 : K) ≤ (x : K) := by
    intro x hx
    have : (1 : ℤ) ≤ x := hx
    exact_mod_cast this
  have h2 : 1 ≤ s * s := by nlinarith
  have h3 : 1 ≤ s * s * s := by nlinarith
  have h4 : 1 ≤ s * s * s * s := by nlinarith
  refine verdict_copy (φ := Int.castRingHom K) (s := s) (tol := tol) Int.cast_strictMono hs0
    ⟨h0, ?_, ?_, ?_⟩ vs ws m
  · intro x h
    have := hx x h
    have : 1 ≤ s * s * (x : K) := one_le_mul_of_one_le_of_one_le h2 this
    exact lt_of_lt_of_le h1 this
  · intro x h
    have := hx x h
    have : 1 ≤ s * s * s * (x : K) := one_le_mul_of_one_le_of_one_le h3 this
    exact lt_of_lt_of_le h1 this
  · intro x h
    have := hx x h
    have : 1 ≤ s * s * s * s * (x : K) := one_le_mul_of_one_le_of_one_le h4 this
    exact lt_of_lt_of_le h1 this

theorem plainLoop_small (vs ws : List (V K)) (tol : K) (h1 : vs ≠ []) (h2 : ws ≠ [])
    (h : ∀ p q : V K, (∃ v ∈ vs, ∃ w ∈ ws, p = sub v w) → (∃ v ∈ vs, ∃ w ∈ ws, q = sub v w) →
      dot (sub q p) (neg p) ≤ tol) :
    ∀ (n : Nat) (p d : V K), (∃ v ∈ vs, ∃ w ∈ ws, p = sub v w) →
      (plainLoop vs ws tol n [p] d).answer = false
  | 0, _, _, _ => rfl
  | n + 1, p, d, hp => by
    rw [plainLoop.eq_def]
    dsimp only
    obtain ⟨⟨q, k⟩, e⟩ := support_some vs ws d h1 h2
    obtain ⟨i, j, hi, hj, h3, -, -⟩ := support_spec vs ws d q k e
    have hq : ∃ v ∈ vs, ∃ w ∈ ws, q = sub v w := ⟨_, List.getElem_mem hi, _, List.getElem_mem hj, h3⟩
    rw [e]
    dsimp only
    by_cases hd : dot q d < 0
    · rw [if_pos hd]; rfl
    · rw [if_neg hd]
      have e2 : handleSimplex tol ([p] ++ [q]) d = some ([q], neg q) := by
        show some (handle2 tol p q) = _
        unfold handle2
        dsimp only
        rw [if_neg (not_lt.mpr (h q p hq hp))]
      rw [e2]
      exact plainLoop_small vs ws tol h1 h2 h n q (neg q) hq

/-- **C162 refuted (small shapes).** Whenever all differences of coordinates are at most `r` with `6 r² ≤ tol`, the
test answers "no collision", whatever the shapes are. -/
theorem C162_small_answer (vs ws : List (V K)) (tol r : K) (m : Nat) (h1 : vs ≠ []) (h2 : ws ≠ [])
    (hr : 6 * (r * r) ≤ tol)
    (hb : ∀ v ∈ vs, ∀ w ∈ ws, |v.x - w.x| ≤ r ∧ |v.y - w.y| ≤ r ∧ |v.z - w.z| ≤ r) :
    gjk vs ws tol m = some false := by
  have ht : 0 ≤ tol := by have := mul_self_nonneg r; linarith
  obtain ⟨p, k, e1, e2⟩ := verdict_eq vs ws tol ht m h1 h2
  obtain ⟨i, j, hi, hj, h3, -, -⟩ := support_spec vs ws ⟨1, 0, 0⟩ p k e1
  unfold gjk
  rw [e2, Option.map_some]
  congr 1
  apply plainLoop_small vs ws tol h1 h2 _ _ _ _ ⟨_, List.getElem_mem hi, _, List.getElem_mem hj, h3⟩
  rintro p q ⟨v, hv, w, hw, rfl⟩ ⟨v', hv', w', hw', rfl⟩
  obtain ⟨a1, a2, a3⟩ := hb v hv w hw
  obtain ⟨b1, b2, b3⟩ := hb v' hv' w' hw'
  have key : ∀ x y : K, |x| ≤ r → |y| ≤ r → (y - x) * -x ≤ 2 * (r * r) := by
    intro x y hx hy
    have k1 : x * x ≤ r * r := by
      rw [← abs_mul_abs_self x]
      exact mul_self_le_mul_self (abs_nonneg x) hx
    have k2 : -(y * x) ≤ r * r := by
      have : |y * x| ≤ r * r := by
        rw [abs_mul]
        exact mul_le_mul hy hx (abs_nonneg x) (le_trans (abs_nonneg y) hy)
      have := neg_abs_le (y * x)
      linarith
    have : (y - x) * -x = x * x + -(y * x) := by ring
    linarith
  have := key _ _ a1 b1
  have := key _ _ a2 b2
  have := key _ _ a3 b3
  simp only [dot, sub, neg]
  linarith

end ring

section field
variable {K : Type} [Field K] [LinearOrder K] [IsStrictOrderedRing K]

theorem meet_self (vs : List (V K)) (h : vs ≠ []) : Meet vs vs := by
  obtain ⟨v, l, rfl⟩ := List.exists_cons_of_ne_nil h
  exact ⟨pt v, subset_convexHull K _ ⟨v, by simp, rfl⟩, subset_convexHull K _ ⟨v, by simp, rfl⟩⟩

/-- **C162 refuted (small shapes).** "Hulls with a common point are reported as colliding" fails for every shape that is
small against the tolerance: the test does not even find that the shape meets itself. -/
theorem C162_small_refuted (vs : List (V K)) (tol r : K) (m : Nat) (h1 : vs ≠ [])
    (hr : 6 * (r * r) ≤ tol)
    (hb : ∀ v ∈ vs, ∀ w ∈ vs, |v.x - w.x| ≤ r ∧ |v.y - w.y| ≤ r ∧ |v.z - w.z| ≤ r) :
    Meet vs vs ∧ gjk vs vs tol m = some false :=
  ⟨meet_self vs h1, C162_small_answer vs vs tol r m h1 h1 hr hb⟩

/-- A cube with an edge of 0.4 mm, all lengths in metres, at the default tolerance. -/
example : gjk [⟨0, 0, 0⟩, ⟨1/2500, 0, 0⟩, ⟨0, 1/2500, 0⟩, ⟨0, 0, 1/2500⟩, ⟨1/2500, 1/2500, 1/2500⟩]
    [⟨0, 0, 0⟩, ⟨1/2500, 0, 0⟩, ⟨0, 1/2500, 0⟩, ⟨0, 0, 1/2500⟩, ⟨1/2500, 1/2500, 1/2500⟩]
    (1 / 1000000 : ℚ) 25 = some false := by decide +kernel

/-- **C160.** When the search stops because the new point does not pass the origin, there is a plane with all vertices of
the first list strictly on one side and all vertices of the second strictly on the other, and the convex hulls have no
common point.  No assumption on the tolerance. -/
theorem C160_apart (vs ws : List (V K)) (tol : K) (m : Nat) (h : verdict vs ws tol m = some .apart) :
    (∃ d, ∀ v ∈ vs, ∀ w ∈ ws, dot v d < dot w d) ∧ ¬ Meet vs ws := by
  have hne : vs ≠ [] := by rintro rfl; simp [verdict] at h
  have key : ∀ (n : Nat) (s : List (V K)) (d : V K) (cache : Nat → Option (V K)),
      loop vs ws tol n s d cache = .apart → ∃ d, ∀ v ∈ vs, ∀ w ∈ ws, dot v d < dot w d := by
    intro n
    induction n with
    | zero => intro s d cache h; simp [loop] at h
    | succ n ih =>
      intro s d cache h
      rw [loop.eq_def] at h
      dsimp only at h
      rcases e : support vs ws d with _ | ⟨p, k⟩
      · rw [e] at h; simp at h
      · rw [e] at h
        dsimp only at h
        split_ifs at h with h1 h2
        · obtain ⟨i, j, hi, hj, -, -, h4⟩ := support_spec vs ws d p k e
          refine ⟨d, fun v hv w hw => ?_⟩
          have := h4 v hv w hw
          rw [dot_sub] at this
          linarith
        · rcases e2 : handleSimplex tol (s ++ [p]) d with _ | ⟨s', d'⟩
          · rw [e2] at h; simp at h
          · rw [e2] at h
            exact ih _ _ _ h
  have h1 : ∃ d, ∀ v ∈ vs, ∀ w ∈ ws, dot v d < dot w d := by
    unfold verdict at h
    dsimp only at h
    by_cases h0 : (vs.isEmpty || ws.isEmpty) = true
    · rw [if_pos h0] at h; cases h
    rw [if_neg h0] at h
    rcases e : support vs ws ⟨1, 0, 0⟩ with _ | ⟨p, k⟩
    · rw [e] at h; simp at h
    · rw [e] at h
      simp only [Option.some.injEq] at h
      exact key _ _ _ _ h
  obtain ⟨d, hd⟩ := h1
  exact ⟨⟨d, hd⟩, not_meet_of_plane hne d hd⟩

example : verdict [⟨0, 0, 0⟩, ⟨1, 0, 0⟩, ⟨0, 1, 0⟩, ⟨0, 0, 1⟩] [⟨1, 1, 0⟩, ⟨1, 0, 1⟩, ⟨0, 1, 1⟩, ⟨1, 1, 1⟩]
    (1 / 1000000 : ℚ) 25 = some .apart := by decide +kernel

/-- **C161.** With tolerance 0 the answer "collision" is right: the convex hulls have a common point. -/
theorem C161_collide (vs ws : List (V K)) (m : Nat) (h : gjk vs ws 0 m = some true) : Meet vs ws := by
  have h1 : vs ≠ [] := by rintro rfl; simp [gjk, verdict] at h
  have h2 : ws ≠ [] := by rintro rfl; simp [gjk, verdict] at h
  by_contra hM
  have hH : ¬ Hit (Diff vs ws) := fun hh => hM (meet_of_hit hh)
  have key : ∀ (n : Nat) (s : List (V K)) (d : V K), Inv (Diff vs ws) s d →
      plainLoop vs ws 0 n s d ≠ .collide := by
    intro n
    induction n with
    | zero => intro s d _; simp [plainLoop]
    | succ n ih =>
      intro s d hI
      rw [plainLoop.eq_def]
      dsimp only
      obtain ⟨⟨p, k⟩, e⟩ := support_some vs ws d h1 h2
      obtain ⟨i, j, hi, hj, h3, -, -⟩ := support_spec vs ws d p k e
      rw [e]
      dsimp only
      by_cases hd : dot p d < 0
      · rw [if_pos hd]; simp
      · rw [if_neg hd]
        obtain ⟨s', d', e2, hI'⟩ := inv_step hH hI
          ⟨_, List.getElem_mem hi, _, List.getElem_mem hj, h3⟩ (not_lt.mp hd)
        rw [e2]
        exact ih s' d' hI'
  obtain ⟨p, k, e1, e2⟩ := verdict_eq vs ws 0 (le_refl _) m h1 h2
  obtain ⟨i, j, hi, hj, h3, -, -⟩ := support_spec vs ws ⟨1, 0, 0⟩ p k e1
  unfold gjk at h
  rw [e2] at h
  have := key (if m = 0 then vs.length * ws.length else m) [p] (neg p)
    ⟨⟨_, List.getElem_mem hi, _, List.getElem_mem hj, h3⟩, rfl⟩
  revert h this
  rcases plainLoop vs ws 0 (if m = 0 then vs.length * ws.length else m) [p] (neg p) <;> simp [Verdict.answer]

example : gjk [⟨0, 0, 0⟩, ⟨2, 0, 0⟩, ⟨0, 2, 0⟩, ⟨0, 0, 2⟩] [⟨1, 1, 1⟩, ⟨0, 0, 1⟩, ⟨-1, 1, 1⟩, ⟨1, -1, 1⟩]
    (0 : ℚ) 25 = some true := by decide +kernel

/-- **C162 partial.** With tolerance 0 the answer is right whenever the rounds did not run out.  Missing: the rounds run
out on some shapes that meet (`C162_cycle_refuted`), and a positive tolerance gives wrong answers of both kinds. -/
theorem C162_exact_partial (vs ws : List (V K)) (m : Nat) (h1 : vs ≠ []) (h2 : ws ≠ [])
    (h : verdict vs ws 0 m ≠ some .exhausted) : gjk vs ws 0 m = some true ↔ Meet vs ws := by
  constructor
  · exact C161_collide vs ws m
  · intro hM
    rcases (C163_bookkeeping vs ws 0 (le_refl _) m).1 h1 h2 with e | e | e
    · unfold gjk; rw [e]; rfl
    · exact absurd hM (C160_apart vs ws 0 m e).2
    · exact absurd e h

/-- **C161 refuted for a positive tolerance.** For every tolerance `tol` and every length `s` with `s⁴ ≤ tol < s²` the
triangle with the corners `(s,0,0)`, `(0,s,0)`, `(s,-s,0)` is reported to collide with the origin, which it does not
contain. -/
theorem C161_tolerance_refuted (s tol : K) (hs : 0 < s) (h4 : s ^ 4 ≤ tol) (h2 : tol < s ^ 2) (m : Nat)
    (hm : m = 0 ∨ 3 ≤ m) :
    gjk [⟨s, 0, 0⟩, ⟨0, s, 0⟩, ⟨s, -s, 0⟩] [⟨0, 0, 0⟩] tol m = some true ∧
      ¬ Meet [⟨s, 0, 0⟩, ⟨0, s, 0⟩, ⟨s, -s, 0⟩] [(⟨0, 0, 0⟩ : V K)] := by
  have ht : 0 ≤ tol := le_trans (by positivity) h4
  have hs2 : 0 < s * s := by positivity
  constructor
  · obtain ⟨p, k, e1, e2⟩ := verdict_eq [⟨s, 0, 0⟩, ⟨0, s, 0⟩, ⟨s, -s, 0⟩] [(⟨0, 0, 0⟩ : V K)] tol ht m
      (by simp) (by simp)
    have es1 : support [⟨s, 0, 0⟩, ⟨0, s, 0⟩, ⟨s, -s, 0⟩] [(⟨0, 0, 0⟩ : V K)] ⟨1, 0, 0⟩
        = some (⟨s, 0, 0⟩, 0) := by
      simp [support, supportVector, supportLoop, dot, sub, neg, not_lt.mpr hs.le]
    rw [es1] at e1
    simp only [Option.some.injEq, Prod.mk.injEq] at e1
    obtain ⟨rfl, -⟩ := e1
    obtain ⟨n, hn⟩ : ∃ n, (if m = 0 then [(⟨s, 0, 0⟩ : V K), ⟨0, s, 0⟩, ⟨s, -s, 0⟩].length
        * [(⟨0, 0, 0⟩ : V K)].length else m) = n + 3 := by
      split_ifs with h
      · exact ⟨0, rfl⟩
      · exact ⟨m - 3, by omega⟩
    rw [hn] at e2
    unfold gjk
    rw [e2]
    have es2 : support [⟨s, 0, 0⟩, ⟨0, s, 0⟩, ⟨s, -s, 0⟩] [(⟨0, 0, 0⟩ : V K)] ⟨-s, -0, -0⟩
        = some (⟨0, s, 0⟩, 1) := by
      simp [support, supportVector, supportLoop, dot, sub, neg, hs2, not_lt.mpr hs2.le]
    have es3 : support [⟨s, 0, 0⟩, ⟨0, s, 0⟩, ⟨s, -s, 0⟩] [(⟨0, 0, 0⟩ : V K)]
        ⟨-(s * s * s), -(s * s * s), 0⟩ = some (⟨s, -s, 0⟩, 2) := by
      have h3 : 0 < s * (s * s * s) := by positivity
      simp [support, supportVector, supportLoop, dot, sub, neg, h3]
    have es4 : support [⟨s, 0, 0⟩, ⟨0, s, 0⟩, ⟨s, -s, 0⟩] [(⟨0, 0, 0⟩ : V K)]
        ⟨0, 0, s * s⟩ = some (⟨s, 0, 0⟩, 0) := by
      simp [support, supportVector, supportLoop, dot, sub, neg]
    have r1 : handleSimplex tol ([⟨s, 0, 0⟩] ++ [⟨0, s, 0⟩]) (⟨-s, -0, -0⟩ : V K)
        = some ([⟨s, 0, 0⟩, ⟨0, s, 0⟩], ⟨-(s * s * s), -(s * s * s), 0⟩) := by
      show some (handle2 tol _ _) = _
      unfold handle2
      have : tol < dot (sub (⟨s, 0, 0⟩ : V K) ⟨0, s, 0⟩) (neg ⟨0, s, 0⟩) := by
        simp only [dot, sub, neg]; linarith
      dsimp only
      rw [if_pos this]
      simp only [cross, sub, neg, Option.some.injEq, Prod.mk.injEq, true_and, V.mk.injEq]
      refine ⟨?_, ?_, ?_⟩ <;> ring
    have r2 : handleSimplex tol ([⟨s, 0, 0⟩, ⟨0, s, 0⟩] ++ [⟨s, -s, 0⟩])
        (⟨-(s * s * s), -(s * s * s), 0⟩ : V K)
        = some ([⟨0, s, 0⟩, ⟨s, 0, 0⟩, ⟨s, -s, 0⟩], ⟨0, 0, s * s⟩) := by
      show some (handle3 tol _ _ _) = _
      unfold handle3
      dsimp only
      rw [if_neg, if_neg, if_neg]
      · simp only [cross, sub, neg, Option.some.injEq, Prod.mk.injEq, true_and, V.mk.injEq]
        refine ⟨?_, ?_, ?_⟩ <;> ring
      · simp only [dot, cross, sub, neg]
        ring_nf
        simpa using ht
      · simp only [dot, cross, sub, neg]
        ring_nf
        simpa using h4
      · simp only [dot, cross, sub, neg]
        ring_nf
        have : 0 ≤ s ^ 4 := by positivity
        intro h; linarith
    have r3 : handleSimplex tol ([⟨0, s, 0⟩, ⟨s, 0, 0⟩, ⟨s, -s, 0⟩] ++ [⟨s, 0, 0⟩])
        (⟨0, 0, s * s⟩ : V K) = none := by
      show handle4 tol _ _ _ _ = _
      unfold handle4
      dsimp only
      rw [if_neg, if_neg, if_neg] <;>
      · simp [dot, cross, sub, neg]
    have d1 : ¬ dot (⟨0, s, 0⟩ : V K) ⟨-s, -0, -0⟩ < 0 := by simp [dot]
    have d2 : ¬ dot (⟨s, -s, 0⟩ : V K) ⟨-(s * s * s), -(s * s * s), 0⟩ < 0 := by simp [dot]
    have d3 : ¬ dot (⟨s, 0, 0⟩ : V K) ⟨0, 0, s * s⟩ < 0 := by simp [dot]
    have l3 : plainLoop [⟨s, 0, 0⟩, ⟨0, s, 0⟩, ⟨s, -s, 0⟩] [(⟨0, 0, 0⟩ : V K)] tol (n + 1)
        [⟨0, s, 0⟩, ⟨s, 0, 0⟩, ⟨s, -s, 0⟩] ⟨0, 0, s * s⟩ = .collide := by
      rw [plainLoop.eq_def]
      dsimp only
      rw [es4]
      dsimp only
      rw [if_neg d3, r3]
    have l2 : plainLoop [⟨s, 0, 0⟩, ⟨0, s, 0⟩, ⟨s, -s, 0⟩] [(⟨0, 0, 0⟩ : V K)] tol (n + 2)
        [⟨s, 0, 0⟩, ⟨0, s, 0⟩] ⟨-(s * s * s), -(s * s * s), 0⟩ = .collide := by
      rw [plainLoop.eq_def]
      dsimp only
      rw [es3]
      dsimp only
      rw [if_neg d2, r2]
      exact l3
    have l1 : plainLoop [⟨s, 0, 0⟩, ⟨0, s, 0⟩, ⟨s, -s, 0⟩] [(⟨0, 0, 0⟩ : V K)] tol (n + 3)
        [⟨s, 0, 0⟩] ⟨-s, -0, -0⟩ = .collide := by
      rw [plainLoop.eq_def]
      dsimp only
      rw [es2]
      dsimp only
      rw [if_neg d1, r1]
      exact l2
    have : neg (⟨s, 0, 0⟩ : V K) = ⟨-s, -0, -0⟩ := rfl
    rw [this, l1]
    rfl
  · refine not_meet_of_plane (by simp) ⟨-2, -1, 0⟩ ?_
    intro v hv w hw
    simp only [List.mem_cons, List.not_mem_nil, or_false] at hv hw
    subst hw
    rcases hv with rfl | rfl | rfl <;> simp only [dot] <;> linarith

/-- One centimetre, in metres, at the default tolerance. -/
example : gjk [⟨1/100, 0, 0⟩, ⟨0, 1/100, 0⟩, ⟨1/100, -1/100, 0⟩] [⟨0, 0, 0⟩] (1 / 1000000 : ℚ) 25
    = some true := by decide +kernel

end field

/-! ## The search that never ends -/

/-- A triangle. -/
def cycTriangle : List (V ℤ) := [⟨2, 1, 1⟩, ⟨3, -2, 3⟩, ⟨-1, -2, 2⟩]

/-- A segment that crosses it. -/
def cycSegment : List (V ℤ) := [⟨0, 2, 2⟩, ⟨0, -2, 2⟩]

/-- One round without the end of the rounds. -/
def plainStep (vs ws : List (V ℤ)) (st : List (V ℤ) × V ℤ) : Option (List (V ℤ) × V ℤ) :=
  match support vs ws st.2 with
  | none => none
  | some pk => if dot pk.1 st.2 < 0 then none else handleSimplex 0 (st.1 ++ [pk.1]) st.2

theorem plainLoop_step (vs ws : List (V ℤ)) (n : Nat) (st st' : List (V ℤ) × V ℤ)
    (h : plainStep vs ws st = some st') :
    plainLoop vs ws 0 (n + 1) st.1 st.2 = plainLoop vs ws 0 n st'.1 st'.2 := by
  unfold plainStep at h
  rw [plainLoop.eq_def]
  dsimp only
  rcases e : support vs ws st.2 with _ | pk
  · rw [e] at h; cases h
  · rw [e] at h
    dsimp only at h ⊢
    by_cases h1 : dot pk.1 st.2 < 0
    · rw [if_pos h1] at h; cases h
    · rw [if_neg h1] at h ⊢
      rw [h]

/-- The states the search goes through: three rounds, then a cycle of four. -/
def cycState : Nat → List (V ℤ) × V ℤ
  | 0 => ([⟨3, -4, 1⟩], ⟨-3, 4, -1⟩)
  | 1 => ([⟨3, -4, 1⟩, ⟨2, 3, -1⟩], ⟨-129, -15, 12⟩)
  | 2 => ([⟨2, 3, -1⟩, ⟨-1, -4, 0⟩], ⟨-34, 19, 31⟩)
  | 3 => ([⟨2, 3, -1⟩, ⟨-1, -4, 0⟩, ⟨-1, 0, 0⟩], ⟨4, 0, 12⟩)
  | 4 => ([⟨-1, -4, 0⟩, ⟨2, 3, -1⟩, ⟨3, -4, 1⟩], ⟨-7, 7, 28⟩)
  | 5 => ([⟨-1, -4, 0⟩, ⟨3, 0, 1⟩], ⟨-47, 52, -20⟩)
  | 6 => ([⟨-1, -4, 0⟩, ⟨2, 3, -1⟩], ⟨-34, 19, 31⟩)
  | n + 7 => cycState (n + 3)

theorem cycState_step (n : Nat) :
    plainStep cycTriangle cycSegment (cycState n) = some (cycState (n + 1)) := by
  induction n using Nat.strong_induction_on with
  | _ n ih =>
    rcases Nat.lt_or_ge n 7 with h | h
    · have : n = 0 ∨ n = 1 ∨ n = 2 ∨ n = 3 ∨ n = 4 ∨ n = 5 ∨ n = 6 := by omega
      rcases this with rfl | rfl | rfl | rfl | rfl | rfl | rfl <;> decide
    · obtain ⟨k, rfl⟩ : ∃ k, n = k + 7 := ⟨n - 7, by omega⟩
      have e1 : cycState (k + 7) = cycState (k + 3) := rfl
      have e2 : cycState (k + 7 + 1) = cycState (k + 3 + 1) := rfl
      rw [e1, e2]
      exact ih (k + 3) (by omega)

theorem cyc_loop (n : Nat) : ∀ k, plainLoop cycTriangle cycSegment 0 n (cycState k).1 (cycState k).2
    = .exhausted := by
  induction n with
  | zero => intro k; rfl
  | succ n ih =>
    intro k
    rw [plainLoop_step _ _ n _ _ (cycState_step k)]
    exact ih (k + 1)

theorem cyc_verdict (m : Nat) : verdict cycTriangle cycSegment 0 m = some .exhausted := by
  obtain ⟨p, k, e1, e2⟩ := verdict_eq cycTriangle cycSegment 0 (le_refl _) m (by decide) (by decide)
  have : support cycTriangle cycSegment ⟨1, 0, 0⟩ = some (⟨3, -4, 1⟩, 2) := by decide
  rw [this] at e1
  simp only [Option.some.injEq, Prod.mk.injEq] at e1
  rw [e2, ← e1.1]
  exact congrArg some (cyc_loop _ 0)

section field
variable {K : Type} [Field K] [LinearOrder K] [IsStrictOrderedRing K]

/-- **C162 refuted (cycle).** For every unit of length `s ≥ 1`, every tolerance in `[0, 1)` and every number of rounds
the test answers "no collision" for a triangle and a segment that crosses it: the search returns to a simplex it has
already had.  With the two arguments exchanged the answer is "collision". -/
theorem C162_cycle_refuted (s tol : K) (hs : 1 ≤ s) (h0 : 0 ≤ tol) (h1 : tol < 1) (m : Nat) :
    Meet (lattice s cycTriangle) (lattice s cycSegment) ∧
      gjk (lattice s cycTriangle) (lattice s cycSegment) tol m = some false ∧
      gjk (lattice s cycSegment) (lattice s cycTriangle) tol 25 = some true := by
  refine ⟨?_, ?_, ?_⟩
  · have h : Meet (lattice s cycSegment) (lattice s cycTriangle) := by
      apply C161_collide _ _ 25
      unfold gjk
      rw [C164_lattice s 0 hs (le_refl _) one_pos]
      have : verdict cycSegment cycTriangle 0 25 = some .collide := by decide
      rw [this]
      rfl
    obtain ⟨x, hx1, hx2⟩ := h
    exact ⟨x, hx2, hx1⟩
  · unfold gjk
    rw [C164_lattice s tol hs h0 h1, cyc_verdict]
    rfl
  · unfold gjk
    rw [C164_lattice s tol hs h0 h1]
    have : verdict cycSegment cycTriangle 0 25 = some .collide := by decide
    rw [this]
    rfl

end field

end Verif.Gjk
