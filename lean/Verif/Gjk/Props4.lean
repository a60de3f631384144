import Verif.Gjk.Model3
import Verif.Gjk.Props

/-! # C395, C396: the collision test in Python -/

set_option linter.unusedSectionVars false

namespace Verif.Gjk.Py
open Verif.Gjk

section ring
variable {K : Type} [CommRing K] [LinearOrder K] [IsStrictOrderedRing K]

/-- The loop without the bookkeeping. -/
def plainLoop (vs ws : List (V K)) (tol0 tol : K) : Nat → List (V K) → V K → Verdict
  | 0, _, _ => .exhausted
  | n + 1, simplex, d =>
    match support vs ws d with
    | none => .invalid
    | some pk =>
      if dot pk.1 d < 0 then .apart
      else
        match handleSimplex tol0 tol (simplex ++ [pk.1]) with
        | .raised => .invalid
        | .hit => .collide
        | .goes s' d' => plainLoop vs ws tol0 tol n s' d'

theorem loop_eq_plain (vs ws : List (V K)) (tol0 tol : K) (ht : 0 ≤ tol) :
    ∀ (n : Nat) (s : List (V K)) (d : V K) (cache : Nat → Option (V K)), CacheInv vs ws cache →
      loop vs ws tol0 tol n s d cache = plainLoop vs ws tol0 tol n s d
  | 0, _, _, _, _ => rfl
  | n + 1, s, d, cache, hc => by
    rw [loop.eq_def, plainLoop.eq_def]
    dsimp only
    rcases h : support vs ws d with _ | ⟨p, k⟩
    · rfl
    · dsimp only
      rw [if_neg (by rw [cacheOk_true hc ht h]; simp)]
      by_cases hd : dot p d < 0
      · rw [if_pos hd, if_pos hd]
      · rw [if_neg hd, if_neg hd]
        rcases h2 : handleSimplex tol0 tol (s ++ [p]) with _ | _ | ⟨s', d'⟩
        · rfl
        · rfl
        · exact loop_eq_plain vs ws tol0 tol ht n s' d' _ (cacheInv_remember hc h)

theorem verdict_eq (vs ws : List (V K)) (tol0 tol : K) (ht : 0 ≤ tol) (m : Nat) (h1 : vs ≠ []) (h2 : ws ≠ []) :
    ∃ p k, support vs ws ⟨1, 0, 0⟩ = some (p, k) ∧ verdict vs ws tol0 tol m = plainLoop vs ws tol0 tol m [p] (neg p) := by
  obtain ⟨⟨p, k⟩, h⟩ := support_some vs ws ⟨1, 0, 0⟩ h1 h2
  refine ⟨p, k, h, ?_⟩
  unfold verdict
  rw [h]
  dsimp only
  rw [loop_eq_plain vs ws tol0 tol ht _ _ _ _ (cacheInv_remember (cacheInv_empty vs ws) h)]

/-- A simplex of one to three points with a new point is again one, or the search is over. -/
theorem handle_size (tol0 tol : K) (s : List (V K)) (p : V K) (h1 : 1 ≤ s.length) (h3 : s.length ≤ 3) :
    handleSimplex tol0 tol (s ++ [p]) = .hit ∨
      ∃ s' d', handleSimplex tol0 tol (s ++ [p]) = .goes s' d' ∧ 1 ≤ s'.length ∧ s'.length ≤ 3 := by
  rcases s with _ | ⟨x, _ | ⟨y, _ | ⟨z, _ | ⟨w, s⟩⟩⟩⟩
  · simp at h1
  · right
    refine ⟨_, _, rfl, ?_⟩
    unfold handle2 Gjk.handle2
    dsimp only
    split_ifs <;> simp
  · right
    refine ⟨_, _, rfl, ?_⟩
    unfold handle3
    dsimp only
    split_ifs <;> simp
  · show handle4 tol0 x y z p = .hit ∨ _
    simp only [List.cons_append, List.nil_append, handleSimplex]
    unfold handle4
    dsimp only
    split_ifs
    · exact Or.inr ⟨_, _, rfl, by simp⟩
    · exact Or.inr ⟨_, _, rfl, by simp⟩
    · exact Or.inr ⟨_, _, rfl, by simp⟩
    · exact Or.inl rfl
  · simp at h3

/-- **C395.** For all lists of vertices with at least one vertex, all tolerances that are not negative and every number of rounds there
is an answer: the exception for too large simplices is never raised, and the bookkeeping of visited pairs never ends the search. -/
theorem C395_answers (vs ws : List (V K)) (tol0 tol : K) (ht : 0 ≤ tol) (m : Nat) (h1 : vs ≠ []) (h2 : ws ≠ []) :
    (∃ b, gjk vs ws tol0 tol m = some b) ∧
    (verdict vs ws tol0 tol m = .collide ∨ verdict vs ws tol0 tol m = .apart ∨ verdict vs ws tol0 tol m = .exhausted) := by
  have key : ∀ (n : Nat) (s : List (V K)) (d : V K), 1 ≤ s.length → s.length ≤ 3 →
      plainLoop vs ws tol0 tol n s d = .collide ∨ plainLoop vs ws tol0 tol n s d = .apart ∨
        plainLoop vs ws tol0 tol n s d = .exhausted := by
    intro n
    induction n with
    | zero => intro s d _ _; exact Or.inr (Or.inr rfl)
    | succ n ih =>
      intro s d l1 l3
      obtain ⟨⟨p, k⟩, e⟩ := support_some vs ws d h1 h2
      rw [plainLoop.eq_def]
      dsimp only
      rw [e]
      dsimp only
      by_cases hd : dot p d < 0
      · rw [if_pos hd]; exact Or.inr (Or.inl rfl)
      · rw [if_neg hd]
        rcases handle_size tol0 tol s p l1 l3 with e2 | ⟨s', d', e2, l1', l3'⟩
        · rw [e2]; exact Or.inl rfl
        · rw [e2]; exact ih s' d' l1' l3'
  obtain ⟨p, k, -, e⟩ := verdict_eq vs ws tol0 tol ht m h1 h2
  have hv := key m [p] (neg p) (by simp) (by simp)
  rw [← e] at hv
  refine ⟨?_, hv⟩
  unfold gjk
  rcases hv with hv | hv | hv <;> rw [hv] <;> exact ⟨_, rfl⟩

/-- Without vertices there is an exception. -/
theorem C395_empty (vs : List (V K)) (tol0 tol : K) (m : Nat) : gjk [] vs tol0 tol m = none ∧ gjk vs [] tol0 tol m = none := by
  have e : support vs [] (⟨1, 0, 0⟩ : V K) = none := by
    unfold support
    rcases supportVector vs ⟨1, 0, 0⟩ with _ | i <;> rfl
  refine ⟨rfl, ?_⟩
  unfold gjk verdict
  rw [e]

end ring

/-! ## Scaled data -/

section sim
variable {R : Type} [CommRing R] [LinearOrder R] [IsStrictOrderedRing R]
variable {K : Type} [CommRing K] [LinearOrder K] [IsStrictOrderedRing K]
variable {φ : R →+* K} {s tol0 tol : K}

theorem handle3_copy (hφ : StrictMono φ) (hs : 0 < s) (hF0 : Fine φ s tol0) (hF : Fine φ s tol) (c b a : V R) :
    Copy φ s (handle3 tol0 tol (scaled φ s c) (scaled φ s b) (scaled φ s a)) (handle3 0 0 c b a) := by
  unfold handle3
  dsimp only
  simp only [sub_scaled, neg_scaled, cross_scaled, dot_scaled]
  have e1 := test_iff hφ hF.nonneg (c := s * s * s * s) (by positivity) hF.four
    (dot (cross (cross (sub b a) (sub c a)) (sub c a)) (neg a))
  have e2 := test_iff hφ hF.nonneg (c := s * s) (by positivity) hF.two (dot (sub c a) (neg a))
  have e3 := test_iff hφ hF.nonneg (c := s * (s * s) * s) (by positivity)
    (fun x hx => by have := hF.four x hx; rwa [mul_assoc s s s] at this)
    (dot (cross (sub b a) (cross (sub b a) (sub c a))) (neg a))
  have e4 := test_iff hφ hF.nonneg (c := s * s * s) (by positivity) hF.three
    (dot (cross (sub b a) (sub c a)) (neg a))
  obtain ⟨-, r, hr, hb⟩ := handle2_copy hφ hs hF0 a b
  by_cases h1 : 0 < dot (cross (cross (sub b a) (sub c a)) (sub c a)) (neg a)
  · rw [if_pos h1, if_pos (e1.mpr h1)]
    by_cases h2 : 0 < dot (sub c a) (neg a)
    · rw [if_pos h2, if_pos (e2.mpr h2)]
      exact ⟨rfl, _, by positivity, rfl⟩
    · rw [if_neg h2, if_neg (fun h' => h2 (e2.mp h'))]
      exact ⟨rfl, r, hr, hb⟩
  · rw [if_neg h1, if_neg (fun h' => h1 (e1.mp h'))]
    by_cases h3 : 0 < dot (cross (sub b a) (cross (sub b a) (sub c a))) (neg a)
    · rw [if_pos h3, if_pos (e3.mpr h3)]
      exact ⟨rfl, r, hr, hb⟩
    · rw [if_neg h3, if_neg (fun h' => h3 (e3.mp h'))]
      by_cases h4 : 0 < dot (cross (sub b a) (sub c a)) (neg a)
      · rw [if_pos h4, if_pos (e4.mpr h4)]
        exact ⟨rfl, _, by positivity, rfl⟩
      · rw [if_neg h4, if_neg (fun h' => h4 (e4.mp h'))]
        exact ⟨rfl, _, by positivity, rfl⟩

/-- Corresponding outcomes. -/
def CopyO (φ : R →+* K) (s : K) : Out K → Out R → Prop
  | .raised, .raised => True
  | .hit, .hit => True
  | .goes l d, .goes l' d' => Copy φ s (l, d) (l', d')
  | _, _ => False

theorem handle4_copy (hφ : StrictMono φ) (hs : 0 < s) (hF0 : Fine φ s tol0) (e c b a : V R) :
    CopyO φ s (handle4 tol0 (scaled φ s e) (scaled φ s c) (scaled φ s b) (scaled φ s a)) (handle4 0 e c b a) := by
  unfold handle4
  dsimp only
  simp only [sub_scaled, neg_scaled, cross_scaled, dot_scaled]
  have q := fun x : R => test_iff hφ (le_refl 0) (c := s * s * s) (by positivity)
    (fun x hx => lt_of_le_of_lt hF0.nonneg (hF0.three x hx)) x
  simp only [q]
  split_ifs
  · exact ⟨rfl, (handle3_copy hφ hs hF0 hF0 a b c).2⟩
  · exact ⟨rfl, (handle3_copy hφ hs hF0 hF0 a b e).2⟩
  · exact ⟨rfl, (handle3_copy hφ hs hF0 hF0 a c e).2⟩
  · trivial

theorem handleSimplex_copy (hφ : StrictMono φ) (hs : 0 < s) (hF0 : Fine φ s tol0) (hF : Fine φ s tol) (l : List (V R)) :
    CopyO φ s (handleSimplex tol0 tol (l.map (scaled φ s))) (handleSimplex 0 0 l) := by
  rcases l with _ | ⟨x, _ | ⟨y, _ | ⟨z, _ | ⟨w, _ | ⟨u, l⟩⟩⟩⟩⟩
  · trivial
  · trivial
  · exact handle2_copy hφ hs hF x y
  · exact handle3_copy hφ hs hF0 hF x y z
  · exact handle4_copy hφ hs hF0 x y z w
  · trivial

theorem plainLoop_copy (hφ : StrictMono φ) (hs : 0 < s) (hF0 : Fine φ s tol0) (hF : Fine φ s tol) (vs ws : List (V R)) :
    ∀ (n : Nat) (l : List (V R)) (d : V R) (r : K), 0 < r →
      plainLoop (vs.map (scaled φ s)) (ws.map (scaled φ s)) tol0 tol n (l.map (scaled φ s)) (scaled φ r d) =
        plainLoop vs ws 0 0 n l d
  | 0, _, _, _, _ => rfl
  | n + 1, l, d, r, hr => by
    rw [plainLoop.eq_def, plainLoop.eq_def vs]
    dsimp only
    rw [support_scaled φ hφ hs hr]
    rcases support vs ws d with _ | ⟨p, k⟩
    · rfl
    dsimp only [Option.map_some]
    rw [dot_scaled]
    have e : s * r * φ (dot p d) < 0 ↔ dot p d < 0 := by
      have h := test_iff hφ (le_refl 0) (mul_pos hs hr)
        (fun x hx => mul_pos (mul_pos hs hr) (by have := hφ hx; rwa [map_zero] at this))
        (-(dot p d))
      rw [map_neg, mul_neg] at h
      rw [← neg_pos, h, neg_pos]
    by_cases hd : dot p d < 0
    · rw [if_pos hd, if_pos (e.mpr hd)]
    · rw [if_neg hd, if_neg (fun h' => hd (e.mp h'))]
      have e2 : l.map (scaled φ s) ++ [scaled φ s p] = (l ++ [p]).map (scaled φ s) := by simp
      rw [e2]
      have h := handleSimplex_copy hφ hs hF0 hF (l ++ [p])
      rcases h1 : handleSimplex tol0 tol ((l ++ [p]).map (scaled φ s)) with _ | _ | ⟨l1, d1⟩ <;>
        rcases h2 : handleSimplex 0 0 (l ++ [p]) with _ | _ | ⟨l2, d2⟩ <;> rw [h1, h2] at h <;> first | rfl | exact h.elim | skip
      obtain ⟨ha, r', hr', hb⟩ := h
      dsimp only at ha hb ⊢
      rw [ha, hb]
      exact plainLoop_copy hφ hs hF0 hF vs ws n l2 d2 r' hr'

theorem verdict_copy (hφ : StrictMono φ) (hs : 0 < s) (hF0 : Fine φ s tol0) (hF : Fine φ s tol) (vs ws : List (V R)) (m : Nat)
    (h1 : vs ≠ []) (h2 : ws ≠ []) :
    verdict (vs.map (scaled φ s)) (ws.map (scaled φ s)) tol0 tol m = verdict vs ws 0 0 m := by
  obtain ⟨p, k, e1, e2⟩ := verdict_eq vs ws 0 0 (le_refl _) m h1 h2
  obtain ⟨p', k', e3, e4⟩ := verdict_eq (vs.map (scaled φ s)) (ws.map (scaled φ s)) tol0 tol hF.nonneg m
    (by simpa using h1) (by simpa using h2)
  have e5 : (⟨1, 0, 0⟩ : V K) = scaled φ 1 ⟨1, 0, 0⟩ := by simp [scaled]
  rw [e5, support_scaled φ hφ hs one_pos, e1] at e3
  simp only [Option.map_some, Option.some.injEq, Prod.mk.injEq] at e3
  rw [e2, e4, ← e3.1, neg_scaled]
  have := plainLoop_copy hφ hs hF0 hF vs ws m [p] (neg p) s hs
  rw [← this]
  rfl

end sim

/-! ## The cycle -/

/-- Five points around the origin. -/
def cycPoints : List (V ℤ) := [⟨2, 2, 2⟩, ⟨-2, 0, 1⟩, ⟨0, -2, 1⟩, ⟨2, 1, -1⟩, ⟨-1, 1, -1⟩]

/-- The origin. -/
def origin : List (V ℤ) := [⟨0, 0, 0⟩]

/-- The states the search goes through: three rounds, then a cycle of three. -/
def cycState : Nat → List (V ℤ) × V ℤ
  | 0 => ([⟨2, 2, 2⟩], ⟨-2, -2, -2⟩)
  | 1 => ([⟨2, 2, 2⟩, ⟨-2, 0, 1⟩], ⟨14, -14, -28⟩)
  | 2 => ([⟨2, 2, 2⟩, ⟨-2, 0, 1⟩, ⟨2, 1, -1⟩], ⟨2, -10, -1⟩)
  | 3 => ([⟨2, 2, 2⟩, ⟨2, 1, -1⟩, ⟨0, -2, 1⟩], ⟨-11, 6, -2⟩)
  | 4 => ([⟨2, 2, 2⟩, ⟨0, -2, 1⟩, ⟨-2, 0, 1⟩], ⟨2, 2, -12⟩)
  | 5 => ([⟨2, 2, 2⟩, ⟨-2, 0, 1⟩, ⟨2, 1, -1⟩], ⟨5, -12, 4⟩)
  | n + 6 => cycState (n + 3)

/-- One round that goes on. -/
def goesTo (vs ws : List (V ℤ)) (st st' : List (V ℤ) × V ℤ) : Prop :=
  ∃ p k, support vs ws st.2 = some (p, k) ∧ ¬ dot p st.2 < 0 ∧ handleSimplex 0 0 (st.1 ++ [p]) = .goes st'.1 st'.2

theorem plainLoop_step (vs ws : List (V ℤ)) (n : Nat) (st st' : List (V ℤ) × V ℤ) (h : goesTo vs ws st st') :
    plainLoop vs ws 0 0 (n + 1) st.1 st.2 = plainLoop vs ws 0 0 n st'.1 st'.2 := by
  obtain ⟨p, k, h1, h2, h3⟩ := h
  rw [plainLoop.eq_def]
  dsimp only
  rw [h1]
  dsimp only
  rw [if_neg h2, h3]

theorem cycState_step (n : Nat) : goesTo cycPoints origin (cycState n) (cycState (n + 1)) := by
  induction n using Nat.strong_induction_on with
  | _ n ih =>
    rcases Nat.lt_or_ge n 6 with h | h
    · have : n = 0 ∨ n = 1 ∨ n = 2 ∨ n = 3 ∨ n = 4 ∨ n = 5 := by omega
      rcases this with rfl | rfl | rfl | rfl | rfl | rfl
      · exact ⟨⟨-2, 0, 1⟩, 1, by decide, by decide, by rfl⟩
      · exact ⟨⟨2, 1, -1⟩, 3, by decide, by decide, by rfl⟩
      · exact ⟨⟨0, -2, 1⟩, 2, by decide, by decide, by rfl⟩
      · exact ⟨⟨-2, 0, 1⟩, 1, by decide, by decide, by rfl⟩
      · exact ⟨⟨2, 1, -1⟩, 3, by decide, by decide, by rfl⟩
      · exact ⟨⟨0, -2, 1⟩, 2, by decide, by decide, by rfl⟩
    · obtain ⟨k, rfl⟩ : ∃ k, n = k + 6 := ⟨n - 6, by omega⟩
      have e1 : cycState (k + 6) = cycState (k + 3) := rfl
      have e2 : cycState (k + 6 + 1) = cycState (k + 3 + 1) := rfl
      rw [e1, e2]
      exact ih (k + 3) (by omega)

theorem cyc_loop (n : Nat) : ∀ k, plainLoop cycPoints origin 0 0 n (cycState k).1 (cycState k).2 = .exhausted := by
  induction n with
  | zero => intro k; rfl
  | succ n ih =>
    intro k
    rw [plainLoop_step _ _ n _ _ (cycState_step k)]
    exact ih (k + 1)

theorem cyc_verdict (m : Nat) : verdict cycPoints origin 0 0 m = .exhausted := by
  obtain ⟨p, k, e1, e2⟩ := verdict_eq cycPoints origin 0 0 (le_refl _) m (by decide) (by decide)
  have : support cycPoints origin ⟨1, 0, 0⟩ = some (⟨2, 2, 2⟩, 0) := by decide
  rw [this] at e1
  simp only [Option.some.injEq, Prod.mk.injEq] at e1
  rw [e2, ← e1.1]
  exact cyc_loop _ 0

/-! ## A wrong collision -/

/-- Five points on one side of a plane through the origin. -/
def farPoints : List (V ℤ) := [⟨2, 4, 0⟩, ⟨1, 1, -1⟩, ⟨-1, 0, 0⟩, ⟨-1, 3, 2⟩, ⟨0, 1, 1⟩]

theorem far_loop (n : Nat) : plainLoop farPoints origin 0 0 (n + 4) [⟨2, 4, 0⟩] ⟨-2, -4, 0⟩ = .collide := by
  have h1 : goesTo farPoints origin ([⟨2, 4, 0⟩], ⟨-2, -4, 0⟩) ([⟨2, 4, 0⟩, ⟨-1, 0, 0⟩], ⟨16, -12, 0⟩) :=
    ⟨⟨-1, 0, 0⟩, 2, by decide, by decide, by rfl⟩
  have h2 : goesTo farPoints origin ([⟨2, 4, 0⟩, ⟨-1, 0, 0⟩], ⟨16, -12, 0⟩) ([⟨2, 4, 0⟩, ⟨-1, 0, 0⟩, ⟨1, 1, -1⟩], ⟨2, -2, 2⟩) :=
    ⟨⟨1, 1, -1⟩, 1, by decide, by decide, by rfl⟩
  have h3 : goesTo farPoints origin ([⟨2, 4, 0⟩, ⟨-1, 0, 0⟩, ⟨1, 1, -1⟩], ⟨2, -2, 2⟩)
      ([⟨2, 4, 0⟩, ⟨1, 1, -1⟩, ⟨0, 1, 1⟩], ⟨6, -3, 3⟩) := ⟨⟨0, 1, 1⟩, 4, by decide, by decide, by rfl⟩
  rw [plainLoop_step _ _ (n + 3) _ _ h1, plainLoop_step _ _ (n + 2) _ _ h2, plainLoop_step _ _ (n + 1) _ _ h3, plainLoop.eq_def]
  dsimp only
  have e : support farPoints origin (⟨6, -3, 3⟩ : V ℤ) = some (⟨2, 4, 0⟩, 0) := by decide
  rw [e]
  rfl

theorem far_verdict (n : Nat) : verdict farPoints origin 0 0 (n + 4) = .collide := by
  obtain ⟨p, k, e1, e2⟩ := verdict_eq farPoints origin 0 0 (le_refl _) (n + 4) (by decide) (by decide)
  have : support farPoints origin ⟨1, 0, 0⟩ = some (⟨2, 4, 0⟩, 0) := by decide
  rw [this] at e1
  simp only [Option.some.injEq, Prod.mk.injEq] at e1
  rw [e2, ← e1.1]
  exact far_loop n

section field
variable {K : Type} [Field K] [LinearOrder K] [IsStrictOrderedRing K]

/-- **C395 (lattice).** For vertices on a lattice with spacing `s ≥ 1` all tolerances below 1 give the answer of exact integer
arithmetic with tolerance 0. -/
theorem C395_lattice (s tol0 tol : K) (hs : 1 ≤ s) (g0 : 0 ≤ tol0) (g1 : tol0 < 1) (h0 : 0 ≤ tol) (h1 : tol < 1) (vs ws : List (V ℤ))
    (m : Nat) (hv : vs ≠ []) (hw : ws ≠ []) : gjk (lattice s vs) (lattice s ws) tol0 tol m = gjk vs ws 0 0 m := by
  have hs0 : 0 < s := lt_of_lt_of_le one_pos hs
  have hx : ∀ x : ℤ, 0 < x → (1 : K) ≤ (x : K) := by
    intro x hx
    have : (1 : ℤ) ≤ x := hx
    exact_mod_cast this
  have h2 : 1 ≤ s * s := by nlinarith
  have h3 : 1 ≤ s * s * s := by nlinarith
  have h4 : 1 ≤ s * s * s * s := by nlinarith
  have fine : ∀ t : K, 0 ≤ t → t < 1 → Fine (Int.castRingHom K) s t := fun t a b =>
    ⟨a, fun x hx' => by have := hx x hx'; simp only [eq_intCast]; nlinarith,
      fun x hx' => by have := hx x hx'; simp only [eq_intCast]; nlinarith,
      fun x hx' => by have := hx x hx'; simp only [eq_intCast]; nlinarith⟩
  have h := verdict_copy (φ := Int.castRingHom K) (s := s) (fun a b hab => by simpa using hab) hs0 (fine tol0 g0 g1) (fine tol h0 h1)
    vs ws m hv hw
  unfold gjk
  rw [← h]
  rfl

/-- **C396.** When the search stops because the new point does not pass the origin, the hulls have no common point.  No assumption on
the tolerances. -/
theorem C396_apart_partial (vs ws : List (V K)) (tol0 tol : K) (m : Nat) (h : verdict vs ws tol0 tol m = .apart) :
    (∃ d, ∀ v ∈ vs, ∀ w ∈ ws, dot v d < dot w d) ∧ ¬ Meet vs ws := by
  have key : ∀ (n : Nat) (s : List (V K)) (d : V K) (cache : Nat → Option (V K)),
      loop vs ws tol0 tol n s d cache = .apart → vs ≠ [] ∧ ∃ d, ∀ v ∈ vs, ∀ w ∈ ws, dot v d < dot w d := by
    intro n
    induction n with
    | zero => intro s d cache h; simp [loop] at h
    | succ n ih =>
      intro s d cache h
      rw [loop.eq_def] at h
      dsimp only at h
      rcases e : support vs ws d with _ | ⟨p, k⟩
      · rw [e] at h; simp at h
      · rw [e] at h
        dsimp only at h
        split_ifs at h with h1 h2
        · obtain ⟨i, j, hi, hj, -, -, h4⟩ := support_spec vs ws d p k e
          refine ⟨by rintro rfl; simp at hi, d, fun v hv w hw => ?_⟩
          have := h4 v hv w hw
          rw [dot_sub] at this
          linarith
        · rcases e2 : handleSimplex tol0 tol (s ++ [p]) with _ | _ | ⟨s', d'⟩
          · rw [e2] at h; simp at h
          · rw [e2] at h; simp at h
          · rw [e2] at h
            exact ih _ _ _ h
  unfold verdict at h
  rcases e : support vs ws ⟨1, 0, 0⟩ with _ | ⟨p, k⟩
  · rw [e] at h; simp at h
  · rw [e] at h
    obtain ⟨hne, d, hd⟩ := key _ _ _ _ h
    exact ⟨⟨d, hd⟩, not_meet_of_plane hne d hd⟩

/-- So for tolerances that are not negative: hulls that meet are reported, or the rounds run out. -/
theorem C396_meet_partial (vs ws : List (V K)) (tol0 tol : K) (ht : 0 ≤ tol) (m : Nat) (h1 : vs ≠ []) (h2 : ws ≠ [])
    (hM : Meet vs ws) : gjk vs ws tol0 tol m = some true ∨ verdict vs ws tol0 tol m = .exhausted := by
  rcases (C395_answers vs ws tol0 tol ht m h1 h2).2 with e | e | e
  · left; unfold gjk; rw [e]; rfl
  · exact absurd hM (C396_apart_partial vs ws tol0 tol m e).2
  · exact Or.inr e

example : gjk [⟨0, 0, 0⟩, ⟨2, 0, 0⟩, ⟨0, 2, 0⟩, ⟨0, 0, 2⟩] [⟨1, 1, 1⟩, ⟨0, 0, 1⟩, ⟨-1, 1, 1⟩, ⟨1, -1, 1⟩]
    (1 / 1000000 : ℚ) (1 / 1000000) 50 = some true := by decide +kernel

example : verdict [⟨0, 0, 0⟩, ⟨1, 0, 0⟩, ⟨0, 1, 0⟩, ⟨0, 0, 1⟩] [⟨1, 1, 0⟩, ⟨1, 0, 1⟩, ⟨0, 1, 1⟩, ⟨1, 1, 1⟩]
    (1 / 1000000 : ℚ) (1 / 1000000) 50 = .apart := by decide +kernel

/-- **C396 refuted (no collision).** For every unit of length `s ≥ 1`, all tolerances in `[0, 1)` and every number of rounds the answer
for five points around the origin and the origin is "no collision": the search comes back to a simplex and a direction it has had.  The
C++ version gives "collision". -/
theorem C396_cycle_refuted (s tol0 tol : K) (hs : 1 ≤ s) (g0 : 0 ≤ tol0) (g1 : tol0 < 1) (h0 : 0 ≤ tol) (h1 : tol < 1) (m : Nat) :
    Meet (lattice s cycPoints) (lattice s origin) ∧ gjk (lattice s cycPoints) (lattice s origin) tol0 tol m = some false ∧
      Gjk.gjk (lattice s cycPoints) (lattice s origin) tol 25 = some true := by
  have hc : Gjk.verdict cycPoints origin 0 25 = some .collide := by decide
  refine ⟨?_, ?_, ?_⟩
  · apply C161_collide _ _ 25
    unfold Gjk.gjk
    rw [C164_lattice s 0 hs (le_refl _) one_pos, hc]
    rfl
  · rw [C395_lattice s tol0 tol hs g0 g1 h0 h1 _ _ _ (by decide) (by decide)]
    unfold gjk
    rw [cyc_verdict]
    rfl
  · unfold Gjk.gjk
    rw [C164_lattice s tol hs h0 h1, hc]
    rfl

/-- **C396 refuted (collision).** For every unit of length `s ≥ 1`, all tolerances in `[0, 1)` and four rounds or more the answer for
five points strictly on one side of a plane through the origin and the origin is "collision".  The C++ version gives "no collision". -/
theorem C396_collision_refuted (s tol0 tol : K) (hs : 1 ≤ s) (g0 : 0 ≤ tol0) (g1 : tol0 < 1) (h0 : 0 ≤ tol) (h1 : tol < 1) (m : Nat)
    (hm : 4 ≤ m) :
    ¬ Meet (lattice s farPoints) (lattice s origin) ∧ gjk (lattice s farPoints) (lattice s origin) tol0 tol m = some true ∧
      Gjk.gjk (lattice s farPoints) (lattice s origin) tol 25 = some false := by
  have hs0 : 0 < s := lt_of_lt_of_le one_pos hs
  obtain ⟨n, rfl⟩ : ∃ n, m = n + 4 := ⟨m - 4, by omega⟩
  refine ⟨?_, ?_, ?_⟩
  · refine not_meet_of_plane (by simp [lattice, farPoints]) ⟨2, -2, 1⟩ ?_
    intro v hv w hw
    simp only [lattice, farPoints, origin, List.map_cons, List.map_nil, List.mem_cons, List.not_mem_nil, or_false] at hv hw
    subst hw
    rcases hv with rfl | rfl | rfl | rfl | rfl <;> simp only [dot] <;> push_cast <;> linarith
  · rw [C395_lattice s tol0 tol hs g0 g1 h0 h1 _ _ _ (by decide) (by decide)]
    unfold gjk
    rw [far_verdict]
    rfl
  · unfold Gjk.gjk
    rw [C164_lattice s tol hs h0 h1]
    decide

end field
end Verif.Gjk.Py
