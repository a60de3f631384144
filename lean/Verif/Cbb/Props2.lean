import Verif.Cbb.Props
import Mathlib.Algebra.Polynomial.Roots
import Mathlib.Tactic.FieldSimp
import Mathlib.Tactic.Ring
import Mathlib.Order.Interval.Set.Infinite
import Mathlib.Tactic.LinearCombination

/-! # C416, C417: bounding boxes of curves by the search on all coordinates at once and by sampling -/

set_option linter.unusedSectionVars false

namespace Verif.Cbb
open Aabb

variable {K : Type} [Field K] [LinearOrder K] [IsStrictOrderedRing K]

theorem width_step {l h w : K} (e : h - l = w) (m : Prop) [Decidable m] :
    (if m then h - (h - l) / 4 else h) - (if m then l else l + (h - l) / 4) = w * (3 / 4) := by
  split_ifs <;> linear_combination (3 / 4) * e

/-- The search on three coordinates in lockstep is three searches. -/
theorem bound2_spec (tol sg : K) (c : K → Pt K) (k : Nat) : ∀ (low high lo hi : Pt K) (w : K), 0 ≤ w →
    (∀ i < 3, high i - low i = w) → bound2Loop tol sg c k low high = some (lo, hi) →
    ∀ i < 3, (DnC.minIter (fun t => sg * c t i) tol k (low i) (high i)).map Prod.fst = some ((lo i + hi i) / 2) ∧
      low i ≤ lo i ∧ hi i ≤ high i ∧ (0 < w → lo i < hi i) ∧ lo i ≤ hi i := by
  induction k with
  | zero => intro low high lo hi w _ _ h; simp [bound2Loop] at h
  | succ k ih =>
    intro low high lo hi w hw hwi h i hi3
    rw [bound2Loop] at h
    rw [DnC.minIter]
    by_cases hc : ∀ i < 3, tol ≤ |high i - low i|
    · rw [if_pos hc] at h
      rw [if_pos (hc i hi3)]
      dsimp only at h ⊢
      have := ih _ _ lo hi (w * (3 / 4)) (by positivity) (fun j hj => width_step (hwi j hj) _) h i hi3
      obtain ⟨e1, e2, e3, e4, e5⟩ := this
      have hwi' := hwi i hi3
      by_cases hm : sg * c (low i + (high i - low i) / 4) i < sg * c (high i - (high i - low i) / 4) i
      · simp only [hm, decide_true, if_true] at e1 e2 e3 ⊢
        exact ⟨e1, e2, by linarith, fun h0 => e4 (by positivity), e5⟩
      · simp only [hm, decide_false, Bool.false_eq_true, if_false] at e1 e2 e3 ⊢
        exact ⟨e1, by linarith, e3, fun h0 => e4 (by positivity), e5⟩
    · rw [if_neg hc] at h
      have : ¬ |high i - low i| ≥ tol := by
        intro hge
        exact hc fun j hj => by rw [hwi j hj, ← hwi i hi3]; exact hge
      rw [if_neg this]
      injection h with h
      injection h with h1 h2
      subst h1 h2
      refine ⟨rfl, le_rfl, le_rfl, fun h0 => ?_, ?_⟩ <;> linarith [hwi i hi3]

theorem bound2_some (tol sg : K) (c : K → Pt K) (k : Nat) : ∀ (low high : Pt K) (w : K), 0 ≤ w →
    (∀ i < 3, high i - low i = w) → w * (3 / 4) ^ k < tol →
    ∃ p, bound2Loop tol sg c (k + 1) low high = some p := by
  induction k with
  | zero =>
    intro low high w hw hwi h
    rw [bound2Loop, if_neg]
    · exact ⟨_, rfl⟩
    · intro hc
      have := hc 0 (by omega)
      rw [hwi 0 (by omega), abs_of_nonneg hw] at this
      simp at h
      linarith
  | succ k ih =>
    intro low high w hw hwi h
    rw [bound2Loop]
    split_ifs with hc
    · dsimp only
      exact ih _ _ (w * (3 / 4)) (by positivity) (fun j hj => width_step (hwi j hj) _) (by rw [pow_succ'] at h; linarith)
    · exact ⟨_, rfl⟩

theorem minRow_spec {l : List (Pt K)} {m : Pt K} (h : minRow l = some m) (i : Nat) :
    (∀ q ∈ l, m i ≤ q i) ∧ ∃ q ∈ l, m i = q i := by
  cases l with
  | nil => simp [minRow] at h
  | cons p l =>
    rw [minRow] at h
    injection h with h
    subst h
    induction l generalizing p with
    | nil => simp
    | cons q l ih =>
      obtain ⟨h1, r, hr, h2⟩ := ih (fun i => min (p i) (q i))
      rw [List.foldl_cons]
      have h0 := h1 _ List.mem_cons_self
      refine ⟨fun s hs => ?_, ?_⟩
      · rcases List.mem_cons.1 hs with rfl | hs
        · exact h0.trans (min_le_left _ _)
        · rcases List.mem_cons.1 hs with rfl | hs
          · exact h0.trans (min_le_right _ _)
          · exact h1 _ (List.mem_cons_of_mem _ hs)
      · rcases List.mem_cons.1 hr with rfl | hr
        · rcases min_choice (p i) (q i) with e | e
          · exact ⟨p, by simp, h2.trans e⟩
          · exact ⟨q, by simp, h2.trans e⟩
        · exact ⟨r, by simp [hr], h2⟩

theorem maxRow_spec {l : List (Pt K)} {m : Pt K} (h : maxRow l = some m) (i : Nat) :
    (∀ q ∈ l, q i ≤ m i) ∧ ∃ q ∈ l, m i = q i := by
  cases l with
  | nil => simp [maxRow] at h
  | cons p l =>
    rw [maxRow] at h
    injection h with h
    subst h
    induction l generalizing p with
    | nil => simp
    | cons q l ih =>
      obtain ⟨h1, r, hr, h2⟩ := ih (fun i => max (p i) (q i))
      rw [List.foldl_cons]
      have h0 := h1 _ List.mem_cons_self
      refine ⟨fun s hs => ?_, ?_⟩
      · rcases List.mem_cons.1 hs with rfl | hs
        · exact (le_max_left _ _).trans h0
        · rcases List.mem_cons.1 hs with rfl | hs
          · exact (le_max_right _ _).trans h0
          · exact h1 _ (List.mem_cons_of_mem _ hs)
      · rcases List.mem_cons.1 hr with rfl | hr
        · rcases max_choice (p i) (q i) with e | e
          · exact ⟨p, by simp, h2.trans e⟩
          · exact ⟨q, by simp, h2.trans e⟩
        · exact ⟨r, by simp [hr], h2⟩

/-- The box of `curve_aabb2` in terms of the parameters found by the six searches. -/
theorem curveAabb2_spec {fuel : Nat} {tol a b : K} {c : K → Pt K} {B : Box K} (hab : a ≤ b)
    (h : curveAabb2 fuel tol c (some (a, b)) = some B) :
    ∃ r s : Nat → K, (∀ i < 3, (a ≤ r i ∧ r i ≤ b ∧ (a < b → a < r i ∧ r i < b)) ∧ (a ≤ s i ∧ s i ≤ b ∧ (a < b → a < s i ∧ s i < b)) ∧
        (DnC.minIter (fun t => 1 * c t i) tol fuel a b).map Prod.fst = some (r i) ∧
        (DnC.minIter (fun t => -1 * c t i) tol fuel a b).map Prod.fst = some (s i)) ∧
      ∀ i < 3, (∀ j < 3, B.lo i ≤ c (r j) i ∧ c (s j) i ≤ B.hi i) ∧
        (∃ j < 3, B.lo i = c (r j) i ∨ B.lo i = c (s j) i) ∧ ∃ j < 3, B.hi i = c (r j) i ∨ B.hi i = c (s j) i := by
  unfold curveAabb2 curveBoundPoints2 at h
  cases h1 : bound2Loop tol 1 c fuel (fun _ => a) (fun _ => b) with
  | none => simp [h1] at h
  | some p =>
    cases h2 : bound2Loop tol (-1) c fuel (fun _ => a) (fun _ => b) with
    | none => simp [h1, h2] at h
    | some q =>
      obtain ⟨l1, u1⟩ := p
      obtain ⟨l2, u2⟩ := q
      have g1 := bound2_spec tol 1 c fuel _ _ l1 u1 (b - a) (by linarith) (fun i _ => rfl) h1
      have g2 := bound2_spec tol (-1) c fuel _ _ l2 u2 (b - a) (by linarith) (fun i _ => rfl) h2
      refine ⟨fun i => (l1 i + u1 i) / 2, fun i => (l2 i + u2 i) / 2, fun i hi => ?_, ?_⟩
      · obtain ⟨e1, e2, e3, e4, e5⟩ := g1 i hi
        obtain ⟨d1, d2, d3, d4, d5⟩ := g2 i hi
        refine ⟨⟨by linarith, by linarith, fun hlt => ?_⟩, ⟨by linarith, by linarith, fun hlt => ?_⟩, e1, d1⟩
        · have := e4 (by linarith)
          exact ⟨by linarith, by linarith⟩
        · have := d4 (by linarith)
          exact ⟨by linarith, by linarith⟩
      · generalize hR : (fun i => (l1 i + u1 i) / 2) = r
        generalize hS : (fun i => (l2 i + u2 i) / 2) = s
        have hR' : ∀ i, (l1 i + u1 i) / 2 = r i := fun i => congrFun hR i
        have hS' : ∀ i, (l2 i + u2 i) / 2 = s i := fun i => congrFun hS i
        simp only [h1, h2, Option.bind_eq_bind, Option.bind_some, Option.pure_def, List.map_cons, List.map_nil, hR', hS'] at h
        cases hlo : minRow [c (r 0), c (r 1), c (r 2)] with
        | none => simp [minRow] at hlo
        | some lo =>
          cases hhi : maxRow [c (s 0), c (s 1), c (s 2)] with
          | none => simp [maxRow] at hhi
          | some hi' =>
            simp only [hlo, hhi, Option.bind_some] at h
            intro i hi
            obtain ⟨f1, f2⟩ := aabb_faces h
            obtain ⟨m1, m2⟩ := minRow_spec hlo i
            obtain ⟨n1, n2⟩ := maxRow_spec hhi i
            have k1 := f1 lo (by simp) i hi
            have k2 := f1 hi' (by simp) i hi
            have m3 : ∃ j < 3, lo i = c (r j) i := by
              obtain ⟨q, hq, e⟩ := m2
              simp only [List.mem_cons, List.not_mem_nil, or_false] at hq
              rcases hq with rfl | rfl | rfl
              · exact ⟨0, by omega, e⟩
              · exact ⟨1, by omega, e⟩
              · exact ⟨2, by omega, e⟩
            have n3 : ∃ j < 3, hi' i = c (s j) i := by
              obtain ⟨q, hq, e⟩ := n2
              simp only [List.mem_cons, List.not_mem_nil, or_false] at hq
              rcases hq with rfl | rfl | rfl
              · exact ⟨0, by omega, e⟩
              · exact ⟨1, by omega, e⟩
              · exact ⟨2, by omega, e⟩
            have hface : ∀ {x : K} {p : Pt K}, p ∈ [lo, hi'] → x = p i → ∃ j < 3, x = c (r j) i ∨ x = c (s j) i := by
              intro x p hp e
              simp only [List.mem_cons, List.not_mem_nil, or_false] at hp
              rcases hp with rfl | rfl
              · obtain ⟨j, hj, e2⟩ := m3; exact ⟨j, hj, Or.inl (e.trans e2)⟩
              · obtain ⟨j, hj, e2⟩ := n3; exact ⟨j, hj, Or.inr (e.trans e2)⟩
            obtain ⟨⟨p, hp, e1⟩, ⟨q, hq, e2⟩⟩ := f2 i hi
            refine ⟨fun j hj => ?_, hface hp e1, hface hq e2⟩
            have h3 : j = 0 ∨ j = 1 ∨ j = 2 := by omega
            rcases h3 with rfl | rfl | rfl
            · exact ⟨k1.1.trans (m1 _ (by simp)), (n1 _ (by simp)).trans k2.2⟩
            · exact ⟨k1.1.trans (m1 _ (by simp)), (n1 _ (by simp)).trans k2.2⟩
            · exact ⟨k1.1.trans (m1 _ (by simp)), (n1 _ (by simp)).trans k2.2⟩

/-- `curve_aabb2` returns for every curve and interval, given bounds. -/
theorem C416_returns [Archimedean K] (c : K → Pt K) (a b tol : K) (hab : a ≤ b) (ht : 0 < tol) :
    ∃ N, ∀ fuel ≥ N, ∃ B, curveAabb2 fuel tol c (some (a, b)) = some B := by
  obtain ⟨n, hn⟩ := DnC.enough (b - a) ht (3 / 4) (by norm_num) (by norm_num)
  refine ⟨n + 1, fun fuel hf => ?_⟩
  obtain ⟨m, rfl⟩ : ∃ m, fuel = m + 1 := ⟨fuel - 1, by omega⟩
  have hn' : (b - a) * (3 / 4) ^ m < tol := by
    refine lt_of_le_of_lt ?_ hn
    have h1 : (3 / 4 : K) ^ m ≤ (3 / 4) ^ n := pow_le_pow_of_le_one (by norm_num) (by norm_num) (by omega)
    exact mul_le_mul_of_nonneg_left h1 (by linarith)
  obtain ⟨p, hp⟩ := bound2_some tol 1 c m (fun _ => a) (fun _ => b) (b - a) (by linarith) (fun _ _ => rfl) hn'
  obtain ⟨q, hq⟩ := bound2_some tol (-1) c m (fun _ => a) (fun _ => b) (b - a) (by linarith) (fun _ _ => rfl) hn'
  simp only [curveAabb2, curveBoundPoints2, hp, hq, Option.bind_eq_bind, Option.bind_some, Option.pure_def, List.map_cons,
    List.map_nil, minRow, maxRow]
  have hbox : ∀ u v : Pt K, ∃ B, aabb 3 [u, v] = some B := fun u v =>
    (C17_aabb_smallest 3 (le_refl 3) [u, v] (List.cons_ne_nil _ _)).imp fun _ h => h.1
  exact hbox _ _

/-- Without bounds (the default) `curve_aabb2` raises for every curve. -/
theorem C416_default_refuted (fuel : Nat) (tol : K) (c : K → Pt K) : curveAabb2 fuel tol c none = none := rfl

/-- Every face of the box is touched by the curve. -/
theorem C416_inside (fuel : Nat) (c : K → Pt K) (a b tol : K) (hab : a ≤ b) (B : Box K)
    (h : curveAabb2 fuel tol c (some (a, b)) = some B) (i : Nat) (hi : i < 3) :
    (∃ t, a ≤ t ∧ t ≤ b ∧ B.lo i = c t i) ∧ ∃ t, a ≤ t ∧ t ≤ b ∧ B.hi i = c t i := by
  obtain ⟨r, s, h1, h2⟩ := curveAabb2_spec hab h
  obtain ⟨_, ⟨j, hj, e⟩, ⟨k, hk, d⟩⟩ := h2 i hi
  obtain ⟨⟨a1, a2, _⟩, ⟨b1, b2, _⟩, _⟩ := h1 j hj
  obtain ⟨⟨c1, c2, _⟩, ⟨d1, d2, _⟩, _⟩ := h1 k hk
  constructor
  · rcases e with e | e
    · exact ⟨r j, a1, a2, e⟩
    · exact ⟨s j, b1, b2, e⟩
  · rcases d with d | d
    · exact ⟨r k, c1, c2, d⟩
    · exact ⟨s k, d1, d2, d⟩

/-- The lower face is right to half the tolerance times the speed in a coordinate that falls and then rises,
the upper one in a coordinate that rises and then falls. -/
theorem C416_partial [Archimedean K] (fuel : Nat) (c : K → Pt K) (a b tol L : K) (ht : 0 < tol) (hL0 : 0 ≤ L)
    (B : Box K) (h : curveAabb2 fuel tol c (some (a, b)) = some B) (i : Nat) (hi : i < 3)
    (hL : ∀ s t, a ≤ s → s ≤ b → a ≤ t → t ≤ b → |c s i - c t i| ≤ L * |s - t|) (xs : K) :
    (DnC.Unimodal (fun t => c t i) a b xs → ∀ t, a ≤ t → t ≤ b → B.lo i - L * (tol / 2) ≤ c t i) ∧
    (DnC.Unimodal (fun t => - c t i) a b xs → ∀ t, a ≤ t → t ≤ b → c t i ≤ B.hi i + L * (tol / 2)) := by
  constructor
  · intro hu t h1 h2
    have hab := h1.trans h2
    obtain ⟨r, s, g1, g2⟩ := curveAabb2_spec hab h
    obtain ⟨⟨r1, r2, _⟩, _, m1, _⟩ := g1 i hi
    simp only [one_mul] at m1
    obtain ⟨x, hx, ex⟩ := Option.map_eq_some_iff.1 m1
    have near := ((DnC.C31_iterative (fun t => c t i) a b xs tol hu ht).2 fuel x hx).2.2.2
    rw [ex] at near
    have l1 := (abs_le.1 (hL (r i) xs r1 r2 hu.left hu.right)).2
    have l2 : L * |r i - xs| ≤ L * (tol / 2) := mul_le_mul_of_nonneg_left near.le hL0
    have u1 := (uni_max hu t h1 h2).1
    have := ((g2 i hi).1 i hi).1
    linarith
  · intro hu t h1 h2
    have hab := h1.trans h2
    obtain ⟨r, s, g1, g2⟩ := curveAabb2_spec hab h
    obtain ⟨_, ⟨r1, r2, _⟩, _, m1⟩ := g1 i hi
    simp only [neg_one_mul] at m1
    obtain ⟨x, hx, ex⟩ := Option.map_eq_some_iff.1 m1
    have near := ((DnC.C31_iterative (fun t => - c t i) a b xs tol hu ht).2 fuel x hx).2.2.2
    rw [ex] at near
    have l1 := (abs_le.1 (hL (s i) xs r1 r2 hu.left hu.right)).1
    have l2 : L * |s i - xs| ≤ L * (tol / 2) := mul_le_mul_of_nonneg_left near.le hL0
    have u1 := (uni_max hu t h1 h2).1
    have := ((g2 i hi).1 i hi).2
    linarith

/-- For every curve with a coordinate that strictly rises or strictly falls, both ends of the curve are outside
the box of `curve_aabb2`. -/
theorem C416_ends_refuted (fuel : Nat) (c : K → Pt K) (a b tol : K) (hab : a < b) (i : Nat) (hi : i < 3)
    (hm : (∀ s t, a ≤ s → s < t → t ≤ b → c s i < c t i) ∨ (∀ s t, a ≤ s → s < t → t ≤ b → c t i < c s i))
    (B : Box K) (h : curveAabb2 fuel tol c (some (a, b)) = some B) : ¬ InBox 3 B (c a) ∧ ¬ InBox 3 B (c b) := by
  obtain ⟨r, s, h1, h2⟩ := curveAabb2_spec hab.le h
  obtain ⟨_, ⟨j, hj, e⟩, ⟨k, hk, d⟩⟩ := h2 i hi
  obtain ⟨⟨a1, a2, a3⟩, ⟨b1, b2, b3⟩, _⟩ := h1 j hj
  obtain ⟨⟨c1, c2, c3⟩, ⟨d1, d2, d3⟩, _⟩ := h1 k hk
  have e' : ∃ t, a < t ∧ t < b ∧ B.lo i = c t i := by
    rcases e with e | e
    · exact ⟨_, (a3 hab).1, (a3 hab).2, e⟩
    · exact ⟨_, (b3 hab).1, (b3 hab).2, e⟩
  have d' : ∃ t, a < t ∧ t < b ∧ B.hi i = c t i := by
    rcases d with d | d
    · exact ⟨_, (c3 hab).1, (c3 hab).2, d⟩
    · exact ⟨_, (d3 hab).1, (d3 hab).2, d⟩
  obtain ⟨t, t1, t2, t3⟩ := e'
  obtain ⟨u, u1, u2, u3⟩ := d'
  rcases hm with m | m
  · exact ⟨fun hc => absurd (hc i hi).1 (not_le.2 (by rw [t3]; exact m a t le_rfl t1 t2.le)),
      fun hc => absurd (hc i hi).2 (not_le.2 (by rw [u3]; exact m u b u1.le u2 le_rfl))⟩
  · exact ⟨fun hc => absurd (hc i hi).2 (not_le.2 (by rw [u3]; exact m a u le_rfl u1 u2.le)),
      fun hc => absurd (hc i hi).1 (not_le.2 (by rw [t3]; exact m t b t1.le t2 le_rfl))⟩

example : (curveAabb2 30 (1 / 10) parab (some (0, 1))).map (fun B => decide (0 < B.lo 0 ∧ B.lo 0 ≤ 1 / 20 ∧ B.hi 0 < 1 ∧
    0 < B.lo 2 ∧ -1 / 4 ≤ B.lo 1 ∧ B.lo 1 ≤ -1 / 5)) = some true := by decide +kernel

/-! ## Sampling -/

theorem lin_mem {a b t : K} {n : Nat} (hn : 2 ≤ n) :
    t ∈ linspace a b n ↔ ∃ i < n, t = a + (i : K) * ((b - a) / ((n : K) - 1)) := by
  rw [linspace, if_neg (by omega)]
  simp only [List.mem_map, List.mem_range]
  exact ⟨fun ⟨i, h, e⟩ => ⟨i, h, e.symm⟩, fun ⟨i, h, e⟩ => ⟨i, h, e.symm⟩⟩

theorem lin_pos {n : Nat} (hn : 2 ≤ n) : (0 : K) < (n : K) - 1 := by
  have : (2 : K) ≤ n := by exact_mod_cast hn
  linarith

theorem lin_ends (a b : K) {n : Nat} (hn : 2 ≤ n) : a ∈ linspace a b n ∧ b ∈ linspace a b n := by
  have h := lin_pos (K := K) hn
  rw [lin_mem hn, lin_mem hn]
  refine ⟨⟨0, by omega, by simp⟩, ⟨n - 1, by omega, ?_⟩⟩
  rw [Nat.cast_sub (by omega), Nat.cast_one]
  field_simp
  ring

theorem lin_range {a b t : K} {n : Nat} (hab : a ≤ b) (h : t ∈ linspace a b n) : a ≤ t ∧ t ≤ b := by
  by_cases h1 : n = 1
  · rw [linspace, if_pos h1] at h
    rw [List.mem_singleton.1 h]; exact ⟨le_rfl, hab⟩
  · by_cases h0 : n = 0
    · subst h0; simp [linspace] at h
    · have hn : 2 ≤ n := by omega
      obtain ⟨i, hi, rfl⟩ := (lin_mem hn).1 h
      have hp := lin_pos (K := K) hn
      have hd : 0 ≤ (b - a) / ((n : K) - 1) := div_nonneg (by linarith) hp.le
      have hi' : (i : K) ≤ (n : K) - 1 := by
        have : (i : K) + 1 ≤ n := by exact_mod_cast hi
        linarith
      have := mul_le_mul_of_nonneg_right hi' hd
      have e : ((n : K) - 1) * ((b - a) / ((n : K) - 1)) = b - a := mul_div_cancel₀ _ hp.ne'
      have h2 := mul_nonneg (Nat.cast_nonneg (α := K) i) hd
      exact ⟨by linarith, by linarith⟩

/-- Every parameter is within half a step of a sample. -/
theorem lin_near {a b t : K} {n : Nat} (hn : 2 ≤ n) (h1 : a ≤ t) (h2 : t ≤ b) :
    ∃ s ∈ linspace a b n, |t - s| ≤ (b - a) / ((n : K) - 1) / 2 := by
  have hp := lin_pos (K := K) hn
  set d := (b - a) / ((n : K) - 1) with hd
  have key : ∀ m : Nat, m < n → t ≤ a + (m : K) * d → ∃ s ∈ linspace a b n, |t - s| ≤ d / 2 := by
    intro m
    induction m with
    | zero =>
      intro _ h
      have hd0 : 0 ≤ d := div_nonneg (by linarith) hp.le
      refine ⟨a, (lin_ends a b hn).1, ?_⟩
      have : t = a := le_antisymm (by simpa using h) h1
      rw [this, sub_self, abs_zero]; linarith
    | succ m ih =>
      intro hm h
      rcases le_total t (a + (m : K) * d) with hle | hle
      · exact ih (by omega) hle
      · push_cast at h
        rcases le_total (t - (a + (m : K) * d)) (d / 2) with hq | hq
        · exact ⟨_, (lin_mem hn).2 ⟨m, by omega, rfl⟩, by rw [abs_of_nonneg (by linarith)]; exact hq⟩
        · refine ⟨_, (lin_mem hn).2 ⟨m + 1, by omega, rfl⟩, ?_⟩
          push_cast
          rw [abs_le]
          exact ⟨by linarith, by linarith⟩
  refine key (n - 1) (by omega) ?_
  rw [Nat.cast_sub (by omega), Nat.cast_one, hd, mul_div_cancel₀ _ hp.ne']
  linarith

/-- The box contains both ends, every face is touched by the curve, and with speed at most `L` the curve leaves the
box by at most half a step times `L`. -/
theorem C417_partial (c : K → Pt K) (a b L : K) (cnt : Nat) (hab : a ≤ b) (hn : 2 ≤ cnt) (hL0 : 0 ≤ L) :
    ∃ B, curveAabbEager c a b cnt = some B ∧ InBox 3 B (c a) ∧ InBox 3 B (c b) ∧
      ∀ i < 3, ((∃ t, a ≤ t ∧ t ≤ b ∧ B.lo i = c t i) ∧ ∃ t, a ≤ t ∧ t ≤ b ∧ B.hi i = c t i) ∧
        ((∀ s t, a ≤ s → s ≤ b → a ≤ t → t ≤ b → |c s i - c t i| ≤ L * |s - t|) → ∀ t, a ≤ t → t ≤ b →
          B.lo i - L * ((b - a) / ((cnt : K) - 1) / 2) ≤ c t i ∧ c t i ≤ B.hi i + L * ((b - a) / ((cnt : K) - 1) / 2)) := by
  obtain ⟨ea, eb⟩ := lin_ends a b hn
  obtain ⟨B, hB, _⟩ := C17_aabb_smallest 3 (le_refl 3) ((linspace a b cnt).map c)
    (fun h => by rw [List.map_eq_nil_iff] at h; rw [h] at ea; cases ea)
  obtain ⟨f1, f2⟩ := aabb_faces hB
  refine ⟨B, hB, f1 _ (List.mem_map.2 ⟨a, ea, rfl⟩), f1 _ (List.mem_map.2 ⟨b, eb, rfl⟩), fun i hi => ⟨?_, ?_⟩⟩
  · obtain ⟨⟨p, hp, e1⟩, ⟨q, hq, e2⟩⟩ := f2 i hi
    obtain ⟨t, ht, rfl⟩ := List.mem_map.1 hp
    obtain ⟨u, hu, rfl⟩ := List.mem_map.1 hq
    exact ⟨⟨t, (lin_range hab ht).1, (lin_range hab ht).2, e1⟩, ⟨u, (lin_range hab hu).1, (lin_range hab hu).2, e2⟩⟩
  · intro hL t h1 h2
    obtain ⟨s, hs, hd⟩ := lin_near hn h1 h2
    have hr := lin_range hab hs
    have g := abs_le.1 (hL t s h1 h2 hr.1 hr.2)
    have g2 := mul_le_mul_of_nonneg_left hd hL0
    have g3 := f1 _ (List.mem_map.2 ⟨s, hs, rfl⟩) i hi
    exact ⟨by linarith [g.1, g3.1], by linarith [g.2, g3.2]⟩

/-- Exact for curves whose coordinates each rise or fall all the way. -/
theorem C417_monotone (c : K → Pt K) (a b : K) (cnt : Nat) (hn : 2 ≤ cnt)
    (hm : ∀ i < 3, (∀ s t, a ≤ s → s ≤ t → t ≤ b → c s i ≤ c t i) ∨ (∀ s t, a ≤ s → s ≤ t → t ≤ b → c t i ≤ c s i))
    (B : Box K) (h : curveAabbEager c a b cnt = some B) (t : K) (h1 : a ≤ t) (h2 : t ≤ b) : InBox 3 B (c t) := by
  obtain ⟨B', hB, ha, hb, _⟩ := C417_partial c a b 0 cnt (h1.trans h2) hn le_rfl
  rw [hB] at h
  cases h
  intro i hi
  rcases hm i hi with m | m
  · exact ⟨(ha i hi).1.trans (m a t le_rfl h1 h2), (m t b h1 h2 le_rfl).trans (hb i hi).2⟩
  · exact ⟨(hb i hi).1.trans (m t b h1 h2 le_rfl), (m a t le_rfl h1 h2).trans (ha i hi).2⟩

/-- Whatever the number of samples, some polynomial curve leaves its box by any given height. -/
theorem C417_refuted (a b M : K) (hab : a < b) (cnt : Nat) (hn : 1 ≤ cnt) :
    ∃ p : Polynomial K, (∃ t, a ≤ t ∧ t ≤ b ∧ p.eval t = M) ∧
      ∃ B, curveAabbEager (fun t i => if i = 0 then p.eval t else 0) a b cnt = some B ∧
        ∀ i < 3, B.lo i = 0 ∧ B.hi i = 0 := by
  -- a parameter that is not a sample
  obtain ⟨t, t1, t2, t3⟩ : ∃ t, a ≤ t ∧ t ≤ b ∧ t ∉ linspace a b cnt := by
    by_contra hc
    push Not at hc
    have hinf : (Set.Icc a b).Infinite := Set.Icc_infinite hab
    refine hinf ((linspace a b cnt).finite_toSet.subset fun t ht => ?_)
    exact hc t ht.1 ht.2
  set q : Polynomial K := ((linspace a b cnt).map fun s => Polynomial.X - Polynomial.C s).prod with hq
  have hev : ∀ u, q.eval u = ((linspace a b cnt).map fun s => u - s).prod := by
    intro u
    rw [hq, Polynomial.eval_list_prod, List.map_map]
    congr 1
    apply List.map_congr_left
    intro s _
    simp
  have hne : q.eval t ≠ 0 := by
    rw [hev]
    intro h0
    rw [List.prod_eq_zero_iff] at h0
    obtain ⟨s, hs, e⟩ := List.mem_map.1 h0
    exact t3 (by rw [sub_eq_zero.1 e]; exact hs)
  refine ⟨Polynomial.C (M / q.eval t) * q, ⟨t, t1, t2, by simp [hne]⟩, ?_⟩
  obtain ⟨B, h, _⟩ := C17_aabb_smallest 3 (le_refl 3) ((linspace a b cnt).map
      fun u i => if i = 0 then (Polynomial.C (M / q.eval t) * q).eval u else 0) (fun h => by
    rw [List.map_eq_nil_iff] at h
    have := congrArg List.length h
    unfold linspace at this
    split_ifs at this <;> simp at this
    omega)
  refine ⟨B, h, fun i hi => ?_⟩
  obtain ⟨_, f2⟩ := aabb_faces h
  have hz : ∀ s ∈ linspace a b cnt, (Polynomial.C (M / q.eval t) * q).eval s = 0 := by
    intro s hs
    have : q.eval s = 0 := by
      rw [hev, List.prod_eq_zero_iff]
      exact List.mem_map.2 ⟨s, hs, sub_self s⟩
    simp [this]
  obtain ⟨⟨p, hp, e1⟩, ⟨r, hr, e2⟩⟩ := f2 i hi
  obtain ⟨u, hu, rfl⟩ := List.mem_map.1 hp
  obtain ⟨v, hv, rfl⟩ := List.mem_map.1 hr
  rw [e1, e2]
  dsimp only
  rw [hz u hu, hz v hv, ite_self]
  exact ⟨rfl, rfl⟩

/-- With one sample the box is the start point; with none there is no box. -/
theorem C417_few (c : K → Pt K) (a b : K) :
    (∃ B, curveAabbEager c a b 1 = some B ∧ ∀ i < 3, B.lo i = c a i ∧ B.hi i = c a i) ∧ curveAabbEager c a b 0 = none := by
  constructor
  · obtain ⟨B, hB, _⟩ := C17_aabb_smallest 3 (le_refl 3) [c a] (List.cons_ne_nil _ _)
    obtain ⟨_, f2⟩ := aabb_faces hB
    refine ⟨B, by simpa [curveAabbEager, linspace] using hB, fun i hi => ?_⟩
    simpa using f2 i hi
  · simp [curveAabbEager, linspace, aabb, caabb]

example : (curveAabbEager parab 0 1 8).map (fun B => decide ((B.lo 0, B.hi 0) = (0, 1) ∧ B.lo 1 = -12 / 49)) = some true := by
  decide +kernel

end Verif.Cbb
