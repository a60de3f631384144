import Verif.Gm.Props
import Verif.Ccx.Lemmas
import Mathlib.Data.Rat.Defs

/-! # Gauss maps: separation, subdivision, flatness (C231 – C235) -/

set_option linter.unusedSectionVars false

namespace Verif.Gm

open Finset
open Verif.Bez
open Verif.Mol (V)
open Verif.Ccx (Box aabbOverlap In)

/-! ## C231: degenerate edges -/

theorem evalBezier_zero (A : Arr ℝ) (hn : 0 < A.n) (hm : 0 < A.m) (d : ℕ) : evalBezier A 0 0 d = A.get 0 0 d := by
  rw [evalBezier_eq]
  rw [sum_eq_single 0, sum_eq_single 0]
  · simp [bern]
  · intro j _ hj
    simp [bern, hj]
  · intro h
    exact absurd (mem_range.2 hm) h
  · intro i _ hi
    apply sum_eq_zero
    intro j _
    simp [bern, hi]
  · intro h
    exact absurd (mem_range.2 hn) h

theorem su_corner (P : Arr ℝ) (hn : 2 ≤ P.n) (hn' : P.n ≤ 31) (hm : 1 ≤ P.m) (hm' : P.m ≤ 31) (d : ℕ) (h : P.get 1 0 d = P.get 0 0 d) :
    su P 0 0 d = 0 := by
  let g : ℕ → ℝ := fun _ => 0
  have e : ∀ x y e, evalMonomial (bezierToMonomial g P) x y e = evalBezier P x y e := fun x y e => Bez.C40_evaluate g P hn' hm' x y e
  have hu : su P 0 0 d = evalMonomial (Bez.partialU (bezierToMonomial g P)) 0 0 d := by
    unfold su
    rw [← (Bez.C114_derivatives (bezierToMonomial g P) 0 0 d).1.deriv]
    simp only [e]
  rw [hu]
  have h1 : evalMonomial (Bez.partialU (bezierToMonomial g P)) 0 0 d = (bezierToMonomial g P).get 1 0 d := by
    unfold evalMonomial
    rw [sum_eq_single 0, sum_eq_single 0]
    · simp [partialU]
    · intro j _ hj
      simp [hj]
    · intro hh
      exact absurd (mem_range.2 (show 0 < P.m by omega)) hh
    · intro i _ hi
      apply sum_eq_zero
      intro j _
      simp [hi]
    · intro hh
      exact absurd (mem_range.2 (show 0 < P.n - 1 by omega)) hh
  rw [h1]
  unfold bezierToMonomial
  dsimp only
  rw [sum_eq_single 0]
  · have h2 : ∑ a ∈ range P.n, bpmat g (P.n - 1) 1 a * P.get a 0 d = 0 := by
      obtain ⟨k, hk⟩ : ∃ k, P.n = k + 2 := ⟨P.n - 2, by omega⟩
      rw [hk, sum_range_succ', sum_range_succ']
      rw [sum_eq_zero, zero_add, h]
      · rw [← add_mul]
        have : bpmat g (k + 2 - 1) 1 (0 + 1) + bpmat g (k + 2 - 1) 1 0 = 0 := by
          unfold bpmat
          rw [if_pos (by omega), if_pos (by omega), Bez.C113_table g 1 (0 + 1) (by omega) (by omega), Bez.C113_table g 1 0 (by omega) (by omega)]
          norm_num
        rw [this, zero_mul]
      · intro i _
        unfold bpmat
        rw [if_neg (by omega), zero_mul]
    rw [h2, zero_mul]
  · intro b _ hb
    have : bpmat g (P.m - 1) 0 b = 0 := by
      unfold bpmat
      rw [if_neg (by omega)]
    rw [this, mul_zero]
  · intro hh
    exact absurd (mem_range.2 (show 0 < P.m by omega)) hh

/-- **C231 fails** for patches with a degenerate edge: when the first two control points coincide (the pole of a cone, a triangular
patch), the first control vector is zero and `from_surf` divides zero by zero. -/
theorem C231_degenerate_refuted (g : ℕ → ℝ) {inv : ℕ → (ℕ → ℕ → ℝ) → ℕ → ℕ → ℝ} (hinv : InvSpec inv) (P : Arr ℝ)
    (hn : 2 ≤ P.n) (hn' : P.n ≤ 16) (hm : 1 ≤ P.m) (hm' : P.m ≤ 16) (h : ∀ d < 3, P.get 1 0 d = P.get 0 0 d) :
    unitMap nrm3 (gaussMap g inv P) = none := by
  have hz : ∀ d, (gaussMap g inv P).get 0 0 d = 0 := by
    intro d
    rw [← evalBezier_zero _ (show 0 < 2 * P.n - 1 by omega) (show 0 < 2 * P.m - 1 by omega), C230_gauss_map_partial g hinv P hn' hm']
    unfold normal
    rw [su_corner P hn (by omega) hm (by omega) _ (h _ (Nat.mod_lt _ (by omega))),
      su_corner P hn (by omega) hm (by omega) _ (h _ (Nat.mod_lt _ (by omega)))]
    ring
  unfold unitMap
  rw [if_neg]
  intro hh
  apply hh 0 (show 0 < 2 * P.n - 1 by omega) 0 (show 0 < 2 * P.m - 1 by omega)
  rw [hz, hz, hz]
  simp [nrm3]

/-- A planar triangle as a bilinear patch with two coinciding corners. -/
example (g : ℕ → ℝ) {inv : ℕ → (ℕ → ℕ → ℝ) → ℕ → ℕ → ℝ} (hinv : InvSpec inv) :
    unitMap nrm3 (gaussMap g inv ⟨2, 2, 3, fun i j d => if d = 0 ∧ j = 1 then 1 else if d = 1 ∧ i = 1 ∧ j = 1 then 1 else 0⟩) = none := by
  apply C231_degenerate_refuted g hinv _ (by norm_num) (by norm_num) (by norm_num) (by norm_num)
  intro d hd
  simp

/-! ## C234 -/

theorem bpmat_row_sum (g : ℕ → ℝ) (n : ℕ) (hn : 1 ≤ n) (hn' : n ≤ 31) (i : ℕ) (hi : i < n) :
    ∑ a ∈ range n, bpmat g (n - 1) i a = if i = 0 then 1 else 0 := by
  have h := Bez.mul_bpinv g (n - 1) (by omega) i 0 (by omega) (by omega)
  rw [show n - 1 + 1 = n by omega] at h
  rw [← h]
  apply sum_congr rfl
  intro a _
  simp [bpinv]

/-- **C234 fails** for a polynomial patch written with equal weights: `compute_gauss_mapw` divides by the squares of the
coefficients of the weight polynomial, and all of these but the first are zero. -/
theorem C234_constant_refuted (g : ℕ → ℝ) (inv : ℕ → (ℕ → ℕ → ℝ) → ℕ → ℕ → ℝ) (P : Arr ℝ) (hd : P.dim = 3) (hn : 2 ≤ P.n) (hn' : P.n ≤ 31)
    (hm : 1 ≤ P.m) (hm' : P.m ≤ 31) (c : ℝ) : gaussMapW g inv P (fun _ _ => c) = none := by
  unfold gaussMapW
  dsimp only
  rw [if_neg]
  intro h
  apply h 1 (by omega) 0 (by omega)
  have : (bezierToMonomial g (homogeneous P fun _ _ => c)).get 1 0 3 = 0 := by
    unfold bezierToMonomial homogeneous
    dsimp only
    apply sum_eq_zero
    intro b _
    simp only [hd, lt_irrefl, if_false]
    rw [← sum_mul, bpmat_row_sum g P.n (by omega) hn' 1 (by omega)]
    simp
  rw [this]
  norm_num

/-- The paraboloid `exP` with unit weights. -/
example (g : ℕ → ℝ) (inv : ℕ → (ℕ → ℕ → ℝ) → ℕ → ℕ → ℝ) : gaussMapW g inv exP (fun _ _ => 1) = none :=
  C234_constant_refuted g inv exP rfl (by decide) (by decide) (by decide) (by decide) 1

variable {K : Type} [Field K] [LinearOrder K] [IsStrictOrderedRing K]

/-! ## C232 -/

/-- The solution meets the equation `epsilon = 0` (gauss_map.py:322-323). -/
def EqSpec (lp : List (Row K) → Option (Row K)) : Prop := ∀ rows p e, lp rows = some (p, e) → e = 0

/-- The solution meets the inequalities. -/
def UbSpec (lp : List (Row K) → Option (Row K)) : Prop :=
  ∀ rows p e, lp rows = some (p, e) → ∀ r ∈ rows, Mol.dot r.1 p + r.2 * e ≤ 0

/-- **C232 fails**: `separate_gauss_maps` never finds vectors, whatever the hulls; `epsilon` is fixed to zero by the equation and has to
be negative for an answer. -/
theorem C232_separate_refuted (nrm : V K → K) (lp : List (Row K) → Option (Row K)) (h : EqSpec lp) (n1 n2 : List (V K)) :
    separate nrm lp n1 n2 = none := by
  unfold separate findSeparating
  cases hl : lp (n1.map (fun n => (Mol.smul (-1) n, -1)) ++ n2.map fun n => (n, -1)) with
  | none => rfl
  | some x =>
    obtain ⟨p, e⟩ := x
    have := h _ _ _ hl
    dsimp only
    rw [if_neg (by rintro ⟨_, h2⟩; rw [this] at h2; exact lt_irrefl _ h2)]

/-- There are hulls with both vectors. -/
theorem C232_exists : ∃ (n1 n2 : List (V K)) (p1 p2 : V K), n1 ≠ [] ∧ n2 ≠ [] ∧ (∀ n ∈ n1, 0 < Mol.dot p1 n) ∧ (∀ n ∈ n2, Mol.dot p1 n < 0) ∧
    (∀ n ∈ n1 ++ n2, 0 < Mol.dot p2 n) := by
  refine ⟨[⟨0, 0, 1⟩], [⟨1, 0, 0⟩], ⟨-1, 0, 1⟩, ⟨1, 0, 1⟩, by simp, by simp, ?_, ?_, ?_⟩ <;> simp [Mol.dot]

/-- **C232, part.**  With a solver which meets the inequalities (and without the equation), the vectors of an answer separate. -/
theorem C232_sound_partial (nrm : V K → K) (lp : List (Row K) → Option (Row K)) (h : UbSpec lp) (n1 n2 : List (V K)) (p1 p2 : V K)
    (hs : separate nrm lp n1 n2 = some (p1, p2)) :
    (∀ n ∈ n1, 0 < Mol.dot p1 n) ∧ (∀ n ∈ n2, Mol.dot p1 n < 0) ∧ ∀ n ∈ n1 ++ n2, 0 < Mol.dot p2 n := by
  unfold separate at hs
  have hf : ∀ q, findSeparating nrm lp n1 n2 = some q → (∀ n ∈ n1, 0 < Mol.dot q n) ∧ (∀ n ∈ n2, Mol.dot q n < 0) := by
    intro q hq
    unfold findSeparating at hq
    cases hl : lp (n1.map (fun n => (Mol.smul (-1) n, -1)) ++ n2.map fun n => (n, -1)) with
    | none => rw [hl] at hq; cases hq
    | some x =>
      obtain ⟨p, e⟩ := x
      rw [hl] at hq
      dsimp only at hq
      by_cases hc : nrm p > 1 / 1000000 ∧ e < 0
      · rw [if_pos hc] at hq
        have hq := Option.some.inj hq
        have hp : 0 < 1 / nrm p := by
          have : (0 : K) < 1 / 1000000 := by norm_num
          exact one_div_pos.2 (lt_trans this hc.1)
        have hr := h _ _ _ hl
        constructor
        · intro n hn
          have h1 := hr (Mol.smul (-1) n, -1) (List.mem_append_left _ (List.mem_map.2 ⟨n, hn, rfl⟩))
          have h2 : 0 < Mol.dot p n := by
            simp only [Mol.dot, Mol.smul] at h1 ⊢
            linarith [hc.2]
          have h3 : Mol.dot q n = 1 / nrm p * Mol.dot p n := by
            rw [← hq]; simp only [Mol.dot, Mol.smul]; ring
          rw [h3]
          exact mul_pos hp h2
        · intro n hn
          have h1 := hr (n, -1) (List.mem_append_right _ (List.mem_map.2 ⟨n, hn, rfl⟩))
          have h2 : Mol.dot p n < 0 := by
            simp only [Mol.dot] at h1 ⊢
            linarith [hc.2]
          have h3 : Mol.dot q n = 1 / nrm p * Mol.dot p n := by
            rw [← hq]; simp only [Mol.dot, Mol.smul]; ring
          rw [h3]
          exact mul_neg_of_pos_of_neg hp h2
      · rw [if_neg hc] at hq; cases hq
  have hg : ∀ q, findCommonSide nrm lp n1 n2 = some q → ∀ n ∈ n1 ++ n2, 0 < Mol.dot q n := by
    intro q hq
    unfold findCommonSide at hq
    cases hl : lp (n1.map (fun n => (Mol.smul (-1) n, -1)) ++ n2.map fun n => (Mol.smul (-1) n, -1)) with
    | none => rw [hl] at hq; cases hq
    | some x =>
      obtain ⟨p, e⟩ := x
      rw [hl] at hq
      dsimp only at hq
      by_cases hc : nrm p > 1 / 1000000 ∧ e < 0
      · rw [if_pos hc] at hq
        have hq := Option.some.inj hq
        have hp : 0 < 1 / nrm p := by
          have : (0 : K) < 1 / 1000000 := by norm_num
          exact one_div_pos.2 (lt_trans this hc.1)
        have hr := h _ _ _ hl
        intro n hn
        have hm : (Mol.smul (-1) n, (-1 : K)) ∈ n1.map (fun n => (Mol.smul (-1) n, (-1 : K))) ++ n2.map fun n => (Mol.smul (-1) n, -1) := by
          rw [← List.map_append]
          exact List.mem_map.2 ⟨n, hn, rfl⟩
        have h1 := hr _ hm
        have h2 : 0 < Mol.dot p n := by
          simp only [Mol.dot, Mol.smul] at h1 ⊢
          linarith [hc.2]
        have h3 : Mol.dot q n = 1 / nrm p * Mol.dot p n := by
          rw [← hq]; simp only [Mol.dot, Mol.smul]; ring
        rw [h3]
        exact mul_pos hp h2
      · rw [if_neg hc] at hq; cases hq
  cases h1 : findSeparating nrm lp n1 n2 with
  | none => rw [h1] at hs; cases hs
  | some q1 =>
    rw [h1] at hs
    dsimp only at hs
    cases h2 : findCommonSide nrm lp n1 n2 with
    | none => rw [h2] at hs; cases hs
    | some q2 =>
      rw [h2] at hs
      obtain ⟨rfl, rfl⟩ := Prod.mk.inj (Option.some.inj hs)
      exact ⟨(hf _ h1).1, (hf _ h1).2, hg _ h2⟩

/-- A solver with answers for the hulls of `C232_exists`. -/
example : ∃ lp : List (Row ℚ) → Option (Row ℚ), UbSpec lp ∧ separate (fun p => |p.x|) lp [⟨0, 0, 1⟩] [⟨1, 0, 0⟩] =
    some (⟨-1, 0, 1⟩, ⟨1, 0, 1⟩) := by
  refine ⟨fun rows =>
    if ∀ r ∈ rows, Mol.dot r.1 (⟨-1, 0, 1⟩ : V ℚ) + r.2 * (-1) ≤ 0 then some (⟨-1, 0, 1⟩, -1)
    else if ∀ r ∈ rows, Mol.dot r.1 (⟨1, 0, 1⟩ : V ℚ) + r.2 * (-1) ≤ 0 then some (⟨1, 0, 1⟩, -1) else none, ?_, ?_⟩
  · intro rows p e h
    dsimp only at h
    split_ifs at h with h1 h2
    · obtain ⟨rfl, rfl⟩ := Prod.mk.inj (Option.some.inj h)
      exact h1
    · obtain ⟨rfl, rfl⟩ := Prod.mk.inj (Option.some.inj h)
      exact h2
  · decide +kernel

/-! ## C233 -/

section
variable {G : Type} (M : Maps K G) (nrm : V K → K) (lp : List (Row K) → Option (Row K)) (tol : K)

/-- `b` comes from `a` by subdivision. -/
inductive Desc : G → G → Prop
  | refl (a : G) : Desc a a
  | step {a b c : G} : b ∈ M.sub a → Desc b c → Desc a c

theorem collect_mem {α β : Type} (f : α → Option (List β)) (l : List α) (r : List β) (h : collect f l = some r) (x : β) :
    x ∈ r ↔ ∃ a ∈ l, ∃ s, f a = some s ∧ x ∈ s := by
  induction l generalizing r with
  | nil =>
    cases h
    simp
  | cons a l ih =>
    unfold collect at h
    cases h1 : f a with
    | none => rw [h1] at h; cases h
    | some s =>
      rw [h1] at h
      cases h2 : collect f l with
      | none => rw [h2] at h; cases h
      | some t =>
        rw [h2] at h
        cases h
        rw [List.mem_append, ih t h2]
        constructor
        · rintro (h | ⟨b, hb, u, hu, hx⟩)
          · exact ⟨a, List.mem_cons_self, s, h1, h⟩
          · exact ⟨b, List.mem_cons_of_mem _ hb, u, hu, hx⟩
        · rintro ⟨b, hb, u, hu, hx⟩
          rcases List.mem_cons.1 hb with rfl | hb
          · rw [h1] at hu
            cases hu
            exact Or.inl hx
          · exact Or.inr ⟨b, hb, u, hu, hx⟩

theorem collect_all {α β : Type} (f : α → Option (List β)) (l : List α) (r : List β) (h : collect f l = some r) :
    ∀ a ∈ l, ∃ s, f a = some s := by
  induction l generalizing r with
  | nil => simp
  | cons a l ih =>
    unfold collect at h
    cases h1 : f a with
    | none => rw [h1] at h; cases h
    | some s =>
      rw [h1] at h
      cases h2 : collect f l with
      | none => rw [h2] at h; cases h
      | some t =>
        intro b hb
        rcases List.mem_cons.1 hb with rfl | hb
        · exact ⟨s, h1⟩
        · exact ih t h2 b hb

theorem collect_some {α β : Type} (f : α → Option (List β)) (l : List α) (h : ∀ a ∈ l, ∃ s, f a = some s) : ∃ r, collect f l = some r := by
  induction l with
  | nil => exact ⟨[], rfl⟩
  | cons a l ih =>
    obtain ⟨s, hs⟩ := h a List.mem_cons_self
    obtain ⟨t, ht⟩ := ih fun b hb => h b (List.mem_cons_of_mem _ hb)
    refine ⟨s ++ t, ?_⟩
    unfold collect
    rw [hs, ht]
    rfl

/-- **C233, soundness.**  The pairs of the result come from the two arguments by subdivision and their boxes have a common
point. -/
theorem C233_sound (k : ℕ) : ∀ (g1 g2 : G) (r : List (G × G)), deep M nrm lp tol k g1 g2 = some r →
    ∀ x ∈ r, Desc M g1 x.1 ∧ Desc M g2 x.2 ∧ aabbOverlap (M.box x.1) (M.box x.2) = true := by
  induction k with
  | zero => intro g1 g2 r h; cases h
  | succ k ih =>
    intro g1 g2 r h x hx
    unfold deep at h
    by_cases c1 : aabbOverlap (M.box g1) (M.box g2) = true
    · rw [if_neg (not_not.2 c1)] at h
      have one : some [(g1, g2)] = some r → Desc M g1 x.1 ∧ Desc M g2 x.2 ∧ aabbOverlap (M.box x.1) (M.box x.2) = true := by
        intro h
        cases h
        rw [List.mem_singleton.1 hx]
        exact ⟨.refl _, .refl _, c1⟩
      have no : some [] = some r → Desc M g1 x.1 ∧ Desc M g2 x.2 ∧ aabbOverlap (M.box x.1) (M.box x.2) = true := by
        intro h
        cases h
        cases hx
      have hrec : collect (fun gg => collect (fun gh => deep M nrm lp tol k gg gh) (M.sub g2)) (M.sub g1) = some r →
          Desc M g1 x.1 ∧ Desc M g2 x.2 ∧ aabbOverlap (M.box x.1) (M.box x.2) = true := by
        intro h
        rw [collect_mem _ _ _ h] at hx
        obtain ⟨a, ha, s, hs, hx⟩ := hx
        rw [collect_mem _ _ _ hs] at hx
        obtain ⟨b, hb, t, ht, hx⟩ := hx
        obtain ⟨d1, d2, d3⟩ := ih a b t ht x hx
        exact ⟨.step ha d1, .step hb d2, d3⟩
      split_ifs at h <;> first | exact one h | exact no h | exact hrec h
    · rw [if_pos c1] at h
      cases h
      cases hx

/-- **C233, termination.**  When after `k` subdivisions all boxes of the first surface are small, the procedure ends. -/
theorem C233_terminates (k : ℕ) : ∀ (g1 g2 : G) (lv : ℕ → G → Prop), lv k g1 →
    (∀ n g, lv (n + 1) g → ∀ c ∈ M.sub g, lv n c) → 0 < tol → (∀ g, lv 0 g → Ccx.dist2 (M.box g).hi (M.box g).lo < tol ^ 2) →
    ∃ r, deep M nrm lp tol (k + 1) g1 g2 = some r := by
  induction k with
  | zero =>
    intro g1 g2 lv h0 _ htol hs
    unfold deep
    by_cases c1 : aabbOverlap (M.box g1) (M.box g2) = true
    · rw [if_neg (not_not.2 c1), if_pos ⟨htol, hs g1 h0⟩]
      exact ⟨_, rfl⟩
    · rw [if_pos c1]
      exact ⟨_, rfl⟩
  | succ k ih =>
    intro g1 g2 lv h0 hst htol hs
    conv in deep _ _ _ _ _ _ _ => unfold deep
    have hrec : ∃ r, collect (fun gg => collect (fun gh => deep M nrm lp tol (k + 1) gg gh) (M.sub g2)) (M.sub g1) = some r := by
      apply collect_some
      intro a ha
      apply collect_some
      intro b hb
      exact ih a b lv (hst k g1 h0 a ha) hst htol hs
    split_ifs <;> first | exact ⟨_, rfl⟩ | exact hrec

/-- **C233, completeness, part.**  A common point of the two surfaces is in a returned pair, when the boxes enclose the surfaces, the
children cover their parent, `gjk` finds all collisions, and none of the pairs with the point is rejected as flat.  The last
condition is missing in the code: see `C233_flat_refuted`. -/
theorem C233_complete_partial (on : G → V K → Prop) (q : V K) (hbox : ∀ g, on g q → In (M.box g) q)
    (hsub : ∀ g, on g q → ∃ c ∈ M.sub g, on c q) (hgjk : ∀ a b, on a q → on b q → M.gjk a b = true) (hlp : EqSpec lp) (k : ℕ) :
    ∀ (g1 g2 : G), on g1 q → on g2 q →
    (∀ a b, Desc M g1 a → Desc M g2 b → on a q → on b q → ¬ small (M.box a) tol → ¬ thin (M.box a) (M.box b) tol) →
    ∀ r, deep M nrm lp tol k g1 g2 = some r → ∃ x ∈ r, on x.1 q ∧ on x.2 q := by
  induction k with
  | zero => intro g1 g2 _ _ _ r h; cases h
  | succ k ih =>
    intro g1 g2 o1 o2 ht r h
    unfold deep at h
    have c1 := Ccx.overlap_of_common (hbox g1 o1) (hbox g2 o2)
    rw [if_neg (not_not.2 c1)] at h
    by_cases c2 : small (M.box g1) tol
    · rw [if_pos c2] at h
      cases h
      exact ⟨_, List.mem_singleton.2 rfl, o1, o2⟩
    · rw [if_neg c2, if_neg (ht g1 g2 (.refl _) (.refl _) o1 o2 c2), if_neg (not_not.2 (hgjk g1 g2 o1 o2)),
        C232_separate_refuted nrm lp hlp] at h
      by_cases c3 : aabbOverlap (M.hullBox g2) (M.hullBox g1) = true
      · rw [if_neg (not_not.2 c3), if_neg (by simp)] at h
        obtain ⟨a, ha, oa⟩ := hsub g1 o1
        obtain ⟨b, hb, ob⟩ := hsub g2 o2
        obtain ⟨s, hs⟩ := collect_all _ _ _ h a ha
        obtain ⟨t, ht'⟩ := collect_all _ _ _ hs b hb
        obtain ⟨x, hx, ox⟩ := ih a b oa ob (fun a' b' d1 d2 => ht a' b' (.step ha d1) (.step hb d2)) t ht'
        refine ⟨x, ?_, ox⟩
        rw [collect_mem _ _ _ h]
        refine ⟨a, ha, s, hs, ?_⟩
        rw [collect_mem _ _ _ hs]
        exact ⟨b, hb, t, ht', hx⟩
      · rw [if_pos c3] at h
        cases h
        exact ⟨_, List.mem_singleton.2 rfl, o1, o2⟩

/-- **C233 fails** for a flat patch: when the first patch lies in a plane `z = c` and its box is not small, the procedure
returns no pair, whatever the second surface is. -/
theorem C233_flat_refuted (ht : 0 < tol) (k : ℕ) (g1 g2 : G) (hz : (M.box g1).lo.z = (M.box g1).hi.z) (hs : tol ^ 2 ≤ Ccx.dist2 (M.box g1).hi (M.box g1).lo) :
    deep M nrm lp tol (k + 1) g1 g2 = some [] := by
  unfold deep
  by_cases c1 : aabbOverlap (M.box g1) (M.box g2) = true
  · rw [if_neg (not_not.2 c1), if_neg (fun h => absurd h.2 (not_lt.2 hs)), if_pos]
    unfold thin
    refine lt_of_le_of_lt (min_le_right _ _) ?_
    have h1 := min_le_left (M.box g1).hi.z (M.box g2).hi.z
    have h2 := le_max_left (M.box g1).lo.z (M.box g2).lo.z
    linarith
  · rw [if_pos c1]

/-- The same for the second patch. -/
theorem C233_flat_refuted' (ht : 0 < tol) (k : ℕ) (g1 g2 : G) (hz : (M.box g2).lo.z = (M.box g2).hi.z) (hs : tol ^ 2 ≤ Ccx.dist2 (M.box g1).hi (M.box g1).lo) :
    deep M nrm lp tol (k + 1) g1 g2 = some [] := by
  unfold deep
  by_cases c1 : aabbOverlap (M.box g1) (M.box g2) = true
  · rw [if_neg (not_not.2 c1), if_neg (fun h => absurd h.2 (not_lt.2 hs)), if_pos]
    unfold thin
    refine lt_of_le_of_lt (min_le_right _ _) ?_
    have h1 := min_le_right (M.box g1).hi.z (M.box g2).hi.z
    have h2 := le_max_right (M.box g1).lo.z (M.box g2).lo.z
    linarith
  · rw [if_pos c1]
end

/-- Cubes at the origin, each with its half as the child. -/
def exM : Maps ℚ ℕ where
  box n := ⟨⟨0, 0, 0⟩, ⟨1 / 2 ^ n, 1 / 2 ^ n, 1 / 2 ^ n⟩⟩
  hull _ := [⟨0, 0, 1⟩]
  hullBox _ := ⟨⟨0, 0, 1⟩, ⟨0, 0, 1⟩⟩
  sub n := [n + 1]
  gjk _ _ := true

/-- The conditions of `C233_complete_partial` and `C233_terminates` hold for them with tolerance one. -/
example : (∀ n, (fun (_ : ℕ) (q : V ℚ) => q = ⟨0, 0, 0⟩) n ⟨0, 0, 0⟩ → In (exM.box n) ⟨0, 0, 0⟩) ∧
    (∀ a b, ¬ small (exM.box a) 1 → Desc exM 0 a → Desc exM 0 b → b = a → ¬ thin (exM.box a) (exM.box b) 1) ∧
    small (exM.box 1) 1 ∧ deep exM (fun _ => 1) (fun _ => none) 1 2 0 0 = some [(1, 1)] := by
  refine ⟨?_, ?_, by decide +kernel, by decide +kernel⟩
  · intro n _
    have : (0 : ℚ) ≤ 1 / 2 ^ n := by positivity
    exact ⟨le_rfl, this, le_rfl, this, le_rfl, this⟩
  · intro a b hs _ _ hb
    subst hb
    cases b with
    | zero => decide +kernel
    | succ n =>
      exfalso
      apply hs
      refine ⟨one_pos, ?_⟩
      unfold Ccx.dist2 exM
      dsimp only
      have h1 : (1 : ℚ) / 2 ^ (n + 1) ≤ 1 / 2 := by
        apply one_div_le_one_div_of_le (by norm_num)
        rw [pow_succ]
        have : (1 : ℚ) ≤ 2 ^ n := one_le_pow₀ (by norm_num)
        linarith
      have h0 : (0 : ℚ) ≤ 1 / 2 ^ (n + 1) := by positivity
      nlinarith

/-- Two crossing squares: one in the plane `z = 0`, one in the plane `x = 1 / 2`; no pair. -/
example : deep (G := Bool) (K := ℚ) ⟨fun b => if b then ⟨⟨0, 0, 0⟩, ⟨1, 1, 0⟩⟩ else ⟨⟨1 / 2, 0, -1⟩, ⟨1 / 2, 1, 1⟩⟩, fun _ => [],
    fun _ => ⟨⟨0, 0, 1⟩, ⟨0, 0, 1⟩⟩, fun b => [b, b, b, b], fun _ _ => true⟩ (fun _ => 1) (fun _ => none) (1 / 100) 1 true false = some [] :=
  C233_flat_refuted _ _ _ _ (by norm_num) 0 true false rfl (by decide +kernel)

/-! ## C235 -/

theorem det_zero (k a b c : V K) (ha : Mol.dot k a = 0) (hb : Mol.dot k b = 0) (hc : Mol.dot k c = 0) (hk : k ≠ ⟨0, 0, 0⟩) :
    Mol.dot (Mol.cross a b) c = 0 := by
  have hx : k.x * Mol.dot (Mol.cross a b) c = 0 := by
    simp only [Mol.dot, Mol.cross] at *
    linear_combination (b.y * c.z - b.z * c.y) * ha + (c.y * a.z - c.z * a.y) * hb + (a.y * b.z - a.z * b.y) * hc
  have hy : k.y * Mol.dot (Mol.cross a b) c = 0 := by
    simp only [Mol.dot, Mol.cross] at *
    linear_combination (b.z * c.x - b.x * c.z) * ha + (c.z * a.x - c.x * a.z) * hb + (a.z * b.x - a.x * b.z) * hc
  have hz : k.z * Mol.dot (Mol.cross a b) c = 0 := by
    simp only [Mol.dot, Mol.cross] at *
    linear_combination (b.x * c.y - b.y * c.x) * ha + (c.x * a.y - c.y * a.x) * hb + (a.x * b.y - a.y * b.x) * hc
  by_contra h
  apply hk
  ext
  · exact (mul_eq_zero.1 hx).resolve_right h
  · exact (mul_eq_zero.1 hy).resolve_right h
  · exact (mul_eq_zero.1 hz).resolve_right h

/-- **C235, part.**  A patch in a plane, with three corners which are not on a line, is flat at every tolerance. -/
theorem C235_planar_partial (nrm : V K → K) (hnrm : ∀ n, nrm n = 0 → n = ⟨0, 0, 0⟩) (s : K → K → V K) (u0 u1 v0 v1 tol : K) (ht : 0 < tol)
    (k : V K) (hk : k ≠ ⟨0, 0, 0⟩) (hp : ∀ u v u' v', Mol.dot k (s u v) = Mol.dot k (s u' v'))
    (hc : Mol.cross (Mol.sub (s u0 v1) (s u0 v0)) (Mol.sub (s u1 v0) (s u0 v0)) ≠ ⟨0, 0, 0⟩) :
    isFlat nrm s u0 u1 v0 v1 tol = true := by
  unfold isFlat
  dsimp only
  rw [if_neg fun h => hc (hnrm _ h)]
  have hsub : ∀ u v u' v', Mol.dot k (Mol.sub (s u v) (s u' v')) = 0 := by
    intro u v u' v'
    have := hp u v u' v'
    simp only [Mol.dot, Mol.sub] at *
    linear_combination this
  have hd := det_zero k _ _ _ (hsub u0 v1 u0 v0) (hsub u1 v0 u0 v0) (hsub ((u0 + u1) / 2) ((v0 + v1) / 2) u0 v0) hk
  rw [decide_eq_true_iff]
  have e : ∀ (t : K) (n a b : V K), Mol.dot (Mol.smul t n) a + -Mol.dot (Mol.smul t n) b = t * Mol.dot n (Mol.sub a b) := by
    intro t n a b
    simp only [Mol.dot, Mol.smul, Mol.sub]
    ring
  rw [e, hd, mul_zero, abs_zero]
  exact ht

/-- **C235 fails**: surfaces of any height are flat at every tolerance; only the middle is compared with the corners. -/
theorem C235_flat_refuted (nrm : V K → K) (hnrm : ∀ n, nrm n = 0 → n = ⟨0, 0, 0⟩) (h tol : K) (ht : 0 < tol) :
    let s : K → K → V K := fun u v => ⟨u, v, 32 / 3 * h * (u * (1 - u) * (1 - 2 * u))⟩
    isFlat nrm s 0 1 0 1 tol = true ∧ (∀ v, (s 0 v).z = 0 ∧ (s 1 v).z = 0) ∧ ∀ v, (s (1 / 4) v).z = h := by
  refine ⟨?_, ?_, ?_⟩
  · unfold isFlat
    dsimp only
    rw [if_neg]
    · rw [decide_eq_true_iff]
      have : ∀ t : K, Mol.dot (Mol.smul t (Mol.cross (Mol.sub (⟨0, 1, 32 / 3 * h * (0 * (1 - 0) * (1 - 2 * 0))⟩ : V K) ⟨0, 0, 32 / 3 * h * (0 * (1 - 0) * (1 - 2 * 0))⟩)
          (Mol.sub ⟨1, 0, 32 / 3 * h * (1 * (1 - 1) * (1 - 2 * 1))⟩ ⟨0, 0, 32 / 3 * h * (0 * (1 - 0) * (1 - 2 * 0))⟩)))
          ⟨(0 + 1) / 2, (0 + 1) / 2, 32 / 3 * h * ((0 + 1) / 2 * (1 - (0 + 1) / 2) * (1 - 2 * ((0 + 1) / 2)))⟩ +
          -Mol.dot (Mol.smul t (Mol.cross (Mol.sub (⟨0, 1, 32 / 3 * h * (0 * (1 - 0) * (1 - 2 * 0))⟩ : V K) ⟨0, 0, 32 / 3 * h * (0 * (1 - 0) * (1 - 2 * 0))⟩)
          (Mol.sub ⟨1, 0, 32 / 3 * h * (1 * (1 - 1) * (1 - 2 * 1))⟩ ⟨0, 0, 32 / 3 * h * (0 * (1 - 0) * (1 - 2 * 0))⟩)))
          ⟨0, 0, 32 / 3 * h * (0 * (1 - 0) * (1 - 2 * 0))⟩ = 0 := by
        intro t
        simp only [Mol.dot, Mol.smul, Mol.cross, Mol.sub]
        ring
      rw [this, abs_zero]
      exact ht
    · intro hc
      have := congrArg V.z (hnrm _ hc)
      simp [Mol.cross, Mol.sub] at this
  · intro v
    simp
  · intro v
    dsimp only
    ring

/-- **C235 fails** for planar patches with a degenerate edge: with two coinciding corners the patch is never flat. -/
theorem C235_degenerate_refuted (nrm : V K → K) (hnrm : nrm ⟨0, 0, 0⟩ = 0) (s : K → K → V K) (u0 u1 v0 v1 tol : K)
    (h : s u0 v1 = s u0 v0 ∨ s u1 v0 = s u0 v0) : isFlat nrm s u0 u1 v0 v1 tol = false := by
  unfold isFlat
  dsimp only
  rw [if_pos]
  have : Mol.cross (Mol.sub (s u0 v1) (s u0 v0)) (Mol.sub (s u1 v0) (s u0 v0)) = ⟨0, 0, 0⟩ := by
    rcases h with h | h <;> rw [h] <;> simp [Mol.cross, Mol.sub]
  rw [this, hnrm]

example : isFlat (fun n : V ℚ => |n.x| + |n.y| + |n.z|) (fun u v => ⟨u, v, u + v⟩) 0 1 0 1 (1 / 1000) = true := by decide +kernel
example : isFlat (fun n : V ℚ => |n.x| + |n.y| + |n.z|) (fun u v => ⟨u, u * v, 0⟩) 0 1 0 1 (1 / 1000) = false := by decide +kernel
example : isFlat (fun n : V ℚ => |n.x| + |n.y| + |n.z|) (fun u v => ⟨u, v, u * u⟩) 0 1 0 1 (1 / 1000) = false := by decide +kernel

end Verif.Gm
