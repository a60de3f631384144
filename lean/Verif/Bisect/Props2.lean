import Verif.Bisect.Model
import Mathlib.Algebra.Order.Field.Basic
import Mathlib.Algebra.Order.Archimedean.Basic
import Mathlib.Topology.Order.IntermediateValue
import Mathlib.Topology.Instances.Real.Lemmas
import Mathlib.Topology.Algebra.Field
import Mathlib.Algebra.Order.Ring.Rat
import Mathlib.Tactic.Ring
import Mathlib.Tactic.FieldSimp
import Mathlib.Tactic.Linarith
import Mathlib.Tactic.SplitIfs
import Mathlib.Tactic.Positivity
import Mathlib.Tactic.NormNum

/-!
# `bisection_2d` and `scalar_min_1d` (C149, C150)
-/

set_option linter.unusedSectionVars false

namespace Verif.Bisect

section
variable {F : Type} [Field F] [LinearOrder F] [IsStrictOrderedRing F]

/-- What one round does to the rectangle: one half in both directions. -/
theorem halve_cases (f : F → F → F) (b : Box F) :
    ((halve f b).x0 = b.x0 ∧ (halve f b).x1 = (b.x0 + b.x1) / 2 ∨ (halve f b).x0 = (b.x0 + b.x1) / 2 ∧ (halve f b).x1 = b.x1) ∧
    ((halve f b).y0 = b.y0 ∧ (halve f b).y1 = (b.y0 + b.y1) / 2 ∨ (halve f b).y0 = (b.y0 + b.y1) / 2 ∧ (halve f b).y1 = b.y1) := by
  unfold halve
  dsimp only
  split_ifs <;> simp

theorem halve_width (f : F → F → F) (b : Box F) :
    (halve f b).x1 - (halve f b).x0 = (b.x1 - b.x0) / 2 ∧ (halve f b).y1 - (halve f b).y0 = (b.y1 - b.y0) / 2 := by
  obtain ⟨h1, h2⟩ := halve_cases f b
  constructor
  · rcases h1 with ⟨a, c⟩ | ⟨a, c⟩ <;> rw [a, c] <;> ring
  · rcases h2 with ⟨a, c⟩ | ⟨a, c⟩ <;> rw [a, c] <;> ring

theorem loop_ends (f : F → F → F) (tol : F) (K : Nat) :
    ∀ b : Box F, b.x1 - b.x0 ≤ 2 * tol * 2 ^ K → b.y1 - b.y0 ≤ 2 * tol * 2 ^ K → ∃ r, loop2d f tol (K + 1) b = some r := by
  induction K with
  | zero =>
    intro b h1 h2
    rw [pow_zero, mul_one] at h1 h2
    refine ⟨((b.x0 + b.x1) / 2, (b.y0 + b.y1) / 2), ?_⟩
    rw [loop2d, if_neg]
    rintro (h | h) <;> linarith
  | succ K ih =>
    intro b h1 h2
    rw [loop2d]
    by_cases hc : tol < (b.x1 - b.x0) / 2 ∨ tol < (b.y1 - b.y0) / 2
    · rw [if_pos hc]
      obtain ⟨w1, w2⟩ := halve_width f b
      apply ih
      · rw [w1]; rw [pow_succ] at h1; linarith
      · rw [w2]; rw [pow_succ] at h2; linarith
    · rw [if_neg hc]; exact ⟨_, rfl⟩

/-- **C149.** `bisection_2d` ends for every function, every rectangle and every positive tolerance. -/
theorem C149_terminates [Archimedean F] (f : F → F → F) (b : Box F) (tol : F) (ht : 0 < tol) :
    ∃ fuel r, bisection2d f b tol fuel = some r := by
  obtain ⟨K1, h1⟩ := exists_nat_gt ((b.x1 - b.x0) / (2 * tol))
  obtain ⟨K2, h2⟩ := exists_nat_gt ((b.y1 - b.y0) / (2 * tol))
  have two : ∀ K : Nat, (K : F) ≤ 2 ^ K := fun K => by exact_mod_cast (Nat.lt_two_pow_self (n := K)).le
  have mono : ∀ {K : Nat}, K ≤ K1 + K2 → (2 : F) ^ K ≤ 2 ^ (K1 + K2) := fun h => pow_le_pow_right₀ (by norm_num) h
  have w : ∀ (d : F) (K : Nat), K ≤ K1 + K2 → d / (2 * tol) < K → d ≤ 2 * tol * 2 ^ (K1 + K2) := by
    intro d K hK h
    have := (div_lt_iff₀ (by linarith : 0 < 2 * tol)).1 h
    have h3 : (K : F) ≤ 2 ^ (K1 + K2) := le_trans (two K) (mono hK)
    nlinarith
  obtain ⟨r, hr⟩ := loop_ends f tol (K1 + K2) b (w _ K1 (by omega) h1) (w _ K2 (by omega) h2)
  refine ⟨K1 + K2 + 1, ?_⟩
  unfold bisection2d
  by_cases hc : 0 < f b.x0 b.y0 * f b.x1 b.y1
  · exact ⟨none, if_pos hc⟩
  · rw [if_neg hc, hr]; exact ⟨_, rfl⟩

/-- Inside of a rectangle. -/
def Within (b c : Box F) : Prop := b.x0 ≤ c.x0 ∧ c.x1 ≤ b.x1 ∧ b.y0 ≤ c.y0 ∧ c.y1 ≤ b.y1 ∧ c.x0 ≤ c.x1 ∧ c.y0 ≤ c.y1

theorem halve_within (f : F → F → F) (b : Box F) (hx : b.x0 ≤ b.x1) (hy : b.y0 ≤ b.y1) : Within b (halve f b) := by
  obtain ⟨h1, h2⟩ := halve_cases f b
  unfold Within
  rcases h1 with ⟨a, c⟩ | ⟨a, c⟩ <;> rcases h2 with ⟨d, e⟩ | ⟨d, e⟩ <;> rw [a, c, d, e] <;>
    refine ⟨?_, ?_, ?_, ?_, ?_, ?_⟩ <;> linarith

/-- The rectangle at the end of the loop: `k` halvings. -/
theorem loop_result (f : F → F → F) (tol : F) : ∀ (fuel : Nat) (b : Box F) (r : F × F), loop2d f tol fuel b = some r →
    ∃ k, ((halve f)^[k] b).x1 - ((halve f)^[k] b).x0 ≤ 2 * tol ∧ ((halve f)^[k] b).y1 - ((halve f)^[k] b).y0 ≤ 2 * tol ∧
      r = ((((halve f)^[k] b).x0 + ((halve f)^[k] b).x1) / 2, (((halve f)^[k] b).y0 + ((halve f)^[k] b).y1) / 2) := by
  intro fuel
  induction fuel with
  | zero => intro b r h; cases h
  | succ fuel ih =>
    intro b r h
    rw [loop2d] at h
    by_cases hc : tol < (b.x1 - b.x0) / 2 ∨ tol < (b.y1 - b.y0) / 2
    · rw [if_pos hc] at h
      obtain ⟨k, a⟩ := ih _ _ h
      exact ⟨k + 1, a⟩
    · rw [if_neg hc] at h
      have h1 : b.x1 - b.x0 ≤ 2 * tol := by
        by_contra h1; exact hc (Or.inl (by linarith [not_le.1 h1]))
      have h2 : b.y1 - b.y0 ≤ 2 * tol := by
        by_contra h2; exact hc (Or.inr (by linarith [not_le.1 h2]))
      exact ⟨0, h1, h2, (Option.some.inj h).symm⟩

theorem iterate_within (f : F → F → F) (b : Box F) (hx : b.x0 ≤ b.x1) (hy : b.y0 ≤ b.y1) (k : Nat) : Within b ((halve f)^[k] b) := by
  induction k with
  | zero => exact ⟨le_refl _, le_refl _, le_refl _, le_refl _, hx, hy⟩
  | succ k ih =>
    rw [Function.iterate_succ_apply']
    obtain ⟨a1, a2, a3, a4, a5, a6⟩ := ih
    obtain ⟨c1, c2, c3, c4, c5, c6⟩ := halve_within f _ a5 a6
    exact ⟨le_trans a1 c1, le_trans c2 a2, le_trans a3 c3, le_trans c4 a4, c5, c6⟩

/-- **C149.** A returned point lies in the rectangle. -/
theorem C149_inside (f : F → F → F) (b : Box F) (hx : b.x0 ≤ b.x1) (hy : b.y0 ≤ b.y1) (tol : F) (fuel : Nat) (r : F × F)
    (e : bisection2d f b tol fuel = some (some r)) : b.x0 ≤ r.1 ∧ r.1 ≤ b.x1 ∧ b.y0 ≤ r.2 ∧ r.2 ≤ b.y1 := by
  unfold bisection2d at e
  split_ifs at e
  · simp at e
  cases hl : loop2d f tol fuel b with
  | none => rw [hl] at e; cases e
  | some q =>
    rw [hl] at e
    obtain rfl : q = r := Option.some.inj (Option.some.inj e)
    obtain ⟨k, _, _, rfl⟩ := loop_result f tol fuel b q hl
    obtain ⟨a1, a2, a3, a4, a5, a6⟩ := iterate_within f b hx hy k
    dsimp only
    refine ⟨?_, ?_, ?_, ?_⟩ <;> linarith

/-- Two opposite corners with different signs. -/
def Opp (f : F → F → F) (b : Box F) : Prop := f b.x0 b.y0 * f b.x1 b.y1 < 0 ∨ f b.x1 b.y0 * f b.x0 b.y1 < 0

theorem opp_halve (f : F → F → F) (b : Box F) (h : Opp f b) (hm : f ((b.x0 + b.x1) / 2) ((b.y0 + b.y1) / 2) ≠ 0) : Opp f (halve f b) := by
  have split : ∀ p q m : F, p * q < 0 → m ≠ 0 → p * m < 0 ∨ q * m < 0 := by
    intro p q m hpq hm
    by_contra hc
    have h1 : 0 ≤ p * m := not_lt.1 fun x => hc (Or.inl x)
    have h2 : 0 ≤ q * m := not_lt.1 fun x => hc (Or.inr x)
    have h3 : 0 ≤ (p * m) * (q * m) := mul_nonneg h1 h2
    have h4 : (p * m) * (q * m) = (p * q) * m ^ 2 := by ring
    have h5 : 0 < m ^ 2 := by positivity
    have h6 := mul_neg_of_neg_of_pos hpq h5
    linarith
  unfold halve
  dsimp only
  split_ifs with c1 c2 c3 c4
  · exact Or.inl c1
  · exact Or.inr c2
  · right; dsimp only; rw [mul_comm]; exact c3
  · left; dsimp only; rw [mul_comm]; exact c4
  all_goals
    exfalso
    rcases h with h | h
    · rcases split _ _ _ h hm with h' | h'
      · exact c1 h'
      · exact c4 h'
    · rcases split _ _ _ h hm with h' | h'
      · exact c2 h'
      · exact c3 h'

/-- The function of the counterexample: a line of zeros `x + y = 0`. -/
def lost (x y : F) : F := (x + y) * (1 + 4 * (1 - x ^ 2) ^ 2)

theorem lost_first : halve lost (⟨-1, 1, -1, 1⟩ : Box F) = ⟨0, 1, 0, 1⟩ := by
  unfold halve lost
  dsimp only
  norm_num

theorem lost_second : halve lost (⟨0, 1, 0, 1⟩ : Box F) = ⟨1 / 2, 1, 0, 1 / 2⟩ := by
  have a : |(0 + 1 / 2 : F) * (1 + 4 * (1 - 0 ^ 2) ^ 2)| = 5 / 2 := by rw [abs_of_pos] <;> norm_num
  have b : |(1 + 1 / 2 : F) * (1 + 4 * (1 - 1 ^ 2) ^ 2)| = 3 / 2 := by rw [abs_of_pos] <;> norm_num
  have c : |(1 / 2 + 0 : F) * (1 + 4 * (1 - (1 / 2) ^ 2) ^ 2)| = 13 / 8 := by rw [abs_of_pos] <;> norm_num
  have d : |(1 / 2 + 1 : F) * (1 + 4 * (1 - (1 / 2) ^ 2) ^ 2)| = 39 / 8 := by rw [abs_of_pos] <;> norm_num
  unfold halve lost
  dsimp only
  rw [if_neg (by norm_num), if_neg (by norm_num), if_neg (by norm_num), if_neg (by norm_num)]
  have e : (0 + 1 : F) / 2 = 1 / 2 := by norm_num
  have i : ¬ ((5 / 2 : F) < 3 / 2) := by norm_num
  have j : (13 / 8 : F) < 39 / 8 := by norm_num
  rw [e, a, b]
  simp only [if_neg i]
  rw [c, d, if_pos j]

/-- **C149, refuted.** The corners have different signs and the function is continuous, yet for every tolerance below 1/4 the result is
not within the tolerance of any zero: a zero at a midpoint sends the search into a part without zeros. -/
theorem C149_lost_refuted (tol : F) (h1 : tol < 1 / 4) :
    (lost (-1 : F) (-1) * lost 1 1 < 0) ∧
    ∀ fuel r, bisection2d lost ⟨-1, 1, -1, 1⟩ tol fuel = some r →
      ∃ x y : F, r = some (x, y) ∧ ∀ u v : F, lost u v = 0 → tol < |u - x| ∨ tol < |v - y| := by
  have hneg : lost (-1 : F) (-1) * lost 1 1 < 0 := by unfold lost; norm_num
  refine ⟨hneg, fun fuel r e => ?_⟩
  unfold bisection2d at e
  dsimp only at e
  rw [if_neg (not_lt.2 (le_of_lt hneg))] at e
  cases hl : loop2d lost tol fuel ⟨-1, 1, -1, 1⟩ with
  | none => rw [hl] at e; cases e
  | some q =>
    rw [hl] at e
    obtain rfl : some q = r := Option.some.inj e
    refine ⟨q.1, q.2, rfl, ?_⟩
    obtain ⟨k, w1, _, hq⟩ := loop_result lost tol fuel _ q hl
    have hk : 2 ≤ k := by
      rcases k with _ | _ | k
      · exfalso; simp only [Function.iterate_zero, id_eq] at w1; linarith
      · exfalso
        rw [Function.iterate_succ_apply', Function.iterate_zero, id_eq, lost_first] at w1
        dsimp only at w1; linarith
      · omega
    obtain ⟨m, rfl⟩ : ∃ m, k = m + 2 := ⟨k - 2, by omega⟩
    rw [Function.iterate_add_apply, Function.iterate_succ_apply', Function.iterate_succ_apply', Function.iterate_zero, id_eq,
      lost_first, lost_second] at hq
    obtain ⟨a1, a2, a3, a4, a5, a6⟩ := iterate_within (lost : F → F → F) ⟨1 / 2, 1, 0, 1 / 2⟩ (by norm_num) (by norm_num) m
    dsimp only at a1 a2 a3 a4
    have hx : 1 / 2 ≤ q.1 := by rw [hq]; dsimp only; linarith
    have hy : 0 ≤ q.2 := by rw [hq]; dsimp only; linarith
    intro u v huv
    unfold lost at huv
    have hg : (1 + 4 * (1 - u ^ 2) ^ 2 : F) ≠ 0 := by positivity
    have hz : u + v = 0 := by
      rcases mul_eq_zero.1 huv with h | h
      · exact h
      · exact absurd h hg
    by_contra hc
    have c1 : |u - q.1| ≤ tol := not_lt.1 fun x => hc (Or.inl x)
    have c2 : |v - q.2| ≤ tol := not_lt.1 fun x => hc (Or.inr x)
    have := (abs_le.1 c1).1
    have := (abs_le.1 c2).1
    linarith

/-- The result for a function whose zeros the midpoints do not hit. -/
example : bisection2d (fun x y : ℚ => x + y - 1 / 3) ⟨0, 1, 0, 1⟩ (1 / 10) 10 = some (some (3 / 16, 3 / 16)) := by decide +kernel

end

theorem root_in_box (f : ℝ → ℝ → ℝ) (hf : Continuous fun p : ℝ × ℝ => f p.1 p.2) (x0 y0 x1 y1 : ℝ) (h : f x0 y0 * f x1 y1 < 0) :
    ∃ t, 0 ≤ t ∧ t ≤ 1 ∧ f (x0 + t * (x1 - x0)) (y0 + t * (y1 - y0)) = 0 := by
  have hg : Continuous fun t : ℝ => f (x0 + t * (x1 - x0)) (y0 + t * (y1 - y0)) := by
    have : Continuous fun t : ℝ => (x0 + t * (x1 - x0), y0 + t * (y1 - y0)) := by fun_prop
    exact hf.comp this
  have g0 : f (x0 + 0 * (x1 - x0)) (y0 + 0 * (y1 - y0)) = f x0 y0 := by rw [zero_mul, zero_mul, add_zero, add_zero]
  have g1 : f (x0 + 1 * (x1 - x0)) (y0 + 1 * (y1 - y0)) = f x1 y1 := by
    rw [one_mul, one_mul, add_sub_cancel, add_sub_cancel]
  rcases lt_or_ge (f x0 y0) 0 with h0 | h0
  · have h1 : 0 ≤ f x1 y1 := by
      by_contra hc
      exact absurd h (not_lt.2 (le_of_lt (mul_pos_of_neg_of_neg h0 (not_le.1 hc))))
    obtain ⟨t, ht, e⟩ := intermediate_value_Icc zero_le_one hg.continuousOn (show (0 : ℝ) ∈ _ from ⟨by rw [g0]; exact le_of_lt h0, by rw [g1]; exact h1⟩)
    exact ⟨t, ht.1, ht.2, e⟩
  · have h1 : f x1 y1 ≤ 0 := by
      by_contra hc
      exact absurd h (not_lt.2 (mul_nonneg h0 (le_of_lt (not_le.1 hc))))
    obtain ⟨t, ht, e⟩ := intermediate_value_Icc' zero_le_one hg.continuousOn (show (0 : ℝ) ∈ _ from ⟨by rw [g1]; exact h1, by rw [g0]; exact h0⟩)
    exact ⟨t, ht.1, ht.2, e⟩

/-- **C149, what holds.** If no midpoint that is visited is a zero and two opposite corners have different signs, a continuous function has
a zero within the tolerance of the result in both coordinates.  Missing: searches that hit a zero on the way. -/
theorem C149_root_partial (f : ℝ → ℝ → ℝ) (hf : Continuous fun p : ℝ × ℝ => f p.1 p.2) (b : Box ℝ) (hx : b.x0 ≤ b.x1) (hy : b.y0 ≤ b.y1)
    (tol : ℝ) (ho : Opp f b)
    (hm : ∀ k, f ((((halve f)^[k] b).x0 + ((halve f)^[k] b).x1) / 2) ((((halve f)^[k] b).y0 + ((halve f)^[k] b).y1) / 2) ≠ 0)
    (fuel : Nat) (r : ℝ × ℝ) (e : bisection2d f b tol fuel = some (some r)) :
    ∃ u v, f u v = 0 ∧ |u - r.1| ≤ tol ∧ |v - r.2| ≤ tol := by
  unfold bisection2d at e
  split_ifs at e
  · simp at e
  cases hl : loop2d f tol fuel b with
  | none => rw [hl] at e; cases e
  | some q =>
    rw [hl] at e
    obtain rfl : q = r := Option.some.inj (Option.some.inj e)
    obtain ⟨k, w1, w2, rfl⟩ := loop_result f tol fuel b q hl
    have opp : ∀ k, Opp f ((halve f)^[k] b) := by
      intro k
      induction k with
      | zero => exact ho
      | succ k ih => rw [Function.iterate_succ_apply']; exact opp_halve f _ ih (hm k)
    obtain ⟨_, _, _, _, a5, a6⟩ := iterate_within f b hx hy k
    have hoc := opp k
    clear opp hm
    generalize (halve f)^[k] b = c at *
    dsimp only
    have bound : ∀ p q t : ℝ, 0 ≤ t → t ≤ 1 → p ≤ q → q - p ≤ 2 * tol → |p + t * (q - p) - (p + q) / 2| ≤ tol := by
      intro p q t t0 t1 hpq hw
      rw [abs_le]; constructor <;> nlinarith
    have bound' : ∀ p q t : ℝ, 0 ≤ t → t ≤ 1 → p ≤ q → q - p ≤ 2 * tol → |q + t * (p - q) - (p + q) / 2| ≤ tol := by
      intro p q t t0 t1 hpq hw
      rw [abs_le]; constructor <;> nlinarith
    rcases hoc with h | h
    · obtain ⟨t, t0, t1, ht⟩ := root_in_box f hf c.x0 c.y0 c.x1 c.y1 h
      exact ⟨_, _, ht, bound _ _ t t0 t1 a5 w1, bound _ _ t t0 t1 a6 w2⟩
    · obtain ⟨t, t0, t1, ht⟩ := root_in_box f hf c.x1 c.y0 c.x0 c.y1 h
      exact ⟨_, _, ht, bound' _ _ t t0 t1 a5 w1, bound _ _ t t0 t1 a6 w2⟩

/-! ## `scalar_min_1d` -/

section
variable {F : Type} [Field F] [LinearOrder F] [IsStrictOrderedRing F]

/-- `np.isclose` with both tolerances 0. -/
def same (a b : F) : Bool := decide (a = b)

theorem fold_min (g : Nat → F) (l : List Nat) : ∀ a : F,
    (∀ k ∈ l, l.foldl (fun m k => min m (g k)) a ≤ g k) ∧ l.foldl (fun m k => min m (g k)) a ≤ a ∧
    (l.foldl (fun m k => min m (g k)) a = a ∨ ∃ k ∈ l, l.foldl (fun m k => min m (g k)) a = g k) := by
  induction l with
  | nil => intro a; exact ⟨by simp, le_refl _, Or.inl rfl⟩
  | cons c l ih =>
    intro a
    rw [List.foldl_cons]
    obtain ⟨h1, h2, h3⟩ := ih (min a (g c))
    refine ⟨?_, le_trans h2 (min_le_left _ _), ?_⟩
    · intro k hk
      rcases List.mem_cons.1 hk with rfl | hk
      · exact le_trans h2 (min_le_right _ _)
      · exact h1 k hk
    · rcases h3 with h3 | ⟨k, hk, h3⟩
      · rcases min_choice a (g c) with h | h
        · left; rw [h3, h]
        · right; exact ⟨c, List.mem_cons_self, by rw [h3, h]⟩
      · right; exact ⟨k, List.mem_cons_of_mem _ hk, h3⟩

theorem least_spec (f : F → F) (s e : F) (divs : Nat) (hd : 0 < divs) :
    (∀ k < divs, least f s e divs ≤ f (node s e divs k)) ∧ ∃ k < divs, least f s e divs = f (node s e divs k) := by
  obtain ⟨h1, _, h3⟩ := fold_min (fun k => f (node s e divs k)) (List.range divs) (f (node s e divs 0))
  refine ⟨fun k hk => h1 k (List.mem_range.2 hk), ?_⟩
  rcases h3 with h3 | ⟨k, hk, h3⟩
  · exact ⟨0, hd, h3⟩
  · exact ⟨k, List.mem_range.1 hk, h3⟩

/-- The index: a node with the least value. -/
theorem first_spec (f : F → F) (s e : F) (divs : Nat) (hd : 0 < divs) :
    ∃ i < divs, firstIndex same f s e divs = some i ∧ ∀ k < divs, f (node s e divs i) ≤ f (node s e divs k) := by
  obtain ⟨h1, m, hm, h2⟩ := least_spec f s e divs hd
  unfold firstIndex
  cases h : (List.range divs).find? fun k => same (f (node s e divs k)) (least f s e divs) with
  | none =>
    have := List.find?_eq_none.1 h m (List.mem_range.2 hm)
    exact absurd (decide_eq_true h2.symm) this
  | some i =>
    have hi := List.mem_range.1 (List.mem_of_find?_eq_some h)
    have he : f (node s e divs i) = least f s e divs := of_decide_eq_true (p := f (node s e divs i) = least f s e divs) (by have := List.find?_some h; exact this)
    exact ⟨i, hi, rfl, fun k hk => by rw [he]; exact h1 k hk⟩

theorem node_sub (s e : F) (divs i k : Nat) : node s e divs k - node s e divs i = ((k : F) - i) * ((e - s) / ((divs : F) - 1)) := by
  unfold node; ring

theorem cell_pos {s e : F} (h : s < e) {divs : Nat} (hd : 2 ≤ divs) : 0 < (e - s) / ((divs : F) - 1) := by
  have : (2 : F) ≤ divs := by exact_mod_cast hd
  apply div_pos <;> linarith

theorem node_lt {s e : F} (h : s < e) {divs : Nat} (hd : 2 ≤ divs) {i k : Nat} (hik : i < k) : node s e divs i < node s e divs k := by
  have h1 := cell_pos h hd
  have h2 : (i : F) < k := by exact_mod_cast hik
  have h3 := node_sub s e divs i k
  have h4 : 0 < ((k : F) - i) * ((e - s) / ((divs : F) - 1)) := mul_pos (by linarith) h1
  linarith

theorem node_zero (s e : F) (divs : Nat) : node s e divs 0 = s := by simp [node]

theorem node_last (s e : F) {divs : Nat} (hd : 2 ≤ divs) : node s e divs (divs - 1) = e := by
  have : (2 : F) ≤ divs := by exact_mod_cast hd
  have h0 : (divs : F) - 1 ≠ 0 := by intro h; linarith
  unfold node
  rw [Nat.cast_sub (by omega), Nat.cast_one, mul_div_cancel₀ _ h0]
  ring

theorem node_mem {s e : F} (h : s < e) {divs : Nat} (hd : 2 ≤ divs) {k : Nat} (hk : k < divs) : s ≤ node s e divs k ∧ node s e divs k ≤ e := by
  constructor
  · rcases Nat.eq_zero_or_pos k with rfl | h0
    · exact le_of_eq (node_zero s e divs).symm
    · have := node_lt h hd h0; rw [node_zero] at this; exact le_of_lt this
  · rcases Nat.lt_or_ge k (divs - 1) with h1 | h1
    · have := node_lt h hd h1; rw [node_last s e hd] at this; exact le_of_lt this
    · have : k = divs - 1 := by omega
      rw [this, node_last s e hd]

theorem cell_abs (s e : F) (divs : Nat) (hd : 2 ≤ divs) : |node s e divs 0 - node s e divs 1| = |e - s| / ((divs : F) - 1) := by
  have : (2 : F) ≤ divs := by exact_mod_cast hd
  rw [abs_sub_comm, node_sub, abs_mul, abs_div, abs_of_pos (by linarith : 0 < (divs : F) - 1)]
  simp

/-- **C150, refuted.** A function that decreases on the whole interval has its minimum at the end of it; `scalar_min_1d` raises an
`IndexError` whenever the first grid is coarser than the step. -/
theorem C150_decreasing_refuted (f : F → F) (s e step : F) (h : s < e) (divs : Nat) (hd : 2 ≤ divs)
    (hf : ∀ a b, s ≤ a → a < b → b ≤ e → f b < f a) (hs : step < (e - s) / ((divs : F) - 1)) (fuel : Nat) :
    scalarMin same f s e step divs (fuel + 1) = some .indexError := by
  obtain ⟨i, hi, e1, hmin⟩ := first_spec f s e divs (by omega)
  have hlast : i = divs - 1 := by
    by_contra hc
    have h1 := hmin (divs - 1) (by omega)
    have h2 := node_lt h hd (show i < divs - 1 by omega)
    have := hf _ _ (node_mem h hd hi).1 h2 (node_mem h hd (by omega)).2
    exact absurd h1 (not_le.2 this)
  unfold scalarMin wrap
  rw [e1]
  dsimp only
  rw [cell_abs s e divs hd, abs_of_pos (by linarith), if_neg (not_le.2 hs), if_pos (by omega)]

/-- **C150, refuted.** A function that increases on the whole interval has its minimum at the start of it; then the second grid runs
backwards from the end of the interval to the second node, and an `IndexError` follows when that grid is still coarser than the step. -/
theorem C150_increasing_refuted (f : F → F) (s e step : F) (h : s < e) (divs : Nat) (hd : 3 ≤ divs)
    (hf : ∀ a b, s ≤ a → a < b → b ≤ e → f a < f b)
    (hs : step < (e - s) / ((divs : F) - 1) * ((divs : F) - 2) / ((divs : F) - 1)) (fuel : Nat) :
    scalarMin same f s e step divs (fuel + 2) = some .indexError := by
  have hd2 : 2 ≤ divs := by omega
  have hD : (3 : F) ≤ divs := by exact_mod_cast hd
  have hc := cell_pos h hd2
  obtain ⟨i, hi, e1, hmin⟩ := first_spec f s e divs (by omega)
  have hfirst : i = 0 := by
    by_contra hc
    have h1 := hmin 0 (by omega)
    have h2 := node_lt h hd2 (show 0 < i by omega)
    have := hf _ _ (node_mem h hd2 (by omega)).1 h2 (node_mem h hd2 hi).2
    exact absurd h1 (not_le.2 this)
  subst hfirst
  have hone : node s e divs 1 = s + (e - s) / ((divs : F) - 1) := by simp [node]
  have hlt : node s e divs 1 < e := by
    have := node_lt h hd2 (show 1 < divs - 1 by omega)
    rwa [node_last s e hd2] at this
  have hstep : step < (e - s) / ((divs : F) - 1) := by
    refine lt_of_lt_of_le hs ?_
    rw [mul_div_assoc]
    have : ((divs : F) - 2) / ((divs : F) - 1) ≤ 1 := by rw [div_le_one (by linarith)]; linarith
    nlinarith
  unfold scalarMin wrap
  rw [e1]
  dsimp only
  rw [cell_abs s e divs hd2, abs_of_pos (by linarith), if_neg (not_le.2 hstep), if_neg (by omega), if_pos rfl, node_last s e hd2, Nat.zero_add]
  generalize hu : node s e divs 1 = u at *
  -- the second grid goes down from `e` to `u`
  have rev : ∀ k < divs, node e u divs k = node u e divs (divs - 1 - k) := by
    intro k hk
    unfold node
    have h0 : (divs : F) - 1 ≠ 0 := by intro h; linarith
    rw [Nat.cast_sub (by omega), Nat.cast_sub (by omega)]
    push_cast
    field_simp
    ring
  have hsu : s ≤ u := by linarith
  obtain ⟨i, hi, e2, hmin2⟩ := first_spec f e u divs (by omega)
  have hlast : i = divs - 1 := by
    by_contra hc
    have h1 := hmin2 (divs - 1) (by omega)
    rw [rev i hi, rev (divs - 1) (by omega)] at h1
    have h2 := node_lt hlt hd2 (show divs - 1 - (divs - 1) < divs - 1 - i by omega)
    have := hf _ _ (le_trans hsu (node_mem hlt hd2 (by omega)).1) h2 (node_mem hlt hd2 (by omega)).2
    exact absurd h1 (not_le.2 this)
  unfold wrap
  rw [e2]
  dsimp only
  rw [cell_abs e u divs hd2, if_neg, if_pos (by omega)]
  rw [abs_of_neg (by linarith), not_le, hone]
  refine lt_of_lt_of_le hs (le_of_eq ?_)
  have h0 : (divs : F) - 1 ≠ 0 := by intro h; linarith
  field_simp
  ring

/-- Strictly decreasing up to `x`, strictly increasing from there on. -/
def Valley (f : F → F) (s x e : F) : Prop :=
  (∀ a b, s ≤ a → a < b → b ≤ x → f b < f a) ∧ (∀ a b, x ≤ a → a < b → b ≤ e → f a < f b)

theorem valley_index (f : F → F) (s x e : F) (h : s < e) (divs : Nat) (hd : 2 ≤ divs) (hf : Valley f s x e)
    (i : Nat) (hi : i < divs) (hmin : ∀ k < divs, f (node s e divs i) ≤ f (node s e divs k)) :
    (0 < i → node s e divs (i - 1) < x) ∧ (i + 1 < divs → x < node s e divs (i + 1)) := by
  constructor
  · intro h0
    by_contra hc
    have := hf.2 _ _ (not_lt.1 hc) (node_lt h hd (show i - 1 < i by omega)) (node_mem h hd hi).2
    exact absurd (hmin (i - 1) (by omega)) (not_le.2 this)
  · intro h1
    by_contra hc
    have := hf.1 _ _ (node_mem h hd hi).1 (node_lt h hd (show i < i + 1 by omega)) (not_lt.1 hc)
    exact absurd (hmin (i + 1) h1) (not_le.2 this)

/-- **C150, what holds.** For a function with one valley at `x` a grid finer than the step gives the minimum to within the step. -/
theorem C150_fine_partial (f : F → F) (s x e step : F) (h : s < e) (hx : s ≤ x ∧ x ≤ e) (divs : Nat) (hd : 2 ≤ divs) (hf : Valley f s x e)
    (hs : (e - s) / ((divs : F) - 1) ≤ step) (fuel : Nat) :
    ∃ t, scalarMin same f s e step divs (fuel + 1) = some (.value t) ∧ |t - x| ≤ step := by
  obtain ⟨i, hi, e1, hmin⟩ := first_spec f s e divs (by omega)
  obtain ⟨v1, v2⟩ := valley_index f s x e h divs hd hf i hi hmin
  refine ⟨node s e divs i, ?_, ?_⟩
  · unfold scalarMin wrap
    rw [e1]
    dsimp only
    rw [cell_abs s e divs hd, abs_of_pos (by linarith), if_pos hs]
  · have up : node s e divs (i + 1) = node s e divs i + (e - s) / ((divs : F) - 1) := by unfold node; push_cast; ring
    rw [abs_le]
    constructor
    · rcases Nat.lt_or_ge (i + 1) divs with h1 | h1
      · have := v2 h1; rw [up] at this; linarith
      · have : i = divs - 1 := by omega
        rw [this, node_last s e hd]
        have := cell_pos h hd
        linarith [hx.2]
    · rcases Nat.eq_zero_or_pos i with h0 | h0
      · rw [h0, node_zero]
        have := cell_pos h hd
        linarith [hx.1]
      · have := v1 h0
        have dn : node s e divs i = node s e divs (i - 1) + (e - s) / ((divs : F) - 1) := by
          unfold node; rw [Nat.cast_sub (by omega)]; push_cast; ring
        linarith

/-- **C150, what holds.** A coarser grid whose least value is at an inner node is searched again on a part that still has the minimum inside. -/
theorem C150_inner_partial (f : F → F) (s x e step : F) (h : s < e) (divs : Nat) (hd : 2 ≤ divs) (hf : Valley f s x e)
    (hs : step < (e - s) / ((divs : F) - 1)) (i : Nat) (h0 : 0 < i) (h1 : i + 1 < divs) (hi : firstIndex same f s e divs = some i) (fuel : Nat) :
    ∃ s' e', scalarMin same f s e step divs (fuel + 1) = scalarMin same f s' e' step divs fuel ∧
      s ≤ s' ∧ s' < x ∧ x < e' ∧ e' ≤ e ∧ e' - s' = 2 * ((e - s) / ((divs : F) - 1)) ∧ Valley f s' x e' := by
  obtain ⟨j, hj, e1, hmin⟩ := first_spec f s e divs (by omega)
  obtain rfl : i = j := by rw [hi] at e1; exact Option.some.inj e1
  obtain ⟨v1, v2⟩ := valley_index f s x e h divs hd hf i hj hmin
  refine ⟨node s e divs (i - 1), node s e divs (i + 1), ?_, (node_mem h hd (by omega)).1, v1 h0, v2 h1, (node_mem h hd h1).2, ?_, ?_⟩
  · unfold scalarMin
    rw [wrap, hi]
    dsimp only
    rw [cell_abs s e divs hd, abs_of_pos (by linarith), if_neg (not_le.2 hs), if_neg (by omega), if_neg (by omega)]
  · rw [node_sub, Nat.cast_sub (by omega)]; push_cast; ring
  · have b1 := (node_mem h hd (show i - 1 < divs by omega)).1
    have b2 := (node_mem h hd h1).2
    exact ⟨fun a b p q r => hf.1 a b (le_trans b1 p) q r, fun a b p q r => hf.2 a b p q (le_trans r b2)⟩

/-- The least value is neither at the first nor at the last node. -/
theorem inner_index (f : F → F) (s e : F) (divs : Nat) (hd : 3 ≤ divs)
    (h0 : f (node s e divs 1) < f (node s e divs 0)) (h1 : f (node s e divs (divs - 2)) ≤ f (node s e divs (divs - 1))) :
    ∃ i, 0 < i ∧ i + 1 < divs ∧ firstIndex same f s e divs = some i ∧ (∀ k < i, f (node s e divs i) < f (node s e divs k)) ∧
      ∀ k < divs, f (node s e divs i) ≤ f (node s e divs k) := by
  obtain ⟨i, hi, e1, hmin⟩ := first_spec f s e divs (by omega)
  have hfirst : ∀ k < i, f (node s e divs i) < f (node s e divs k) := by
    intro k hk
    rcases lt_or_eq_of_le (hmin k (by omega)) with h | h
    · exact h
    · exfalso
      obtain ⟨m1, m, hm, m2⟩ := least_spec f s e divs (by omega)
      have hl : f (node s e divs k) = least f s e divs := by
        apply le_antisymm
        · rw [m2, ← h]; exact hmin m hm
        · exact m1 k (by omega)
      unfold firstIndex at e1
      rw [List.find?_range_eq_some] at e1
      have := e1.2.2 k hk
      rw [hl] at this
      simp [same] at this
  refine ⟨i, ?_, ?_, e1, hfirst, hmin⟩
  · rcases Nat.eq_zero_or_pos i with rfl | h
    · exact absurd (hmin 1 (by omega)) (not_le.2 h0)
    · exact h
  · by_contra hc
    have : i = divs - 1 := by omega
    subst this
    exact absurd h1 (not_le.2 (hfirst (divs - 2) (by omega)))

/-- **C150, what holds.** If the function has one valley and the values at the first two nodes fall and at the last two do not fall, the
search ends, with the minimum to within the step. -/
theorem C150_inside_partial [Archimedean F] (f : F → F) (x step : F) (hstep : 0 < step) (divs : Nat) (hd : 4 ≤ divs) (s e : F) (h : s < e)
    (hx : s ≤ x ∧ x ≤ e) (hf : Valley f s x e) (h0 : f (node s e divs 1) < f (node s e divs 0))
    (h1 : f (node s e divs (divs - 2)) ≤ f (node s e divs (divs - 1))) :
    ∃ fuel t, scalarMin same f s e step divs fuel = some (.value t) ∧ |t - x| ≤ step := by
  have hD : (4 : F) ≤ divs := by exact_mod_cast hd
  have key : ∀ K : Nat, ∀ s e : F, s < e → s ≤ x ∧ x ≤ e → Valley f s x e → f (node s e divs 1) < f (node s e divs 0) →
      f (node s e divs (divs - 2)) ≤ f (node s e divs (divs - 1)) → 2 ^ K * (e - s) ≤ 3 ^ K * step →
      ∃ fuel t, scalarMin same f s e step divs fuel = some (.value t) ∧ |t - x| ≤ step := by
    intro K
    induction K with
    | zero =>
      intro s e h hx hf h0 h1 hK
      rw [pow_zero, pow_zero, one_mul, one_mul] at hK
      obtain ⟨t, a, b⟩ := C150_fine_partial f s x e step h hx divs (by omega) hf (by
        rw [div_le_iff₀ (by linarith)]; nlinarith) 0
      exact ⟨1, t, a, b⟩
    | succ K ih =>
      intro s e h hx hf h0 h1 hK
      rcases le_or_gt ((e - s) / ((divs : F) - 1)) step with hs | hs
      · obtain ⟨t, a, b⟩ := C150_fine_partial f s x e step h hx divs (by omega) hf hs 0
        exact ⟨1, t, a, b⟩
      · obtain ⟨i, i0, i1, ei, hlt, hmin⟩ := inner_index f s e divs (by omega) h0 h1
        obtain ⟨v1, v2⟩ := valley_index f s x e h divs (by omega) hf i (by omega) hmin
        have w := cell_pos h (show 2 ≤ divs by omega)
        have d1 : node s e divs (i - 1) = node s e divs i - (e - s) / ((divs : F) - 1) := by
          unfold node; rw [Nat.cast_sub (by omega)]; push_cast; ring
        have d2 : node s e divs (i + 1) = node s e divs i + (e - s) / ((divs : F) - 1) := by unfold node; push_cast; ring
        have hl1 := hlt (i - 1) (by omega)
        have hl2 := hmin (i + 1) i1
        have m1 := (node_mem h (show 2 ≤ divs by omega) (show i - 1 < divs by omega)).1
        have m2 := (node_mem h (show 2 ≤ divs by omega) i1).2
        have hstep' : ∀ fuel, scalarMin same f s e step divs (fuel + 1) =
            scalarMin same f (node s e divs (i - 1)) (node s e divs (i + 1)) step divs fuel := by
          intro fuel
          unfold scalarMin
          rw [wrap, ei]
          dsimp only
          rw [cell_abs s e divs (by omega), abs_of_pos (by linarith), if_neg (not_le.2 hs), if_neg (by omega), if_neg (by omega)]
        have hv1 := v1 i0
        have hv2 := v2 i1
        have hw : 2 * ((e - s) / ((divs : F) - 1)) * 3 ≤ 2 * (e - s) := by
          rw [mul_assoc, div_mul_eq_mul_div]
          have : (e - s) * 3 / ((divs : F) - 1) ≤ e - s := by rw [div_le_iff₀ (by linarith)]; nlinarith
          linarith
        generalize node s e divs (i - 1) = s' at *
        generalize node s e divs (i + 1) = e' at *
        generalize node s e divs i = m at *
        generalize (e - s) / ((divs : F) - 1) = c at *
        have hse : s' < e' := lt_trans hv1 hv2
        have n0 : node s' e' divs 0 = s' := node_zero _ _ _
        have nl : node s' e' divs (divs - 1) = e' := node_last _ _ (by omega)
        have n1 : s' < node s' e' divs 1 := by have := node_lt hse (show 2 ≤ divs by omega) (show 0 < 1 by omega); rwa [n0] at this
        have nk : node s' e' divs (divs - 2) < e' := by
          have := node_lt hse (show 2 ≤ divs by omega) (show divs - 2 < divs - 1 by omega); rwa [nl] at this
        have c1 : (e' - s') / ((divs : F) - 1) ≤ c := by
          rw [div_le_iff₀ (by linarith), d1, d2]; nlinarith
        have u1 : node s' e' divs 1 ≤ m := by
          have : node s' e' divs 1 = s' + (e' - s') / ((divs : F) - 1) := by simp [node]
          rw [this]; linarith
        have u2 : m ≤ node s' e' divs (divs - 2) := by
          have : node s' e' divs (divs - 2) = e' - (e' - s') / ((divs : F) - 1) := by
            rw [← nl]
            have := node_sub s' e' divs (divs - 2) (divs - 1)
            rw [Nat.cast_sub (by omega), Nat.cast_sub (by omega)] at this
            push_cast at this
            rw [nl] at this ⊢
            linarith
          rw [this]; linarith
        have q0 : f (node s' e' divs 1) < f (node s' e' divs 0) := by
          rw [n0]
          rcases le_total (node s' e' divs 1) x with hc | hc
          · exact hf.1 _ _ m1 n1 hc
          · rcases lt_or_eq_of_le u1 with hu | hu
            · exact lt_trans (hf.2 _ _ hc hu (by linarith)) hl1
            · rw [hu]; exact hl1
        have q1 : f (node s' e' divs (divs - 2)) ≤ f (node s' e' divs (divs - 1)) := by
          rw [nl]
          rcases le_total x (node s' e' divs (divs - 2)) with hc | hc
          · exact le_of_lt (hf.2 _ _ hc nk m2)
          · rcases lt_or_eq_of_le u2 with hu | hu
            · exact le_trans (le_of_lt (hf.1 _ _ (by linarith) hu hc)) hl2
            · rw [← hu]; exact hl2
        obtain ⟨fuel, t, a, b⟩ := ih s' e' hse ⟨le_of_lt hv1, le_of_lt hv2⟩
          ⟨fun a b p q r => hf.1 a b (le_trans m1 p) q r, fun a b p q r => hf.2 a b p q (le_trans r m2)⟩ q0 q1 (by
            have hp : (0 : F) < 2 ^ K := by positivity
            have : e' - s' = 2 * c := by rw [d1, d2]; ring
            rw [this]
            rw [pow_succ, pow_succ] at hK
            nlinarith)
        exact ⟨fuel + 1, t, by rw [hstep']; exact a, b⟩
  obtain ⟨K, hK⟩ := exists_nat_gt (2 * ((e - s) / step))
  refine key K s e h hx hf h0 h1 ?_
  -- (3/2)^K ≥ 1 + K/2
  have bern : ∀ K : Nat, 2 ^ K * ((K : F) / 2) ≤ 3 ^ K := by
    intro K
    have : ∀ K : Nat, 2 ^ K * (1 + (K : F) / 2) ≤ 3 ^ K := by
      intro K
      induction K with
      | zero => simp
      | succ K ih =>
        have hp : (0 : F) ≤ 2 ^ K := by positivity
        have hk : (0 : F) ≤ K := Nat.cast_nonneg K
        rw [pow_succ, pow_succ]
        push_cast
        nlinarith [mul_nonneg hp hk]
    have hp : (0 : F) ≤ 2 ^ K := by positivity
    have := this K
    nlinarith
  have hb := bern K
  have hq : e - s ≤ (K : F) / 2 * step := by
    have := (div_le_iff₀ hstep).1 (show (e - s) / step ≤ (K : F) / 2 by linarith)
    exact this
  have hp : (0 : F) < 2 ^ K := by positivity
  calc 2 ^ K * (e - s) ≤ 2 ^ K * ((K : F) / 2 * step) := by nlinarith
    _ = 2 ^ K * ((K : F) / 2) * step := by ring
    _ ≤ 3 ^ K * step := by nlinarith

/-- **C150, refuted.** With `divs=3` the search does not end: the second grid is the first one. -/
theorem C150_three_refuted (f : F → F) (s e step : F) (h : s < e) (h0 : f ((s + e) / 2) < f s) (h1 : f ((s + e) / 2) ≤ f e)
    (hs : step < (e - s) / 2) (fuel : Nat) : scalarMin same f s e step 3 fuel = none := by
  have n0 : node s e 3 0 = s := node_zero _ _ _
  have n1 : node s e 3 1 = (s + e) / 2 := by unfold node; push_cast; ring
  have n2 : node s e 3 2 = e := node_last s e (show 2 ≤ 3 by omega)
  obtain ⟨i, i0, i1, ei, _⟩ := inner_index f s e 3 (le_refl _) (by rw [n0, n1]; exact h0) (by
    show f (node s e 3 1) ≤ f (node s e 3 2)
    rw [n1, n2]; exact h1)
  obtain rfl : i = 1 := by omega
  unfold scalarMin
  induction fuel with
  | zero => rfl
  | succ fuel ih =>
    rw [wrap, ei]
    dsimp only
    rw [if_neg, if_neg (by omega), if_neg (by omega), n0, n2]
    · exact ih
    · rw [n0, n1, not_le, abs_of_neg] <;> linarith

/-- A parabola meets the hypotheses of `C150_inside_partial`. -/
example : Valley (fun x : ℚ => (x - 1 / 3) * (x - 1 / 3)) 0 (1 / 3) 1 := by
  constructor
  · intro a b _ h1 h2; nlinarith
  · intro a b h1 h2 _; nlinarith

/-- A parabola whose minimum lies inside. -/
example : scalarMin same (fun x : ℚ => (x - 1 / 3) * (x - 1 / 3)) 0 1 (1 / 10) 5 10 = some (.value (5 / 16)) := by decide +kernel

/-- A straight line. -/
example : scalarMin same (fun x : ℚ => -x) 0 1 (1 / 10) 5 10 = some .indexError ∧
    scalarMin same (fun x : ℚ => x) 0 1 (1 / 10) 5 10 = some .indexError := by decide +kernel

end

end Verif.Bisect
