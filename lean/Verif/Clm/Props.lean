import Verif.Clm.Model
import Mathlib.Tactic.Ring
import Mathlib.Tactic.Linarith
import Mathlib.Tactic.FieldSimp
import Mathlib.Tactic.NormNum
import Mathlib.Tactic.Positivity
import Mathlib.Tactic.LinearCombination

set_option linter.unusedSectionVars false

/-! # Boxes, grids and turned vectors in the plane (C479) -/

namespace Verif.Clm

variable {K : Type} [Field K] [LinearOrder K] [IsStrictOrderedRing K]

theorem one_dim (l h p q : K) (hlh : l ≤ h) (h1 : l ≤ q) (h2 : q ≤ h) :
    l ≤ max l (min h p) ∧ max l (min h p) ≤ h ∧ (p - max l (min h p)) ^ 2 + (q - max l (min h p)) ^ 2 ≤ (p - q) ^ 2 := by
  rcases le_total h p with a | a
  · rw [min_eq_left a, max_eq_right hlh]
    exact ⟨hlh, le_rfl, by nlinarith [mul_nonneg (sub_nonneg.2 a) (sub_nonneg.2 h2)]⟩
  · rw [min_eq_right a]
    rcases le_total l p with b | b
    · rw [max_eq_right b]
      exact ⟨b, a, by nlinarith [sq_nonneg (p - q)]⟩
    · rw [max_eq_left b]
      exact ⟨le_rfl, hlh, by nlinarith [mul_nonneg (sub_nonneg.2 b) (sub_nonneg.2 h1)]⟩

/-- **C479, the nearest point of a box in the plane**: the result is in the box, and every other point of the box is farther away, by at least the square of
its distance from the result. -/
theorem C479_nearest_partial (p0 p1 l0 l1 h0 h1 : K) (e0 : l0 ≤ h0) (e1 : l1 ≤ h1) :
    ∃ r0 r1, clamp [p0, p1] [l0, l1] [h0, h1] = some [r0, r1] ∧ l0 ≤ r0 ∧ r0 ≤ h0 ∧ l1 ≤ r1 ∧ r1 ≤ h1 ∧
      ∀ q0 q1, l0 ≤ q0 → q0 ≤ h0 → l1 ≤ q1 → q1 ≤ h1 →
        (p0 - r0) ^ 2 + (p1 - r1) ^ 2 + ((q0 - r0) ^ 2 + (q1 - r1) ^ 2) ≤ (p0 - q0) ^ 2 + (p1 - q1) ^ 2 := by
  obtain ⟨a1, a2, _⟩ := one_dim l0 h0 p0 l0 e0 le_rfl e0
  obtain ⟨b1, b2, _⟩ := one_dim l1 h1 p1 l1 e1 le_rfl e1
  refine ⟨_, _, rfl, a1, a2, b1, b2, fun q0 q1 c0 c1 c2 c3 => ?_⟩
  obtain ⟨_, _, a3⟩ := one_dim l0 h0 p0 q0 e0 c0 c1
  obtain ⟨_, _, b3⟩ := one_dim l1 h1 p1 q1 e1 c2 c3
  linarith

/-- **C479, boxes in space, refuted.** Whatever the number of coordinates, the result has two. -/
theorem C479_space_refuted (p lo hi r : List K) (hp : 2 < p.length) (h : clamp p lo hi = some r) : r.length = 2 ∧ r.length ≠ p.length := by
  have : r.length = 2 := by
    unfold clamp at h
    simp only [Option.bind_eq_bind, Option.bind_eq_some_iff] at h
    obtain ⟨_, _, _, _, _, _, _, _, _, _, _, _, h⟩ := h
    cases h
    rfl
  exact ⟨this, by omega⟩

/-- **C479, the union of two ranges**: the least range with both in it. -/
theorem C479_expand (a b c d : K) : ∃ x y, expand [a, b] [c, d] = some [x, y] ∧ x ≤ a ∧ x ≤ c ∧ b ≤ y ∧ d ≤ y ∧
    ∀ x' y', x' ≤ a → x' ≤ c → b ≤ y' → d ≤ y' → x' ≤ x ∧ y ≤ y' :=
  ⟨_, _, rfl, min_le_left _ _, min_le_right _ _, le_max_left _ _, le_max_right _ _, fun _ _ h1 h2 h3 h4 => ⟨le_min h1 h2, max_le h3 h4⟩⟩

/-- **C479, a turn by a right angle to the left**: perpendicular, of the same length, counter-clockwise; two turns give the opposite vector. -/
theorem C479_turn (x y : K) : ∃ x' y', perp2d [x, y] = some [x', y'] ∧ x * x' + y * y' = 0 ∧ x' ^ 2 + y' ^ 2 = x ^ 2 + y ^ 2 ∧
    x * y' - y * x' = x ^ 2 + y ^ 2 ∧ perp2d [x', y'] = some [-x, -y] :=
  ⟨-y, x, rfl, by ring, by ring, by ring, rfl⟩

/-- **C479, a turn in space, refuted**: a third component stays, and the result is perpendicular to the vector only where it is zero. -/
theorem C479_turn_space_refuted (x y z : K) : ∃ x' y' z', perp2d [x, y, z] = some [x', y', z'] ∧ (x * x' + y * y' + z * z' = 0 ↔ z = 0) := by
  refine ⟨-y, x, z, rfl, ?_⟩
  constructor
  · intro h
    have : z * z = 0 := by linear_combination h
    exact mul_self_eq_zero.1 this
  · rintro rfl
    ring

theorem linspace_eq (a b : K) (n i : ℕ) (hn : 2 ≤ n) (_ : i < n) : linspace a b n i = a + i * ((b - a) / ((n - 1 : ℕ) : K)) := by
  have h0 : ((n - 1 : ℕ) : K) ≠ 0 := Nat.cast_ne_zero.2 (by omega)
  unfold linspace
  rw [if_neg (by omega)]
  split
  · next h => rw [h, mul_div_cancel₀ _ h0]; ring
  · rfl

theorem linspace_lt (a b : K) (hab : a < b) (n i j : ℕ) (hij : i < j) (hj : j < n) : linspace a b n i < linspace a b n j := by
  rw [linspace_eq a b n i (by omega) (by omega), linspace_eq a b n j (by omega) hj]
  have h0 : (0 : K) < ((n - 1 : ℕ) : K) := Nat.cast_pos.2 (by omega)
  have h1 : 0 < (b - a) / ((n - 1 : ℕ) : K) := div_pos (sub_pos.2 hab) h0
  have h2 : (i : K) < j := Nat.cast_lt.2 hij
  have := mul_lt_mul_of_pos_right h2 h1
  linarith

theorem linspace_mem (a b : K) (hab : a ≤ b) (n i : ℕ) (hi : i < n) : a ≤ linspace a b n i ∧ linspace a b n i ≤ b := by
  by_cases hn : 2 ≤ n
  · rw [linspace_eq a b n i hn hi]
    have h0 : (0 : K) < ((n - 1 : ℕ) : K) := Nat.cast_pos.2 (by omega)
    have h1 : 0 ≤ (b - a) / ((n - 1 : ℕ) : K) := div_nonneg (sub_nonneg.2 hab) h0.le
    have h2 : (i : K) ≤ ((n - 1 : ℕ) : K) := Nat.cast_le.2 (by omega)
    have h3 := mul_le_mul_of_nonneg_right h2 h1
    rw [mul_div_cancel₀ _ h0.ne'] at h3
    have h4 : (0 : K) ≤ i := Nat.cast_nonneg i
    exact ⟨by nlinarith, by linarith⟩
  · unfold linspace
    rw [if_pos (by omega)]
    exact ⟨le_rfl, hab⟩

/-- The point of a grid in row `i` and column `j`. -/
def at? (g : List (List (K × K))) (i j : ℕ) : Option (K × K) := (g[i]?).bind fun r => r[j]?

theorem at_grid (nu nv : ℕ) (bu bv : K × K) (i j : ℕ) (hi : i < nu) (hj : j < nv) :
    at? (pointGrid nu nv bu bv) i j = some (linspace bu.1 bu.2 nu i, linspace bv.1 bv.2 nv j) := by
  simp [at?, pointGrid, hi, hj]

/-- **C479, grids**: the grid has the rows and columns asked for, its points are in the rectangle, neighbours are at equal distances, and the corners are
those of the rectangle. -/
theorem C479_grid (nu nv : ℕ) (bu bv : K × K) (hu : bu.1 ≤ bu.2) (hv : bv.1 ≤ bv.2) :
    (pointGrid nu nv bu bv).length = nu ∧ (∀ r ∈ pointGrid nu nv bu bv, r.length = nv) ∧
    (∀ i j, i < nu → j < nv → ∃ u v, at? (pointGrid nu nv bu bv) i j = some (u, v) ∧ bu.1 ≤ u ∧ u ≤ bu.2 ∧ bv.1 ≤ v ∧ v ≤ bv.2) ∧
    (2 ≤ nu → 2 ≤ nv → at? (pointGrid nu nv bu bv) 0 0 = some (bu.1, bv.1) ∧ at? (pointGrid nu nv bu bv) 0 (nv - 1) = some (bu.1, bv.2) ∧
      at? (pointGrid nu nv bu bv) (nu - 1) 0 = some (bu.2, bv.1) ∧ at? (pointGrid nu nv bu bv) (nu - 1) (nv - 1) = some (bu.2, bv.2) ∧
      ∀ i j, i < nu → j < nv → at? (pointGrid nu nv bu bv) i j =
        some (bu.1 + i * ((bu.2 - bu.1) / ((nu - 1 : ℕ) : K)), bv.1 + j * ((bv.2 - bv.1) / ((nv - 1 : ℕ) : K)))) := by
  have first : ∀ (a b : K) n, 2 ≤ n → linspace a b n 0 = a := fun a b n hn => by rw [linspace_eq a b n 0 hn (by omega)]; simp
  have last : ∀ (a b : K) n, 2 ≤ n → linspace a b n (n - 1) = b := fun a b n hn => by
    unfold linspace; rw [if_neg (by omega), if_pos rfl]
  refine ⟨by simp [pointGrid], ?_, fun i j hi hj => ?_, fun h2 h3 => ?_⟩
  · intro r hr
    obtain ⟨i, _, rfl⟩ := List.mem_map.1 hr
    simp
  · obtain ⟨a, b⟩ := linspace_mem bu.1 bu.2 hu nu i hi
    obtain ⟨c, d⟩ := linspace_mem bv.1 bv.2 hv nv j hj
    exact ⟨_, _, at_grid nu nv bu bv i j hi hj, a, b, c, d⟩
  · refine ⟨?_, ?_, ?_, ?_, fun i j hi hj => ?_⟩
    · rw [at_grid _ _ _ _ _ _ (by omega) (by omega), first _ _ _ h2, first _ _ _ h3]
    · rw [at_grid _ _ _ _ _ _ (by omega) (by omega), first _ _ _ h2, last _ _ _ h3]
    · rw [at_grid _ _ _ _ _ _ (by omega) (by omega), last _ _ _ h2, first _ _ _ h3]
    · rw [at_grid _ _ _ _ _ _ (by omega) (by omega), last _ _ _ h2, last _ _ _ h3]
    · rw [at_grid _ _ _ _ _ _ hi hj, linspace_eq _ _ _ _ h2 hi, linspace_eq _ _ _ _ h3 hj]

/-- **C479, grids without repetition**: in a rectangle with sides above zero different places hold different points. -/
theorem C479_distinct (nu nv : ℕ) (bu bv : K × K) (hu : bu.1 < bu.2) (hv : bv.1 < bv.2) (i j i' j' : ℕ) (hi : i < nu) (hj : j < nv)
    (hi' : i' < nu) (hj' : j' < nv) (h : at? (pointGrid nu nv bu bv) i j = at? (pointGrid nu nv bu bv) i' j') : i = i' ∧ j = j' := by
  rw [at_grid _ _ _ _ _ _ hi hj, at_grid _ _ _ _ _ _ hi' hj', Option.some.injEq, Prod.mk.injEq] at h
  have inj : ∀ (a b : K), a < b → ∀ n i i', i < n → i' < n → linspace a b n i = linspace a b n i' → i = i' := by
    intro a b hab n i i' h1 h2 he
    rcases lt_trichotomy i i' with hlt | heq | hlt
    · exact absurd he (linspace_lt a b hab n i i' hlt h2).ne
    · exact heq
    · exact absurd he (linspace_lt a b hab n i' i hlt h1).ne'
  exact ⟨inj _ _ hu _ _ _ hi hi' h.1, inj _ _ hv _ _ _ hj hj' h.2⟩

/-- A point to the right of and below a box. -/
example : clamp ([5, -1] : List ℚ) [0, 0] [2, 3] = some [2, 0] := by decide +kernel

/-- A point in space loses its height. -/
example : clamp ([5, -1, 7] : List ℚ) [0, 0, 0] [2, 3, 4] = some [2, 0] := by decide +kernel

example : expand ([0, 2] : List ℚ) [1, 5] = some [0, 5] := by decide +kernel

/-- Three by two points. -/
example : pointGrid 3 2 ((0 : ℚ), 1) (0, 4) = [[(0, 0), (0, 4)], [(1 / 2, 0), (1 / 2, 4)], [(1, 0), (1, 4)]] := by decide +kernel

end Verif.Clm
