import Verif.Prim.Model
import Mathlib.Tactic.Linarith
import Mathlib.Tactic.Ring
import Mathlib.Tactic.FieldSimp
import Mathlib.Tactic.NormNum
import Mathlib.Tactic.Positivity
import Mathlib.Tactic.LinearCombination
import Mathlib.Tactic.SplitIfs

set_option linter.unusedSectionVars false

/-!
# Lengths and distances
-/

namespace Verif.Prim

/-- The distance of two points. -/
noncomputable def dist (p q : P) : ℝ := norm (sub p q)

/-- The point reached from `p` by going `t` times along `g`. -/
def along (p g : P) (t : ℝ) : P := ⟨p.x + t * g.x, p.y + t * g.y, p.z + t * g.z⟩

/-- `t` times a vector. -/
def smul (t : ℝ) (g : P) : P := ⟨t * g.x, t * g.y, t * g.z⟩

theorem norm_nonneg (a : P) : 0 ≤ norm a := Real.sqrt_nonneg _

theorem dot_self_nonneg (a : P) : 0 ≤ dot a a := by
  have h1 := mul_self_nonneg a.x
  have h2 := mul_self_nonneg a.y
  have h3 := mul_self_nonneg a.z
  unfold dot
  linarith

theorem norm_sq (a : P) : norm a ^ 2 = dot a a := by
  have h : a.x ^ 2 + a.y ^ 2 + a.z ^ 2 = dot a a := by unfold dot; ring
  unfold norm
  rw [h]
  exact Real.sq_sqrt (dot_self_nonneg a)

theorem norm_eq (a : P) : norm a = √(dot a a) := by
  unfold norm dot
  congr 1
  ring

theorem norm_eq_of_sq (a : P) (n : ℝ) (hn : 0 ≤ n) (h : dot a a = n ^ 2) : norm a = n := by
  rw [norm_eq, h]
  exact Real.sqrt_sq hn

theorem dot_comm (a b : P) : dot a b = dot b a := by unfold dot; ring

theorem dot_sq_le (a b : P) : dot a b ^ 2 ≤ dot a a * dot b b := by
  have h : dot a a * dot b b - dot a b ^ 2 = (a.x * b.y - a.y * b.x) ^ 2 + (a.y * b.z - a.z * b.y) ^ 2 +
      (a.z * b.x - a.x * b.z) ^ 2 := by
    unfold dot
    ring
  have h1 := sq_nonneg (a.x * b.y - a.y * b.x)
  have h2 := sq_nonneg (a.y * b.z - a.z * b.y)
  have h3 := sq_nonneg (a.z * b.x - a.x * b.z)
  linarith

theorem abs_dot_le (a b : P) : |dot a b| ≤ norm a * norm b := by
  refine abs_le_of_sq_le_sq ?_ (mul_nonneg (norm_nonneg a) (norm_nonneg b))
  rw [mul_pow, norm_sq, norm_sq]
  exact dot_sq_le a b

theorem norm_smul (t : ℝ) (a : P) : norm (smul t a) = |t| * norm a := by
  refine norm_eq_of_sq _ _ (mul_nonneg (abs_nonneg t) (norm_nonneg a)) ?_
  rw [mul_pow, norm_sq, sq_abs]
  unfold dot smul
  ring

theorem norm_sub_ge (a b : P) : |norm a - norm b| ≤ norm (sub a b) := by
  refine abs_le_of_sq_le_sq ?_ (norm_nonneg _)
  have h1 := norm_sq (sub a b)
  have h2 : dot (sub a b) (sub a b) = dot a a - 2 * dot a b + dot b b := by
    unfold dot sub
    ring
  have h3 := le_of_abs_le (abs_dot_le a b)
  rw [h1, h2, ← norm_sq a, ← norm_sq b]
  nlinarith

theorem norm_zero_iff (a : P) : norm a = 0 ↔ a = ⟨0, 0, 0⟩ := by
  constructor
  · intro h
    have h1 := norm_sq a
    rw [h] at h1
    unfold dot at h1
    have hx := mul_self_nonneg a.x
    have hy := mul_self_nonneg a.y
    have hz := mul_self_nonneg a.z
    ext
    · have : a.x * a.x = 0 := by linarith
      simpa using this
    · have : a.y * a.y = 0 := by linarith
      simpa using this
    · have : a.z * a.z = 0 := by linarith
      simpa using this
  · rintro rfl
    unfold norm
    norm_num

theorem dist_zero_iff (p q : P) : dist p q = 0 ↔ p = q := by
  unfold dist
  rw [norm_zero_iff]
  unfold sub
  constructor
  · intro h
    have h1 := congrArg P.x h
    have h2 := congrArg P.y h
    have h3 := congrArg P.z h
    ext
    · exact sub_eq_zero.mp h1
    · exact sub_eq_zero.mp h2
    · exact sub_eq_zero.mp h3
  · rintro rfl
    simp

theorem dist_along (p g : P) (t : ℝ) : dist p (along p g t) = |t| * norm g := by
  have h : sub p (along p g t) = smul (-t) g := by
    unfold sub along smul
    ext <;> dsimp only <;> ring
  unfold dist
  rw [h, norm_smul, abs_neg]

theorem dist_nonneg (p q : P) : 0 ≤ dist p q := norm_nonneg _

theorem dist_tri (p q o : P) : |dist p o - dist q o| ≤ dist p q := by
  have h := norm_sub_ge (sub p o) (sub q o)
  have e : sub (sub p o) (sub q o) = sub p q := by
    unfold sub
    ext <;> dsimp only <;> ring
  rw [e] at h
  exact h

/-- A vector divided by its length. -/
theorem div_norm (a g : P) (h : div a (norm a) = some g) :
    norm a ≠ 0 ∧ norm g = 1 ∧ a = smul (norm a) g := by
  unfold div at h
  by_cases hn : norm a = 0
  · rw [if_pos hn] at h
    exact absurd h (by simp)
  · rw [if_neg hn] at h
    have hg := Option.some.inj h
    have e : a = smul (norm a) g := by
      rw [← hg]
      unfold smul
      ext <;> dsimp only <;> field_simp
    refine ⟨hn, ?_, e⟩
    have h1 : norm a = |norm a| * norm g := by
      conv_lhs => rw [e]
      exact norm_smul _ _
    rw [abs_of_nonneg (norm_nonneg a)] at h1
    have h2 : norm a * (norm g - 1) = 0 := by linarith
    rcases mul_eq_zero.mp h2 with h3 | h3
    · exact absurd h3 hn
    · linarith

theorem div_norm_none (a : P) : div a (norm a) = none ↔ a = ⟨0, 0, 0⟩ := by
  unfold div
  rw [← norm_zero_iff]
  split_ifs with h <;> simp [h]

end Verif.Prim
