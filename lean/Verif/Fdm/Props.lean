import Verif.Fdm.Loops
import Mathlib.Algebra.Order.Floor.Ring
import Mathlib.Algebra.Order.Ring.Rat
import Mathlib.Data.Rat.Floor
import Mathlib.Tactic.Positivity

/-!
# Gradients and Hessians by finite differences (C142, C143)
-/

set_option linter.unusedSectionVars false

namespace Verif.Fdm
open Finset

section
variable {F : Type} [Field F] [LinearOrder F] [IsStrictOrderedRing F]

theorem pde_eq (f : (Nat → F) → F) (x : Nat → F) (h : F) (i : Nat) :
    pde f x h i = (f (move x i h) - f (move x i (-h))) / (2 * h) := by
  unfold pde
  have e : ∀ s : F, (fun k => x k + if k = i then s else 0) = move x i s := by
    intro s; funext k; unfold move; split_ifs <;> simp
  have e2 : (fun k => x k - if k = i then h else 0) = move x i (-h) := by
    funext k; unfold move; split_ifs <;> ring
  rw [e, e2, div_div]

/-- **C142.** Along an axis on which `f` is a polynomial of degree at most two, `gradient` and `Grad` give the derivative exactly,
whatever the step. -/
theorem C142_gradient (n : Nat) (f : (Nat → F) → F) (x : Nat → F) (h : F) (hh : h ≠ 0) (i : Nat) (hi : i < n) (c0 c1 c2 : F)
    (hf : ∀ s, f (fun k => if k = i then x k + s else x k) = c0 + c1 * s + c2 * s ^ 2) :
    (gradient id n f x h).2 i = c1 ∧ pde f x h i = c1 := by
  have e : (f (move x i h) - f (move x i (-h))) / (2 * h) = c1 := by
    have a := hf h
    have b := hf (-h)
    change f (move x i h) = _ at a
    change f (move x i (-h)) = _ at b
    rw [a, b]
    field_simp
    ring
  refine ⟨?_, ?_⟩
  · rw [(gradient_id n f x h).2 i, if_pos hi, e]
  · rw [pde_eq, e]

/-- **C142.** The error for a polynomial of degree three is `c3 h ^ 2`: the difference quotient is of second order. -/
theorem C142_gradient_order (n : Nat) (f : (Nat → F) → F) (x : Nat → F) (h : F) (hh : h ≠ 0) (i : Nat) (hi : i < n) (c0 c1 c2 c3 : F)
    (hf : ∀ s, f (fun k => if k = i then x k + s else x k) = c0 + c1 * s + c2 * s ^ 2 + c3 * s ^ 3) :
    (gradient id n f x h).2 i - c1 = c3 * h ^ 2 := by
  have a := hf h
  have b := hf (-h)
  change f (move x i h) = _ at a
  change f (move x i (-h)) = _ at b
  rw [(gradient_id n f x h).2 i, if_pos hi, a, b]
  field_simp
  ring

/-- **C142.** The diagonal entries of `hessian` are exact for polynomials of degree at most three along the axis. -/
theorem C142_hessian_diagonal (n : Nat) (f : (Nat → F) → F) (x : Nat → F) (h : F) (hh : h ≠ 0) (i : Nat) (hi : i < n) (c0 c1 c2 c3 : F)
    (hf : ∀ s, f (fun k => if k = i then x k + s else x k) = c0 + c1 * s + c2 * s ^ 2 + c3 * s ^ 3) :
    hessian id n f x h i i = 2 * c2 := by
  have a := hf h
  have b := hf (-h)
  have c := hf 0
  change f (move x i h) = _ at a
  change f (move x i (-h)) = _ at b
  change f (move x i 0) = _ at c
  rw [move_zero] at c
  rw [hessian_entry id n f x h i i hi hi, min_self, max_self, hessEntry_diag, a, b, c]
  field_simp
  ring

/-- **C142.** The mixed entries are exact for polynomials of degree at most three in the two coordinates. -/
theorem C142_hessian_mixed (n : Nat) (f : (Nat → F) → F) (x : Nat → F) (h : F) (hh : h ≠ 0) (i j : Nat) (hi : i < n) (hj : j < n)
    (hij : i ≠ j) (c00 c10 c01 c20 c11 c02 c30 c21 c12 c03 : F)
    (hf : ∀ s t, f (fun k => if k = i then x k + s else if k = j then x k + t else x k) =
      c00 + c10 * s + c01 * t + c20 * s ^ 2 + c11 * s * t + c02 * t ^ 2 + c30 * s ^ 3 + c21 * s ^ 2 * t + c12 * s * t ^ 2 +
        c03 * t ^ 3) :
    hessian id n f x h i j = c11 := by
  have e1 : ∀ s t, f (move (move x i s) j t) = c00 + c10 * s + c01 * t + c20 * s ^ 2 + c11 * s * t + c02 * t ^ 2 + c30 * s ^ 3 +
      c21 * s ^ 2 * t + c12 * s * t ^ 2 + c03 * t ^ 3 := by
    intro s t
    rw [← hf]
    congr 1
    funext k
    unfold move
    split_ifs <;> first | rfl | omega
  have e2 : ∀ s t, f (move (move x j t) i s) = c00 + c10 * s + c01 * t + c20 * s ^ 2 + c11 * s * t + c02 * t ^ 2 + c30 * s ^ 3 +
      c21 * s ^ 2 * t + c12 * s * t ^ 2 + c03 * t ^ 3 := by
    intro s t
    rw [← hf]
    congr 1
    funext k
    unfold move
    split_ifs <;> first | rfl | omega
  rw [hessian_entry id n f x h i j hi hj]
  rcases Nat.lt_or_gt_of_ne hij with hl | hl
  · rw [min_eq_left (le_of_lt hl), max_eq_right (le_of_lt hl), hessEntry_off _ _ _ _ _ hij]
    simp only [e1]
    field_simp
    ring
  · rw [min_eq_right (le_of_lt hl), max_eq_left (le_of_lt hl), hessEntry_off _ _ _ _ _ (Ne.symm hij)]
    simp only [e2]
    field_simp
    ring

/-- **C142.** `hessian` is symmetric for every function. -/
theorem C142_symmetric (cast : F → F) (n : Nat) (f : (Nat → F) → F) (x : Nat → F) (h : F) (i j : Nat) (hi : i < n) (hj : j < n) :
    hessian cast n f x h i j = hessian cast n f x h j i := by
  rw [hessian_entry cast n f x h i j hi hj, hessian_entry cast n f x h j i hj hi, min_comm, max_comm]

/-- A polynomial of degree two in `n` variables. -/
def quad (n : Nat) (c : F) (b : Nat → F) (a : Nat → Nat → F) (x : Nat → F) : F :=
  c + ∑ i ∈ range n, b i * x i + ∑ i ∈ range n, ∑ j ∈ range n, a i j * x i * x j

theorem quad_move (n : Nat) (c : F) (b : Nat → F) (a : Nat → Nat → F) (x : Nat → F) (i : Nat) (hi : i < n) (s : F) :
    quad n c b a (move x i s) = quad n c b a x + (b i + ∑ j ∈ range n, (a i j + a j i) * x j) * s + a i i * s ^ 2 := by
  unfold quad
  have hm : ∀ k, move x i s k = x k + if k = i then s else 0 := by
    intro k; unfold move; split_ifs <;> simp
  simp only [hm]
  have s1 : ∑ k ∈ range n, b k * (x k + if k = i then s else 0) = ∑ k ∈ range n, b k * x k + b i * s := by
    simp only [mul_add, sum_add_distrib, mul_ite, mul_zero]
    rw [sum_ite_eq' (range n) i, if_pos (mem_range.2 hi)]
  have s2 : ∑ k ∈ range n, ∑ l ∈ range n, a k l * (x k + if k = i then s else 0) * (x l + if l = i then s else 0) =
      ∑ k ∈ range n, ∑ l ∈ range n, a k l * x k * x l + (∑ j ∈ range n, (a i j + a j i) * x j) * s + a i i * s ^ 2 := by
    have : ∀ k l, a k l * (x k + if k = i then s else 0) * (x l + if l = i then s else 0) =
        a k l * x k * x l + (if l = i then a k l * x k * s else 0) + (if k = i then (a k l * x l * s + if l = i then a k l * s ^ 2 else 0) else 0) := by
      intro k l; split_ifs <;> ring
    simp only [this, sum_add_distrib]
    have t1 : ∑ k ∈ range n, ∑ l ∈ range n, (if l = i then a k l * x k * s else 0) = ∑ k ∈ range n, a k i * x k * s :=
      sum_congr rfl fun k _ => by rw [sum_ite_eq' (range n) i, if_pos (mem_range.2 hi)]
    have t2 : ∑ k ∈ range n, ∑ l ∈ range n, (if k = i then (a k l * x l * s + if l = i then a k l * s ^ 2 else 0) else 0) =
        ∑ l ∈ range n, a i l * x l * s + a i i * s ^ 2 := by
      rw [sum_comm]
      rw [sum_congr rfl fun l _ => (sum_ite_eq' (range n) i (fun k => (a k l * x l * s + if l = i then a k l * s ^ 2 else 0)))]
      simp only [if_pos (mem_range.2 hi), sum_add_distrib]
      rw [sum_ite_eq' (range n) i (fun l => a i l * s ^ 2), if_pos (mem_range.2 hi)]
    rw [t1, t2]
    simp only [add_mul, sum_add_distrib, sum_mul]
    ring
  rw [s1, s2]
  ring

/-- **C142.** On every quadratic polynomial in any number of variables gradient and Hessian are exact for every step, and the
caller's array is the same afterwards. -/
theorem C142_quadratic (n : Nat) (c : F) (b : Nat → F) (a : Nat → Nat → F) (x : Nat → F) (h : F) (hh : h ≠ 0) :
    (∀ i, i < n → (gradient id n (quad n c b a) x h).2 i = b i + ∑ j ∈ range n, (a i j + a j i) * x j) ∧
    (∀ i j, i < n → j < n → hessian id n (quad n c b a) x h i j = a i j + a j i) := by
  refine ⟨fun i hi => ?_, fun i j hi hj => ?_⟩
  · exact (C142_gradient n _ x h hh i hi _ _ _ (fun s => quad_move n c b a x i hi s)).1
  · by_cases hij : i = j
    · subst hij
      rw [C142_hessian_diagonal n _ x h hh i hi (quad n c b a x)
        (b i + ∑ l ∈ range n, (a i l + a l i) * x l) (a i i) 0 (fun s => by
        have := quad_move n c b a x i hi s
        change quad n c b a (move x i s) = _
        rw [this, zero_mul, add_zero])]
      ring
    · refine C142_hessian_mixed n _ x h hh i j hi hj hij (quad n c b a x) (b i + ∑ l ∈ range n, (a i l + a l i) * x l)
        (b j + ∑ l ∈ range n, (a j l + a l j) * x l) (a i i) _ (a j j) 0 0 0 0 (fun s t => ?_)
      have e : (fun k => if k = i then x k + s else if k = j then x k + t else x k) = move (move x i s) j t := by
        funext k
        unfold move
        split_ifs <;> first | rfl | omega
      rw [e, quad_move n c b a _ j hj t, quad_move n c b a x i hi s]
      have es : ∑ l ∈ range n, (a j l + a l j) * move x i s l = ∑ l ∈ range n, (a j l + a l j) * x l + (a j i + a i j) * s := by
        have hm : ∀ k, move x i s k = x k + if k = i then s else 0 := by
          intro k; unfold move; split_ifs <;> simp
        simp only [hm, mul_add, sum_add_distrib, mul_ite, mul_zero]
        rw [sum_ite_eq' (range n) i, if_pos (mem_range.2 hi)]
      rw [es]
      ring

/-- `1 + 3 x - y + 2 x y + y ^ 2` at (1, 2). -/
example : (List.range 2).map (gradient id 2 (fun p => 1 + 3 * p 0 - p 1 + 2 * p 0 * p 1 + p 1 ^ 2)
      (fun k => ([1, 2] : List ℚ).getD k 0) (1 / 1000)).2 = [7, 5] ∧
    hessian id 2 (fun p => 1 + 3 * p 0 - p 1 + 2 * p 0 * p 1 + p 1 ^ 2) (fun k => ([1, 2] : List ℚ).getD k 0) (1 / 1000) 1 0 = 2 := by
  decide +kernel

/-- **C143.** `gradient` leaves an array of floats as it was, for every function, step and point. -/
theorem C143_float_partial (n : Nat) (f : (Nat → F) → F) (x : Nat → F) (h : F) : (gradient id n f x h).1 = x :=
  (gradient_id n f x h).1

end

section
variable {F : Type} [Field F] [LinearOrder F] [IsStrictOrderedRing F] [FloorRing F]

theorem trunc_up (p : ℤ) (hp : 0 ≤ p) (h : F) (h0 : 0 ≤ h) (h1 : h < 1) : trunc ((p : F) + h) = p := by
  unfold trunc
  have : (0 : F) ≤ p := by exact_mod_cast hp
  rw [if_pos (by linarith), Int.floor_intCast_add, Int.floor_eq_zero_iff.2 ⟨h0, h1⟩, add_zero]

theorem trunc_down (p : ℤ) (hp : 1 ≤ p) (h : F) (h0 : 0 < h) (h1 : h ≤ 1) : trunc ((p : F) - h) = ((p - 1 : ℤ) : F) := by
  have e : (p : F) - h = ((p - 1 : ℤ) : F) + (1 - h) := by push_cast; ring
  rw [e, trunc_up _ (by omega) _ (by linarith) (by linarith)]

theorem gradStep_int (f : (Nat → F) → F) (h : F) (h0 : 0 < h) (h1 : h ≤ 1 / 2) (x g : Nat → F) (i : Nat) (p : ℤ) (hp : 1 ≤ p)
    (hx : x i = p) : ∀ k, (gradStep trunc f h (x, g) i).1 k = if k = i then x k - 1 else x k := by
  intro k
  unfold gradStep
  dsimp only
  simp only [put_put, put_at]
  rw [hx, trunc_up p (by omega) h (by linarith) (by linarith), trunc_down p hp (2 * h) (by linarith) (by linarith)]
  unfold put
  by_cases hk : k = i
  · rw [if_pos hk, if_pos hk, hk, hx, trunc_up (p - 1) (by omega) h (by linarith) (by linarith)]
    push_cast; ring
  · rw [if_neg hk, if_neg hk]

/-- **C143, refuted.** Given an array of positive integers, `gradient` takes one away from every coordinate of the caller's array,
whatever the function, for every step up to 1/2. -/
theorem C143_argument_refuted (n : Nat) (f : (Nat → F) → F) (x : Nat → F) (h : F) (h0 : 0 < h) (h1 : h ≤ 1 / 2)
    (hx : ∀ i, i < n → ∃ p : ℤ, 1 ≤ p ∧ x i = p) (i : Nat) : (gradient trunc n f x h).1 i = if i < n then x i - 1 else x i := by
  unfold gradient
  have key : ∀ m, m ≤ n → ∀ i, ((List.range m).foldl (gradStep trunc f h) (x, fun _ => 0)).1 i = if i < m then x i - 1 else x i := by
    intro m
    induction m with
    | zero => intro _ i; rw [if_neg (by omega)]; rfl
    | succ m ih =>
      intro hm i
      rw [List.range_succ, List.foldl_append]
      have ih := ih (by omega)
      generalize List.foldl (gradStep trunc f h) (x, fun _ => 0) (List.range m) = r at ih
      obtain ⟨q, g⟩ := r
      dsimp only at ih
      obtain ⟨p, hp, hxp⟩ := hx m (by omega)
      show (gradStep trunc f h (q, g) m).1 i = _
      rw [gradStep_int f h h0 h1 q g m p hp (by rw [ih m, if_neg (by omega), hxp]), ih i]
      by_cases e1 : i = m
      · rw [if_pos e1, if_neg (by omega), if_pos (by omega)]
      · rw [if_neg e1]
        by_cases e2 : i < m
        · rw [if_pos e2, if_pos (by omega)]
        · rw [if_neg e2, if_neg (by omega)]
  exact key n (le_refl _) i

/-- **C143, refuted.** The example of the docstring of `hessian`: for the sum of squares at a point of positive integers the diagonal
entry is `(1 - 2 p) / h ^ 2`, which is negative, instead of 2. -/
theorem C143_hessian_refuted (n : Nat) (x : Nat → F) (h : F) (h0 : 0 < h) (h1 : h < 1)
    (hx : ∀ i, i < n → ∃ p : ℤ, 1 ≤ p ∧ x i = p) (i : Nat) (hi : i < n) :
    hessian trunc n (fun y => ∑ k ∈ range n, y k ^ 2) x h i i = (1 - 2 * x i) / h ^ 2 ∧ (1 - 2 * x i) / h ^ 2 < 0 := by
  obtain ⟨p, hp, hxp⟩ := hx i hi
  have hp' : (1 : F) ≤ p := by exact_mod_cast hp
  constructor
  · rw [hessian_entry trunc n _ x h i i hi hi, min_self, max_self]
    unfold hessEntry
    rw [if_pos rfl]
    dsimp only
    have e : ∀ v, ∑ k ∈ range n, put trunc x i v k ^ 2 = ∑ k ∈ range n, x k ^ 2 + (trunc v ^ 2 - x i ^ 2) := by
      intro v
      have : ∀ k, put trunc x i v k ^ 2 = x k ^ 2 + if k = i then trunc v ^ 2 - x k ^ 2 else 0 := by
        intro k; unfold put; split_ifs <;> ring
      simp only [this, sum_add_distrib]
      rw [sum_ite_eq' (range n) i, if_pos (mem_range.2 hi)]
    rw [e, e, hxp, trunc_up p (by omega) h (le_of_lt h0) h1, trunc_down p hp h h0 (le_of_lt h1)]
    push_cast
    congr 1
    ring
  · rw [hxp]
    exact div_neg_of_neg_of_pos (by linarith) (by positivity)

/-- The docstring's example, `np.array([1, 2])`. -/
example : hessian trunc 2 (fun y => y 0 ^ 2 + y 1 ^ 2) (fun k => ([1, 2] : List ℚ).getD k 0) (1 / 1000) 0 0 = -1000000 ∧
    (List.range 2).map (gradient trunc 2 (fun y => y 0 ^ 2 + y 1 ^ 2) (fun k => ([1, 2] : List ℚ).getD k 0) (1 / 1000)).1 = [0, 1] := by
  decide +kernel

end

end Verif.Fdm
