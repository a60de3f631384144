import Verif.Fdm.Model
import Mathlib.Algebra.Order.Field.Basic
import Mathlib.Algebra.BigOperators.Ring.Finset
import Mathlib.Algebra.BigOperators.Intervals
import Mathlib.LinearAlgebra.Matrix.NonsingularInverse
import Mathlib.Tactic.Ring
import Mathlib.Tactic.FieldSimp
import Mathlib.Tactic.Linarith
import Mathlib.Tactic.SplitIfs

/-!
# The loops of `gradient` and `hessian`
-/

set_option linter.unusedSectionVars false

namespace Verif.Fdm
open Finset

variable {F : Type} [Field F] [LinearOrder F] [IsStrictOrderedRing F]

/-- A point moved by `s` along the axis `i`. -/
def move (x : Nat → F) (i : Nat) (s : F) : Nat → F := fun k => if k = i then x k + s else x k

theorem put_id (x : Nat → F) (i : Nat) (s : F) : put id x i (x i + s) = move x i s := by
  funext k; unfold put move; split_ifs with h
  · rw [h]; rfl
  · rfl

theorem put_self (x : Nat → F) (i : Nat) : put id x i (x i) = x := by
  funext k; unfold put; split_ifs with h
  · rw [h]; rfl
  · rfl

theorem put_put (cast : F → F) (x : Nat → F) (i : Nat) (a b : F) : put cast (put cast x i a) i b = put cast x i b := by
  funext k; unfold put; split_ifs <;> rfl

theorem put_at (cast : F → F) (x : Nat → F) (i : Nat) (a : F) : put cast x i a i = cast a := by
  unfold put; rw [if_pos rfl]

theorem gradStep_id (f : (Nat → F) → F) (h : F) (x g : Nat → F) (i : Nat) :
    gradStep id f h (x, g) i = (x, put id g i ((f (move x i h) - f (move x i (-h))) / (2 * h))) := by
  unfold gradStep
  dsimp only
  simp only [put_put, put_at, id_eq]
  rw [put_id, show x i + h - 2 * h = x i + -h by ring, put_id, show x i + -h + h = x i by ring, put_self]

theorem gradient_id (n : Nat) (f : (Nat → F) → F) (x : Nat → F) (h : F) :
    (gradient id n f x h).1 = x ∧
      ∀ i, (gradient id n f x h).2 i = if i < n then (f (move x i h) - f (move x i (-h))) / (2 * h) else 0 := by
  unfold gradient
  induction n with
  | zero => exact ⟨rfl, fun i => by simp⟩
  | succ n ih =>
    rw [List.range_succ, List.foldl_append]
    obtain ⟨a, b⟩ := ih
    generalize he : List.foldl (gradStep id f h) (x, fun _ => 0) (List.range n) = r at a b
    obtain ⟨p, g⟩ := r
    dsimp only at a b
    subst a
    show (gradStep id f h (p, g) n).1 = p ∧ ∀ i, (gradStep id f h (p, g) n).2 i = _
    rw [gradStep_id]
    refine ⟨rfl, fun i => ?_⟩
    dsimp only
    unfold put
    by_cases hi : i = n
    · rw [if_pos hi, if_pos (by omega), hi]; rfl
    · rw [if_neg hi, b i]
      by_cases h2 : i < n
      · rw [if_pos h2, if_pos (by omega)]
      · rw [if_neg h2, if_neg (by omega)]

theorem inner_spec (e : Nat → F) (i : Nat) (H0 : Nat → Nat → F) (k : Nat) (r c : Nat) :
    (List.range' i k).foldl (fun (H : Nat → Nat → F) j => fun r c => if r = i ∧ c = j ∨ r = j ∧ c = i then e j else H r c) H0 r c =
      if min r c = i ∧ max r c < i + k then e (max r c) else H0 r c := by
  induction k with
  | zero =>
    rw [if_neg (by omega)]; rfl
  | succ k ih =>
    rw [List.range'_1_concat, List.foldl_append]
    show (if r = i ∧ c = i + k ∨ r = i + k ∧ c = i then e (i + k) else _) = _
    by_cases h1 : r = i ∧ c = i + k ∨ r = i + k ∧ c = i
    · rw [if_pos h1, if_pos (by omega)]; congr 1; omega
    · rw [if_neg h1, ih]
      by_cases h2 : min r c = i ∧ max r c < i + k
      · rw [if_pos h2, if_pos (by omega)]
      · rw [if_neg h2, if_neg (by omega)]

theorem hessian_entry (cast : F → F) (n : Nat) (f : (Nat → F) → F) (x : Nat → F) (h : F) (r c : Nat) (hr : r < n) (hc : c < n) :
    hessian cast n f x h r c = hessEntry cast f x h (min r c) (max r c) := by
  unfold hessian
  dsimp only
  have key : ∀ m, m ≤ n → ((List.range m).foldl (fun H i =>
      (List.range' i (n - i)).foldl (fun (H : Nat → Nat → F) j =>
        fun r c => if r = i ∧ c = j ∨ r = j ∧ c = i then hessEntry cast f x h i j else H r c) H) (fun _ _ => 0)) r c =
      if min r c < m then hessEntry cast f x h (min r c) (max r c) else 0 := by
    intro m
    induction m with
    | zero => intro _; rw [if_neg (by omega)]; rfl
    | succ m ih =>
      intro hm
      rw [List.range_succ, List.foldl_append]
      rw [List.foldl_cons, List.foldl_nil]
      rw [inner_spec (fun j => hessEntry cast f x h m j)]
      by_cases h1 : min r c = m
      · rw [if_pos (by omega), if_pos (by omega), h1]
      · rw [if_neg (by omega), ih (by omega)]
        by_cases h2 : min r c < m
        · rw [if_pos h2, if_pos (by omega)]
        · rw [if_neg h2, if_neg (by omega)]
  rw [key n (le_refl _), if_pos (by omega)]

theorem hessEntry_diag (f : (Nat → F) → F) (x : Nat → F) (h : F) (i : Nat) :
    hessEntry id f x h i i = (f (move x i h) - 2 * f x + f (move x i (-h))) / h ^ 2 := by
  unfold hessEntry
  rw [if_pos rfl]
  dsimp only
  rw [put_id, sub_eq_add_neg (x i) h, put_id]

theorem hessEntry_off (f : (Nat → F) → F) (x : Nat → F) (h : F) (i j : Nat) (hij : i ≠ j) :
    hessEntry id f x h i j =
      (f (move (move x i h) j h) - f (move (move x i h) j (-h)) - f (move (move x i (-h)) j h) + f (move (move x i (-h)) j (-h))) /
        (4 * h ^ 2) := by
  unfold hessEntry
  rw [if_neg hij]
  dsimp only
  simp only [sub_eq_add_neg (_ : F) h]
  simp only [put_id]

theorem move_zero (x : Nat → F) (i : Nat) : move x i 0 = x := by
  funext k; unfold move; split_ifs <;> simp

end Verif.Fdm
