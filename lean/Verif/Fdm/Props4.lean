import Verif.Fdm.Model3
import Mathlib.Tactic.Ring
import Mathlib.Tactic.Linarith
import Mathlib.Tactic.FieldSimp

/-! # C450 -/

set_option linter.unusedSectionVars false

namespace Verif.Fdm.Pde

variable {K : Type} [Field K] [LinearOrder K] [IsStrictOrderedRing K]

/-- The point `t` moved by `s` along the axis `i`. -/
def move (t : Nat → K) (i : Nat) (s : K) : Nat → K := fun j => if i = j then t j + s else t j

/-- `b i` is the partial derivative of a function that is quadratic along each of the first `n` axes. -/
def Quad (f : (Nat → K) → K) (t : Nat → K) (n : Nat) (b : Nat → K) : Prop := ∀ i < n, ∃ c, ∀ s, f (move t i s) = f t + b i * s + c * s ^ 2

/-- **C450** (part), all axes of a list within the dimension: the entries are the partial derivatives along them, the others are zero. -/
theorem C450_axes_partial (f : (Nat → K) → K) (dim : Nat) (h : K) (hh : 0 < h) (t b : Nat → K) (hq : Quad f t dim b) (axes : List Nat)
    (ha : ∀ i ∈ axes, i < dim) : dnn (make f dim h) t axes none = some ((List.range dim).map fun i => if i ∈ axes then b i else 0) := by
  unfold dnn getH
  have hall : (axes.all fun i => decide (i < (make f dim h).dim)) = true := List.all_eq_true.2 fun i hi => decide_eq_true (ha i hi)
  rw [if_pos hall]
  simp only [Option.bind_some, wrp, make, Option.some.injEq]
  refine List.map_congr_left fun i hi => ?_
  obtain ⟨c, hc⟩ := hq i (List.mem_range.1 hi)
  by_cases hm : i ∈ axes
  · rw [if_pos hm]
    have e1 : (fun j => t j + if i = j ∧ i ∈ axes then h else 0) = move t i h := by
      funext j
      by_cases e : i = j <;> simp [move, e, hm]
      intro hn; exact absurd (e ▸ hm) hn
    have e2 : (fun j => t j - if i = j ∧ i ∈ axes then h else 0) = move t i (-h) := by
      funext j
      by_cases e : i = j <;> simp [move, e, hm]
      rw [if_pos (e ▸ hm)]; ring
    rw [e1, e2, hc, hc]
    field_simp
    ring
  · rw [if_neg hm]
    simp [hm]

/-- **C450** (part), the call gives the gradient. -/
theorem C450_gradient_partial (f : (Nat → K) → K) (dim : Nat) (h : K) (hh : 0 < h) (t b : Nat → K) (hq : Quad f t dim b) :
    call (make f dim h) t none = some ((List.range dim).map b) := by
  have := C450_axes_partial f dim h hh t b hq (List.range dim) (fun i hi => List.mem_range.1 hi)
  unfold call
  rw [show (make f dim h).sel = List.range dim from rfl, this]
  congr 1
  exact List.map_congr_left fun i hi => by rw [if_pos hi]

/-- **C450** refuted, `dxy`.  Of the product of the first two coordinates the result are the two partial derivatives and zeros, not the mixed derivative one. -/
theorem C450_mixed_refuted (dim : Nat) (hd : 2 ≤ dim) (h : K) (hh : 0 < h) (t : Nat → K) :
    dnn (make (fun p => p 0 * p 1) dim h) t [0, 1] none = some ((List.range dim).map fun i => if i = 0 then t 1 else if i = 1 then t 0 else 0) := by
  rw [C450_axes_partial (fun p => p 0 * p 1) dim h hh t (fun i => if i = 0 then t 1 else if i = 1 then t 0 else 0)]
  · congr 1
    refine List.map_congr_left fun i _ => ?_
    by_cases h0 : i = 0
    · simp [h0]
    · by_cases h1 : i = 1
      · simp [h1]
      · simp [h0, h1]
  · intro i _
    refine ⟨0, fun s => ?_⟩
    simp only [move]
    by_cases h0 : i = 0
    · subst h0; simp; ring
    · by_cases h1 : i = 1
      · subst h1; simp; ring
      · simp [h0, h1]
  · intro i hi
    simp at hi
    omega

/-- **C450** refuted, the setter of `dim`.  After a larger number the new entries of the result are zero for every function; after a smaller one the call raises. -/
theorem C450_dim_refuted (f : (Nat → K) → K) (m v : Nat) (h : K) (t : Nat → K) :
    (v < m → call (setDim (make f m h) v) t none = none) ∧
      (m ≤ v → ∃ l, call (setDim (make f m h) v) t none = some l ∧ l.length = v ∧ ∀ i, m ≤ i → i < v → l[i]? = some 0) := by
  constructor
  · intro hv
    unfold call dnn getH
    rw [if_neg]
    · rfl
    · intro hall
      have := List.all_eq_true.1 hall v (List.mem_range.2 hv)
      simp [setDim] at this
  · intro hv
    unfold call dnn getH
    have hall : ((setDim (make f m h) v).sel.all fun i => decide (i < (setDim (make f m h) v).dim)) = true :=
      List.all_eq_true.2 fun i hi => decide_eq_true (lt_of_lt_of_le (List.mem_range.1 hi) hv)
    rw [if_pos hall]
    refine ⟨_, rfl, by simp [setDim], fun i h1 h2 => ?_⟩
    have hn : i ∉ List.range m := by simp; omega
    simp only [setDim, make, List.getElem?_map, List.getElem?_range h2, Option.map_some, hn, and_false, if_false, add_zero, sub_zero, sub_self, zero_div]

/-- **C450** refuted, bounds.  With bounds the call raises for every function of more than one variable. -/
theorem C450_bounds_refuted (f : (Nat → K) → K) (dim : Nat) (hd : 2 ≤ dim) (h : K) (t : Nat → K) (axes : List Nat) (b : K × K) :
    dnn (make f dim h) t axes (some b) = none := by
  unfold dnn
  cases getH (make f dim h) axes with
  | none => rfl
  | some H =>
    simp only [Option.bind_some, wrp]
    rw [if_pos (by simp only [make]; omega)]

/-- `x² y` is quadratic along both axes; its gradient at `(1, 2)` is `(4, 1)`. -/
example : Quad (fun p : Nat → ℚ => p 0 ^ 2 * p 1) (fun i => i + 1) 2 (fun i => if i = 0 then 4 else 1) ∧
    call (make (fun p : Nat → ℚ => p 0 ^ 2 * p 1) 2 (1 / 1000)) (fun i => i + 1) none = some [4, 1] := by
  refine ⟨fun i hi => ?_, by decide +kernel⟩
  rcases Nat.lt_or_ge i 1 with h | h
  · obtain rfl : i = 0 := by omega
    exact ⟨2, fun s => by simp [move]; ring⟩
  · obtain rfl : i = 1 := by omega
    exact ⟨0, fun s => by simp [move]⟩

/-- **C450, bounds with one variable.** The derivative of a linear function is exact everywhere, at the bounds too. -/
theorem C450_linear_partial (c d h : K) (hh : h ≠ 0) (t : Nat → K) (bounds : Option (K × K)) :
    call (make (fun x => c + d * x 0) 1 h) t bounds = some [d] := by
  have e1 : (c + d * (t 0 + h) - (c + d * (t 0 - h))) / (2 * h) = d := by field_simp; ring
  have e2 : (c + d * (t 0 + h) - (c + d * t 0)) / h = d := by field_simp; ring
  have e3 : (c + d * t 0 - (c + d * (t 0 - h))) / h = d := by field_simp; ring
  have hs : getH (make (fun x : Nat → K => c + d * x 0) 1 h) [0] = some fun i j => if i = j ∧ i ∈ [0] then h else 0 := rfl
  unfold call dnn
  show (getH (make (fun x : Nat → K => c + d * x 0) 1 h) [0]).bind _ = _
  rw [hs, Option.bind_some]
  unfold wrp
  cases bounds with
  | none => simpa [make] using e1
  | some b =>
    obtain ⟨lo, hi⟩ := b
    simp only [make]
    split_ifs <;> simp_all

/-- **C450, bounds with one variable.** Inside of bounds at least `2 h` apart only values inside of the bounds are used. -/
theorem C450_inside_partial (f g : (Nat → K) → K) (h lo hi : K) (hh : 0 < h) (hw : 2 * h ≤ hi - lo) (t : Nat → K)
    (h1 : lo ≤ t 0) (h2 : t 0 ≤ hi) (hfg : ∀ x : Nat → K, lo ≤ x 0 → x 0 ≤ hi → f x = g x) :
    call (make f 1 h) t (some (lo, hi)) = call (make g 1 h) t (some (lo, hi)) := by
  have hs : ∀ f : (Nat → K) → K, call (make f 1 h) t (some (lo, hi)) =
      wrp (make f 1 h) t (fun i j => if i = j ∧ i ∈ [0] then h else 0) (some (lo, hi)) := fun f => rfl
  rw [hs f, hs g]
  unfold wrp
  simp only [make, ne_eq, not_true_eq_false, if_false, List.range_one, List.map_cons, List.map_nil]
  split_ifs with c1 c2
  · rw [abs_le] at c1
    rw [hfg t h1 h2, hfg _ (by simp; linarith) (by simp; linarith)]
  · rw [abs_le] at c2
    rw [hfg t h1 h2, hfg _ (by simp; linarith) (by simp; linarith)]
  · rw [not_le, lt_abs] at c1 c2
    have d1 : lo + h < t 0 := by rcases c1 with c | c <;> linarith
    have d2 : t 0 < hi - h := by rcases c2 with c | c <;> linarith
    rw [hfg _ (by simp; linarith) (by simp; linarith), hfg _ (by simp; linarith) (by simp; linarith)]

example : call (make (fun x : Nat → ℚ => x 0 ^ 2) 1 (1 / 10)) (fun _ => 1 / 20) (some (0, 1)) = some [1 / 5] := by decide +kernel

end Verif.Fdm.Pde
