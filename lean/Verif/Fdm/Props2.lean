import Verif.Fdm.Props
import Mathlib.Tactic.LinearCombination
import Mathlib.LinearAlgebra.Matrix.ToLinearEquiv

/-!
# Newton's method, classification of critical points, bounded differences, Jacobians (C144 - C147)
-/

set_option linter.unusedSectionVars false

namespace Verif.Fdm
open Finset

variable {F : Type} [Field F] [LinearOrder F] [IsStrictOrderedRing F]

/-- The `n` by `n` matrix of a table. -/
def toM (n : Nat) (A : Nat → Nat → F) : Matrix (Fin n) (Fin n) F := fun i j => A i j

theorem matVec_eq (n : Nat) (M : Nat → Nat → F) (v : Nat → F) (i : Nat) : matVec n M v i = ∑ j ∈ range n, M i j * v j := by
  unfold matVec
  induction n with
  | zero => rfl
  | succ n ih => rw [List.range_succ, List.map_append, List.sum_append, ih, sum_range_succ]; simp

theorem mul_matVec (n : Nat) (M X : Nat → Nat → F) (h : toM n M * toM n X = 1) (v : Nat → F) (i : Nat) (hi : i < n) :
    ∑ j ∈ range n, M i j * matVec n X v j = v i := by
  have e : ((toM n M * toM n X).mulVec fun k : Fin n => v k) ⟨i, hi⟩ = ((1 : Matrix (Fin n) (Fin n) F).mulVec fun k : Fin n => v k) ⟨i, hi⟩ := by rw [h]
  rw [Matrix.one_mulVec, ← Matrix.mulVec_mulVec] at e
  rw [← e, Finset.sum_range]
  refine sum_congr rfl fun j _ => ?_
  show M i j * _ = M i j * _
  rw [matVec_eq, Finset.sum_range]
  rfl

/-- The specification of `np.linalg.inv`. -/
structure InvSpec (n : Nat) (inv : (Nat → Nat → F) → Option (Nat → Nat → F)) : Prop where
  ok : ∀ M, (toM n M).det ≠ 0 → ∃ X, inv M = some X ∧ toM n M * toM n X = 1
  fail : ∀ M, (toM n M).det = 0 → inv M = none

/-- One round on a quadratic polynomial. -/
theorem newton_round (n : Nat) (inv : (Nat → Nat → F) → Option (Nat → Nat → F)) (hinv : InvSpec n inv) (norm : (Nat → F) → F)
    (c : F) (b : Nat → F) (a : Nat → Nat → F) (tol h : F) (hh : h ≠ 0)
    (hdet : (toM n fun i j => a i j + a j i).det ≠ 0) (fuel : Nat) (x : Nat → F) :
    ∃ y : Nat → F, (∀ i, i < n → b i + ∑ j ∈ range n, (a i j + a j i) * y j = 0) ∧
      newtonLoop n inv norm (quad n c b a) tol h (fuel + 1) x =
        if norm (fun k => y k - x k) < tol then some y else newtonLoop n inv norm (quad n c b a) tol h fuel y := by
  obtain ⟨hg, hH⟩ := C142_quadratic n c b a x h hh
  have hx := (gradient_id n (quad n c b a) x h).1
  have hM : toM n (hessian id n (quad n c b a) x h) = toM n fun i j => a i j + a j i := by
    funext i j
    exact hH i j i.2 j.2
  obtain ⟨X, hX, hmul⟩ := hinv.ok (hessian id n (quad n c b a) x h) (by rw [hM]; exact hdet)
  refine ⟨fun k => x k - matVec n X (gradient id n (quad n c b a) x h).2 k, ?_, ?_⟩
  · intro i hi
    have e := mul_matVec n _ X hmul (gradient id n (quad n c b a) x h).2 i hi
    rw [hg i hi] at e
    have e2 : ∑ j ∈ range n, hessian id n (quad n c b a) x h i j * matVec n X (gradient id n (quad n c b a) x h).2 j =
        ∑ j ∈ range n, (a i j + a j i) * matVec n X (gradient id n (quad n c b a) x h).2 j :=
      sum_congr rfl fun j hj => by rw [hH i j hi (mem_range.1 hj)]
    rw [e2] at e
    simp only [mul_sub, sum_sub_distrib]
    rw [e]
    ring
  · rw [newtonLoop]
    dsimp only
    rw [hx, hX]

/-- **C144, what holds.** On every quadratic polynomial with regular Hessian `newtons_method` returns, from every start and within
two rounds, the critical point. -/
theorem C144_quadratic_partial (n : Nat) (inv : (Nat → Nat → F) → Option (Nat → Nat → F)) (hinv : InvSpec n inv) (norm : (Nat → F) → F)
    (hnorm : ∀ v : Nat → F, (∀ k, k < n → v k = 0) → norm v = 0)
    (c : F) (b : Nat → F) (a : Nat → Nat → F) (tol h : F) (htol : 0 < tol) (hh : h ≠ 0)
    (hdet : (toM n fun i j => a i j + a j i).det ≠ 0) (maxIter : Nat) (hm : 2 ≤ maxIter) (x : Nat → F) :
    ∃ y : Nat → F, newtonsMethod n inv norm (quad n c b a) x tol maxIter h = some y ∧
      ∀ i, i < n → b i + ∑ j ∈ range n, (a i j + a j i) * y j = 0 := by
  obtain ⟨m, rfl⟩ : ∃ m, maxIter = m + 2 := ⟨maxIter - 2, by omega⟩
  unfold newtonsMethod
  obtain ⟨y, hy, e⟩ := newton_round n inv hinv norm c b a tol h hh hdet (m + 1) x
  rw [e]
  by_cases h1 : norm (fun k => y k - x k) < tol
  · exact ⟨y, if_pos h1, hy⟩
  · rw [if_neg h1]
    obtain ⟨z, hz, e2⟩ := newton_round n inv hinv norm c b a tol h hh hdet m y
    refine ⟨z, ?_, hz⟩
    rw [e2, if_pos]
    rw [hnorm]
    · exact htol
    · intro k hk
      -- both are critical points, and the Hessian is regular
      have hinj : (toM n fun i j => a i j + a j i).mulVec (fun j : Fin n => z j - y j) = 0 := by
        funext i
        show ∑ j : Fin n, (a i j + a j i) * (z j - y j) = 0
        have p := hz i i.2
        have q := hy i i.2
        rw [Finset.sum_range] at p q
        simp only [mul_sub, sum_sub_distrib]
        linear_combination p - q
      have := congrFun (Matrix.eq_zero_of_mulVec_eq_zero hdet hinj) ⟨k, hk⟩
      exact this

/-- **C144, refuted.** "The root of the function if found, None otherwise": for every quadratic polynomial without any zero that has
a regular Hessian `newtons_method` returns a point, which is then not a root. -/
theorem C144_no_root_refuted (n : Nat) (inv : (Nat → Nat → F) → Option (Nat → Nat → F)) (hinv : InvSpec n inv) (norm : (Nat → F) → F)
    (hnorm : ∀ v : Nat → F, (∀ k, k < n → v k = 0) → norm v = 0)
    (c : F) (b : Nat → F) (a : Nat → Nat → F) (tol h : F) (htol : 0 < tol) (hh : h ≠ 0)
    (hdet : (toM n fun i j => a i j + a j i).det ≠ 0) (maxIter : Nat) (hm : 2 ≤ maxIter) (x : Nat → F)
    (hpos : ∀ z, quad n c b a z ≠ 0) :
    ∃ y, newtonsMethod n inv norm (quad n c b a) x tol maxIter h = some y ∧ quad n c b a y ≠ 0 := by
  obtain ⟨y, e, _⟩ := C144_quadratic_partial n inv hinv norm hnorm c b a tol h htol hh hdet maxIter hm x
  exact ⟨y, e, hpos y⟩

/-- **C144, refuted.** Linear functions, which do have roots, never give a result. -/
theorem C144_linear_refuted (n : Nat) (hn : 0 < n) (inv : (Nat → Nat → F) → Option (Nat → Nat → F)) (hinv : InvSpec n inv)
    (norm : (Nat → F) → F) (c : F) (b : Nat → F) (tol h : F) (hh : h ≠ 0) (maxIter : Nat) (x : Nat → F) :
    newtonsMethod n inv norm (quad n c b fun _ _ => 0) x tol maxIter h = none := by
  unfold newtonsMethod
  cases maxIter with
  | zero => rfl
  | succ m =>
    rw [newtonLoop]
    dsimp only
    have hx := (gradient_id n (quad n c b fun _ _ => 0) x h).1
    have hH := (C142_quadratic n c b (fun _ _ => 0) x h hh).2
    have hM : toM n (hessian id n (quad n c b fun _ _ => 0) x h) = 0 := by
      funext i j
      show hessian id n (quad n c b fun _ _ => 0) x h i j = 0
      rw [hH i j i.2 j.2, add_zero]
    rw [hx, hinv.fail]
    have : Nonempty (Fin n) := ⟨⟨0, hn⟩⟩
    rw [hM, Matrix.det_zero]

/-- An inverse that meets the specification for one variable. -/
example : InvSpec 1 (fun M : Nat → Nat → ℚ => if M 0 0 = 0 then none else some fun _ _ => 1 / M 0 0) where
  ok := by
    intro M h
    have h0 : M 0 0 ≠ 0 := by rw [Matrix.det_fin_one] at h; exact h
    refine ⟨_, if_neg h0, ?_⟩
    ext i j
    obtain rfl : i = 0 := Subsingleton.elim _ _
    obtain rfl : j = 0 := Subsingleton.elim _ _
    rw [Matrix.mul_apply, Fin.sum_univ_one, Matrix.one_apply_eq]
    show M 0 0 * (1 / M 0 0) = 1
    field_simp
  fail := by
    intro M h
    have h0 : M 0 0 = 0 := by rw [Matrix.det_fin_one] at h; exact h
    exact if_pos h0

/-- `1 + (x - 3)²` has no root; the result is 3. -/
example : (newtonsMethod 1 (fun M : Nat → Nat → ℚ => if M 0 0 = 0 then none else some fun _ _ => 1 / M 0 0) (fun v => |v 0|)
    (fun p => 1 + (p 0 - 3) ^ 2) (fun _ => 100) (1 / 100000) 100 (1 / 100000)).map (fun y => y 0) = some 3 := by decide +kernel

/-! ## Classification -/

/-- The quadratic form of a Hessian. -/
def form (H : Nat → Nat → F) (u v : F) : F := H 0 0 * u ^ 2 + 2 * H 0 1 * u * v + H 1 1 * v ^ 2

/-- **C145.** The function never ends without a result. -/
theorem C145_total (H : Nat → Nat → F) : classify H ≠ none := by
  unfold classify
  dsimp only
  split_ifs with h1 h2 h3 h4
  · simp
  · simp
  · have : H 0 0 = 0 := le_antisymm (not_lt.1 h2) (not_lt.1 h3)
    rw [this] at h1
    nlinarith [mul_self_nonneg (H 0 1)]
  · simp
  · simp

theorem form_sq (H : Nat → Nat → F) (u v : F) :
    H 0 0 * form H u v = (H 0 0 * u + H 0 1 * v) ^ 2 + (H 0 0 * H 1 1 - H 0 1 * H 0 1) * v ^ 2 := by
  unfold form; ring

theorem pos_of_det (H : Nat → Nat → F) (hd : 0 < H 0 0 * H 1 1 - H 0 1 * H 0 1) (u v : F) (h : u ≠ 0 ∨ v ≠ 0) :
    0 < H 0 0 * form H u v := by
  rw [form_sq]
  by_cases hv : v = 0
  · have hu : u ≠ 0 := by
      rcases h with h | h
      · exact h
      · exact absurd hv h
    have h0 : H 0 0 ≠ 0 := by
      intro h0
      rw [h0] at hd
      nlinarith [mul_self_nonneg (H 0 1)]
    subst hv
    have : 0 < (H 0 0 * u) ^ 2 := by positivity
    simpa using this
  · have : 0 < v ^ 2 := by positivity
    have := mul_pos hd this
    nlinarith [sq_nonneg (H 0 0 * u + H 0 1 * v)]

theorem classify_min (H : Nat → Nat → F) :
    classify H = some .localMinimum ↔ 0 < H 0 0 * H 1 1 - H 0 1 * H 0 1 ∧ 0 < H 0 0 := by
  unfold classify; dsimp only
  split_ifs <;> simp [*]

theorem classify_max (H : Nat → Nat → F) :
    classify H = some .localMaximum ↔ 0 < H 0 0 * H 1 1 - H 0 1 * H 0 1 ∧ H 0 0 < 0 := by
  unfold classify; dsimp only
  split_ifs with h1 h2 h3 <;> simp [*]
  exact le_of_lt h2

theorem classify_saddle (H : Nat → Nat → F) : classify H = some .saddlePoint ↔ H 0 0 * H 1 1 - H 0 1 * H 0 1 < 0 := by
  unfold classify; dsimp only
  split_ifs with h1 h2 h3 h4 <;> simp [*]
  all_goals exact le_of_lt (by linarith)

/-- **C145.** A local minimum is reported exactly if the quadratic form is positive definite. -/
theorem C145_minimum (H : Nat → Nat → F) :
    classify H = some .localMinimum ↔ ∀ u v, (u ≠ 0 ∨ v ≠ 0) → 0 < form H u v := by
  constructor
  · intro h u v huv
    obtain ⟨h1, h2⟩ := (classify_min H).1 h
    exact (mul_pos_iff_of_pos_left h2).1 (pos_of_det H h1 u v huv)
  · intro h
    have a := h 1 0 (Or.inl one_ne_zero)
    have b := h (-H 0 1) (H 0 0) (Or.inr (by
      have : form H 1 0 = H 0 0 := by unfold form; ring
      rw [this] at a; exact ne_of_gt a))
    have ea : form H 1 0 = H 0 0 := by unfold form; ring
    have eb : form H (-H 0 1) (H 0 0) = H 0 0 * (H 0 0 * H 1 1 - H 0 1 * H 0 1) := by unfold form; ring
    rw [ea] at a
    rw [eb] at b
    have hd : 0 < H 0 0 * H 1 1 - H 0 1 * H 0 1 := (mul_pos_iff_of_pos_left a).1 b
    unfold classify
    dsimp only
    rw [if_pos hd, if_pos a]

/-- **C145.** A local maximum exactly if it is negative definite. -/
theorem C145_maximum (H : Nat → Nat → F) :
    classify H = some .localMaximum ↔ ∀ u v, (u ≠ 0 ∨ v ≠ 0) → form H u v < 0 := by
  constructor
  · intro h u v huv
    obtain ⟨h1, h3⟩ := (classify_max H).1 h
    have := pos_of_det H h1 u v huv
    by_contra hc
    have := mul_nonpos_of_nonpos_of_nonneg (le_of_lt h3) (not_lt.1 hc)
    linarith
  · intro h
    have a := h 1 0 (Or.inl one_ne_zero)
    have b := h (-H 0 1) (H 0 0) (Or.inr (by
      have : form H 1 0 = H 0 0 := by unfold form; ring
      rw [this] at a; exact ne_of_lt a))
    have ea : form H 1 0 = H 0 0 := by unfold form; ring
    have eb : form H (-H 0 1) (H 0 0) = H 0 0 * (H 0 0 * H 1 1 - H 0 1 * H 0 1) := by unfold form; ring
    rw [ea] at a
    rw [eb] at b
    have hd : 0 < H 0 0 * H 1 1 - H 0 1 * H 0 1 := by
      by_contra hc
      have := mul_nonneg_of_nonpos_of_nonpos (le_of_lt a) (not_lt.1 hc)
      linarith
    unfold classify
    dsimp only
    rw [if_pos hd, if_neg (not_lt.2 (le_of_lt a)), if_pos a]

/-- **C145.** A saddle exactly if it takes both signs. -/
theorem C145_saddle (H : Nat → Nat → F) :
    classify H = some .saddlePoint ↔ (∃ u v, 0 < form H u v) ∧ ∃ u v, form H u v < 0 := by
  constructor
  · intro h
    have h2 := (classify_saddle H).1 h
    have ea : form H 1 0 = H 0 0 := by unfold form; ring
    have eb : form H (-H 0 1) (H 0 0) = H 0 0 * (H 0 0 * H 1 1 - H 0 1 * H 0 1) := by unfold form; ring
    have ec : form H 0 1 = H 1 1 := by unfold form; ring
    have ed : form H (H 1 1) (-H 0 1) = H 1 1 * (H 0 0 * H 1 1 - H 0 1 * H 0 1) := by unfold form; ring
    rcases lt_trichotomy (H 0 0) 0 with h3 | h3 | h3
    · refine ⟨⟨_, _, by rw [eb]; exact mul_pos_of_neg_of_neg h3 h2⟩, ⟨1, 0, by rw [ea]; exact h3⟩⟩
    · rcases lt_trichotomy (H 1 1) 0 with h4 | h4 | h4
      · exact ⟨⟨_, _, by rw [ed]; exact mul_pos_of_neg_of_neg h4 h2⟩, ⟨0, 1, by rw [ec]; exact h4⟩⟩
      · have h5 : H 0 1 ≠ 0 := by
          intro h5
          rw [h3, h4, h5] at h2
          simp at h2
        have e1 : form H 1 1 = 2 * H 0 1 := by unfold form; rw [h3, h4]; ring
        have e2 : form H 1 (-1) = -(2 * H 0 1) := by unfold form; rw [h3, h4]; ring
        rcases lt_or_gt_of_ne h5 with h6 | h6
        · exact ⟨⟨1, -1, by rw [e2]; linarith⟩, ⟨1, 1, by rw [e1]; linarith⟩⟩
        · exact ⟨⟨1, 1, by rw [e1]; linarith⟩, ⟨1, -1, by rw [e2]; linarith⟩⟩
      · exact ⟨⟨0, 1, by rw [ec]; exact h4⟩, ⟨_, _, by rw [ed]; exact mul_neg_of_pos_of_neg h4 h2⟩⟩
    · exact ⟨⟨1, 0, by rw [ea]; exact h3⟩, ⟨_, _, by rw [eb]; exact mul_neg_of_pos_of_neg h3 h2⟩⟩
  · rintro ⟨⟨u, v, huv⟩, ⟨r, s, hrs⟩⟩
    have hd : H 0 0 * H 1 1 - H 0 1 * H 0 1 < 0 := by
      by_contra hc
      have hc := not_lt.1 hc
      -- with a non-negative determinant the form has one sign
      have p : 0 ≤ H 0 0 * form H u v := by rw [form_sq]; positivity
      have q : 0 ≤ H 0 0 * form H r s := by rw [form_sq]; positivity
      have h0 : H 0 0 = 0 := by
        rcases lt_trichotomy (H 0 0) 0 with h3 | h3 | h3
        · exact absurd (mul_neg_of_neg_of_pos h3 huv) (not_lt.2 p)
        · exact h3
        · exact absurd (mul_neg_of_pos_of_neg h3 hrs) (not_lt.2 q)
      rw [h0] at hc
      have h1 : H 0 1 = 0 := by
        have : H 0 1 * H 0 1 ≤ 0 := by linarith
        exact mul_self_eq_zero.1 (le_antisymm this (mul_self_nonneg _))
      unfold form at huv hrs
      rw [h0, h1] at huv hrs
      have e1 : 0 < H 1 1 * v ^ 2 := by linarith
      have e2 : H 1 1 * s ^ 2 < 0 := by linarith
      rcases lt_trichotomy (H 1 1) 0 with h3 | h3 | h3
      · exact absurd e1 (not_lt.2 (mul_nonpos_of_nonpos_of_nonneg (le_of_lt h3) (sq_nonneg v)))
      · rw [h3] at e1; simp at e1
      · exact absurd e2 (not_lt.2 (mul_nonneg (le_of_lt h3) (sq_nonneg s)))
    unfold classify
    dsimp only
    rw [if_neg (not_lt.2 (le_of_lt hd)), if_pos hd]

example : classify (fun i j => ([[2, 3], [3, 5]] : List (List ℚ)).getD i [] |>.getD j 0) = some .localMinimum ∧
    classify (fun i j => ([[2, 3], [3, 4]] : List (List ℚ)).getD i [] |>.getD j 0) = some .saddlePoint := by decide +kernel

/-! ## Differences near the ends of an interval -/

/-- **C146, what holds.** On an interval at least `2 h` long `bounded_fdm` never leaves the interval, and it is exact on linear functions;
on quadratic functions it is exact further than `h` from the ends and wrong by `c2 h` or `-c2 h` there. -/
theorem C146_inside_partial (h b0 b1 t : F) (hh : 0 < h) (hw : 2 * h ≤ b1 - b0) (ht0 : b0 ≤ t) (ht1 : t ≤ b1) :
    (∀ s ∈ boundedArgs h b0 b1 t, b0 ≤ s ∧ s ≤ b1) ∧
    (∀ (f g : F → F), (∀ s, b0 ≤ s → s ≤ b1 → f s = g s) → boundedFdm f h b0 b1 t = boundedFdm g h b0 b1 t) ∧
    (∀ c0 c1 c2 : F, boundedFdm (fun s => c0 + c1 * s + c2 * s ^ 2) h b0 b1 t =
      c1 + 2 * c2 * t + (if t ≤ b0 + h then c2 * h else if b1 - h ≤ t then -(c2 * h) else 0)) := by
  have e0 : |b0 - t| ≤ h ↔ t ≤ b0 + h := by
    rw [abs_of_nonpos (by linarith)]; constructor <;> intro _ <;> linarith
  have e1 : |b1 - t| ≤ h ↔ b1 - h ≤ t := by
    rw [abs_of_nonneg (by linarith)]; constructor <;> intro _ <;> linarith
  have hargs : ∀ s ∈ boundedArgs h b0 b1 t, b0 ≤ s ∧ s ≤ b1 := by
    intro s hs
    unfold boundedArgs at hs
    simp only [e0, e1] at hs
    split_ifs at hs with c1 c2 <;> simp only [List.mem_cons, List.not_mem_nil, or_false] at hs <;> rcases hs with hs | hs <;>
      constructor <;> linarith
  refine ⟨hargs, ?_, ?_⟩
  · intro f g hfg
    unfold boundedArgs at hargs
    unfold boundedFdm forward backward central
    split_ifs at hargs ⊢ with d1 d2
    · rw [hfg _ (hargs (t + h) (by simp)).1 (hargs (t + h) (by simp)).2, hfg t ht0 ht1]
    · rw [hfg _ (hargs (t - h) (by simp)).1 (hargs (t - h) (by simp)).2, hfg t ht0 ht1]
    · rw [hfg _ (hargs (t + h) (by simp)).1 (hargs (t + h) (by simp)).2, hfg _ (hargs (t - h) (by simp)).1 (hargs (t - h) (by simp)).2]
  · intro c0 c1 c2
    unfold boundedFdm forward backward central
    simp only [e0, e1]
    split_ifs
    · field_simp; ring
    · field_simp; ring
    · field_simp; ring

/-- **C146, refuted.** On every interval shorter than `2 h` there is a parameter inside for which the function is called outside. -/
theorem C146_short_refuted (h b0 b1 : F) (hh : 0 < h) (h0 : b0 < b1) (hw : b1 - b0 < 2 * h) :
    ∃ t, b0 ≤ t ∧ t ≤ b1 ∧ ∃ s ∈ boundedArgs h b0 b1 t, b1 < s := by
  refine ⟨min (b0 + h) b1, le_min (by linarith) (le_of_lt h0), min_le_right _ _, min (b0 + h) b1 + h, ?_, ?_⟩
  · unfold boundedArgs
    rw [if_pos]
    · simp
    · have : b0 ≤ min (b0 + h) b1 := le_min (by linarith) (le_of_lt h0)
      rw [abs_of_nonpos (by linarith)]
      have := min_le_left (b0 + h) b1
      linarith
  · rcases le_total (b0 + h) b1 with hc | hc
    · rw [min_eq_left hc]; linarith
    · rw [min_eq_right hc]; linarith

example : boundedArgs (1 / 10 : ℚ) 0 1 (1 / 20) = [3 / 20, 1 / 20] ∧ boundedArgs (1 / 10 : ℚ) 0 1 (19 / 20) = [19 / 20, 17 / 20] := by
  decide +kernel

/-! ## Jacobians and slopes -/

/-- **C147, refuted.** For every linear map `jac` returns the transposed matrix. -/
theorem C147_jac_refuted (n : Nat) (A : Nat → Nat → F) (t : Nat → F) (h : F) (hh : h ≠ 0) (i c : Nat) (hi : i < n) :
    jac (fun x r => ∑ k ∈ range n, A r k * x k) t h i c = A c i := by
  unfold jac
  dsimp only
  have e1 : ∑ k ∈ range n, A c k * (t k + if k = i then h else 0) = ∑ k ∈ range n, A c k * t k + A c i * h := by
    simp only [mul_add, sum_add_distrib, mul_ite, mul_zero]
    rw [sum_ite_eq' (range n) i, if_pos (mem_range.2 hi)]
  have e2 : ∑ k ∈ range n, A c k * (t k - if k = i then h else 0) = ∑ k ∈ range n, A c k * t k - A c i * h := by
    simp only [mul_sub, sum_sub_distrib, mul_ite, mul_zero]
    rw [sum_ite_eq' (range n) i, if_pos (mem_range.2 hi)]
  rw [e1, e2]
  field_simp
  ring

/-- **C147, what holds.** It is the matrix itself exactly for symmetric maps. -/
theorem C147_jac_partial (n : Nat) (A : Nat → Nat → F) (t : Nat → F) (h : F) (hh : h ≠ 0) :
    (∀ i c, i < n → c < n → jac (fun x r => ∑ k ∈ range n, A r k * x k) t h i c = A i c) ↔
      ∀ i c, i < n → c < n → A i c = A c i := by
  constructor
  · intro H i c hi hc
    rw [← H i c hi hc, C147_jac_refuted n A t h hh i c hi]
  · intro H i c hi hc
    rw [C147_jac_refuted n A t h hh i c hi, H i c hi hc]

/-- **C147, refuted.** `dzdx` of a line with direction `(x, y, z)` is `z / y`; it is `z / x` only if `z = 0` or `x = y`. -/
theorem C147_dzdx_refuted (p d : Nat → F) (h t : F) (hh : h ≠ 0) (h0 : d 0 ≠ 0) (h1 : d 1 ≠ 0) :
    dydx (fun i s => p i + s * d i) h t = d 1 / d 0 ∧ dzdy (fun i s => p i + s * d i) h t = d 2 / d 1 ∧
    dzdx (fun i s => p i + s * d i) h t = d 2 / d 1 ∧
    (dzdx (fun i s => p i + s * d i) h t = d 2 / d 0 ↔ d 2 = 0 ∨ d 0 = d 1) := by
  have e : ∀ i, central (fun s => p i + s * d i) h t = d i := by
    intro i; unfold central; field_simp; ring
  unfold dydx dzdy dzdx
  simp only [e]
  refine ⟨trivial, trivial, trivial, ?_⟩
  rw [div_eq_div_iff h1 h0]
  constructor
  · intro H
    rcases eq_or_ne (d 2) 0 with hz | hz
    · exact Or.inl hz
    · exact Or.inr (mul_left_cancel₀ hz H)
  · rintro (H | H)
    · rw [H]; ring
    · rw [H]

example : dzdx (fun i s => ([1, 2, 3] : List ℚ).getD i 0 + s * ([2, 5, 10] : List ℚ).getD i 0) (1 / 1000) 0 = 2 := by decide +kernel

end Verif.Fdm
