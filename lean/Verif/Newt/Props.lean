import Verif.Newt.Lin
import Mathlib.LinearAlgebra.Matrix.NonsingularInverse
import Mathlib.Algebra.Order.BigOperators.Group.Finset
import Mathlib.Tactic.Positivity
import Mathlib.Tactic.Linarith
import Mathlib.Tactic.IntervalCases

/-!
# Solvers of `cnewton.pyx` (C151, C153, C154)
-/

set_option linter.unusedSectionVars false

namespace Verif.Newt
open Verif.Lu Finset
variable {F : Type} [Field F] [LinearOrder F] [IsStrictOrderedRing F]

theorem det_of_right_inverse (n : Nat) (A X : Mat F)
    (h : ∀ r k, r < n → k < n → ∑ c ∈ range n, A r c * X c k = if k = r then 1 else 0) : (toM n A).det ≠ 0 := by
  have := toM_mul n A X h
  intro hd
  have h2 := congrArg Matrix.det this
  rw [Matrix.det_mul, hd, zero_mul, Matrix.det_one] at h2
  exact zero_ne_one h2

theorem mulVec_of_sum (n : Nat) (A : Mat F) (x b : Nat → F) (h : ∀ r, r < n → ∑ c ∈ range n, A r c * x c = b r) :
    (toM n A).mulVec (fun j => x j) = fun j : Fin n => b j := by
  funext r
  have := h r r.2
  rw [← Fin.sum_univ_eq_sum_range (fun c => A r c * x c) n] at this
  exact this

/-- **C151.** `solve` returns `False` exactly for singular matrices, and else solves the system; the contents of `result` before the call and
of the working array do not matter. -/
theorem C151_solve (n : Nat) (A : Mat F) (b y0 x0 : Nat → F) :
    (solve n A b y0 x0 = none ↔ (toM n A).det = 0) ∧
    ∀ x, solve n A b y0 x0 = some x → (toM n A).mulVec (fun j => x j) = fun j : Fin n => b j := by
  constructor
  · constructor
    · intro h
      rcases solve_spec n A b y0 x0 with ⟨x, e, _⟩ | ⟨hS, _⟩
      · rw [e] at h; cases h
      · exact sing_det n A hS
    · intro hd
      unfold solve
      rcases fact_spec n A with ⟨B, P, e, hD, hd'⟩ | ⟨_, e⟩
      · exfalso
        have := fun k => luSolve_spec n A B P hD hd' (fun j => if k = j then 1 else 0) y0 x0
        choose X _ hX using this
        exact det_of_right_inverse n A (fun c k => X k c) (fun r k hr _ => hX k r hr) hd
      · rw [e]
  · intro x hx
    rcases solve_spec n A b y0 x0 with ⟨x', e, h⟩ | ⟨_, e⟩
    · rw [e] at hx
      obtain rfl := Option.some.inj hx
      exact mulVec_of_sum n A x' b h
    · rw [e] at hx; cases hx

/-- A system that needs an exchange of rows, and a singular one. -/
example : ((solve 2 (fun i j => ([[0, 2], [3, 1]] : List (List ℚ)).getD i [] |>.getD j 0) (fun i => ([4, 5] : List ℚ).getD i 0) (fun _ => 7)
    (fun _ => 9)).map fun x => (x 0, x 1)) = some (1, 2) ∧
    ((solve 2 (fun i j => ([[1, 2], [2, 4]] : List (List ℚ)).getD i [] |>.getD j 0) (fun _ => 1) (fun _ => 7) (fun _ => 9)).map fun x => x 0) = none := by
  decide +kernel

/-! ## `invert_matrix` -/

/-- **C153, what happens.** For a regular matrix the rows of the inverse are written in the order of the exchanges of the elimination:
row `c` of the inverse is row `P c` of the result. -/
theorem C153_permuted (n : Nat) (A R : Mat F) (hd : (toM n A).det ≠ 0) :
    ∃ B P X, luFactorize n A = some (B, P) ∧ invertMatrix n A R = some X ∧ (∀ r, r < n → P r < n) ∧
      (∀ r s, r < n → s < n → P r = P s → r = s) ∧ toM n A * toM n (fun r k => X (P r) k) = 1 := by
  rcases invertMatrix_spec n A R with ⟨B, P, X, e1, hD, e2, hX⟩ | ⟨hS, _⟩
  · exact ⟨B, P, X, e1, e2, hD.perm, hD.inj, toM_mul n A _ hX⟩
  · exact absurd (sing_det n A hS) hd

theorem C153_singular (n : Nat) (A R : Mat F) : invertMatrix n A R = none ↔ (toM n A).det = 0 := by
  rcases invertMatrix_spec n A R with ⟨B, P, X, e1, hD, e2, hX⟩ | ⟨hS, e⟩
  · rw [e2]
    constructor
    · intro h; cases h
    · intro h; exact absurd h (det_of_right_inverse n A (fun c k => X (P c) k) hX)
  · exact ⟨fun _ => sing_det n A hS, fun _ => e⟩

/-- **C153.** The result of `invert_matrix` is the inverse exactly if the elimination exchanged no rows. -/
theorem C153_iff (n : Nat) (A R : Mat F) (hd : (toM n A).det ≠ 0) :
    ∃ B P X, luFactorize n A = some (B, P) ∧ invertMatrix n A R = some X ∧ (toM n A * toM n X = 1 ↔ ∀ r, r < n → P r = r) := by
  obtain ⟨B, P, X, e1, e2, hp, hinj, hX⟩ := C153_permuted n A R hd
  refine ⟨B, P, X, e1, e2, fun h r hr => ?_, fun h => ?_⟩
  · by_contra hne
    have hinv : toM n X * toM n A = 1 := mul_eq_one_comm.1 h
    have same : toM n (fun r k => X (P r) k) = toM n X := by
      have h1 : toM n X * (toM n A * toM n (fun r k => X (P r) k)) = toM n X := by rw [hX, mul_one]
      rw [← mul_assoc, hinv, one_mul] at h1
      exact h1
    have a := congrFun (congrFun hinv ⟨r, hr⟩) ⟨r, hr⟩
    have b := congrFun (congrFun hinv ⟨P r, hp r hr⟩) ⟨r, hr⟩
    rw [Matrix.one_apply_eq, Matrix.mul_apply] at a
    rw [Matrix.one_apply_ne (fun e => hne (Fin.mk.inj e)), Matrix.mul_apply] at b
    have row : ∀ k : Fin n, toM n X ⟨P r, hp r hr⟩ k = toM n X ⟨r, hr⟩ k := fun k => by
      have := congrFun (congrFun same ⟨r, hr⟩) k
      exact this
    have : (0 : F) = 1 := by rw [← a, ← b]; exact sum_congr rfl fun k _ => by rw [row k]
    exact zero_ne_one this
  · rw [← hX]
    congr 1
    ext r k
    show X r k = X (P r) k
    rw [h r r.2]

/-- The first entry of the permutation is the row of the first pivot. -/
theorem first_pivot (n : Nat) (hn : 0 < n) (A B : Mat F) (P : Nat → Nat) (e : luFactorize n A = some (B, P)) : P 0 = (pivotOf n A 0).2 := by
  rcases foldlM_inv (factInd n) (A, fun k => k)
    (fun i s => (i = 0 → s = (A, fun k => k)) ∧ (0 < i → s.2 0 = (pivotOf n A 0).2)) True n
    ⟨fun _ => rfl, fun h => by omega⟩ (fun i s hi hI => by
      obtain ⟨h1, h2⟩ := hI
      unfold factInd
      dsimp only
      split_ifs with h0 hm
      · exact Or.inr ⟨trivial, rfl⟩
      · left
        refine ⟨_, rfl, fun h => h.elim, fun _ => ?_⟩
        dsimp only
        rcases Nat.eq_zero_or_pos i with rfl | hpos
        · have hs := h1 rfl
          subst hs
          change ¬ (pivotOf n A 0).2 = 0 at hm
          show swapP (fun k => k) 0 (pivotOf n A 0).2 0 = _
          unfold swapP
          rw [if_neg (fun h => hm h.symm), if_pos rfl]
        · have hlt := (pivotOf_spec n (rows s.1 s.2) i hi).2.2.1
          change i ≤ (pivotInd n s.1 s.2 i).2 at hlt
          unfold swapP
          rw [if_neg (by omega), if_neg (by omega)]
          exact h2 hpos
      · left
        refine ⟨_, rfl, fun h => h.elim, fun _ => ?_⟩
        dsimp only
        rcases Nat.eq_zero_or_pos i with rfl | hpos
        · have hs := h1 rfl
          subst hs
          have hm : (pivotOf n A 0).2 = 0 := not_not.1 hm
          rw [hm]
        · exact h2 hpos) with ⟨s, es, h⟩ | ⟨_, es⟩
  · unfold luFactorize at e
    rw [es] at e
    obtain rfl := Option.some.inj e
    exact h.2 hn
  · unfold luFactorize at e
    rw [es] at e; cases e

theorem first_exchange (n : Nat) (A B : Mat F) (P : Nat → Nat) (e : luFactorize n A = some (B, P)) (r : Nat) (hr : r < n)
    (h : |A 0 0| < |A r 0|) : P 0 ≠ 0 := by
  rw [first_pivot n (by omega) A B P e]
  obtain ⟨p1, p2, _⟩ := pivotOf_spec n A 0 (by omega)
  intro h0
  rw [h0] at p2
  have := p1 r (Nat.zero_le _) hr
  rw [p2] at this
  exact absurd h (not_lt.2 this)

/-- **C153, refuted.** Whenever an entry of the first column is greater in absolute value than the first one, the result for a regular matrix
is not its inverse. -/
theorem C153_inverse_refuted (n : Nat) (A R : Mat F) (hd : (toM n A).det ≠ 0) (r : Nat) (hr : r < n) (h : |A 0 0| < |A r 0|) :
    ∃ X, invertMatrix n A R = some X ∧ toM n A * toM n X ≠ 1 := by
  obtain ⟨B, P, X, e1, e2, h2⟩ := C153_iff n A R hd
  exact ⟨X, e2, fun h3 => first_exchange n A B P e1 r hr h (h2.1 h3 0 (by omega))⟩

/-- **C153, refuted for `solve_linear_system`.** In the same case there is a right-hand side for which the array returned is not the solution. -/
theorem C153_system_refuted (n : Nat) (A : Mat F) (hd : (toM n A).det ≠ 0) (r : Nat) (hr : r < n) (h : |A 0 0| < |A r 0|) :
    ∃ b x, solveLinearSystem n A b = some x ∧ (toM n A).mulVec (fun j => x j) ≠ fun j : Fin n => b j := by
  rcases luFactorize_spec n A with ⟨B, P, e, hD, hdd⟩ | ⟨hS, _⟩
  · have h0 := first_exchange n A B P e r hr h
    let z : Nat → F := fun c => if c = 0 then 1 else 0
    let b : Nat → F := fun r => ∑ c ∈ range n, A r c * z c
    obtain ⟨x, ex, hx⟩ := luSolveInd_spec n A B P hD hdd b
    refine ⟨b, x, by unfold solveLinearSystem; rw [e]; exact ex, fun hc => ?_⟩
    have hu : IsUnit (toM n A).det := isUnit_iff_ne_zero.2 hd
    have uniq : ∀ u v : Fin n → F, (toM n A).mulVec u = (toM n A).mulVec v → u = v := by
      intro u v huv
      have := congrArg ((toM n A)⁻¹).mulVec huv
      rwa [Matrix.mulVec_mulVec, Matrix.mulVec_mulVec, Matrix.nonsing_inv_mul _ hu, Matrix.one_mulVec, Matrix.one_mulVec] at this
    have e1 := mulVec_of_sum n A z b (fun r _ => rfl)
    have e2 := mulVec_of_sum n A (fun c => x (P c)) b hx
    have u1 := uniq _ _ (hc.trans e1.symm)
    have u2 := uniq _ _ (e2.trans e1.symm)
    have a := congrFun u2 ⟨0, by omega⟩
    have d := congrFun u1 ⟨P 0, hD.perm 0 (by omega)⟩
    have a' : x (P 0) = 1 := a
    have d' : x (P 0) = if P 0 = 0 then 1 else 0 := d
    rw [if_neg h0, a'] at d'
    exact one_ne_zero d'
  · exact absurd (sing_det n A hS) hd

/-- The inverse of `[[0, 1], [2, 0]]` is `[[0, 1/2], [1, 0]]`; the result has its rows exchanged. -/
example : ((invertMatrix 2 (fun i j => ([[0, 1], [2, 0]] : List (List ℚ)).getD i [] |>.getD j 0) (fun _ _ => 0)).map fun X =>
    [X 0 0, X 0 1, X 1 0, X 1 1]) = some [1, 0, 0, 1 / 2] := by decide +kernel

/-! ## Diagonally dominant matrices -/

/-- Every diagonal entry exceeds the sum of the other entries of its column, among the rows and columns from `i` on. -/
def Dominant (n : Nat) (A : Mat F) (i : Nat) : Prop :=
  ∀ c, i ≤ c → c < n → ∑ r ∈ (Ico i n).erase c, |A r c| < |A c c|

theorem dominant_pivot {n : Nat} {A : Mat F} {i : Nat} (h : Dominant n A i) (hi : i < n) (r : Nat) (hr : i ≤ r) (hrn : r < n) (hne : r ≠ i) :
    |A r i| < |A i i| := by
  refine lt_of_le_of_lt ?_ (h i (le_refl _) hi)
  exact single_le_sum (f := fun r => |A r i|) (fun k _ => abs_nonneg _) (mem_erase.2 ⟨hne, mem_Ico.2 ⟨hr, hrn⟩⟩)

theorem dominant_step {n : Nat} {A B : Mat F} {i : Nat} (h : Dominant n A i) (hi : i < n)
    (hB : ∀ r c, r < n → c < n → i < r → i < c → B r c = A r c - A r i / A i i * A i c) : Dominant n B (i + 1) := by
  intro c hc hcn
  have hci := h c (by omega) hcn
  have hii := h i (le_refl _) hi
  have hpos : 0 < |A i i| := lt_of_le_of_lt (sum_nonneg fun k _ => abs_nonneg _) hii
  -- the column c: the row i and the rest
  have s1 : ∑ r ∈ (Ico i n).erase c, |A r c| = |A i c| + ∑ r ∈ (Ico (i + 1) n).erase c, |A r c| := by
    have : (Ico i n).erase c = insert i ((Ico (i + 1) n).erase c) := by
      ext x; simp only [mem_erase, mem_Ico, mem_insert]; omega
    rw [this, sum_insert]
    simp only [mem_erase, mem_Ico]; omega
  have s2 : ∑ r ∈ (Ico i n).erase i, |A r i| = |A c i| + ∑ r ∈ (Ico (i + 1) n).erase c, |A r i| := by
    have : (Ico i n).erase i = insert c ((Ico (i + 1) n).erase c) := by
      ext x; simp only [mem_erase, mem_Ico, mem_insert]; omega
    rw [this, sum_insert]
    simp only [mem_erase, mem_Ico]; omega
  have s3 : ∑ r ∈ (Ico (i + 1) n).erase c, |B r c| ≤
      ∑ r ∈ (Ico (i + 1) n).erase c, |A r c| + (∑ r ∈ (Ico (i + 1) n).erase c, |A r i|) * (|A i c| / |A i i|) := by
    rw [sum_mul, ← sum_add_distrib]
    refine sum_le_sum fun r hr => ?_
    have hr' := mem_Ico.1 (mem_erase.1 hr).2
    rw [hB r c hr'.2 hcn (by omega) (by omega)]
    refine le_trans (abs_sub _ _) ?_
    rw [abs_mul, abs_div]
    refine le_of_eq ?_
    ring
  have s4 : |A c c| - |A c i| * (|A i c| / |A i i|) ≤ |B c c| := by
    rw [hB c c hcn hcn (by omega) (by omega)]
    refine le_trans (le_of_eq ?_) (abs_sub_abs_le_abs_sub _ _)
    rw [abs_mul, abs_div]
    ring
  rw [s1] at hci
  rw [s2] at hii
  have q0 : 0 ≤ |A i c| / |A i i| := div_nonneg (abs_nonneg _) (abs_nonneg _)
  have q1 : |A i i| * (|A i c| / |A i i|) = |A i c| := mul_div_cancel₀ _ (ne_of_gt hpos)
  have q2 : (∑ r ∈ (Ico (i + 1) n).erase c, |A r i|) * (|A i c| / |A i i|) ≤ (|A i i| - |A c i|) * (|A i c| / |A i i|) :=
    mul_le_mul_of_nonneg_right (by linarith) q0
  have q3 : (|A i i| - |A c i|) * (|A i c| / |A i i|) = |A i c| - |A c i| * (|A i c| / |A i i|) := by rw [sub_mul, q1]
  linarith

theorem dominant_identity (n : Nat) (A : Mat F) (h : Dominant n A 0) :
    ∃ B, ∃ P : Nat → Nat, luFactorize n A = some (B, P) ∧ ∀ r, P r = r := by
  rcases foldlM_inv (factInd n) (A, fun k => k) (fun i s => (∀ r, s.2 r = r) ∧ Dominant n s.1 i) False n
    ⟨fun r => rfl, h⟩ (fun i s hi hI => by
      obtain ⟨h1, h2⟩ := hI
      have hP : s.2 = fun r => r := funext h1
      obtain ⟨p1, p2, p3, p4⟩ := pivotOf_spec n (rows s.1 s.2) i hi
      have hrow : rows s.1 s.2 = s.1 := by unfold rows; rw [hP]
      rw [hrow] at p1 p2 p3 p4
      have hm : (pivotOf n s.1 i).2 = i := by
        by_contra hne
        have := dominant_pivot h2 hi _ p3 p4 hne
        rw [← p2] at this
        exact absurd (p1 i (le_refl _) hi) (not_le.2 this)
      have hpos : 0 < |s.1 i i| := lt_of_le_of_lt (sum_nonneg fun k _ => abs_nonneg _) (h2 i (le_refl _) hi)
      left
      unfold factInd
      dsimp only
      have hpe : pivotInd n s.1 s.2 i = pivotOf n s.1 i := by
        have : pivotInd n s.1 s.2 i = pivotOf n (rows s.1 s.2) i := rfl
        rw [this, hrow]
      rw [hpe, hm, if_neg (by rw [p2, hm]; exact ne_of_gt hpos), if_neg (by simp)]
      refine ⟨_, rfl, h1, ?_⟩
      refine dominant_step h2 hi fun r c hr hc h3 h4 => ?_
      have e := elimAll n i hi s.2 (fun r s _ _ e => by rw [h1, h1] at e; exact e) s.1 (n - (i + 1)) (by omega) r c hr hc
      unfold rows at e
      simp only [h1] at e
      dsimp only
      rw [e, if_neg (by omega), if_pos (by omega)]) with ⟨s, e, h1, _⟩ | ⟨h, _⟩
  · exact ⟨s.1, s.2, e, h1⟩
  · exact h.elim

/-- **C153, what holds.** A matrix whose diagonal entries dominate their columns is regular and `invert_matrix` returns its inverse.
Missing: all matrices whose elimination exchanges rows, where the result is wrong. -/
theorem C153_dominant_partial (n : Nat) (A R : Mat F) (h : ∀ c, c < n → ∑ r ∈ (range n).erase c, |A r c| < |A c c|) :
    ∃ X, invertMatrix n A R = some X ∧ toM n A * toM n X = 1 := by
  obtain ⟨B, P, e, hP⟩ := dominant_identity n A (fun c _ hc => by rw [← range_eq_Ico]; exact h c hc)
  rcases invertMatrix_spec n A R with ⟨B', P', X, e1, hD, e2, hX⟩ | ⟨_, e1⟩
  · rw [e] at e1
    obtain ⟨rfl, rfl⟩ := Prod.mk.inj (Option.some.inj e1)
    refine ⟨X, e2, toM_mul n A X fun r k hr hk => ?_⟩
    have := hX r k hr hk
    simp only [hP] at this
    exact this
  · exfalso
    rcases luFactorize_spec n A with ⟨B', P', e', hD, hd⟩ | ⟨_, e'⟩
    · have := fun k => luSolveInd_spec n A B' P' hD hd (fun j => if k = j then 1 else 0)
      choose X _ hX using this
      exact det_of_right_inverse n A (fun c k => X k (P' c)) (fun r k hr _ => hX k r hr)
        ((C153_singular n A R).1 e1)
    · rw [e] at e'; cases e'

/-- A dominant matrix. -/
example : ((invertMatrix 2 (fun i j => ([[4, 1], [2, 3]] : List (List ℚ)).getD i [] |>.getD j 0) (fun _ _ => 0)).map fun X =>
    [X 0 0, X 0 1, X 1 0, X 1 1]) = some [3 / 10, -1 / 10, -1 / 5, 2 / 5] := by decide +kernel

end Verif.Newt
