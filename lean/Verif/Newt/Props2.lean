import Verif.Newt.Props
import Verif.Fdm.Props
import Mathlib.LinearAlgebra.Matrix.ToLinearEquiv
import Mathlib.Tactic.LinearCombination

/-!
# Newton's methods of `cnewton.pyx` (C152, C154)
-/

set_option linter.unusedSectionVars false

namespace Verif.Newt
open Verif.Lu Finset
variable {F : Type} [Field F] [LinearOrder F] [IsStrictOrderedRing F]

/-! ## The finite differences -/

theorem putV_eq (x : Nat → F) (i : Nat) (s : F) : putV x i s = Fdm.put id x i s := rfl

theorem gradStep_eq (f : (Nat → F) → F) (h : F) (x g : Nat → F) (i : Nat) : gradStep f h (x, g) i = Fdm.gradStep id f h (x, g) i := by
  rw [Fdm.gradStep_id]
  unfold gradStep
  dsimp only
  simp only [putV_eq, Fdm.put_put]
  rw [Fdm.put_id, sub_eq_add_neg (x i) h, Fdm.put_id, Fdm.put_self]

/-- `gradient` of `cnewton.pyx` computes what `gradient` of `fdm.py` does. -/
theorem gradient_eq (n : Nat) (f : (Nat → F) → F) (x : Nat → F) (h : F) : gradient n f x h = (Fdm.gradient id n f x h).2 := by
  unfold gradient Fdm.gradient
  congr 1
  have : ∀ (l : List Nat) (s : (Nat → F) × (Nat → F)), l.foldl (gradStep f h) s = l.foldl (Fdm.gradStep id f h) s := by
    intro l
    induction l with
    | nil => intro s; rfl
    | cons a l ih => intro s; obtain ⟨x, g⟩ := s; rw [List.foldl_cons, List.foldl_cons, gradStep_eq, ih]
  exact this _ _

theorem put_comm (x : Nat → F) (i j : Nat) (hij : i ≠ j) (a b : F) : Fdm.put id (Fdm.put id x i a) j b = Fdm.put id (Fdm.put id x j b) i a := by
  funext k; unfold Fdm.put; split_ifs <;> first | rfl | omega

theorem put_other (x : Nat → F) (i j : Nat) (hij : i ≠ j) (a : F) : Fdm.put id x i a j = x j := by
  unfold Fdm.put; rw [if_neg (fun h => hij h.symm)]

theorem hessInner_eq (f : (Nat → F) → F) (h : F) (x : Nat → F) (H : Mat F) (i j : Nat) (hij : i ≠ j) :
    hessInner f h i (x i) (x, H) j =
      (x, put (put H j i (Fdm.hessEntry id f x h i j)) i j (Fdm.hessEntry id f x h i j)) := by
  rw [Fdm.hessEntry]
  rw [if_neg hij]
  unfold hessInner
  dsimp only
  simp only [putV_eq]
  have hx : Fdm.put id (Fdm.put id (Fdm.put id (Fdm.put id (Fdm.put id (Fdm.put id (Fdm.put id (Fdm.put id x i (x i + h)) j (x j + h)) j
      (x j - h)) i (x i - h)) j (x j + h)) j (x j - h)) i (x i)) j (x j) = x := by
    funext k; unfold Fdm.put
    by_cases h1 : k = j
    · rw [if_pos h1, h1]; rfl
    · rw [if_neg h1]
      by_cases h2 : k = i
      · rw [if_pos h2, h2]; rfl
      · simp only [if_neg h1, if_neg h2]
  have e2 : Fdm.put id (Fdm.put id (Fdm.put id x i (x i + h)) j (x j + h)) j (x j - h) = Fdm.put id (Fdm.put id x i (x i + h)) j (x j - h) :=
    Fdm.put_put _ _ _ _ _
  have e3 : Fdm.put id (Fdm.put id (Fdm.put id (Fdm.put id x i (x i + h)) j (x j - h)) i (x i - h)) j (x j + h) =
      Fdm.put id (Fdm.put id x i (x i - h)) j (x j + h) := by
    rw [put_comm x i j hij, Fdm.put_put, put_comm x j i (Ne.symm hij), Fdm.put_put]
  have e4 : Fdm.put id (Fdm.put id (Fdm.put id x i (x i - h)) j (x j + h)) j (x j - h) = Fdm.put id (Fdm.put id x i (x i - h)) j (x j - h) :=
    Fdm.put_put _ _ _ _ _
  rw [hx, e2, e3, e4]
  simp only [put_other x i j hij]
  rw [show 4 * h * h = 4 * h ^ 2 by ring]

theorem hessInner_fold (f : (Nat → F) → F) (h : F) (x : Nat → F) (H : Mat F) (i k : Nat) :
    ∃ H', (List.range' (i + 1) k).foldl (hessInner f h i (x i)) (x, H) = (x, H') ∧
      ∀ r c, H' r c = if min r c = i ∧ i < max r c ∧ max r c < i + 1 + k then Fdm.hessEntry id f x h i (max r c) else H r c := by
  induction k with
  | zero => exact ⟨H, rfl, fun r c => by rw [if_neg (by omega)]⟩
  | succ k ih =>
    obtain ⟨H', e, hH⟩ := ih
    rw [List.range'_1_concat, List.foldl_append, e]
    show ∃ H'', hessInner f h i (x i) (x, H') (i + 1 + k) = _ ∧ _
    rw [hessInner_eq f h x H' i (i + 1 + k) (by omega)]
    refine ⟨_, rfl, fun r c => ?_⟩
    unfold put
    by_cases h1 : r = i ∧ c = i + 1 + k
    · rw [if_pos h1, if_pos (by omega)]; congr 1; omega
    · rw [if_neg h1]
      by_cases h2 : r = i + 1 + k ∧ c = i
      · rw [if_pos h2, if_pos (by omega)]; congr 1; omega
      · rw [if_neg h2, hH]
        by_cases h3 : min r c = i ∧ i < max r c ∧ max r c < i + 1 + k
        · rw [if_pos h3, if_pos (by omega)]
        · rw [if_neg h3, if_neg (by omega)]

/-- `hessian` of `cnewton.pyx` computes what `hessian` of `fdm.py` does on arrays of floats. -/
theorem hessian_eq (n : Nat) (f : (Nat → F) → F) (x : Nat → F) (h : F) (r c : Nat) (hr : r < n) (hc : c < n) :
    hessian n f x h r c = Fdm.hessian id n f x h r c := by
  rw [Fdm.hessian_entry id n f x h r c hr hc]
  unfold hessian
  have key : ∀ m, m ≤ n → ∃ H', (List.range m).foldl (hessOuter n f h (f x)) (x, fun _ _ => 0) = (x, H') ∧
      ∀ r c, r < n → c < n → H' r c = if min r c < m then Fdm.hessEntry id f x h (min r c) (max r c) else 0 := by
    intro m
    induction m with
    | zero => intro _; exact ⟨_, rfl, fun r c _ _ => by rw [if_neg (by omega)]⟩
    | succ m ih =>
      intro hm
      obtain ⟨H', e, hH⟩ := ih (by omega)
      rw [List.range_succ, List.foldl_append, e, List.foldl_cons, List.foldl_nil]
      unfold hessOuter
      dsimp only
      have hx : putV (putV (putV x m (x m + h)) m (x m - h)) m (x m) = x := by
        simp only [putV_eq, Fdm.put_put, Fdm.put_self]
      rw [hx]
      obtain ⟨H2, e2, hH2⟩ := hessInner_fold f h x
        (put H' m m ((f (putV x m (x m + h)) - 2 * f x + f (putV (putV x m (x m + h)) m (x m - h))) / (h * h))) m (n - (m + 1))
      refine ⟨H2, e2, fun r c hr hc => ?_⟩
      rw [hH2]
      by_cases h1 : min r c = m ∧ m < max r c
      · rw [if_pos (by omega), if_pos (by omega), h1.1]
      · rw [if_neg (by omega)]
        unfold put
        by_cases h2 : r = m ∧ c = m
        · rw [if_pos h2, if_pos (by omega)]
          obtain ⟨rfl, rfl⟩ := h2
          rw [min_self, max_self]
          unfold Fdm.hessEntry
          rw [if_pos rfl]
          dsimp only
          simp only [putV_eq, Fdm.put_put]
          rw [pow_two]
        · rw [if_neg h2, hH r c hr hc]
          by_cases h3 : min r c < m
          · rw [if_pos h3, if_pos (by omega)]
          · rw [if_neg h3, if_neg (by omega)]
  obtain ⟨H', e, hH⟩ := key n (le_refl _)
  rw [e]
  dsimp only
  rw [hH r c hr hc, if_pos (by omega)]

theorem sumSq_eq (n : Nat) (v : Nat → F) : sumSq n v = ∑ i ∈ range n, v i * v i := by
  unfold sumSq
  induction n with
  | zero => rfl
  | succ n ih => rw [List.range_succ, List.foldl_append, sum_range_succ, List.foldl_cons, List.foldl_nil, ih]

theorem sumSq_zero (n : Nat) (v : Nat → F) (h : ∀ i, i < n → v i = 0) : sumSq n v = 0 := by
  rw [sumSq_eq]
  exact sum_eq_zero fun i hi => by rw [h i (mem_range.1 hi), mul_zero]

/-! ## `newtons_method` -/

/-- One round on a quadratic polynomial. -/
theorem newton_round (n : Nat) (c : F) (b : Nat → F) (a : Nat → Nat → F) (tol h : F) (hh : h ≠ 0) (y0 : Nat → F)
    (hdet : (toM n fun i j => a i j + a j i).det ≠ 0) (fuel : Nat) (x : Nat → F) :
    ∃ s : Nat → F, (∀ i, i < n → b i + ∑ j ∈ range n, (a i j + a j i) * (x j - s j) = 0) ∧
      newtonLoop n (Fdm.quad n c b a) tol h y0 (fuel + 1) x =
        if sumSq n s < tol * tol then some (fun i => if i < n then x i - s i else x i)
        else newtonLoop n (Fdm.quad n c b a) tol h y0 fuel (fun i => if i < n then x i - s i else x i) := by
  obtain ⟨hg, hH⟩ := Fdm.C142_quadratic n c b a x h hh
  have hM : toM n (hessian n (Fdm.quad n c b a) x h) = toM n fun i j => a i j + a j i := by
    funext i j
    show hessian n (Fdm.quad n c b a) x h i j = _
    rw [hessian_eq n _ x h i j i.2 j.2]
    exact hH i j i.2 j.2
  rcases solve_spec n (hessian n (Fdm.quad n c b a) x h) (gradient n (Fdm.quad n c b a) x h) y0 (fun _ => 0) with ⟨s, e, hs⟩ | ⟨hS, _⟩
  · refine ⟨s, fun i hi => ?_, ?_⟩
    · have := hs i hi
      rw [gradient_eq, hg i hi] at this
      have e2 : ∑ j ∈ range n, hessian n (Fdm.quad n c b a) x h i j * s j = ∑ j ∈ range n, (a i j + a j i) * s j :=
        sum_congr rfl fun j hj => by rw [hessian_eq n _ x h i j hi (mem_range.1 hj), hH i j hi (mem_range.1 hj)]
      rw [e2] at this
      simp only [mul_sub, sum_sub_distrib]
      rw [this]; ring
    · rw [newtonLoop, e]
  · have := sing_det n _ hS
    rw [hM] at this
    exact absurd this hdet

/-- **C152, what holds.** On every quadratic polynomial with regular Hessian `newtons_method` returns, from every start and within two
rounds, the critical point.  Missing: "the root of the function if found", which is refuted below. -/
theorem C152_quadratic_partial (n : Nat) (c : F) (b : Nat → F) (a : Nat → Nat → F) (tol h : F) (htol : 0 < tol) (hh : h ≠ 0) (y0 : Nat → F)
    (hdet : (toM n fun i j => a i j + a j i).det ≠ 0) (maxIter : Nat) (hm : 2 ≤ maxIter) (x : Nat → F) :
    ∃ y : Nat → F, newtonsMethod n (Fdm.quad n c b a) x tol maxIter h y0 = some y ∧
      ∀ i, i < n → b i + ∑ j ∈ range n, (a i j + a j i) * y j = 0 := by
  obtain ⟨m, rfl⟩ : ∃ m, maxIter = m + 2 := ⟨maxIter - 2, by omega⟩
  unfold newtonsMethod
  have fix : ∀ (x s : Nat → F) (i : Nat), ∑ j ∈ range n, (a i j + a j i) * (if j < n then x j - s j else x j) =
      ∑ j ∈ range n, (a i j + a j i) * (x j - s j) := fun x s i => sum_congr rfl fun j hj => by rw [if_pos (mem_range.1 hj)]
  obtain ⟨s, hs, e⟩ := newton_round n c b a tol h hh y0 hdet (m + 1) x
  rw [e]
  by_cases h1 : sumSq n s < tol * tol
  · exact ⟨_, if_pos h1, fun i hi => by rw [fix]; exact hs i hi⟩
  · rw [if_neg h1]
    obtain ⟨s2, hs2, e2⟩ := newton_round n c b a tol h hh y0 hdet m (fun i => if i < n then x i - s i else x i)
    refine ⟨_, ?_, fun i hi => by rw [fix]; exact hs2 i hi⟩
    rw [e2, if_pos]
    rw [sumSq_zero]
    · exact mul_pos htol htol
    · intro k hk
      have hinj : (toM n fun i j => a i j + a j i).mulVec (fun j : Fin n => s2 j) = 0 := by
        funext i
        show ∑ j : Fin n, (a i j + a j i) * s2 j = 0
        have p := hs2 i i.2
        have q := hs i i.2
        rw [← fix x s i] at q
        simp only [mul_sub, sum_sub_distrib] at p
        rw [Finset.sum_range, Finset.sum_range] at p
        rw [Finset.sum_range] at q
        linear_combination q - p
      have := congrFun (Matrix.eq_zero_of_mulVec_eq_zero hdet hinj) ⟨k, hk⟩
      exact this

theorem quad_shift (n : Nat) (c d : F) (b : Nat → F) (a : Nat → Nat → F) (x : Nat → F) :
    Fdm.quad n (c + d) b a x = Fdm.quad n c b a x + d := by
  unfold Fdm.quad; ring

/-- **C152, refuted.** "The root of the function if found, None otherwise": on every quadratic polynomial with a regular Hessian and a
constant chosen suitably the function returns a point where the polynomial has any given value `v`, such as 1. -/
theorem C152_root_refuted (n : Nat) (b : Nat → F) (a : Nat → Nat → F) (tol h : F) (htol : 0 < tol) (hh : h ≠ 0) (y0 : Nat → F)
    (hdet : (toM n fun i j => a i j + a j i).det ≠ 0) (maxIter : Nat) (hm : 2 ≤ maxIter) (x : Nat → F) (v : F) :
    ∃ c y, newtonsMethod n (Fdm.quad n c b a) x tol maxIter h y0 = some y ∧ Fdm.quad n c b a y = v := by
  -- any two critical points have the same value; choose the constant from the one for `c = 0`
  obtain ⟨y, _, hy⟩ := C152_quadratic_partial n 0 b a tol h htol hh y0 hdet maxIter hm x
  obtain ⟨z, e, hz⟩ := C152_quadratic_partial n (0 + (v - Fdm.quad n 0 b a y)) b a tol h htol hh y0 hdet maxIter hm x
  refine ⟨_, z, e, ?_⟩
  have hzy : ∀ k, k < n → z k = y k := by
    intro k hk
    have hinj : (toM n fun i j => a i j + a j i).mulVec (fun j : Fin n => z j - y j) = 0 := by
      funext i
      show ∑ j : Fin n, (a i j + a j i) * (z j - y j) = 0
      have p := hz i i.2
      have q := hy i i.2
      rw [Finset.sum_range] at p q
      simp only [mul_sub, sum_sub_distrib]
      linear_combination p - q
    have := congrFun (Matrix.eq_zero_of_mulVec_eq_zero hdet hinj) ⟨k, hk⟩
    exact sub_eq_zero.1 this
  have hq : Fdm.quad n 0 b a z = Fdm.quad n 0 b a y := by
    unfold Fdm.quad
    congr 1
    · congr 1
      exact sum_congr rfl fun j hj => by rw [hzy j (mem_range.1 hj)]
    · exact sum_congr rfl fun i hi => sum_congr rfl fun j hj => by rw [hzy j (mem_range.1 hj), hzy i (mem_range.1 hi)]
  rw [quad_shift, hq]
  ring

/-- **C152, refuted.** Linear functions, which do have roots, never give a result. -/
theorem C152_linear_refuted (n : Nat) (hn : 0 < n) (c : F) (b : Nat → F) (tol h : F) (hh : h ≠ 0) (y0 : Nat → F) (maxIter : Nat) (x : Nat → F) :
    newtonsMethod n (Fdm.quad n c b fun _ _ => 0) x tol maxIter h y0 = none := by
  unfold newtonsMethod
  cases maxIter with
  | zero => rfl
  | succ m =>
    rw [newtonLoop]
    have hH := (Fdm.C142_quadratic n c b (fun _ _ => 0) x h hh).2
    have hM : toM n (hessian n (Fdm.quad n c b fun _ _ => 0) x h) = 0 := by
      funext i j
      show hessian n (Fdm.quad n c b fun _ _ => 0) x h i j = 0
      rw [hessian_eq n _ x h i j i.2 j.2, hH i j i.2 j.2, add_zero]
    have : Nonempty (Fin n) := ⟨⟨0, hn⟩⟩
    rw [(C151_solve n _ _ y0 _).1.2 (by rw [hM, Matrix.det_zero])]

/-- `x² + x y + y² - 3 x + 5` from (7, -4): the minimum is (2, -1), with the value 2. -/
example : ((newtonsMethod 2 (fun p : Nat → ℚ => p 0 ^ 2 + p 0 * p 1 + p 1 ^ 2 - 3 * p 0 + 5) (fun k => ([7, -4] : List ℚ).getD k 0)
    (1 / 100000) 100 (1 / 1000) (fun _ => 0)).map fun y => (y 0, y 1)) = some (2, -1) := by decide +kernel

/-! ## `newton_method2` -/

theorem matVec_eq (n : Nat) (M : Mat F) (v : Nat → F) (i : Nat) : matVec n M v i = ∑ j ∈ range n, M i j * v j := by
  unfold matVec
  induction n with
  | zero => rfl
  | succ n ih => rw [List.range_succ, List.foldl_append, sum_range_succ, List.foldl_cons, List.foldl_nil, ih]

/-- An affine system `A x = c`. -/
def affine (n : Nat) (A : Mat F) (c : Nat → F) (x : Nat → F) : Nat → F := fun i => ∑ j ∈ range n, A i j * x j - c i

/-- The step on an affine system with the solution `z`: the errors `x - z`, in the order of the exchanges of the elimination. -/
theorem affine_step (n : Nat) (A R : Mat F) (c z x : Nat → F) (hz : ∀ i, i < n → ∑ j ∈ range n, A i j * z j = c i)
    (hd : (toM n A).det ≠ 0) :
    ∃ B P X, luFactorize n A = some (B, P) ∧ invertMatrix n A R = some X ∧ (∀ r, r < n → P r < n) ∧ (∀ r s, r < n → s < n → P r = P s → r = s) ∧
      ∀ r, r < n → matVec n X (affine n A c x) (P r) = x r - z r := by
  obtain ⟨B, P, X, e1, e2, hp, hinj, hX⟩ := C153_permuted n A R hd
  refine ⟨B, P, X, e1, e2, hp, hinj, fun r hr => ?_⟩
  have hX' : toM n (fun r k => X (P r) k) * toM n A = 1 := mul_eq_one_comm.1 hX
  have h1 : (fun j : Fin n => affine n A c x j) = (toM n A).mulVec (fun j => x j - z j) := by
    funext i
    show affine n A c x i = ∑ j : Fin n, A i j * (x j - z j)
    unfold affine
    rw [← hz i i.2, ← Fin.sum_univ_eq_sum_range (fun j => A i j * x j), ← Fin.sum_univ_eq_sum_range (fun j => A i j * z j), ← sum_sub_distrib]
    exact sum_congr rfl fun j _ => by ring
  have h2 : (toM n (fun r k => X (P r) k)).mulVec (fun j : Fin n => affine n A c x j) = fun j : Fin n => x j - z j := by
    rw [h1, Matrix.mulVec_mulVec, hX', Matrix.one_mulVec]
  have h3 := congrFun h2 ⟨r, hr⟩
  rw [matVec_eq, ← Fin.sum_univ_eq_sum_range (fun j => X (P r) j * affine n A c x j)]
  exact h3

/-- **C154, what holds.** If the elimination of `A` needs no exchange of rows (here: every diagonal entry dominates its column), then
`newton_method2` on the affine system `A x = c` returns the solution, or the start if that is within the tolerance.
Missing: matrices with exchanges, where the method diverges. -/
theorem C154_affine_partial (n : Nat) (A : Mat F) (c x0 : Nat → F) (tol : F) (htol : 0 < tol) (maxIter : Nat) (hm : 2 ≤ maxIter)
    (h : ∀ k, k < n → ∑ r ∈ (range n).erase k, |A r k| < |A k k|) :
    ∃ x, newtonMethod2 n (affine n A c) (fun _ => A) x0 tol maxIter = some x ∧
      ((x = x0 ∧ sumSq n (affine n A c x0) < tol * tol) ∨ ∀ i, i < n → affine n A c x i = 0) := by
  obtain ⟨m, rfl⟩ : ∃ m, maxIter = m + 2 := ⟨maxIter - 2, by omega⟩
  obtain ⟨B, P, eB, hP⟩ := dominant_identity n A (fun c _ hc => by rw [← range_eq_Ico]; exact h c hc)
  unfold newtonMethod2
  rw [newton2Loop]
  dsimp only
  by_cases h0 : sumSq n (affine n A c x0) < tol * tol
  · exact ⟨x0, if_pos h0, Or.inl ⟨rfl, h0⟩⟩
  · rw [if_neg h0]
    obtain ⟨X0, _, hX0⟩ := C153_dominant_partial n A (fun _ _ => 0) h
    have hd : (toM n A).det ≠ 0 := fun h0 => by
      have := congrArg Matrix.det hX0
      rw [Matrix.det_mul, h0, zero_mul, Matrix.det_one] at this
      exact zero_ne_one this
    -- the solution
    obtain ⟨z, _, hz⟩ : ∃ z, solve n A c (fun _ => 0) (fun _ => 0) = some z ∧ ∀ r, r < n → ∑ c ∈ range n, A r c * z c = c r := by
      rcases solve_spec n A c (fun _ => 0) (fun _ => 0) with h | ⟨hS, _⟩
      · exact h
      · exact absurd (sing_det n A hS) hd
    obtain ⟨B', P', X, e1, e2, _, _, hs⟩ := affine_step n A (fun _ _ => 0) c z x0 hz hd
    rw [eB] at e1
    obtain ⟨rfl, rfl⟩ := Prod.mk.inj (Option.some.inj e1)
    simp only [hP] at hs
    rw [e2]
    dsimp only
    have hzero : ∀ i, i < n → affine n A c (fun i => if i < n then x0 i - matVec n X (affine n A c x0) i else x0 i) i = 0 := by
      intro i hi
      unfold affine
      rw [sub_eq_zero, ← hz i hi]
      refine sum_congr rfl fun j hj => ?_
      have hj := mem_range.1 hj
      dsimp only
      rw [if_pos hj]
      have := hs j hj
      unfold affine at this
      rw [this]; ring
    by_cases h1 : sumSq n (matVec n X (affine n A c x0)) < tol * tol
    · exact ⟨_, if_pos h1, Or.inr hzero⟩
    · rw [if_neg h1, newton2Loop]
      dsimp only
      refine ⟨_, if_pos ?_, Or.inr hzero⟩
      rw [sumSq_zero n _ hzero]
      exact mul_pos htol htol

/-- The divergence: the error is `s (1, -1)` and doubles. -/
theorem diverge (A : Mat F) (c z : Nat → F) (hz : ∀ i, i < 2 → ∑ j ∈ range 2, A i j * z j = c i)
    (hd : (toM 2 A).det ≠ 0) (h : |A 0 0| < |A 1 0|) (tol q : F) (htol : tol * tol ≤ q) (htol2 : 0 < q) (d : F)
    (hq : q ≤ d * d * ((A 0 0 - A 0 1) * (A 0 0 - A 0 1) + (A 1 0 - A 1 1) * (A 1 0 - A 1 1))) (hq2 : q ≤ d * d) :
    ∀ (fuel : Nat) (R : Mat F) (x : Nat → F) (s : F), d * d ≤ s * s → x 0 - z 0 = s → x 1 - z 1 = -s →
      newton2Loop 2 (affine 2 A c) (fun _ => A) tol fuel R x = none := by
  intro fuel
  induction fuel with
  | zero => intro R x s _ _ _; rfl
  | succ m ih =>
    intro R x s hs h0 h1
    rw [newton2Loop]
    dsimp only
    have hz0 := hz 0 (by omega)
    have hz1 := hz 1 (by omega)
    simp only [sum_range_succ, sum_range_zero, zero_add] at hz0 hz1
    have f0 : affine 2 A c x 0 = s * (A 0 0 - A 0 1) := by
      unfold affine; simp only [sum_range_succ, sum_range_zero, zero_add]
      rw [← hz0]; linear_combination A 0 0 * h0 + A 0 1 * h1
    have f1 : affine 2 A c x 1 = s * (A 1 0 - A 1 1) := by
      unfold affine; simp only [sum_range_succ, sum_range_zero, zero_add]
      rw [← hz1]; linear_combination A 1 0 * h0 + A 1 1 * h1
    have g0 : ¬ sumSq 2 (affine 2 A c x) < tol * tol := by
      rw [sumSq_eq]; simp only [sum_range_succ, sum_range_zero, zero_add]
      rw [f0, f1, not_lt]
      refine le_trans (le_trans htol hq) (le_trans (mul_le_mul_of_nonneg_right hs (add_nonneg (mul_self_nonneg _) (mul_self_nonneg _))) (le_of_eq ?_))
      ring
    rw [if_neg g0]
    obtain ⟨B, P, X, e1, e2, hp, hinj, hstep⟩ := affine_step 2 A R c z x hz hd
    have hP0 : P 0 = 1 := by
      have := first_exchange 2 A B P e1 1 (by omega) h
      have := hp 0 (by omega)
      omega
    have hP1 : P 1 = 0 := by
      have h2 := hp 1 (by omega)
      have h3 : P 1 ≠ 1 := fun h => by
        have := hinj 0 1 (by omega) (by omega) (by rw [hP0, h])
        omega
      omega
    have d1 := hstep 0 (by omega)
    have d0 := hstep 1 (by omega)
    rw [hP0, h0] at d1
    rw [hP1, h1] at d0
    rw [e2]
    dsimp only
    have g1 : ¬ sumSq 2 (matVec 2 X (affine 2 A c x)) < tol * tol := by
      rw [sumSq_eq]; simp only [sum_range_succ, sum_range_zero, zero_add]
      rw [d0, d1, not_lt]
      have : 0 ≤ s * s := mul_self_nonneg s
      have : -s * -s = s * s := by ring
      linarith
    rw [if_neg g1]
    refine ih X _ (2 * s) ?_ ?_ ?_
    · have : 2 * s * (2 * s) = 4 * (s * s) := by ring
      have : 0 ≤ s * s := mul_self_nonneg s
      linarith
    · rw [if_pos (by omega), d0]; linear_combination h0
    · rw [if_pos (by omega), d1]; linear_combination h1

/-- **C154, refuted.** For every regular affine system of two equations with `|A 0 0| < |A 1 0|` and every start whose two coordinates have
different errors, `newton_method2` does not converge: for all small tolerances and every number of iterations it raises. -/
theorem C154_diverges_refuted (A : Mat F) (c z x0 : Nat → F) (hz : ∀ i, i < 2 → affine 2 A c z i = 0)
    (hd : A 0 0 * A 1 1 - A 0 1 * A 1 0 ≠ 0) (h : |A 0 0| < |A 1 0|) (hx : x0 0 - z 0 ≠ x0 1 - z 1) :
    ∃ t : F, 0 < t ∧ ∀ tol, 0 < tol → tol ≤ t → ∀ maxIter, newtonMethod2 2 (affine 2 A c) (fun _ => A) x0 tol maxIter = none := by
  have hd2 : (toM 2 A).det ≠ 0 := by
    rw [Matrix.det_fin_two]; exact hd
  have hz' : ∀ i, i < 2 → ∑ j ∈ range 2, A i j * z j = c i := fun i hi => by
    have := hz i hi; unfold affine at this; exact sub_eq_zero.1 this
  set d := x0 0 - z 0 - (x0 1 - z 1) with hdd
  have hdn : d ≠ 0 := sub_ne_zero.2 hx
  have hdp : 0 < d * d := mul_self_pos.2 hdn
  have hz0 := hz' 0 (by omega)
  have hz1 := hz' 1 (by omega)
  simp only [sum_range_succ, sum_range_zero, zero_add] at hz0 hz1
  have sqp : ∀ u v : F, u ≠ 0 ∨ v ≠ 0 → 0 < u * u + v * v := by
    intro u v h
    rcases h with h | h
    · have := mul_self_pos.2 h; have := mul_self_nonneg v; linarith
    · have := mul_self_pos.2 h; have := mul_self_nonneg u; linarith
  have p1 : 0 < (A 0 0 - A 0 1) * (A 0 0 - A 0 1) + (A 1 0 - A 1 1) * (A 1 0 - A 1 1) := by
    refine sqp _ _ ?_
    by_contra hc
    have hc1 : A 0 0 - A 0 1 = 0 := by by_contra h; exact hc (Or.inl h)
    have hc2 : A 1 0 - A 1 1 = 0 := by by_contra h; exact hc (Or.inr h)
    exact hd (by linear_combination A 1 0 * hc1 - A 0 0 * hc2)
  have hne : x0 0 - z 0 ≠ 0 ∨ x0 1 - z 1 ≠ 0 := by
    by_contra hc
    have hc1 : x0 0 - z 0 = 0 := by by_contra h; exact hc (Or.inl h)
    have hc2 : x0 1 - z 1 = 0 := by by_contra h; exact hc (Or.inr h)
    exact hx (by rw [hc1, hc2])
  have p2 : 0 < (x0 0 - z 0) * (x0 0 - z 0) + (x0 1 - z 1) * (x0 1 - z 1) := sqp _ _ hne
  have a0 : affine 2 A c x0 0 = A 0 0 * (x0 0 - z 0) + A 0 1 * (x0 1 - z 1) := by
    unfold affine; simp only [sum_range_succ, sum_range_zero, zero_add]; rw [← hz0]; ring
  have a1 : affine 2 A c x0 1 = A 1 0 * (x0 0 - z 0) + A 1 1 * (x0 1 - z 1) := by
    unfold affine; simp only [sum_range_succ, sum_range_zero, zero_add]; rw [← hz1]; ring
  have p3 : 0 < sumSq 2 (affine 2 A c x0) := by
    rw [sumSq_eq]; simp only [sum_range_succ, sum_range_zero, zero_add]
    refine sqp _ _ ?_
    by_contra hc
    have hc1 : affine 2 A c x0 0 = 0 := by by_contra h; exact hc (Or.inl h)
    have hc2 : affine 2 A c x0 1 = 0 := by by_contra h; exact hc (Or.inr h)
    rw [a0] at hc1; rw [a1] at hc2
    rcases hne with h1 | h1
    · exact h1 ((mul_eq_zero.1 (show (A 0 0 * A 1 1 - A 0 1 * A 1 0) * (x0 0 - z 0) = 0 by linear_combination A 1 1 * hc1 - A 0 1 * hc2)).resolve_left hd)
    · exact h1 ((mul_eq_zero.1 (show (A 0 0 * A 1 1 - A 0 1 * A 1 0) * (x0 1 - z 1) = 0 by linear_combination A 0 0 * hc2 - A 1 0 * hc1)).resolve_left hd)
  -- a common bound
  obtain ⟨q, hq0, q1, q2, q3, q4⟩ : ∃ q : F, 0 < q ∧ q ≤ d * d ∧
      q ≤ d * d * ((A 0 0 - A 0 1) * (A 0 0 - A 0 1) + (A 1 0 - A 1 1) * (A 1 0 - A 1 1)) ∧
      q ≤ (x0 0 - z 0) * (x0 0 - z 0) + (x0 1 - z 1) * (x0 1 - z 1) ∧ q ≤ sumSq 2 (affine 2 A c x0) := by
    refine ⟨min (min (d * d) (d * d * ((A 0 0 - A 0 1) * (A 0 0 - A 0 1) + (A 1 0 - A 1 1) * (A 1 0 - A 1 1))))
      (min ((x0 0 - z 0) * (x0 0 - z 0) + (x0 1 - z 1) * (x0 1 - z 1)) (sumSq 2 (affine 2 A c x0))), ?_, ?_, ?_, ?_, ?_⟩
    · exact lt_min (lt_min hdp (mul_pos hdp p1)) (lt_min p2 p3)
    · exact le_trans (min_le_left _ _) (min_le_left _ _)
    · exact le_trans (min_le_left _ _) (min_le_right _ _)
    · exact le_trans (min_le_right _ _) (min_le_left _ _)
    · exact le_trans (min_le_right _ _) (min_le_right _ _)
  refine ⟨min 1 q, lt_min one_pos hq0, fun tol h0 ht maxIter => ?_⟩
  have htq : tol * tol ≤ q := by
    have h1 : tol ≤ 1 := le_trans ht (min_le_left _ _)
    have h2 : tol ≤ q := le_trans ht (min_le_right _ _)
    calc tol * tol ≤ tol * 1 := mul_le_mul_of_nonneg_left h1 (le_of_lt h0)
      _ ≤ q := by rw [mul_one]; exact h2
  unfold newtonMethod2
  cases maxIter with
  | zero => rfl
  | succ m =>
    rw [newton2Loop]
    dsimp only
    rw [if_neg (not_lt.2 (le_trans htq q4))]
    obtain ⟨B, P, X, e1, e2, hp, hinj, hstep⟩ := affine_step 2 A (fun _ _ => 0) c z x0 hz' hd2
    have hP0 : P 0 = 1 := by
      have := first_exchange 2 A B P e1 1 (by omega) h
      have := hp 0 (by omega)
      omega
    have hP1 : P 1 = 0 := by
      have h2 := hp 1 (by omega)
      have h3 : P 1 ≠ 1 := fun h => by
        have := hinj 0 1 (by omega) (by omega) (by rw [hP0, h])
        omega
      omega
    have d1 := hstep 0 (by omega)
    have d0 := hstep 1 (by omega)
    rw [hP0] at d1
    rw [hP1] at d0
    rw [e2]
    dsimp only
    have g1 : ¬ sumSq 2 (matVec 2 X (affine 2 A c x0)) < tol * tol := by
      rw [sumSq_eq]; simp only [sum_range_succ, sum_range_zero, zero_add]
      rw [d0, d1, not_lt, add_comm]
      exact le_trans htq q3
    rw [if_neg g1]
    refine diverge A c z hz' hd2 h tol q htq hq0 d q2 q1 m X _ d (le_refl _) ?_ ?_
    · rw [if_pos (by omega), d0]; rw [hdd]; ring
    · rw [if_pos (by omega), d1]; rw [hdd]; ring

/-- `y = 1, x = 0` (the solution (0, 1)) from (3, 0): after 20 rounds nothing is found; with the equations in the other order it is. -/
example : (newtonMethod2 2 (fun x => fun i => if i = 0 then x 1 - 1 else x 0) (fun _ i j => if i = j then 0 else 1)
      (fun k => ([3, 0] : List ℚ).getD k 0) (1 / 1000) 20).isNone = true ∧
    ((newtonMethod2 2 (fun x => fun i => if i = 0 then x 0 else x 1 - 1) (fun _ i j => if i = j then 1 else 0)
      (fun k => ([3, 0] : List ℚ).getD k 0) (1 / 1000) 20).map fun x => (x 0, x 1)) = some (0, 1) := by decide +kernel

end Verif.Newt
