import Verif.Newt.Props3

/-!
# `bounded_newtons_method` (C157, C158)
-/

set_option linter.unusedSectionVars false

namespace Verif.Newt
open Verif.Lu Finset
variable {F : Type} [Field F] [LinearOrder F] [IsStrictOrderedRing F]

/-- What a successful line search in the loop gives. -/
theorem search_ok (n : Nat) (f : (Nat → F) → F) (grad : (Nat → F) → Nat → F) (x d lo hi : Nat → F) (c1 c2 : F) (hc : 0 < c1) (m : Nat)
    (h : (lineSearch n f grad x d lo hi c1 c2 m).2.2 = true) :
    (∃ z : Nat → F, (lineSearch n f grad x d lo hi c1 c2 m).2.1 = project lo hi z) ∧ f (lineSearch n f grad x d lo hi c1 c2 m).2.1 < f x := by
  have e : lineSearch n f grad x d lo hi c1 c2 m =
      ((lineSearch n f grad x d lo hi c1 c2 m).1, (lineSearch n f grad x d lo hi c1 c2 m).2.1, true) := by rw [← h]
  obtain ⟨_, _, h3, _, _, h6⟩ := C156_line_search n f grad x d lo hi c1 c2 m _ _ e
  exact ⟨⟨_, funext h3⟩, h6 hc⟩

theorem boundedLoop_spec (n : Nat) (inv : Mat F → Option (Mat F)) (reg : F) (f : (Nat → F) → F) (grad : (Nat → F) → Nat → F)
    (hess : (Nat → F) → Mat F) (lo hi : Nat → F) (tol stepTol gtol : F) (mv : Option F) :
    ∀ (fuel : Nat) (x y : Nat → F), boundedLoop n inv reg f grad hess lo hi tol stepTol gtol mv fuel x = some y →
      y = x ∨ ((∃ z, y = project lo hi z) ∧ f y < f x) := by
  intro fuel
  induction fuel with
  | zero => intro x y h; cases h
  | succ m ih =>
    intro x y h
    rw [boundedLoop] at h
    dsimp only at h
    by_cases h1 : sumSq n (grad x) < gtol * gtol
    · rw [if_pos h1] at h; exact Or.inl (Option.some.inj h).symm
    · rw [if_neg h1] at h
      obtain ⟨s, hs, hok⟩ : ∃ s, s = (if (lineSearch n f grad x (fun i => -matVec n (inverse inv reg (hess x)) (grad x) i) lo hi
          (1 / 10000) (9 / 10) 20).2.2 = true then lineSearch n f grad x (fun i => -matVec n (inverse inv reg (hess x)) (grad x) i) lo hi
          (1 / 10000) (9 / 10) 20 else lineSearch n f grad x (fun i => -grad x i) lo hi (1 / 10000) (9 / 10) 20) ∧
          (s.2.2 = true → (∃ z : Nat → F, s.2.1 = project lo hi z) ∧ f s.2.1 < f x) := by
        refine ⟨_, rfl, ?_⟩
        intro ht
        split_ifs at ht ⊢ with h2
        · exact search_ok n f grad x _ lo hi _ _ (by norm_num) 20 h2
        · exact search_ok n f grad x _ lo hi _ _ (by norm_num) 20 ht
      rw [← hs] at h
      cases hb : s.2.2 with
      | false => rw [if_pos hb] at h; exact Or.inl (Option.some.inj h).symm
      | true =>
        rw [if_neg (by rw [hb]; simp)] at h
        obtain ⟨hz, hlt⟩ := hok hb
        have fin : y = s.2.1 → y = x ∨ ((∃ z, y = project lo hi z) ∧ f y < f x) := fun e => by
          rw [e]; exact Or.inr ⟨hz, hlt⟩
        split_ifs at h with h3 h4
        · exact fin (Option.some.inj h).symm
        · exact fin (Option.some.inj h).symm
        · rcases ih _ _ h with e | ⟨hz', hlt'⟩
          · exact fin e
          · exact Or.inr ⟨hz', lt_trans hlt' hlt⟩

/-- **C157.** Every point returned by `bounded_newtons_method` lies in the bounds, whatever `f`, its derivatives and the start are. -/
theorem C157_inside (n : Nat) (inv : Mat F → Option (Mat F)) (reg : F) (f : (Nat → F) → F) (grad : (Nat → F) → Nat → F)
    (hess : (Nat → F) → Mat F) (initial lo hi : Nat → F) (tol stepTol gtol : F) (mv : Option F) (maxIter : Nat) (y : Nat → F)
    (e : boundedNewton n inv reg f grad hess initial lo hi tol stepTol gtol mv maxIter = some y)
    (i : Nat) (hb : lo i ≤ hi i) : lo i ≤ y i ∧ y i ≤ hi i := by
  have inb : ∀ z : Nat → F, lo i ≤ project lo hi z i ∧ project lo hi z i ≤ hi i := fun z =>
    ⟨le_min (le_max_right _ _) hb, min_le_right _ _⟩
  rcases boundedLoop_spec n inv reg f grad hess lo hi tol stepTol gtol mv maxIter _ _ e with rfl | ⟨⟨z, rfl⟩, _⟩
  · exact inb _
  · exact inb _

/-- **C157.** The value of `f` at the result is less than at the start (moved into the bounds), unless the result is that point. -/
theorem C157_descent (n : Nat) (inv : Mat F → Option (Mat F)) (reg : F) (f : (Nat → F) → F) (grad : (Nat → F) → Nat → F)
    (hess : (Nat → F) → Mat F) (initial lo hi : Nat → F) (tol stepTol gtol : F) (mv : Option F) (maxIter : Nat) (y : Nat → F)
    (e : boundedNewton n inv reg f grad hess initial lo hi tol stepTol gtol mv maxIter = some y) :
    y = (fun i => min (max (initial i) (lo i)) (hi i)) ∨ f y < f (fun i => min (max (initial i) (lo i)) (hi i)) := by
  rcases boundedLoop_spec n inv reg f grad hess lo hi tol stepTol gtol mv maxIter _ _ e with h | ⟨_, h⟩
  · exact Or.inl h
  · exact Or.inr h

/-- `(x - 2)² + (y - 1)²` on the square [0, 3]² from the point (9, 0). -/
example : ((boundedNewton 2 (fun M => if M 0 0 * M 1 1 - M 0 1 * M 1 0 = 0 then none else
      some fun i j => (if i = 0 ∧ j = 0 then M 1 1 else if i = 1 ∧ j = 1 then M 0 0 else -M i j) / (M 0 0 * M 1 1 - M 0 1 * M 1 0)) 0
      (fun p : Nat → ℚ => (p 0 - 2) ^ 2 + (p 1 - 1) ^ 2) (numGrad 2 (fun p : Nat → ℚ => (p 0 - 2) ^ 2 + (p 1 - 1) ^ 2) (1 / 100))
      (numHess 2 (fun p : Nat → ℚ => (p 0 - 2) ^ 2 + (p 1 - 1) ^ 2) (1 / 100))
      (fun k => if k = 0 then 9 else 0) (fun _ => 0) (fun _ => 3) (1 / 1000) (1 / 1000) (1 / 1000) none 100).map fun y => (y 0, y 1)) =
    some (2, 1) := by decide +kernel

/-! ## C158 -/

/-- A zoom that never finds a sufficient decrease fails. -/
theorem zoom_fail (n : Nat) (f : (Nat → F) → F) (grad : (Nat → F) → Nat → F) (pt : F → Nat → F) (d : Nat → F) (f0 dg0 c1 c2 : F)
    (h : ∀ a, 0 < a → a ≤ 1 → f0 + c1 * a * dg0 < f (pt a)) :
    ∀ (fuel : Nat) (hi : F), 0 < hi → hi ≤ 1 → (zoom n f grad pt d f0 dg0 c1 c2 fuel 0 hi).2.2 = false := by
  intro fuel
  induction fuel with
  | zero => intro hi _ _; rfl
  | succ m ih =>
    intro hi h0 h1
    rw [zoom]
    dsimp only
    have ha : 0 < 1 / 2 * (0 + hi) := by linarith
    have ha1 : 1 / 2 * (0 + hi) ≤ 1 := by linarith
    rw [if_pos (Or.inl (h _ ha ha1))]
    exact ih _ ha ha1

/-- The line search fails if no step up to 1 decreases `f` enough. -/
theorem search_fail (n : Nat) (f : (Nat → F) → F) (grad : (Nat → F) → Nat → F) (x d lo hi : Nat → F) (c1 c2 : F) (m : Nat)
    (h : ∀ a, 0 < a → a ≤ 1 → f x + c1 * a * dot n d (grad x) < f (project lo hi fun i => x i + a * d i)) :
    (lineSearch n f grad x d lo hi c1 c2 m).2.2 = false := by
  unfold lineSearch
  dsimp only
  split_ifs with h0
  · rfl
  · cases m with
    | zero => rfl
    | succ m =>
      rw [searchLoop]
      dsimp only
      rw [if_pos (Or.inl (h 1 one_pos (le_refl _)))]
      exact zoom_fail n f grad _ d _ _ c1 c2 h 20 1 one_pos (le_refl _)

/-- `(x - K)² / 2 + y² / 2`. -/
def bowl (K : F) : (Nat → F) → F := Fdm.quad 2 (K * K / 2) (fun i => if i = 0 then -K else 0) (fun i j => if i = j then 1 / 2 else 0)

theorem bowl_eq (K : F) (p : Nat → F) : bowl K p = (p 0 - K) ^ 2 / 2 + p 1 ^ 2 / 2 := by
  unfold bowl Fdm.quad
  simp only [sum_range_succ, sum_range_zero]
  norm_num
  ring

/-- **C158, refuted.** The method stops at points that are not minima.  For `(x - K)² / 2 + y² / 2` on a box with `x ≤ 1 < K`, started
at `(1, y)` with `0 < y² ≤ (K - 1)² / 10000`, it returns that point, although the gradient along the free axis is not zero and `(1, 0)`
is in the box: the decrease is measured against the direction before the projection. -/
theorem C158_stuck_refuted (inv : Mat F → Option (Mat F)) (hinv : Fdm.InvSpec 2 inv) (reg K y : F) (lo hi : Nat → F) (h : F) (hh : h ≠ 0)
    (hK : 1 < K) (hy0 : y ≠ 0) (hy : y * y ≤ (K - 1) * (K - 1) / 10000)
    (hlo0 : lo 0 ≤ 1) (hhi0 : hi 0 = 1) (hlo1 : lo 1 ≤ 0) (hlo1' : lo 1 ≤ y) (hhi1 : 0 ≤ hi 1) (hhi1' : y ≤ hi 1)
    (tol stepTol gtol : F) (hg : gtol * gtol ≤ (K - 1) * (K - 1) + y * y) (mv : Option F) (maxIter : Nat) (x : Nat → F)
    (hx0 : x 0 = 1) (hx1 : x 1 = y) :
    ∃ p, boundedNewton 2 inv reg (bowl K) (numGrad 2 (bowl K) h) (numHess 2 (bowl K) h) x lo hi tol stepTol gtol mv (maxIter + 1) = some p ∧
      p 0 = 1 ∧ p 1 = y ∧ bowl K (fun i => if i = 0 then 1 else 0) < bowl K p := by
  have px0 : project lo hi x 0 = 1 := by unfold project; rw [hx0, hhi0, max_eq_left hlo0, min_self]
  have px1 : project lo hi x 1 = y := by unfold project; rw [hx1, max_eq_left hlo1', min_eq_left hhi1']
  obtain ⟨p, hp⟩ : ∃ p, p = project lo hi x := ⟨_, rfl⟩
  rw [← hp] at px0 px1
  refine ⟨p, ?_, px0, px1, ?_⟩
  · unfold boundedNewton
    rw [← hp, boundedLoop]
    dsimp only
    obtain ⟨hgr, hH⟩ := Fdm.C142_quadratic 2 (K * K / 2) (fun i => if i = 0 then -K else 0) (fun i j => if i = j then 1 / 2 else 0) p h hh
    have g0 : numGrad 2 (bowl K) h p 0 = 1 - K := by
      have := hgr 0 (by omega)
      simp only [sum_range_succ, sum_range_zero] at this
      norm_num at this
      rw [px0] at this
      unfold numGrad bowl
      rw [this]; ring
    have g1 : numGrad 2 (bowl K) h p 1 = y := by
      have := hgr 1 (by omega)
      simp only [sum_range_succ, sum_range_zero] at this
      norm_num at this
      rw [px1] at this
      exact this
    have hsq : ¬ sumSq 2 (numGrad 2 (bowl K) h p) < gtol * gtol := by
      rw [sumSq_eq]; simp only [sum_range_succ, sum_range_zero, zero_add]
      rw [g0, g1, not_lt]
      calc gtol * gtol ≤ _ := hg
        _ = _ := by ring
    rw [if_neg hsq]
    -- the Newton step is the gradient
    have hM : Fdm.toM 2 (numHess 2 (bowl K) h p) = 1 := by
      ext i j
      have := hH i j i.2 j.2
      show Fdm.hessian id 2 (bowl K) p h i j = _
      unfold bowl
      rw [this]
      by_cases hij : i = j
      · rw [hij, Matrix.one_apply_eq, if_pos rfl]; norm_num
      · rw [Matrix.one_apply_ne hij, if_neg (fun e => hij (Fin.ext e)), if_neg (fun e => hij (Fin.ext e.symm)), add_zero]
    obtain ⟨X, hX, hmul⟩ := hinv.ok (numHess 2 (bowl K) h p) (by rw [hM, Matrix.det_one]; exact one_ne_zero)
    have hinverse : inverse inv reg (numHess 2 (bowl K) h p) = X := by unfold inverse; rw [hX]
    rw [hM, one_mul] at hmul
    have hXe : ∀ i j : Fin 2, X i j = if i = j then 1 else 0 := fun i j => by
      have := congrFun (congrFun hmul i) j
      rw [Matrix.one_apply] at this
      exact this
    have X00 : X 0 0 = 1 := hXe 0 0
    have X01 : X 0 1 = 0 := hXe 0 1
    have X10 : X 1 0 = 0 := hXe 1 0
    have X11 : X 1 1 = 1 := hXe 1 1
    rw [hinverse]
    have fails : ∀ d : Nat → F, d 0 = K - 1 → d 1 = -y →
        (lineSearch 2 (bowl K) (numGrad 2 (bowl K) h) p d lo hi (1 / 10000) (9 / 10) 20).2.2 = false := by
      intro d hd0 hd1
      refine search_fail 2 _ _ p d lo hi _ _ 20 fun a ha ha1 => ?_
      have q0 : project lo hi (fun i => p i + a * d i) 0 = 1 := by
        have : (1 : F) ≤ p 0 + a * d 0 := by
          rw [px0, hd0]
          have := mul_pos ha (sub_pos.2 hK)
          linarith
        unfold project
        rw [hhi0, min_eq_right (le_trans this (le_max_left _ _))]
      have q1 : project lo hi (fun i => p i + a * d i) 1 = y - a * y := by
        have e : p 1 + a * d 1 = (1 - a) * y := by rw [px1, hd1]; ring
        have l1 : lo 1 ≤ (1 - a) * y := by
          rcases le_total 0 y with h1 | h1
          · exact le_trans hlo1 (mul_nonneg (by linarith) h1)
          · have : a * y ≤ 0 := mul_nonpos_of_nonneg_of_nonpos (le_of_lt ha) h1
            linarith
        have l2 : (1 - a) * y ≤ hi 1 := by
          rcases le_total 0 y with h1 | h1
          · have := mul_nonneg (le_of_lt ha) h1
            linarith
          · exact le_trans (mul_nonpos_of_nonneg_of_nonpos (by linarith) h1) hhi1
        unfold project
        dsimp only
        rw [e, max_eq_left l1, min_eq_left l2]; ring
      rw [bowl_eq, bowl_eq, q0, q1, px0, px1, dot_eq]
      simp only [sum_range_succ, sum_range_zero, zero_add]
      rw [hd0, hd1, g0, g1]
      have yy : 0 < y * y := mul_self_pos.2 hy0
      have k1 : a * (y * y) ≤ a * ((K - 1) * (K - 1) / 10000) := mul_le_mul_of_nonneg_left hy (le_of_lt ha)
      have k2 : 0 < a * (y * y) := mul_pos ha yy
      have k3 : 0 ≤ a * a * (y * y) := by positivity
      linarith
    rw [fails _ (by rw [matVec_eq]; simp only [sum_range_succ, sum_range_zero, zero_add]; rw [X00, X01, g0]; ring)
      (by rw [matVec_eq]; simp only [sum_range_succ, sum_range_zero, zero_add]; rw [X10, X11, g1]; ring), if_neg Bool.false_ne_true,
      if_pos (fails _ (by rw [g0]; ring) (by rw [g1]))]
  · rw [bowl_eq, bowl_eq, px0, px1]
    have : 0 < y * y := mul_self_pos.2 hy0
    norm_num
    rw [pow_two y]
    linarith

/-- `K = 301`, `y = 3`, with the box [-5, 1] x [-5, 5]: the point (1, 3) is returned. -/
example : ((boundedNewton 2 (fun M => if M 0 0 * M 1 1 - M 0 1 * M 1 0 = 0 then none else
      some fun i j => (if i = 0 ∧ j = 0 then M 1 1 else if i = 1 ∧ j = 1 then M 0 0 else -M i j) / (M 0 0 * M 1 1 - M 0 1 * M 1 0)) 0
      (fun p : Nat → ℚ => (p 0 - 301) ^ 2 / 2 + p 1 ^ 2 / 2) (numGrad 2 (fun p : Nat → ℚ => (p 0 - 301) ^ 2 / 2 + p 1 ^ 2 / 2) (1 / 100))
      (numHess 2 (fun p : Nat → ℚ => (p 0 - 301) ^ 2 / 2 + p 1 ^ 2 / 2) (1 / 100))
      (fun k => if k = 0 then 1 else 3) (fun _ => -5) (fun k => if k = 0 then 1 else 5) (1 / 1000) (1 / 1000) (1 / 1000) none 100).map
      fun y => (y 0, y 1)) = some (1, 3) := by decide +kernel

/-- **C158, refuted.** The result depends on the values of `f` outside of the bounds, and these can hide any minimum.  For every `f` of one
variable on `[l, u]`, started at `u`, reflect `f` beyond `u`: the start is returned, whatever `f` is on `[l, u]`. -/
theorem C158_outside_refuted (inv : Mat F → Option (Mat F)) (reg : F) (f : (Nat → F) → F) (hess : (Nat → F) → Mat F) (lo hi : Nat → F)
    (hb : lo 0 ≤ hi 0) (h : F) (hh : 0 < h) (tol stepTol gtol : F) (hg : 0 < gtol) (mv : Option F) (maxIter : Nat) (x : Nat → F) (hx : x 0 = hi 0) :
    ∃ f' : (Nat → F) → F, (∀ p, p 0 ≤ hi 0 → f' p = f p) ∧
      ∃ p, boundedNewton 1 inv reg f' (numGrad 1 f' h) hess x lo hi tol stepTol gtol mv (maxIter + 1) = some p ∧ p 0 = hi 0 := by
  let f' : (Nat → F) → F := fun p => if p 0 ≤ hi 0 then f p else f (putV p 0 (2 * hi 0 - p 0))
  have px : project lo hi x 0 = hi 0 := by unfold project; rw [hx, max_eq_left hb, min_self]
  refine ⟨f', fun p hp => if_pos hp, project lo hi x, ?_, px⟩
  unfold boundedNewton
  rw [boundedLoop]
  dsimp only
  refine if_pos ?_
  rw [sumSq_zero]
  · exact mul_pos hg hg
  · intro i hi1
    obtain rfl : i = 0 := by omega
    unfold numGrad
    rw [(Fdm.gradient_id 1 f' _ h).2, if_pos hi1]
    have m1 : Fdm.move (project lo hi x) 0 h 0 = hi 0 + h := by unfold Fdm.move; rw [if_pos rfl, px]
    have m2 : Fdm.move (project lo hi x) 0 (-h) 0 = hi 0 - h := by unfold Fdm.move; rw [if_pos rfl, px]; ring
    have e1 : f' (Fdm.move (project lo hi x) 0 h) = f (Fdm.move (project lo hi x) 0 (-h)) := by
      show (if _ then _ else _) = _
      rw [if_neg (by rw [m1]; linarith)]
      congr 1
      funext k
      rw [m1]
      unfold putV Fdm.move
      by_cases hk : k = 0
      · rw [if_pos hk, if_pos hk, hk, px]; ring
      · rw [if_neg hk, if_neg hk, if_neg hk]
    have e2 : f' (Fdm.move (project lo hi x) 0 (-h)) = f (Fdm.move (project lo hi x) 0 (-h)) := if_pos (by rw [m2]; linarith)
    rw [e1, e2, sub_self, zero_div]

theorem quad_at_critical (n : Nat) (c : F) (b : Nat → F) (a : Nat → Nat → F) (x s : Nat → F)
    (hz : ∀ i, i < n → b i + ∑ j ∈ range n, (a i j + a j i) * (x j - s j) = 0) :
    Fdm.quad n c b a (fun i => x i - s i) =
      Fdm.quad n c b a x - 1 / 2 * ∑ i ∈ range n, s i * (b i + ∑ j ∈ range n, (a i j + a j i) * x j) := by
  have e1 : ∀ i, i < n → b i + ∑ j ∈ range n, (a i j + a j i) * x j = ∑ j ∈ range n, (a i j + a j i) * s j := by
    intro i hi
    have := hz i hi
    simp only [mul_sub, sum_sub_distrib] at this
    linear_combination this
  have e2 : ∀ i, i < n → b i = ∑ j ∈ range n, (a i j + a j i) * s j - ∑ j ∈ range n, (a i j + a j i) * x j := fun i hi => by
    rw [← e1 i hi]; ring
  have swap : ∀ u v : Nat → F, ∑ i ∈ range n, u i * ∑ j ∈ range n, a j i * v j = ∑ i ∈ range n, v i * ∑ j ∈ range n, a i j * u j := by
    intro u v
    simp only [mul_sum]
    rw [sum_comm]
    exact sum_congr rfl fun i _ => sum_congr rfl fun j _ => by ring
  have bs : ∀ u : Nat → F, ∑ i ∈ range n, b i * u i =
      ∑ i ∈ range n, (u i * ∑ j ∈ range n, a i j * s j + s i * ∑ j ∈ range n, a i j * u j - u i * ∑ j ∈ range n, a i j * x j -
        x i * ∑ j ∈ range n, a i j * u j) := by
    intro u
    have : ∑ i ∈ range n, b i * u i = ∑ i ∈ range n, (u i * ∑ j ∈ range n, a i j * s j + u i * ∑ j ∈ range n, a j i * s j -
        u i * ∑ j ∈ range n, a i j * x j - u i * ∑ j ∈ range n, a j i * x j) := by
      refine sum_congr rfl fun i hi => ?_
      rw [e2 i (mem_range.1 hi)]
      simp only [add_mul, sum_add_distrib]
      ring
    rw [this]
    simp only [sum_sub_distrib, sum_add_distrib]
    rw [swap u s, swap u x]
  have q : ∀ u : Nat → F, Fdm.quad n c b a u = c + ∑ i ∈ range n, b i * u i + ∑ i ∈ range n, u i * ∑ j ∈ range n, a i j * u j := by
    intro u
    unfold Fdm.quad
    congr 1
    refine sum_congr rfl fun i _ => ?_
    rw [mul_sum]
    exact sum_congr rfl fun j _ => by ring
  rw [q, q, bs, bs]
  have e3 : ∑ i ∈ range n, s i * (b i + ∑ j ∈ range n, (a i j + a j i) * x j) = 2 * ∑ i ∈ range n, s i * ∑ j ∈ range n, a i j * s j := by
    have : ∑ i ∈ range n, s i * (b i + ∑ j ∈ range n, (a i j + a j i) * x j) =
        ∑ i ∈ range n, s i * ∑ j ∈ range n, a i j * s j + ∑ i ∈ range n, s i * ∑ j ∈ range n, a j i * s j := by
      rw [← sum_add_distrib]
      refine sum_congr rfl fun i hi => ?_
      rw [e1 i (mem_range.1 hi)]
      simp only [add_mul, sum_add_distrib]
      ring
    rw [this, swap s s]; ring
  rw [e3]
  have e4 : ∀ i, ∑ j ∈ range n, a i j * (x j - s j) = ∑ j ∈ range n, a i j * x j - ∑ j ∈ range n, a i j * s j := fun i => by
    rw [← sum_sub_distrib]; exact sum_congr rfl fun j _ => by ring
  simp only [e4]
  have e5 : ∀ i, (x i - s i) * (∑ j ∈ range n, a i j * x j - ∑ j ∈ range n, a i j * s j) =
    x i * ∑ j ∈ range n, a i j * x j - x i * ∑ j ∈ range n, a i j * s j - s i * ∑ j ∈ range n, a i j * x j + s i * ∑ j ∈ range n, a i j * s j :=
    fun i => by ring
  have e6 : ∀ i, (x i - s i) * ∑ j ∈ range n, a i j * s j = x i * ∑ j ∈ range n, a i j * s j - s i * ∑ j ∈ range n, a i j * s j := fun i => by ring
  have e7 : ∀ i, (x i - s i) * ∑ j ∈ range n, a i j * x j = x i * ∑ j ∈ range n, a i j * x j - s i * ∑ j ∈ range n, a i j * x j := fun i => by ring
  have e8 : ∀ i, s i * (∑ j ∈ range n, a i j * x j - ∑ j ∈ range n, a i j * s j) = s i * ∑ j ∈ range n, a i j * x j - s i * ∑ j ∈ range n, a i j * s j :=
    fun i => by ring
  have e9 : ∀ i, x i * (∑ j ∈ range n, a i j * x j - ∑ j ∈ range n, a i j * s j) = x i * ∑ j ∈ range n, a i j * x j - x i * ∑ j ∈ range n, a i j * s j :=
    fun i => by ring
  simp only [e5, e6, e7, e8, e9, sum_sub_distrib, sum_add_distrib]
  ring

/-- **C158, what holds.** For a quadratic polynomial whose Hessian is positive definite and whose minimum `z` lies in the bounds, the
result, from every start and in two rounds, is that minimum, or the start if the gradient there is below the tolerance.
Missing: problems whose bounds are active, see the refutations. -/
theorem C158_interior_partial (n : Nat) (inv : Mat F → Option (Mat F)) (hinv : Fdm.InvSpec n inv) (reg c : F) (b : Nat → F) (a : Nat → Nat → F)
    (h : F) (hh : h ≠ 0) (hdet : (Fdm.toM n fun i j => a i j + a j i).det ≠ 0)
    (hpos : ∀ v : Nat → F, (∃ i, i < n ∧ v i ≠ 0) → 0 < ∑ i ∈ range n, v i * ∑ j ∈ range n, (a i j + a j i) * v j)
    (z x lo hi : Nat → F) (hz : ∀ i, i < n → b i + ∑ j ∈ range n, (a i j + a j i) * z j = 0)
    (hb : ∀ i, i < n → lo i ≤ z i ∧ z i ≤ hi i)
    (tol stepTol gtol : F) (hg : 0 < gtol) (mv : Option F) (maxIter : Nat) (hm : 2 ≤ maxIter) :
    ∃ p, boundedNewton n inv reg (Fdm.quad n c b a) (numGrad n (Fdm.quad n c b a) h) (numHess n (Fdm.quad n c b a) h) x lo hi tol stepTol gtol mv
        maxIter = some p ∧
      ((∀ i, i < n → p i = z i) ∨
        ∑ i ∈ range n, (b i + ∑ j ∈ range n, (a i j + a j i) * p j) * (b i + ∑ j ∈ range n, (a i j + a j i) * p j) < gtol * gtol) := by
  obtain ⟨m, rfl⟩ : ∃ m, maxIter = m + 2 := ⟨maxIter - 2, by omega⟩
  unfold boundedNewton
  generalize project lo hi x = x
  have grads : ∀ y i, i < n → numGrad n (Fdm.quad n c b a) h y i = b i + ∑ j ∈ range n, (a i j + a j i) * y j := fun y i hi =>
    (Fdm.C142_quadratic n c b a y h hh).1 i hi
  have hessians : ∀ y i j, i < n → j < n → numHess n (Fdm.quad n c b a) h y i j = a i j + a j i := fun y i j hi hj =>
    (Fdm.C142_quadratic n c b a y h hh).2 i j hi hj
  rw [boundedLoop]
  dsimp only
  by_cases h0 : sumSq n (numGrad n (Fdm.quad n c b a) h x) < gtol * gtol
  · refine ⟨x, if_pos h0, Or.inr ?_⟩
    rw [sumSq_eq] at h0
    refine lt_of_eq_of_lt (sum_congr rfl fun i hi => ?_) h0
    rw [grads x i (mem_range.1 hi)]
  · rw [if_neg h0]
    have hM : Fdm.toM n (numHess n (Fdm.quad n c b a) h x) = Fdm.toM n fun i j => a i j + a j i := by
      funext i j; exact hessians x i j i.2 j.2
    obtain ⟨X, hX, hmul⟩ := hinv.ok (numHess n (Fdm.quad n c b a) h x) (by rw [hM]; exact hdet)
    have hinverse : inverse inv reg (numHess n (Fdm.quad n c b a) h x) = X := by unfold inverse; rw [hX]
    rw [hinverse]
    obtain ⟨s, hs⟩ : ∃ s, s = matVec n X (numGrad n (Fdm.quad n c b a) h x) := ⟨_, rfl⟩
    rw [← hs]
    -- the step leads to `z`
    have hstep : ∀ i, i < n → ∑ j ∈ range n, (a i j + a j i) * s j = b i + ∑ j ∈ range n, (a i j + a j i) * x j := by
      intro i hi
      have := Fdm.mul_matVec n _ X hmul (numGrad n (Fdm.quad n c b a) h x) i hi
      rw [grads x i hi] at this
      rw [← this]
      refine sum_congr rfl fun j hj => ?_
      rw [hessians x i j hi (mem_range.1 hj), hs, matVec_eq, Fdm.matVec_eq]
    have hcrit : ∀ i, i < n → b i + ∑ j ∈ range n, (a i j + a j i) * (x j - s j) = 0 := by
      intro i hi
      simp only [mul_sub, sum_sub_distrib]
      rw [hstep i hi]; ring
    have hxz : ∀ k, k < n → x k - s k = z k := by
      intro k hk
      have hinj : (Fdm.toM n fun i j => a i j + a j i).mulVec (fun j : Fin n => x j - s j - z j) = 0 := by
        funext i
        show ∑ j : Fin n, (a i j + a j i) * (x j - s j - z j) = 0
        have p := hcrit i i.2
        have q := hz i i.2
        rw [Finset.sum_range] at p q
        have e : ∀ j : Fin n, (a i j + a j i) * (x j - s j - z j) = (a i j + a j i) * (x j - s j) - (a i j + a j i) * z j := fun j => by ring
        simp only [e, sum_sub_distrib]
        linear_combination p - q
      have := congrFun (Matrix.eq_zero_of_mulVec_eq_zero hdet hinj) ⟨k, hk⟩
      exact sub_eq_zero.1 this
    -- the slope
    have hslope : 0 < ∑ i ∈ range n, s i * (b i + ∑ j ∈ range n, (a i j + a j i) * x j) := by
      have hne : ∃ i, i < n ∧ s i ≠ 0 := by
        by_contra hc
        apply h0
        have hs0 : ∀ i, i < n → s i = 0 := fun i hi => by by_contra h1; exact hc ⟨i, hi, h1⟩
        rw [sumSq_zero]
        · exact mul_pos hg hg
        · intro i hi
          rw [grads x i hi, ← hstep i hi]
          exact sum_eq_zero fun j hj => by rw [hs0 j (mem_range.1 hj), mul_zero]
      have := hpos s hne
      refine lt_of_lt_of_eq this (sum_congr rfl fun i hi => ?_)
      rw [hstep i (mem_range.1 hi)]
    have hsd : ∑ i ∈ range n, -s i * numGrad n (Fdm.quad n c b a) h x i =
        -∑ i ∈ range n, s i * (b i + ∑ j ∈ range n, (a i j + a j i) * x j) := by
      rw [← sum_neg_distrib]
      exact sum_congr rfl fun i hi => by rw [grads x i (mem_range.1 hi)]; ring
    obtain ⟨y, hy⟩ : ∃ y : Nat → F, y = fun i => min (max (x i + -s i) (lo i)) (hi i) := ⟨_, rfl⟩
    have hyz : ∀ i, i < n → y i = z i := by
      intro i hi
      rw [hy]
      dsimp only
      rw [← sub_eq_add_neg, hxz i hi, max_eq_left (hb i hi).1, min_eq_left (hb i hi).2]
    have hg0 : ∀ i, i < n → numGrad n (Fdm.quad n c b a) h y i = 0 := by
      intro i hi
      rw [grads y i hi, ← hz i hi]
      congr 1
      exact sum_congr rfl fun j hj => by rw [hyz j (mem_range.1 hj)]
    have hfy : Fdm.quad n c b a y = Fdm.quad n c b a (fun i => x i - s i) := by
      unfold Fdm.quad
      congr 1
      · congr 1
        exact sum_congr rfl fun j hj => by dsimp only; rw [hyz j (mem_range.1 hj), hxz j (mem_range.1 hj)]
      · exact sum_congr rfl fun i hi => sum_congr rfl fun j hj => by
          dsimp only
          rw [hyz j (mem_range.1 hj), hyz i (mem_range.1 hi), hxz j (mem_range.1 hj), hxz i (mem_range.1 hi)]
    have hls := C156_full_step n (Fdm.quad n c b a) (numGrad n (Fdm.quad n c b a) h) x (fun i => -s i) lo hi (1 / 10000) (9 / 10) 20
      (by omega) (by rw [hsd]; linarith) y hy
      (by rw [hfy, quad_at_critical n c b a x s hcrit, hsd]; linarith)
      (by
        rw [sum_eq_zero fun i hi => by rw [hg0 i (mem_range.1 hi), mul_zero], abs_zero, hsd]
        linarith)
    rw [hls]
    dsimp only
    rw [if_pos rfl]
    dsimp only
    rw [if_neg (by simp)]
    split_ifs with h1 h2
    · exact ⟨y, rfl, Or.inl hyz⟩
    · exact ⟨y, rfl, Or.inl hyz⟩
    · refine ⟨y, ?_, Or.inl hyz⟩
      rw [boundedLoop]
      dsimp only
      refine if_pos ?_
      rw [sumSq_zero n _ hg0]
      exact mul_pos hg hg

end Verif.Newt
