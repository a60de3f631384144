import Verif.Newt.Model2
import Verif.Newt.Props2
import Verif.Fdm.Props2

/-!
# `newtons_method_with_constraints`, the line searches, `bounded_newtons_method` (C155-C158)
-/

set_option linter.unusedSectionVars false

namespace Verif.Newt
open Verif.Lu Finset
variable {F : Type} [Field F] [LinearOrder F] [IsStrictOrderedRing F]

theorem dot_eq (n : Nat) (u v : Nat → F) : dot n u v = ∑ i ∈ range n, u i * v i := by
  unfold dot
  induction n with
  | zero => rfl
  | succ n ih => rw [List.range_succ, List.foldl_append, sum_range_succ, List.foldl_cons, List.foldl_nil, ih]

/-! ## C155 -/

theorem gradient_shift (n : Nat) (g : (Nat → F) → F) (x : Nat → F) (h k : F) :
    (Fdm.gradient id n (fun p => g p + k) x h).2 = (Fdm.gradient id n g x h).2 := by
  funext i
  rw [(Fdm.gradient_id n _ x h).2, (Fdm.gradient_id n _ x h).2]
  by_cases hi : i < n
  · rw [if_pos hi, if_pos hi]; congr 1; ring
  · rw [if_neg hi, if_neg hi]

theorem hessEntry_shift (g : (Nat → F) → F) (x : Nat → F) (h k : F) (i j : Nat) :
    Fdm.hessEntry id (fun p => g p + k) x h i j = Fdm.hessEntry id g x h i j := by
  unfold Fdm.hessEntry
  dsimp only
  split_ifs <;> (congr 1; ring)

theorem hessian_shift (n : Nat) (g : (Nat → F) → F) (x : Nat → F) (h k : F) :
    Fdm.hessian id n (fun p => g p + k) x h = Fdm.hessian id n g x h := by
  unfold Fdm.hessian
  simp only [hessEntry_shift]

theorem constrLoop_shift (n : Nat) (inv : Mat F → Option (Mat F)) (gradF : (Nat → F) → Nat → F) (hessF : (Nat → F) → Mat F)
    (g : (Nat → F) → F) (tol h lam k : F) (noWarn : Bool) : ∀ (fuel : Nat) (q : Option (Nat → F)) (x : Nat → F),
    constrLoop n inv gradF hessF (fun p => g p + k) tol h lam noWarn fuel q x = constrLoop n inv gradF hessF g tol h lam noWarn fuel q x := by
  intro fuel
  induction fuel with
  | zero => intro q x; rfl
  | succ m ih =>
    intro q x
    rw [constrLoop, constrLoop, gradient_shift, hessian_shift]
    simp only [ih]

/-- **C155, refuted.** The constraint is not imposed: the result is the same for the constraints `g = 0` and `g + k = 0`, for every `k`.
So for every call there is a constraint, with the same derivatives, which the returned point does not satisfy. -/
theorem C155_constraint_refuted (n : Nat) (inv : Mat F → Option (Mat F)) (gradF : (Nat → F) → Nat → F) (hessF : (Nat → F) → Mat F)
    (g : (Nat → F) → F) (initial : Nat → F) (tol : F) (maxIter : Nat) (h lam : F) (noWarn : Bool) (p : Nat → F)
    (e : constrained n inv gradF hessF g initial tol maxIter h lam noWarn = .point p) (k : F) :
    constrained n inv gradF hessF (fun q => g q + k) initial tol maxIter h lam noWarn = .point p ∧
      (k ≠ 0 → ¬ (g p = 0 ∧ g p + k = 0)) := by
  constructor
  · rw [← e]; exact constrLoop_shift n inv gradF hessF g tol h lam k noWarn maxIter none initial
  · rintro hk ⟨h1, h2⟩
    rw [h1, zero_add] at h2
    exact hk h2

/-- **C155, refuted.** With a linear constraint the loop is left in its first round: the start is returned, satisfying the constraint or
not, if warnings are off, and else the message of the warning itself raises `UnboundLocalError`. -/
theorem C155_linear_refuted (n : Nat) (hn : 0 < n) (inv : Mat F → Option (Mat F)) (hinv : Fdm.InvSpec n inv) (gradF : (Nat → F) → Nat → F)
    (hessF : (Nat → F) → Mat F) (c : F) (b : Nat → F) (initial : Nat → F) (tol : F) (maxIter : Nat) (h lam : F) (hh : h ≠ 0) :
    constrained n inv gradF hessF (Fdm.quad n c b fun _ _ => 0) initial tol maxIter h lam true = .point initial ∧
    constrained n inv gradF hessF (Fdm.quad n c b fun _ _ => 0) initial tol maxIter h lam false = .unboundLocal := by
  have key : ∀ noWarn, constrained n inv gradF hessF (Fdm.quad n c b fun _ _ => 0) initial tol maxIter h lam noWarn =
      constrEnd noWarn none initial := by
    intro noWarn
    unfold constrained
    cases maxIter with
    | zero => rfl
    | succ m =>
      rw [constrLoop]
      dsimp only
      have hH := (Fdm.C142_quadratic n c b (fun _ _ => 0) initial h hh).2
      have hM : Fdm.toM n (Fdm.hessian id n (Fdm.quad n c b fun _ _ => 0) initial h) = 0 := by
        funext i j
        show Fdm.hessian id n (Fdm.quad n c b fun _ _ => 0) initial h i j = 0
        rw [hH i j i.2 j.2, add_zero]
      have : Nonempty (Fin n) := ⟨⟨0, hn⟩⟩
      rw [hinv.fail (Fdm.hessian id n (Fdm.quad n c b fun _ _ => 0) initial h) (by rw [hM, Matrix.det_zero])]
      cases inv (hessF initial) <;> rfl
  rw [key, key]
  exact ⟨rfl, rfl⟩

/-- **C155, what holds.** If warnings are on and a point is returned by the test inside of the loop, then the last step `s`, solving
`H_f s = ∇f - λ ∇g` at the point before, is short.  So the method looks for points with `∇f = λ ∇g` for the given `λ`.
Missing: the constraint itself, which has no influence. -/
theorem C155_stationary_partial (n : Nat) (inv : Mat F → Option (Mat F)) (hinv : Fdm.InvSpec n inv) (gradF : (Nat → F) → Nat → F)
    (hessF : (Nat → F) → Mat F) (g : (Nat → F) → F) (initial : Nat → F) (tol : F) (maxIter : Nat) (h lam : F) (noWarn : Bool) (p : Nat → F)
    (e : constrained n inv gradF hessF g initial tol maxIter h lam noWarn = .point p) :
    (∃ q s : Nat → F, (∀ i, p i = q i - s i) ∧
      (∀ i, i < n → ∑ j ∈ range n, hessF q i j * s j = gradF q i - lam * (Fdm.gradient id n g q h).2 i) ∧
      (dot n s s < tol ∨ dot n s s < tol * tol)) ∨
    -- the loop was left: a singular Hessian, or the limit of the iterations
    (Fdm.toM n (hessF p)).det = 0 ∨ (Fdm.toM n (Fdm.hessian id n g p h)).det = 0 ∨
    (∃ q : Nat → Nat → F, q 0 = initial ∧ q maxIter = p ∧ ∀ k, k < maxIter → ∃ s : Nat → F, (∀ i, q (k + 1) i = q k i - s i) ∧
      ∀ i, i < n → ∑ j ∈ range n, hessF (q k) i j * s j = gradF (q k) i - lam * (Fdm.gradient id n g (q k) h).2 i) := by
  have hdet : ∀ M, inv M = none → (Fdm.toM n M).det = 0 := by
    intro M hM
    by_contra hd
    obtain ⟨X, hX, _⟩ := hinv.ok M hd
    rw [hM] at hX; cases hX
  have hend : ∀ (q : Option (Nat → F)) (x : Nat → F), constrEnd noWarn q x = .point p → x = p := by
    intro q x he
    unfold constrEnd at he
    split_ifs at he
    · exact Outcome.point.inj he
    · cases q with
      | none => cases he
      | some _ => exact Outcome.point.inj he
  have key : ∀ (fuel : Nat) (r : Option (Nat → F)) (x : Nat → F),
      constrLoop n inv gradF hessF g tol h lam noWarn fuel r x = .point p →
      (∃ q s : Nat → F, (∀ i, p i = q i - s i) ∧
        (∀ i, i < n → ∑ j ∈ range n, hessF q i j * s j = gradF q i - lam * (Fdm.gradient id n g q h).2 i) ∧
        (dot n s s < tol ∨ dot n s s < tol * tol)) ∨
      (Fdm.toM n (hessF p)).det = 0 ∨ (Fdm.toM n (Fdm.hessian id n g p h)).det = 0 ∨
      (∃ q : Nat → Nat → F, q 0 = x ∧ q fuel = p ∧ ∀ k, k < fuel → ∃ s : Nat → F, (∀ i, q (k + 1) i = q k i - s i) ∧
        ∀ i, i < n → ∑ j ∈ range n, hessF (q k) i j * s j = gradF (q k) i - lam * (Fdm.gradient id n g (q k) h).2 i) := by
    intro fuel
    induction fuel with
    | zero =>
      intro r x he
      have := hend _ _ he
      exact Or.inr (Or.inr (Or.inr ⟨fun _ => x, rfl, this, fun k hk => by omega⟩))
    | succ m ih =>
      intro r x he
      rw [constrLoop] at he
      dsimp only at he
      cases hHi : inv (hessF x) with
      | none =>
        rw [hHi] at he
        have := hend _ _ he
        exact Or.inr (Or.inl (by rw [← this]; exact hdet _ hHi))
      | some Hi =>
        rw [hHi] at he
        dsimp only at he
        cases hGi : inv (Fdm.hessian id n g x h) with
        | none =>
          rw [hGi] at he
          have := hend _ _ he
          exact Or.inr (Or.inr (Or.inl (by rw [← this]; exact hdet _ hGi)))
        | some Gi =>
          rw [hGi] at he
          dsimp only at he
          have hd : (Fdm.toM n (hessF x)).det ≠ 0 := fun h0 => by
            rw [hinv.fail _ h0] at hHi; cases hHi
          obtain ⟨X, hX, hmul⟩ := hinv.ok _ hd
          rw [hHi] at hX
          obtain rfl := Option.some.inj hX
          have hstep : ∀ i, i < n → ∑ j ∈ range n, hessF x i j *
              matVec n Hi (fun i => gradF x i - lam * (Fdm.gradient id n g x h).2 i) j = gradF x i - lam * (Fdm.gradient id n g x h).2 i := by
            intro i hi
            have := Fdm.mul_matVec n (hessF x) Hi hmul (fun i => gradF x i - lam * (Fdm.gradient id n g x h).2 i) i hi
            rw [← this]
            refine sum_congr rfl fun j _ => ?_
            rw [matVec_eq, Fdm.matVec_eq]
          split_ifs at he with h1 h2
          · obtain rfl := Outcome.point.inj he
            exact Or.inl ⟨x, _, fun i => rfl, hstep, Or.inl h1⟩
          · obtain rfl := Outcome.point.inj he
            refine Or.inl ⟨x, _, fun i => rfl, hstep, Or.inr ?_⟩
            simp only [sub_sub_cancel] at h2
            exact h2
          · rcases ih _ _ he with h | h | h | ⟨q, q0, qm, hq⟩
            · exact Or.inl h
            · exact Or.inr (Or.inl h)
            · exact Or.inr (Or.inr (Or.inl h))
            · refine Or.inr (Or.inr (Or.inr ⟨fun k => match k with | 0 => x | k + 1 => q k, rfl, qm, fun k hk => ?_⟩))
              cases k with
              | zero => exact ⟨_, fun i => congrFun q0 i, hstep⟩
              | succ k => exact hq k (by omega)
  exact key maxIter none initial e

/-- Minimise `x²` (`n = 1`) with the constraint `x² = 4`, which `λ = 1` makes flat: every start is returned at once, here 3. -/
example : (match constrained 1 (fun M => if M 0 0 = 0 then none else some fun _ _ => 1 / M 0 0) (fun x _ => 2 * x 0) (fun _ _ _ => 2)
    (fun x => x 0 ^ 2 - 4) (fun _ => (3 : ℚ)) (1 / 1000) 5 (1 / 100) 1 true with | .point p => some (p 0) | .unboundLocal => none) = some 3 := by
  decide +kernel

/-! ## C156 -/

/-- The strong Wolfe conditions at `a`. -/
def Wolfe (n : Nat) (f : (Nat → F) → F) (grad : (Nat → F) → Nat → F) (d : Nat → F) (f0 dg0 c1 c2 a : F) (y : Nat → F) : Prop :=
  f y ≤ f0 + c1 * a * dg0 ∧ |∑ i ∈ range n, d i * grad y i| ≤ -c2 * dg0

theorem zoom_spec (n : Nat) (f : (Nat → F) → F) (grad : (Nat → F) → Nat → F) (pt : F → Nat → F) (d : Nat → F) (f0 dg0 c1 c2 : F) :
    ∀ (fuel : Nat) (lo hi : F), 0 ≤ lo → 0 ≤ hi → 0 < lo + hi →
      (zoom n f grad pt d f0 dg0 c1 c2 fuel lo hi).2.1 = pt (zoom n f grad pt d f0 dg0 c1 c2 fuel lo hi).1 ∧
      ((zoom n f grad pt d f0 dg0 c1 c2 fuel lo hi).2.2 = true →
        0 < (zoom n f grad pt d f0 dg0 c1 c2 fuel lo hi).1 ∧
        Wolfe n f grad d f0 dg0 c1 c2 (zoom n f grad pt d f0 dg0 c1 c2 fuel lo hi).1 (zoom n f grad pt d f0 dg0 c1 c2 fuel lo hi).2.1) := by
  intro fuel
  induction fuel with
  | zero => intro lo hi _ _ _; rw [zoom]; exact ⟨rfl, fun h => by cases h⟩
  | succ m ih =>
    intro lo hi h1 h2 h3
    have ha : 0 < 1 / 2 * (lo + hi) := mul_pos (by norm_num) h3
    rw [zoom]
    dsimp only
    split_ifs with c d1 e1
    · exact ih lo _ h1 (le_of_lt ha) (by linarith)
    · refine ⟨rfl, fun _ => ⟨ha, ?_⟩⟩
      refine ⟨not_lt.1 fun hc => c (Or.inl hc), ?_⟩
      rw [← dot_eq]; exact d1
    · exact ih _ _ (le_of_lt ha) h1 (by linarith)
    · exact ih _ _ (le_of_lt ha) h2 (by linarith)

theorem searchLoop_spec (n : Nat) (f : (Nat → F) → F) (grad : (Nat → F) → Nat → F) (pt : F → Nat → F) (d : Nat → F) (f0 dg0 c1 c2 am : F)
    (hm : 0 < am) : ∀ (fuel i : Nat) (prev alpha fp : F), 0 ≤ prev → 0 < alpha →
      (searchLoop n f grad pt d f0 dg0 c1 c2 am fuel i prev alpha fp).2.1 = pt (searchLoop n f grad pt d f0 dg0 c1 c2 am fuel i prev alpha fp).1 ∧
      ((searchLoop n f grad pt d f0 dg0 c1 c2 am fuel i prev alpha fp).2.2 = true →
        0 < (searchLoop n f grad pt d f0 dg0 c1 c2 am fuel i prev alpha fp).1 ∧
        Wolfe n f grad d f0 dg0 c1 c2 (searchLoop n f grad pt d f0 dg0 c1 c2 am fuel i prev alpha fp).1
          (searchLoop n f grad pt d f0 dg0 c1 c2 am fuel i prev alpha fp).2.1) := by
  intro fuel
  induction fuel with
  | zero => intro i prev alpha fp _ _; rw [searchLoop]; exact ⟨rfl, fun h => by cases h⟩
  | succ m ih =>
    intro i prev alpha fp h1 h2
    rw [searchLoop]
    dsimp only
    split_ifs with c d1 e1
    · exact zoom_spec n f grad pt d f0 dg0 c1 c2 20 prev alpha h1 (le_of_lt h2) (by linarith)
    · refine ⟨rfl, fun _ => ⟨h2, not_lt.1 fun hc => c (Or.inl hc), ?_⟩⟩
      rw [← dot_eq]; exact d1
    · exact zoom_spec n f grad pt d f0 dg0 c1 c2 20 alpha prev (le_of_lt h2) h1 (by linarith)
    · exact ih _ _ _ _ (le_of_lt h2) (lt_min (by linarith) hm)

/-- **C156.** If `line_search` reports success, then the direction descends, the step is positive, the point is the projection of
`x + alpha * direction` and satisfies both strong Wolfe conditions; so for `c1 > 0` the value is less than at `x`. -/
theorem C156_line_search (n : Nat) (f : (Nat → F) → F) (grad : (Nat → F) → Nat → F) (x d lo hi : Nat → F) (c1 c2 : F) (maxIter : Nat)
    (alpha : F) (y : Nat → F) (e : lineSearch n f grad x d lo hi c1 c2 maxIter = (alpha, y, true)) :
    ∑ i ∈ range n, d i * grad x i < 0 ∧ 0 < alpha ∧ (∀ i, y i = min (max (x i + alpha * d i) (lo i)) (hi i)) ∧
      f y ≤ f x + c1 * alpha * ∑ i ∈ range n, d i * grad x i ∧
      |∑ i ∈ range n, d i * grad y i| ≤ -c2 * ∑ i ∈ range n, d i * grad x i ∧ (0 < c1 → f y < f x) := by
  unfold lineSearch at e
  dsimp only at e
  split_ifs at e with h0
  · cases (Prod.mk.inj (Prod.mk.inj e).2).2
  · have := searchLoop_spec n f grad (fun a => project lo hi fun i => x i + a * d i) d (f x) (dot n d (grad x)) c1 c2 (10 ^ 20)
      (by positivity) maxIter 0 0 1 (f x) (le_refl _) one_pos
    rw [e] at this
    obtain ⟨h1, h2⟩ := this
    obtain ⟨h3, h4, h5⟩ := h2 rfl
    dsimp only at h1 h3 h4 h5
    rw [dot_eq] at h0 h4 h5
    rw [not_le] at h0
    refine ⟨h0, h3, fun i => by rw [h1]; rfl, h4, h5, fun hc => ?_⟩
    have := mul_neg_of_pos_of_neg (mul_pos hc h3) h0
    linarith

/-- **C156.** The same for `line_search_strong_wolfe`, with `x + alpha * d` itself; the optional arguments default to `f(x)`, `grad(x)`. -/
theorem C156_strong_wolfe (n : Nat) (f : (Nat → F) → F) (grad : (Nat → F) → Nat → F) (x d : Nat → F) (f0 : Option F)
    (g0 : Option (Nat → F)) (hf0 : f0 = none ∨ f0 = some (f x)) (hg0 : g0 = none ∨ g0 = some (grad x)) (c1 c2 : F) (maxIter : Nat)
    (alpha : F) (y : Nat → F) (e : lineSearchStrongWolfe n f grad x d f0 g0 c1 c2 maxIter = (alpha, y, true)) :
    ∑ i ∈ range n, d i * grad x i < 0 ∧ 0 < alpha ∧ (∀ i, y i = x i + alpha * d i) ∧
      f y ≤ f x + c1 * alpha * ∑ i ∈ range n, d i * grad x i ∧
      |∑ i ∈ range n, d i * grad y i| ≤ -c2 * ∑ i ∈ range n, d i * grad x i ∧ (0 < c1 → f y < f x) := by
  have hf : f0.getD (f x) = f x := by rcases hf0 with rfl | rfl <;> rfl
  have hg : g0.getD (grad x) = grad x := by rcases hg0 with rfl | rfl <;> rfl
  unfold lineSearchStrongWolfe at e
  dsimp only at e
  rw [hf, hg] at e
  split_ifs at e with h0
  · cases (Prod.mk.inj (Prod.mk.inj e).2).2
  · have := searchLoop_spec n f grad (fun a i => x i + a * d i) d (f x) (dot n d (grad x)) c1 c2 (10 ^ 20)
      (by positivity) maxIter 0 0 1 (f x) (le_refl _) one_pos
    rw [e] at this
    obtain ⟨h1, h2⟩ := this
    obtain ⟨h3, h4, h5⟩ := h2 rfl
    dsimp only at h1 h3 h4 h5
    rw [dot_eq] at h0 h4 h5
    rw [not_le] at h0
    refine ⟨h0, h3, fun i => by rw [h1], h4, h5, fun hc => ?_⟩
    have := mul_neg_of_pos_of_neg (mul_pos hc h3) h0
    linarith

/-- **C156.** A direction that does not descend is refused: step 0, the point itself, no success. -/
theorem C156_ascent (n : Nat) (f : (Nat → F) → F) (grad : (Nat → F) → Nat → F) (x d lo hi : Nat → F) (c1 c2 : F) (maxIter : Nat)
    (h : 0 ≤ ∑ i ∈ range n, d i * grad x i) :
    lineSearch n f grad x d lo hi c1 c2 maxIter = (0, x, false) ∧
      lineSearchStrongWolfe n f grad x d none none c1 c2 maxIter = (0, x, false) := by
  rw [← dot_eq] at h
  exact ⟨if_pos h, if_pos h⟩

/-- **C156.** If the full step satisfies the conditions, it is taken. -/
theorem C156_full_step (n : Nat) (f : (Nat → F) → F) (grad : (Nat → F) → Nat → F) (x d lo hi : Nat → F) (c1 c2 : F) (maxIter : Nat)
    (hm : 0 < maxIter) (h : ∑ i ∈ range n, d i * grad x i < 0) (y : Nat → F) (hy : y = fun i => min (max (x i + d i) (lo i)) (hi i))
    (h1 : f y ≤ f x + c1 * ∑ i ∈ range n, d i * grad x i)
    (h2 : |∑ i ∈ range n, d i * grad y i| ≤ -c2 * ∑ i ∈ range n, d i * grad x i) :
    lineSearch n f grad x d lo hi c1 c2 maxIter = (1, y, true) := by
  obtain ⟨m, rfl⟩ : ∃ m, maxIter = m + 1 := ⟨maxIter - 1, by omega⟩
  rw [← dot_eq] at h h1 h2
  have hpt : (project lo hi fun i => x i + 1 * d i) = y := by rw [hy]; funext i; unfold project; dsimp only; rw [one_mul]
  unfold lineSearch
  dsimp only
  rw [if_neg (not_le.2 h), searchLoop]
  dsimp only
  rw [hpt, if_neg, if_pos]
  · rw [dot_eq n d (grad x)]; exact h2
  · rintro (h3 | h3)
    · rw [mul_one] at h3; exact absurd h1 (not_le.2 h3)
    · exact absurd h3.1 (lt_irrefl _)

/-- `x²` from 30 in the direction -1 on [0, 50]: the step doubles until the slope is small enough; in the direction 1 nothing is done. -/
example : (fun r : ℚ × (Nat → ℚ) × Bool => (r.1, r.2.1 0, r.2.2)) (lineSearch 1 (fun x => x 0 ^ 2) (fun x _ => 2 * x 0) (fun _ => 30)
      (fun _ => -1) (fun _ => 0) (fun _ => 50) (1 / 10000) (9 / 10) 20) = (4, 26, true) ∧
    (fun r : ℚ × (Nat → ℚ) × Bool => (r.1, r.2.1 0, r.2.2)) (lineSearch 1 (fun x => x 0 ^ 2) (fun x _ => 2 * x 0) (fun _ => 30)
      (fun _ => 1) (fun _ => 0) (fun _ => 50) (1 / 10000) (9 / 10) 20) = (0, 30, false) := by decide +kernel

end Verif.Newt
