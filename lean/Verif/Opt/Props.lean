import Verif.Opt.Model
import Mathlib.Tactic.Ring
import Mathlib.Tactic.Abel
import Mathlib.Tactic.Linarith
import Mathlib.Tactic.NormNum
import Mathlib.Tactic.LinearCombination
import Mathlib.Tactic.FieldSimp
import Mathlib.Tactic.Positivity
import Mathlib.Tactic.SplitIfs
import Mathlib.Algebra.Order.Ring.Rat
import Mathlib.Algebra.Field.Rat
import Mathlib.Algebra.Order.Ring.Abs
import Mathlib.Data.Matrix.Mul
import Mathlib.LinearAlgebra.Matrix.Notation

/-! # C317–C319: points in curves, sequential quadratic programming, Newton's method -/

set_option linter.unusedSectionVars false

namespace Verif.Opt

open Verif.Vec (V3)
open Verif.Vec.V3

variable {K : Type} [Field K] [LinearOrder K] [IsStrictOrderedRing K]

/-! ## C317 -/

/-- Number of changes of sign along a list of values. -/
def signChanges : List K → ℕ
  | x :: y :: l => (if x * y < 0 then 1 else 0) + signChanges (y :: l)
  | _ => 0

theorem parity (l : List K) (h0 : ∀ x ∈ l, x ≠ 0) (a b : K) (ha : l.head? = some a) (hb : l.getLast? = some b) :
    signChanges l % 2 = if a * b < 0 then 1 else 0 := by
  induction l generalizing a with
  | nil => simp at ha
  | cons x l ih =>
    simp only [List.head?_cons, Option.some.injEq] at ha
    subst ha
    cases l with
    | nil =>
      simp only [List.getLast?_singleton, Option.some.injEq] at hb
      subst hb
      simp [signChanges, not_lt.2 (mul_self_nonneg x)]
    | cons y l =>
      have hx := h0 x List.mem_cons_self
      have hy := h0 y (List.mem_cons_of_mem _ List.mem_cons_self)
      have hb' : (y :: l).getLast? = some b := by rwa [List.getLast?_cons_cons] at hb
      have hb0 := h0 b (List.mem_cons_of_mem _ (List.mem_of_getLast? hb'))
      have := ih (fun z hz => h0 z (List.mem_cons_of_mem _ hz)) y rfl hb'
      rw [signChanges]
      rcases lt_or_gt_of_ne hx with gx | gx <;> rcases lt_or_gt_of_ne hy with gy | gy <;> rcases lt_or_gt_of_ne hb0 with gb | gb
      · rw [if_neg (not_lt.2 (mul_pos_of_neg_of_neg gy gb).le)] at this
        rw [if_neg (not_lt.2 (mul_pos_of_neg_of_neg gx gy).le), if_neg (not_lt.2 (mul_pos_of_neg_of_neg gx gb).le)]; omega
      · rw [if_pos (mul_neg_of_neg_of_pos gy gb)] at this
        rw [if_neg (not_lt.2 (mul_pos_of_neg_of_neg gx gy).le), if_pos (mul_neg_of_neg_of_pos gx gb)]; omega
      · rw [if_pos (mul_neg_of_pos_of_neg gy gb)] at this
        rw [if_pos (mul_neg_of_neg_of_pos gx gy), if_neg (not_lt.2 (mul_pos_of_neg_of_neg gx gb).le)]; omega
      · rw [if_neg (not_lt.2 (mul_pos gy gb).le)] at this
        rw [if_pos (mul_neg_of_neg_of_pos gx gy), if_pos (mul_neg_of_neg_of_pos gx gb)]; omega
      · rw [if_neg (not_lt.2 (mul_pos_of_neg_of_neg gy gb).le)] at this
        rw [if_pos (mul_neg_of_pos_of_neg gx gy), if_pos (mul_neg_of_pos_of_neg gx gb)]; omega
      · rw [if_pos (mul_neg_of_neg_of_pos gy gb)] at this
        rw [if_pos (mul_neg_of_pos_of_neg gx gy), if_neg (not_lt.2 (mul_pos gx gb).le)]; omega
      · rw [if_pos (mul_neg_of_pos_of_neg gy gb)] at this
        rw [if_neg (not_lt.2 (mul_pos gx gy).le), if_pos (mul_neg_of_pos_of_neg gx gb)]; omega
      · rw [if_neg (not_lt.2 (mul_pos gy gb).le)] at this
        rw [if_neg (not_lt.2 (mul_pos gx gy).le), if_neg (not_lt.2 (mul_pos gx gb).le)]; omega

/-- The routine finds one parameter for each change of sign between the parameters `ss`, which are fine enough for the function. -/
def Complete (pix : (K → K) → List K) (g : K → K) (ss : List K) : Prop := (pix g).length = signChanges (ss.map g)

/-- What is intersected is a line, not a ray: whenever the intersections are found completely, no point is inside any closed curve. -/
theorem C317_inside_refuted (pix : (K → K) → List K) (close : K × K → K × K → Bool) (inPoly : List (K × K) → K × K → Bool) (ts : List K)
    (deg : Option ℕ) (curve : K → K × K) (a b : K) (p : K × K) (hc : curve a = curve b)
    (ss : List K) (ha : ss.head? = some a) (hb : ss.getLast? = some b) (h0 : ∀ t ∈ ss, (curve t).1 ≠ p.1)
    (hpix : Complete pix (fun t => p.1 - (curve t).1) ss) : pointInParametric pix close inPoly ts deg curve a b p = false := by
  unfold pointInParametric
  by_cases h : close (curve a) (curve b) = false
  · rw [if_pos h]
  · rw [if_neg h]
    simp only [decide_eq_false_iff_not]
    unfold curveXRay
    rw [hpix]
    have := parity (ss.map fun t => p.1 - (curve t).1)
      (by intro x hx; rw [List.mem_map] at hx; obtain ⟨t, ht, rfl⟩ := hx; exact sub_ne_zero.2 (Ne.symm (h0 t ht)))
      (p.1 - (curve a).1) (p.1 - (curve b).1) (by simp [ha]) (by simp [hb])
    rw [this, hc, if_neg (not_lt.2 (mul_self_nonneg _))]
    omega

/-- A curve whose ends are apart has no inside. -/
theorem C317_open_partial (pix : (K → K) → List K) (close : K × K → K × K → Bool) (inPoly : List (K × K) → K × K → Bool) (ts : List K)
    (deg : Option ℕ) (curve : K → K × K) (a b : K) (p : K × K) (hc : close (curve a) (curve b) = false) :
    pointInParametric pix close inPoly ts deg curve a b p = false := by
  unfold pointInParametric
  rw [if_pos hc]

/-- The answer of the test for polygons is not used. -/
theorem C317_polygon_refuted (pix : (K → K) → List K) (close : K × K → K × K → Bool) (inPoly inPoly' : List (K × K) → K × K → Bool) (ts : List K)
    (deg : Option ℕ) (curve : K → K × K) (a b : K) (p : K × K) :
    pointInParametric pix close inPoly ts deg curve a b p = pointInParametric pix close inPoly' ts deg curve a b p := rfl

/-- For implicit curves points inside, on the curve and outside up to the tolerance are accepted, and no others. -/
theorem C317_implicit (atol res : K) (h : 0 ≤ atol) : pointInImplicit atol res = true ↔ res ≤ atol := by
  unfold pointInImplicit
  split_ifs with h1 h2
  · simp; exact h1.trans h
  · simp; exact (le_abs_self _).trans h2
  · simp only [Bool.false_eq_true, false_iff]
    rw [abs_of_pos (not_le.1 h1)] at h2
    exact h2

/-- The square with corners `(0,0)` and `(2,2)` and its center; the line through the center meets two edges. -/
def square (t : ℚ) : ℚ × ℚ :=
  if t < 1 then (2 * t, 0) else if t < 2 then (2, 2 * (t - 1)) else if t < 3 then (2 - 2 * (t - 2), 2) else (0, 2 - 2 * (t - 3))

example : pointInParametric (fun _ => [1/2, 5/2]) (fun _ _ => true) (fun _ _ => true) [0, 1, 2, 3] (some 1) square 0 4 (1, 1) = false := by decide +kernel
example : Complete (fun _ => [1/2, 5/2]) (fun t => (1 : ℚ) - (square t).1) [0, 1, 2, 3, 4] := by unfold Complete; decide +kernel

/-! ## C318 -/

section sqp
variable {n m : Type} [Fintype n] [Fintype m] [DecidableEq n]

/-- What `np.linalg.solve` does: a result is a solution; there is a result for a regular matrix. -/
structure Solver {ι : Type} [Fintype ι] (solve : Matrix ι ι K → (ι → K) → Option (ι → K)) : Prop where
  sound : ∀ M r s, solve M r = some s → M.mulVec s = r
  regular : ∀ M r, (∀ v, M.mulVec v = 0 → v = 0) → ∃ s, solve M r = some s

theorem kkt_mulVec (H : Matrix n n K) (A : Matrix m n K) (s r : n ⊕ m → K) (h : (kkt H A).mulVec s = r) :
    H.mulVec (fun i => s (Sum.inl i)) + A.transpose.mulVec (fun i => s (Sum.inr i)) = (fun i => r (Sum.inl i)) ∧
      A.mulVec (fun i => s (Sum.inl i)) = (fun i => r (Sum.inr i)) := by
  unfold kkt at h
  rw [Matrix.fromBlocks_mulVec] at h
  constructor
  · funext i
    have := congrFun h (Sum.inl i)
    simpa [Function.comp_def] using this
  · funext i
    have := congrFun h (Sum.inr i)
    simpa [Function.comp_def] using this

/-- With an affine constraint all points after the first step satisfy it exactly. -/
theorem C318_feasible {solve : Matrix (n ⊕ m) (n ⊕ m) K → (n ⊕ m → K) → Option (n ⊕ m → K)} (hs : Solver solve) (smallP : (n → K) → Bool)
    (smallC : (m → K) → Bool) (P : Prob n m K) (A : Matrix m n K) (b : m → K) (hc : ∀ x, P.con x = A.mulVec x + b) (hj : ∀ x, P.jac x = A)
    (k : ℕ) (x : n → K) (lam : m → K) (h1 : ∃ s, solve (kkt (P.hess x lam) (P.jac x)) (Sum.elim (-P.grad x) (-P.con x)) = some s) :
    P.con (sqp solve smallP smallC P (k + 1) x lam).1 = 0 := by
  have step : ∀ x lam s, solve (kkt (P.hess x lam) (P.jac x)) (Sum.elim (-P.grad x) (-P.con x)) = some s →
      P.con (x + fun i => s (Sum.inl i)) = 0 := by
    intro x lam s h
    have h2 := (kkt_mulVec _ _ _ _ (hs.sound _ _ _ h)).2
    rw [hj] at h2
    rw [hc, Matrix.mulVec_add, h2]
    simp only [Sum.elim_inr]
    have : (fun i => (-P.con x) i) = -(A.mulVec x + b) := by rw [← hc]
    rw [this]
    abel
  have rest : ∀ (k : ℕ) (x : n → K) (lam : m → K), P.con x = 0 → P.con (sqp solve smallP smallC P k x lam).1 = 0 := by
    intro k
    induction k with
    | zero => intro x lam h; exact h
    | succ k ih =>
      intro x lam h
      rw [sqp]
      cases e : solve (kkt (P.hess x lam) (P.jac x)) (Sum.elim (-P.grad x) (-P.con x)) with
      | none => exact h
      | some s =>
        simp only
        split_ifs
        · exact step x lam s e
        · exact ih _ _ (step x lam s e)
  obtain ⟨s, e⟩ := h1
  rw [sqp, e]
  simp only
  split_ifs
  · exact step x lam s e
  · exact rest _ _ _ (step x lam s e)

/-- The point is stationary and feasible. -/
def Stationary (Q : Matrix n n K) (q : n → K) (A : Matrix m n K) (b : m → K) (x : n → K) : Prop :=
  A.mulVec x + b = 0 ∧ ∃ nu : m → K, Q.mulVec x + q + A.transpose.mulVec nu = 0

/-- A stationary point is a minimum among the feasible points if the form is not negative along the constraint. -/
theorem stationary_min {Q : Matrix n n K} {q : n → K} {A : Matrix m n K} {b : m → K} {x : n → K} (h : Stationary Q q A b x)
    (hQ : Q.transpose = Q) (hpos : ∀ d, A.mulVec d = 0 → 0 ≤ dotProduct d (Q.mulVec d)) (y : n → K) (hy : A.mulVec y + b = 0) :
    dotProduct x (Q.mulVec x) / 2 + dotProduct q x ≤ dotProduct y (Q.mulVec y) / 2 + dotProduct q y := by
  obtain ⟨h1, nu, h2⟩ := h
  set d := y - x with hd
  have hAd : A.mulVec d = 0 := by
    rw [hd, Matrix.mulVec_sub]
    have : A.mulVec y - A.mulVec x = (A.mulVec y + b) - (A.mulVec x + b) := by abel
    rw [this, h1, hy, sub_zero]
  have hyx : y = x + d := by rw [hd]; abel
  have sym : dotProduct x (Q.mulVec d) = dotProduct d (Q.mulVec x) := by
    rw [Matrix.dotProduct_mulVec, ← Matrix.mulVec_transpose, hQ, dotProduct_comm]
  have lag : dotProduct d (Q.mulVec x) + dotProduct d q = 0 := by
    have e := congrArg (fun w => dotProduct d w) h2
    simp only [dotProduct_add, dotProduct_zero] at e
    have z : dotProduct d (A.transpose.mulVec nu) = 0 := by
      rw [Matrix.dotProduct_mulVec, Matrix.vecMul_transpose, hAd, zero_dotProduct]
    rw [z, add_zero] at e
    exact e
  have hp := hpos d hAd
  rw [hyx]
  simp only [Matrix.mulVec_add, dotProduct_add, add_dotProduct]
  rw [sym, dotProduct_comm q d]
  have : dotProduct d (Q.mulVec x) = -dotProduct d q := by linear_combination lag
  rw [this]
  linarith

/-- For a quadratic function with an affine constraint and a regular matrix the method ends without warnings, at a stationary point. -/
theorem C318_stationary {solve : Matrix (n ⊕ m) (n ⊕ m) K → (n ⊕ m → K) → Option (n ⊕ m → K)} (hs : Solver solve) {smallP : (n → K) → Bool}
    {smallC : (m → K) → Bool} (hp0 : smallP 0 = true) (hc0 : smallC 0 = true) (P : Prob n m K) (Q : Matrix n n K) (q : n → K) (A : Matrix m n K)
    (b : m → K) (hg : ∀ x, P.grad x = Q.mulVec x + q) (hh : ∀ x lam, P.hess x lam = Q) (hc : ∀ x, P.con x = A.mulVec x + b)
    (hj : ∀ x, P.jac x = A) (reg : ∀ v, (kkt Q A).mulVec v = 0 → v = 0) (k : ℕ) (x : n → K) (lam : m → K) :
    (sqp solve smallP smallC P (k + 2) x lam).2 = 0 ∧ Stationary Q q A b (sqp solve smallP smallC P (k + 2) x lam).1 := by
  have sol : ∀ x lam, ∃ s, solve (kkt (P.hess x lam) (P.jac x)) (Sum.elim (-P.grad x) (-P.con x)) = some s ∧
      A.mulVec (x + fun i => s (Sum.inl i)) + b = 0 ∧ Q.mulVec (x + fun i => s (Sum.inl i)) + q + A.transpose.mulVec (fun i => s (Sum.inr i)) = 0 := by
    intro x lam
    rw [hh, hj]
    obtain ⟨s, h⟩ := hs.regular (kkt Q A) (Sum.elim (-P.grad x) (-P.con x)) reg
    obtain ⟨e1, e2⟩ := kkt_mulVec _ _ _ _ (hs.sound _ _ _ h)
    refine ⟨s, h, ?_, ?_⟩
    · rw [Matrix.mulVec_add, e2]
      simp only [Sum.elim_inr]
      have : (fun i => (-P.con x) i) = -(A.mulVec x + b) := by rw [← hc]
      rw [this]; abel
    · rw [Matrix.mulVec_add]
      simp only [Sum.elim_inl] at e1
      have : (fun i => (-P.grad x) i) = -(Q.mulVec x + q) := by rw [← hg]
      rw [this] at e1
      have e3 : Q.mulVec x + Q.mulVec (fun i => s (Sum.inl i)) + q + A.transpose.mulVec (fun i => s (Sum.inr i)) =
        (Q.mulVec (fun i => s (Sum.inl i)) + A.transpose.mulVec (fun i => s (Sum.inr i))) + (Q.mulVec x + q) := by abel
      rw [e3, e1]; abel
  obtain ⟨s, e, f1, f2⟩ := sol x lam
  rw [show k + 2 = (k + 1) + 1 from rfl, sqp, e]
  simp only
  split_ifs with hsm
  · exact ⟨rfl, f1, _, f2⟩
  · set x1 := x + fun i => s (Sum.inl i) with hx1
    obtain ⟨s', e', g1, g2⟩ := sol x1 (fun i => s (Sum.inr i))
    have hz : (fun i => s' (Sum.inl i)) = 0 := by
      have hv : (kkt Q A).mulVec (Sum.elim (fun i => s' (Sum.inl i)) (fun i => s' (Sum.inr i) - s (Sum.inr i))) = 0 := by
        unfold kkt
        rw [Matrix.fromBlocks_mulVec]
        have a1 : A.mulVec (fun i => s' (Sum.inl i)) = 0 := by
          rw [Matrix.mulVec_add] at g1
          have : A.mulVec x1 + A.mulVec (fun i => s' (Sum.inl i)) + b = (A.mulVec x1 + b) + A.mulVec (fun i => s' (Sum.inl i)) := by abel
          rw [this, f1, zero_add] at g1
          exact g1
        have a2 : Q.mulVec (fun i => s' (Sum.inl i)) + A.transpose.mulVec (fun i => s' (Sum.inr i) - s (Sum.inr i)) = 0 := by
          have e5 : (fun i => s' (Sum.inr i) - s (Sum.inr i)) = (fun i => s' (Sum.inr i)) - (fun i => s (Sum.inr i)) := rfl
          rw [e5, Matrix.mulVec_sub]
          rw [Matrix.mulVec_add] at g2
          have := congrArg₂ (· - ·) g2 f2
          simp only [sub_zero] at this
          rw [← this]
          abel
        funext i
        cases i with
        | inl i => simpa [Function.comp_def] using congrFun a2 i
        | inr i => simpa [Function.comp_def] using congrFun a1 i
      have := reg _ hv
      funext i
      exact congrFun this (Sum.inl i)
    rw [sqp, e']
    simp only
    have hcx : P.con x1 = 0 := by rw [hc]; exact f1
    rw [hz, hp0, hcx, hc0]
    simp only [Bool.and_self, if_true]
    refine ⟨trivial, ?_, fun i => s' (Sum.inr i), ?_⟩
    · rw [add_zero]; exact f1
    · rw [hz] at g2; exact g2

/-- Hence the result is the minimum under the constraint. -/
theorem C318_minimum {solve : Matrix (n ⊕ m) (n ⊕ m) K → (n ⊕ m → K) → Option (n ⊕ m → K)} (hs : Solver solve) {smallP : (n → K) → Bool}
    {smallC : (m → K) → Bool} (hp0 : smallP 0 = true) (hc0 : smallC 0 = true) (P : Prob n m K) (Q : Matrix n n K) (q : n → K) (A : Matrix m n K)
    (b : m → K) (hg : ∀ x, P.grad x = Q.mulVec x + q) (hh : ∀ x lam, P.hess x lam = Q) (hc : ∀ x, P.con x = A.mulVec x + b)
    (hj : ∀ x, P.jac x = A) (reg : ∀ v, (kkt Q A).mulVec v = 0 → v = 0) (hQ : Q.transpose = Q)
    (hpos : ∀ d, A.mulVec d = 0 → 0 ≤ dotProduct d (Q.mulVec d)) (k : ℕ) (x : n → K) (lam : m → K) (y : n → K) (hy : A.mulVec y + b = 0) :
    let r := (sqp solve smallP smallC P (k + 2) x lam).1
    A.mulVec r + b = 0 ∧ dotProduct r (Q.mulVec r) / 2 + dotProduct q r ≤ dotProduct y (Q.mulVec y) / 2 + dotProduct q y := by
  have h := (C318_stationary hs hp0 hc0 P Q q A b hg hh hc hj reg k x lam).2
  exact ⟨h.1, stationary_min h hQ hpos y hy⟩

/-- With a singular matrix at the start the starting point is returned as it is, whatever the constraint is there. -/
theorem C318_singular_refuted (solve : Matrix (n ⊕ m) (n ⊕ m) K → (n ⊕ m → K) → Option (n ⊕ m → K)) (smallP : (n → K) → Bool)
    (smallC : (m → K) → Bool) (P : Prob n m K) (k : ℕ) (x : n → K) (lam : m → K)
    (h1 : solve (kkt (P.hess x lam) (P.jac x)) (Sum.elim (-P.grad x) (-P.con x)) = none) :
    (sqp solve smallP smallC P k x lam).1 = x := by
  cases k with
  | zero => rfl
  | succ k => rw [sqp, h1]

/-! ## C319 -/

/-- Without warnings the result comes from a small step that solves the linearised equation. -/
theorem C319_step {solve : Matrix n n K → (n → K) → Option (n → K)} (hs : Solver solve) (small : (n → K) → Bool) (F : (n → K) → n → K)
    (J : (n → K) → Matrix n n K) (k : ℕ) (x : n → K) (h : (newton22 solve small F J k x).2 = 0) :
    ∃ y d, (newton22 solve small F J k x).1 = y + d ∧ small d = true ∧ F y + (J y).mulVec d = 0 := by
  induction k generalizing x with
  | zero => simp [newton22] at h
  | succ k ih =>
    rw [newton22] at h ⊢
    cases e : solve (J x) (-F x) with
    | none => rw [e] at h; simp at h
    | some d =>
      rw [e] at h
      simp only at h ⊢
      have ed : x + d - x = d := by abel
      rw [ed] at h ⊢
      split_ifs at h ⊢ with hsm
      · exact ⟨x, d, rfl, hsm, by rw [hs.sound _ _ _ e]; abel⟩
      · exact ih _ h

/-- An affine system with a regular matrix is solved exactly, without warnings. -/
theorem C319_affine {solve : Matrix n n K → (n → K) → Option (n → K)} (hs : Solver solve) {small : (n → K) → Bool} (h0 : small 0 = true)
    (M : Matrix n n K) (b : n → K) (reg : ∀ v, M.mulVec v = 0 → v = 0) (k : ℕ) (x : n → K) :
    (newton22 solve small (fun x => M.mulVec x + b) (fun _ => M) (k + 2) x).2 = 0 ∧
      M.mulVec (newton22 solve small (fun x => M.mulVec x + b) (fun _ => M) (k + 2) x).1 + b = 0 := by
  have sol : ∀ x, ∃ d, solve M (-(M.mulVec x + b)) = some d ∧ M.mulVec (x + d) + b = 0 := by
    intro x
    obtain ⟨d, h⟩ := hs.regular M (-(M.mulVec x + b)) reg
    refine ⟨d, h, ?_⟩
    rw [Matrix.mulVec_add, hs.sound _ _ _ h]
    abel
  obtain ⟨d, e, f⟩ := sol x
  rw [show k + 2 = (k + 1) + 1 from rfl, newton22, e]
  simp only
  split_ifs with hsm
  · exact ⟨rfl, f⟩
  · obtain ⟨d', e', f'⟩ := sol (x + d)
    have hz : d' = 0 := by
      apply reg
      rw [hs.sound _ _ _ e', f, neg_zero]
    rw [newton22, e']
    simp only
    have : x + d + d' - (x + d) = 0 := by rw [hz]; abel
    rw [this, h0]
    simp only [if_true]
    exact ⟨trivial, f'⟩

/-- With a singular matrix the point reached is returned, though the function may have any value there. -/
theorem C319_singular_refuted (solve : Matrix n n K → (n → K) → Option (n → K)) (small : (n → K) → Bool) (F : (n → K) → n → K)
    (J : (n → K) → Matrix n n K) (k : ℕ) (x : n → K) (h : solve (J x) (-F x) = none) : (newton22 solve small F J k x).1 = x := by
  cases k with
  | zero => rfl
  | succ k => rw [newton22, h]

end sqp

/-! One variable, one constraint: minimise `x²` under `x - 3 = 0` from `x = 10`; and `2 x + 1 = 0` by Newton's method. -/

/-- Cramer's rule for two unknowns. -/
def solve11 (M : Matrix (Unit ⊕ Unit) (Unit ⊕ Unit) ℚ) (r : Unit ⊕ Unit → ℚ) : Option (Unit ⊕ Unit → ℚ) :=
  let d := M (.inl ()) (.inl ()) * M (.inr ()) (.inr ()) - M (.inl ()) (.inr ()) * M (.inr ()) (.inl ())
  if d = 0 then none
  else some (Sum.elim (fun _ => (r (.inl ()) * M (.inr ()) (.inr ()) - M (.inl ()) (.inr ()) * r (.inr ())) / d)
    (fun _ => (M (.inl ()) (.inl ()) * r (.inr ()) - M (.inr ()) (.inl ()) * r (.inl ())) / d))

/-- The problem. -/
def exProb : Prob Unit Unit ℚ := ⟨fun x _ => 2 * x (), fun _ _ _ _ => 2, fun x _ => x () - 3, fun _ _ _ => 1⟩

example : let r := sqp solve11 (fun p => decide (|p ()| < 1/100)) (fun c => decide (|c ()| < 1/100)) exProb 5 (fun _ => 10) (fun _ => 0)
    r.1 () = 3 ∧ r.2 = 0 := by decide +kernel
/-- Division for one unknown. -/
def solve1 (M : Matrix Unit Unit ℚ) (r : Unit → ℚ) : Option (Unit → ℚ) := if M () () = 0 then none else some fun _ => r () / M () ()

example : let r := newton22 solve1 (fun p => decide (|p ()| < 1/100)) (fun x _ => 2 * x () + 1) (fun _ => fun _ _ => 2) 5 (fun _ => 10)
    r.1 () = -1/2 ∧ r.2 = 0 := by decide +kernel
example : Solver solve1 := by
  constructor
  · intro M r s h
    unfold solve1 at h
    split_ifs at h with h0
    simp only [Option.some.injEq] at h
    funext i
    rw [← h]
    simp only [Matrix.mulVec, dotProduct, Finset.univ_unique, Finset.sum_singleton]
    show M () () * (r () / M () ()) = r ()
    field_simp
  · intro M r h
    have : M () () ≠ 0 := by
      intro h0
      have := h (fun _ => 1) (by
        funext i
        simp only [Matrix.mulVec, dotProduct, Finset.univ_unique, Finset.sum_singleton]
        show M () () * 1 = 0
        rw [h0, zero_mul])
      exact absurd (congrFun this ()) (by norm_num)
    exact ⟨_, if_neg this⟩

end Verif.Opt
