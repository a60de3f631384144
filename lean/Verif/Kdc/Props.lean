import Verif.Kdc.Model
import Verif.NDer.Spline
import Mathlib.Tactic.Ring
import Mathlib.Tactic.FieldSimp
import Mathlib.Tactic.LinearCombination

set_option linter.unusedSectionVars false

/-! # Control points of derivatives in Python (C477) -/

namespace Verif.Kdc

open Verif.NDer Verif.Nurbs

variable {K : Type} [Field K] [LinearOrder K]

theorem mapM_range_some (n : Nat) (f : Nat → Option K) (g : Nat → K) (h : ∀ i, i < n → f i = some (g i)) :
    (List.range n).mapM f = some ((List.range n).map g) := by
  have : ∀ l : List Nat, (∀ i ∈ l, f i = some (g i)) → l.mapM f = some (l.map g) := by
    intro l
    induction l with
    | nil => intro _; rfl
    | cons a l ih =>
      intro hl
      rw [List.mapM_cons, hl a List.mem_cons_self, ih fun i hi => hl i (List.mem_cons_of_mem _ hi)]
      rfl
  exact this _ fun i hi => h i (List.mem_range.1 hi)

theorem mapM_none (l : List Nat) (f : Nat → Option K) (a : Nat) (ha : a ∈ l) (h : f a = none) : l.mapM f = none := by
  induction l with
  | nil => cases ha
  | cons b l ih =>
    rw [List.mapM_cons]
    cases hb : f b with
    | none => rfl
    | some x =>
      have : a ∈ l := by
        rcases List.mem_cons.1 ha with rfl | h'
        · rw [h] at hb; cases hb
        · exact h'
      rw [ih this]; rfl

theorem getD_map_range (n i : Nat) (g : Nat → K) (h : i < n) : ((List.range n).map g).getD i 0 = g i := by
  simp [List.getD_eq_getElem?_getD, List.getElem?_map, List.getElem?_range h]

/-- The denominators up to order `d` are not zero. -/
def Fine (p : Nat) (U : Nat → K) (r1 r d : Nat) : Prop := ∀ k i, 1 ≤ k → k ≤ d → i + k ≤ r → U (r1 + i + p + 1) ≠ U (r1 + i + k)

theorem row_some (p : Nat) (U P : Nat → K) (r1 r k : Nat) (hk : k < p) (hd : ∀ i, i + (k + 1) ≤ r → U (r1 + i + p + 1) ≠ U (r1 + i + (k + 1))) :
    row p U r1 r ((List.range (r + 1 - k)).map (cptD p U P r1 k)) (k + 1) =
      some ((List.range (r + 1 - (k + 1))).map (cptD p U P r1 (k + 1))) := by
  refine mapM_range_some _ _ _ fun i hi => ?_
  dsimp only
  rw [if_neg (sub_ne_zero.2 (hd i (by omega))), getD_map_range _ _ _ (by omega), getD_map_range _ _ _ (by omega), cptD]
  have : (((p : ℤ) - ((k + 1 : ℕ) : ℤ) + 1 : ℤ) : K) = ((p - k : ℕ) : K) := by
    rw [Nat.cast_sub hk.le]; push_cast; ring
  rw [this]
  rfl

theorem rows_some (p : Nat) (U P : Nat → K) (r1 r : Nat) : ∀ n k, k + n ≤ p →
    (∀ m i, k < m → m ≤ k + n → i + m ≤ r → U (r1 + i + p + 1) ≠ U (r1 + i + m)) →
    rows p U r1 r n (k + 1) ((List.range (r + 1 - k)).map (cptD p U P r1 k)) =
      some ((List.range n).map fun j => (List.range (r + 1 - (k + 1 + j))).map (cptD p U P r1 (k + 1 + j))) := by
  intro n
  induction n with
  | zero => intro k _ _; rfl
  | succ n ih =>
    intro k hk hd
    rw [rows, row_some p U P r1 r k (by omega) fun i hi => hd (k + 1) i (by omega) (by omega) hi]
    dsimp only
    rw [ih (k + 1) (by omega) fun m i h1 h2 h3 => hd m i (by omega) (by omega) h3]
    rw [List.range_succ_eq_map, List.map_cons, List.map_map, Option.map_some]
    congr 2
    refine List.map_congr_left fun j _ => ?_
    simp only [Function.comp]
    rw [show k + 1 + 1 + j = k + 1 + (j + 1) by omega]

/-- **C477, what the rows are.** Up to the degree, with no zero denominator, row `k` has `r + 1 - k` entries (none for larger `k`), and they are the
entries that the compiled `curve_deriv_cpts` writes. -/
theorem C477_agrees_partial (p : Nat) (U P : Nat → K) (r1 r2 d : Nat) (hd : d ≤ p) (hf : Fine p U r1 (r2 - r1) d) (PK0 : Nat → Nat → K) :
    ∃ PK, derivCpts p U P r1 r2 d = some PK ∧ PK.length = d + 1 ∧ ∀ k, k ≤ d → (PK.getD k []).length = r2 - r1 + 1 - k ∧
      ∀ i, k + i ≤ r2 - r1 → (PK.getD k [])[i]? = some (curveDerivCpts p U P d r1 r2 PK0 k i) := by
  have h := rows_some p U P r1 (r2 - r1) d 0 (by omega) fun m i h1 h2 h3 => hf m i h1 (by omega) h3
  have e0 : ((List.range (r2 - r1 + 1 - 0)).map (cptD p U P r1 0)) = (List.range (r2 - r1 + 1)).map fun i => P (r1 + i) := rfl
  rw [e0] at h
  refine ⟨_, by unfold derivCpts; dsimp only; rw [h]; rfl, by simp, fun k hk => ?_⟩
  have hrow : (((List.range (r2 - r1 + 1)).map fun i => P (r1 + i)) ::
      (List.range d).map fun j => (List.range (r2 - r1 + 1 - (0 + 1 + j))).map (cptD p U P r1 (0 + 1 + j))).getD k [] =
      (List.range (r2 - r1 + 1 - k)).map (cptD p U P r1 k) := by
    cases k with
    | zero => rfl
    | succ k =>
      rw [List.getD_cons_succ, List.getD_eq_getElem?_getD, List.getElem?_map, List.getElem?_range (by omega)]
      simp only [Option.map_some, Option.getD_some]
      rw [show 0 + 1 + k = k + 1 by omega]
  rw [hrow]
  refine ⟨by simp, fun i hi => ?_⟩
  rw [List.getElem?_map, List.getElem?_range (by omega), curveDerivCpts_eq p U P r1 r2 PK0 d k i hk hi]
  rfl

/-- **C477, derivatives.** On a span that is not empty, with the range of the span, the rows exist up to the degree, and row `k` has the control
points of the `k`-th derivative of the curve on the span, a spline of degree `p - k`. -/
theorem C477_derivative_partial [IsStrictOrderedRing K] (U : Nat → K) (m : Nat) (hU : MonoUpTo U m) (i : Nat) (hi : U i < U (i + 1)) (p : Nat)
    (hp : p ≤ i) (hm : i + p + 1 < m) (P : Nat → K) (d : Nat) (hd : d ≤ p) :
    ∃ PK, derivCpts p U P (i - p) i d = some PK ∧ ∀ k, k ≤ d → Polynomial.derivative^[k] (splineP i U p P) =
      ∑ j ∈ Finset.range (p - k + 1), Polynomial.C ((PK.getD k []).getD j 0) * coxP i U (p - k) (i - (p - k) + j) := by
  have hr : i - (i - p) = p := by omega
  have hf : Fine p U (i - p) (i - (i - p)) d := by
    rw [hr]
    intro k j h1 h2 h3 he
    have ha : U (i + 1) ≤ U (i - p + j + p + 1) := hU _ _ (by omega) (by omega)
    have hb : U (i - p + j + k) ≤ U i := hU _ _ (by omega) (by omega)
    rw [he] at ha
    exact absurd (lt_of_lt_of_le hi ha) (not_lt.2 hb)
  obtain ⟨PK, e, _, h⟩ := C477_agrees_partial p U P (i - p) i d hd hf fun _ _ => 0
  refine ⟨PK, e, fun k hk => ?_⟩
  rw [iterate_splineP U m hU i hi p hp hm P k (by omega)]
  refine Finset.sum_congr rfl fun j hj => ?_
  have hj' : k + j ≤ i - (i - p) := by have := Finset.mem_range.1 hj; omega
  rw [List.getD_eq_getElem?_getD, (h k hk).2 j hj', curveDerivCpts_eq p U P (i - p) i (fun _ _ => 0) d k j hk hj']
  rfl

/-- **C477, refuted, orders above the degree.** The derivative of an order above the degree is zero; with more than `p + 1` control points in the range
the function raises instead, for all knots and points. -/
theorem C477_order_refuted (p : Nat) (U P : Nat → K) (r1 r2 d : Nat) (hd : p < d) (hr : p < r2 - r1) : derivCpts p U P r1 r2 d = none := by
  have : ∀ n k prev, 1 ≤ k → k ≤ p + 1 → p + 1 < k + n → rows p U r1 (r2 - r1) n k prev = none := by
    intro n
    induction n with
    | zero => intro k prev _ h1 h2; omega
    | succ n ih =>
      intro k prev h0 h1 h2
      rw [rows]
      cases hrow : row p U r1 (r2 - r1) prev k with
      | none => rfl
      | some l =>
        dsimp only
        by_cases hk : k = p + 1
        · subst hk
          have : row p U r1 (r2 - r1) prev (p + 1) = none := by
            refine mapM_none _ _ 0 (List.mem_range.2 (by omega)) ?_
            dsimp only
            rw [if_pos (by rw [show r1 + 0 + p + 1 = r1 + 0 + (p + 1) by omega, sub_self])]
          rw [this] at hrow; cases hrow
        · rw [ih (k + 1) l (by omega) (by omega) (by omega)]; rfl
  unfold derivCpts
  dsimp only
  rw [this d 1 _ le_rfl (by omega) (by omega)]; rfl

/-- **C477, straight lines.** For control points `a` times the average of their `p` knots plus `b`, the first derivative is `a` everywhere. -/
theorem C477_line (p : Nat) (hp : (p : K) ≠ 0) (U : Nat → K) (a b : K) (r1 r2 : Nat) (hf : Fine p U r1 (r2 - r1) 1) :
    derivCpts p U (fun i => a * ((∑ j ∈ Finset.range p, U (i + 1 + j)) / p) + b) r1 r2 1 =
      some [(List.range (r2 - r1 + 1)).map fun i => a * ((∑ j ∈ Finset.range p, U (r1 + i + 1 + j)) / p) + b, List.replicate (r2 - r1) a] := by
  unfold derivCpts rows
  have hrow : row p U r1 (r2 - r1) ((List.range (r2 - r1 + 1)).map fun i => a * ((∑ j ∈ Finset.range p, U (r1 + i + 1 + j)) / p) + b) 1 =
      some ((List.range (r2 - r1 + 1 - 1)).map fun _ => a) := by
    refine mapM_range_some _ _ _ fun i hi => ?_
    dsimp only
    have hne := sub_ne_zero.2 (hf 1 i le_rfl le_rfl (by omega))
    rw [if_neg hne, getD_map_range _ _ _ (by omega), getD_map_range _ _ _ (by omega)]
    congr 1
    rw [div_eq_iff hne]
    have h1 := Finset.sum_range_succ (fun j => U (r1 + i + 1 + j)) p
    have h2 := Finset.sum_range_succ' (fun j => U (r1 + i + 1 + j)) p
    have h3 : (∑ j ∈ Finset.range p, U (r1 + (i + 1) + 1 + j)) = ∑ j ∈ Finset.range p, U (r1 + i + 1 + (j + 1)) :=
      Finset.sum_congr rfl fun j _ => by congr 1; omega
    have h4 : (∑ j ∈ Finset.range p, U (r1 + (i + 1) + 1 + j)) = (∑ j ∈ Finset.range p, U (r1 + i + 1 + j)) + U (r1 + i + p + 1) - U (r1 + i + 1) := by
      rw [h3]
      rw [show r1 + i + p + 1 = r1 + i + 1 + p by omega]
      rw [h1, Nat.add_zero] at h2
      linear_combination -h2
    rw [h4]
    push_cast
    field_simp
    ring
  dsimp only
  rw [hrow]
  simp [rows, List.map_const']

/-- **C477, spans of many parameters**: one span for each parameter, in order. -/
theorem C477_spans (func : K → Nat) (knots : List K) : findSpans func knots = knots.map func := by
  have : ∀ (l : List K) (acc : List Nat), l.foldl (fun spans u => spans ++ [func u]) acc = acc ++ l.map func := by
    intro l
    induction l with
    | nil => intro acc; simp
    | cons a l ih => intro acc; rw [List.foldl_cons, ih]; simp
  simpa [findSpans] using this knots []

/-- Knots of a curve of degree 2 with four control points; the denominators are not zero. -/
example : Fine 2 (fun i => ([0, 0, 0, 1, 2, 2, 2] : List ℚ).getD i 2) 0 3 2 := by
  intro k i h1 h2 h3
  have : (k = 1 ∧ i < 3) ∨ (k = 2 ∧ i < 2) := by omega
  rcases this with ⟨rfl, h⟩ | ⟨rfl, h⟩ <;> interval_cases i <;> decide +kernel

/-- Its derivatives: the second derivative has two control points; the third order raises. -/
example : derivCpts 2 (fun i => ([0, 0, 0, 1, 2, 2, 2] : List ℚ).getD i 2) (fun i => ([0, 1, 4, 5] : List ℚ).getD i 0) 0 3 2 =
    some [[0, 1, 4, 5], [2, 3, 2], [1, -1]] ∧
    derivCpts 2 (fun i => ([0, 0, 0, 1, 2, 2, 2] : List ℚ).getD i 2) (fun i => ([0, 1, 4, 5] : List ℚ).getD i 0) 0 3 3 = none ∧
    findSpans (fun u : ℚ => if u < 1 then 2 else 3) [0, 1, 1 / 2] = [2, 3, 2] := by decide +kernel

end Verif.Kdc
