import Verif.Nsp.Model
import Verif.Nurbs.Props6
import Mathlib.Tactic.LinearCombination

/-! # C430–C434: the class `NURBSpline`, and the normal of both classes of curves -/

set_option linter.unusedSectionVars false

namespace Verif.Nsp

open Verif.Nurbs (Curve Valid specVal)

variable {K : Type} [Field K] [LinearOrder K] [IsStrictOrderedRing K]

theorem interval_eq {c : Curve K} (hc : Valid c) : interval c = (c.U c.degree, c.U c.n) := by
  unfold interval
  rw [hc.knots, show c.n + c.degree + 1 - c.degree - 1 = c.n by omega]

theorem evaluate_flag (c : Curve K) (hc : Valid c) (b : Bool) (fuel : Nat) (hf : c.n ≤ fuel) (x : K) (hl : c.U c.degree ≤ x) (hh : x ≤ c.U c.n)
    (col : Nat) : c.evaluate fuel x col = { c with periodic := b }.evaluate fuel x col := by
  have key : ∀ d : Curve K, Valid d → d.n ≤ fuel → d.U d.degree ≤ x → x ≤ d.U d.n →
      d.evaluate fuel x col = { d with periodic := false }.evaluate fuel x col := by
    intro d hd h1 h2 h3
    rcases hp : d.periodic with _ | _
    · have : ({ d with periodic := false } : Curve K) = d := by cases d; simp only at hp; subst hp; rfl
      rw [this]
    · exact Nurbs.C55_periodic_evaluate_partial d hd hp fuel h1 x h2 h3 col
  rw [key c hc hf hl hh]
  exact (key { c with periodic := b } ⟨hc.npos, hc.knots, hc.mono, hc.last⟩ hf hl hh).symm

/-- **C430.**  Between the ends of its `interval` a `NURBSpline`, periodic or not, is evaluated: the search for the span ends and the value is
`Σ N_l w_l P_l / Σ N_l w_l`. -/
theorem C430_evaluate (c : Curve K) (hc : Valid c) (fuel : Nat) (hf : c.n ≤ fuel) (x : K) (hl : (interval c).1 ≤ x) (hh : x ≤ (interval c).2)
    (col : Nat) : c.evaluate fuel x col = some (specVal c (fun l => c.P l 3 * c.P l col) x / specVal c (fun l => c.P l 3) x) := by
  rw [interval_eq hc] at hl hh
  rw [evaluate_flag c hc false fuel hf x hl hh]
  exact Nurbs.C35_evaluate_is_rational_spline { c with periodic := false } ⟨hc.npos, hc.knots, hc.mono, hc.last⟩ rfl fuel hf x hl hh col

example : interval Nurbs.exPeriodic = (1, 4) ∧ Nurbs.exPeriodic.evaluate 20 (5 / 2) 0 = some (3 / 2) := by
  constructor <;> decide +kernel

/-- **C431** refuted, closed curves.  `make_open` does nothing to a curve that `make_periodic` has made: the curve stays periodic. -/
theorem C431_periodic_refuted (c : Curve K) (hc : Valid c) (hp : 1 ≤ c.degree) (h : c.isPeriodic = false) (fuel : Nat)
    (hf : c.n + c.degree ≤ fuel) {tol : K} (ht : 0 ≤ tol) :
    makeOpen c.makePeriodic fuel tol = some c.makePeriodic ∧ c.makePeriodic.periodic = true := by
  obtain ⟨hv, -, hU0, hUn, hcl⟩ := Nurbs.C68_make_periodic_partial c hc hp h fuel hf
  have hn : c.makePeriodic.n ≤ fuel := by
    have : c.makePeriodic.n = c.n + c.degree := by simp [Curve.makePeriodic, h]
    omega
  have hi : interval c.makePeriodic = (0, (c.n : K)) := by rw [interval_eq hv, hU0, hUn]
  have hpos : (0 : K) ≤ (c.n : K) := Nat.cast_nonneg _
  have ev : ∀ col, ∃ v, c.makePeriodic.evaluate fuel 0 col = some v ∧ c.makePeriodic.evaluate fuel (c.n : K) col = some v := by
    intro col
    have := C430_evaluate c.makePeriodic hv fuel hn 0 (by rw [hi]) (by rw [hi]; exact hpos) col
    exact ⟨_, this, by rw [← hcl col]; exact this⟩
  obtain ⟨x, x1, x2⟩ := ev 0
  obtain ⟨y, y1, y2⟩ := ev 1
  obtain ⟨z, z1, z2⟩ := ev 2
  have hcz : isClosed c.makePeriodic fuel tol = some true := by
    unfold isClosed
    rw [hi]
    simp only [x1, x2, y1, y2, z1, z2]
    simp [ht]
  refine ⟨by simp [makeOpen, hcz], by simp [Curve.makePeriodic, h]⟩

/-- **C431** refuted, open curves.  A curve that is open already loses its last `degree` control points. -/
theorem C431_open_refuted (c : Curve K) (hc : Valid c) (fuel : Nat) {tol : K} (hcl : isClosed c fuel tol = some false) :
    ∃ c', makeOpen c fuel tol = some c' ∧ c'.n + c.degree = c.n ∧ c'.P = c.P := by
  refine ⟨{ c with n := c.n - c.degree, m := c.n - c.degree + c.degree + 1, U := Nurbs.generateKnots (c.n - c.degree) c.degree,
                   periodic := false }, by simp [makeOpen, hcl], ?_, rfl⟩
  show c.n - c.degree + c.degree = c.n
  have := hc.npos
  omega

/-- The value of the rational spline in a column. -/
def ratVal (c : Curve K) (x : K) (col : Nat) : K := specVal c (fun l => c.P l 3 * c.P l col) x / specVal c (fun l => c.P l 3) x

/-- **C431** (the test of `make_open`).  `is_closed` always answers, and says yes exactly if all three coordinates of the rational spline at the
ends of the interval differ by at most the tolerance. -/
theorem C431_closed_iff (c : Curve K) (hc : Valid c) (fuel : Nat) (hf : c.n ≤ fuel) (tol : K) :
    ∃ b, isClosed c fuel tol = some b ∧
      (b = true ↔ ∀ col < 3, |ratVal c (interval c).2 col - ratVal c (interval c).1 col| ≤ tol) := by
  have hle : (interval c).1 ≤ (interval c).2 := by
    rw [interval_eq hc]
    exact hc.mono _ _ hc.npos.le (by rw [hc.knots]; omega)
  have e1 := fun col => C430_evaluate c hc fuel hf (interval c).1 le_rfl hle col
  have e2 := fun col => C430_evaluate c hc fuel hf (interval c).2 hle le_rfl col
  refine ⟨_, by unfold isClosed; simp only [e1, e2]; rfl, ?_⟩
  rw [decide_eq_true_iff]
  constructor
  · rintro ⟨h0, h1, h2⟩ col hcol
    have : col = 0 ∨ col = 1 ∨ col = 2 := by omega
    rcases this with rfl | rfl | rfl
    · exact h0
    · exact h1
    · exact h2
  · intro h
    exact ⟨h 0 (by omega), h 1 (by omega), h 2 (by omega)⟩

/-- **C431** refuted, open curves, in terms of the curve.  A curve whose ends differ by more than the tolerance in some coordinate loses its last
`degree` control points. -/
theorem C431_apart_refuted (c : Curve K) (hc : Valid c) (fuel : Nat) (hf : c.n ≤ fuel) (tol : K) (col : Nat) (hcol : col < 3)
    (hd : tol < |ratVal c (interval c).2 col - ratVal c (interval c).1 col|) :
    ∃ c', makeOpen c fuel tol = some c' ∧ c'.n + c.degree = c.n ∧ c'.P = c.P := by
  obtain ⟨b, hb, hiff⟩ := C431_closed_iff c hc fuel hf tol
  cases b with
  | true => exact absurd (hiff.1 rfl col hcol) (not_le.2 hd)
  | false => exact C431_open_refuted c hc fuel hb

/-- An open curve of degree two with six control points: four are left. -/
example : Valid Nurbs.exCurve ∧ isClosed Nurbs.exCurve 20 (1 / 1000) = some false ∧
    (makeOpen Nurbs.exCurve 20 (1 / 1000)).map (·.n) = some 4 := by
  refine ⟨Nurbs.exCurve_valid, by decide +kernel, by decide +kernel⟩

theorem deepcopy_eq (c : Curve K) : deepcopy c = { c with periodic := false } := by
  have : (deepcopy c).P = c.P := by
    funext i col
    by_cases h : col = 3 <;> simp [deepcopy, h]
  conv_rhs => rw [← this]
  rfl

/-- **C432** (part).  A copy has the values of the original between the ends of the interval. -/
theorem C432_partial (c : Curve K) (hc : Valid c) (fuel : Nat) (hf : c.n ≤ fuel) (x : K) (hl : (interval c).1 ≤ x) (hh : x ≤ (interval c).2)
    (col : Nat) : (deepcopy c).evaluate fuel x col = c.evaluate fuel x col ∧ interval (deepcopy c) = interval c := by
  rw [deepcopy_eq]
  refine ⟨?_, rfl⟩
  rw [interval_eq hc] at hl hh
  exact (evaluate_flag c hc false fuel hf x hl hh col).symm

/-- **C432** refuted.  A copy is never periodic, and beyond the interval a periodic curve and its copy have different values. -/
theorem C432_refuted : (∀ c : Curve K, (deepcopy c).periodic = false) ∧
    Nurbs.exPeriodic.periodic = true ∧ Nurbs.exPeriodic.evaluate 20 (9 / 2) 0 ≠ (deepcopy Nurbs.exPeriodic).evaluate 20 (9 / 2) 0 := by
  refine ⟨fun c => rfl, rfl, by decide +kernel⟩

/-- **C433** (part).  Setting as many control points as there are, with their weights, gives the curve with these points. -/
theorem C433_partial (c : Curve K) (hc : Valid c) (arr : Nat → Nat → K) (fuel : Nat) (hf : c.n ≤ fuel) (x : K) (hl : (interval c).1 ≤ x)
    (hh : x ≤ (interval c).2) (col : Nat) :
    (setControlPoints c c.n 4 arr).evaluate fuel x col = some (specVal c (fun l => arr l 3 * arr l col) x / specVal c (fun l => arr l 3) x) :=
  C430_evaluate (setControlPoints c c.n 4 arr) ⟨hc.npos, hc.knots, hc.mono, hc.last⟩ fuel hf x hl hh col

/-- **C433** refuted, weights.  Setting the control points a curve has (`c.control_points = c.control_points`) drops the weights: the curve
becomes the spline without weights. -/
theorem C433_weights_refuted (c : Curve K) (hc : Valid c) (fuel : Nat) (hf : c.n ≤ fuel) (x : K) (hl : (interval c).1 ≤ x)
    (hh : x ≤ (interval c).2) (col : Nat) (h3 : col < 3) :
    (setControlPoints c (getControlPoints c).1 (getControlPoints c).2.1 (getControlPoints c).2.2).evaluate fuel x col =
      some (specVal c (fun l => c.P l col) x / specVal c (fun _ => 1) x) := by
  have := C430_evaluate (setControlPoints c c.n 3 c.P) ⟨hc.npos, hc.knots, hc.mono, hc.last⟩ fuel hf x hl hh col
  show (setControlPoints c c.n 3 c.P).evaluate fuel x col = _
  rw [this]
  simp only [setControlPoints, h3]
  simp [specVal]

/-- The curve changes. -/
example : Nurbs.exCurve.evaluate 6 (1 / 2) 1 = some (11 / 3) ∧
    (setControlPoints Nurbs.exCurve Nurbs.exCurve.n 3 Nurbs.exCurve.P).evaluate 6 (1 / 2) 1 ≠ some (11 / 3) := by
  constructor <;> decide +kernel

/-- **C433** refuted, numbers.  The setter takes any number of control points and leaves the knots: if the number differs, the curve is not
valid any more, and from `degree + 1` points more than before on, the first knot that `find_span` reads, `U[n + 1]`, is not in the array. -/
theorem C433_number_refuted (c : Curve K) (hc : Valid c) (k cols : Nat) (arr : Nat → Nat → K) :
    (k ≠ c.n → ¬ Valid (setControlPoints c k cols arr)) ∧
      (c.n + c.degree + 1 ≤ k → ((setControlPoints c k cols arr).m ≤ (setControlPoints c k cols arr).n - 1 + 1)) := by
  have hk := hc.knots
  constructor
  · intro hne hv
    have : c.m = k + c.degree + 1 := hv.knots
    omega
  · intro h
    show c.m ≤ k - 1 + 1
    omega

/-! ## The normal -/

/-- The Euclidean norm. -/
def IsNorm (nrm : K → K → K → K) : Prop := ∀ x y z, 0 ≤ nrm x y z ∧ nrm x y z * nrm x y z = x * x + y * y + z * z

theorem divRow_1 (mem : Nat → K) (x : K) (i : Nat) : divRow mem 1 x i = if i = 3 ∨ i = 4 ∨ i = 5 then mem i / x else mem i := by
  simp only [divRow, put]
  by_cases h5 : i = 5
  · subst h5; simp
  by_cases h4 : i = 4
  · subst h4; simp
  by_cases h3 : i = 3
  · subst h3; simp
  simp [h3, h4, h5]

theorem divRow_2 (mem : Nat → K) (x : K) (i : Nat) : divRow mem 2 x i = if i = 6 ∨ i = 7 ∨ i = 8 then mem i / x else mem i := by
  simp only [divRow, put]
  by_cases h5 : i = 8
  · subst h5; simp
  by_cases h4 : i = 7
  · subst h4; simp
  by_cases h3 : i = 6
  · subst h3; simp
  simp [h3, h4, h5]

theorem gs_eq (mem : Nat → K) (i : Nat) : gramSchmidt mem i =
    if i = 6 ∨ i = 7 ∨ i = 8 then mem i - mem (i - 3) * (mem 6 * mem 3 + mem 7 * mem 4 + mem 8 * mem 5) else mem i := by
  simp only [gramSchmidt, put]
  by_cases h5 : i = 8
  · subst h5; simp
  by_cases h4 : i = 7
  · subst h4; simp
  by_cases h3 : i = 6
  · subst h3; simp
  simp [h3, h4, h5]

/-- The cells after `cplane` on zeros: `d` is the derivative, `s` the second one, `t` the unit tangent. -/
theorem cnormal_cells (nrm : K → K → K → K) (ders : Nat → Nat → K) (heap : Nat → K) :
    ∃ t1 t2 t3 q n1 n2 n3 : K, q = nrm (ders 1 0) (ders 1 1) (ders 1 2) ∧ t1 = ders 1 0 / q ∧ t2 = ders 1 1 / q ∧ t3 = ders 1 2 / q ∧
      n1 = ders 2 0 - t1 * (ders 2 0 * t1 + ders 2 1 * t2 + ders 2 2 * t3) ∧
      n2 = ders 2 1 - t2 * (ders 2 0 * t1 + ders 2 1 * t2 + ders 2 2 * t3) ∧
      n3 = ders 2 2 - t3 * (ders 2 0 * t1 + ders 2 1 * t2 + ders 2 2 * t3) ∧
      (cnormal nrm ders heap).1 = (n1 / nrm n1 n2 n3, n2 / nrm n1 n2 n3, n3 / nrm n1 n2 n3) ∧
      (cnormal nrm ders heap).2 9 = t2 * (n3 / nrm n1 n2 n3) - t3 * (n2 / nrm n1 n2 n3) ∧
      (cnormal nrm ders heap).2 10 = t3 * (n1 / nrm n1 n2 n3) - t1 * (n3 / nrm n1 n2 n3) ∧
      (cnormal nrm ders heap).2 11 = t1 * (n2 / nrm n1 n2 n3) - t2 * (n1 / nrm n1 n2 n3) ∧
      ∀ i, 12 ≤ i → (cnormal nrm ders heap).2 i = heap i := by
  refine ⟨_, _, _, _, _, _, _, rfl, rfl, rfl, rfl, rfl, rfl, rfl, ?_, ?_, ?_, ?_, ?_⟩
  · simp [cnormal, cplane, put, divRow_1, divRow_2, gs_eq, addDers, rowNorm]
  · simp [cnormal, cplane, put, divRow_1, divRow_2, gs_eq, addDers, rowNorm]
  · simp [cnormal, cplane, put, divRow_1, divRow_2, gs_eq, addDers, rowNorm]
  · simp [cnormal, cplane, put, divRow_1, divRow_2, gs_eq, addDers, rowNorm]
  · intro i hi
    have h : ∀ k, k < 12 → i ≠ k := fun k hk => by omega
    simp [cnormal, cplane, put, divRow_1, divRow_2, gs_eq, addDers, rowNorm, h, show ¬ i < 9 by omega]

/-- **C434** (part).  If the derivative and the part of the second derivative at a right angle to it are not zero, the normal that is returned
has length one and is at a right angle to the derivative. -/
theorem C434_partial {nrm : K → K → K → K} (hn : IsNorm nrm) (ders : Nat → Nat → K) (heap : Nat → K)
    (h1 : ¬ (ders 1 0 = 0 ∧ ders 1 1 = 0 ∧ ders 1 2 = 0))
    (h2 : ¬ ∃ k, ders 2 0 = k * ders 1 0 ∧ ders 2 1 = k * ders 1 1 ∧ ders 2 2 = k * ders 1 2) :
    ∃ x y z, (cnormal nrm ders heap).1 = (x, y, z) ∧ x * x + y * y + z * z = 1 ∧ x * ders 1 0 + y * ders 1 1 + z * ders 1 2 = 0 ∧
      (cnormal nrm ders heap).2 9 * (cnormal nrm ders heap).2 9 + (cnormal nrm ders heap).2 10 * (cnormal nrm ders heap).2 10 +
        (cnormal nrm ders heap).2 11 * (cnormal nrm ders heap).2 11 = 1 := by
  obtain ⟨t1, t2, t3, q, n1, n2, n3, eq, e1, e2, e3, f1, f2, f3, hr, g1, g2, g3, -⟩ := cnormal_cells nrm ders heap
  obtain ⟨q0, q1⟩ := hn (ders 1 0) (ders 1 1) (ders 1 2)
  obtain ⟨w0, w1⟩ := hn n1 n2 n3
  generalize hw : nrm n1 n2 n3 = w at *
  rw [← eq] at q0 q1
  have hq : q ≠ 0 := by
    intro h0
    rw [h0, mul_zero] at q1
    have a := mul_self_nonneg (ders 1 0)
    have b := mul_self_nonneg (ders 1 1)
    have c := mul_self_nonneg (ders 1 2)
    exact h1 ⟨mul_self_eq_zero.1 (by linarith), mul_self_eq_zero.1 (by linarith), mul_self_eq_zero.1 (by linarith)⟩
  have hwne : w ≠ 0 := by
    intro h0
    rw [h0, mul_zero] at w1
    have a := mul_self_nonneg n1
    have b := mul_self_nonneg n2
    have c := mul_self_nonneg n3
    have z1 : n1 = 0 := mul_self_eq_zero.1 (by linarith)
    have z2 : n2 = 0 := mul_self_eq_zero.1 (by linarith)
    have z3 : n3 = 0 := mul_self_eq_zero.1 (by linarith)
    apply h2
    refine ⟨(ders 2 0 * t1 + ders 2 1 * t2 + ders 2 2 * t3) / q, ?_, ?_, ?_⟩
    · rw [z1] at f1; rw [div_mul_eq_mul_div, mul_div_assoc, ← e1]; linear_combination -f1
    · rw [z2] at f2; rw [div_mul_eq_mul_div, mul_div_assoc, ← e2]; linear_combination -f2
    · rw [z3] at f3; rw [div_mul_eq_mul_div, mul_div_assoc, ← e3]; linear_combination -f3
  have tt : t1 * t1 + t2 * t2 + t3 * t3 = 1 := by
    rw [e1, e2, e3]; field_simp; linear_combination -q1
  have tn : n1 * t1 + n2 * t2 + n3 * t3 = 0 := by
    rw [f1, f2, f3]; linear_combination -(ders 2 0 * t1 + ders 2 1 * t2 + ders 2 2 * t3) * tt
  have d1 : ders 1 0 = t1 * q := by rw [e1]; field_simp
  have d2 : ders 1 1 = t2 * q := by rw [e2]; field_simp
  have d3 : ders 1 2 = t3 * q := by rw [e3]; field_simp
  have nn : n1 / w * (n1 / w) + n2 / w * (n2 / w) + n3 / w * (n3 / w) = 1 := by
    field_simp; linear_combination -w1
  have tn' : n1 / w * t1 + n2 / w * t2 + n3 / w * t3 = 0 := by
    field_simp; linear_combination tn
  refine ⟨_, _, _, hr, nn, ?_, ?_⟩
  · rw [d1, d2, d3]; linear_combination q * tn'
  · rw [g1, g2, g3]
    generalize n1 / w = x at *
    generalize n2 / w = y at *
    generalize n3 / w = z at *
    -- the identity of Lagrange
    linear_combination (x * x + y * y + z * z) * tt + nn - (x * t1 + y * t2 + z * t3) * tn'

/-- **C434** refuted.  `normal(t)` of a curve writes behind its array of nine numbers: where the normal exists, the three cells behind the array
do not keep what was there.  Whatever they hold, there is another content of them that is changed; zeros always are. -/
theorem C434_refuted {nrm : K → K → K → K} (hn : IsNorm nrm) (ders : Nat → Nat → K) (heap : Nat → K)
    (h1 : ¬ (ders 1 0 = 0 ∧ ders 1 1 = 0 ∧ ders 1 2 = 0))
    (h2 : ¬ ∃ k, ders 2 0 = k * ders 1 0 ∧ ders 2 1 = k * ders 1 1 ∧ ders 2 2 = k * ders 1 2) :
    (heap 9 * heap 9 + heap 10 * heap 10 + heap 11 * heap 11 ≠ 1 → ∃ i, 9 ≤ i ∧ i < 12 ∧ (cnormal nrm ders heap).2 i ≠ heap i) ∧
      ∀ heap', ∀ i, 9 ≤ i → i < 12 → (cnormal nrm ders heap').2 i = (cnormal nrm ders heap).2 i := by
  constructor
  · intro hne
    obtain ⟨x, y, z, -, -, -, e⟩ := C434_partial hn ders heap h1 h2
    by_contra hcon
    push Not at hcon
    rw [hcon 9 (by omega) (by omega), hcon 10 (by omega) (by omega), hcon 11 (by omega) (by omega)] at e
    exact hne e
  · intro heap' i hi hi'
    have : i = 9 ∨ i = 10 ∨ i = 11 := by omega
    rcases this with rfl | rfl | rfl <;> simp [cnormal, cplane, put, divRow_1, divRow_2, gs_eq, addDers, rowNorm]

/-- A curve with the derivative `(2, 0, 0)` and the second derivative `(1, 3, 0)`: the normal is `(0, 1, 0)`; the cells behind the array were
`7, 7, 7` and are `0, 0, 1`. -/
example : let nrm : ℚ → ℚ → ℚ → ℚ := fun x y z => |x| + |y| + |z|
    (cnormal nrm (fun k l => if k = 1 then (if l = 0 then 2 else 0) else if k = 2 then (if l = 0 then 1 else if l = 1 then 3 else 0) else 0)
      (fun _ => 7)).1 = (0, 1, 0) ∧
    (cnormal nrm (fun k l => if k = 1 then (if l = 0 then 2 else 0) else if k = 2 then (if l = 0 then 1 else if l = 1 then 3 else 0) else 0)
      (fun _ => 7)).2 11 = 1 := by
  decide +kernel

end Verif.Nsp
