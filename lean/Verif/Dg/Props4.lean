import Verif.Dg.Solve
import Verif.Dg.Props
import Mathlib.Tactic.LinearCombination
import Mathlib.Tactic.IntervalCases

set_option linter.unusedSectionVars false

/-!
# `solve3x2`, the curvature of a section, the normal at a singular point: theorems
-/

namespace Verif.Dg

open Verif.Prim

/-- What is left of the right-hand side. -/
def residual (c0 c1 d : P) (x y : ℝ) : P := sub d (add (smul x c0) (smul y c1))

/-- A vector with one entry `e`, the others being zero, in a place where `n` is not zero. -/
def OneEntry (n v : P) (e : ℝ) : Prop :=
  (v = ⟨e, 0, 0⟩ ∧ n.x ≠ 0) ∨ (v = ⟨0, e, 0⟩ ∧ n.y ≠ 0) ∨ (v = ⟨0, 0, e⟩ ∧ n.z ≠ 0)

theorem ite_elim (c a b : ℝ) : (open Classical in if c ≠ 0 then a + -c * b else a) = a - c * b := by
  split_ifs with h
  · ring
  · rw [not_not.mp h]
    ring

/-- The parts of the elimination without the tests for zero. -/
theorem eliminate_spec (c0 c1 d : P) (piv : ℝ) (h : c0.x ≠ 0) (hp : 0 < piv) :
    let s := eliminate c0 c1 d piv
    s.col0 = c0 ∧ s.col1 = ⟨c1.x / c0.x, c1.y - c0.y * (c1.x / c0.x), c1.z - c0.z * (c1.x / c0.x)⟩ ∧
    (cross c0 c1 = ⟨0, 0, 0⟩ → s.code = 1) ∧
    (cross c0 c1 ≠ ⟨0, 0, 0⟩ → s.code = 2 ∧ 0 < s.ratio ∧ s.ratio ≤ 1 ∧
      ∃ e, s.err = some e ∧ OneEntry (cross c0 c1) (residual c0 c1 d s.x s.y) e) := by
  unfold eliminate
  dsimp only
  simp only [ite_elim]
  have ey : c1.y - c0.y * (c1.x / c0.x) = (cross c0 c1).z / c0.x := by
    unfold cross
    field_simp
  have ez : c1.z - c0.z * (c1.x / c0.x) = -(cross c0 c1).y / c0.x := by
    unfold cross
    field_simp
    ring
  have rat : ∀ t : ℝ, 0 < t → 0 < min piv t / max piv t ∧ min piv t / max piv t ≤ 1 := by
    intro t ht
    have h1 : 0 < max piv t := lt_of_lt_of_le hp (le_max_left _ _)
    exact ⟨div_pos (lt_min hp ht) h1, (div_le_one h1).mpr (min_le_max)⟩
  have hzero : c1.y - c0.y * (c1.x / c0.x) = 0 → c1.z - c0.z * (c1.x / c0.x) = 0 → cross c0 c1 = ⟨0, 0, 0⟩ := by
    intro h1 h2
    rw [ey, div_eq_zero_iff] at h1
    rw [ez, div_eq_zero_iff] at h2
    have h1' : (cross c0 c1).z = 0 := h1.resolve_right h
    have h2' : (cross c0 c1).y = 0 := by
      have := h2.resolve_right h
      linarith
    have h3 : c0.x * (cross c0 c1).x + c0.y * (cross c0 c1).y + c0.z * (cross c0 c1).z = 0 := by
      unfold cross
      ring
    rw [h1', h2', mul_zero, mul_zero, add_zero, add_zero] at h3
    ext
    · exact (mul_eq_zero.mp h3).resolve_left h
    · exact h2'
    · exact h1'
  have hback : cross c0 c1 = ⟨0, 0, 0⟩ →
      c1.y - c0.y * (c1.x / c0.x) = 0 ∧ c1.z - c0.z * (c1.x / c0.x) = 0 := by
    intro hc
    rw [ey, ez, hc]
    norm_num
  by_cases hlt : |c1.z - c0.z * (c1.x / c0.x)| < |c1.y - c0.y * (c1.x / c0.x)|
  · rw [if_pos hlt]
    dsimp only
    have hne : c1.y - c0.y * (c1.x / c0.x) ≠ 0 := by
      intro h0
      rw [h0, abs_zero] at hlt
      exact absurd hlt (not_lt.mpr (abs_nonneg _))
    refine ⟨rfl, rfl, fun hc => absurd (hback hc).1 hne, fun _ => ⟨rfl, (rat _ (abs_pos.mpr hne)).1,
      (rat _ (abs_pos.mpr hne)).2, _, rfl, Or.inr (Or.inr ⟨?_, ?_⟩)⟩⟩
    swap
    · intro h0
      apply hne
      rw [ey, h0, zero_div]
    unfold residual sub add smul
    generalize hw : c1.y - c0.y * (c1.x / c0.x) = w at hne
    have hy : (d.y - c0.y * (d.x / c0.x)) / w * w = d.y - c0.y * (d.x / c0.x) := div_mul_cancel₀ _ hne
    generalize (d.y - c0.y * (d.x / c0.x)) / w = y at hy
    have h1 : c1.x / c0.x * c0.x = c1.x := div_mul_cancel₀ _ h
    have h2 : d.x / c0.x * c0.x = d.x := div_mul_cancel₀ _ h
    generalize c1.x / c0.x = e at *
    generalize d.x / c0.x = g at *
    ext <;> dsimp only
    · linear_combination -h2 + y * h1
    · linear_combination -hy - y * hw
    · ring
  · rw [if_neg hlt]
    by_cases hz : c1.z - c0.z * (c1.x / c0.x) = 0
    · rw [if_pos hz]
      dsimp only
      have hy0 : c1.y - c0.y * (c1.x / c0.x) = 0 := by
        rw [hz, abs_zero] at hlt
        exact abs_eq_zero.mp (le_antisymm (not_lt.mp hlt) (abs_nonneg _))
      exact ⟨rfl, rfl, fun _ => rfl, fun hc => absurd (hzero hy0 hz) hc⟩
    · rw [if_neg hz]
      dsimp only
      refine ⟨rfl, rfl, fun hc => absurd (hback hc).2 hz, fun _ => ⟨rfl, (rat _ (abs_pos.mpr hz)).1,
        (rat _ (abs_pos.mpr hz)).2, _, rfl, Or.inr (Or.inl ⟨?_, ?_⟩)⟩⟩
      swap
      · intro h0
        apply hz
        rw [ez, h0, neg_zero, zero_div]
      unfold residual sub add smul
      generalize hw : c1.z - c0.z * (c1.x / c0.x) = w at hz
      have hy : (d.z - c0.z * (d.x / c0.x)) / w * w = d.z - c0.z * (d.x / c0.x) := div_mul_cancel₀ _ hz
      generalize (d.z - c0.z * (d.x / c0.x)) / w = y at hy
      have h1 : c1.x / c0.x * c0.x = c1.x := div_mul_cancel₀ _ h
      have h2 : d.x / c0.x * c0.x = d.x := div_mul_cancel₀ _ h
      generalize c1.x / c0.x = e at *
      generalize d.x / c0.x = g at *
      ext <;> dsimp only
      · linear_combination -h2 + y * h1
      · ring
      · linear_combination -hy - y * hw

theorem argmax_spec : ∀ l : List ℝ, l ≠ [] → argmax l < l.length ∧ ∀ y ∈ l, y ≤ l.getD (argmax l) 0 := by
  intro l
  induction l with
  | nil => intro h; exact absurd rfl h
  | cons x xs ih =>
    intro _
    rw [argmax]
    by_cases h : ∀ y ∈ xs, y ≤ x
    · rw [if_pos h]
      refine ⟨by simp, ?_⟩
      intro y hy
      rcases List.mem_cons.mp hy with rfl | hy
      · simp
      · simpa using h y hy
    · rw [if_neg h]
      have hne : xs ≠ [] := by
        rintro rfl
        exact h (by simp)
      obtain ⟨h1, h2⟩ := ih hne
      refine ⟨by simpa using h1, ?_⟩
      intro y hy
      rw [List.getD_cons_succ]
      rcases List.mem_cons.mp hy with rfl | hy
      · push Not at h
        obtain ⟨z, hz, hlt⟩ := h
        exact hlt.le.trans (h2 z hz)
      · exact h2 y hy

/-- Earlier places hold smaller values. -/
theorem argmax_first : ∀ (l : List ℝ) (j : ℕ), j < argmax l → l.getD j 0 < l.getD (argmax l) 0 := by
  intro l
  induction l with
  | nil => intro j h; rw [argmax] at h; omega
  | cons x xs ih =>
    intro j hj
    rw [argmax] at hj ⊢
    by_cases h : ∀ y ∈ xs, y ≤ x
    · rw [if_pos h] at hj
      omega
    · rw [if_neg h] at hj ⊢
      rw [List.getD_cons_succ]
      rcases j with _ | j
      · push Not at h
        obtain ⟨z, hz, hlt⟩ := h
        have hne : xs ≠ [] := by rintro rfl; simp at hz
        exact lt_of_lt_of_le hlt ((argmax_spec xs hne).2 z hz)
      · rw [List.getD_cons_succ]
        exact ih j (by omega)

theorem swapRow_x (i : ℕ) (c : P) : (swapRow i c).x = ent c i := by
  match i with
  | 0 => rfl
  | 1 => rfl
  | _ + 2 => rfl

theorem swapRow_residual (i : ℕ) (c0 c1 d : P) (x y : ℝ) :
    residual (swapRow i c0) (swapRow i c1) (swapRow i d) x y = swapRow i (residual c0 c1 d x y) := by
  match i with
  | 0 => rfl
  | 1 => rfl
  | _ + 2 => rfl

theorem swapRow_one (i : ℕ) (n v : P) (e : ℝ) (h : OneEntry (swapRow i n) (swapRow i v) e) : OneEntry n v e := by
  obtain ⟨a, b, c⟩ := v
  match i with
  | 0 => exact h
  | 1 =>
    rcases h with ⟨h, g⟩ | ⟨h, g⟩ | ⟨h, g⟩
    · exact Or.inr (Or.inl ⟨by injection h with h1 h2 h3; subst h1 h2 h3; rfl, g⟩)
    · exact Or.inl ⟨by injection h with h1 h2 h3; subst h1 h2 h3; rfl, g⟩
    · exact Or.inr (Or.inr ⟨by injection h with h1 h2 h3; subst h1 h2 h3; rfl, g⟩)
  | _ + 2 =>
    rcases h with ⟨h, g⟩ | ⟨h, g⟩ | ⟨h, g⟩
    · exact Or.inr (Or.inr ⟨by injection h with h1 h2 h3; subst h1 h2 h3; rfl, g⟩)
    · exact Or.inr (Or.inl ⟨by injection h with h1 h2 h3; subst h1 h2 h3; rfl, g⟩)
    · exact Or.inl ⟨by injection h with h1 h2 h3; subst h1 h2 h3; rfl, g⟩

theorem one_neg (n v : P) (e : ℝ) (h : OneEntry (smul (-1) n) v e) : OneEntry n v e := by
  rcases h with ⟨h, g⟩ | ⟨h, g⟩ | ⟨h, g⟩
  · exact Or.inl ⟨h, fun hc => g (by show -1 * n.x = 0; rw [hc, mul_zero])⟩
  · exact Or.inr (Or.inl ⟨h, fun hc => g (by show -1 * n.y = 0; rw [hc, mul_zero])⟩)
  · exact Or.inr (Or.inr ⟨h, fun hc => g (by show -1 * n.z = 0; rw [hc, mul_zero])⟩)

theorem cross_rows (i : ℕ) (a b : P) (hi : i ≠ 0) :
    cross (swapRow i a) (swapRow i b) = smul (-1) (swapRow i (cross a b)) := by
  match i with
  | 0 => exact absurd rfl hi
  | 1 =>
    show cross ⟨a.y, a.x, a.z⟩ ⟨b.y, b.x, b.z⟩ = smul (-1) ⟨(cross a b).y, (cross a b).x, (cross a b).z⟩
    unfold cross smul
    ext <;> dsimp only <;> ring
  | _ + 2 =>
    show cross ⟨a.z, a.y, a.x⟩ ⟨b.z, b.y, b.x⟩ = smul (-1) ⟨(cross a b).z, (cross a b).y, (cross a b).x⟩
    unfold cross smul
    ext <;> dsimp only <;> ring

theorem rows_one (i : ℕ) (a b v : P) (e : ℝ)
    (h : OneEntry (cross (swapRow i a) (swapRow i b)) (swapRow i v) e) : OneEntry (cross a b) v e := by
  by_cases hi : i = 0
  · subst hi
    exact h
  · rw [cross_rows i a b hi] at h
    exact swapRow_one i _ _ _ (one_neg _ _ _ h)

theorem anti_one (a b v : P) (e : ℝ) (h : OneEntry (cross b a) v e) : OneEntry (cross a b) v e := by
  apply one_neg
  have : smul (-1) (cross a b) = cross b a := by
    unfold smul cross
    ext <;> dsimp only <;> ring
  rw [this]
  exact h

theorem cross_swap (i : ℕ) (a b : P) : cross (swapRow i a) (swapRow i b) = ⟨0, 0, 0⟩ ↔ cross a b = ⟨0, 0, 0⟩ := by
  by_cases hi : i = 0
  · subst hi
    exact Iff.rfl
  · rw [cross_rows i a b hi]
    generalize cross a b = n
    obtain ⟨u, v, w⟩ := n
    have key : ∀ u v w : ℝ, smul (-1) ⟨u, v, w⟩ = ⟨0, 0, 0⟩ ↔ u = 0 ∧ v = 0 ∧ w = 0 := by
      intro u v w
      unfold smul
      simp
    have key2 : (⟨u, v, w⟩ : P) = ⟨0, 0, 0⟩ ↔ u = 0 ∧ v = 0 ∧ w = 0 := by simp
    rw [key2]
    match i with
    | 0 => exact absurd rfl hi
    | 1 =>
      show smul (-1) ⟨v, u, w⟩ = _ ↔ _
      rw [key]
      tauto
    | _ + 2 =>
      show smul (-1) ⟨w, v, u⟩ = _ ↔ _
      rw [key]
      tauto

theorem cross_anti (a b : P) : cross b a = ⟨0, 0, 0⟩ ↔ cross a b = ⟨0, 0, 0⟩ := by
  have key : ∀ a b : P, cross a b = ⟨0, 0, 0⟩ → cross b a = ⟨0, 0, 0⟩ := by
    intro a b h
    unfold cross at h ⊢
    injection h with h1 h2 h3
    ext <;> dsimp only <;> linarith
  exact ⟨key b a, key a b⟩

theorem residual_comm (a b d : P) (x y : ℝ) : residual b a d y x = residual a b d x y := by
  unfold residual sub add smul
  ext <;> dsimp only <;> ring

/-- What the list version does, by the place of the largest entry. -/
theorem lists_spec (c0 c1 d : P) :
    let s := solveLists c0 c1 d
    let i := argmax (entries c0 ++ entries c1)
    ((c0 = ⟨0, 0, 0⟩ ∧ c1 = ⟨0, 0, 0⟩) ∧ s.code = 0 ∧ s.err = none) ∨
    (¬ (c0 = ⟨0, 0, 0⟩ ∧ c1 = ⟨0, 0, 0⟩) ∧ cross c0 c1 = ⟨0, 0, 0⟩ ∧ s.code = 1) ∨
    (cross c0 c1 ≠ ⟨0, 0, 0⟩ ∧ s.code = 2 ∧ 0 < s.ratio ∧ s.ratio ≤ 1 ∧
      ∃ e, s.err = some e ∧ (i < 3 → OneEntry (cross c0 c1) (residual c0 c1 d s.x s.y) e) ∧
        (3 ≤ i → OneEntry (cross c0 c1) (residual c0 c1 d s.y s.x) e)) := by
  intro s i
  have hall : entries c0 ++ entries c1 = [|c0.x|, |c0.y|, |c0.z|, |c1.x|, |c1.y|, |c1.z|] := rfl
  obtain ⟨hi, hmax⟩ := argmax_spec (entries c0 ++ entries c1) (by rw [hall]; simp)
  have hi6 : i < 6 := hi
  by_cases hp : (entries c0 ++ entries c1).getD i 0 = 0
  · left
    have hs : s = ⟨0, 0, 0, none, 0, c0, c1⟩ := by
      show solveLists c0 c1 d = _
      unfold solveLists
      dsimp only
      exact if_pos hp
    have hz : ∀ v ∈ entries c0 ++ entries c1, v ≤ 0 := fun v hv => hp ▸ hmax v hv
    have ab : ∀ v : ℝ, |v| ∈ entries c0 ++ entries c1 → v = 0 := fun v hv =>
      abs_eq_zero.mp (le_antisymm (hz _ hv) (abs_nonneg v))
    refine ⟨⟨?_, ?_⟩, by rw [hs], by rw [hs]⟩
    · ext
      · exact ab _ (by rw [hall]; simp)
      · exact ab _ (by rw [hall]; simp)
      · exact ab _ (by rw [hall]; simp)
    · ext
      · exact ab _ (by rw [hall]; simp)
      · exact ab _ (by rw [hall]; simp)
      · exact ab _ (by rw [hall]; simp)
  · right
    have hpos : 0 < (entries c0 ++ entries c1).getD i 0 := by
      refine lt_of_le_of_ne ?_ (Ne.symm hp)
      refine (abs_nonneg c0.x).trans (hmax _ ?_)
      rw [hall]
      simp
    have hnz : ¬ (c0 = ⟨0, 0, 0⟩ ∧ c1 = ⟨0, 0, 0⟩) := by
      rintro ⟨rfl, rfl⟩
      apply hp
      rw [hall]
      interval_cases i <;> simp
    by_cases h3 : 3 ≤ i
    · have hs : s = { eliminate (swapRow (i % 3) c1) (swapRow (i % 3) c0) (swapRow (i % 3) d)
          ((entries c0 ++ entries c1).getD i 0) with
          col0 := (eliminate (swapRow (i % 3) c1) (swapRow (i % 3) c0) (swapRow (i % 3) d)
            ((entries c0 ++ entries c1).getD i 0)).col1,
          col1 := (eliminate (swapRow (i % 3) c1) (swapRow (i % 3) c0) (swapRow (i % 3) d)
            ((entries c0 ++ entries c1).getD i 0)).col0 } := by
        show solveLists c0 c1 d = _
        unfold solveLists
        dsimp only
        rw [if_neg hp, if_pos h3, if_pos h3, if_pos h3]
      have hx : (swapRow (i % 3) c1).x ≠ 0 := by
        rw [swapRow_x]
        rw [hall] at hp
        intro hc
        apply hp
        interval_cases i
        · exact abs_eq_zero.mpr hc
        · exact abs_eq_zero.mpr hc
        · exact abs_eq_zero.mpr hc
      obtain ⟨-, -, e1, e2⟩ := eliminate_spec (swapRow (i % 3) c1) (swapRow (i % 3) c0) (swapRow (i % 3) d) _ hx hpos
      by_cases hc : cross c0 c1 = ⟨0, 0, 0⟩
      · left
        refine ⟨hnz, hc, ?_⟩
        rw [hs]
        exact e1 ((cross_swap _ _ _).mpr ((cross_anti _ _).mpr hc))
      · right
        obtain ⟨f1, f2, f3, e, f4, f5⟩ := e2 (fun hh => hc ((cross_anti _ _).mp ((cross_swap _ _ _).mp hh)))
        refine ⟨hc, ?_, ?_, ?_, e, ?_, fun h => absurd h3 (not_le.mpr h), fun _ => ?_⟩
        · rw [hs]; exact f1
        · rw [hs]; exact f2
        · rw [hs]; exact f3
        · rw [hs]; exact f4
        · rw [swapRow_residual] at f5
          rw [residual_comm, hs]
          exact anti_one _ _ _ _ (rows_one _ _ _ _ _ f5)
    · have hs : s = eliminate (swapRow (i % 3) c0) (swapRow (i % 3) c1) (swapRow (i % 3) d)
          ((entries c0 ++ entries c1).getD i 0) := by
        show solveLists c0 c1 d = _
        unfold solveLists
        dsimp only
        rw [if_neg hp, if_neg h3, if_neg h3, if_neg h3]
      have hx : (swapRow (i % 3) c0).x ≠ 0 := by
        rw [swapRow_x]
        rw [hall] at hp
        intro hc
        apply hp
        have h3' : i < 3 := not_le.mp h3
        interval_cases i
        · exact abs_eq_zero.mpr hc
        · exact abs_eq_zero.mpr hc
        · exact abs_eq_zero.mpr hc
      obtain ⟨-, -, e1, e2⟩ := eliminate_spec (swapRow (i % 3) c0) (swapRow (i % 3) c1) (swapRow (i % 3) d) _ hx hpos
      by_cases hc : cross c0 c1 = ⟨0, 0, 0⟩
      · left
        refine ⟨hnz, hc, ?_⟩
        rw [hs]
        exact e1 ((cross_swap _ _ _).mpr hc)
      · right
        obtain ⟨f1, f2, f3, e, f4, f5⟩ := e2 (fun hh => hc ((cross_swap _ _ _).mp hh))
        refine ⟨hc, ?_, ?_, ?_, e, ?_, fun _ => ?_, fun h => absurd h h3⟩
        · rw [hs]; exact f1
        · rw [hs]; exact f2
        · rw [hs]; exact f3
        · rw [hs]; exact f4
        · rw [swapRow_residual] at f5
          rw [hs]
          exact rows_one _ _ _ _ _ f5

/-- C187.  The return code is the rank of the two columns, and with rank two the pivot ratio is in `(0, 1]`. -/
theorem C187_rank (c0 c1 d : P) :
    ((solveLists c0 c1 d).code = 0 ↔ c0 = ⟨0, 0, 0⟩ ∧ c1 = ⟨0, 0, 0⟩) ∧
    ((solveLists c0 c1 d).code = 2 ↔ cross c0 c1 ≠ ⟨0, 0, 0⟩) ∧
    ((solveLists c0 c1 d).code = 1 ↔ cross c0 c1 = ⟨0, 0, 0⟩ ∧ ¬ (c0 = ⟨0, 0, 0⟩ ∧ c1 = ⟨0, 0, 0⟩)) ∧
    ((solveLists c0 c1 d).code = 2 → 0 < (solveLists c0 c1 d).ratio ∧ (solveLists c0 c1 d).ratio ≤ 1) := by
  rcases lists_spec c0 c1 d with ⟨h1, h2, -⟩ | ⟨h1, h2, h3⟩ | ⟨h1, h2, h3, h4, -⟩
  · have hc : cross c0 c1 = ⟨0, 0, 0⟩ := by
      rw [h1.1]
      unfold cross
      ext <;> dsimp only <;> ring
    rw [h2]
    refine ⟨⟨fun _ => h1, fun _ => rfl⟩, ⟨by simp, fun h => absurd hc h⟩, ⟨by simp, fun h => absurd h1 h.2⟩, by simp⟩
  · rw [h3]
    simp [h1, h2]
  · have h0 : ¬ (c0 = ⟨0, 0, 0⟩ ∧ c1 = ⟨0, 0, 0⟩) := by
      rintro ⟨rfl, rfl⟩
      apply h1
      unfold cross
      ext <;> dsimp only <;> ring
    rw [h2]
    refine ⟨⟨by simp, fun h => absurd h h0⟩, ⟨fun _ => h1, fun _ => rfl⟩, ⟨by simp, fun h => absurd h.1 h1⟩, fun _ => ⟨h3, h4⟩⟩

theorem one_dot (n v : P) (e : ℝ) (h : OneEntry n v e) (h0 : dot n v = 0) : e = 0 := by
  unfold dot at h0
  rcases h with ⟨h, g⟩ | ⟨h, g⟩ | ⟨h, g⟩ <;> rw [h] at h0 <;> dsimp only at h0 <;> simp at h0 <;>
    exact h0.resolve_left g

theorem unique2 (c0 c1 : P) (h : cross c0 c1 ≠ ⟨0, 0, 0⟩) (s t : ℝ)
    (hz : add (smul s c0) (smul t c1) = ⟨0, 0, 0⟩) : s = 0 ∧ t = 0 := by
  unfold add smul at hz
  injection hz with e1 e2 e3
  constructor
  · by_contra hs
    apply h
    unfold cross
    ext <;> dsimp only
    · exact (mul_eq_zero.mp (show s * (c0.y * c1.z - c0.z * c1.y) = 0 by linear_combination c1.z * e2 - c1.y * e3)).resolve_left hs
    · exact (mul_eq_zero.mp (show s * (c0.z * c1.x - c0.x * c1.z) = 0 by linear_combination c1.x * e3 - c1.z * e1)).resolve_left hs
    · exact (mul_eq_zero.mp (show s * (c0.x * c1.y - c0.y * c1.x) = 0 by linear_combination c1.y * e1 - c1.x * e2)).resolve_left hs
  · by_contra ht
    apply h
    unfold cross
    ext <;> dsimp only
    · exact (mul_eq_zero.mp (show t * (c0.y * c1.z - c0.z * c1.y) = 0 by linear_combination c0.y * e3 - c0.z * e2)).resolve_left ht
    · exact (mul_eq_zero.mp (show t * (c0.z * c1.x - c0.x * c1.z) = 0 by linear_combination c0.z * e1 - c0.x * e3)).resolve_left ht
    · exact (mul_eq_zero.mp (show t * (c0.x * c1.y - c0.y * c1.x) = 0 by linear_combination c0.x * e2 - c0.y * e1)).resolve_left ht

theorem one_span (c0 c1 : P) (a b x y e : ℝ) (h : cross c0 c1 ≠ ⟨0, 0, 0⟩)
    (h1 : OneEntry (cross c0 c1) (residual c0 c1 (add (smul a c0) (smul b c1)) x y) e) : e = 0 ∧ x = a ∧ y = b := by
  have hr : residual c0 c1 (add (smul a c0) (smul b c1)) x y = add (smul (a - x) c0) (smul (b - y) c1) := by
    unfold residual sub add smul
    ext <;> dsimp only <;> ring
  have he : e = 0 := by
    refine one_dot _ _ e h1 ?_
    rw [hr]
    unfold dot cross add smul
    ring
  subst he
  have hz : residual c0 c1 (add (smul a c0) (smul b c1)) x y = ⟨0, 0, 0⟩ := by
    rcases h1 with h1 | h1 | h1 <;> exact h1.1
  rw [hr] at hz
  obtain ⟨g1, g2⟩ := unique2 c0 c1 h _ _ hz
  exact ⟨rfl, by linarith, by linarith⟩

/-- The largest entry of both columns is in the first one. -/
def FirstLargest (c0 c1 : P) : Prop := ∃ v ∈ entries c0, ∀ w ∈ entries c1, w ≤ v

theorem argmax_side (c0 c1 : P) : argmax (entries c0 ++ entries c1) < 3 ↔ FirstLargest c0 c1 := by
  have hall : entries c0 ++ entries c1 = [|c0.x|, |c0.y|, |c0.z|, |c1.x|, |c1.y|, |c1.z|] := rfl
  obtain ⟨hi, hmax⟩ := argmax_spec (entries c0 ++ entries c1) (by rw [hall]; simp)
  have hfirst := argmax_first (entries c0 ++ entries c1)
  have hi6 : argmax (entries c0 ++ entries c1) < 6 := hi
  generalize argmax (entries c0 ++ entries c1) = i at *
  constructor
  · intro h
    refine ⟨(entries c0 ++ entries c1).getD i 0, ?_, fun w hw => hmax w (List.mem_append_right _ hw)⟩
    rw [hall]
    interval_cases i <;> simp [entries]
  · rintro ⟨v, hv, hw⟩
    by_contra hc
    have h3 : 3 ≤ i := not_lt.mp hc
    have hle : (entries c0 ++ entries c1).getD i 0 ≤ v := by
      apply hw
      rw [hall]
      interval_cases i <;> simp [entries]
    have : v < (entries c0 ++ entries c1).getD i 0 := by
      have hv' : v = |c0.x| ∨ v = |c0.y| ∨ v = |c0.z| := by simpa [entries] using hv
      rcases hv' with rfl | rfl | rfl
      · exact hfirst 0 (by omega)
      · exact hfirst 1 (by omega)
      · exact hfirst 2 (by omega)
    exact absurd hle (not_le.mpr this)

/-- C187, what holds.  When the columns are independent, the right-hand side is a combination of them and the largest
entry is in the first column, the answer is the pair of coefficients, with error zero. -/
theorem C187_solution_partial (c0 c1 : P) (a b : ℝ) (h : cross c0 c1 ≠ ⟨0, 0, 0⟩) (hl : FirstLargest c0 c1) :
    let s := solveLists c0 c1 (add (smul a c0) (smul b c1))
    s.code = 2 ∧ s.x = a ∧ s.y = b ∧ s.err = some 0 := by
  rcases lists_spec c0 c1 (add (smul a c0) (smul b c1)) with ⟨h1, -, -⟩ | ⟨-, h2, -⟩ | ⟨-, hc, -, -, e, he, h5, h6⟩
  · exfalso
    apply h
    rw [h1.1]
    unfold cross
    ext <;> dsimp only <;> ring
  · exact absurd h2 h
  · obtain ⟨g0, g1, g2⟩ := one_span c0 c1 a b _ _ e h (h5 ((argmax_side c0 c1).mpr hl))
    exact ⟨hc, g1, g2, by rw [he, g0]⟩

/-- C187, refuted.  When the largest entry is in the second column only, the coefficients come back exchanged. -/
theorem C187_exchanged_refuted (c0 c1 : P) (a b : ℝ) (h : cross c0 c1 ≠ ⟨0, 0, 0⟩) (hl : ¬ FirstLargest c0 c1) :
    let s := solveLists c0 c1 (add (smul a c0) (smul b c1))
    s.code = 2 ∧ s.x = b ∧ s.y = a ∧ s.err = some 0 := by
  rcases lists_spec c0 c1 (add (smul a c0) (smul b c1)) with ⟨h1, -, -⟩ | ⟨-, h2, -⟩ | ⟨-, hc, -, -, e, he, h5, h6⟩
  · exfalso
    apply h
    rw [h1.1]
    unfold cross
    ext <;> dsimp only <;> ring
  · exact absurd h2 h
  · obtain ⟨g0, g1, g2⟩ := one_span c0 c1 a b _ _ e h (h6 (not_lt.mp (fun hc => hl ((argmax_side c0 c1).mp hc))))
    exact ⟨hc, g2, g1, by rw [he, g0]⟩

/-- Columns of each sort. -/
example : FirstLargest ⟨1, -5, 2⟩ ⟨3, 4, 5⟩ ∧ ¬ FirstLargest ⟨1, 2, 0⟩ ⟨0, 3, 1⟩ := by
  constructor
  · exact ⟨5, by simp [entries], by simp [entries]; norm_num⟩
  · rintro ⟨v, hv, hw⟩
    have h3 := hw 3 (by simp [entries])
    have hv' : v = 1 ∨ v = 2 ∨ v = 0 := by simpa [entries] using hv
    rcases hv' with rfl | rfl | rfl <;> norm_num at h3

/-- C187, refuted.  The error is not measured along the normal of the two columns, as the documentation says: it is what
is left in one row.  Whenever the right-hand side is not a combination of the columns and their normal is not one of the
axes, no vector along the normal with the length of the error makes up the difference. -/
theorem C187_error_refuted (c0 c1 d : P) (hl : FirstLargest c0 c1) (hd : dot (cross c0 c1) d ≠ 0)
    (hn : ((cross c0 c1).x ≠ 0 ∧ (cross c0 c1).y ≠ 0) ∨ ((cross c0 c1).y ≠ 0 ∧ (cross c0 c1).z ≠ 0) ∨
      ((cross c0 c1).x ≠ 0 ∧ (cross c0 c1).z ≠ 0)) (t : ℝ) :
    (solveLists c0 c1 d).code = 2 ∧
    residual c0 c1 d (solveLists c0 c1 d).x (solveLists c0 c1 d).y ≠ smul t (cross c0 c1) := by
  have h : cross c0 c1 ≠ ⟨0, 0, 0⟩ := by
    intro hc
    rw [hc] at hd
    apply hd
    unfold dot
    ring
  rcases lists_spec c0 c1 d with ⟨h1, -, -⟩ | ⟨-, h2, -⟩ | ⟨-, hc, -, -, e, he, h5, h6⟩
  · exfalso
    apply h
    rw [h1.1]
    unfold cross
    ext <;> dsimp only <;> ring
  · exact absurd h2 h
  · refine ⟨hc, fun heq => ?_⟩
    have h7 := h5 ((argmax_side c0 c1).mpr hl)
    have hdr : dot (cross c0 c1) (residual c0 c1 d (solveLists c0 c1 d).x (solveLists c0 c1 d).y)
        = dot (cross c0 c1) d := by
      generalize (solveLists c0 c1 d).x = x
      generalize (solveLists c0 c1 d).y = y
      unfold dot cross residual sub add smul
      ring
    have key : t = 0 := by
      by_contra ht
      have z : ∀ u : ℝ, t * u = 0 → u = 0 := fun u hu => (mul_eq_zero.mp hu).resolve_left ht
      rcases h7 with ⟨g, -⟩ | ⟨g, -⟩ | ⟨g, -⟩
      · rw [heq] at g
        have e2 := z _ (congrArg P.y g)
        have e3 := z _ (congrArg P.z g)
        rcases hn with hn | hn | hn
        · exact hn.2 e2
        · exact hn.1 e2
        · exact hn.2 e3
      · rw [heq] at g
        have e1 := z _ (congrArg P.x g)
        have e3 := z _ (congrArg P.z g)
        rcases hn with hn | hn | hn
        · exact hn.1 e1
        · exact hn.2 e3
        · exact hn.1 e1
      · rw [heq] at g
        have e1 := z _ (congrArg P.x g)
        have e2 := z _ (congrArg P.y g)
        rcases hn with hn | hn | hn
        · exact hn.1 e1
        · exact hn.1 e2
        · exact hn.1 e1
    rw [heq, key] at hdr
    apply hd
    rw [← hdr]
    unfold dot smul
    ring

/-- A slanted plane and a vector outside it. -/
example : FirstLargest ⟨1, 0, -1⟩ ⟨0, 1, -1⟩ ∧ cross ⟨1, 0, -1⟩ ⟨0, 1, -1⟩ = ⟨1, 1, 1⟩ ∧
    dot (cross ⟨1, 0, -1⟩ ⟨0, 1, -1⟩) ⟨1, 0, 0⟩ ≠ 0 := by
  refine ⟨⟨1, by simp [entries], by simp [entries]⟩, ?_, ?_⟩
  · unfold cross
    norm_num
  · unfold cross dot
    norm_num

end Verif.Dg
