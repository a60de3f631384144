import Verif.Msc.Model
import Verif.Ssx.Props
import Mathlib.Analysis.Real.Pi.Bounds
import Mathlib.Tactic.Ring
import Mathlib.Tactic.Linarith
import Mathlib.Tactic.NormNum
import Mathlib.Tactic.LinearCombination

set_option linter.unusedSectionVars false

/-! # Small parts (C462–C466) -/

namespace Verif.Msc

open Verif.Vec V3
open Verif.Ssx (Trm Pt nearest nearest_spec)

variable {K : Type} [Field K] [LinearOrder K] [IsStrictOrderedRing K]

theorem dist2_eq_zero {p q : V3 K} : dist2 p q = 0 ↔ p = q := by
  unfold dist2
  rw [dot_self_eq_zero]
  constructor
  · intro h
    cases p; cases q
    simp only [V3.sub, V3.zero, V3.mk.injEq] at h ⊢
    exact ⟨sub_eq_zero.1 h.1, sub_eq_zero.1 h.2.1, sub_eq_zero.1 h.2.2⟩
  · rintro rfl
    simp [V3.sub, V3.zero]

/-! ## C462 -/

theorem del_pts (t : Trm K) (i : Nat) : (t.del i).pts = t.pts := rfl

/-- **C462, refuted.** Whatever is removed, the stored points stay the same. -/
theorem C462_points_refuted (tol2 : K) (t t' : Trm K) (q : V3 K) (h : remove tol2 t q = some t') : t'.pts = t.pts := by
  unfold remove at h
  split at h
  · split_ifs at h
    · split at h
      · cases h
      · split_ifs at h; cases h; rfl
    · cases h; rfl
  · split at h
    · cases h
    · split_ifs at h; cases h; rfl

/-- **C462, partial.** From a new terminator exactly the stored points can be removed, and the number goes down by one. -/
theorem C462_new_partial (tol2 : K) (ps : List (Pt K)) (q : V3 K) :
    ((∃ t', remove tol2 (Trm.new ps) q = some t') ↔ ∃ p ∈ ps, p.xyz = q) ∧
      ∀ t', remove tol2 (Trm.new ps) q = some t' → t'.size + 1 = ps.length := by
  have hr : remove tol2 (Trm.new ps) q = match (ps.map Pt.xyz)[nearest q (ps.map Pt.xyz)]? with
    | none => none
    | some p => if dist2 p q = 0 then some ((Trm.new ps).del (nearest q (ps.map Pt.xyz))) else none := rfl
  rcases ps with _ | ⟨a, l⟩
  · constructor
    · constructor
      · rintro ⟨t', h⟩; rw [hr] at h; cases h
      · rintro ⟨p, hp, _⟩; cases hp
    · intro t' h; rw [hr] at h; cases h
  · obtain ⟨p, hp, hmin⟩ := nearest_spec q ((a :: l).map Pt.xyz) (by simp)
    rw [hr, hp]
    dsimp only
    constructor
    · constructor
      · rintro ⟨t', h⟩
        split_ifs at h with h0
        obtain ⟨x, hx, e⟩ := List.mem_map.1 (List.mem_of_getElem? hp)
        exact ⟨x, hx, e.trans (dist2_eq_zero.1 h0)⟩
      · rintro ⟨x, hx, e⟩
        have h1 : dist2 p q ≤ 0 := by
          have := hmin x.xyz (List.mem_map_of_mem hx)
          have h2 : dist2 x.xyz q = 0 := dist2_eq_zero.2 e
          exact h2 ▸ this
        have h2 : dist2 p q = 0 := le_antisymm h1 (dot_self_nonneg _)
        exact ⟨_, if_pos h2⟩
    · intro t' h
      split_ifs at h with h0
      cases h
      show (a :: l).length - 1 + 1 = (a :: l).length
      simp

/-- **C462, refuted, twice.** With at least three points a point that was removed can be removed once more. -/
theorem C462_twice_refuted (tol2 : K) (ps : List (Pt K)) (p : Pt K) (hp : p ∈ ps) (hn : 3 ≤ ps.length) :
    ∃ t1 t2, remove tol2 (Trm.new ps) p.xyz = some t1 ∧ remove tol2 t1 p.xyz = some t2 := by
  obtain ⟨t1, h1⟩ := ((C462_new_partial tol2 ps p.xyz).1).2 ⟨p, hp, rfl⟩
  have hk : t1.kd = some (ps.map Pt.xyz) := by
    unfold remove at h1
    dsimp only [Trm.new] at h1
    split at h1
    · cases h1
    · split_ifs at h1
      cases h1
      show (if ps.length - 1 > 1 then some (ps.map Pt.xyz) else none) = _
      rw [if_pos (by omega)]
  have hne : ps.map Pt.xyz ≠ [] := by intro h; rw [List.map_eq_nil_iff] at h; rw [h] at hp; cases hp
  obtain ⟨x, hx, hmin⟩ := nearest_spec p.xyz (ps.map Pt.xyz) hne
  have h0 : dist2 x p.xyz = 0 := by
    refine le_antisymm ?_ (dot_self_nonneg _)
    have h2 : dist2 p.xyz p.xyz = 0 := dist2_eq_zero.2 rfl
    exact h2 ▸ hmin p.xyz (List.mem_map_of_mem hp)
  refine ⟨t1, t1.del (nearest p.xyz (ps.map Pt.xyz)), h1, ?_⟩
  unfold remove
  rw [hk]
  dsimp only
  rw [hx]
  dsimp only
  rw [if_pos h0]

/-- **C462, refuted, the last one.** Of two points at a distance the second cannot be removed after the first: the first is compared. -/
theorem C462_last_refuted (tol2 : K) (p p' : Pt K) (hd : tol2 ≤ dist2 p.xyz p'.xyz) :
    ∃ t1, remove tol2 (Trm.new [p, p']) p.xyz = some t1 ∧ remove tol2 t1 p'.xyz = none := by
  obtain ⟨t1, h1⟩ := ((C462_new_partial tol2 [p, p'] p.xyz).1).2 ⟨p, by simp, rfl⟩
  refine ⟨t1, h1, ?_⟩
  have ht : t1 = ⟨[p, p'], 1, none⟩ := by
    unfold remove at h1
    dsimp only [Trm.new] at h1
    split at h1
    · cases h1
    · split_ifs at h1
      cases h1
      rfl
  rw [ht]
  unfold remove
  dsimp only
  rw [if_pos rfl, if_neg (not_lt.2 hd)]

/-- A case with three points. -/
example : (remove (1 / 1000000000000) (Trm.new [⟨⟨0, 0, 0⟩, (0, 0), (0, 0)⟩, ⟨⟨1, 0, 0⟩, (0, 0), (0, 0)⟩, ⟨⟨5, 0, 0⟩, (0, 0), (0, 0)⟩]) (⟨1, 0, 0⟩ : V3 ℚ)).isSome
    = true := by decide +kernel

/-! ## C463 -/

theorem support_fold (d : V3 K) : ∀ (vs : List (V3 K)) (s : K × V3 K),
    let r := vs.foldl (fun s v => if dot v d > s.1 then (dot v d, v) else s) s
    s.1 ≤ r.1 ∧ (∀ v ∈ vs, dot v d ≤ r.1) ∧ (r = s ∨ r.2 ∈ vs ∧ r.1 = dot r.2 d)
  | [], s => ⟨le_refl _, by simp, Or.inl rfl⟩
  | v :: vs, s => by
    obtain ⟨h1, h2, h3⟩ := support_fold d vs (if dot v d > s.1 then (dot v d, v) else s)
    intro r
    have hs : s.1 ≤ (if dot v d > s.1 then (dot v d, v) else s).1 ∧ dot v d ≤ (if dot v d > s.1 then (dot v d, v) else s).1 := by
      split_ifs with h
      · exact ⟨le_of_lt h, le_refl _⟩
      · exact ⟨le_refl _, not_lt.1 h⟩
    refine ⟨hs.1.trans h1, fun w hw => ?_, ?_⟩
    · rcases List.mem_cons.1 hw with rfl | hw
      · exact hs.2.trans h1
      · exact h2 w hw
    · rcases h3 with h3 | ⟨h3, h4⟩
      · by_cases h : dot v d > s.1
        · have e : r = (dot v d, v) := h3.trans (if_pos h)
          rw [e]
          exact Or.inr ⟨List.mem_cons_self, rfl⟩
        · have e : r = s := h3.trans (if_neg h)
          exact Or.inl e
      · exact Or.inr ⟨List.mem_cons_of_mem _ h3, h4⟩

/-- **C463, partial.** When a vertex is above the start value, the result is a vertex and no vertex is farther in the direction. -/
theorem C463_support_partial (lowest : K) (vs : List (V3 K)) (d : V3 K) (h : ∃ v ∈ vs, lowest < dot v d) :
    supportVector lowest vs d ∈ vs ∧ ∀ v ∈ vs, dot v d ≤ dot (supportVector lowest vs d) d := by
  obtain ⟨h1, h2, h3⟩ := support_fold d vs (lowest, zero)
  obtain ⟨w, hw, hl⟩ := h
  rcases h3 with h3 | ⟨h3, h4⟩
  · have := h2 w hw
    rw [h3] at this
    exact absurd hl (not_lt.2 this)
  · exact ⟨h3, fun v hv => h4 ▸ h2 v hv⟩

/-- **C463, refuted.** Vertices that are not above the start value, in particular no vertices, give the zero vector, which need not be a vertex. -/
theorem C463_low_refuted (lowest : K) (vs : List (V3 K)) (d : V3 K) (h : ∀ v ∈ vs, dot v d ≤ lowest) : supportVector lowest vs d = zero := by
  unfold supportVector
  have : vs.foldl (fun s v => if dot v d > s.1 then (dot v d, v) else s) (lowest, zero) = (lowest, zero) := by
    induction vs with
    | nil => rfl
    | cons v vs ih =>
      rw [List.foldl_cons, if_neg (not_lt.2 (h v List.mem_cons_self))]
      exact ih fun w hw => h w (List.mem_cons_of_mem _ hw)
  rw [this]

/-- A case. -/
example : supportVector (-1000) [⟨0, 0, 0⟩, ⟨1, 2, 0⟩, ⟨3, 0, 1⟩] (⟨1, 1, 0⟩ : V3 ℚ) = ⟨1, 2, 0⟩ := by decide +kernel

/-! ## C464 -/

/-- **C464, equation.** All points of `evaluate` meet the equation. -/
theorem C464_evaluate (cos sin : K → K) (h : ∀ t, cos t ^ 2 + sin t ^ 2 = 1) (c : Circle K) (t : K) : c.implict (c.evaluate cos sin t) = 0 := by
  unfold Circle.implict Circle.evaluate
  linear_combination c.r ^ 2 * h t

/-- **C464, coordinates.** For an `x` of the circle `fx` gives exactly the values `y` for which the equation holds, and the same for `fy`. -/
theorem C464_coordinates (sqrt : K → K) (h : ∀ a, 0 ≤ a → 0 ≤ sqrt a ∧ sqrt a ^ 2 = a) (c : Circle K) (x y : K) :
    ((x - c.ox) ^ 2 ≤ c.r ^ 2 → (c.implict (x, y) = 0 ↔ y = (c.fx sqrt x).1 ∨ y = (c.fx sqrt x).2)) ∧
      ((y - c.oy) ^ 2 ≤ c.r ^ 2 → (c.implict (x, y) = 0 ↔ x = (c.fy sqrt y).1 ∨ x = (c.fy sqrt y).2)) := by
  have key : ∀ a b s : K, s ^ 2 = b → ((a ^ 2 = b) ↔ a = s ∨ a = -s) := by
    intro a b s hs
    rw [← hs, sq_eq_sq_iff_eq_or_eq_neg]
  unfold Circle.implict Circle.fx Circle.fy
  dsimp only
  constructor
  · intro hx
    have hk := key (y - c.oy) (c.r ^ 2 - (x - c.ox) ^ 2) _ (h _ (sub_nonneg.2 hx)).2
    constructor
    · intro e
      rcases hk.1 (by linear_combination e) with e | e
      · left; linear_combination e
      · right; linear_combination e
    · rintro (e | e)
      · have := hk.2 (Or.inl (by linear_combination e)); linear_combination this
      · have := hk.2 (Or.inr (by linear_combination e)); linear_combination this
  · intro hy
    have hk := key (x - c.ox) (c.r ^ 2 - (y - c.oy) ^ 2) _ (h _ (sub_nonneg.2 hy)).2
    constructor
    · intro e
      rcases hk.1 (by linear_combination e) with e | e
      · left; linear_combination e
      · right; linear_combination e
    · rintro (e | e)
      · have := hk.2 (Or.inl (by linear_combination e)); linear_combination this
      · have := hk.2 (Or.inr (by linear_combination e)); linear_combination this

/-- **C464, refuted.** The interval of a circle is `(0, 1)`, one radian: the left half of the circle is not reached, and the curve is not closed. -/
theorem C464_interval_refuted (c : Circle ℝ) (hr : 0 < c.r) :
    (∀ t, (newInterval : ℝ × ℝ).1 ≤ t → t ≤ (newInterval : ℝ × ℝ).2 → c.ox < (c.evaluate Real.cos Real.sin t).1) ∧
      c.evaluate Real.cos Real.sin (newInterval : ℝ × ℝ).1 ≠ c.evaluate Real.cos Real.sin (newInterval : ℝ × ℝ).2 ∧
      c.implict (c.ox - c.r, c.oy) = 0 := by
  refine ⟨fun t h0 h1 => ?_, ?_, ?_⟩
  · have h0' : (0 : ℝ) ≤ t := h0
    have h1' : t ≤ 1 := h1
    have := Real.pi_gt_three
    have hc := Real.cos_pos_of_mem_Ioo (x := t) ⟨by linarith, by linarith⟩
    show c.ox < c.r * Real.cos t + c.ox
    nlinarith
  · intro e
    have e2 := congrArg Prod.snd e
    change c.r * Real.sin 0 + c.oy = c.r * Real.sin 1 + c.oy at e2
    have hs := Real.sin_pos_of_pos_of_lt_pi (x := 1) one_pos (by linarith [Real.pi_gt_three])
    rw [Real.sin_zero] at e2
    nlinarith
  · unfold Circle.implict
    ring

/-! ## C465 -/

/-- **C465, edges, partial.** A polygon that is returned is the one given; it is closed or both its ends lie on one side of the rectangle. -/
theorem C465_edge_partial (close : K × K → K × K → Bool) (poly r : List (K × K)) (umin vmin umax vmax tol : K)
    (h : matchEdge close poly umin vmin umax vmax tol = some (some r)) :
    r = poly ∧ ∃ p q, poly.head? = some p ∧ poly.getLast? = some q ∧ (close q p = true ∨
      (|p.1 - umin| ≤ tol ∧ |q.1 - umin| ≤ tol) ∨ (|p.1 - umax| ≤ tol ∧ |q.1 - umax| ≤ tol) ∨
      (|p.2 - vmin| ≤ tol ∧ |q.2 - vmin| ≤ tol) ∨ (|p.2 - vmax| ≤ tol ∧ |q.2 - vmax| ≤ tol)) := by
  unfold matchEdge at h
  split at h
  · rename_i p q hp hq
    split_ifs at h with h1 h2
    · simp only [Option.some.injEq] at h
      exact ⟨h.symm, p, q, hp, hq, Or.inl h1⟩
    · simp only [Option.some.injEq] at h
      simp only [isClose0, Bool.or_eq_true, Bool.and_eq_true, decide_eq_true_eq] at h2
      refine ⟨h.symm, p, q, hp, hq, Or.inr ?_⟩
      rcases h2 with ((h2 | h2) | h2) | h2
      · exact Or.inl h2
      · exact Or.inr (Or.inl h2)
      · exact Or.inr (Or.inr (Or.inl h2))
      · exact Or.inr (Or.inr (Or.inr h2))
    · cases h
  · cases h

/-- **C465, refuted, edges.** A trim that goes from the left side of the unit square to the right one, away from the corners, gives `None`. -/
theorem C465_edge_refuted (close : K × K → K × K → Bool) (mids : List (K × K)) (a b tol : K) (hc : close (1, b) (0, a) = false) (ht1 : tol < 1)
    (ha : tol < a) (ha1 : a < 1 - tol) : matchEdge close ((0, a) :: mids ++ [(1, b)]) 0 0 1 1 tol = some none := by
  unfold matchEdge
  have h1 : ((0, a) :: mids ++ [(1, b)] : List (K × K)).head? = some (0, a) := rfl
  have h2 : ((0, a) :: mids ++ [(1, b)] : List (K × K)).getLast? = some (1, b) := by rw [List.getLast?_append]; rfl
  rw [h1, h2]
  dsimp only
  rw [hc]
  have e1 : isClose0 ((1 : K) - 0) tol = false := by
    unfold isClose0; rw [sub_zero, abs_one]; exact decide_eq_false (not_le.2 ht1)
  have e2 : isClose0 ((0 : K) - 1) tol = false := by
    unfold isClose0; rw [zero_sub, abs_neg, abs_one]; exact decide_eq_false (not_le.2 ht1)
  have e3 : isClose0 (a - 0) tol = false := by
    unfold isClose0; rw [sub_zero]; exact decide_eq_false (not_le.2 (ha.trans_le (le_abs_self a)))
  have e4 : isClose0 (a - 1) tol = false := by
    unfold isClose0; refine decide_eq_false (not_le.2 ?_)
    have := neg_abs_le (a - 1)
    linarith
  rw [e1, e2, e3, e4]
  simp

/-- A case: a trim from left to right. -/
example : matchEdge (fun _ _ => false) [((0 : ℚ), 1 / 2), (1 / 2, 1 / 3), (1, 1 / 4)] 0 0 1 1 (1 / 100) = some none := by decide +kernel

/-- A case: a trim that begins and ends on the left side. -/
example : matchEdge (fun _ _ => false) [((0 : ℚ), 1 / 2), (1 / 2, 1 / 3), (0, 1 / 4)] 0 0 1 1 (1 / 100) = some (some [(0, 1 / 2), (1 / 2, 1 / 3), (0, 1 / 4)]) := by
  decide +kernel

theorem lines_length {A : Type} (l : List A) : (polylineToLines l).length = l.length := by
  unfold polylineToLines
  rw [List.length_zip, List.length_rotate, min_self]

/-- **C466, lines.** Line `i` of a closed polyline goes from point `i` to the next one, the last to the first. -/
theorem C466_lines {A : Type} (l : List A) (i : Nat) (h : i < l.length) :
    (polylineToLines l).length = l.length ∧ (polylineToLines l)[i]? = some (l[i], l[(i + 1) % l.length]'(Nat.mod_lt _ (by omega))) := by
  refine ⟨lines_length l, ?_⟩
  unfold polylineToLines
  rw [List.getElem?_eq_getElem (by rw [List.length_zip, List.length_rotate, min_self]; exact h), List.getElem_zip, List.getElem_rotate]

/-- **C466, refuted.** `point_in_polygon` of `features.py` raises for every polygon and every point. -/
theorem C466_polygon_refuted {A : Type} (inside : A → A → A → A) (rest : (A × A) × (A × A) → A → A → Bool) (l : List A) (p : A) :
    pointInPolygon inside rest l p = none := by
  unfold pointInPolygon
  by_cases h : 3 ≤ l.length
  · have : unpack2 (polylineToLines l) = none := by
      have hl := lines_length l
      unfold unpack2
      split
      · rename_i a b e
        rw [e] at hl
        simp at hl
        omega
      · rfl
    simp [this]
  · have : l[2]? = none := List.getElem?_eq_none (by omega)
    simp [this]

end Verif.Msc
