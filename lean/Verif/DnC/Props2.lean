import Verif.DnC.Props
import Mathlib.Tactic.Tauto
import Mathlib.Tactic.Positivity

/-! # Properties of the planar searches, the sign scan and `scalar_min_1d` -/

set_option linter.unusedSectionVars false

namespace Verif.DnC

variable {K : Type} [Field K] [LinearOrder K] [IsStrictOrderedRing K]

theorem argmin_mem {α : Type} (g : α → K) (L : List α) : ∀ b, argmin g b L = b ∨ argmin g b L ∈ L := by
  induction L with
  | nil => intro b; exact Or.inl rfl
  | cons x xs ih =>
    intro b
    rw [argmin]
    split_ifs
    · rcases ih x with h | h
      · rw [h]; simp
      · simp [h]
    · rcases ih b with h | h
      · exact Or.inl h
      · simp [h]

theorem argmin_le {α : Type} (g : α → K) (L : List α) :
    ∀ b, g (argmin g b L) ≤ g b ∧ ∀ x ∈ L, g (argmin g b L) ≤ g x := by
  induction L with
  | nil => intro b; simp [argmin]
  | cons x xs ih =>
    intro b
    rw [argmin]
    split_ifs with h
    · obtain ⟨h1, h2⟩ := ih x
      refine ⟨h1.trans h.le, ?_⟩
      intro y hy
      rcases List.mem_cons.1 hy with rfl | hy
      · exact h1
      · exact h2 y hy
    · obtain ⟨h1, h2⟩ := ih b
      refine ⟨h1, ?_⟩
      intro y hy
      rcases List.mem_cons.1 hy with rfl | hy
      · exact h1.trans (not_lt.1 h)
      · exact h2 y hy

/-- The box has a point and lies in the range. -/
def Within (r b : Box K) : Prop :=
  r.x0 ≤ b.x0 ∧ b.x0 ≤ b.x1 ∧ b.x1 ≤ r.x1 ∧ r.y0 ≤ b.y0 ∧ b.y0 ≤ b.y1 ∧ b.y1 ≤ r.y1

/-- The point lies in the box. -/
def InBox (p : K × K) (b : Box K) : Prop :=
  b.x0 ≤ p.1 ∧ p.1 ≤ b.x1 ∧ b.y0 ≤ p.2 ∧ p.2 ≤ b.y1

theorem best_in {f : K × K → K} {r b : Box K} (h : Within r b) :
    InBox (argmin f (b.x0, b.y0) (cands b)) b := by
  obtain ⟨h1, h2, h3, h4, h5, h6⟩ := h
  rcases argmin_mem f (cands b) (b.x0, b.y0) with hm | hm
  · rw [hm]; exact ⟨le_rfl, h2, le_rfl, h5⟩
  · generalize argmin f (b.x0, b.y0) (cands b) = q at hm ⊢
    simp only [cands, List.mem_cons, List.not_mem_nil, or_false] at hm
    rcases hm with hm | hm | hm | hm | hm | hm | hm | hm <;> subst hm <;>
      refine ⟨?_, ?_, ?_, ?_⟩ <;> dsimp only <;> linarith

theorem best_in_nd {f : K × K → K} {r b : Box K} (h : Within r b) :
    InBox (argmin f ((b.x0 + b.x1) / 2, b.y0) (candsNd b)) b := by
  obtain ⟨h1, h2, h3, h4, h5, h6⟩ := h
  rcases argmin_mem f (candsNd b) ((b.x0 + b.x1) / 2, b.y0) with hm | hm
  · rw [hm]; refine ⟨?_, ?_, ?_, ?_⟩ <;> dsimp only <;> linarith
  · generalize argmin f ((b.x0 + b.x1) / 2, b.y0) (candsNd b) = q at hm ⊢
    simp only [candsNd, List.mem_cons, List.not_mem_nil, or_false] at hm
    rcases hm with hm | hm | hm <;> subst hm <;>
      refine ⟨?_, ?_, ?_, ?_⟩ <;> dsimp only <;> linarith

/-- Shrinking around a point of the box stays in the range, keeps the point and at least halves both
extents. -/
theorem shrink_spec {r b : Box K} {c : K × K} (h : Within r b) (hc : InBox c b) :
    Within r (shrink r b c) ∧ InBox c (shrink r b c) ∧
    (shrink r b c).x1 - (shrink r b c).x0 ≤ (b.x1 - b.x0) / 2 ∧
    (shrink r b c).y1 - (shrink r b c).y0 ≤ (b.y1 - b.y0) / 2 := by
  obtain ⟨h1, h2, h3, h4, h5, h6⟩ := h
  obtain ⟨k1, k2, k3, k4⟩ := hc
  have a1 : max (c.1 - (b.x1 - b.x0) / 4) r.x0 ≤ c.1 := max_le (by linarith) (by linarith)
  have a2 : c.1 ≤ min (c.1 + (b.x1 - b.x0) / 4) r.x1 := le_min (by linarith) (by linarith)
  have a3 : max (c.2 - (b.y1 - b.y0) / 4) r.y0 ≤ c.2 := max_le (by linarith) (by linarith)
  have a4 : c.2 ≤ min (c.2 + (b.y1 - b.y0) / 4) r.y1 := le_min (by linarith) (by linarith)
  have b1 := le_max_left (c.1 - (b.x1 - b.x0) / 4) r.x0
  have b2 := min_le_left (c.1 + (b.x1 - b.x0) / 4) r.x1
  have b3 := le_max_left (c.2 - (b.y1 - b.y0) / 4) r.y0
  have b4 := min_le_left (c.2 + (b.y1 - b.y0) / 4) r.y1
  refine ⟨⟨le_max_right _ _, a1.trans a2, min_le_right _ _, le_max_right _ _, a3.trans a4,
    min_le_right _ _⟩, ⟨a1, a2, a3, a4⟩, ?_, ?_⟩ <;> simp only [shrink] <;> linarith

/-! ## C81: `divide_and_conquer_min_2d` -/

theorem loop2_spec {f : K × K → K} {tol : K} {r : Box K} (k : Nat) :
    ∀ {b b' : Box K}, Within r b → loop2 f tol r k b = some b' →
      Within r b' ∧ b'.x1 - b'.x0 ≤ tol ∧ b'.y1 - b'.y0 ≤ tol := by
  induction k with
  | zero => intro b b' _ h; simp [loop2] at h
  | succ k ih =>
    intro b b' hb h
    rw [loop2] at h
    split_ifs at h with c
    · exact ih (shrink_spec hb (best_in hb)).1 h
    · cases h
      push Not at c
      exact ⟨hb, c⟩

theorem loop2_some {f : K × K → K} {tol : K} {r : Box K} (k : Nat) :
    ∀ {b : Box K}, Within r b → (b.x1 - b.x0) * (1 / 2) ^ k < tol →
      (b.y1 - b.y0) * (1 / 2) ^ k < tol → ∃ b', loop2 f tol r (k + 1) b = some b' := by
  induction k with
  | zero =>
    intro b hb h1 h2
    rw [pow_zero, mul_one] at h1 h2
    exact ⟨b, by rw [loop2, if_neg]; push Not; exact ⟨h1.le, h2.le⟩⟩
  | succ k ih =>
    intro b hb h1 h2
    rw [loop2]
    by_cases c : b.x1 - b.x0 > tol ∨ b.y1 - b.y0 > tol
    · rw [if_pos c]
      obtain ⟨s1, _, s3, s4⟩ := shrink_spec hb (best_in (f := f) hb)
      have hp : (0 : K) ≤ (1 / 2) ^ k := by positivity
      rw [pow_succ] at h1 h2
      refine ih s1 ?_ ?_
      · have := mul_le_mul_of_nonneg_right s3 hp
        calc _ ≤ _ := this
          _ = (b.x1 - b.x0) * ((1 / 2) ^ k * (1 / 2)) := by ring
          _ < tol := h1
      · have := mul_le_mul_of_nonneg_right s4 hp
        calc _ ≤ _ := this
          _ = (b.y1 - b.y0) * ((1 / 2) ^ k * (1 / 2)) := by ring
          _ < tol := h2
    · exact ⟨b, if_neg c⟩

/-- For every function, range and positive tolerance the search ends, inside the range, with a box
whose sides are at most the tolerance.

`_partial`: the docstring promises the minimum point; that is false even for convex functions,
`C81_minimum_refuted`. -/
theorem C81_search_partial [Archimedean K] (f : K × K → K) (tol : K) (r : Box K) (hr : Within r r)
    (ht : 0 < tol) :
    (∃ k p, min2d f tol r k = some p) ∧
    ∀ k p, min2d f tol r k = some p → InBox p r ∧
      ∃ b, loop2 f tol r k r = some b ∧ InBox p b ∧ Within r b ∧
        b.x1 - b.x0 ≤ tol ∧ b.y1 - b.y0 ≤ tol := by
  constructor
  · obtain ⟨k1, hk1⟩ := enough (r.x1 - r.x0) ht (1 / 2) (by norm_num) (by norm_num)
    obtain ⟨k2, hk2⟩ := enough (r.y1 - r.y0) ht (1 / 2) (by norm_num) (by norm_num)
    have mono : ∀ (w : K) (i j : Nat), 0 ≤ w → i ≤ j → w * (1 / 2) ^ j ≤ w * (1 / 2) ^ i := by
      intro w i j hw hij
      exact mul_le_mul_of_nonneg_left (pow_le_pow_of_le_one (by norm_num) (by norm_num) hij) hw
    have hw1 : 0 ≤ r.x1 - r.x0 := by have := hr.2.1; linarith
    have hw2 : 0 ≤ r.y1 - r.y0 := by have := hr.2.2.2.2.1; linarith
    obtain ⟨b, hb⟩ := loop2_some (f := f) (max k1 k2) hr
      ((mono _ _ _ hw1 (le_max_left k1 k2)).trans_lt hk1)
      ((mono _ _ _ hw2 (le_max_right k1 k2)).trans_lt hk2)
    exact ⟨_, _, by rw [min2d, hb]; rfl⟩
  · intro k p h
    rw [min2d] at h
    obtain ⟨b, hb, rfl⟩ := Option.map_eq_some_iff.1 h
    obtain ⟨g, g'⟩ := loop2_spec k hr hb
    have hp : InBox ((b.x0 + b.x1) / 2, (b.y0 + b.y1) / 2) b := by
      obtain ⟨h1, h2, h3, h4, h5, h6⟩ := g
      refine ⟨?_, ?_, ?_, ?_⟩ <;> dsimp only <;> linarith
    refine ⟨?_, b, hb, hp, g, g'⟩
    obtain ⟨h1, h2, h3, h4, h5, h6⟩ := g
    obtain ⟨p1, p2, p3, p4⟩ := hp
    exact ⟨h1.trans p1, p2.trans h3, h4.trans p3, p4.trans h6⟩

/-- The box of the next round contains the best of the nine points of this round. -/
theorem C81_keeps_best (f : K × K → K) (r b : Box K) (hb : Within r b) :
    ∃ c, InBox c (step2 f r b) ∧ f c ≤ f (b.x0, b.y0) ∧ ∀ q ∈ cands b, f c ≤ f q := by
  refine ⟨_, (shrink_spec hb (best_in (f := f) hb)).2.1, ?_⟩
  exact argmin_le f (cands b) (b.x0, b.y0)

/-- A convex function of the plane with its minimum at `(9/20, 1/2)`. -/
def valley (p : ℚ × ℚ) : ℚ := max (-(p.1 - 9 / 20)) (100 * (p.1 - 9 / 20)) + |p.2 - 1 / 2|

/-- On a convex function with its only minimum inside the unit square, the search with tolerance
`1/50` ends more than `4` tolerances away from it. -/
theorem C81_minimum_refuted :
    (∀ p, p ≠ (9 / 20, 1 / 2) → valley (9 / 20, 1 / 2) < valley p) ∧
    ∃ p, min2d valley (1 / 50) ⟨0, 1, 0, 1⟩ 20 = some p ∧ |p.1 - 9 / 20| > 4 * (1 / 50) := by
  constructor
  · rintro ⟨x, y⟩ hp
    have h0 : valley (9 / 20, 1 / 2) = 0 := by norm_num [valley]
    rw [h0, valley]
    dsimp only
    have hy := abs_nonneg (y - 1 / 2)
    by_cases hx : x = 9 / 20
    · have hy' : y ≠ 1 / 2 := by rintro rfl; exact hp (by rw [hx])
      have : 0 < |y - 1 / 2| := abs_pos.2 (sub_ne_zero.2 hy')
      have := le_max_left (-(x - 9 / 20)) (100 * (x - 9 / 20))
      rw [hx] at this ⊢
      linarith
    · rcases lt_or_gt_of_ne hx with h | h
      · have := le_max_left (-(x - 9 / 20)) (100 * (x - 9 / 20)); linarith
      · have := le_max_right (-(x - 9 / 20)) (100 * (x - 9 / 20)); linarith
  · exact ⟨(47 / 128, 1 / 2), by decide +kernel, by norm_num [abs_of_neg]⟩

example : Within (⟨0, 1, 0, 1⟩ : Box ℚ) ⟨0, 1, 0, 1⟩ ∧
    min2d (fun p : ℚ × ℚ => p.1 + p.2) (1 / 20) ⟨0, 1, 0, 1⟩ 20 = some (1 / 128, 1 / 128) := by
  refine ⟨⟨?_, ?_, ?_, ?_, ?_, ?_⟩, ?_⟩
  · norm_num
  · norm_num
  · norm_num
  · norm_num
  · norm_num
  · norm_num
  · decide +kernel

/-! ## C82: the vectorised search -/

theorem loopV_single (f : K × K → K) (tol : K) (r : Box K) (k : Nat) : ∀ b : Box K,
    loopV tol k [(f, r, b)] = (loop2 f tol r k b).map (fun x => [x]) := by
  induction k with
  | zero => intro b; rfl
  | succ k ih =>
    intro b
    rw [loopV, loop2]
    simp only [List.all_cons, List.all_nil, Bool.and_true, decide_eq_true_eq, List.map_cons,
      List.map_nil]
    split_ifs
    · exact ih _
    · rfl

/-- With one column the vectorised search is the scalar search at half the tolerance.

`_partial`: with several columns it may stop while a column is still unresolved,
`C82_columns_refuted`. -/
theorem C82_single_column_partial (f : K × K → K) (tol : K) (r : Box K) (k : Nat) :
    min2dV tol [(f, r)] k = (min2d f (tol / 2) r k).map (fun p => [p]) := by
  rw [min2dV, min2d, List.map_cons, List.map_nil, loopV_single]
  simp [Option.map_map, Function.comp_def]

/-- Two columns, the second with a small range: the loop stops at once and the first column is
reported as the middle of its range, `1/2` away from where the scalar search ends. -/
theorem C82_columns_refuted :
    ∃ (f : ℚ × ℚ → ℚ) (r r' : Box ℚ) (tol : ℚ) (p q s : ℚ × ℚ),
      min2dV tol [(f, r), (f, r')] 5 = some [p, q] ∧ min2d f (tol / 2) r 20 = some s ∧
      |p.1 - s.1| > 4 * tol := by
  refine ⟨fun p => p.1 + p.2, ⟨0, 1, 0, 1⟩, ⟨0, 1 / 100, 0, 1 / 100⟩, 1 / 10, (1 / 2, 1 / 2),
    (1 / 200, 1 / 200), (1 / 128, 1 / 128), ?_, ?_, ?_⟩
  · decide +kernel
  · decide +kernel
  · norm_num [abs_of_pos]

/-! ## C83: `divide_and_conquer_min_nd` with two variables -/

theorem loopNd_spec {f : K × K → K} {tol : K} {r : Box K} (k : Nat) :
    ∀ {b b' : Box K}, Within r b → loopNd f tol r k b = some b' →
      Within r b' ∧ b'.x1 - b'.x0 ≤ tol ∧ b'.y1 - b'.y0 ≤ tol := by
  induction k with
  | zero => intro b b' _ h; simp [loopNd] at h
  | succ k ih =>
    intro b b' hb h
    rw [loopNd] at h
    split_ifs at h with c
    · exact ih (shrink_spec hb (best_in_nd hb)).1 h
    · cases h
      push Not at c
      exact ⟨hb, c⟩

/-- Whatever is returned is in the range.

`_partial`: it is promised to be the minimum point; `C83_minimum_refuted`. -/
theorem C83_nd_partial (f : K × K → K) (tol : K) (r : Box K) (hr : Within r r) (k : Nat) (p : K × K)
    (h : minNd2 f tol r k = some p) : InBox p r := by
  rw [minNd2] at h
  obtain ⟨b, hb, rfl⟩ := Option.map_eq_some_iff.1 h
  obtain ⟨⟨h1, h2, h3, h4, h5, h6⟩, _⟩ := loopNd_spec k hr hb
  refine ⟨?_, ?_, ?_, ?_⟩ <;> dsimp only <;> linarith

/-- `f(x, y) = -x - y` on the unit square has its minimum at `(1, 1)`; the search only looks at
points on the lower sides and ends near `(1/2, 0)`. -/
theorem C83_minimum_refuted :
    ∃ p, minNd2 (fun p : ℚ × ℚ => -p.1 - p.2) (1 / 10) ⟨0, 1, 0, 1⟩ 20 = some p ∧
      |p.1 - 1| > 4 * (1 / 10) ∧ |p.2 - 1| > 9 * (1 / 10) :=
  ⟨(1 / 2, 1 / 512), by decide +kernel, by norm_num [abs_of_neg], by norm_num [abs_of_neg]⟩

/-! ## C84: `bisection1d` -/

/-- The sign remembered when the scan is at grid point `j`. -/
def prevSign (f : K → K) (step x : K) (s : Bool) (j : Nat) : Bool :=
  if j = 0 then s else decide (f (x + ((j - 1 : Nat) : K) * step) > 0)

/-- Grid point `j` is reported. -/
def hit (f : K → K) (step x : K) (s : Bool) (j : Nat) : Bool :=
  decide (f (x + j * step) = 0) || decide (decide (f (x + j * step) > 0) ≠ prevSign f step x s j)

theorem bis1_spec (f : K → K) (step stop : K) (k : Nat) :
    ∀ {x : K} {s : Bool} {mn : Option K} {roots R : List (K × K)} {m : Option K},
      bis1 f step stop k x s mn roots = some (R, m) →
      ∃ n : Nat, (∀ j < n, x + j * step ≤ stop) ∧ ¬ x + n * step ≤ stop ∧
        R = roots ++ ((List.range n).filter (hit f step x s)).map
          (fun j : Nat => (x + (j : K) * step, f (x + (j : K) * step))) ∧
        (∀ v, m = some v → (∀ j < n, v ≤ f (x + j * step)) ∧ (∀ u, mn = some u → v ≤ u) ∧
          (mn = some v ∨ ∃ j < n, v = f (x + j * step))) ∧
        (m = none → mn = none ∧ n = 0) := by
  induction k with
  | zero => intro x s mn roots R m h; simp [bis1] at h
  | succ k ih =>
    intro x s mn roots R m h
    rw [bis1] at h
    by_cases c : x ≤ stop
    · rw [if_pos c] at h
      dsimp only at h
      obtain ⟨n, h1, h2, h3, h4, h5⟩ := ih h
      have sh : ∀ j : Nat, x + step + (j : K) * step = x + ((j + 1 : Nat) : K) * step := by
        intro j; push_cast; ring
      refine ⟨n + 1, ?_, ?_, ?_, ?_, ?_⟩
      · intro j hj
        cases j with
        | zero => simpa using c
        | succ j => rw [← sh]; exact h1 j (by omega)
      · rw [← sh]; exact h2
      · rw [h3]
        have hh : ∀ j, hit f step (x + step) (decide (f x > 0)) j = hit f step x s (j + 1) := by
          intro j
          unfold hit prevSign
          rw [sh]
          cases j with
          | zero => simp
          | succ j =>
            simp only [Nat.add_one_ne_zero, if_false, Nat.add_sub_cancel]
            rw [sh]
        have h0 : hit f step x s 0 = (decide (f x = 0) || decide (decide (f x > 0) ≠ s)) := by
          simp [hit, prevSign]
        rw [List.range_succ_eq_map, List.filter_cons, h0, List.filter_map]
        have htail : ((List.range n).filter (hit f step (x + step) (decide (f x > 0)))).map
            (fun j : Nat => (x + step + (j : K) * step, f (x + step + (j : K) * step))) =
            (((List.range n).filter (hit f step x s ∘ Nat.succ)).map Nat.succ).map
              (fun j : Nat => (x + (j : K) * step, f (x + (j : K) * step))) := by
          rw [List.map_map]
          have : hit f step x s ∘ Nat.succ = hit f step (x + step) (decide (f x > 0)) := by
            funext j; exact (hh j).symm
          rw [this]
          apply List.map_congr_left
          intro j _
          simp only [Function.comp]
          rw [sh]
        rw [htail]
        by_cases e1 : f x = 0
        · simp [e1]
        · by_cases e2 : decide (f x > 0) ≠ s
          · simp [e1, e2]
          · simp [e1, e2]
      · intro v hv
        obtain ⟨g1, g2, g3⟩ := h4 v hv
        have gx : v ≤ f x := by
          cases mn with
          | none => exact g2 (f x) rfl
          | some u =>
            by_cases hu : f x < u
            · exact g2 (f x) (by simp [hu])
            · exact (g2 u (by simp [hu])).trans (not_lt.1 hu)
        refine ⟨?_, ?_, ?_⟩
        · intro j hj
          cases j with
          | zero => simpa using gx
          | succ j => rw [← sh]; exact g1 j (by omega)
        · intro u hu
          subst hu
          by_cases hu : f x < u
          · exact gx.trans hu.le
          · exact g2 u (by simp [hu])
        · rcases g3 with g3 | ⟨j, hj, g3⟩
          · cases mn with
            | none =>
              right
              refine ⟨0, by omega, ?_⟩
              have : f x = v := by simpa using g3
              simp [this]
            | some u =>
              by_cases hu : f x < u
              · right
                refine ⟨0, by omega, ?_⟩
                have : f x = v := by simpa [hu] using g3
                simp [this]
              · left
                simpa [hu] using g3
          · exact Or.inr ⟨j + 1, by omega, by rw [← sh]; exact g3⟩
      · intro hm
        obtain ⟨g1, _⟩ := h5 hm
        cases mn with
        | none => simp at g1
        | some u => by_cases hu : f x < u <;> simp [hu] at g1
    · rw [if_neg c] at h
      cases h
      refine ⟨0, by simp, by simpa using c, by simp, ?_, by simp⟩
      intro v hv
      refine ⟨by simp, ?_, Or.inl hv⟩
      intro u hu
      rw [hv] at hu; cases hu; exact le_rfl

end Verif.DnC
