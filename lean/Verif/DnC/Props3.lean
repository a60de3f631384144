import Verif.DnC.Props2
import Mathlib.Topology.Order.IntermediateValue
import Mathlib.Topology.Instances.Real.Lemmas
import Mathlib.Topology.Algebra.Order.Field

/-! # The sign scan, `bisection_2d` and `scalar_min_1d` -/

set_option linter.unusedSectionVars false

namespace Verif.DnC

variable {K : Type} [Field K] [LinearOrder K] [IsStrictOrderedRing K]

/-! ## C84: `bisection1d` -/

theorem bis1_some (f : K → K) (step stop : K) (k : Nat) :
    ∀ (x : K) (s : Bool) (mn : Option K) (roots : List (K × K)), ¬ x + k * step ≤ stop →
      ∃ R, bis1 f step stop (k + 1) x s mn roots = some R := by
  induction k with
  | zero =>
    intro x s mn roots h
    rw [bis1, if_neg (by simpa using h)]
    exact ⟨_, rfl⟩
  | succ k ih =>
    intro x s mn roots h
    rw [bis1]
    by_cases c : x ≤ stop
    · rw [if_pos c]
      apply ih
      rw [show x + step + (k : K) * step = x + ((k + 1 : Nat) : K) * step by push_cast; ring]
      exact h
    · rw [if_neg c]; exact ⟨_, rfl⟩

/-- For every function and positive step the scan ends.  It reports the least value on the grid, only
grid points where the function is zero or has just crossed zero, and every crossing.

`_partial`: each root is promised once; `C84_once_refuted`. -/
theorem C84_scan_partial [Archimedean K] (f : K → K) (step start stop : K) (hs : 0 < step) :
    (∃ k R, bisection1d f step start stop k = some R) ∧
    ∀ k roots m, bisection1d f step start stop k = some (roots, m) →
      -- the minimum over the grid
      (∀ v, m = some v → (∃ j : Nat, start + j * step ≤ stop ∧ v = f (start + j * step)) ∧
        ∀ j : Nat, start + j * step ≤ stop → v ≤ f (start + j * step)) ∧
      (m = none → stop < start) ∧
      -- only zeros and crossings
      (∀ p ∈ roots, ∃ j : Nat, p.1 = start + j * step ∧ p.1 ≤ stop ∧ p.2 = f p.1 ∧
        (p.2 = 0 ∨ (0 < j ∧ f (p.1 - step) * p.2 ≤ 0))) ∧
      -- all zeros and crossings
      (∀ j : Nat, start + j * step ≤ stop → f (start + j * step) = 0 →
        (start + j * step, f (start + j * step)) ∈ roots) ∧
      (∀ j : Nat, start + (j + 1 : Nat) * step ≤ stop →
        f (start + j * step) * f (start + (j + 1 : Nat) * step) < 0 →
        (start + (j + 1 : Nat) * step, f (start + (j + 1 : Nat) * step)) ∈ roots) ∧
      -- in order, each grid point at most once
      roots.Pairwise (fun p q => p.1 < q.1) := by
  constructor
  · obtain ⟨n, hn⟩ := Archimedean.arch (stop - start + 1) hs
    rw [nsmul_eq_mul] at hn
    obtain ⟨R, hR⟩ := bis1_some f step stop n start (decide (f start > 0)) none [] (by
      rw [not_le]; linarith)
    exact ⟨n + 1, R, hR⟩
  · intro k roots m h
    obtain ⟨n, h1, h2, h3, h4, h5⟩ := bis1_spec f step stop k h
    rw [List.nil_append] at h3
    have grid : ∀ j : Nat, start + j * step ≤ stop ↔ j < n := by
      intro j
      refine ⟨fun hj => ?_, h1 j⟩
      by_contra hc
      have hc : n ≤ j := not_lt.1 hc
      apply h2
      have : (n : K) * step ≤ j * step := mul_le_mul_of_nonneg_right (by exact_mod_cast hc) hs.le
      linarith
    have mem : ∀ p, p ∈ roots ↔ ∃ j < n, hit f step start (decide (f start > 0)) j = true ∧
        p = (start + (j : K) * step, f (start + (j : K) * step)) := by
      intro p
      rw [h3, List.mem_map]
      constructor
      · rintro ⟨j, hj, rfl⟩
        obtain ⟨hj1, hj2⟩ := List.mem_filter.1 hj
        exact ⟨j, List.mem_range.1 hj1, hj2, rfl⟩
      · rintro ⟨j, hj1, hj2, rfl⟩
        exact ⟨j, List.mem_filter.2 ⟨List.mem_range.2 hj1, hj2⟩, rfl⟩
    refine ⟨?_, ?_, ?_, ?_, ?_, ?_⟩
    · intro v hv
      obtain ⟨g1, _, g3⟩ := h4 v hv
      refine ⟨?_, fun j hj => g1 j ((grid j).1 hj)⟩
      rcases g3 with g3 | ⟨j, hj, g3⟩
      · cases g3
      · exact ⟨j, (grid j).2 hj, g3⟩
    · intro hm
      obtain ⟨_, hn⟩ := h5 hm
      rw [hn] at h2
      simpa using h2
    · intro p hp
      obtain ⟨j, hj, hh, rfl⟩ := (mem p).1 hp
      refine ⟨j, rfl, (grid j).2 hj, rfl, ?_⟩
      by_cases h0 : f (start + j * step) = 0
      · exact Or.inl h0
      · right
        dsimp only
        unfold hit prevSign at hh
        cases j with
        | zero => simp at hh h0; exact absurd hh h0
        | succ j =>
          refine ⟨by omega, ?_⟩
          have e : start + ((j + 1 : Nat) : K) * step - step = start + (j : K) * step := by
            push_cast; ring
          rw [e]
          simp only [Nat.add_one_ne_zero, if_false, Nat.add_sub_cancel, h0, decide_false,
            Bool.false_or, ne_eq, decide_eq_true_eq, decide_eq_decide] at hh
          by_cases hp : f (start + ((j + 1 : Nat) : K) * step) > 0
          · have : ¬ f (start + (j : K) * step) > 0 := fun hq => hh ⟨fun _ => hq, fun _ => hp⟩
            exact mul_nonpos_of_nonpos_of_nonneg (not_lt.1 this) hp.le
          · have : f (start + (j : K) * step) > 0 := by
              by_contra hq
              exact hh ⟨fun h => absurd h hp, fun h => absurd h hq⟩
            exact mul_nonpos_of_nonneg_of_nonpos this.le (not_lt.1 hp)
    · intro j hj h0
      refine (mem _).2 ⟨j, (grid j).1 hj, ?_, rfl⟩
      simp [hit, h0]
    · intro j hj hc
      refine (mem _).2 ⟨j + 1, (grid _).1 hj, ?_, rfl⟩
      unfold hit prevSign
      simp only [Nat.add_one_ne_zero, if_false, Nat.add_sub_cancel, Bool.or_eq_true,
        decide_eq_true_eq]
      right
      rcases mul_neg_iff.1 hc with ⟨a, b⟩ | ⟨a, b⟩
      · rw [decide_eq_false (not_lt.2 b.le), decide_eq_true a]; exact Bool.false_ne_true
      · rw [decide_eq_true b, decide_eq_false (not_lt.2 a.le)]; exact Bool.noConfusion
    · rw [h3, List.pairwise_map]
      refine (List.Pairwise.filter _ List.pairwise_lt_range).imp ?_
      intro a b hab
      have : (a : K) * step < b * step := mul_lt_mul_of_pos_right (by exact_mod_cast hab) hs
      dsimp only
      linarith

/-- `f(x) = x` on `[-1, 1]` with step `1/2` has one root, which is a grid point: the grid point
after it is reported as well. -/
theorem C84_once_refuted :
    bisection1d (fun x : ℚ => x) (1 / 2) (-1) 1 20 =
      some ([(0, 0), (1 / 2, 1 / 2)], some (-1)) := by decide +kernel

/-! ## C85: `bisection_2d` -/

/-- Inside the range. -/
theorem bisStep_spec (f : K × K → K) {r b : Box K} (h : Within r b) :
    Within r (bisStep f b) ∧ (bisStep f b).x1 - (bisStep f b).x0 = (b.x1 - b.x0) / 2 ∧
      (bisStep f b).y1 - (bisStep f b).y0 = (b.y1 - b.y0) / 2 := by
  obtain ⟨h1, h2, h3, h4, h5, h6⟩ := h
  unfold bisStep Within
  dsimp only
  split_ifs <;> dsimp only <;> refine ⟨⟨?_, ?_, ?_, ?_, ?_, ?_⟩, ?_, ?_⟩ <;> linarith

theorem bis2_spec {f : K × K → K} {tol : K} {r : Box K} (k : Nat) :
    ∀ {b b' : Box K}, Within r b → bis2 f tol k b = some b' →
      Within r b' ∧ b'.x1 - b'.x0 ≤ 2 * tol ∧ b'.y1 - b'.y0 ≤ 2 * tol := by
  induction k with
  | zero => intro b b' _ h; simp [bis2] at h
  | succ k ih =>
    intro b b' hb h
    rw [bis2] at h
    split_ifs at h with c
    · exact ih (bisStep_spec f hb).1 h
    · cases h
      push Not at c
      exact ⟨hb, by linarith [c.1], by linarith [c.2]⟩

theorem bis2_some {f : K × K → K} {tol : K} {r : Box K} (k : Nat) :
    ∀ {b : Box K}, Within r b → (b.x1 - b.x0) * (1 / 2) ^ k < tol →
      (b.y1 - b.y0) * (1 / 2) ^ k < tol → 0 < tol → ∃ b', bis2 f tol (k + 1) b = some b' := by
  induction k with
  | zero =>
    intro b hb h1 h2 ht
    rw [pow_zero, mul_one] at h1 h2
    refine ⟨b, by rw [bis2, if_neg]; push Not; exact ⟨by linarith, by linarith⟩⟩
  | succ k ih =>
    intro b hb h1 h2 ht
    rw [bis2]
    by_cases c : (b.x1 - b.x0) / 2 > tol ∨ (b.y1 - b.y0) / 2 > tol
    · rw [if_pos c]
      obtain ⟨s1, s3, s4⟩ := bisStep_spec f hb
      rw [pow_succ] at h1 h2
      refine ih s1 ?_ ?_ ht
      · rw [s3]
        calc _ = (b.x1 - b.x0) * ((1 / 2) ^ k * (1 / 2)) := by ring
          _ < tol := h1
      · rw [s4]
        calc _ = (b.y1 - b.y0) * ((1 / 2) ^ k * (1 / 2)) := by ring
          _ < tol := h2
    · exact ⟨b, if_neg c⟩

/-- For every function, range and positive tolerance: `None` is returned exactly when the values at
the two diagonal corners have the same sign; otherwise the search ends with a point of the range. -/
theorem C85_terminates [Archimedean K] (f : K × K → K) (tol : K) (r : Box K) (hr : Within r r)
    (ht : 0 < tol) :
    (∃ k o, bisection2d f tol r k = some o) ∧
    ∀ k o, bisection2d f tol r k = some o →
      (o = none ↔ f (r.x0, r.y0) * f (r.x1, r.y1) > 0) ∧ ∀ p, o = some p → InBox p r := by
  constructor
  · by_cases c : f (r.x0, r.y0) * f (r.x1, r.y1) > 0
    · exact ⟨0, none, if_pos c⟩
    · obtain ⟨k1, hk1⟩ := enough (r.x1 - r.x0) ht (1 / 2) (by norm_num) (by norm_num)
      obtain ⟨k2, hk2⟩ := enough (r.y1 - r.y0) ht (1 / 2) (by norm_num) (by norm_num)
      have mono : ∀ (w : K) (i j : Nat), 0 ≤ w → i ≤ j → w * (1 / 2) ^ j ≤ w * (1 / 2) ^ i := by
        intro w i j hw hij
        exact mul_le_mul_of_nonneg_left (pow_le_pow_of_le_one (by norm_num) (by norm_num) hij) hw
      have hw1 : 0 ≤ r.x1 - r.x0 := by have := hr.2.1; linarith
      have hw2 : 0 ≤ r.y1 - r.y0 := by have := hr.2.2.2.2.1; linarith
      obtain ⟨b, hb⟩ := bis2_some (f := f) (max k1 k2) hr
        ((mono _ _ _ hw1 (le_max_left k1 k2)).trans_lt hk1)
        ((mono _ _ _ hw2 (le_max_right k1 k2)).trans_lt hk2) ht
      exact ⟨_, _, by rw [bisection2d, if_neg c, hb]; rfl⟩
  · intro k o h
    rw [bisection2d] at h
    split_ifs at h with c
    · cases h
      simp [c]
    · obtain ⟨b, hb, rfl⟩ := Option.map_eq_some_iff.1 h
      refine ⟨by simp [c], ?_⟩
      intro p hp
      cases hp
      obtain ⟨⟨h1, h2, h3, h4, h5, h6⟩, _⟩ := bis2_spec k hr hb
      refine ⟨?_, ?_, ?_, ?_⟩ <;> dsimp only <;> linarith

/-- A point of a subdivision of the range into `2^n` by `2^n` cells. -/
def Dyadic (r : Box K) (q : K × K) : Prop :=
  (∃ n i : Nat, q.1 = r.x0 + (r.x1 - r.x0) * (i / 2 ^ n)) ∧
  ∃ n i : Nat, q.2 = r.y0 + (r.y1 - r.y0) * (i / 2 ^ n)

theorem dy_mid {a w x y : K} (hx : ∃ n i : Nat, x = a + w * (i / 2 ^ n))
    (hy : ∃ n i : Nat, y = a + w * (i / 2 ^ n)) :
    ∃ n i : Nat, (x + y) / 2 = a + w * (i / 2 ^ n) := by
  obtain ⟨n, i, rfl⟩ := hx
  obtain ⟨m, j, rfl⟩ := hy
  refine ⟨n + m + 1, i * 2 ^ m + j * 2 ^ n, ?_⟩
  have h1 : (2 : K) ^ n ≠ 0 := by positivity
  have h2 : (2 : K) ^ m ≠ 0 := by positivity
  push_cast
  rw [pow_succ, pow_add]
  field_simp
  ring

/-- The corners of the box are points of a subdivision. -/
structure DyBox (r b : Box K) : Prop where
  x0 : ∃ n i : Nat, b.x0 = r.x0 + (r.x1 - r.x0) * (i / 2 ^ n)
  x1 : ∃ n i : Nat, b.x1 = r.x0 + (r.x1 - r.x0) * (i / 2 ^ n)
  y0 : ∃ n i : Nat, b.y0 = r.y0 + (r.y1 - r.y0) * (i / 2 ^ n)
  y1 : ∃ n i : Nat, b.y1 = r.y0 + (r.y1 - r.y0) * (i / 2 ^ n)

/-- Two opposite corners have values of opposite signs. -/
def Crosses (f : K × K → K) (b : Box K) : Prop :=
  f (b.x0, b.y0) * f (b.x1, b.y1) < 0 ∨ f (b.x1, b.y0) * f (b.x0, b.y1) < 0

theorem opp {a b c : K} (h : a * b < 0) (hc : c ≠ 0) : a * c < 0 ∨ b * c < 0 := by
  rcases mul_neg_iff.1 h with ⟨h1, h2⟩ | ⟨h1, h2⟩ <;> rcases lt_or_gt_of_ne hc with h3 | h3
  · exact Or.inl (mul_neg_of_pos_of_neg h1 h3)
  · exact Or.inr (mul_neg_of_neg_of_pos h2 h3)
  · exact Or.inr (mul_neg_of_pos_of_neg h2 h3)
  · exact Or.inl (mul_neg_of_neg_of_pos h1 h3)

theorem bisStep_crosses {f : K × K → K} {r b : Box K} (hf : ∀ q, Dyadic r q → f q ≠ 0)
    (hd : DyBox r b) (hc : Crosses f b) : DyBox r (bisStep f b) ∧ Crosses f (bisStep f b) := by
  have mx := dy_mid hd.x0 hd.x1
  have my := dy_mid hd.y0 hd.y1
  have hm : f ((b.x0 + b.x1) / 2, (b.y0 + b.y1) / 2) ≠ 0 := hf _ ⟨mx, my⟩
  unfold bisStep
  dsimp only
  by_cases c1 : f (b.x0, b.y0) * f ((b.x0 + b.x1) / 2, (b.y0 + b.y1) / 2) < 0
  · rw [if_pos c1]
    exact ⟨⟨hd.x0, mx, hd.y0, my⟩, Or.inl c1⟩
  rw [if_neg c1]
  by_cases c2 : f (b.x1, b.y0) * f ((b.x0 + b.x1) / 2, (b.y0 + b.y1) / 2) < 0
  · rw [if_pos c2]
    exact ⟨⟨mx, hd.x1, hd.y0, my⟩, Or.inr c2⟩
  rw [if_neg c2]
  by_cases c3 : f (b.x0, b.y1) * f ((b.x0 + b.x1) / 2, (b.y0 + b.y1) / 2) < 0
  · rw [if_pos c3]
    exact ⟨⟨hd.x0, mx, my, hd.y1⟩, Or.inr (by rw [mul_comm]; exact c3)⟩
  rw [if_neg c3]
  by_cases c4 : f (b.x1, b.y1) * f ((b.x0 + b.x1) / 2, (b.y0 + b.y1) / 2) < 0
  · rw [if_pos c4]
    exact ⟨⟨mx, hd.x1, my, hd.y1⟩, Or.inl (by rw [mul_comm]; exact c4)⟩
  exfalso
  rcases hc with hc | hc <;> rcases opp hc hm with h | h
  · exact c1 h
  · exact c4 h
  · exact c2 h
  · exact c3 h

theorem bis2_crosses {f : K × K → K} {tol : K} {r : Box K} (hf : ∀ q, Dyadic r q → f q ≠ 0)
    (k : Nat) : ∀ {b b' : Box K}, DyBox r b → Crosses f b → bis2 f tol k b = some b' →
      Crosses f b' := by
  induction k with
  | zero => intro b b' _ _ h; simp [bis2] at h
  | succ k ih =>
    intro b b' hd hc h
    rw [bis2] at h
    split_ifs at h with c
    · obtain ⟨g1, g2⟩ := bisStep_crosses hf hd hc
      exact ih g1 g2 h
    · cases h; exact hc

/-- A continuous function with values of opposite signs at two points of a box has a root in it. -/
theorem root_between {f : ℝ × ℝ → ℝ} (hf : Continuous f) {b : Box ℝ} {p q : ℝ × ℝ}
    (hp : InBox p b) (hq : InBox q b) (h : f p * f q < 0) : ∃ z, InBox z b ∧ f z = 0 := by
  let g : ℝ → ℝ × ℝ := fun t => (p.1 + t * (q.1 - p.1), p.2 + t * (q.2 - p.2))
  have hg : Continuous g := by fun_prop
  have hfg : ContinuousOn (fun t => f (g t)) (Set.Icc 0 1) := (hf.comp hg).continuousOn
  have g0 : g 0 = p := by simp [g]
  have g1 : g 1 = q := by simp [g]
  have hin : ∀ t ∈ Set.Icc (0 : ℝ) 1, InBox (g t) b := by
    rintro t ⟨t0, t1⟩
    obtain ⟨p1, p2, p3, p4⟩ := hp
    obtain ⟨q1, q2, q3, q4⟩ := hq
    refine ⟨?_, ?_, ?_, ?_⟩ <;> dsimp only [g] <;> nlinarith
  rcases mul_neg_iff.1 h with ⟨h1, h2⟩ | ⟨h1, h2⟩
  · have := intermediate_value_Icc' zero_le_one hfg
    obtain ⟨t, ht, hz⟩ := this (show (0 : ℝ) ∈ Set.Icc (f (g 1)) (f (g 0)) by
      rw [g0, g1]; exact ⟨h2.le, h1.le⟩)
    exact ⟨g t, hin t ht, hz⟩
  · have := intermediate_value_Icc zero_le_one hfg
    obtain ⟨t, ht, hz⟩ := this (show (0 : ℝ) ∈ Set.Icc (f (g 0)) (f (g 1)) by
      rw [g0, g1]; exact ⟨h1.le, h2.le⟩)
    exact ⟨g t, hin t ht, hz⟩

/-- For a continuous function on the plane, nonzero at the points of the dyadic subdivisions: the
returned point is within the tolerance, in each coordinate, of a root in the range.

`_partial`: the hypothesis on the dyadic points is needed, `C85_zero_midpoint_refuted`. -/
theorem C85_root_partial {f : ℝ × ℝ → ℝ} (hf : Continuous f) (tol : ℝ) (r : Box ℝ)
    (hr : Within r r) (hd : ∀ q, Dyadic r q → f q ≠ 0) (k : Nat) (p : ℝ × ℝ)
    (h : bisection2d f tol r k = some (some p)) :
    ∃ z, f z = 0 ∧ InBox z r ∧ |p.1 - z.1| ≤ tol ∧ |p.2 - z.2| ≤ tol := by
  rw [bisection2d] at h
  by_cases c : f (r.x0, r.y0) * f (r.x1, r.y1) > 0
  · rw [if_pos c] at h; cases h
  rw [if_neg c] at h
  obtain ⟨b, hb, hp⟩ := Option.map_eq_some_iff.1 h
  cases hp
  have lo : ∃ n i : Nat, r.x0 = r.x0 + (r.x1 - r.x0) * ((i : ℝ) / 2 ^ n) := ⟨0, 0, by simp⟩
  have hi : ∃ n i : Nat, r.x1 = r.x0 + (r.x1 - r.x0) * ((i : ℝ) / 2 ^ n) := ⟨0, 1, by simp⟩
  have lo' : ∃ n i : Nat, r.y0 = r.y0 + (r.y1 - r.y0) * ((i : ℝ) / 2 ^ n) := ⟨0, 0, by simp⟩
  have hi' : ∃ n i : Nat, r.y1 = r.y0 + (r.y1 - r.y0) * ((i : ℝ) / 2 ^ n) := ⟨0, 1, by simp⟩
  have hc : Crosses f r := by
    left
    have := mul_ne_zero (hd (r.x0, r.y0) ⟨lo, lo'⟩) (hd (r.x1, r.y1) ⟨hi, hi'⟩)
    exact lt_of_le_of_ne (not_lt.1 c) this
  have hcb := bis2_crosses hd k ⟨lo, hi, lo', hi'⟩ hc hb
  obtain ⟨⟨h1, h2, h3, h4, h5, h6⟩, w1, w2⟩ := bis2_spec k hr hb
  have hz : ∃ z, InBox z b ∧ f z = 0 := by
    rcases hcb with hcb | hcb
    · exact root_between hf (p := (b.x0, b.y0)) (q := (b.x1, b.y1))
        ⟨le_rfl, h2, le_rfl, h5⟩ ⟨h2, le_rfl, h5, le_rfl⟩ hcb
    · exact root_between hf (p := (b.x1, b.y0)) (q := (b.x0, b.y1))
        ⟨h2, le_rfl, le_rfl, h5⟩ ⟨le_rfl, h2, h5, le_rfl⟩ hcb
  obtain ⟨z, ⟨z1, z2, z3, z4⟩, hz0⟩ := hz
  refine ⟨z, hz0, ⟨h1.trans z1, z2.trans h3, h4.trans z3, z4.trans h6⟩, ?_, ?_⟩ <;>
    rw [abs_le] <;> constructor <;> dsimp only <;> linarith

/-- A polynomial on `[-1, 1]²` whose only roots there are on the line `x + y = 0`. -/
def spread (p : ℚ × ℚ) : ℚ := (p.1 + p.2) * (11 / 10 - p.1) ^ 2 * (11 / 10 - p.2) ^ 2

/-- The value at the first midpoint is zero, and the search ends at a point far from every root. -/
theorem C85_zero_midpoint_refuted :
    (∀ z, InBox z ⟨-1, 1, -1, 1⟩ → spread z = 0 → z.1 + z.2 = 0) ∧
    bisection2d spread (1 / 8) ⟨-1, 1, -1, 1⟩ 20 = some (some (7 / 8, 7 / 8)) := by
  constructor
  · rintro ⟨x, y⟩ hb h
    have h2 := hb.2.1
    have h4 := hb.2.2.2
    dsimp only at h2 h4 ⊢
    unfold spread at h
    dsimp only at h
    have h2 : (x : ℚ) ≤ 1 := h2
    have h4 : (y : ℚ) ≤ 1 := h4
    rcases mul_eq_zero.1 h with h | h
    · rcases mul_eq_zero.1 h with h | h
      · exact h
      · have := pow_eq_zero_iff (two_ne_zero) |>.1 h; linarith
    · have := pow_eq_zero_iff (two_ne_zero) |>.1 h; linarith
  · decide +kernel

/-- The hypotheses of `C85_root_partial` hold for `x + y - 1/3` on `[0, 1]²`. -/
example : Continuous (fun p : ℝ × ℝ => p.1 + p.2 - 1 / 3) ∧
    Within (⟨0, 1, 0, 1⟩ : Box ℝ) ⟨0, 1, 0, 1⟩ ∧
    (∀ q, Dyadic (⟨0, 1, 0, 1⟩ : Box ℝ) q → q.1 + q.2 - 1 / 3 ≠ 0) := by
  refine ⟨by fun_prop, ⟨by norm_num, by norm_num, by norm_num, by norm_num, by norm_num,
    by norm_num⟩, ?_⟩
  rintro ⟨x, y⟩ ⟨⟨n, i, hx⟩, m, j, hy⟩ h
  dsimp only at hx hy h
  rw [hx, hy] at h
  have h1 : (2 : ℝ) ^ n ≠ 0 := by positivity
  have h2 : (2 : ℝ) ^ m ≠ 0 := by positivity
  field_simp at h
  have h' : 3 * (i * 2 ^ m + j * 2 ^ n) = 2 ^ (n + m) := by
    have : (3 * (i * 2 ^ m + j * 2 ^ n) : ℝ) = 2 ^ (n + m) := by
      rw [pow_add]; linarith
    exact_mod_cast this
  have : 3 ∣ 2 ^ (n + m) := ⟨_, h'.symm⟩
  have := Nat.Prime.dvd_of_dvd_pow Nat.prime_three this
  omega

example : bisection2d (fun p : ℚ × ℚ => p.1 + p.2 - 1 / 3) (1 / 16) ⟨0, 1, 0, 1⟩ 20 =
    some (some (3 / 16, 3 / 16)) := by decide +kernel

/-! ## C86: `scalar_min_1d` -/

/-- Exact comparison. -/
def exact (a b : K) : Bool := decide (a = b)

theorem firstMin_eq (g : Nat → K) (n i : Nat) (hi : i < n)
    (h : ∀ j < n, j ≠ i → g i < g j) : firstMin exact g n = some i := by
  have hm : argmin g 0 (List.range n) = i := by
    by_contra hc
    have hlt : argmin g 0 (List.range n) < n := by
      rcases argmin_mem g (List.range n) 0 with h' | h'
      · rw [h']; omega
      · exact List.mem_range.1 h'
    exact absurd (h _ hlt hc) (not_lt.2 ((argmin_le g (List.range n) 0).2 i (List.mem_range.2 hi)))
  unfold firstMin
  dsimp only
  rw [hm, List.find?_range_eq_some]
  refine ⟨by simp [exact], List.mem_range.2 hi, ?_⟩
  intro j hj
  have := h j (by omega) (by omega)
  simp [exact, this.ne']

/-- When the values decrease along the grid there is no next point: the search returns the last grid
point or fails. -/
theorem wrap_dec (f : K → K) (step : K) (n k : Nat) (a b : K) (hn : 2 ≤ n)
    (h : ∀ i j, i < j → j < n → f (linspace a b n j) < f (linspace a b n i)) :
    wrap exact f step n (k + 1) a b =
      if |linspace a b n 0 - linspace a b n 1| ≤ step then .val (linspace a b n (n - 1))
      else .indexError := by
  rw [wrap]
  try dsimp only
  rw [firstMin_eq _ n (n - 1) (by omega) (fun j hj hne => h j (n - 1) (by omega) (by omega))]
  dsimp only
  split_ifs with c1 c2
  · rfl
  · rfl
  all_goals omega

theorem lin_succ (a b : K) (n j : Nat) :
    linspace a b n (j + 1) = linspace a b n j + (b - a) / ((n : K) - 1) := by
  unfold linspace; push_cast; ring

theorem lin_last (a b : K) (n : Nat) (hn : 2 ≤ n) : linspace a b n (n - 1) = b := by
  unfold linspace
  have : ((n - 1 : Nat) : K) = (n : K) - 1 := by
    rw [Nat.cast_sub (by omega)]; simp
  rw [this]
  have h2 : (2 : K) ≤ n := by exact_mod_cast hn
  have : (n : K) - 1 ≠ 0 := by intro h; linarith
  field_simp
  ring

theorem lin_lt {a b : K} (h : a < b) {n i j : Nat} (hn : 2 ≤ n) (hij : i < j) :
    linspace a b n i < linspace a b n j := by
  unfold linspace
  have h2 : (2 : K) ≤ n := by exact_mod_cast hn
  have : 0 < (b - a) / ((n : K) - 1) := div_pos (by linarith) (by linarith)
  have : (i : K) * ((b - a) / ((n : K) - 1)) < j * ((b - a) / ((n : K) - 1)) :=
    mul_lt_mul_of_pos_right (by exact_mod_cast hij) this
  linarith

theorem lin_gt {a b : K} (h : b < a) {n i j : Nat} (hn : 2 ≤ n) (hij : i < j) :
    linspace a b n j < linspace a b n i := by
  unfold linspace
  have h2 : (2 : K) ≤ n := by exact_mod_cast hn
  have : (b - a) / ((n : K) - 1) < 0 := div_neg_of_neg_of_pos (by linarith) (by linarith)
  have : (j : K) * ((b - a) / ((n : K) - 1)) < i * ((b - a) / ((n : K) - 1)) :=
    mul_lt_mul_of_neg_right (by exact_mod_cast hij) this
  linarith

theorem lin_zero (a b : K) (n : Nat) : linspace a b n 0 = a := by simp [linspace]

theorem lin_le_last {a b : K} (h : a < b) {n j : Nat} (hn : 2 ≤ n) (hj : j < n) :
    linspace a b n j ≤ b := by
  rcases Nat.lt_or_ge j (n - 1) with h' | h'
  · have := lin_lt h hn h'
    rw [lin_last a b n hn] at this
    exact this.le
  · have : j = n - 1 := by omega
    rw [this, lin_last a b n hn]

theorem lin_ge_first {a b : K} (h : a < b) {n j : Nat} (hn : 2 ≤ n) : a ≤ linspace a b n j := by
  rcases Nat.eq_zero_or_pos j with h' | h'
  · rw [h', lin_zero]
  · have := lin_lt h hn h'
    rw [lin_zero] at this
    exact this.le

/-- For every strictly decreasing function whose minimum is the end of the range, and a first grid
coarser than the step, the call fails with an `IndexError`; for every strictly increasing function it
does too. -/
theorem C86_boundary_refuted (f : K → K) (step a b : K) (n k : Nat) (hn : 3 ≤ n) (hab : a < b)
    (hstep : step < (b - a) / ((n : K) - 1) * (((n : K) - 2) / ((n : K) - 1))) :
    ((∀ x y, a ≤ x → x < y → y ≤ b → f y < f x) → wrap exact f step n (k + 1) a b = .indexError) ∧
    ((∀ x y, a ≤ x → x < y → y ≤ b → f x < f y) → wrap exact f step n (k + 2) a b = .indexError) := by
  have h3 : (3 : K) ≤ n := by exact_mod_cast hn
  have hh : 0 < (b - a) / ((n : K) - 1) := div_pos (by linarith) (by linarith)
  have hstep1 : step < (b - a) / ((n : K) - 1) := by
    refine hstep.trans_le ?_
    have : ((n : K) - 2) / ((n : K) - 1) ≤ 1 := by
      rw [div_le_one (by linarith)]; linarith
    nlinarith
  have e01 : |linspace a b n 0 - linspace a b n 1| = (b - a) / ((n : K) - 1) := by
    rw [lin_succ a b n 0, sub_add_cancel_left, abs_neg, abs_of_pos hh]
  constructor
  · intro hd
    rw [wrap_dec f step n k a b (by omega)]
    · rw [e01, if_neg (not_le.2 hstep1)]
    · intro i j hij hj
      exact hd _ _ (lin_ge_first hab (by omega)) (lin_lt hab (by omega) hij)
        (lin_le_last hab (by omega) hj)
  · intro hi
    rw [wrap]
    try dsimp only
    rw [firstMin_eq _ n 0 (by omega) (fun j hj hne => hi _ _ (by rw [lin_zero])
      (lin_lt hab (by omega) (by omega)) (lin_le_last hab (by omega) hj))]
    dsimp only
    rw [e01, if_neg (not_le.2 hstep1), if_neg (by omega), if_pos rfl, lin_last a b n (by omega)]
    have h1b : linspace a b n (0 + 1) < b := by
      have := lin_lt (n := n) hab (by omega) (show 0 + 1 < n - 1 by omega)
      rwa [lin_last a b n (by omega)] at this
    rw [wrap_dec f step n k _ _ (by omega)]
    · rw [if_neg]
      rw [not_le]
      have hneg : (linspace a b n (0 + 1) - b) / ((n : K) - 1) < 0 :=
        div_neg_of_neg_of_pos (by linarith) (by linarith)
      rw [lin_succ b (linspace a b n (0 + 1)) n 0, sub_add_cancel_left, abs_neg, abs_of_neg hneg]
      refine hstep.trans_le (le_of_eq ?_)
      rw [lin_succ a b n 0, lin_zero]
      have : (n : K) - 1 ≠ 0 := by intro h; linarith
      field_simp
      ring
    · intro i j hij hj
      refine hi _ _ ?_ (lin_gt h1b (by omega) hij) ?_
      · have : linspace b (linspace a b n (0 + 1)) n (n - 1) ≤
            linspace b (linspace a b n (0 + 1)) n j := by
          rcases Nat.lt_or_ge j (n - 1) with h' | h'
          · exact (lin_gt h1b (by omega) h').le
          · have : j = n - 1 := by omega
            rw [this]
        rw [lin_last _ _ n (by omega)] at this
        have h0 := lin_ge_first (n := n) (j := 0 + 1) hab (by omega)
        exact h0.trans this
      · rcases Nat.eq_zero_or_pos i with h' | h'
        · rw [h', lin_zero]
        · have := lin_gt (n := n) h1b (by omega) h'
          rw [lin_zero] at this
          exact this.le

example : wrap exact (fun x : ℚ => x) (1 / 100) 32 5 0 1 = .indexError := by decide +kernel

/-- On a strictly unimodal function, with exact comparison and at least three divisions, a value that
is returned is within two steps of the minimiser.

`_partial`: nothing may be returned at all, `C86_boundary_refuted`. -/
theorem C86_min_partial (f : K → K) (step A B xs : K) (n : Nat) (hn : 3 ≤ n)
    (hu : Unimodal f A B xs) (k : Nat) : ∀ (a b x : K), A ≤ a → b ≤ B → a < b → a ≤ xs → xs ≤ b →
      wrap exact f step n k a b = .val x → |x - xs| ≤ 2 * step := by
  induction k with
  | zero => intro a b x _ _ _ _ _ h; simp [wrap] at h
  | succ k ih =>
    intro a b x hA hB hab ha hb h
    have h3 : (3 : K) ≤ n := by exact_mod_cast hn
    have hh : 0 < (b - a) / ((n : K) - 1) := div_pos (by linarith) (by linarith)
    have e01 : |linspace a b n 0 - linspace a b n 1| = (b - a) / ((n : K) - 1) := by
      rw [lin_succ a b n 0, sub_add_cancel_left, abs_neg, abs_of_pos hh]
    have hstrict : ∀ i j, i < j → linspace a b n i < linspace a b n j :=
      fun i j hij => lin_lt hab (by omega) hij
    have hge : ∀ j, A ≤ linspace a b n j := fun j => hA.trans (lin_ge_first hab (by omega))
    have hle : ∀ j, j < n → linspace a b n j ≤ B := fun j hj =>
      (lin_le_last hab (by omega) hj).trans hB
    rw [wrap] at h
    try dsimp only at h
    cases hf : firstMin exact (fun j => f (linspace a b n j)) n with
    | none => rw [hf] at h; simp at h
    | some i =>
      rw [hf] at h
      dsimp only at h
      -- `i` is a least grid index
      unfold firstMin at hf
      dsimp only at hf
      rw [List.find?_range_eq_some] at hf
      obtain ⟨hi1, hi2, -⟩ := hf
      have hi2 := List.mem_range.1 hi2
      have hmin : ∀ j < n, f (linspace a b n i) ≤ f (linspace a b n j) := by
        intro j hj
        have e : f (linspace a b n i) = _ := of_decide_eq_true hi1
        rw [e]
        exact (argmin_le (fun j => f (linspace a b n j)) (List.range n) 0).2 j (List.mem_range.2 hj)
      -- the minimiser is between the neighbours
      have hr : i + 1 < n → xs ≤ linspace a b n (i + 1) := by
        intro hi
        by_contra hc
        have := hu.dec _ _ (hge i) (hstrict i (i + 1) (by omega)) (not_le.1 hc).le
        exact absurd (hmin (i + 1) hi) (not_le.2 this)
      have hl : 0 < i → linspace a b n (i - 1) ≤ xs := by
        intro hi
        by_contra hc
        have := hu.inc _ _ (not_le.1 hc).le (hstrict (i - 1) i (by omega)) (hle i hi2)
        exact absurd (hmin (i - 1) (by omega)) (not_le.2 this)
      have s1 := lin_succ a b n i
      have s0 : 0 < i → linspace a b n i = linspace a b n (i - 1) + (b - a) / ((n : K) - 1) := by
        intro hi
        have := lin_succ a b n (i - 1)
        rwa [Nat.sub_add_cancel hi] at this
      split_ifs at h with c1 c2 c3
      · injection h with h
        subst h
        rw [e01] at c1
        rw [abs_le]
        constructor
        · by_cases hi : i + 1 < n
          · have := hr hi; linarith
          · have : i = n - 1 := by omega
            rw [this, lin_last a b n (by omega)]
            linarith
        · rcases Nat.eq_zero_or_pos i with hi | hi
          · rw [hi, lin_zero]; linarith
          · have := hl hi; have := s0 hi; linarith
      · -- the reversed range
        subst c3
        rw [lin_last a b n (by omega)] at h
        have h1b : linspace a b n (0 + 1) < b := by
          have := hstrict (0 + 1) (n - 1) (by omega)
          rwa [lin_last a b n (by omega)] at this
        have hx1 := hr (by omega)
        cases k with
        | zero => simp [wrap] at h
        | succ k =>
        rw [wrap_dec f step n k _ _ (by omega)] at h
        · split_ifs at h with c4
          injection h with h
          rw [lin_last _ _ n (by omega)] at h
          subst h
          have hneg : (linspace a b n (0 + 1) - b) / ((n : K) - 1) < 0 :=
            div_neg_of_neg_of_pos (by linarith) (by linarith)
          rw [lin_succ b (linspace a b n (0 + 1)) n 0, sub_add_cancel_left, abs_neg, abs_of_neg hneg,
            lin_succ a b n 0,
            lin_zero] at c4
          rw [abs_of_nonneg (by linarith), lin_succ a b n 0, lin_zero]
          have hn1 : (n : K) - 1 ≠ 0 := by intro h; linarith
          have e2 : -((a + (b - a) / ((n : K) - 1) - b) / ((n : K) - 1)) =
              (b - a) / ((n : K) - 1) * (((n : K) - 2) / ((n : K) - 1)) := by
            field_simp
            ring
          rw [e2] at c4
          have e3 : 1 / 2 ≤ ((n : K) - 2) / ((n : K) - 1) := by
            rw [div_le_div_iff₀ (by norm_num) (by linarith)]; linarith
          nlinarith
        · intro i j hij hj
          refine hu.inc _ _ ?_ (lin_gt h1b (by omega) hij) ?_
          · have : linspace b (linspace a b n (0 + 1)) n (n - 1) ≤
                linspace b (linspace a b n (0 + 1)) n j := by
              rcases Nat.lt_or_ge j (n - 1) with h' | h'
              · exact (lin_gt h1b (by omega) h').le
              · have : j = n - 1 := by omega
                rw [this]
            rw [lin_last _ _ n (by omega)] at this
            exact hx1.trans this
          · rcases Nat.eq_zero_or_pos i with h' | h'
            · rw [h', lin_zero]; exact hB
            · have := lin_gt (n := n) h1b (by omega) h'
              rw [lin_zero] at this
              exact this.le.trans hB
      · exact ih _ _ x (hge _) (hle _ (by omega)) (hstrict _ _ (by omega)) (hl (by omega))
          (hr (by omega)) h

example : Unimodal (fun x : ℚ => x * x) (-1) 2 0 ∧
    wrap exact (fun x : ℚ => x * x) (1 / 10) 5 15 (-1) 2 = .val (1 / 32) := by
  refine ⟨⟨by norm_num, by norm_num, ?_, ?_⟩, by decide +kernel⟩
  · intro x y _ h1 h2; nlinarith
  · intro x y h1 h2 _; nlinarith

end Verif.DnC
