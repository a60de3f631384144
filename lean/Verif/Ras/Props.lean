import Verif.Ras.Model
import Mathlib.Tactic.Ring
import Mathlib.Tactic.Linarith
import Mathlib.Tactic.FieldSimp
import Mathlib.Tactic.Positivity
import Mathlib.Tactic.NormNum

/-! # C446 -/

set_option linter.unusedSectionVars false

namespace Verif.Ras

open Verif.Cbb

variable {K : Type} [Field K] [LinearOrder K] [IsStrictOrderedRing K]

theorem scan_ok {f : List K → Except Err K} {fv : K × K → K} (hf : ∀ p, f [p.1, p.2] = .ok (fv p)) {grad : K × K → Except Err (K × K)}
    {gv : K × K → K × K} (hg : ∀ p, grad p = .ok (gv p)) (nrm : K × K → K) {cp : K × K → Except Err (K × K)} {cv : K × K → K × K}
    (hc : ∀ p, cp p = .ok (cv p)) (gamma dmax : K) : ∀ l : List (K × K),
    scan f grad nrm cp gamma dmax l = .ok ((l.filter fun p => near nrm gamma dmax (fv p) (gv p)).map cv) := by
  intro l
  induction l with
  | nil => rfl
  | cons p l ih =>
    unfold scan
    rw [hf, hg, ih, hc]
    simp only [bind, Except.bind, List.filter_cons]
    split <;> rfl

theorem mem_gridPts {x0 x1 y0 y1 : K} {nx ny : Nat} {p : K × K} : p ∈ gridPts x0 x1 y0 y1 nx ny ↔ p.1 ∈ linspace x0 x1 nx ∧ p.2 ∈ linspace y0 y1 ny := by
  obtain ⟨a, b⟩ := p
  simp only [gridPts, List.mem_flatMap, List.mem_map, Prod.mk.injEq]
  constructor
  · rintro ⟨x, hx, y, hy, rfl, rfl⟩; exact ⟨hx, hy⟩
  · rintro ⟨hx, hy⟩; exact ⟨a, hx, b, hy, rfl, rfl⟩

theorem mem_linspace {a b x : K} {n : Nat} (hn : 2 ≤ n) : x ∈ linspace a b n ↔ ∃ i : Nat, i < n ∧ x = a + (i : K) * ((b - a) / ((n : K) - 1)) := by
  unfold linspace
  rw [if_neg (by omega)]
  simp only [List.mem_map, List.mem_range]
  constructor
  · rintro ⟨i, h, e⟩; exact ⟨i, h, e.symm⟩
  · rintro ⟨i, h, e⟩; exact ⟨i, h, e.symm⟩

/-- Within half a step of every number in the interval there is a number of `linspace`. -/
theorem near_linspace {a b x : K} {n : Nat} (hn : 2 ≤ n) (ha : a ≤ x) (hb : x ≤ b) :
    ∃ y ∈ linspace a b n, |x - y| ≤ (b - a) / ((n : K) - 1) / 2 := by
  have hn' : (0 : K) < (n : K) - 1 := by
    have : (2 : K) ≤ (n : K) := by exact_mod_cast hn
    linarith
  set s := (b - a) / ((n : K) - 1) with hs
  have hend : a + ((n : K) - 1) * s = b := by rw [hs]; field_simp; ring
  have key : ∀ k : Nat, k + 1 ≤ n → x ≤ a + (k : K) * s → ∃ i : Nat, i < n ∧ |x - (a + (i : K) * s)| ≤ s / 2 := by
    intro k
    have hs0 : 0 ≤ s := div_nonneg (by linarith) hn'.le
    induction k with
    | zero =>
      intro hk hx
      refine ⟨0, by omega, ?_⟩
      push_cast at hx ⊢
      rw [show x - (a + 0 * s) = 0 by linarith, abs_zero]
      linarith
    | succ k ih =>
      intro hk hx
      rcases le_or_gt x (a + (k : K) * s) with h | h
      · exact ih (by omega) h
      · push_cast at hx
        rcases le_or_gt (x - (a + (k : K) * s)) (s / 2) with h2 | h2
        · exact ⟨k, by omega, abs_le.2 ⟨by linarith, h2⟩⟩
        · refine ⟨k + 1, by omega, abs_le.2 ⟨?_, ?_⟩⟩ <;> push_cast <;> linarith
  obtain ⟨i, hi, h⟩ := key (n - 1) (by omega) (by
    have : ((n - 1 : Nat) : K) = (n : K) - 1 := by
      rw [Nat.cast_sub (by omega)]; norm_num
    rw [this, hend]
    exact hb)
  exact ⟨_, (mem_linspace hn).2 ⟨i, hi, rfl⟩, h⟩

/-- **C446** (part).  With a gradient, `general_implicit=True` and a grid of at least one point the call returns the images under `curve_point` of exactly
the points of the grid with nonzero gradient and `|f| / |∇f| < gamma * d_max`. -/
theorem C446_partial {f : List K → Except Err K} {fv : K × K → K} (hf : ∀ p, f [p.1, p.2] = .ok (fv p)) {grad : K × K → Except Err (K × K)}
    {gv : K × K → K × K} (hg : ∀ p, grad p = .ok (gv p)) (nrm : K × K → K) (h : K) {cp : K × K → Except Err (K × K)} {cv : K × K → K × K}
    (hc : ∀ p, cp p = .ok (cv p)) (x0 x1 y0 y1 : K) (nx ny : Nat) (hx : nx ≠ 0) (hy : ny ≠ 0) (gamma : K) :
    ∃ r, raster f (some grad) nrm h cp true x0 x1 y0 y1 nx ny gamma = .ok r ∧ ∀ q, q ∈ r ↔
      ∃ x ∈ linspace x0 x1 nx, ∃ y ∈ linspace y0 y1 ny, nrm (gv (x, y)) ≠ 0 ∧
        |fv (x, y)| / nrm (gv (x, y)) < gamma * max ((x1 - x0) / nx) ((y1 - y0) / ny) ∧ q = cv (x, y) := by
  refine ⟨((gridPts x0 x1 y0 y1 nx ny).filter fun p => near nrm gamma (max ((x1 - x0) / (nx : K)) ((y1 - y0) / (ny : K))) (fv p) (gv p)).map cv, ?_, fun q => ?_⟩
  · unfold raster
    rw [if_neg (by tauto), if_pos rfl, Option.getD_some]
    exact scan_ok hf hg nrm hc gamma _ _
  · simp only [List.mem_map, List.mem_filter, mem_gridPts, near, Bool.and_eq_true, decide_eq_true_eq]
    constructor
    · rintro ⟨⟨x, y⟩, ⟨⟨h1, h2⟩, h3, h4⟩, rfl⟩
      exact ⟨x, h1, y, h2, h3, h4, rfl⟩
    · rintro ⟨x, h1, y, h2, h3, h4, rfl⟩
      exact ⟨(x, y), ⟨⟨h1, h2⟩, h3, h4⟩, rfl⟩

/-- **C446** (part), no part of the curve is missed.  `m` is a lower bound of the length of the gradient and `L` a Lipschitz constant of `f` in the sum of
the distances of the coordinates.  If `gamma * d_max * m` is above `L` times the half sum of the steps then for every point of the curve in the rectangle
the result has the image of a point of the grid within half a step in both coordinates. -/
theorem C446_complete_partial {f : List K → Except Err K} {fv : K × K → K} (hf : ∀ p, f [p.1, p.2] = .ok (fv p)) {grad : K × K → Except Err (K × K)}
    {gv : K × K → K × K} (hg : ∀ p, grad p = .ok (gv p)) (nrm : K × K → K) (h : K) {cp : K × K → Except Err (K × K)} {cv : K × K → K × K}
    (hc : ∀ p, cp p = .ok (cv p)) (x0 x1 y0 y1 : K) (nx ny : Nat) (hx : 2 ≤ nx) (hy : 2 ≤ ny) (gamma m L : K) (hm : 0 < m)
    (hgm : ∀ p, m ≤ nrm (gv p)) (hL : 0 ≤ L) (hlip : ∀ p q, |fv p - fv q| ≤ L * (|p.1 - q.1| + |p.2 - q.2|))
    (hgam : L * ((x1 - x0) / ((nx : K) - 1) / 2 + (y1 - y0) / ((ny : K) - 1) / 2) < gamma * max ((x1 - x0) / nx) ((y1 - y0) / ny) * m)
    (p : K × K) (hp : fv p = 0) (hpx : x0 ≤ p.1 ∧ p.1 ≤ x1) (hpy : y0 ≤ p.2 ∧ p.2 ≤ y1) :
    ∃ r, raster f (some grad) nrm h cp true x0 x1 y0 y1 nx ny gamma = .ok r ∧
      ∃ g : K × K, cv g ∈ r ∧ |p.1 - g.1| ≤ (x1 - x0) / ((nx : K) - 1) / 2 ∧ |p.2 - g.2| ≤ (y1 - y0) / ((ny : K) - 1) / 2 := by
  obtain ⟨r, h1, h2⟩ := C446_partial hf hg nrm h hc x0 x1 y0 y1 nx ny (by omega) (by omega) gamma
  obtain ⟨x, hx1, hx2⟩ := near_linspace (n := nx) hx hpx.1 hpx.2
  obtain ⟨y, hy1, hy2⟩ := near_linspace (n := ny) hy hpy.1 hpy.2
  refine ⟨r, h1, (x, y), (h2 _).2 ⟨x, hx1, y, hy1, ?_, ?_, rfl⟩, hx2, hy2⟩
  · exact ne_of_gt (lt_of_lt_of_le hm (hgm _))
  · have h3 := hlip p (x, y)
    rw [hp, zero_sub, abs_neg] at h3
    have h4 : |fv (x, y)| ≤ L * ((x1 - x0) / ((nx : K) - 1) / 2 + (y1 - y0) / ((ny : K) - 1) / 2) :=
      le_trans h3 (mul_le_mul_of_nonneg_left (add_le_add hx2 hy2) hL)
    have h5 : |fv (x, y)| < gamma * max ((x1 - x0) / nx) ((y1 - y0) / ny) * m := lt_of_le_of_lt h4 hgam
    have h6 := hgm (x, y)
    rw [div_lt_iff₀ (lt_of_lt_of_le hm h6)]
    have h7 : 0 < gamma * max ((x1 - x0) / nx) ((y1 - y0) / ny) := by
      by_contra hneg
      have := mul_nonpos_of_nonpos_of_nonneg (not_lt.1 hneg) hm.le
      exact absurd (lt_of_le_of_lt (abs_nonneg _) h5) (not_lt.2 this)
    exact lt_of_lt_of_le h5 (mul_le_mul_of_nonneg_left h6 h7.le)

/-- **C446** refuted, a missed curve.  With the default `gamma = 1/2` the straight line `y = c` between two neighbouring rows of a grid of `n * n` points on a square
is not found at all, for all `n ≥ 2`: `d_max` is the side divided by `n`, the step of the grid the side divided by `n - 1`. -/
theorem C446_missed_refuted {f : List K → Except Err K} (l : K) (hl : 0 < l) (n : Nat) (hn : 2 ≤ n) (k : Nat)
    (hf : ∀ p : K × K, f [p.1, p.2] = .ok (p.2 - ((k : K) + 1 / 2) * (l / ((n : K) - 1))))
    {grad : K × K → Except Err (K × K)} (hg : ∀ p, grad p = .ok (0, 1)) (nrm : K × K → K) (hnrm : nrm (0, 1) = 1) (h : K)
    {cp : K × K → Except Err (K × K)} {cv : K × K → K × K} (hc : ∀ p, cp p = .ok (cv p)) :
    raster f (some grad) nrm h cp true 0 l 0 l n n (1 / 2) = .ok [] := by
  obtain ⟨r, h1, h2⟩ := C446_partial hf hg nrm h hc 0 l 0 l n n (by omega) (by omega) (1 / 2)
  rw [h1]
  congr 1
  refine List.eq_nil_iff_forall_not_mem.2 fun q hq => ?_
  obtain ⟨x, -, y, hy, -, h4, -⟩ := (h2 q).1 hq
  obtain ⟨j, -, rfl⟩ := (mem_linspace hn).1 hy
  have hn2 : (2 : K) ≤ (n : K) := by exact_mod_cast hn
  have hn' : (0 : K) < (n : K) - 1 := by linarith
  simp only [hnrm, div_one, sub_zero, zero_add, max_self] at h4
  set s := l / ((n : K) - 1) with hs
  have hs0 : 0 < s := div_pos hl hn'
  have h5 : l / (n : K) < s := by
    rw [hs]
    exact div_lt_div_of_pos_left hl hn' (by linarith)
  have h6 : s / 2 ≤ |(j : K) * s - ((k : K) + 1 / 2) * s| := by
    rcases Nat.lt_or_ge k j with hjk | hjk
    · have : (k : K) + 1 ≤ (j : K) := by exact_mod_cast hjk
      refine le_trans ?_ (le_abs_self _)
      nlinarith [mul_le_mul_of_nonneg_right this hs0.le]
    · have : (j : K) ≤ (k : K) := by exact_mod_cast hjk
      refine le_trans ?_ (neg_le_abs _)
      nlinarith [mul_le_mul_of_nonneg_right this hs0.le]
  have : (1 : K) / 2 * (l / (n : K)) < s / 2 := by linarith
  linarith

/-- **C446** refuted, the default gradient.  For a function of two arguments the call raises, since the tuple of three given to it is refused. -/
theorem C446_grad_refuted {f : List K → Except Err K} {fv : K × K → K} (hf : ∀ p, f [p.1, p.2] = .ok (fv p)) (h3 : ∀ a b c, f [a, b, c] = .error .arity)
    (nrm : K × K → K) (h : K) (cp : K × K → Except Err (K × K)) (general : Bool) (x0 x1 y0 y1 : K) (nx ny : Nat) (hx : nx ≠ 0) (hy : ny ≠ 0) (gamma : K) :
    raster f none nrm h cp general x0 x1 y0 y1 nx ny gamma = .error .arity := by
  unfold raster
  rw [if_neg (by tauto), Option.getD_none]
  have hne : gridPts x0 x1 y0 y1 nx ny ≠ [] := by
    have hl : ∀ (a b : K) (n : Nat), n ≠ 0 → a ∈ linspace a b n := by
      intro a b n hn
      unfold linspace
      split_ifs
      · simp
      · exact List.mem_map.2 ⟨0, List.mem_range.2 (by omega), by simp⟩
    intro he
    have := (mem_gridPts (p := (x0, y0))).2 ⟨hl x0 x1 nx hx, hl y0 y1 ny hy⟩
    rw [he] at this
    simp at this
  rcases hgp : gridPts x0 x1 y0 y1 nx ny with _ | ⟨p, l⟩
  · exact absurd hgp hne
  · unfold scan
    have e : defaultGrad f h p = .error .arity := by
      unfold defaultGrad
      rw [show f [p.1 + h, p.2] = .ok (fv (p.1 + h, p.2)) from hf (p.1 + h, p.2), h3]
      rfl
    rw [hf p, e]
    rfl

/-- **C446** refuted, `general_implicit=False`.  If a point of the grid is near the curve the call raises: the function `grad` is multiplied with a number. -/
theorem C446_special_refuted {f : List K → Except Err K} {fv : K × K → K} (hf : ∀ p, f [p.1, p.2] = .ok (fv p)) {grad : K × K → Except Err (K × K)}
    {gv : K × K → K × K} (hg : ∀ p, grad p = .ok (gv p)) (nrm : K × K → K) (h : K) (cp : K × K → Except Err (K × K))
    (x0 x1 y0 y1 : K) (nx ny : Nat) (hx : nx ≠ 0) (hy : ny ≠ 0) (gamma : K) {x y : K} (hxm : x ∈ linspace x0 x1 nx) (hym : y ∈ linspace y0 y1 ny)
    (h1 : nrm (gv (x, y)) ≠ 0) (h2 : |fv (x, y)| / nrm (gv (x, y)) < gamma * max ((x1 - x0) / nx) ((y1 - y0) / ny)) :
    raster f (some grad) nrm h cp false x0 x1 y0 y1 nx ny gamma = .error .type := by
  unfold raster
  rw [if_neg (by tauto), if_neg (by simp), Option.getD_some]
  have hm := (mem_gridPts (p := (x, y))).2 ⟨hxm, hym⟩
  generalize gridPts x0 x1 y0 y1 nx ny = l at hm
  generalize max ((x1 - x0) / (nx : K)) ((y1 - y0) / (ny : K)) = dmax at h2
  induction l with
  | nil => simp at hm
  | cons p l ih =>
    unfold scan
    rw [hf, hg]
    simp only [bind, Except.bind]
    split_ifs with hnear
    · rfl
    · rcases List.mem_cons.1 hm with rfl | hm
      · exact absurd (by simp [near, h1, h2]) hnear
      · exact ih hm

/-- The line `y = 1/3` on the square with a grid of 3 points a side and the line `y = 1/4`. -/
example : raster (K := ℚ) (fun l => match l with | [_, y] => .ok (y - 3 / 8) | _ => .error .arity) (some fun _ => .ok (0, 1)) (fun g => |g.1| + |g.2|) 1
      (fun p => .ok (p.1, 3 / 8)) true 0 1 0 1 3 3 (1 / 2) = .ok [(0, 3 / 8), (1 / 2, 3 / 8), (1, 3 / 8)] ∧
    raster (K := ℚ) (fun l => match l with | [_, y] => .ok (y - 1 / 4) | _ => .error .arity) (some fun _ => .ok (0, 1)) (fun g => |g.1| + |g.2|) 1
      (fun p => .ok (p.1, 1 / 4)) true 0 1 0 1 3 3 (1 / 2) = .ok [] ∧
    raster (K := ℚ) (fun l => match l with | [_, y] => .ok (y - 3 / 8) | _ => .error .arity) none (fun g => |g.1| + |g.2|) 1
      (fun p => .ok (p.1, 3 / 8)) true 0 1 0 1 3 3 (1 / 2) = .error .arity ∧
    raster (K := ℚ) (fun l => match l with | [_, y] => .ok (y - 3 / 8) | _ => .error .arity) (some fun _ => .ok (0, 1)) (fun g => |g.1| + |g.2|) 1
      (fun p => .ok (p.1, 3 / 8)) false 0 1 0 1 3 3 (1 / 2) = .error .type := by
  refine ⟨?_, ?_, ?_, ?_⟩ <;> decide +kernel

/-- The hypotheses of `C446_complete_partial` for `y = 1/4`, a grid of 3 points a side, `gamma = 2`, `m = L = 1`. -/
example : (1 : ℚ) * (((1 : ℚ) - 0) / (((3 : ℕ) : ℚ) - 1) / 2 + ((1 : ℚ) - 0) / (((3 : ℕ) : ℚ) - 1) / 2) < 2 * max (((1 : ℚ) - 0) / (3 : ℕ)) (((1 : ℚ) - 0) / (3 : ℕ)) * 1 ∧
    ∀ p q : ℚ × ℚ, |(p.2 - 1 / 4) - (q.2 - 1 / 4)| ≤ 1 * (|p.1 - q.1| + |p.2 - q.2|) := by
  refine ⟨by norm_num, fun p q => ?_⟩
  rw [show p.2 - 1 / 4 - (q.2 - 1 / 4) = p.2 - q.2 by ring]
  have := abs_nonneg (p.1 - q.1)
  linarith

/-! ## `pull_curve` -/

/-- **C447** refuted.  `solveIvp` evaluates the right side at its start, hence raises if this does.  Then the call raises for all surfaces and curves. -/
theorem C447_refuted {A B U S : Type} (solveIvp : (K → U → Except Err B) → K × K → U → Except Err S)
    (hs : ∀ rhs span u e, rhs span.1 u = .error e → solveIvp rhs span u = .error e) (body : A → A → A → A → A → B) (add : A → A → A)
    (surf : U → A) (ders : U → A × A) (inversion : A → U) (crv dcrv : K → A) (interval : K × K) :
    pullCurve solveIvp body add surf ders inversion crv dcrv interval = .error .arity := by
  unfold pullCurve pullWith
  exact hs _ _ _ _ rfl

/-- **C447** (part), for every right side in place of the one that raises.  The curve on the surface begins at the inversion of the start of the curve; it ends
at the parameter 5, so that it covers the interval of the curve only if this ends there. -/
theorem C447_partial {A B U S : Type} (solveIvp : (K → U → Except Err B) → K × K → U → Except Err S) (rhs : K → U → Except Err B)
    (inversion : A → U) (crv : K → A) (interval : K × K) (first : S → K × U) (last : S → K)
    (hs : ∀ rhs span u s, solveIvp rhs span u = .ok s → first s = (span.1, u) ∧ last s = span.2) {s : S}
    (h : pullWith solveIvp rhs inversion crv interval = .ok s) :
    first s = (interval.1, inversion (crv interval.1)) ∧ (last s = interval.2 ↔ interval.2 = 5) := by
  obtain ⟨h1, h2⟩ := hs _ _ _ _ h
  refine ⟨h1, ?_⟩
  rw [h2]
  exact eq_comm

/-- One step of Euler's method on the interval `[0, 1]`: it ends at the parameter 5. -/
example : pullWith (K := ℚ) (A := ℚ) (fun rhs span u => do let d ← rhs span.1 u; return ((span.1, u), span.2, u + (span.2 - span.1) * d)) (fun _ _ => .ok (1 : ℚ))
    (fun x => 2 * x) (fun t => t + 1) (0, 1) = .ok ((0, 2), 5, 7) := by decide +kernel

end Verif.Ras
