import Verif.Ccx.Lemmas
import Mathlib.Algebra.Order.Field.Rat
import Mathlib.Data.Rat.Floor
import Mathlib.Tactic.IntervalCases
import Mathlib.Tactic.LinearCombination

/-! # C226, C227: `curve_ppx` -/

set_option linter.unusedSectionVars false

namespace Verif.Ccx

open Verif.Mol (V)

variable {K : Type} [Field K] [LinearOrder K] [IsStrictOrderedRing K] [FloorRing K]
variable {κ : Type} [DecidableEq κ]

/-- What rounding to a multiple of `q` has to do with the groups. -/
def Rounds (key : K × K → κ) (q : K) : Prop := ∀ p p', key p = key p' → |p.1 - p'.1| ≤ q ∧ |p.2 - p'.2| ≤ q

/-- **C226.**  The result of `curve_ppx` comes from a list of pairs of parameters, each in the intervals (a piece may run past
the end by less than one), with points within the tolerance.  The list is divided into groups of equal rounded values, each
group is replaced by its mean, and the means are sorted by the first parameter. -/
theorem C226_search_partial (key : K × K → κ) (c1 c2 : K → V K) (tol : K) (fuel : ℕ) (r1 r2 : K × K) (h1 : r1.1 ≤ r1.2)
    (h2 : r2.1 ≤ r2.2) (res : List (K × K)) (h : curvePpx key c1 c2 tol fuel r1 r2 = some res) :
    ∃ (found : List (K × K)) (groups : List (List (K × K))),
      (∀ p ∈ found, (r1.1 ≤ p.1 ∧ p.1 < r1.2 + 1) ∧ (r2.1 ≤ p.2 ∧ p.2 < r2.2 + 1) ∧
        (r1.2 - r1.1 ≤ 1 → p.1 ≤ r1.2) ∧ (r2.2 - r2.1 ≤ 1 → p.2 ≤ r2.2) ∧ dist2 (c1 p.1) (c2 p.2) ≤ tol ^ 2) ∧
      groups.flatten.Perm found ∧ (∀ g ∈ groups, g ≠ [] ∧ ∀ p ∈ g, ∀ q ∈ g, key p = key q) ∧
      (groups.Pairwise fun g g' => ∀ p ∈ g, ∀ q ∈ g', key p ≠ key q) ∧
      res.Perm (groups.map average) ∧ res.Pairwise fun a b => a.1 ≤ b.1 := by
  obtain ⟨found, hf, rfl⟩ := Option.map_eq_some_iff.1 h
  refine ⟨found, group key found, ?_, group_perm key found, group_key key found, group_distinct key found, ?_, ?_⟩
  · intro x hx
    obtain ⟨p, hp, q, hq, a, ha, hxa⟩ := (search_mem hf).2 x hx
    obtain ⟨p1, p2, p3, p4, -⟩ := pieces_range h1 p hp
    obtain ⟨q1, q2, q3, q4, -⟩ := pieces_range h2 q hq
    obtain ⟨s1, s2, s3⟩ := recInt_sound fuel ha p2 q2 x hxa
    refine ⟨⟨p1.trans s1.1, lt_of_le_of_lt s1.2 p3⟩, ⟨q1.trans s2.1, lt_of_le_of_lt s2.2 q3⟩, ?_, ?_, s3⟩
    · intro hr
      have := p4 hr
      subst this
      exact s1.2
    · intro hr
      have := q4 hr
      subst this
      exact s2.2
  · exact List.perm_insertionSort _ _
  · have : Std.Total (fun p q : K × K => p.1 ≤ q.1) := ⟨fun a b => le_total _ _⟩
    have : IsTrans (K × K) (fun p q : K × K => p.1 ≤ q.1) := ⟨fun a b c => le_trans⟩
    exact List.pairwise_insertionSort _ _

/-- **C226.**  Each pair returned is within the rounding of a pair of points within the tolerance; and each pair found is within
the rounding of a pair returned. -/
theorem C226_near_partial (key : K × K → κ) (q : K) (hq : Rounds key q) (c1 c2 : K → V K) (tol : K) (fuel : ℕ) (r1 r2 : K × K)
    (h1 : r1.1 ≤ r1.2) (h2 : r2.1 ≤ r2.2) (res : List (K × K)) (h : curvePpx key c1 c2 tol fuel r1 r2 = some res) :
    ∀ p ∈ res, ∃ s t, |p.1 - s| ≤ q ∧ |p.2 - t| ≤ q ∧ dist2 (c1 s) (c2 t) ≤ tol ^ 2 ∧
      r1.1 ≤ s ∧ s < r1.2 + 1 ∧ r2.1 ≤ t ∧ t < r2.2 + 1 := by
  obtain ⟨found, groups, f1, f2, f3, -, f5, -⟩ := C226_search_partial key c1 c2 tol fuel r1 r2 h1 h2 res h
  intro p hp
  obtain ⟨g, hg, rfl⟩ := List.mem_map.1 (f5.mem_iff.1 hp)
  obtain ⟨hne, hk⟩ := f3 g hg
  obtain ⟨⟨s, t⟩, hst⟩ := List.exists_mem_of_ne_nil g hne
  have hst' := f1 (s, t) (f2.mem_iff.1 (List.mem_flatten.2 ⟨g, hg, hst⟩))
  refine ⟨s, t, ?_, ?_, hst'.2.2.2.2, hst'.1.1, hst'.1.2, hst'.2.1.1, hst'.2.1.2⟩
  · have b : ∀ x ∈ g.map Prod.fst, s - q ≤ x ∧ x ≤ s + q := by
      intro x hx
      obtain ⟨y, hy, rfl⟩ := List.mem_map.1 hx
      have := (hq y (s, t) (hk y hy _ hst)).1
      rw [abs_le] at this
      constructor <;> linarith [this.1, this.2]
    have hne' : g.map Prod.fst ≠ [] := by simpa using hne
    have m1 := mean_le _ hne' (s + q) (fun x hx => (b x hx).2)
    have m2 := le_mean _ hne' (s - q) (fun x hx => (b x hx).1)
    rw [List.length_map] at m1 m2
    rw [abs_le]
    constructor <;> simp only [average] <;> linarith
  · have b : ∀ x ∈ g.map Prod.snd, t - q ≤ x ∧ x ≤ t + q := by
      intro x hx
      obtain ⟨y, hy, rfl⟩ := List.mem_map.1 hx
      have := (hq y (s, t) (hk y hy _ hst)).2
      rw [abs_le] at this
      constructor <;> linarith [this.1, this.2]
    have hne' : g.map Prod.snd ≠ [] := by simpa using hne
    have m1 := mean_le _ hne' (t + q) (fun x hx => (b x hx).2)
    have m2 := le_mean _ hne' (t - q) (fun x hx => (b x hx).1)
    rw [List.length_map] at m1 m2
    rw [abs_le]
    constructor <;> simp only [average] <;> linarith

theorem abs_le_of_dist2 {a b : V K} {tol : K} (ht : 0 ≤ tol) (h : dist2 a b ≤ tol ^ 2) :
    |a.x - b.x| ≤ tol ∧ |a.y - b.y| ≤ tol ∧ |a.z - b.z| ≤ tol := by
  unfold dist2 at h
  have e1 := sq_nonneg (a.x - b.x)
  have e2 := sq_nonneg (a.y - b.y)
  have e3 := sq_nonneg (a.z - b.z)
  exact ⟨abs_le_of_sq_le_sq (by linarith) ht, abs_le_of_sq_le_sq (by linarith) ht, abs_le_of_sq_le_sq (by linarith) ht⟩

/-- **C226.**  On curves of bounded speed the points of a pair returned differ in each coordinate by at most the tolerance and
what the rounding can add. -/
theorem C226_speed_partial (key : K × K → κ) (q : K) (hq : Rounds key q) (c1 c2 : K → V K) (tol L1 L2 : K) (ht : 0 ≤ tol)
    (hL1 : 0 ≤ L1) (hL2 : 0 ≤ L2) (l1 : ∀ r, Lip c1 L1 r) (l2 : ∀ r, Lip c2 L2 r) (fuel : ℕ) (r1 r2 : K × K)
    (h1 : r1.1 ≤ r1.2) (h2 : r2.1 ≤ r2.2) (res : List (K × K)) (h : curvePpx key c1 c2 tol fuel r1 r2 = some res) :
    ∀ p ∈ res, |(c1 p.1).x - (c2 p.2).x| ≤ tol + (L1 + L2) * q ∧ |(c1 p.1).y - (c2 p.2).y| ≤ tol + (L1 + L2) * q ∧
      |(c1 p.1).z - (c2 p.2).z| ≤ tol + (L1 + L2) * q := by
  intro p hp
  obtain ⟨s, t, hs, ht', hd, -⟩ := C226_near_partial key q hq c1 c2 tol fuel r1 r2 h1 h2 res h p hp
  obtain ⟨d1, d2, d3⟩ := abs_le_of_dist2 ht hd
  obtain ⟨a1, a2, a3⟩ := l1 (min p.1 s, max p.1 s) p.1 s (min_le_left _ _) (le_max_left _ _) (min_le_right _ _) (le_max_right _ _)
  obtain ⟨b1, b2, b3⟩ := l2 (min p.2 t, max p.2 t) p.2 t (min_le_left _ _) (le_max_left _ _) (min_le_right _ _) (le_max_right _ _)
  have e1 := mul_le_mul_of_nonneg_left hs hL1
  have e2 := mul_le_mul_of_nonneg_left ht' hL2
  have tri : ∀ A B C D : K, |A - B| ≤ L1 * |p.1 - s| → |B - C| ≤ tol → |D - C| ≤ L2 * |p.2 - t| → |A - D| ≤ tol + (L1 + L2) * q := by
    intro A B C D x1 x2 x3
    rw [abs_le] at x1 x2 x3 ⊢
    constructor <;> linarith [x1.1, x1.2, x2.1, x2.2, x3.1, x3.2]
  exact ⟨tri _ _ _ _ a1 d1 b1, tri _ _ _ _ a2 d2 b2, tri _ _ _ _ a3 d3 b3⟩

/-- **C226 fails** for the tolerance: the mean of two pairs near two different intersections is returned, and its points are
farther apart than the tolerance. -/
theorem C226_tolerance_refuted :
    ∃ (c1 c2 : ℚ → V ℚ) (p : ℚ × ℚ),
      curvePpx (fun p => (⌊10 * p.1 + 1 / 2⌋, ⌊10 * p.2 + 1 / 2⌋)) c1 c2 (1 / 10) 5 (36 / 64, 40 / 64) (0, 1) = some [p] ∧
      (1 / 10) ^ 2 < dist2 (c1 p.1) (c2 p.2) ∧ c1 (37 / 64) = c2 0 ∧ c1 (39 / 64) = c2 0 := by
  refine ⟨fun s => ⟨16 * (|s - 38 / 64| - 1 / 64), 0, 0⟩, fun t => ⟨0, t / 1000, 0⟩, (38 / 64, 1 / 4), ?_, ?_, ?_, ?_⟩
  · decide +kernel
  · decide +kernel
  · decide +kernel
  · decide +kernel

/-! ## Boxes of samples which enclose the curve -/

/-- The function rises or falls on the range. -/
def Mon (g : K → K) (r : K × K) : Prop :=
  (∀ s t, r.1 ≤ s → s ≤ t → t ≤ r.2 → g s ≤ g t) ∨ (∀ s t, r.1 ≤ s → s ≤ t → t ≤ r.2 → g t ≤ g s)

omit [FloorRing K] in
/-- On curves whose coordinates rise or fall the eight samples give an enclosing box. -/
theorem eager_encl {c : K → V K} {r0 : K × K} (hx : Mon (fun t => (c t).x) r0) (hy : Mon (fun t => (c t).y) r0)
    (hz : Mon (fun t => (c t).z) r0) : Encl (aabbEager c) c r0 := by
  intro r a1 a2 a3 t t1 t2
  have i1 : In (aabbEager c r) (c r.1) := aabb_in _ _ _ List.mem_cons_self
  have i2 : In (aabbEager c r) (c r.2) := aabb_in _ _ _ (List.mem_cons_of_mem _ (List.mem_map.2 ⟨r.2, last_mem _ _, rfl⟩))
  have gen : ∀ (g : K → K) (lo hi : K), Mon g r0 → lo ≤ g r.1 → g r.1 ≤ hi → lo ≤ g r.2 → g r.2 ≤ hi → lo ≤ g t ∧ g t ≤ hi := by
    intro g lo hi hm g1 g2 g3 g4
    rcases hm with hm | hm
    · exact ⟨g1.trans (hm r.1 t a1 t1 (t2.trans a3)), (hm t r.2 (a1.trans t1) t2 a3).trans g4⟩
    · exact ⟨g3.trans (hm t r.2 (a1.trans t1) t2 a3), (hm r.1 t a1 t1 (t2.trans a3)).trans g2⟩
  obtain ⟨x0, x1⟩ := gen _ _ _ hx i1.x0 i1.x1 i2.x0 i2.x1
  obtain ⟨y0, y1⟩ := gen _ _ _ hy i1.y0 i1.y1 i2.y0 i2.y1
  obtain ⟨z0, z1⟩ := gen _ _ _ hz i1.z0 i1.z1 i2.z0 i2.z1
  exact ⟨x0, x1, y0, y1, z0, z1⟩

/-- The segment from `p` in the direction `u`. -/
def line (p u : V K) (s : K) : V K := Mol.add p (Mol.smul s u)

omit [FloorRing K] in
theorem affine_mon (p u : K) (r : K × K) : Mon (fun s => p + s * u) r := by
  rcases le_total 0 u with hu | hu
  · left
    intro s t _ h _
    have := mul_le_mul_of_nonneg_right h hu
    dsimp only
    linarith
  · right
    intro s t _ h _
    have := mul_le_mul_of_nonpos_right h hu
    dsimp only
    linarith

omit [FloorRing K] in
theorem line_encl (p u : V K) (r : K × K) : Encl (aabbEager (line p u)) (line p u) r :=
  eager_encl (affine_mon p.x u.x r) (affine_mon p.y u.y r) (affine_mon p.z u.z r)

omit [FloorRing K] in
theorem line_lip (p u : V K) (r : K × K) : Lip (line p u) (|u.x| + |u.y| + |u.z|) r := by
  intro s t _ _ _ _
  have hx := abs_nonneg u.x
  have hy := abs_nonneg u.y
  have hz := abs_nonneg u.z
  have h := abs_nonneg (s - t)
  have gen : ∀ a b : K, |b| ≤ |u.x| + |u.y| + |u.z| → |(a + s * b) - (a + t * b)| ≤ (|u.x| + |u.y| + |u.z|) * |s - t| := by
    intro a b hb
    rw [show (a + s * b) - (a + t * b) = b * (s - t) by ring, abs_mul]
    exact mul_le_mul_of_nonneg_right hb h
  exact ⟨gen p.x u.x (by linarith), gen p.y u.y (by linarith), gen p.z u.z (by linarith)⟩

/-- **C227.**  On curves of bounded speed and with a positive tolerance `curve_ppx` returns. -/
theorem C227_terminates (key : K × K → κ) (c1 c2 : K → V K) (tol L1 L2 : K) (ht : 0 < tol) (hL1 : 0 ≤ L1) (hL2 : 0 ≤ L2)
    (l1 : ∀ r, Lip c1 L1 r) (l2 : ∀ r, Lip c2 L2 r) (r1 r2 : K × K) (h1 : r1.1 ≤ r1.2) (h2 : r2.1 ≤ r2.2) :
    ∃ N, ∀ fuel, N ≤ fuel → ∃ res, curvePpx key c1 c2 tol fuel r1 r2 = some res := by
  obtain ⟨k, hk⟩ := pow_unbounded_of_one_lt ((L1 + L2) / tol) (by norm_num : (1 : K) < 2)
  refine ⟨k + 1, fun fuel hf => ?_⟩
  have hs : ∃ res, search (aabbEager c1) (aabbEager c2) c1 c2 tol fuel r1 r2 = some res := by
    apply search_some
    intro p hp q hq
    obtain ⟨p1, p2, -, -, p5⟩ := pieces_range h1 p hp
    obtain ⟨q1, q2, -, -, q5⟩ := pieces_range h2 q hq
    apply recInt_ends ht hL1 hL2 k p2 q2 (l1 p) (l2 q) _ fuel (by omega)
    rw [div_lt_iff₀ ht] at hk
    have e1 := mul_le_mul_of_nonneg_left p5 hL1
    have e2 := mul_le_mul_of_nonneg_left q5 hL2
    linarith
  obtain ⟨res, hs⟩ := hs
  exact ⟨merge key res, by unfold curvePpx; rw [hs]; rfl⟩

/-- **C227.**  Where the coordinates of the curves rise or fall (the boxes of the samples then enclose the curves), curves
which meet have a nonempty result. -/
theorem C227_nonempty_partial (key : K × K → κ) (c1 c2 : K → V K) (tol : K) (fuel : ℕ) (r1 r2 : K × K)
    (e1 : Encl (aabbEager c1) c1 (r1.1, r1.2 + 1)) (e2 : Encl (aabbEager c2) c2 (r2.1, r2.2 + 1)) (s t : K) (s1 : r1.1 ≤ s)
    (s2 : s ≤ r1.2) (t1 : r2.1 ≤ t) (t2 : t ≤ r2.2) (heq : c1 s = c2 t) (res : List (K × K))
    (h : curvePpx key c1 c2 tol fuel r1 r2 = some res) : res ≠ [] := by
  obtain ⟨found, hf, rfl⟩ := Option.map_eq_some_iff.1 h
  obtain ⟨p, hp, p1, p2⟩ := pieces_cover s1 s2
  obtain ⟨q, hq, q1, q2⟩ := pieces_cover t1 t2
  obtain ⟨a, ha, hsub⟩ := (search_mem hf).1 p hp q hq
  obtain ⟨a1, -, a3, -⟩ := pieces_range (s1.trans s2) p hp
  obtain ⟨b1, -, b3, -⟩ := pieces_range (t1.trans t2) q hq
  have hne := recInt_nonempty fuel ha (e1.mono a1 a3.le) (e2.mono b1 b3.le) s t p1 p2 q1 q2 heq
  obtain ⟨x, hx⟩ := List.exists_mem_of_ne_nil a hne
  have hxf := hsub x hx
  obtain ⟨g, hg, -⟩ := List.mem_flatten.1 ((group_perm key found).mem_iff.2 hxf)
  exact List.ne_nil_of_mem ((mem_merge key found (average g)).2 ⟨g, hg, rfl⟩)

/-- **C227 for segments.**  Two segments which are not parallel and cross at the parameters `s0`, `t0`: the result is not empty,
and the first parameter of every pair is within `B` of `s0`, for every `B` with `tol |v| ≤ B |u × v|`. -/
theorem C227_segments (key : K × K → κ) (p u q v : V K) (tol : K) (ht : 0 < tol) (r1 r2 : K × K) (s0 t0 : K)
    (s1 : r1.1 ≤ s0) (s2 : s0 ≤ r1.2) (t1 : r2.1 ≤ t0) (t2 : t0 ≤ r2.2) (heq : line p u s0 = line q v t0) (B : K) (hB : 0 ≤ B)
    (hN : 0 < Mol.dot (Mol.cross u v) (Mol.cross u v))
    (hBN : tol ^ 2 * Mol.dot v v ≤ B ^ 2 * Mol.dot (Mol.cross u v) (Mol.cross u v)) :
    (∃ N, ∀ fuel, N ≤ fuel → ∃ res, curvePpx key (line p u) (line q v) tol fuel r1 r2 = some res) ∧
    ∀ fuel res, curvePpx key (line p u) (line q v) tol fuel r1 r2 = some res → res ≠ [] ∧ ∀ x ∈ res, |x.1 - s0| ≤ B := by
  constructor
  · exact C227_terminates key _ _ tol _ _ ht (by positivity) (by positivity) (line_lip p u) (line_lip q v) r1 r2
      (s1.trans s2) (t1.trans t2)
  · intro fuel res h
    refine ⟨C227_nonempty_partial key _ _ tol fuel r1 r2 (line_encl p u _) (line_encl q v _) s0 t0 s1 s2 t1 t2 heq res h, ?_⟩
    obtain ⟨found, groups, f1, f2, f3, -, f5, -⟩ := C226_search_partial key _ _ tol fuel r1 r2 (s1.trans s2) (t1.trans t2) res h
    have hx : p.x + s0 * u.x = q.x + t0 * v.x := congrArg V.x heq
    have hy : p.y + s0 * u.y = q.y + t0 * v.y := congrArg V.y heq
    have hz : p.z + s0 * u.z = q.z + t0 * v.z := congrArg V.z heq
    have near : ∀ s t, dist2 (line p u s) (line q v t) ≤ tol ^ 2 → |s - s0| ≤ B := by
      intro s t hd
      apply abs_le_of_sq_le_sq _ hB
      apply le_of_mul_le_mul_right _ hN
      refine le_trans ?_ hBN
      have hvv : 0 ≤ Mol.dot v v := by
        unfold Mol.dot
        nlinarith [mul_self_nonneg v.x, mul_self_nonneg v.y, mul_self_nonneg v.z]
      refine le_trans ?_ (mul_le_mul_of_nonneg_right hd hvv)
      have ex : (line p u s).x - (line q v t).x = (s - s0) * u.x - (t - t0) * v.x := by
        simp only [line, Mol.add, Mol.smul]; linear_combination hx
      have ey : (line p u s).y - (line q v t).y = (s - s0) * u.y - (t - t0) * v.y := by
        simp only [line, Mol.add, Mol.smul]; linear_combination hy
      have ez : (line p u s).z - (line q v t).z = (s - s0) * u.z - (t - t0) * v.z := by
        simp only [line, Mol.add, Mol.smul]; linear_combination hz
      unfold dist2
      rw [ex, ey, ez]
      simp only [Mol.dot, Mol.cross]
      have hsq := sq_nonneg (((s - s0) * u.x - (t - t0) * v.x) * v.x + ((s - s0) * u.y - (t - t0) * v.y) * v.y +
        ((s - s0) * u.z - (t - t0) * v.z) * v.z)
      have id : (((s - s0) * u.x - (t - t0) * v.x) ^ 2 + ((s - s0) * u.y - (t - t0) * v.y) ^ 2 +
          ((s - s0) * u.z - (t - t0) * v.z) ^ 2) * (v.x * v.x + v.y * v.y + v.z * v.z) -
          (s - s0) ^ 2 * ((u.y * v.z - u.z * v.y) * (u.y * v.z - u.z * v.y) + (u.z * v.x - u.x * v.z) * (u.z * v.x - u.x * v.z) +
            (u.x * v.y - u.y * v.x) * (u.x * v.y - u.y * v.x)) =
          (((s - s0) * u.x - (t - t0) * v.x) * v.x + ((s - s0) * u.y - (t - t0) * v.y) * v.y +
            ((s - s0) * u.z - (t - t0) * v.z) * v.z) ^ 2 := by ring
      linarith
    intro x hx'
    obtain ⟨g, hg, rfl⟩ := List.mem_map.1 (f5.mem_iff.1 hx')
    have hne : g.map Prod.fst ≠ [] := by simpa using (f3 g hg).1
    have b : ∀ y ∈ g.map Prod.fst, s0 - B ≤ y ∧ y ≤ s0 + B := by
      intro y hy'
      obtain ⟨z, hz', rfl⟩ := List.mem_map.1 hy'
      have := near z.1 z.2 (f1 z (f2.mem_iff.1 (List.mem_flatten.2 ⟨g, hg, hz'⟩))).2.2.2.2
      rw [abs_le] at this
      constructor <;> linarith [this.1, this.2]
    have m1 := mean_le _ hne (s0 + B) (fun x hx => (b x hx).2)
    have m2 := le_mean _ hne (s0 - B) (fun x hx => (b x hx).1)
    rw [List.length_map] at m1 m2
    rw [abs_le]
    constructor <;> simp only [average] <;> linarith

/-! ## What fails -/

/-- **C226 fails** for the interval: for every interval longer than one whose length is not a whole number there is a segment such
that pairs are returned, and all of them lie outside the interval.  The curves are farther apart than the tolerance. -/
theorem C226_interval_refuted (key : K × K → κ) (t0 t1 : K) (hlen : 1 < t1 - t0) (hm : ∀ m : ℕ, t1 - t0 ≠ m) :
    ∃ b, t1 < b ∧ ∀ tol, 0 < tol → tol < b - t1 →
      (∃ N, ∀ fuel, N ≤ fuel → ∃ res,
        curvePpx key (line ⟨0, 0, 0⟩ ⟨1, 0, 0⟩) (line ⟨b, 0, 0⟩ ⟨0, 1, 0⟩) tol fuel (t0, t1) (0, 1) = some res ∧ res ≠ [] ∧
          ∀ x ∈ res, t1 < x.1) ∧
      ∀ s t, s ≤ t1 → tol ^ 2 < dist2 (line (⟨0, 0, 0⟩ : V K) ⟨1, 0, 0⟩ s) (line (⟨b, 0, 0⟩ : V K) ⟨0, 1, 0⟩ t) := by
  have hpos : 0 < ⌈t1 - t0⌉ := Int.ceil_pos.2 (by linarith)
  obtain ⟨k, hk⟩ : ∃ k : ℕ, ⌈t1 - t0⌉ = (k : ℤ) + 1 := ⟨(⌈t1 - t0⌉ - 1).toNat, by omega⟩
  have hc := Int.le_ceil (t1 - t0)
  rw [hk] at hc
  push_cast at hc
  have hb : t1 < t0 + k * 1 + 1 := by
    have h1 := hm (k + 1)
    push_cast at h1
    have h2 : t1 - t0 ≤ k + 1 := hc
    rcases h2.lt_or_eq with h | h
    · linarith
    · exact absurd h h1
  refine ⟨_, hb, fun tol ht htol => ?_⟩
  set b := t0 + (k : K) * 1 + 1 with hbdef
  have far : ∀ s t, dist2 (line (⟨0, 0, 0⟩ : V K) ⟨1, 0, 0⟩ s) (line (⟨b, 0, 0⟩ : V K) ⟨0, 1, 0⟩ t) ≤ tol ^ 2 → b - tol ≤ s := by
    intro s t hd
    have := (abs_le_of_dist2 ht.le hd).1
    simp only [line, Mol.add, Mol.smul] at this
    rw [abs_le] at this
    linarith [this.1]
  constructor
  · obtain ⟨N, hN⟩ := C227_terminates key (line (⟨0, 0, 0⟩ : V K) ⟨1, 0, 0⟩) (line ⟨b, 0, 0⟩ ⟨0, 1, 0⟩) tol _ _ ht (by positivity)
      (by positivity) (line_lip _ _) (line_lip _ _) (t0, t1) (0, 1) (by dsimp only; linarith) (by dsimp only; linarith)
    refine ⟨N, fun fuel hf => ?_⟩
    obtain ⟨res, h⟩ := hN fuel hf
    refine ⟨res, h, ?_, ?_⟩
    · obtain ⟨found, hfd, rfl⟩ := Option.map_eq_some_iff.1 h
      have hp : (t0 + k * 1, b) ∈ pieces (t0, t1) := by
        unfold pieces
        rw [if_pos (by exact hlen)]
        refine List.mem_map.2 ⟨k, ?_, rfl⟩
        rw [List.mem_range, div_one]
        dsimp only
        rw [hk]
        omega
      have hq : ((0, 1) : K × K) ∈ pieces ((0, 1) : K × K) := by
        unfold pieces
        rw [if_neg (by norm_num)]
        simp
      obtain ⟨a, ha, hsub⟩ := (search_mem hfd).1 _ hp _ hq
      have hne := recInt_nonempty fuel ha (line_encl _ _ _) (line_encl _ _ _) b 0 (by dsimp only; linarith) le_rfl le_rfl
        (by dsimp only; linarith) (by simp [line, Mol.add, Mol.smul])
      obtain ⟨x, hx⟩ := List.exists_mem_of_ne_nil a hne
      obtain ⟨g, hg, -⟩ := List.mem_flatten.1 ((group_perm key found).mem_iff.2 (hsub x hx))
      exact List.ne_nil_of_mem ((mem_merge key found (average g)).2 ⟨g, hg, rfl⟩)
    · obtain ⟨found, groups, f1, f2, f3, -, f5, -⟩ := C226_search_partial key _ _ tol fuel (t0, t1) (0, 1)
        (by dsimp only; linarith) (by dsimp only; linarith) res h
      intro x hx'
      obtain ⟨g, hg, rfl⟩ := List.mem_map.1 (f5.mem_iff.1 hx')
      have hne : g.map Prod.fst ≠ [] := by simpa using (f3 g hg).1
      have b' : ∀ y ∈ g.map Prod.fst, b - tol ≤ y := by
        intro y hy'
        obtain ⟨z, hz', rfl⟩ := List.mem_map.1 hy'
        exact far z.1 z.2 (f1 z (f2.mem_iff.1 (List.mem_flatten.2 ⟨g, hg, hz'⟩))).2.2.2.2
      have m2 := le_mean _ hne (b - tol) b'
      rw [List.length_map] at m2
      simp only [average]
      linarith
  · intro s t hs
    by_contra hcon
    have := far s t (not_lt.1 hcon)
    linarith

theorem merge_single (key : K × K → κ) (p : K × K) : merge key [p] = [p] := by
  simp [merge, group, average]

/-- **C227 fails** for curves which meet more than once: on intervals not longer than one, curves whose points at the middle are
within the tolerance have this one pair as the result, wherever else they meet. -/
theorem C227_middle_refuted (key : K × K → κ) (c1 c2 : K → V K) (tol : K) (fuel : ℕ) (r1 r2 : K × K) (w1 : r1.2 - r1.1 ≤ 1)
    (w2 : r2.2 - r2.1 ≤ 1) (ho : aabbOverlap (aabbEager c1 r1) (aabbEager c2 r2) = true)
    (hd : dist2 (c1 (mid r1)) (c2 (mid r2)) ≤ tol ^ 2) :
    curvePpx key c1 c2 tol (fuel + 1) r1 r2 = some [(mid r1, mid r2)] := by
  have hp1 : pieces r1 = [r1] := by unfold pieces; rw [if_neg (not_lt.2 w1)]
  have hp2 : pieces r2 = [r2] := by unfold pieces; rw [if_neg (not_lt.2 w2)]
  have hs : search (aabbEager c1) (aabbEager c2) c1 c2 tol (fuel + 1) r1 r2 = some [(mid r1, mid r2)] := by
    unfold search
    rw [hp1, hp2]
    simp only [List.flatMap_cons, List.map_cons, List.map_nil, List.flatMap_nil, List.append_nil, List.foldr_cons, List.foldr_nil]
    rw [recInt_succ, if_neg (by simp [ho]), if_pos hd]
    rfl
  unfold curvePpx
  rw [hs, Option.map_some, merge_single]

/-- The cubic `y = 16 x (x - 1/4) (x + 1/4)` meets the axis three times between `-1/2` and `1/2`; one pair is returned, for
every tolerance. -/
theorem C227_three_refuted (key : ℚ × ℚ → κ) (tol : ℚ) :
    let c1 : ℚ → V ℚ := fun t => ⟨t, 16 * t * (t - 1 / 4) * (t + 1 / 4), 0⟩
    let c2 : ℚ → V ℚ := fun t => ⟨t, 0, 0⟩
    curvePpx key c1 c2 tol 1 (-1 / 2, 1 / 2) (-1 / 2, 1 / 2) = some [(0, 0)] ∧
      c1 (-1 / 4) = c2 (-1 / 4) ∧ c1 (1 / 4) = c2 (1 / 4) := by
  intro c1 c2
  refine ⟨?_, by decide +kernel, by decide +kernel⟩
  have hm : mid ((-1 / 2, 1 / 2) : ℚ × ℚ) = 0 := by decide +kernel
  have := C227_middle_refuted key c1 c2 tol 0 (-1 / 2, 1 / 2) (-1 / 2, 1 / 2) (by norm_num) (by norm_num) (by decide +kernel)
    (by rw [hm]; simp only [c1, c2, dist2]; norm_num; positivity)
  rw [hm] at this
  exact this

/-- A polynomial which is zero at the eight samples of `[0, 1]`. -/
def bump (s : K) : K :=
  s * (s - 1 / 7) * (s - 2 / 7) * (s - 3 / 7) * (s - 4 / 7) * (s - 5 / 7) * (s - 6 / 7) * (s - 1)

omit [FloorRing K] in
theorem bump_samples : ∀ t ∈ samples (0 : K) 1, bump t = 0 := by
  intro t ht
  obtain ⟨i, hi, rfl⟩ := List.mem_map.1 ht
  rw [List.mem_range] at hi
  unfold bump
  interval_cases i <;> norm_num

omit [FloorRing K] in
theorem aabb_y (p : V K) (ps : List (V K)) (v : K) (h : ∀ q ∈ p :: ps, q.y = v) :
    (aabb p ps).lo.y = v ∧ (aabb p ps).hi.y = v := by
  induction ps with
  | nil => exact ⟨h p List.mem_cons_self, h p List.mem_cons_self⟩
  | cons a ps ih =>
    obtain ⟨h1, h2⟩ := ih (fun q hq => h q (by simp only [List.mem_cons] at hq ⊢; tauto))
    have h3 := h a (by simp)
    unfold aabb
    dsimp only
    rw [h1, h2, h3]
    exact ⟨min_self v, max_self v⟩

/-- **C227 fails** with the boxes of eight samples (`eager=True`, the default): for every height `h` there is a polynomial curve
which passes through the point `(1/14, h)` of the segment at this height, and the result is empty. -/
theorem C227_eager_refuted (key : K × K → κ) (tol h : K) (hh : h ≠ 0) (fuel : ℕ) :
    ∃ A : K,
      let c1 : K → V K := fun s => ⟨s, A * bump s, 0⟩
      let c2 : K → V K := fun s => ⟨s, h, 0⟩
      c1 (1 / 14) = c2 (1 / 14) ∧ curvePpx key c1 c2 tol (fuel + 1) (0, 1) (0, 1) = some [] := by
  have hne : bump (1 / 14 : K) ≠ 0 := by unfold bump; norm_num
  refine ⟨h / bump (1 / 14), ?_⟩
  intro c1 c2
  constructor
  · simp only [c1, c2]
    rw [div_mul_cancel₀ h hne]
  · have y1 : ∀ q ∈ c1 0 :: (samples (0 : K) 1).map c1, q.y = 0 := by
      intro q hq
      rcases List.mem_cons.1 hq with rfl | hq
      · simp [c1, bump]
      · obtain ⟨t, ht, rfl⟩ := List.mem_map.1 hq
        simp only [c1]
        rw [bump_samples t ht, mul_zero]
    have y2 : ∀ q ∈ c2 0 :: (samples (0 : K) 1).map c2, q.y = h := by
      intro q hq
      rcases List.mem_cons.1 hq with rfl | hq
      · rfl
      · obtain ⟨t, ht, rfl⟩ := List.mem_map.1 hq
        rfl
    obtain ⟨a1, a2⟩ := aabb_y _ _ _ y1
    obtain ⟨b1, b2⟩ := aabb_y _ _ _ y2
    have ho : ¬ aabbOverlap (aabbEager c1 (0, 1)) (aabbEager c2 (0, 1)) = true := by
      rw [overlap_iff]
      rintro ⟨-, -, o1, o2, -⟩
      unfold aabbEager at o1 o2
      dsimp only at o1 o2
      rw [a1, b2] at o1
      rw [b1, a2] at o2
      exact hh (le_antisymm o2 o1)
    have hp : pieces ((0, 1) : K × K) = [(0, 1)] := by unfold pieces; rw [if_neg (by norm_num)]
    have hs : search (aabbEager c1) (aabbEager c2) c1 c2 tol (fuel + 1) (0, 1) (0, 1) = some [] := by
      unfold search
      rw [hp]
      simp only [List.flatMap_cons, List.map_cons, List.map_nil, List.flatMap_nil, List.append_nil, List.foldr_cons, List.foldr_nil]
      rw [recInt_succ, if_pos ho]
      rfl
    unfold curvePpx
    rw [hs]
    rfl

/-- Two segments which cross at `(2/5, 3/5)`: the hypotheses of `C227_segments` with `B = 1/50`, and the result. -/
example : line (⟨0, 3 / 5, 0⟩ : V ℚ) ⟨1, 0, 0⟩ (2 / 5) = line ⟨2 / 5, 0, 0⟩ ⟨0, 1, 0⟩ (3 / 5) ∧
    (1 / 100) ^ 2 * Mol.dot (⟨0, 1, 0⟩ : V ℚ) ⟨0, 1, 0⟩ ≤ (1 / 50) ^ 2 *
      Mol.dot (Mol.cross (⟨1, 0, 0⟩ : V ℚ) ⟨0, 1, 0⟩) (Mol.cross ⟨1, 0, 0⟩ ⟨0, 1, 0⟩) ∧
    (curvePpx (fun p => (⌊100 * p.1 + 1 / 2⌋, ⌊100 * p.2 + 1 / 2⌋)) (line (⟨0, 3 / 5, 0⟩ : V ℚ) ⟨1, 0, 0⟩)
      (line ⟨2 / 5, 0, 0⟩ ⟨0, 1, 0⟩) (1 / 100) 12 (0, 1) (0, 1)).map List.length = some 1 := by
  refine ⟨by decide +kernel, by decide +kernel, by decide +kernel⟩

/-- Rounding to a multiple of `1/100` puts values at most `1/100` apart into a group. -/
example : Rounds (fun p : ℚ × ℚ => (⌊100 * p.1 + 1 / 2⌋, ⌊100 * p.2 + 1 / 2⌋)) (1 / 100) := by
  have gen : ∀ x y : ℚ, ⌊100 * x + 1 / 2⌋ = ⌊100 * y + 1 / 2⌋ → |x - y| ≤ 1 / 100 := by
    intro x y h
    have a1 := Int.floor_le (100 * x + 1 / 2)
    have a2 := Int.lt_floor_add_one (100 * x + 1 / 2)
    have b1 := Int.floor_le (100 * y + 1 / 2)
    have b2 := Int.lt_floor_add_one (100 * y + 1 / 2)
    rw [h] at a1 a2
    rw [abs_le]
    constructor <;> linarith
  intro p p' h
  rw [Prod.mk.injEq] at h
  exact ⟨gen _ _ h.1, gen _ _ h.2⟩

end Verif.Ccx
