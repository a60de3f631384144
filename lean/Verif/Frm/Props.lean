import Verif.Frm.Model
import Verif.Pinv.Props
import Mathlib.Tactic.FieldSimp
import Mathlib.Tactic.SplitIfs
import Mathlib.Algebra.Order.Field.Rat

/-! # C440, C441, C442 -/

set_option linter.unusedSectionVars false

namespace Verif.Frm

open Verif.Vec V3
open Verif.Pinv (Crv Nrm line invCurve)

variable {K : Type} [Field K] [LinearOrder K] [IsStrictOrderedRing K]

/-- **C440** refuted.  `normal`, `plane_at` and `planes_at` of a curve raise for all curves and parameters. -/
theorem C440_refuted (nrm : V3 K → K) (tangent : V3 K → V3 K → V3 K) (c : Crv K) (t : K) :
    curveNormal nrm c t = none ∧ planeAt nrm tangent c t = none ∧ ∀ ts, planesAt nrm tangent c (t :: ts) = none :=
  ⟨rfl, rfl, fun _ => rfl⟩

theorem unitRow_spec {nrm : V3 K → K} (hn : Nrm nrm) {v w : V3 K} (h : unitRow nrm v = some w) : dot w w = 1 := by
  unfold unitRow at h
  split_ifs at h with h0
  cases h
  have := hn.sq v
  simp only [dot] at this ⊢
  field_simp
  linear_combination -this

/-- **C440** refuted, arrays of rows.  Where the normal is not NaN its three components are equal, so that it is at right angles to the tangent
only if the components of the tangent add up to zero. -/
theorem C440_rows_refuted {nrm : V3 K → K} (hn : Nrm nrm) (l m : List (V3 K)) {r : List (Option (V3 K))}
    (h : normalAt nrm (.rows l) (.rows m) = some r) : ∀ n : V3 K, some n ∈ r → n.y = n.x ∧ n.z = n.x ∧ 3 * n.x ^ 2 = 1 ∧
      ∀ t : V3 K, dot t n = 0 ↔ t.x + t.y + t.z = 0 := by
  intro n hmem
  simp only [normalAt, Arr.rows?, Option.some.injEq] at h
  rw [← h] at hmem
  obtain ⟨ab, -, he⟩ := List.mem_map.1 hmem
  obtain ⟨t, -, ht⟩ := Option.bind_eq_some_iff.1 he
  have h1 := unitRow_spec hn ht
  unfold unitRow at ht
  split_ifs at ht with h0
  cases ht
  simp only [gramSchmidtRow, dot] at h1 ⊢
  set q := (ab.2.z - t.z * (ab.2.x * t.x + ab.2.y * t.y + ab.2.z * t.z)) / nrm
    ⟨ab.2.z - t.z * (ab.2.x * t.x + ab.2.y * t.y + ab.2.z * t.z), ab.2.z - t.z * (ab.2.x * t.x + ab.2.y * t.y + ab.2.z * t.z),
      ab.2.z - t.z * (ab.2.x * t.x + ab.2.y * t.y + ab.2.z * t.z)⟩ with hq
  refine ⟨trivial, trivial, by linear_combination h1, fun s => ?_⟩
  have hq0 : q ≠ 0 := by
    intro h
    rw [h] at h1
    norm_num at h1
  constructor
  · intro h
    have : (s.x + s.y + s.z) * q = 0 := by linear_combination h
    rcases mul_eq_zero.1 this with h | h
    · exact h
    · exact absurd h hq0
  · intro h
    linear_combination q * h

/-- The tangent along x with the second derivative `(0, 2, 1)`: the normal is not at right angles. -/
example : normalAt (fun v : V3 ℚ => |v.x|) (.rows [⟨2, 0, 0⟩]) (.rows [⟨0, 2, 1⟩]) = some [some ⟨1, 1, 1⟩] := by decide +kernel

/-- **C440** (part).  For arrays of rows the normals have length one and the binormals are at right angles to both,
on the side that makes the frame right-handed. -/
theorem C440_partial {nrm : V3 K → K} (hn : Nrm nrm) (os ts ds : List (V3 K)) {r : List (Option (V3 K × V3 K × V3 K × V3 K))}
    (h : planeOnCurve nrm (.rows os) (.rows ts) (.rows ds) = some r) : ∀ o t n b, some (o, t, n, b) ∈ r →
      o ∈ os ∧ t ∈ ts ∧ dot n n = 1 ∧ dot b t = 0 ∧ dot b n = 0 ∧ dot (cross t n) b = dot b b ∧ dot b b = dot t t - dot t n ^ 2 := by
  intro o t n b hmem
  simp only [planeOnCurve, Arr.rows?, Option.some.injEq] at h
  rw [← h] at hmem
  obtain ⟨⟨x, y, z⟩, hz, he⟩ := List.mem_map.1 hmem
  obtain ⟨n', hn', he⟩ := Option.map_eq_some_iff.1 he
  simp only [Prod.mk.injEq] at he
  obtain ⟨rfl, rfl, rfl, rfl⟩ := he
  have hz' := List.of_mem_zip hz
  have h1 := unitRow_spec hn hn'
  refine ⟨hz'.1, (List.of_mem_zip hz'.2).1, h1, ?_, ?_, ?_, ?_⟩
  · simp only [dot, cross]; ring
  · simp only [dot, cross]; ring
  · rfl
  · simp only [dot, cross] at h1 ⊢
    linear_combination (y.x * y.x + y.y * y.y + y.z * y.z) * h1

/-- **C440** refuted, planes of rows.  The three components of every normal are equal, so that it is at right angles to the tangent only if the components
of the tangent add up to zero. -/
theorem C440_plane_refuted {nrm : V3 K → K} (hn : Nrm nrm) (os ts ds : List (V3 K)) {r : List (Option (V3 K × V3 K × V3 K × V3 K))}
    (h : planeOnCurve nrm (.rows os) (.rows ts) (.rows ds) = some r) : ∀ o t n b, some (o, t, n, b) ∈ r →
      n.y = n.x ∧ n.z = n.x ∧ (dot t n = 0 ↔ t.x + t.y + t.z = 0) := by
  intro o t n b hmem
  simp only [planeOnCurve, Arr.rows?, Option.some.injEq] at h
  rw [← h] at hmem
  obtain ⟨⟨x, y, z⟩, hz, he⟩ := List.mem_map.1 hmem
  obtain ⟨n', hn', he⟩ := Option.map_eq_some_iff.1 he
  simp only [Prod.mk.injEq] at he
  obtain ⟨rfl, rfl, rfl, rfl⟩ := he
  have h1 := unitRow_spec hn hn'
  have e : n'.y = n'.x ∧ n'.z = n'.x := by
    unfold unitRow at hn'
    split_ifs at hn' with h0
    cases hn'
    exact ⟨rfl, rfl⟩
  refine ⟨e.1, e.2, ?_⟩
  simp only [dot, e.1, e.2] at h1 ⊢
  have hq0 : n'.x ≠ 0 := by
    intro h
    rw [h] at h1
    norm_num at h1
  rw [show y.x * n'.x + y.y * n'.x + y.z * n'.x = (y.x + y.y + y.z) * n'.x by ring, mul_eq_zero]
  exact ⟨fun h => h.resolve_right hq0, Or.inl⟩

/-- **C440**, `swap_z_to_first_der`: from `(t, n, b)`, at right angles and right-handed, to `(n, b, t)`, which is so too. -/
theorem C440_swap (o t n b : V3 K) (htt : dot t t = 1) (hnn : dot n n = 1) (htn : dot t n = 0) (hb : b = cross t n) :
    swapZ (o, t, n, b) = (o, n, b, t) ∧ cross n b = t ∧ cross b t = n := by
  refine ⟨rfl, ?_, ?_⟩
  · rw [hb]
    simp only [dot] at htn hnn
    ext
    · simp only [cross]; linear_combination t.x * hnn - n.x * htn
    · simp only [cross]; linear_combination t.y * hnn - n.y * htn
    · simp only [cross]; linear_combination t.z * hnn - n.z * htn
  · rw [hb]
    simp only [dot] at htn htt
    ext
    · simp only [cross]; linear_combination n.x * htt - t.x * htn
    · simp only [cross]; linear_combination n.y * htt - t.y * htn
    · simp only [cross]; linear_combination n.z * htt - t.z * htn

/-! ## The step -/

/-- What is asked of the square root. -/
def IsSqrt (sqrt : K → K) : Prop := ∀ x, 0 ≤ x → 0 ≤ sqrt x ∧ sqrt x ^ 2 = x

/-- **C441** (part).  If the tolerance is between zero and the radius of curvature, the step is the length of the chord of the circle of curvature
whose middle is at the distance `tol` from the arc: its distance to the centre is `r - tol`.  Missing: larger tolerances and straight points, see
below. -/
theorem C441_partial {nrm : V3 K → K} (hn : Nrm nrm) {sqrt : K → K} (hs : IsSqrt sqrt) (k : V3 K) (tol : K) (h0 : nrm k ≠ 0) (ht : 0 ≤ tol)
    (hr : tol ≤ 1 / nrm k) : ∃ s, step nrm sqrt k tol = some s ∧ 0 ≤ s ∧
      ∀ c a b : V3 K, nrm (a.sub c) = 1 / nrm k → nrm (b.sub c) = 1 / nrm k → nrm (a.sub b) = s →
        nrm ((smul (1 / 2) (a.add b)).sub c) = 1 / nrm k - tol := by
  set r := 1 / nrm k with hrdef
  have hq : 0 ≤ r ^ 2 - (r - tol) ^ 2 := by
    have : r ^ 2 - (r - tol) ^ 2 = tol * (r + (r - tol)) := by ring
    rw [this]
    exact mul_nonneg ht (by linarith)
  obtain ⟨hs0, hs1⟩ := hs _ hq
  refine ⟨sqrt (r ^ 2 - (r - tol) ^ 2) * 2, ?_, by linarith, ?_⟩
  · unfold step
    rw [if_neg h0]
    simp only [← hrdef]
    rw [if_neg (not_lt.2 hq)]
  · intro c a b ha hb hab
    have e1 := hn.sq (a.sub c)
    have e2 := hn.sq (b.sub c)
    have e3 := hn.sq (a.sub b)
    have e4 := hn.sq ((smul (1 / 2) (a.add b)).sub c)
    rw [ha] at e1
    rw [hb] at e2
    rw [hab] at e3
    have n4 := hn.nonneg ((smul (1 / 2) (a.add b)).sub c)
    simp only [dot, sub, smul, add] at e1 e2 e3 e4 n4 ⊢
    have key : nrm ⟨1 / 2 * (a.x + b.x) - c.x, 1 / 2 * (a.y + b.y) - c.y, 1 / 2 * (a.z + b.z) - c.z⟩ ^ 2 = (r - tol) ^ 2 := by
      rw [e4]
      linear_combination -(1 / 2) * e1 - (1 / 2) * e2 + (1 / 4) * e3 - hs1
    exact (pow_left_inj₀ n4 (by linarith) two_ne_zero).1 key

/-- **C441** refuted.  At a point without curvature, and for a tolerance larger than the diameter, there is no step; for the diameter it is zero. -/
theorem C441_refuted {nrm : V3 K → K} (hn : Nrm nrm) {sqrt : K → K} (hs : IsSqrt sqrt) (k : V3 K) (tol : K) :
    (nrm k = 0 → step nrm sqrt k tol = none) ∧ (nrm k ≠ 0 → 2 / nrm k < tol → step nrm sqrt k tol = none) ∧
      (nrm k ≠ 0 → step nrm sqrt k (2 / nrm k) = some 0) := by
  refine ⟨fun h => by simp [step, h], fun h h2 => ?_, fun h => ?_⟩
  · have hp : 0 < nrm k := lt_of_le_of_ne (hn.nonneg k) (Ne.symm h)
    unfold step
    rw [if_neg h]
    simp only
    rw [if_pos]
    have hr : 0 < 1 / nrm k := by positivity
    have e : 2 / nrm k = 2 * (1 / nrm k) := by ring
    rw [e] at h2
    have : (1 / nrm k) ^ 2 - (1 / nrm k - tol) ^ 2 = tol * (2 * (1 / nrm k) - tol) := by ring
    rw [this]
    exact mul_neg_of_pos_of_neg (by linarith) (by linarith)
  · have e : (1 / nrm k) ^ 2 - (1 / nrm k - 2 / nrm k) ^ 2 = 0 := by ring
    unfold step
    rw [if_neg h]
    simp only [e, lt_irrefl, if_false]
    have := (hs 0 le_rfl).2
    have h0 : sqrt 0 = 0 := pow_eq_zero_iff two_ne_zero |>.1 this
    rw [h0, zero_mul]

/-- Radius 5, tolerance 2: the step is 8 (with a root that knows the numbers used). -/
example : step (fun v : V3 ℚ => |v.x|) (fun x => if x = 16 then 4 else 0) ⟨1 / 5, 0, 0⟩ 2 = some 8 := by decide +kernel

/-! ## The distance function of a curve -/

theorem nearest_spec (c : Crv K) (p : V3 K) : ∀ (ts : List K) (t : K), nearest c p t ts ∈ t :: ts ∧
    ∀ u ∈ t :: ts, dot (p.sub (c.ev (nearest c p t ts))) (p.sub (c.ev (nearest c p t ts))) ≤ dot (p.sub (c.ev u)) (p.sub (c.ev u)) := by
  intro ts
  induction ts with
  | nil => intro t; simp [nearest]
  | cons s ts ih =>
    intro t
    have e : nearest c p t (s :: ts) =
        nearest c p (if dot (p.sub (c.ev s)) (p.sub (c.ev s)) < dot (p.sub (c.ev t)) (p.sub (c.ev t)) then s else t) ts := rfl
    rw [e]
    split_ifs with h
    · obtain ⟨h1, h2⟩ := ih s
      refine ⟨List.mem_cons_of_mem _ h1, fun u hu => ?_⟩
      rcases List.mem_cons.1 hu with rfl | hu
      · exact le_trans (h2 s (by simp)) h.le
      · exact h2 u hu
    · obtain ⟨h1, h2⟩ := ih t
      refine ⟨?_, fun u hu => ?_⟩
      · rcases List.mem_cons.1 h1 with h1 | h1
        · rw [h1]; simp
        · exact List.mem_cons_of_mem _ (List.mem_cons_of_mem _ h1)
      · rcases List.mem_cons.1 hu with rfl | hu
        · exact h2 u (by simp)
        · rcases List.mem_cons.1 hu with rfl | hu
          · exact le_trans (h2 t (by simp)) (not_lt.1 h)
          · exact h2 u (List.mem_cons_of_mem _ hu)

theorem nrm_swap {nrm : V3 K → K} (hn : Nrm nrm) (a b : V3 K) : nrm (a.sub b) = nrm (b.sub a) := by
  have : nrm (a.sub b) ^ 2 = nrm (b.sub a) ^ 2 := by
    rw [hn.sq, hn.sq]; simp only [dot, sub]; ring
  exact (pow_left_inj₀ (hn.nonneg _) (hn.nonneg _) two_ne_zero).1 this

theorem nrm_le_of_dot {nrm : V3 K → K} (hn : Nrm nrm) {a b : V3 K} (h : dot a a ≤ dot b b) : nrm a ≤ nrm b := by
  rw [← hn.sq, ← hn.sq] at h
  exact (pow_le_pow_iff_left₀ (hn.nonneg _) (hn.nonneg _) two_ne_zero).1 h

/-- The triangle inequality. -/
theorem nrm_tri {nrm : V3 K → K} (hn : Nrm nrm) (a b c : V3 K) : nrm (a.sub c) ≤ nrm (a.sub b) + nrm (b.sub c) := by
  set x := a.sub b with hx
  set y := b.sub c with hy
  have hxy : dot (a.sub c) (a.sub c) = dot x x + 2 * dot x y + dot y y := by
    simp only [hx, hy, dot, sub]; ring
  have hcs : dot x y ^ 2 ≤ dot x x * dot y y := by
    have : dot x x * dot y y - dot x y ^ 2 = dot (cross x y) (cross x y) := by simp only [dot, cross]; ring
    linarith [dot_self_nonneg (cross x y)]
  have hle : dot x y ≤ nrm x * nrm y := by
    rw [← hn.sq x, ← hn.sq y, ← mul_pow] at hcs
    exact le_trans (le_abs_self _) (abs_le_of_sq_le_sq hcs (mul_nonneg (hn.nonneg _) (hn.nonneg _)))
  have h2 : nrm (a.sub c) ^ 2 ≤ (nrm x + nrm y) ^ 2 := by
    rw [hn.sq, hxy, ← hn.sq x, ← hn.sq y]; linarith
  exact (pow_le_pow_iff_left₀ (hn.nonneg _) (add_nonneg (hn.nonneg _) (hn.nonneg _)) two_ne_zero).1 h2

/-- **C442** (part).  The distance and the gradient belong to the parameter: the gradient leads from the point to the point of the curve and the
distance is its length.  If the inversion does not end farther away than it begins, for a curve that moves no faster than `L` and samples
such that every parameter is within `h` of one, the distance is at most `L h` larger than that of any point of the curve.  Missing: the nearest
point itself, see below. -/
theorem C442_partial {nrm : V3 K → K} (hn : Nrm nrm) (c : Crv K) (inv : V3 K → K → Option K) (t : K) (ts : List K) (p : V3 K) {d u : K} {g : V3 K}
    (h : implicitly nrm c inv t ts p = some (d, g, u)) : p.add g = c.ev u ∧ d = nrm g ∧
      ((∀ s v, inv p s = some v → nrm ((c.ev v).sub p) ≤ nrm ((c.ev s).sub p)) → ∀ L step : K, 0 ≤ L →
        (∀ a b, nrm ((c.ev a).sub (c.ev b)) ≤ L * |a - b|) → ∀ v, (∃ s ∈ t :: ts, |s - v| ≤ step) → d ≤ nrm ((c.ev v).sub p) + L * step) := by
  unfold implicitly at h
  obtain ⟨w, hw, he⟩ := Option.map_eq_some_iff.1 h
  simp only [Prod.mk.injEq] at he
  obtain ⟨rfl, rfl, rfl⟩ := he
  refine ⟨by ext <;> simp [add, sub], rfl, ?_⟩
  intro hinv L step hL hlip v hv
  obtain ⟨s, hs, hsv⟩ := hv
  have h1 := hinv _ _ hw
  have h2 : nrm ((c.ev (nearest c p t ts)).sub p) ≤ nrm ((c.ev s).sub p) := by
    rw [nrm_swap hn, nrm_swap hn (c.ev s)]
    exact nrm_le_of_dot hn ((nearest_spec c p ts t).2 s hs)
  have h3 := nrm_tri hn (c.ev s) (c.ev v) p
  have h4 := hlip s v
  have h5 : L * |s - v| ≤ L * step := mul_le_mul_of_nonneg_left hsv hL
  linarith

/-- **C442** refuted.  For every straight line the parameter is that of one of the samples: the inversion returns its guess (`C261_line_refuted`).  If
the foot of the point is not a sample, the distance is larger than that of the foot. -/
theorem C442_refuted {nrm : V3 K → K} (hn : Nrm nrm) (near0 : K → Bool) (a d : V3 K) (hd : d ≠ zero) (h0 : near0 (dot d d) = false) (p : V3 K)
    (hp : p ≠ d) (tol1 tol2 : K) (ht2 : 0 ≤ tol2) (n : Nat) (t : K) (ts : List K) (hfoot : dot d (p.sub a) / dot d d ∉ t :: ts) :
    ∃ D g u, implicitly nrm (line a d) (fun q s => invCurve nrm near0 (line a d) q tol1 tol2 n s) t ts p = some (D, g, u) ∧ u ∈ t :: ts ∧
      nrm (((line a d).ev (dot d (p.sub a) / dot d d)).sub p) < D := by
  have hinv := Pinv.C261_line_refuted nrm hn near0 a d hd h0 p hp tol1 tol2 ht2 n (nearest (line a d) p t ts)
  refine ⟨nrm (((line a d).ev (nearest (line a d) p t ts)).sub p), ((line a d).ev (nearest (line a d) p t ts)).sub p, nearest (line a d) p t ts, ?_, (nearest_spec _ p ts t).1, ?_⟩
  · unfold implicitly
    dsimp only
    rw [hinv]
    rfl
  · set u := nearest (line a d) p t ts with hu
    set f := dot d (p.sub a) / dot d d with hf
    have hdd : dot d d ≠ 0 := fun h => hd (dot_self_eq_zero.1 h)
    have hpos : 0 < dot d d := lt_of_le_of_ne (dot_self_nonneg d) (Ne.symm hdd)
    have huf : u ≠ f := fun h => hfoot (by rw [← h]; exact (nearest_spec _ p ts t).1)
    have hfe : f * dot d d = dot d (p.sub a) := by rw [hf]; field_simp
    have key : dot (((line a d).ev u).sub p) (((line a d).ev u).sub p) =
        dot (((line a d).ev f).sub p) (((line a d).ev f).sub p) + (u - f) ^ 2 * dot d d := by
      simp only [line, dot, sub, add, smul] at hfe ⊢
      linear_combination (2 * (u - f)) * hfe
    have hlt : nrm (((line a d).ev f).sub p) ^ 2 < nrm (((line a d).ev u).sub p) ^ 2 := by
      rw [hn.sq, hn.sq, key]
      have : 0 < (u - f) ^ 2 * dot d d := mul_pos (lt_of_le_of_ne (sq_nonneg _) (Ne.symm (pow_ne_zero 2 (sub_ne_zero.2 huf)))) hpos
      linarith
    exact (pow_lt_pow_iff_left₀ (hn.nonneg _) (hn.nonneg _) two_ne_zero).1 hlt

/-- The line along x with the samples 0, 1/2 and 1: the foot of `(1/5, 1, 0)` is at 1/5, the answer at 0. -/
example : dot (⟨1, 0, 0⟩ : V3 ℚ) ((⟨1 / 5, 1, 0⟩ : V3 ℚ).sub ⟨0, 0, 0⟩) / dot (⟨1, 0, 0⟩ : V3 ℚ) ⟨1, 0, 0⟩ ∉ [0, 1 / 2, 1] ∧
    implicitly (fun v : V3 ℚ => |v.x| + |v.y| + |v.z|) (line ⟨0, 0, 0⟩ ⟨1, 0, 0⟩)
      (fun q s => invCurve (fun v : V3 ℚ => |v.x| + |v.y| + |v.z|) (fun x => decide (|x| ≤ 1 / 100)) (line ⟨0, 0, 0⟩ ⟨1, 0, 0⟩) q (1 / 1000) (1 / 1000) 100 s)
      0 [1 / 2, 1] ⟨1 / 5, 1, 0⟩ = some (6 / 5, ⟨-1 / 5, -1, 0⟩, 0) := by decide +kernel

end Verif.Frm
