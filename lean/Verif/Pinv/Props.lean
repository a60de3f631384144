import Verif.Pinv.Model
import Verif.Vec.Props
import Mathlib.Analysis.Real.Sqrt
import Mathlib.Tactic.Linarith
import Mathlib.Tactic.LinearCombination
import Mathlib.Tactic.NormNum

/-! # C261 to C263: point inversion -/

set_option linter.unusedSectionVars false

namespace Verif.Pinv

open Verif.Vec V3

variable {K : Type} [Field K] [LinearOrder K] [IsStrictOrderedRing K]

/-- The Euclidean norm. -/
structure Nrm (nrm : V3 K → K) : Prop where
  nonneg : ∀ v, 0 ≤ nrm v
  sq : ∀ v, nrm v ^ 2 = dot v v

/-- The real one. -/
theorem nrm_real : Nrm (fun v : V3 ℝ => Real.sqrt (dot v v)) :=
  ⟨fun _ => Real.sqrt_nonneg _, fun v => Real.sq_sqrt (dot_self_nonneg v)⟩

theorem Nrm.eq_zero {nrm : V3 K → K} (h : Nrm nrm) {v : V3 K} : nrm v = 0 ↔ v = zero := by
  rw [← dot_self_eq_zero, ← h.sq v]
  exact ⟨fun e => by rw [e]; ring, fun e => pow_eq_zero_iff (two_ne_zero) |>.1 e⟩

/-! ## C261: `point_inversion_curve` -/

/-- **C261 refuted**: when the first Newton step lands on the point, within `tol1`, what is returned is the guess it started from. -/
theorem C261_previous_refuted (nrm : V3 K → K) (near0 : K → Bool) (c : Crv K) (p : V3 K) (tol1 tol2 u u1 : K) (n : Nat)
    (h : newtonC near0 c p u = some u1) (hc : nrm ((c.ev u1).sub p) ≤ tol1) :
    invCurve nrm near0 c p tol1 tol2 (n + 1) u = some u := by
  unfold invCurve
  rw [h]
  dsimp only
  split_ifs <;> rfl

/-- A straight line. -/
def line (a d : V3 K) : Crv K := ⟨fun u => a.add (smul u d), fun _ => d, fun _ => zero⟩

/-- **C261 refuted**: on a straight line `point_inversion_curve` returns the initial guess, for every point (other than the one with
the coordinates of the direction, where it divides by zero), every guess and every tolerance. -/
theorem C261_line_refuted (nrm : V3 K → K) (hn : Nrm nrm) (near0 : K → Bool) (a d : V3 K) (hd : d ≠ zero) (h0 : near0 (dot d d) = false)
    (p : V3 K) (hp : p ≠ d) (tol1 tol2 : K) (ht2 : 0 ≤ tol2) (n : Nat) (u : K) :
    invCurve nrm near0 (line a d) p tol1 tol2 n u = some u := by
  cases n with
  | zero => rfl
  | succ n =>
    have hdd : dot d d ≠ 0 := fun h => hd (dot_self_eq_zero.1 h)
    have e1 : newtonC near0 (line a d) p u = some (u - dot d ((a.add (smul u d)).sub p) / dot d d) := by
      unfold newtonC
      have : dot ((line a d).d2 u) (((line a d).ev u).sub p) + dot ((line a d).d1 u) ((line a d).d1 u) = dot d d := by
        simp [line, dot, zero]
      simp only [this, h0]
      rfl
    have e2 : dot d ((a.add (smul (u - dot d ((a.add (smul u d)).sub p) / dot d d) d)).sub p) = 0 := by
      have : dot d ((a.add (smul (u - dot d ((a.add (smul u d)).sub p) / dot d d) d)).sub p) =
          dot d ((a.add (smul u d)).sub p) - dot d ((a.add (smul u d)).sub p) / dot d d * dot d d := by
        generalize dot d ((a.add (smul u d)).sub p) / dot d d = t
        simp only [dot, add, sub, smul]; ring
      rw [this, div_mul_cancel₀ _ hdd, sub_self]
    have e3 : nrm d * nrm (d.sub p) ≠ 0 := by
      rw [mul_ne_zero_iff, Ne, Ne, hn.eq_zero, hn.eq_zero]
      refine ⟨hd, fun h => hp ?_⟩
      have hx := congrArg V3.x h
      have hy := congrArg V3.y h
      have hz := congrArg V3.z h
      simp only [sub, zero] at hx hy hz
      ext <;> linarith
    unfold invCurve
    rw [e1]
    dsimp only
    split_ifs with c1 c2 c3 c4
    · rfl
    · rfl
    · exact absurd c3 e3
    · rfl
    · exfalso
      apply c4
      show |dot d ((a.add (smul (u - dot d ((a.add (smul u d)).sub p) / dot d d) d)).sub p)| / (nrm d * nrm (d.sub p)) ≤ tol2
      rw [e2]
      simpa using ht2

/-- The line is real: direction and point that meet the hypotheses, the point asked for at parameter 7 of it, the guess 0. -/
example : ∃ (a d p : V3 ℝ), d ≠ zero ∧ p ≠ d ∧ (line a d).ev 7 = p ∧
    invCurve (fun v : V3 ℝ => Real.sqrt (dot v v)) (fun _ => false) (line a d) p (1 / 1000) (1 / 1000) 100 0 = some 0 := by
  refine ⟨⟨1, 2, 3⟩, ⟨0, 0, 1⟩, ⟨1, 2, 10⟩, ?_, ?_, ?_, C261_line_refuted _ nrm_real _ _ _ ?_ rfl _ ?_ _ _ (by norm_num) _ _⟩
  · simp [zero, V3.ext_iff]
  · simp [V3.ext_iff]
  · simp [line, add, smul]; norm_num
  · simp [zero, V3.ext_iff]
  · simp [V3.ext_iff]

/-- `w` comes from `u` by `k` Newton steps. -/
def StepsC (near0 : K → Bool) (c : Crv K) (p : V3 K) : Nat → K → K → Prop
  | 0, u, w => u = w
  | k + 1, u, w => ∃ u1, newtonC near0 c p u = some u1 ∧ StepsC near0 c p k u1 w

/-- **C261, partial**: what is returned is an iterate; either all iterations were used, or the derivative is close to 0 there, or one
*more* Newton step would meet one of the criteria: a small step, a point within `tol1`, a right angle.  Missing: that step is not
taken (above). -/
theorem C261_inversion_partial (nrm : V3 K → K) (near0 : K → Bool) (c : Crv K) (p : V3 K) (tol1 tol2 : K) :
    ∀ (n : Nat) (u w : K), invCurve nrm near0 c p tol1 tol2 n u = some w →
      ∃ k, k ≤ n ∧ StepsC near0 c p k u w ∧ (k = n ∨ newtonC near0 c p w = none ∨ ∃ w1, newtonC near0 c p w = some w1 ∧
        (|w1 - w| * nrm (c.d1 w) ≤ tol1 ∨ nrm ((c.ev w1).sub p) ≤ tol1 ∨
          |dot (c.d1 w1) ((c.ev w1).sub p)| / (nrm (c.d1 w1) * nrm ((c.d1 w1).sub p)) ≤ tol2)) := by
  intro n
  induction n with
  | zero => intro u w h; exact ⟨0, le_refl _, by simpa [invCurve, StepsC] using h, Or.inl rfl⟩
  | succ n ih =>
    intro u w h
    unfold invCurve at h
    cases e : newtonC near0 c p u with
    | none =>
      rw [e] at h
      simp only [Option.some.injEq] at h
      subst h
      exact ⟨0, by omega, rfl, Or.inr (Or.inl e)⟩
    | some u1 =>
      rw [e] at h
      dsimp only at h
      split_ifs at h with c1 c2 c3 c4
      · simp only [Option.some.injEq] at h
        subst h
        exact ⟨0, by omega, rfl, Or.inr (Or.inr ⟨u1, e, Or.inl c1⟩)⟩
      · simp only [Option.some.injEq] at h
        subst h
        exact ⟨0, by omega, rfl, Or.inr (Or.inr ⟨u1, e, Or.inr (Or.inl c2)⟩)⟩
      · simp only [Option.some.injEq] at h
        subst h
        exact ⟨0, by omega, rfl, Or.inr (Or.inr ⟨u1, e, Or.inr (Or.inr c4)⟩)⟩
      · obtain ⟨k, hk, hs, hr⟩ := ih u1 w h
        refine ⟨k + 1, by omega, ⟨u1, e, hs⟩, ?_⟩
        rcases hr with hr | hr
        · exact Or.inl (by omega)
        · exact Or.inr hr

/-- **C261 refuted**: the cosine is taken with `C'(u) - P` instead of `C(u) - P`: where the derivative has the coordinates of the
point, `ZeroDivisionError`. -/
theorem C261_division_refuted (nrm : V3 K → K) (hn : Nrm nrm) (near0 : K → Bool) (c : Crv K) (p : V3 K) (tol1 tol2 u u1 : K) (n : Nat)
    (h : newtonC near0 c p u = some u1) (h1 : tol1 < |u1 - u| * nrm (c.d1 u)) (h2 : tol1 < nrm ((c.ev u1).sub p)) (h3 : c.d1 u1 = p) :
    invCurve nrm near0 c p tol1 tol2 (n + 1) u = none := by
  unfold invCurve
  rw [h]
  dsimp only
  have : nrm (p.sub p) = 0 := by
    rw [hn.eq_zero]; ext <;> simp [sub, zero]
  rw [if_neg (not_le.2 h1), if_neg (not_le.2 h2), if_pos (by rw [h3, this, mul_zero])]

/-- Such a case: the point `(0, 0, 1)` and a line with direction `(0, 0, 1)` one unit beside it. -/
example : invCurve (fun v : V3 ℝ => Real.sqrt (dot v v)) (fun _ => false) (line ⟨1, 0, 0⟩ ⟨0, 0, 1⟩) ⟨0, 0, 1⟩ (1 / 2) (1 / 2) 100 5 = none := by
  refine C261_division_refuted _ nrm_real _ _ _ _ _ 5 1 99 ?_ ?_ ?_ rfl
  · simp [newtonC, line, dot, add, sub, smul, zero]
  · simp [line, dot]; norm_num
  · simp [line, dot, add, sub, smul]; norm_num

/-! ## C262: `point_inversion_surface` -/

/-- **C262 refuted**: when the first step lands on the point, within `tol1`, what is returned is the guess it started from. -/
theorem C262_previous_refuted (nrm : V3 K → K) (nrm2 : K × K → K) (s : Srf K) (p : V3 K) (tol1 tol2 : K) (uv uv1 : K × K) (n : Nat)
    (h : gaussS s p uv = some uv1) (hc : nrm ((s.ev uv1).sub p) ≤ tol1) :
    invSurface nrm nrm2 s p tol1 tol2 (n + 1) uv = some uv := by
  unfold invSurface
  rw [h]
  dsimp only
  split_ifs <;> rfl

/-- A plane. -/
def plane (o a b : V3 K) : Srf K := ⟨fun uv => (o.add (smul uv.1 a)).add (smul uv.2 b), fun _ => a, fun _ => b⟩

/-- On a plane one step is exact: it gives the foot of the perpendicular. -/
theorem gauss_plane (o a b p : V3 K) (hab : cross a b ≠ zero) (uv : K × K) :
    ∃ uv1, gaussS (plane o a b) p uv = some uv1 ∧ dot a (((plane o a b).ev uv1).sub p) = 0 ∧ dot b (((plane o a b).ev uv1).sub p) = 0 := by
  have hd : dot a a * dot b b - dot a b * dot b a ≠ 0 := by
    have e : dot b a = dot a b := by simp only [dot]; ring
    rw [e, gram_pos]; exact fun h' => hab (dot_self_eq_zero.1 h')
  unfold gaussS
  dsimp only [plane]
  cases hs : solve2x2 (dot a a) (dot a b) (dot b a) (dot b b) (dot a (((o.add (smul uv.1 a)).add (smul uv.2 b)).sub p))
      (dot b (((o.add (smul uv.1 a)).add (smul uv.2 b)).sub p)) with
  | none => exact absurd ((C42_solve2x2 _ _ _ _ _ _).1.1 hs) hd
  | some r =>
    obtain ⟨⟨e1, e2⟩, -⟩ := (C42_solve2x2 _ _ _ _ _ _).2 r hs
    refine ⟨_, rfl, ?_, ?_⟩
    · simp only [dot, add, sub, smul] at e1 ⊢
      linear_combination -e1
    · simp only [dot, add, sub, smul] at e2 ⊢
      linear_combination -e2

/-- **C262 refuted**: on a plane `point_inversion_surface` returns the initial guess, for every point, guess and tolerance. -/
theorem C262_plane_refuted (nrm : V3 K → K) (hn : Nrm nrm) (nrm2 : K × K → K) (o a b : V3 K) (hab : cross a b ≠ zero) (p : V3 K)
    (tol1 tol2 : K) (ht1 : 0 ≤ tol1) (ht2 : 0 ≤ tol2) (n : Nat) (uv : K × K) :
    invSurface nrm nrm2 (plane o a b) p tol1 tol2 n uv = some uv := by
  cases n with
  | zero => rfl
  | succ n =>
    obtain ⟨uv1, e, e1, _⟩ := gauss_plane o a b p hab uv
    have ha : a ≠ zero := by
      rintro rfl
      exact hab (by simp [cross, zero])
    unfold invSurface
    rw [e]
    dsimp only
    split_ifs with c1 c2 c3
    · rfl
    · rfl
    · rfl
    · exfalso
      apply c3
      constructor
      · rw [mul_ne_zero_iff]
        refine ⟨fun h => ha (hn.eq_zero.1 h), fun h => c2 ?_⟩
        rw [h]; exact ht1
      · show |dot a (((plane o a b).ev uv1).sub p)| / _ ≤ tol2
        rw [e1]
        simpa using ht2

/-- A plane and a point of it at parameters (3, 4), asked for from (0, 0). -/
example : ∃ (o a b p : V3 ℝ), cross a b ≠ zero ∧ (plane o a b).ev (3, 4) = p ∧
    invSurface (fun v : V3 ℝ => Real.sqrt (dot v v)) (fun x => Real.sqrt (x.1 ^ 2 + x.2 ^ 2)) (plane o a b) p (1 / 1000) (1 / 1000) 100 (0, 0) = some (0, 0) := by
  refine ⟨⟨0, 0, 1⟩, ⟨1, 0, 0⟩, ⟨1, 1, 0⟩, ⟨7, 4, 1⟩, ?_, ?_, C262_plane_refuted _ nrm_real _ _ _ _ ?_ _ _ _ (by norm_num) (by norm_num) _ _⟩
  · simp [cross, zero, V3.ext_iff]
  · simp [plane, add, smul]; norm_num
  · simp [cross, zero, V3.ext_iff]

/-- `w` comes from `uv` by `k` steps. -/
def StepsS (s : Srf K) (p : V3 K) : Nat → K × K → K × K → Prop
  | 0, u, w => u = w
  | k + 1, u, w => ∃ u1, gaussS s p u = some u1 ∧ StepsS s p k u1 w

/-- **C262, partial**: what is returned is an iterate; either all iterations were used or one *more* step would meet one of the
criteria.  Missing: that step is not taken (above). -/
theorem C262_inversion_partial (nrm : V3 K → K) (nrm2 : K × K → K) (s : Srf K) (p : V3 K) (tol1 tol2 : K) :
    ∀ (n : Nat) (u w : K × K), invSurface nrm nrm2 s p tol1 tol2 n u = some w →
      ∃ k, k ≤ n ∧ StepsS s p k u w ∧ (k = n ∨ ∃ w1, gaussS s p w = some w1 ∧
        (nrm2 (w1.1 - w.1, w1.2 - w.2) * (nrm (s.du w) + nrm (s.dv w)) ≤ tol1 ∨ nrm ((s.ev w1).sub p) ≤ tol1 ∨
          |dot (s.du w1) ((s.ev w1).sub p)| / (nrm (s.du w1) * nrm ((s.ev w1).sub p)) ≤ tol2)) := by
  intro n
  induction n with
  | zero => intro u w h; exact ⟨0, le_refl _, by simpa [invSurface, StepsS] using h, Or.inl rfl⟩
  | succ n ih =>
    intro u w h
    unfold invSurface at h
    cases e : gaussS s p u with
    | none => rw [e] at h; simp at h
    | some u1 =>
      rw [e] at h
      dsimp only at h
      split_ifs at h with c1 c2 c3
      · simp only [Option.some.injEq] at h
        subst h
        exact ⟨0, by omega, rfl, Or.inr ⟨u1, e, Or.inl c1⟩⟩
      · simp only [Option.some.injEq] at h
        subst h
        exact ⟨0, by omega, rfl, Or.inr ⟨u1, e, Or.inr (Or.inl c2)⟩⟩
      · simp only [Option.some.injEq] at h
        subst h
        exact ⟨0, by omega, rfl, Or.inr ⟨u1, e, Or.inr (Or.inr c3.2)⟩⟩
      · obtain ⟨k, hk, hs, hr⟩ := ih u1 w h
        refine ⟨k + 1, by omega, ⟨u1, e, hs⟩, ?_⟩
        rcases hr with hr | hr
        · exact Or.inl (by omega)
        · exact Or.inr hr

/-- **C262**: `ValueError` exactly where the derivatives are dependent at an iterate; here the first one. -/
theorem C262_singular (nrm : V3 K → K) (nrm2 : K × K → K) (s : Srf K) (p : V3 K) (tol1 tol2 : K) (n : Nat) (uv : K × K) :
    (gaussS s p uv = none ↔ cross (s.du uv) (s.dv uv) = zero) ∧
    (cross (s.du uv) (s.dv uv) = zero → invSurface nrm nrm2 s p tol1 tol2 (n + 1) uv = none) := by
  have key : gaussS s p uv = none ↔ cross (s.du uv) (s.dv uv) = zero := by
    unfold gaussS
    dsimp only
    rw [Option.map_eq_none_iff, (C42_solve2x2 _ _ _ _ _ _).1]
    have e : dot (s.dv uv) (s.du uv) = dot (s.du uv) (s.dv uv) := by simp only [dot]; ring
    rw [e, gram_pos, dot_self_eq_zero]
  refine ⟨key, fun h => ?_⟩
  unfold invSurface
  rw [key.2 h]

/-! ## C263: `points_inversion_surface` -/

theorem mapM_some {α β : Type} (f : α → Option β) (g : α → β) : ∀ l : List α, (∀ a ∈ l, f a = some (g a)) → l.mapM f = some (l.map g) := by
  intro l
  induction l with
  | nil => intro _; rfl
  | cons a l ih =>
    intro h
    rw [List.mapM_cons, h a (by simp), ih fun b hb => h b (by simp [hb])]
    rfl

theorem foldl_const {ι : Type} (c : K × K) (idx : ι → Nat) (val : ι → K × K) (l : List ι) (hv : ∀ b ∈ l, val b = c) (i : Nat) : ∀ r : Nat → K × K,
    (∃ b ∈ l, idx b = i) ∨ r i = c → l.foldl (fun r b => Function.update r (idx b) (val b)) r i = c := by
  induction l with
  | nil => rintro r (⟨b, hb, -⟩ | h); exacts [absurd hb (by simp), h]
  | cons a l ih =>
    intro r h
    rw [List.foldl_cons]
    apply ih fun b hb => hv b (by simp [hb])
    by_cases ha : idx a = i
    · right; rw [ha, Function.update_self]; exact hv a (by simp)
    · rcases h with ⟨b, hb, e⟩ | h
      · rcases List.mem_cons.1 hb with rfl | hb
        · exact absurd e ha
        · exact Or.inl ⟨b, hb, e⟩
      · right; rw [Function.update_of_ne (Ne.symm ha)]; exact h

theorem mask_plane (nrm : V3 K → K) (hn : Nrm nrm) (nrm2 : K × K → K) (o a b p : V3 K) (ha : a ≠ zero) (tol1 tol2 : K) (ht1 : 0 ≤ tol1)
    (ht2 : 0 ≤ tol2) (uv uv1 : K × K) (h : dot a (((plane o a b).ev uv1).sub p) = 0) :
    maskS nrm nrm2 (plane o a b) p tol1 tol2 uv uv1 = true := by
  unfold maskS
  simp only [Bool.or_eq_true, Bool.and_eq_true, decide_eq_true_eq]
  right
  by_cases c : nrm (((plane o a b).ev uv1).sub p) ≤ tol1
  · exact Or.inl c
  · right
    refine ⟨?_, ?_⟩
    · rw [mul_ne_zero_iff]
      refine ⟨fun h => ha (hn.eq_zero.1 h), fun h => c ?_⟩
      rw [h]; exact ht1
    · show |dot a (((plane o a b).ev uv1).sub p)| / _ ≤ tol2
      rw [h]
      simpa using ht2

/-- **C263 refuted**: on a plane `points_inversion_surface` returns the initial guess for every one of the points. -/
theorem C263_plane_refuted (nrm : V3 K → K) (hn : Nrm nrm) (nrm2 : K × K → K) (o a b : V3 K) (hab : cross a b ≠ zero) (ps : List (V3 K))
    (tol1 tol2 : K) (ht1 : 0 ≤ tol1) (ht2 : 0 ≤ tol2) (n : Nat) (u0 v0 : K) :
    ∃ r, invAll nrm nrm2 (plane o a b) tol1 tol2 (n + 1) ps u0 v0 = some r ∧ ∀ i, i < ps.length → r i = (u0, v0) := by
  have ha : a ≠ zero := by
    rintro rfl
    exact hab (by simp [cross, zero])
  let f : Nat × V3 K × (K × K) → K × K := fun x => (gaussS (plane o a b) x.2.1 x.2.2).getD (0, 0)
  have hf : ∀ x : Nat × V3 K × (K × K), gaussS (plane o a b) x.2.1 x.2.2 = some (f x) ∧ dot a (((plane o a b).ev (f x)).sub x.2.1) = 0 := by
    intro x
    obtain ⟨w, e, e1, -⟩ := gauss_plane o a b x.2.1 hab x.2.2
    have : f x = w := by simp [f, e]
    rw [this]
    exact ⟨e, e1⟩
  unfold invAll invPoints
  rw [mapM_some (fun x => (gaussS (plane o a b) x.2.1 x.2.2).map fun uv1 => (x, uv1)) (fun x => (x, f x)) _ (fun x _ => by rw [(hf x).1]; rfl)]
  dsimp only
  have hmask : ∀ x ∈ (ps.zipIdx.map fun y => (y.2, y.1, (u0, v0))).map (fun x => (x, f x)),
      maskS nrm nrm2 (plane o a b) x.1.2.1 tol1 tol2 x.1.2.2 x.2 = true := by
    intro x hx
    obtain ⟨y, -, rfl⟩ := List.mem_map.1 hx
    exact mask_plane nrm hn nrm2 o a b _ ha tol1 tol2 ht1 ht2 _ _ (hf y).2
  have h1 : ((ps.zipIdx.map fun y => (y.2, y.1, (u0, v0))).map (fun x => (x, f x))).filter
      (fun b' => maskS nrm nrm2 (plane o a b) b'.1.2.1 tol1 tol2 b'.1.2.2 b'.2) = (ps.zipIdx.map fun y => (y.2, y.1, (u0, v0))).map (fun x => (x, f x)) :=
    List.filter_eq_self.2 hmask
  have h2 : ((ps.zipIdx.map fun y => (y.2, y.1, (u0, v0))).map (fun x => (x, f x))).filter
      (fun b' => !maskS nrm nrm2 (plane o a b) b'.1.2.1 tol1 tol2 b'.1.2.2 b'.2) = [] :=
    List.filter_eq_nil_iff.2 fun x hx => by rw [hmask x hx]; simp
  rw [h1, h2, List.map_nil, if_pos rfl]
  refine ⟨_, rfl, fun i hi => ?_⟩
  refine foldl_const (u0, v0) (fun b' : (Nat × V3 K × (K × K)) × (K × K) => b'.1.1) (fun b' => b'.1.2.2) _ ?_ i _ (Or.inl ?_)
  · intro x hx
    obtain ⟨y, hy, rfl⟩ := List.mem_map.1 hx
    obtain ⟨z, -, rfl⟩ := List.mem_map.1 hy
    rfl
  · refine ⟨((i, ps[i], (u0, v0)), f (i, ps[i], (u0, v0))), List.mem_map.2 ⟨(i, ps[i], (u0, v0)), List.mem_map.2 ⟨(ps[i], i), ?_, rfl⟩, rfl⟩, rfl⟩
    rw [List.mem_zipIdx_iff_getElem?]
    simp [hi]

/-- **C263 refuted**: a point for which no iterate passes in `max_iter` rounds gets the parameters (0, 0), which are neither an
iterate nor the guess. -/
theorem C263_zero_refuted (nrm : V3 K → K) (nrm2 : K × K → K) (s : Srf K) (tol1 tol2 : K) (p : V3 K) :
    ∀ (n i : Nat) (uv : K × K) (res : Nat → K × K),
      (∀ k w w1, k < n → StepsS s p k uv w → gaussS s p w = some w1 → maskS nrm nrm2 s p tol1 tol2 w w1 = false) →
      (∀ k w, k < n → StepsS s p k uv w → gaussS s p w ≠ none) →
      invPoints nrm nrm2 s tol1 tol2 n [(i, p, uv)] res = some res := by
  intro n
  induction n with
  | zero => intros; rfl
  | succ n ih =>
    intro i uv res h1 h2
    cases e : gaussS s p uv with
    | none => exact absurd e (h2 0 uv (by omega) rfl)
    | some w1 =>
      have hm := h1 0 uv w1 (by omega) rfl e
      unfold invPoints
      rw [mapM_some _ (fun x => (x, w1)) _ (fun x hx => by rw [List.mem_singleton] at hx; subst hx; simp [e])]
      simp only [List.map_cons, List.map_nil, List.filter_cons, hm, Bool.false_eq_true, if_false, List.filter_nil, List.foldl_nil, Bool.not_false,
        if_true, reduceCtorEq]
      exact ih i w1 res (fun k w w' hk hs hg => h1 (k + 1) w w' (by omega) ⟨w1, e, hs⟩ hg) (fun k w hk hs => h2 (k + 1) w (by omega) ⟨w1, e, hs⟩)

/-- **C263 refuted**: the size of the iterate is taken for the size of the step: an iterate at the origin of the parameters counts as
converged, whatever the point. -/
theorem C263_origin_refuted (nrm : V3 K → K) (nrm2 : K × K → K) (h0 : nrm2 (0, 0) = 0) (s : Srf K) (p : V3 K) (tol1 tol2 : K) (ht : 0 ≤ tol1)
    (uv : K × K) : maskS nrm nrm2 s p tol1 tol2 uv (0, 0) = true := by
  unfold maskS
  rw [h0, zero_mul]
  simp [ht]

/-- **C263, partial**: what is stored for a point is an iterate whose next step passes the mask, or (0, 0) still. -/
theorem C263_inversion_partial (nrm : V3 K → K) (nrm2 : K × K → K) (s : Srf K) (tol1 tol2 : K) (orig : Nat → V3 K) (uv0 : K × K) :
    ∀ (n : Nat) (act : List (Nat × V3 K × (K × K))) (res r : Nat → K × K),
      invPoints nrm nrm2 s tol1 tol2 n act res = some r →
      (∀ x ∈ act, x.2.1 = orig x.1 ∧ ∃ k, StepsS s (orig x.1) k uv0 x.2.2) →
      (∀ i, res i = (0, 0) ∨ ∃ k w1, StepsS s (orig i) k uv0 (res i) ∧ gaussS s (orig i) (res i) = some w1 ∧
        maskS nrm nrm2 s (orig i) tol1 tol2 (res i) w1 = true) →
      ∀ i, r i = (0, 0) ∨ ∃ k w1, StepsS s (orig i) k uv0 (r i) ∧ gaussS s (orig i) (r i) = some w1 ∧
        maskS nrm nrm2 s (orig i) tol1 tol2 (r i) w1 = true := by
  have snoc : ∀ p k u w w1, StepsS s p k u w → gaussS s p w = some w1 → StepsS s p (k + 1) u w1 := by
    intro p k
    induction k with
    | zero => intro u w w1 h e; have h : u = w := h; subst h; exact ⟨w1, e, rfl⟩
    | succ k ih => intro u w w1 h e; obtain ⟨x, hx, hs⟩ := h; exact ⟨x, hx, ih _ _ _ hs e⟩
  have mem : ∀ (l : List (Nat × V3 K × (K × K))) r, (l.mapM fun a => (gaussS s a.2.1 a.2.2).map fun uv1 => (a, uv1)) = some r →
      ∀ b ∈ r, b.1 ∈ l ∧ gaussS s b.1.2.1 b.1.2.2 = some b.2 := by
    intro l
    induction l with
    | nil => intro r h b hb; simp only [List.mapM_nil] at h; cases h; simp at hb
    | cons a l ih =>
      intro r h b hb
      rw [List.mapM_cons] at h
      cases e : gaussS s a.2.1 a.2.2 with
      | none => rw [e] at h; exact absurd h (by simp)
      | some w =>
        rw [e] at h
        cases e2 : (l.mapM fun a => (gaussS s a.2.1 a.2.2).map fun uv1 => (a, uv1)) with
        | none => rw [e2] at h; exact absurd h (by simp)
        | some r' =>
          rw [e2] at h
          have h : some ((a, w) :: r') = some r := h
          cases h
          rcases List.mem_cons.1 hb with rfl | hb
          · exact ⟨by simp, e⟩
          · exact ⟨by simp [(ih r' e2 b hb).1], (ih r' e2 b hb).2⟩
  have fold : ∀ (l : List ((Nat × V3 K × (K × K)) × (K × K))) (P : Nat → K × K → Prop) (res : Nat → K × K), (∀ b ∈ l, P b.1.1 b.1.2.2) →
      (∀ i, P i (res i)) → ∀ i, P i (l.foldl (fun r b => Function.update r b.1.1 b.1.2.2) res i) := by
    intro l P
    induction l with
    | nil => intro res _ h i; exact h i
    | cons a l ih =>
      intro res hl h i
      rw [List.foldl_cons]
      refine ih _ (fun b hb => hl b (by simp [hb])) (fun j => ?_) i
      by_cases hj : j = a.1.1
      · subst hj; rw [Function.update_self]; exact hl a (by simp)
      · rw [Function.update_of_ne hj]; exact h j
  intro n
  induction n with
  | zero => intro act res r h _ hres; simp only [invPoints, Option.some.injEq] at h; subst h; exact hres
  | succ n ih =>
    intro act res r h hact hres
    unfold invPoints at h
    cases e : (act.mapM fun a => (gaussS s a.2.1 a.2.2).map fun uv1 => (a, uv1)) with
    | none => rw [e] at h; exact absurd h (by simp)
    | some l =>
      rw [e] at h
      dsimp only at h
      have hl := mem act l e
      have h1 := fold (l.filter fun b => maskS nrm nrm2 s b.1.2.1 tol1 tol2 b.1.2.2 b.2) (fun i w => w = (0, 0) ∨ ∃ k w1, StepsS s (orig i) k uv0 w ∧ gaussS s (orig i) w = some w1 ∧
        maskS nrm nrm2 s (orig i) tol1 tol2 w w1 = true) res (fun b hb => by
          obtain ⟨hb1, hb2⟩ := List.mem_filter.1 hb
          obtain ⟨m1, m2⟩ := hl b hb1
          obtain ⟨a1, k, a2⟩ := hact b.1 m1
          rw [a1] at m2 hb2
          exact Or.inr ⟨k, b.2, a2, m2, hb2⟩) hres
      split_ifs at h with hc
      · simp only [Option.some.injEq] at h
        subst h
        exact h1
      · refine ih _ _ r h ?_ h1
        intro x hx
        obtain ⟨b, hb, rfl⟩ := List.mem_map.1 hx
        obtain ⟨m1, m2⟩ := hl b (List.mem_filter.1 hb).1
        obtain ⟨a1, k, a2⟩ := hact b.1 m1
        refine ⟨a1, k + 1, snoc _ k uv0 b.1.2.2 b.2 a2 ?_⟩
        rw [← a1]; exact m2

/-- A surface on which the iteration is slow, `((u - 1) ^ 3, v - 1, 0)`: from (2, 2) after three rounds the answer for the origin,
which is the point of the surface at (1, 1), is (0, 0), a parameter of the point (-1, -1, 0). -/
example : let s : Srf ℚ := ⟨fun x => ⟨(x.1 - 1) ^ 3, x.2 - 1, 0⟩, fun x => ⟨3 * (x.1 - 1) ^ 2, 0, 0⟩, fun _ => ⟨0, 1, 0⟩⟩
    (invAll (fun v => |v.x| + |v.y| + |v.z|) (fun x => |x.1| + |x.2|) s (1 / 100) (1 / 100) 3 [⟨0, 0, 0⟩] 2 2).map (fun r => r 0) = some (0, 0) ∧
    s.ev (1, 1) = ⟨0, 0, 0⟩ ∧ s.ev (0, 0) = ⟨-1, -1, 0⟩ ∧ gaussS s ⟨0, 0, 0⟩ (2, 2) = some (5 / 3, 1) := by
  refine ⟨?_, ?_, ?_, ?_⟩ <;> decide +kernel

end Verif.Pinv
