import Verif.Cnr.Model
import Verif.Vec.Props2
import Mathlib.Tactic.Ring
import Mathlib.Tactic.Linarith
import Mathlib.Tactic.FieldSimp
import Mathlib.Tactic.LinearCombination
import Mathlib.Tactic.NormNum
import Mathlib.NumberTheory.Real.Irrational

/-!
# C471, C472: Newton's method for a curve and a surface; rays and planes given as arrays
-/

set_option linter.unusedSectionVars false

namespace Verif.Cnr

open Verif.Vec Verif.Vec.V3

variable {K : Type} [Field K] [LinearOrder K] [IsStrictOrderedRing K]

/-! ## C471 -/

/-- The combination of the three columns with the entries of `d`. -/
def apply3 (J : V3 K × V3 K × V3 K) (d : K × K × K) : V3 K :=
  ((smul d.1 J.1).add (smul d.2.1 J.2.1)).add (smul d.2.2 J.2.2)

theorem solve3_spec (J : V3 K × V3 K × V3 K) (b : V3 K) :
    (solve3 J b = none ↔ det3 J.1 J.2.1 J.2.2 = 0) ∧
    ∀ d, solve3 J b = some d ↔ (det3 J.1 J.2.1 J.2.2 ≠ 0 ∧ apply3 J d = b) := by
  obtain ⟨⟨a1, a2, a3⟩, ⟨b1, b2, b3⟩, ⟨c1, c2, c3⟩⟩ := J
  obtain ⟨y1, y2, y3⟩ := b
  unfold solve3
  dsimp only
  constructor
  · split_ifs with h
    · simp [h]
    · simp [h]
  · rintro ⟨p, q, r⟩
    split_ifs with h
    · simp [h]
    · simp only [Option.some.injEq, Prod.mk.injEq, ne_eq, h, not_false_eq_true, true_and]
      constructor
      · rintro ⟨rfl, rfl, rfl⟩
        simp only [apply3, add, smul, V3.mk.injEq]
        refine ⟨?_, ?_, ?_⟩
        all_goals
          rw [div_mul_eq_mul_div, div_mul_eq_mul_div, div_mul_eq_mul_div, ← add_div, ← add_div, div_eq_iff h]
          simp only [det3, dot, cross]
          ring
      · intro e
        simp only [apply3, add, smul, V3.mk.injEq] at e
        obtain ⟨rfl, rfl, rfl⟩ := e
        refine ⟨?_, ?_, ?_⟩
        all_goals
          rw [div_eq_iff h]
          simp only [det3, dot, cross]
          ring

/-- A curve of degree at most two. -/
def quadC (p d q : V3 K) (t : K) : V3 K := (p.add (smul t d)).add (smul (t ^ 2) q)

/-- A surface of degree at most two in each parameter. -/
def quadS (o e f a b m : V3 K) (u v : K) : V3 K :=
  (((o.add (smul u e)).add (smul v f)).add ((smul (u ^ 2) a).add (smul (v ^ 2) b))).add (smul (u * v) m)

/-- **C471**: for a curve and a surface of degree at most two the matrix of central differences is the matrix of the derivatives, and
`_jac_cls` with the derivatives gives the same matrix: the derivative of the curve and the two of the surface with a minus. -/
theorem C471_jacobian (h : K) (hh : h ≠ 0) (p d q o e f a b m : V3 K) (x : K × K × K) :
    jacFd h (quadC p d q) (quadS o e f a b m) x =
      jacCls (fun t => d.add (smul (2 * t) q)) (fun u v => (e.add (smul (2 * u) a)).add (smul v m))
        (fun u v => (f.add (smul (2 * v) b)).add (smul u m)) x := by
  obtain ⟨t, u, v⟩ := x
  have h2 : (2 * h) ≠ 0 := mul_ne_zero two_ne_zero hh
  simp only [jacFd, jacCls, column, difference, quadC, quadS, add, sub, smul, Prod.mk.injEq, V3.mk.injEq]
  refine ⟨⟨?_, ?_, ?_⟩, ⟨?_, ?_, ?_⟩, ⟨?_, ?_, ?_⟩⟩
  all_goals
    rw [div_eq_iff h2]
    ring

/-- **C471**: every step solves the linear model exactly: the step at `x` exists unless the matrix is singular, and it is then the only
vector that takes the linear model of the difference to zero. -/
theorem C471_step (jac : K × K × K → V3 K × V3 K × V3 K) (c : K → V3 K) (s : K → K → V3 K) (x : K × K × K) :
    (delta jac c s x = none ↔ det3 (jac x).1 (jac x).2.1 (jac x).2.2 = 0) ∧
    ∀ d, delta jac c s x = some d ↔
      (det3 (jac x).1 (jac x).2.1 (jac x).2.2 ≠ 0 ∧ (difference c s x).add (apply3 (jac x) d) = zero) := by
  have hs := solve3_spec (jac x) (smul (-1) (difference c s x))
  refine ⟨hs.1, fun d => (hs.2 d).trans (and_congr_right fun _ => ?_)⟩
  generalize apply3 (jac x) d = w
  simp only [V3.ext_iff, smul, add, zero]
  constructor
  · rintro ⟨h1, h2, h3⟩
    exact ⟨by rw [h1]; ring, by rw [h2]; ring, by rw [h3]; ring⟩
  · rintro ⟨h1, h2, h3⟩
    exact ⟨by linear_combination h1, by linear_combination h2, by linear_combination h3⟩

/-- A straight line. -/
def line (p d : V3 K) (t : K) : V3 K := p.add (smul t d)

/-- A plane given by its origin and two directions. -/
def flat (o e f : V3 K) (u v : K) : V3 K := (o.add (smul u e)).add (smul v f)

/-- The two matrices of the code for a line and a plane. -/
def IsJac (h : K) (p d o e f : V3 K) (jac : K × K × K → V3 K × V3 K × V3 K) : Prop :=
  jac = jacFd h (line p d) (flat o e f) ∨ jac = jacCls (fun _ => d) (fun _ _ => e) (fun _ _ => f)

theorem isJac_eq {h : K} (hh : h ≠ 0) {p d o e f : V3 K} {jac} (H : IsJac h p d o e f jac) (x : K × K × K) :
    jac x = (d, smul (-1) e, smul (-1) f) := by
  rcases H with rfl | rfl
  · have h2 : (2 * h) ≠ 0 := mul_ne_zero two_ne_zero hh
    obtain ⟨t, u, v⟩ := x
    simp only [jacFd, column, difference, line, flat, add, sub, smul, Prod.mk.injEq, V3.mk.injEq, V3.ext_iff]
    refine ⟨⟨?_, ?_, ?_⟩, ⟨?_, ?_, ?_⟩, ⟨?_, ?_, ?_⟩⟩
    all_goals
      rw [div_eq_iff h2]
      ring
  · rfl

theorem det_neg (d e f : V3 K) : det3 d (smul (-1) e) (smul (-1) f) = det3 d e f := by
  simp only [det3, dot, cross, smul]; ring

theorem flat_step {h : K} (hh : h ≠ 0) {p d o e f : V3 K} {jac} (H : IsJac h p d o e f jac) (hd : det3 d e f ≠ 0) (x : K × K × K) :
    ∃ δ, delta jac (line p d) (flat o e f) x = some δ ∧
      difference (line p d) (flat o e f) (x.1 + δ.1, x.2.1 + δ.2.1, x.2.2 + δ.2.2) = zero := by
  have st := C471_step jac (line p d) (flat o e f) x
  have hj := isJac_eq hh H x
  rw [hj] at st
  simp only [det_neg] at st
  cases hδ : delta jac (line p d) (flat o e f) x with
  | none => exact absurd (st.1.1 hδ) hd
  | some δ =>
    refine ⟨δ, rfl, ?_⟩
    have := ((st.2 δ).1 hδ).2
    rw [← this]
    simp only [difference, line, flat, apply3, add, sub, smul, V3.mk.injEq]
    exact ⟨by ring, by ring, by ring⟩

/-- **C471**: for a line and a plane that are not parallel, any guess, any tolerance and at least one iteration, with either of the
two matrices, the result is a common point of the two, and it is the only one. -/
theorem C471_line_plane {h : K} (hh : h ≠ 0) {p d o e f : V3 K} {jac} (H : IsJac h p d o e f jac) (hd : det3 d e f ≠ 0)
    (small : K × K × K → Bool) : ∀ (n : Nat) (x : K × K × K),
    ∃ r, newton jac (line p d) (flat o e f) small (n + 1) x = some r ∧ line p d r.1 = flat o e f r.2.1 r.2.2 ∧
      ∀ r', line p d r'.1 = flat o e f r'.2.1 r'.2.2 → r' = r := by
  have huniq : ∀ r r' : K × K × K, difference (line p d) (flat o e f) r = zero → difference (line p d) (flat o e f) r' = zero →
      r' = r := by
    intro r r' h1 h2
    have hs := (solve3_spec (d, smul (-1) e, smul (-1) f) zero).2
    have ha : apply3 (d, smul (-1) e, smul (-1) f) (0, 0, 0) = zero := by simp [apply3, add, smul, zero]
    have hb : apply3 (d, smul (-1) e, smul (-1) f) (r'.1 - r.1, r'.2.1 - r.2.1, r'.2.2 - r.2.2) = zero := by
      simp only [difference, line, flat, add, sub, smul, zero, V3.mk.injEq] at h1 h2
      simp only [apply3, add, smul, zero, V3.mk.injEq]
      exact ⟨by linear_combination h2.1 - h1.1, by linear_combination h2.2.1 - h1.2.1, by linear_combination h2.2.2 - h1.2.2⟩
    have hd' : det3 d (smul (-1) e) (smul (-1) f) ≠ 0 := by rwa [det_neg]
    have e1 := (hs _).2 ⟨hd', ha⟩
    have e2 := (hs _).2 ⟨hd', hb⟩
    rw [e1] at e2
    simp only [Option.some.injEq, Prod.mk.injEq] at e2
    obtain ⟨a1, a2, a3⟩ := e2
    exact Prod.ext (by linear_combination -a1) (Prod.ext (by linear_combination -a2) (by linear_combination -a3))
  have hz : ∀ r : K × K × K, difference (line p d) (flat o e f) r = zero ↔ line p d r.1 = flat o e f r.2.1 r.2.2 := by
    intro r
    simp only [difference, sub, zero, V3.ext_iff, sub_eq_zero]
  intro n
  induction n with
  | zero =>
    intro x
    obtain ⟨δ, h1, h2⟩ := flat_step hh H hd x
    refine ⟨_, ?_, (hz _).1 h2, fun r' hr' => huniq _ _ h2 ((hz _).2 hr')⟩
    unfold newton
    simp only [Csx.newtonRaphson, h1]
    split_ifs <;> rfl
  | succ n ih =>
    intro x
    obtain ⟨δ, h1, h2⟩ := flat_step hh H hd x
    by_cases hs : small δ
    · refine ⟨_, ?_, (hz _).1 h2, fun r' hr' => huniq _ _ h2 ((hz _).2 hr')⟩
      unfold newton
      rw [Csx.newtonRaphson, h1]
      exact if_pos hs
    · obtain ⟨r, h3, h4, h5⟩ := ih (x.1 + δ.1, x.2.1 + δ.2.1, x.2.2 + δ.2.2)
      refine ⟨r, ?_, h4, h5⟩
      unfold newton at h3 ⊢
      rw [Csx.newtonRaphson, h1]
      exact (if_neg hs).trans h3

/-- A line along `z` and the plane `z = 3`, from a wrong guess. -/
example : newton (jacFd (1 / 10) (line (⟨1, 2, 0⟩ : V3 ℚ) ⟨0, 0, 2⟩) (flat ⟨0, 0, 3⟩ ⟨1, 0, 0⟩ ⟨0, 1, 0⟩))
    (line ⟨1, 2, 0⟩ ⟨0, 0, 2⟩) (flat ⟨0, 0, 3⟩ ⟨1, 0, 0⟩ ⟨0, 1, 0⟩) (fun _ => false) 2 (7, 8, 9) = some (3 / 2, 1, 2) ∧
    det3 (⟨0, 0, 2⟩ : V3 ℚ) ⟨1, 0, 0⟩ ⟨0, 1, 0⟩ ≠ 0 := by
  decide +kernel

/-- **C471** (refuted for parallel pairs): for a line parallel to the plane, in it or beside it, the search raises as soon as there is
a guess, whatever the guesses and tolerances, instead of giving no points. -/
theorem C471_parallel_refuted {h : K} (hh : h ≠ 0) {p d o e f : V3 K} {jac} (H : IsJac h p d o e f jac) (hd : det3 d e f = 0)
    (small : K × K × K → Bool) (close : K × K × K → K × K × K → Bool) (g : K × K × K) (gs : List (K × K × K)) :
    findAll jac (line p d) (flat o e f) small close (g :: gs) = none := by
  have st := (C471_step jac (line p d) (flat o e f) g).1
  rw [isJac_eq hh H g] at st
  simp only [det_neg] at st
  unfold findAll
  rw [Csx.refineAll]
  have : newton jac (line p d) (flat o e f) small 100 g = none := by
    unfold newton
    rw [Csx.newtonRaphson, st.2 hd]
  rw [this]

/-- The line `y = 0, z = 1` above the plane `z = 0`. -/
example : det3 (⟨1, 0, 0⟩ : V3 ℚ) ⟨1, 0, 0⟩ ⟨0, 1, 0⟩ = 0 ∧
    findAll (jacCls (fun _ => (⟨1, 0, 0⟩ : V3 ℚ)) (fun _ _ => ⟨1, 0, 0⟩) (fun _ _ => ⟨0, 1, 0⟩)) (line ⟨0, 0, 1⟩ ⟨1, 0, 0⟩)
      (flat ⟨0, 0, 0⟩ ⟨1, 0, 0⟩ ⟨0, 1, 0⟩) (fun _ => false) (fun _ _ => false) [(0, 0, 0)] = none := by
  constructor
  · decide +kernel
  · exact C471_parallel_refuted (h := 1) one_ne_zero (Or.inr rfl) (by decide +kernel) _ _ _ _

theorem sq_ne_two (x : ℚ) : x ^ 2 ≠ 2 := by
  intro h
  have h1 : ((|x| : ℚ) : ℝ) = Real.sqrt 2 := by
    rw [eq_comm, Real.sqrt_eq_iff_mul_self_eq (by norm_num) (by exact_mod_cast abs_nonneg x)]
    have : |x| * |x| = 2 := by rw [abs_mul_abs_self, ← pow_two]; exact h
    exact_mod_cast this.symm
  exact irrational_sqrt_two ⟨|x|, h1⟩

/-- The parabola `z = x² + 1` over the `x` axis. -/
def parab : ℚ → V3 ℚ := quadC ⟨0, 0, 1⟩ ⟨1, 0, 0⟩ ⟨0, 0, 1⟩

/-- The plane `z = 0`. -/
def floor : ℚ → ℚ → V3 ℚ := flat ⟨0, 0, 0⟩ ⟨1, 0, 0⟩ ⟨0, 1, 0⟩

/-- The derivatives. -/
def parabJac : ℚ × ℚ × ℚ → V3 ℚ × V3 ℚ × V3 ℚ :=
  jacCls (fun t => ⟨1, 0, 2 * t⟩) (fun _ _ => ⟨1, 0, 0⟩) (fun _ _ => ⟨0, 1, 0⟩)

theorem parab_step (t u v : ℚ) (ht : t ≠ 0) : ∃ δ, delta parabJac parab floor (t, u, v) = some δ ∧ t + δ.1 = (t - 1 / t) / 2 := by
  have st := C471_step parabJac parab floor (t, u, v)
  have hdet : det3 (parabJac (t, u, v)).1 (parabJac (t, u, v)).2.1 (parabJac (t, u, v)).2.2 = 2 * t := by
    simp only [parabJac, jacCls, det3, dot, cross, smul]; ring
  cases hδ : delta parabJac parab floor (t, u, v) with
  | none =>
    have := st.1.1 hδ
    rw [hdet] at this
    exact absurd this (mul_ne_zero two_ne_zero ht)
  | some δ =>
    refine ⟨δ, rfl, ?_⟩
    have h := ((st.2 δ).1 hδ).2
    simp only [parabJac, jacCls, parab, floor, difference, quadC, flat, apply3, add, sub, smul, zero, V3.mk.injEq] at h
    have h3 := h.2.2
    have : δ.1 = -(t ^ 2 + 1) / (2 * t) := by
      rw [eq_div_iff (mul_ne_zero two_ne_zero ht)]
      linear_combination h3
    rw [this]
    field_simp
    ring

/-- **C471** (refuted): the method does not tell a point of intersection from the last iterate.  A parabola that stays above the plane:
from every guess whose parameter is none of -1, 0, 1, for every tolerance and every number of iterations, a result is returned, and
it is not a common point, there being none; `find_intersections_bvh` reports it. -/
theorem C471_disjoint_refuted (small : ℚ × ℚ × ℚ → Bool) : ∀ (n : Nat) (x : ℚ × ℚ × ℚ), x.1 ≠ 0 → x.1 ≠ 1 → x.1 ≠ -1 →
    (∃ r, newton parabJac parab floor small n x = some r) ∧ ∀ r : ℚ × ℚ × ℚ, parab r.1 ≠ floor r.2.1 r.2.2 := by
  have hno : ∀ r : ℚ × ℚ × ℚ, parab r.1 ≠ floor r.2.1 r.2.2 := by
    intro r h
    simp only [parab, floor, quadC, flat, add, smul, V3.mk.injEq] at h
    have := h.2.2
    nlinarith [sq_nonneg r.1]
  intro n
  induction n with
  | zero => intro x _ _ _; exact ⟨⟨x, rfl⟩, hno⟩
  | succ n ih =>
    rintro ⟨t, u, v⟩ h0 h1 h2
    dsimp only at h0 h1 h2
    obtain ⟨δ, hδ, hstep⟩ := parab_step t u v h0
    refine ⟨?_, hno⟩
    unfold newton
    rw [Csx.newtonRaphson, hδ]
    dsimp only
    split_ifs with hs
    · exact ⟨_, rfl⟩
    · have key : ∀ y : ℚ, (t - 1 / t) / 2 = y → t ^ 2 - 1 = 2 * y * t := by
        intro y hy
        field_simp at hy
        linear_combination hy
      refine (ih (t + δ.1, u + δ.2.1, v + δ.2.2) ?_ ?_ ?_).1
      · dsimp only
        rw [hstep]
        intro hc
        have := key _ hc
        have h3 : (t - 1) * (t + 1) = 0 := by linear_combination this
        rcases mul_eq_zero.1 h3 with h | h
        · exact h1 (by linear_combination h)
        · exact h2 (by linear_combination h)
      · dsimp only
        rw [hstep]
        intro hc
        have := key _ hc
        exact sq_ne_two (t - 1) (by linear_combination this)
      · dsimp only
        rw [hstep]
        intro hc
        have := key _ hc
        exact sq_ne_two (t + 1) (by linear_combination this)

example : newton parabJac parab floor (fun _ => false) 2 (2, 0, 0) = some (-7 / 24, -7 / 24, 0) := by
  decide +kernel

/-! ## C472 -/

/-- **C472**: a plane given as origin and normal and a ray as origin and direction: a hit is on the plane and on the ray, and a ray
that meets the plane within the tolerance of not being parallel is hit there.  Further rows are not looked at, missing ones raise. -/
theorem C472_point_normal (eps : K) (he : 0 < eps) (po pn ro rd : V3 K) (more1 more2 : List (V3 K)) :
    (∀ p, rayPlaneIntersection eps (po :: pn :: more1) (ro :: rd :: more2) = some (some p) →
      dot (p.sub po) pn = 0 ∧ ∃ t, 0 ≤ t ∧ p = ro.add (smul t rd)) ∧
    (∀ t, eps ≤ |dot pn rd| → 0 ≤ t → dot ((ro.add (smul t rd)).sub po) pn = 0 →
      rayPlaneIntersection eps (po :: pn :: more1) (ro :: rd :: more2) = some (some (ro.add (smul t rd)))) ∧
    (∀ plane ray : List (V3 K), rayPlaneIntersection eps plane ray = none ↔ plane.length < 2 ∨ ray.length < 2) := by
  have hon : ∀ p, OnPlane p po pn ↔ dot (p.sub po) pn = 0 := by
    intro p
    unfold OnPlane
    simp only [dot, sub]
  have h := C45_ray_plane eps he po pn ro rd
  refine ⟨fun p hp => ?_, fun t h1 h2 h3 => ?_, fun plane ray => ?_⟩
  · have := h.1 p (Option.some.inj hp)
    exact ⟨(hon p).1 this.1, this.2⟩
  · exact congrArg some (h.2 t h1 h2 ((hon _).2 h3))
  · unfold rayPlaneIntersection
    match plane, ray with
    | [], _ => simp
    | [_], _ => simp
    | _ :: _ :: _, [] => simp
    | _ :: _ :: _, [_] => simp
    | _ :: _ :: _, _ :: _ :: _ => simp

example : rayPlaneIntersection (1 / 1000) [(⟨0, 0, 0⟩ : V3 ℚ), ⟨0, 1, 0⟩] [⟨0, -1, 0⟩, ⟨0, 2, 0⟩] = some (some ⟨0, 0, 0⟩) := by
  decide +kernel

/-- **C472**: with the four rows of an orthonormal plane `ray_plane_parametric_intersection` finds for every point of the plane and
every distance behind it the point and its parameters, by a ray along the normal. -/
theorem C472_parametric (eps : K) (he1 : eps ≤ 1) (P : Plane K) (hP : Ortho P) (u v s : K) (hs : 0 ≤ s) :
    rayPlaneParametric eps [P.o, P.x, P.y, P.n]
      [((P.o.add (smul u P.x)).add (smul v P.y)).sub (smul s P.n), P.n] =
      some (some ((P.o.add (smul u P.x)).add (smul v P.y), (u, v))) := by
  obtain ⟨⟨o1, o2, o3⟩, ⟨x1, x2, x3⟩, ⟨y1, y2, y3⟩, ⟨n1, n2, n3⟩⟩ := P
  obtain ⟨hxx, hyy, hnn, hxy, hxn, hyn⟩ := hP
  dsimp only at *
  have habs : ¬ |(1 : K)| < eps := by rw [abs_one]; exact not_lt.2 he1
  unfold rayPlaneParametric
  simp only [List.getElem?_cons_zero, List.getElem?_cons_succ, Option.some.injEq]
  unfold rayParamPlane rayPlane
  dsimp only
  rw [hnn, if_neg habs, div_one]
  have ht : dot (⟨n1, n2, n3⟩ : V3 K) ((⟨o1, o2, o3⟩ : V3 K).sub
      ((((⟨o1, o2, o3⟩ : V3 K).add (smul u ⟨x1, x2, x3⟩)).add (smul v ⟨y1, y2, y3⟩)).sub (smul s ⟨n1, n2, n3⟩))) = s := by
    simp only [dot, add, sub, smul] at *
    linear_combination s * hnn - u * hxn - v * hyn
  rw [ht, if_neg (not_lt.2 hs)]
  dsimp only
  have hp : ((((⟨o1, o2, o3⟩ : V3 K).add (smul u ⟨x1, x2, x3⟩)).add (smul v ⟨y1, y2, y3⟩)).sub (smul s ⟨n1, n2, n3⟩)).add
      (smul s ⟨n1, n2, n3⟩) = ((⟨o1, o2, o3⟩ : V3 K).add (smul u ⟨x1, x2, x3⟩)).add (smul v ⟨y1, y2, y3⟩) := by
    simp only [add, sub, smul, V3.mk.injEq]
    exact ⟨by ring, by ring, by ring⟩
  rw [hp, hxx, hxy, hyy, if_neg (by simpa using habs)]
  have hu : dot (⟨x1, x2, x3⟩ : V3 K) ((((⟨o1, o2, o3⟩ : V3 K).add (smul u ⟨x1, x2, x3⟩)).add (smul v ⟨y1, y2, y3⟩)).sub
      ⟨o1, o2, o3⟩) = u := by
    simp only [dot, add, sub, smul] at *
    linear_combination u * hxx + v * hxy
  have hv : dot (⟨y1, y2, y3⟩ : V3 K) ((((⟨o1, o2, o3⟩ : V3 K).add (smul u ⟨x1, x2, x3⟩)).add (smul v ⟨y1, y2, y3⟩)).sub
      ⟨o1, o2, o3⟩) = v := by
    simp only [dot, add, sub, smul] at *
    linear_combination u * hxy + v * hyy
  rw [hu, hv]
  simp

/-- **C472** (refuted for the usual planes): `ray_plane_intersection` given the four rows that every other function of the module uses
takes the x axis for the normal.  A ray along the normal that starts behind the plane meets it, and the function says that it does
not; and every hit it reports for any ray lies in the plane through the origin across the x axis. -/
theorem C472_frame_refuted (eps : K) (he : 0 < eps) (P : Plane K) (hP : Ortho P) :
    (∀ u v s, 0 ≤ s → rayPlaneIntersection eps [P.o, P.x, P.y, P.n]
      [((P.o.add (smul u P.x)).add (smul v P.y)).sub (smul s P.n), P.n] = some none) ∧
    (∀ ro rd p, rayPlaneIntersection eps [P.o, P.x, P.y, P.n] [ro, rd] = some (some p) → dot (p.sub P.o) P.x = 0) ∧
    (∀ v w, eps ≤ 1 → w ≠ 0 → ∃ p, rayPlaneIntersection eps [P.o, P.x, P.y, P.n]
      [((P.o.add (smul v P.y)).add (smul w P.n)).sub P.x, P.x] = some (some p) ∧ dot (p.sub P.o) P.n ≠ 0) := by
  refine ⟨fun u v s _ => ?_, fun ro rd p h => ?_, fun v w he1 hw => ?_⟩
  · unfold rayPlaneIntersection
    simp only [List.getElem?_cons_zero, List.getElem?_cons_succ, Option.some.injEq]
    unfold rayPlane
    dsimp only
    rw [hP.xn, if_pos (by simpa using he)]
  · exact ((C472_point_normal eps he P.o P.x ro rd [P.y, P.n] []).1 p h).1
  · have h3 := hP.xy
    have h4 := hP.xn
    have h5 := hP.yn
    have h6 := hP.nn
    refine ⟨_, (C472_point_normal eps he P.o P.x (((P.o.add (smul v P.y)).add (smul w P.n)).sub P.x) P.x [P.y, P.n] []).2.1 1 ?_
      zero_le_one ?_, ?_⟩
    · rw [hP.xx, abs_one]; exact he1
    · simp only [dot, add, sub, smul] at *
      linear_combination v * h3 + w * h4
    · have : dot (((((P.o.add (smul v P.y)).add (smul w P.n)).sub P.x).add (smul 1 P.x)).sub P.o) P.n = w := by
        simp only [dot, add, sub, smul] at *
        linear_combination v * h5 + w * h6
      rw [this]; exact hw

/-- The plane of `x` and `y`. -/
example : Ortho (⟨⟨0, 0, 0⟩, ⟨1, 0, 0⟩, ⟨0, 1, 0⟩, ⟨0, 0, 1⟩⟩ : Plane ℚ) ∧
    rayPlaneParametric (1 / 1000) [(⟨0, 0, 0⟩ : V3 ℚ), ⟨1, 0, 0⟩, ⟨0, 1, 0⟩, ⟨0, 0, 1⟩] [⟨2, 3, -5⟩, ⟨0, 0, 1⟩] =
      some (some (⟨2, 3, 0⟩, (2, 3))) ∧
    rayPlaneIntersection (1 / 1000) [(⟨0, 0, 0⟩ : V3 ℚ), ⟨1, 0, 0⟩, ⟨0, 1, 0⟩, ⟨0, 0, 1⟩] [⟨2, 3, -5⟩, ⟨0, 0, 1⟩] = some none :=
  ⟨⟨by decide +kernel, by decide +kernel, by decide +kernel, by decide +kernel, by decide +kernel, by decide +kernel⟩,
    by decide +kernel, by decide +kernel⟩

end Verif.Cnr
