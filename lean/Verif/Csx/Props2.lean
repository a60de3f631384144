import Verif.Csx.Props
import Mathlib.Tactic.IntervalCases

/-! # C255, C256: what `nurbs_csx` and `csx` miss -/

set_option linter.unusedSectionVars false

namespace Verif.Csx

open Verif.Mol (V)
open Verif.Ccx (dist2)

variable {K : Type} [Field K] [LinearOrder K] [IsStrictOrderedRing K] {C S : Type}

/-! ## Curves and surfaces given by functions, to see the hypotheses met -/

/-- A curve given by a function on an interval. -/
structure FC where
  lo : ℚ
  hi : ℚ
  f : ℚ → V ℚ

/-- A surface given by a function on a rectangle. -/
structure FS where
  ulo : ℚ
  uhi : ℚ
  vlo : ℚ
  vhi : ℚ
  f : ℚ → ℚ → V ℚ

/-- Functions restricted to smaller domains; splitting within `tol` of an end raises. -/
def fnEnv (sep : FC → FS → Bool) (sph : FC → FS → V ℚ → Bool) (newton : FC → FS → Option (ℚ × ℚ × ℚ)) : Env ℚ FC FS where
  cint c := (c.lo, c.hi)
  sint s := ((s.ulo, s.uhi), (s.vlo, s.vhi))
  cev c := c.f
  sev s := s.f
  split tol c t := if t - c.lo ≤ tol ∨ c.hi - t ≤ tol ∨ t ≤ c.lo ∨ c.hi ≤ t then none else some ({ c with hi := t }, { c with lo := t })
  subdiv tol s u v :=
    if u - s.ulo ≤ tol ∨ s.uhi - u ≤ tol ∨ u ≤ s.ulo ∨ s.uhi ≤ u ∨ v - s.vlo ≤ tol ∨ s.vhi - v ≤ tol ∨ v ≤ s.vlo ∨ s.vhi ≤ v then none
    else some ({ s with uhi := u, vhi := v }, { s with uhi := u, vlo := v }, { s with ulo := u, vhi := v }, { s with ulo := u, vlo := v })
  sep := sep
  sph := sph
  newton := newton
  degen := fun _ _ _ => false

theorem fn_spec (sep : FC → FS → Bool) (sph : FC → FS → V ℚ → Bool) (newton : FC → FS → Option (ℚ × ℚ × ℚ)) :
    Spec (fnEnv sep sph newton) (fun _ => True) (fun _ => True) where
  split tol c t c1 c2 _ h := by
    simp only [fnEnv] at h
    split_ifs at h with hg
    push Not at hg
    simp only [Option.some.injEq, Prod.mk.injEq] at h
    obtain ⟨rfl, rfl⟩ := h
    exact ⟨trivial, trivial, ⟨le_rfl, hg.2.2.2.le, fun _ _ => rfl⟩, ⟨hg.2.2.1.le, le_rfl, fun _ _ => rfl⟩, rfl, rfl⟩
  subdiv tol s u v q _ h := by
    simp only [fnEnv] at h
    split_ifs at h with hg
    push Not at hg
    simp only [Option.some.injEq] at h
    subst h
    obtain ⟨_, _, g1, g2, _, _, g3, g4⟩ := hg
    exact ⟨⟨trivial, trivial, trivial, trivial⟩, ⟨⟨le_rfl, g2.le, le_rfl, g4.le, fun _ _ _ _ => rfl⟩,
      ⟨le_rfl, g2.le, g3.le, le_rfl, fun _ _ _ _ => rfl⟩, ⟨g1.le, le_rfl, le_rfl, g4.le, fun _ _ _ _ => rfl⟩,
      ⟨g1.le, le_rfl, g3.le, le_rfl, fun _ _ _ _ => rfl⟩⟩, rfl, rfl, rfl, rfl⟩
  degen _ _ _ _ _ _ _ _ _ _ _ _ := rfl

/-- The unit square in the plane `z = 0`. -/
def exPlane : FS := ⟨0, 1, 0, 1, fun u v => ⟨u, v, 0⟩⟩

/-- A curve crossing the plane at `t = 1/4` and at `t = 1`. -/
def exTwo : FC := ⟨0, 1, fun t => ⟨t, 1 / 2, (4 * t - 1) * (t - 1)⟩⟩

/-- A curve crossing the plane at `t = 1/4` and at `t = 3/4`. -/
def exTwoIn : FC := ⟨0, 1, fun t => ⟨t, 1 / 2, (4 * t - 1) * (4 * t - 3)⟩⟩

/-- The hypotheses of C253 and C254 on the two crossings at `1/4` and `3/4`: Newton's method finds the root nearest to the
middle (the upper one first); both are reported. -/
example : (nurbsCsx (fnEnv (fun c s => decide (c.hi < s.ulo ∨ s.uhi < c.lo)) (fun _ _ _ => false)
      (fun c _ => if c.lo < 3 / 4 ∧ 3 / 4 < c.hi then some (3 / 4, 3 / 4, 1 / 2) else if c.lo < 1 / 4 ∧ 1 / 4 < c.hi then some (1 / 4, 1 / 4, 1 / 2) else none))
      (1 / 100) (1 / 5) (1 / 1000) 20 exTwoIn { exPlane with vlo := -1, vhi := 3 / 2 }).map
      (Option.map fun l => l.map fun h => (h.t, h.u, h.v)) =
    some (some [(3 / 4, 3 / 4, 1 / 2), (1 / 4, 1 / 4, 1 / 2)]) := by decide +kernel

/-- The curve of the example stays in a cube, as C254 asks. -/
example : ∀ t, In ((fnEnv (fun _ _ => false) (fun _ _ _ => false) fun _ _ => none).cint exTwoIn) t →
    |(exTwoIn.f t).x - 0| ≤ 3 ∧ |(exTwoIn.f t).y - 0| ≤ 3 ∧ |(exTwoIn.f t).z - 0| ≤ 3 := by
  rintro t ⟨h1, h2⟩
  have h1' : 0 ≤ t := h1
  have h2' : t ≤ 1 := h2
  show |t - 0| ≤ 3 ∧ |(1 / 2 : ℚ) - 0| ≤ 3 ∧ |(4 * t - 1) * (4 * t - 3) - 0| ≤ 3
  refine ⟨by rw [abs_le]; constructor <;> linarith, by norm_num, ?_⟩
  rw [abs_le]
  constructor <;> nlinarith [mul_nonneg h1' (sub_nonneg.2 h2'), sq_nonneg (4 * t - 2)]

/-! ## C255: completeness -/

/-- **C255 refuted, edges of the patch**: when Newton's method lands within `ptol` of an edge of the surface, the search ends there:
whatever else the curve and the surface have in common, one entry is reported. -/
theorem C255_edge_refuted (E : Env K C S) (tol ptol stol : K) (fuel : Nat) (c : C) (s : S) (t u v : K) (hsep : E.sep c s = false)
    (hn : E.newton c s = some (t, u, v)) (ht : In (E.cint c) t) (hu : In (E.sint s).1 u) (hv : In (E.sint s).2 v)
    (hd : dist2 (E.cev c t) (E.sev s u v) ≤ tol ^ 2)
    (he : |u - (E.sint s).1.1| < ptol ∨ |u - (E.sint s).1.2| < ptol ∨ |v - (E.sint s).2.1| < ptol ∨ |v - (E.sint s).2.2| < ptol) :
    nurbsCsx E tol ptol stol (fuel + 1) c s = some (some [⟨E.degen c s (t, u, v), E.cev c t, t, u, v⟩]) := by
  have hvp : validParam E c s t u v = true := by
    simp only [validParam, Bool.and_eq_true, decide_eq_true_eq]
    exact ⟨⟨ht, hu⟩, hv⟩
  have hf : findNew E tol [] c s = some (E.cev c t, t, u, v) := by
    unfold findNew
    simp [hn, hvp, hd]
  have hae : atEdge E ptol s u v = true := by
    simp only [atEdge, Bool.or_eq_true, decide_eq_true_eq]
    tauto
  unfold nurbsCsx intersect
  simp [hsep, hf, hae]

/-- A curve through the plane at `t = 1` and at `t = 1/4`; Newton's method finds the first.  The other one is lost, at every
tolerance below 3/4. -/
theorem C255_edge_refuted' (tol ptol stol : ℚ) (hp : 0 < ptol) (h1 : tol < 3 / 4) (fuel : Nat) :
    exTwo.f (1 / 4) = exPlane.f (1 / 4) (1 / 2) ∧
    ∃ r, nurbsCsx (fnEnv (fun _ _ => false) (fun _ _ _ => false) fun _ _ => some (1, 1, 1 / 2)) tol ptol stol (fuel + 1) exTwo exPlane =
      some (some r) ∧ ∀ h ∈ r, near tol h.pt (exTwo.f (1 / 4)) = false := by
  refine ⟨by norm_num [exTwo, exPlane], _, C255_edge_refuted _ tol ptol stol fuel exTwo exPlane 1 1 (1 / 2) rfl rfl ?_ ?_ ?_ ?_ ?_, ?_⟩
  · show (0 : ℚ) ≤ 1 ∧ (1 : ℚ) ≤ 1; norm_num
  · show (0 : ℚ) ≤ 1 ∧ (1 : ℚ) ≤ 1; norm_num
  · show (0 : ℚ) ≤ 1 / 2 ∧ (1 / 2 : ℚ) ≤ 1; norm_num
  · have : dist2 (exTwo.f 1) (exPlane.f 1 (1 / 2)) = 0 := by norm_num [dist2, exTwo, exPlane, Verif.Mol.sub, Verif.Mol.dot]
    show dist2 (exTwo.f 1) (exPlane.f 1 (1 / 2)) ≤ tol ^ 2
    rw [this]
    positivity
  · right; left
    show |(1 : ℚ) - 1| < ptol
    rw [sub_self, abs_zero]; exact hp
  · intro h hh
    simp only [List.mem_singleton] at hh
    subst hh
    show near tol (exTwo.f 1) (exTwo.f (1 / 4)) = false
    simp only [near, Bool.and_eq_false_iff, decide_eq_false_iff_not, not_lt]
    left; left
    show tol ≤ |(1 : ℚ) - 1 / 4|
    rw [abs_of_nonneg (by norm_num)]
    linarith

/-- **C255 refuted, ends of the curve**: when the point found is at a parameter where `split_curve` raises (within `ptol` of an end of
the curve, C56) and not at an edge of the patch, and the spherical test is not positive, `nurbs_csx` raises `ValueError`
instead of returning the intersection it has found. -/
theorem C255_end_refuted (E : Env K C S) (tol ptol stol : K) (fuel : Nat) (c : C) (s : S) (t u v : K) (hsep : E.sep c s = false)
    (hn : E.newton c s = some (t, u, v)) (ht : In (E.cint c) t) (hu : In (E.sint s).1 u) (hv : In (E.sint s).2 v)
    (hd : dist2 (E.cev c t) (E.sev s u v) ≤ tol ^ 2) (he : atEdge E ptol s u v = false) (hs : E.sph c s (E.cev c t) = false)
    (hsplit : E.split ptol c t = none) : nurbsCsx E tol ptol stol (fuel + 1) c s = some none := by
  have hvp : validParam E c s t u v = true := by
    simp only [validParam, Bool.and_eq_true, decide_eq_true_eq]
    exact ⟨⟨ht, hu⟩, hv⟩
  have hf : findNew E tol [] c s = some (E.cev c t, t, u, v) := by
    unfold findNew
    simp [hn, hvp, hd]
  unfold nurbsCsx intersect
  simp [hsep, hf, he, hs, hsplit]

/-- **C255 refuted, short curves**: line 75 splits with the default tolerance of `split_curve`: a curve whose interval is not longer
than twice that default raises as soon as a call finds no new point, however large the patch is. -/
theorem C255_short_refuted (E : Env K C S) (tol ptol stol : K) (fuel : Nat) (hits : List (Hit K)) (c : C) (s : S) (hsep : E.sep c s = false)
    (hn : findNew E tol hits c s = none) (hsplit : E.split stol c (((E.cint c).1 + (E.cint c).2) * (1 / 2)) = none) :
    intersect E tol ptol stol (fuel + 1) hits c s = some none := by
  unfold intersect
  rw [if_neg (by rw [hsep]; simp), hn]
  dsimp only
  rw [hsplit]

/-- The hypotheses of the two: a line that starts on the plane, and a line of parameter length 1/10 beside the middle. -/
example : nurbsCsx (fnEnv (fun _ _ => false) (fun _ _ _ => false) fun _ _ => some (0, 1 / 2, 1 / 2)) (1 / 100) (1 / 100) (1 / 1000) 5
      ⟨0, 1, fun t => ⟨1 / 2, 1 / 2, t⟩⟩ exPlane = some none ∧
    nurbsCsx (fnEnv (fun _ _ => false) (fun _ _ _ => false) fun _ _ => none) (1 / 100) (1 / 100) (1 / 20) 5
      ⟨0, 1 / 10, fun t => ⟨1 / 2, 1 / 2, t⟩⟩ exPlane = some none := by
  constructor <;> decide +kernel

/-- What completeness needs of the tests and of Newton's method. -/
structure Complete (E : Env K C S) (okC : C → Prop) (okS : S → Prop) (tol ptol : K) : Prop where
  /-- the pieces cover the whole -/
  sep : ∀ c s t u v, okC c → okS s → E.sep c s = true → In (E.cint c) t → In (E.sint s).1 u → In (E.sint s).2 v → E.cev c t ≠ E.sev s u v
  /-- a point found at an edge is the only one of the pair -/
  edge : ∀ c s t u v t' u' v', okC c → okS s → E.newton c s = some (t, u, v) → atEdge E ptol s u v = true → In (E.cint c) t' →
    In (E.sint s).1 u' → In (E.sint s).2 v' → E.cev c t' = E.sev s u' v' → near tol (E.cev c t) (E.cev c t') = true
  /-- the spherical test is right -/
  sph : ∀ c s p t u v, okC c → okS s → E.sph c s p = true → In (E.cint c) t → In (E.sint s).1 u → In (E.sint s).2 v →
    E.cev c t = E.sev s u v → near tol p (E.cev c t) = true
  /-- Newton's method finds the points of small patches -/
  small : ∀ c s t u v, okC c → okS s →
    atEdge E ptol s (((E.sint s).1.1 + (E.sint s).1.2) * (1 / 2)) (((E.sint s).2.1 + (E.sint s).2.2) * (1 / 2)) = true →
    In (E.cint c) t → In (E.sint s).1 u → In (E.sint s).2 v → E.cev c t = E.sev s u v →
    ∃ t' u' v', E.newton c s = some (t', u', v') ∧ In (E.cint c) t' ∧ In (E.sint s).1 u' ∧ In (E.sint s).2 v' ∧
      dist2 (E.cev c t') (E.sev s u' v') ≤ tol ^ 2 ∧ near tol (E.cev c t') (E.cev c t) = true

theorem near_trans {tol : K} {p q r : V K} (h1 : near tol p q = true) (h2 : near tol q r = true) :
    |p.x - r.x| < 2 * tol ∧ |p.y - r.y| < 2 * tol ∧ |p.z - r.z| < 2 * tol := by
  simp only [near, Bool.and_eq_true, decide_eq_true_eq] at h1 h2
  refine ⟨?_, ?_, ?_⟩
  · calc |p.x - r.x| ≤ |p.x - q.x| + |q.x - r.x| := abs_sub_le _ _ _
      _ < 2 * tol := by linarith [h1.1.1, h2.1.1]
  · calc |p.y - r.y| ≤ |p.y - q.y| + |q.y - r.y| := abs_sub_le _ _ _
      _ < 2 * tol := by linarith [h1.1.2, h2.1.2]
  · calc |p.z - r.z| ≤ |p.z - q.z| + |q.z - r.z| := abs_sub_le _ _ _
      _ < 2 * tol := by linarith [h1.2, h2.2]

/-- An entry within twice the tolerance of the point. -/
def Found (tol : K) (r : List (Hit K)) (p : V K) : Prop :=
  ∃ h ∈ r, |h.pt.x - p.x| < 2 * tol ∧ |h.pt.y - p.y| < 2 * tol ∧ |h.pt.z - p.z| < 2 * tol

theorem Found.mono {tol : K} {r r' : List (Hit K)} {p : V K} (h : Found tol r p) (hs : ∀ x ∈ r, x ∈ r') : Found tol r' p :=
  let ⟨x, hx, hp⟩ := h
  ⟨x, hs _ hx, hp⟩

theorem callAll_found {E : Env K C S} {okC okS} (hE : Spec E okC okS) {tol ptol stol : K} {k : Nat} {p : V K} (g : C × S → Prop) :
    ∀ (l : List (C × S)) (h r : List (Hit K)), (∀ q ∈ l, okC q.1 ∧ okS q.2) →
      (∀ q ∈ l, ∀ h r, g q → intersect E tol ptol stol k h q.1 q.2 = some (some r) → Found tol r p) →
      callAll (intersect E tol ptol stol k) l h = some (some r) → (∃ q ∈ l, g q) → Found tol r p := by
  intro l
  induction l with
  | nil => intro h r _ _ _ ⟨q, hq, _⟩; simp at hq
  | cons a l ih =>
    intro h r hok hg e hex
    unfold callAll at e
    cases e1 : intersect E tol ptol stol k h a.1 a.2 with
    | none => simp [e1] at e
    | some o =>
      cases o with
      | none => simp [e1] at e
      | some h' =>
        simp only [e1] at e
        by_cases ha : g a
        · have f := hg a (by simp) h h' ha e1
          -- later calls only add entries
          have sub : ∀ x ∈ h', x ∈ r :=
            callAll_ind (P := fun a b => ∀ x ∈ a, x ∈ b) (fun _ _ h => h) (fun _ _ _ f g x hx => g x (f x hx)) l h' r
              (fun q hq h r e x hx => by
                obtain ⟨n, rfl, _⟩ := (intersect_adds hE k h r q.1 q.2 (hok q (by simp [hq])).1 (hok q (by simp [hq])).2 e).ext
                exact List.mem_append_left _ hx) e
          exact f.mono sub
        · obtain ⟨q, hq, hgq⟩ := hex
          rcases List.mem_cons.1 hq with rfl | hq
          · exact absurd hgq ha
          · exact ih h' r (fun q hq => hok q (by simp [hq])) (fun q hq => hg q (by simp [hq])) e ⟨q, hq, hgq⟩

/-- Every point of the curve and the surface lies in one of the eight pairs. -/
theorem pairs_cover {E : Env K C S} {okC okS} (hE : Spec E okC okS) {tl tl' : K} {c : C} {s : S} (hc : okC c) (hs : okS s) {a b d : K}
    {c1 c2 : C} {q : S × S × S × S} (h1 : E.split tl c a = some (c1, c2)) (h2 : E.subdiv tl' s b d = some q) {t u v : K}
    (ht : In (E.cint c) t) (hu : In (E.sint s).1 u) (hv : In (E.sint s).2 v) (he : E.cev c t = E.sev s u v) :
    ∃ p ∈ pairs c1 c2 q, In (E.cint p.1) t ∧ In (E.sint p.2).1 u ∧ In (E.sint p.2).2 v ∧ E.cev p.1 t = E.sev p.2 u v ∧
      E.cev p.1 t = E.cev c t := by
  obtain ⟨_, _, sc1, sc2, i1, i2⟩ := hE.split _ _ _ _ _ hc h1
  obtain ⟨_, ⟨ss1, ss2, ss3, ss4⟩, j1, j2, j3, j4⟩ := hE.subdiv _ _ _ _ _ hs h2
  have C' : ∃ x : C, (x = c1 ∨ x = c2) ∧ In (E.cint x) t ∧ E.cev x t = E.cev c t := by
    rcases le_total t a with h | h
    · exact ⟨c1, Or.inl rfl, by rw [i1]; exact ⟨ht.1, h⟩, sc1.2.2 t (by rw [i1]; exact ⟨ht.1, h⟩)⟩
    · exact ⟨c2, Or.inr rfl, by rw [i2]; exact ⟨h, ht.2⟩, sc2.2.2 t (by rw [i2]; exact ⟨h, ht.2⟩)⟩
  have S' : ∃ y : S, (y = q.1 ∨ y = q.2.1 ∨ y = q.2.2.1 ∨ y = q.2.2.2) ∧ In (E.sint y).1 u ∧ In (E.sint y).2 v ∧ E.sev y u v = E.sev s u v := by
    rcases le_total u b with h | h <;> rcases le_total v d with g | g
    · have a1 : In (E.sint q.1).1 u := by rw [j1]; exact ⟨hu.1, h⟩
      have a2 : In (E.sint q.1).2 v := by rw [j1]; exact ⟨hv.1, g⟩
      exact ⟨_, Or.inl rfl, a1, a2, ss1.2.2.2.2 u v a1 a2⟩
    · have a1 : In (E.sint q.2.1).1 u := by rw [j2]; exact ⟨hu.1, h⟩
      have a2 : In (E.sint q.2.1).2 v := by rw [j2]; exact ⟨g, hv.2⟩
      exact ⟨_, Or.inr (Or.inl rfl), a1, a2, ss2.2.2.2.2 u v a1 a2⟩
    · have a1 : In (E.sint q.2.2.1).1 u := by rw [j3]; exact ⟨h, hu.2⟩
      have a2 : In (E.sint q.2.2.1).2 v := by rw [j3]; exact ⟨hv.1, g⟩
      exact ⟨_, Or.inr (Or.inr (Or.inl rfl)), a1, a2, ss3.2.2.2.2 u v a1 a2⟩
    · have a1 : In (E.sint q.2.2.2).1 u := by rw [j4]; exact ⟨h, hu.2⟩
      have a2 : In (E.sint q.2.2.2).2 v := by rw [j4]; exact ⟨g, hv.2⟩
      exact ⟨_, Or.inr (Or.inr (Or.inr rfl)), a1, a2, ss4.2.2.2.2 u v a1 a2⟩
  obtain ⟨x, hx, x1, x2⟩ := C'
  obtain ⟨y, hy, y1, y2, y3⟩ := S'
  refine ⟨(x, y), ?_, x1, y1, y2, by show E.cev x t = E.sev y u v; rw [x2, y3, he], x2⟩
  simp only [pairs, List.mem_cons, List.not_mem_nil, or_false, Prod.mk.injEq]
  rcases hx with rfl | rfl <;> rcases hy with rfl | rfl | rfl | rfl <;> simp

/-- **C255, partial.** If the separation tests are right, a point found at an edge of a patch is the only one of the pair at hand,
Newton's method finds the points of patches smaller than `2 * ptol`, and nothing is raised, then every intersection has an
entry within `2 * tol` in each coordinate.  Missing: exactly these hypotheses, which the code does not ensure (above). -/
theorem C255_complete_partial {E : Env K C S} {okC okS} (hE : Spec E okC okS) {tol ptol stol : K} (htol : 0 < tol)
    (hC : Complete E okC okS tol ptol) :
    ∀ (k : Nat) (hits r : List (Hit K)) (c : C) (s : S) (t u v : K), okC c → okS s →
      intersect E tol ptol stol k hits c s = some (some r) → In (E.cint c) t → In (E.sint s).1 u → In (E.sint s).2 v →
      E.cev c t = E.sev s u v → Found tol r (E.cev c t) := by
  have one : ∀ {h : Hit K} {r : List (Hit K)} {p : V K}, h ∈ r → near tol h.pt p = true → Found tol r p := by
    intro h r p hm hn
    simp only [near, Bool.and_eq_true, decide_eq_true_eq] at hn
    exact ⟨h, hm, by linarith [hn.1.1], by linarith [hn.1.2], by linarith [hn.2]⟩
  intro k
  induction k with
  | zero => intro hits r c s t u v _ _ h; simp [intersect] at h
  | succ k ih =>
    intro hits r c s t u v hc hs h ht hu hv he
    have key : ∀ (tl tl' a b d : K) (c1 c2 : C) (q : S × S × S × S) (hh : List (Hit K)), E.split tl c a = some (c1, c2) →
        E.subdiv tl' s b d = some q → callAll (intersect E tol ptol stol k) (pairs c1 c2 q) hh = some (some r) →
        Found tol r (E.cev c t) := by
      intro tl tl' a b d c1 c2 q hh h1 h2 h3
      have ok := pairs_ok hE hc hs h1 h2
      obtain ⟨p, hp, p1, p2, p3, p4, p5⟩ := pairs_cover hE hc hs h1 h2 ht hu hv he
      refine callAll_found hE (fun q => In (E.cint q.1) t ∧ In (E.sint q.2).1 u ∧ In (E.sint q.2).2 v ∧ E.cev q.1 t = E.sev q.2 u v ∧
        E.cev q.1 t = E.cev c t) _ hh r (fun q hq => ⟨(ok q hq).1, (ok q hq).2.1⟩) (fun q hq h r hg e => ?_) h3 ⟨p, hp, p1, p2, p3, p4, p5⟩
      rw [← hg.2.2.2.2]
      exact ih h r q.1 q.2 t u v (ok q hq).1 (ok q hq).2.1 e hg.1 hg.2.1 hg.2.2.1 hg.2.2.2.1
    unfold intersect at h
    by_cases h0 : E.sep c s = true
    · exact absurd he (hC.sep c s t u v hc hs h0 ht hu hv)
    rw [if_neg h0] at h
    cases e : findNew E tol hits c s with
    | none =>
      simp only [e] at h
      cases e1 : E.split stol c (((E.cint c).1 + (E.cint c).2) * (1 / 2)) with
      | none => simp only [e1, Option.some.injEq, reduceCtorEq] at h
      | some cc =>
        obtain ⟨c1, c2⟩ := cc
        simp only [e1] at h
        by_cases h2 : atEdge E ptol s (((E.sint s).1.1 + (E.sint s).1.2) * (1 / 2)) (((E.sint s).2.1 + (E.sint s).2.2) * (1 / 2)) = true
        · rw [if_pos h2] at h
          simp only [Option.some.injEq] at h
          subst h
          obtain ⟨t', u', v', n1, n2, n3, n4, n5, n6⟩ := hC.small c s t u v hc hs h2 ht hu hv he
          have hvp : validParam E c s t' u' v' = true := by
            simp only [validParam, Bool.and_eq_true, decide_eq_true_eq]
            exact ⟨⟨n2, n3⟩, n4⟩
          have hany : (hits.any fun h => near tol h.pt (E.cev c t')) = true := by
            by_contra hcon
            have hcon' : (hits.any fun h => near tol h.pt (E.cev c t')) = false := by simpa using hcon
            unfold findNew at e
            simp only [n1, hvp, if_true, n5, hcon', Bool.false_eq_true, if_false] at e
            exact absurd e (by simp)
          obtain ⟨x, hx, hxn⟩ := List.any_eq_true.1 hany
          exact ⟨x, hx, near_trans hxn n6⟩
        rw [if_neg h2] at h
        cases e2 : E.subdiv ptol s (((E.sint s).1.1 + (E.sint s).1.2) * (1 / 2)) (((E.sint s).2.1 + (E.sint s).2.2) * (1 / 2)) with
        | none => simp only [e2, Option.some.injEq, reduceCtorEq] at h
        | some q => simp only [e2] at h; exact key _ _ _ _ _ _ _ _ _ e1 e2 h
    | some x =>
      obtain ⟨p, a, b, d⟩ := x
      simp only [e] at h
      obtain ⟨hn, _, _, _, rfl, _, _⟩ := findNew_some e
      by_cases h2 : atEdge E ptol s b d = true
      · rw [if_pos h2] at h
        simp only [Option.some.injEq] at h
        subst h
        exact one (h := ⟨E.degen c s (a, b, d), E.cev c a, a, b, d⟩) (by simp) (hC.edge c s a b d t u v hc hs hn h2 ht hu hv he)
      rw [if_neg h2] at h
      by_cases h3 : E.sph c s (E.cev c a) = true
      · rw [if_pos h3] at h
        simp only [Option.some.injEq] at h
        subst h
        exact one (h := ⟨E.degen c s (a, b, d), E.cev c a, a, b, d⟩) (by simp) (hC.sph c s _ t u v hc hs h3 ht hu hv he)
      rw [if_neg h3] at h
      cases e1 : E.split ptol c a with
      | none => simp only [e1, Option.some.injEq, reduceCtorEq] at h
      | some cc =>
        obtain ⟨c1, c2⟩ := cc
        simp only [e1] at h
        cases e2 : E.subdiv ptol s b d with
        | none => simp only [e2, Option.some.injEq, reduceCtorEq] at h
        | some q => simp only [e2] at h; exact key _ _ _ _ _ _ _ _ _ e1 e2 h

/-- A vertical line through `(x, 1/2)` with an exact Newton's method, an exact separation test and a spherical test that is
always positive (there is one point) meets the hypotheses, and its point is reported. -/
example : Complete (fnEnv (fun c s => decide (¬ (c.lo ≤ 0 ∧ 0 ≤ c.hi ∧ s.ulo ≤ 1 / 3 ∧ 1 / 3 ≤ s.uhi ∧ s.vlo ≤ 1 / 2 ∧ 1 / 2 ≤ s.vhi)))
      (fun _ _ p => decide (p = ⟨1 / 3, 1 / 2, 0⟩)) (fun _ _ => some (0, 1 / 3, 1 / 2)))
      (fun c => c.f = fun t => ⟨1 / 3, 1 / 2, t⟩) (fun s => s.f = fun u v => ⟨u, v, 0⟩) (1 / 100) (1 / 100) ∧
    (nurbsCsx (fnEnv (fun c s => decide (¬ (c.lo ≤ 0 ∧ 0 ≤ c.hi ∧ s.ulo ≤ 1 / 3 ∧ 1 / 3 ≤ s.uhi ∧ s.vlo ≤ 1 / 2 ∧ 1 / 2 ≤ s.vhi)))
      (fun _ _ p => decide (p = ⟨1 / 3, 1 / 2, 0⟩)) (fun _ _ => some (0, 1 / 3, 1 / 2)))
      (1 / 100) (1 / 100) (1 / 1000) 5 ⟨-1, 1, fun t => ⟨1 / 3, 1 / 2, t⟩⟩ exPlane).map (Option.map fun l => l.map fun h => (h.t, h.u, h.v)) =
      some (some [(0, 1 / 3, 1 / 2)]) := by
  have root : ∀ (c : FC) (s : FS) (t u v : ℚ), (c.f = fun t => ⟨1 / 3, 1 / 2, t⟩) → (s.f = fun u v => ⟨u, v, 0⟩) → c.f t = s.f u v →
      t = 0 ∧ u = 1 / 3 ∧ v = 1 / 2 := by
    intro c s t u v hc hs he
    rw [hc, hs] at he
    simp only [Verif.Mol.V.mk.injEq] at he
    exact ⟨he.2.2, he.1.symm, he.2.1.symm⟩
  refine ⟨⟨?_, ?_, ?_, ?_⟩, by decide +kernel⟩
  · rintro c s t u v hc hs h ⟨t1, t2⟩ ⟨u1, u2⟩ ⟨v1, v2⟩ he
    obtain ⟨rfl, rfl, rfl⟩ := root c s t u v hc hs he
    have : ¬ (c.lo ≤ 0 ∧ 0 ≤ c.hi ∧ s.ulo ≤ 1 / 3 ∧ 1 / 3 ≤ s.uhi ∧ s.vlo ≤ 1 / 2 ∧ 1 / 2 ≤ s.vhi) := of_decide_eq_true h
    exact this ⟨t1, t2, u1, u2, v1, v2⟩
  · rintro c s t u v t' u' v' hc hs h _ _ _ _ he
    obtain ⟨rfl, rfl, rfl⟩ := root c s t' u' v' hc hs he
    have h' : (0, 1 / 3, 1 / 2) = (t, u, v) := Option.some.inj h
    simp only [Prod.mk.injEq] at h'
    obtain ⟨rfl, rfl, rfl⟩ := h'
    simp [near]
  · rintro c s p t u v hc hs h _ _ _ he
    obtain ⟨rfl, rfl, rfl⟩ := root c s t u v hc hs he
    have h' : p = ⟨1 / 3, 1 / 2, 0⟩ := of_decide_eq_true h
    show near (1 / 100) p (c.f 0) = true
    rw [h', hc]
    simp [near]
  · rintro c s t u v hc hs _ ht hu hv he
    obtain ⟨rfl, rfl, rfl⟩ := root c s t u v hc hs he
    refine ⟨0, 1 / 3, 1 / 2, rfl, ht, hu, hv, ?_, by simp [near]⟩
    show dist2 (c.f 0) (s.f (1 / 3) (1 / 2)) ≤ (1 / 100) ^ 2
    have he' : c.f 0 = s.f (1 / 3) (1 / 2) := he
    rw [he']
    norm_num [dist2, Verif.Mol.sub, Verif.Mol.dot]

/-! ## C256: `csx` and the search for other surfaces -/

/-- **C256 refuted**: for two NURBS objects that do not meet `csx` raises `ValueError` (the unpacking of an empty `zip`), where
an empty array is the answer. -/
theorem C256_empty_refuted (E : Env K C S) (tol ptol stol : K) (fuel : Nat) (c : C) (s : S)
    (h : nurbsCsx E tol ptol stol fuel c s = some (some [])) : csx E tol ptol stol fuel c s = some none := by
  unfold csx
  rw [h]

/-- In particular when the separation test already tells them apart. -/
theorem C256_apart_refuted (E : Env K C S) (tol ptol stol : K) (fuel : Nat) (c : C) (s : S) (h : E.sep c s = true) :
    csx E tol ptol stol (fuel + 1) c s = some none := by
  apply C256_empty_refuted
  unfold nurbsCsx intersect
  rw [if_pos h]

/-- **C256, partial.** When there are intersections, `csx` returns the parameters of the entries of `nurbs_csx`, each once, in the order
of the curve parameter.  Missing: the case of no intersection (above). -/
theorem C256_sorted_partial (E : Env K C S) (tol ptol stol : K) (fuel : Nat) (c : C) (s : S) (l : List (Hit K)) (hl : l ≠ [])
    (h : nurbsCsx E tol ptol stol fuel c s = some (some l)) :
    ∃ r, csx E tol ptol stol fuel c s = some (some r) ∧ r.Perm (l.map fun h => (h.t, h.u, h.v)) ∧ r.Pairwise fun a b => a.1 ≤ b.1 := by
  cases l with
  | nil => exact absurd rfl hl
  | cons a l =>
    refine ⟨((a :: l).insertionSort fun a b => a.t ≤ b.t).map fun h => (h.t, h.u, h.v), ?_, ?_, ?_⟩
    · unfold csx
      rw [h]
    · exact (List.perm_insertionSort _ _).map _
    · rw [List.pairwise_map]
      have : Std.Total (fun a b : Hit K => a.t ≤ b.t) := ⟨fun a b => le_total a.t b.t⟩
      have : IsTrans (Hit K) (fun a b : Hit K => a.t ≤ b.t) := ⟨fun a b c => le_trans⟩
      exact List.pairwise_insertionSort _ _

example : (csx (fnEnv (fun c s => decide (c.hi < s.ulo ∨ s.uhi < c.lo)) (fun _ _ _ => false)
      (fun c _ => if c.lo < 3 / 4 ∧ 3 / 4 < c.hi then some (3 / 4, 3 / 4, 1 / 2) else if c.lo < 1 / 4 ∧ 1 / 4 < c.hi then some (1 / 4, 1 / 4, 1 / 2) else none))
      (1 / 100) (1 / 5) (1 / 1000) 20 exTwoIn { exPlane with vlo := -1, vhi := 3 / 2 }) =
    some (some [(1 / 4, 1 / 4, 1 / 2), (3 / 4, 3 / 4, 1 / 2)]) := by decide +kernel

/-- The Newton step of the curve `(t, 0, t^3 - 2t + 2)` and the plane `(u, v, 0)`. -/
def cubicStep (x : ℚ × ℚ × ℚ) : Option (ℚ × ℚ × ℚ) :=
  let g := x.1 ^ 3 - 2 * x.1 + 2
  let g' := 3 * x.1 ^ 2 - 2
  if g' = 0 then none else some (-g / g', -g / g' + (x.1 - x.2.1), -x.2.2)

/-- It solves the linear system of `newton_raphson`: `J d = - F` with `F = curve(t) - surface(u, v)`. -/
theorem cubicStep_solves (x d : ℚ × ℚ × ℚ) (h : cubicStep x = some d) :
    d.1 - d.2.1 = -(x.1 - x.2.1) ∧ -d.2.2 = -(0 - x.2.2) ∧ (3 * x.1 ^ 2 - 2) * d.1 = -(x.1 ^ 3 - 2 * x.1 + 2 - 0) := by
  unfold cubicStep at h
  simp only at h
  split_ifs at h with hg
  simp only [Option.some.injEq] at h
  subst h
  refine ⟨by dsimp only; ring, by dsimp only; ring, ?_⟩
  dsimp only
  field_simp
  ring

theorem cubic_cycle (small : ℚ × ℚ × ℚ → Bool) (h1 : small (1, 1, 0) = false) (h2 : small (-1, -1, 0) = false) :
    ∀ n, newtonRaphson cubicStep small (2 * n) (0, 0, 0) = some (0, 0, 0) := by
  intro n
  induction n with
  | zero => rfl
  | succ n ih =>
    have e1 : cubicStep (0, 0, 0) = some (1, 1, 0) := by norm_num [cubicStep]
    have e2 : cubicStep (1, 1, 0) = some (-1, -1, 0) := by norm_num [cubicStep]
    rw [show 2 * (n + 1) = 2 * n + 1 + 1 by ring]
    unfold newtonRaphson
    simp only [e1, h1, Bool.false_eq_true, if_false]
    unfold newtonRaphson
    norm_num [e2, h2]
    exact ih

/-- **C256 refuted, other surfaces**: `newton_raphson` returns the last parameters when it has not converged, and
`curve_surface_intersection` reports them: from the guess `(0, 0, 0)` the curve `(t, 0, t^3 - 2t + 2)` on `[-1/2, 3/2]` and the
plane `z = 0` "intersect" at `t = 0`, at every tolerance up to 1, although the curve stays more than 9/10 above the plane. -/
theorem C256_unconverged_refuted (small : ℚ × ℚ × ℚ → Bool) (h1 : small (1, 1, 0) = false) (h2 : small (-1, -1, 0) = false)
    (close : ℚ × ℚ × ℚ → ℚ × ℚ × ℚ → Bool) :
    (refineAll (newtonRaphson cubicStep small 100) close [(0, 0, 0)] []).map
        (inBounds (-1 / 2, 3 / 2) (-1, 2) (-1, 1)) = some [(0, 0, 0)] ∧
      ∀ t : ℚ, -1 / 2 ≤ t → t ≤ 3 / 2 → 9 / 10 < t ^ 3 - 2 * t + 2 := by
  constructor
  · simp only [refineAll]
    rw [show (100 : Nat) = 2 * 50 by norm_num, cubic_cycle small h1 h2 50]
    simp only [List.any_nil, Bool.false_eq_true, if_false, List.nil_append, Option.map_some, Option.some.injEq]
    norm_num [inBounds]
  · intro t ht1 ht2
    nlinarith [sq_nonneg (t - 4 / 5), mul_nonneg (sub_nonneg.2 ht1) (sq_nonneg (t - 4 / 5)), sq_nonneg t]

/-- What the loop over the guesses keeps: every entry is the answer of `newton_raphson` for a guess, no two are close, and every
answer is close to an entry or is one. -/
theorem C256_refine_partial (nr : K × K × K → Option (K × K × K)) (close : K × K × K → K × K × K → Bool) :
    ∀ (gs found r : List (K × K × K)), refineAll nr close gs found = some r →
      (∀ x ∈ r, x ∈ found ∨ ∃ g ∈ gs, nr g = some x) ∧
      (found.Pairwise (fun a b => close b a = false) → r.Pairwise fun a b => close b a = false) ∧
      (∀ x ∈ found, x ∈ r) ∧ ∀ g ∈ gs, ∃ x, nr g = some x ∧ (x ∈ r ∨ ∃ y ∈ r, close x y = true) := by
  intro gs
  induction gs with
  | nil => intro found r h; simp only [refineAll, Option.some.injEq] at h; subst h; simp
  | cons g gs ih =>
    intro found r h
    unfold refineAll at h
    cases e : nr g with
    | none => simp [e] at h
    | some x =>
      simp only [e] at h
      by_cases ha : (found.any fun i => close x i) = true
      · simp only [ha, if_true] at h
        obtain ⟨a1, a2, a3, a4⟩ := ih found r h
        refine ⟨fun y hy => ?_, a2, a3, fun g' hg' => ?_⟩
        · rcases a1 y hy with h | ⟨g', h1, h2⟩
          · exact Or.inl h
          · exact Or.inr ⟨g', by simp [h1], h2⟩
        · rcases List.mem_cons.1 hg' with rfl | hg'
          · obtain ⟨y, hy, hc⟩ := List.any_eq_true.1 ha
            exact ⟨x, e, Or.inr ⟨y, a3 y hy, hc⟩⟩
          · exact a4 g' hg'
      · have ha' : (found.any fun i => close x i) = false := by simpa using ha
        simp only [ha', Bool.false_eq_true, if_false] at h
        obtain ⟨a1, a2, a3, a4⟩ := ih (found ++ [x]) r h
        refine ⟨fun y hy => ?_, fun hp => a2 ?_, fun y hy => a3 y (by simp [hy]), fun g' hg' => ?_⟩
        · rcases a1 y hy with h | ⟨g', h1, h2⟩
          · rcases List.mem_append.1 h with h | h
            · exact Or.inl h
            · rw [List.mem_singleton] at h; subst h
              exact Or.inr ⟨g, by simp, e⟩
          · exact Or.inr ⟨g', by simp [h1], h2⟩
        · rw [List.pairwise_append]
          refine ⟨hp, by simp, fun y hy z hz => ?_⟩
          rw [List.mem_singleton] at hz; subst hz
          rw [List.any_eq_false] at ha'
          simpa using ha' y hy
        · rcases List.mem_cons.1 hg' with rfl | hg'
          · exact ⟨x, e, Or.inl (a3 x (by simp))⟩
          · exact a4 g' hg'

/-- **C256**: what `curve_surface_intersection` returns lies in the bounds asked for, and nothing in the bounds is dropped. -/
theorem C256_bounds (tb ub vb : K × K) (l : List (K × K × K)) (r : K × K × K) :
    r ∈ inBounds tb ub vb l ↔ r ∈ l ∧ In tb r.1 ∧ In ub r.2.1 ∧ In vb r.2.2 := by
  simp only [inBounds, List.mem_filter, Bool.and_eq_true, decide_eq_true_eq, In, and_assoc]

example : (refineAll (fun g => some (g.1 / 2, g.2.1, g.2.2)) (fun a b => decide (|a.1 - b.1| < (1 / 10 : ℚ))) [(1, 0, 0), (1, 1, 1), (2, 0, 0)] []) =
    some [(1 / 2, 0, 0), (1, 0, 0)] := by decide +kernel

end Verif.Csx
