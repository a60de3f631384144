import Verif.Mol.Model
import Mathlib.Tactic.Ring
import Mathlib.Tactic.Linarith
import Mathlib.Tactic.FieldSimp
import Mathlib.Tactic.LinearCombination
import Mathlib.Tactic.Positivity
import Mathlib.Algebra.Order.Field.Rat

/-! # Triangle and segment (C212), classification (C213) -/

set_option linter.unusedSectionVars false

namespace Verif.Mol

variable {K : Type} [Field K] [LinearOrder K] [IsStrictOrderedRing K]

/-! ### Specification -/

/-- The point with the coordinates `u`, `v` in the triangle. -/
def inPlane (v0 v1 v2 : V K) (u v : K) : V K := add v0 (add (smul u (sub v1 v0)) (smul v (sub v2 v0)))

/-- The point of the line. -/
def onLine (s e : V K) (t : K) : V K := add s (smul t (sub e s))

/-- A point of the closed triangle. -/
def InTri (v0 v1 v2 p : V K) : Prop := ∃ u v, 0 ≤ u ∧ 0 ≤ v ∧ u + v ≤ 1 ∧ p = inPlane v0 v1 v2 u v

/-- A point of the closed segment. -/
def InSeg (s e p : V K) : Prop := ∃ t, 0 ≤ t ∧ t ≤ 1 ∧ p = onLine s e t

/-- Six times the signed volume spanned by the segment and two sides: zero exactly when the segment is parallel to the plane
of the triangle (or the triangle is degenerate). -/
def det (v0 v1 v2 s e : V K) : K := dot (sub v1 v0) (cross (sub e s) (sub v2 v0))

/-! ### The intersection -/

/-- The equations of Cramer's rule. -/
theorem cramer (d e1 e2 sv : V K) (ha : dot e1 (cross d e2) ≠ 0) :
    add sv (smul (1 / dot e1 (cross d e2) * dot e2 (cross sv e1)) d) =
      add (smul (1 / dot e1 (cross d e2) * dot sv (cross d e2)) e1) (smul (1 / dot e1 (cross d e2) * dot d (cross sv e1)) e2) := by
  have hx : dot e1 (cross d e2) * sv.x + dot e2 (cross sv e1) * d.x = dot sv (cross d e2) * e1.x + dot d (cross sv e1) * e2.x := by
    unfold dot cross; ring
  have hy : dot e1 (cross d e2) * sv.y + dot e2 (cross sv e1) * d.y = dot sv (cross d e2) * e1.y + dot d (cross sv e1) * e2.y := by
    unfold dot cross; ring
  have hz : dot e1 (cross d e2) * sv.z + dot e2 (cross sv e1) * d.z = dot sv (cross d e2) * e1.z + dot d (cross sv e1) * e2.z := by
    unfold dot cross; ring
  generalize dot e1 (cross d e2) = a at *
  generalize dot e2 (cross sv e1) = b at *
  generalize dot sv (cross d e2) = c at *
  generalize dot d (cross sv e1) = g at *
  unfold add smul
  ext <;> dsimp only <;> field_simp
  · linear_combination hx
  · linear_combination hy
  · linear_combination hz

/-- **C212.** A reported point lies on the line of the segment and in the plane of the triangle, with all parameters within
the tolerance of the segment and the triangle. -/
theorem C212_sound (eps : K) (h0 : 0 < eps) (v0 v1 v2 s e p : V K) (h : triSeg eps v0 v1 v2 s e = some p) :
    ∃ t u v, p = onLine s e t ∧ p = inPlane v0 v1 v2 u v ∧ -eps ≤ t ∧ t ≤ 1 + eps ∧ -eps ≤ u ∧ -eps ≤ v ∧ u + v ≤ 1 + eps ∧
      eps ≤ |det v0 v1 v2 s e| := by
  unfold triSeg at h
  dsimp only at h
  by_cases ha : -eps < dot (sub v1 v0) (cross (sub e s) (sub v2 v0)) ∧ dot (sub v1 v0) (cross (sub e s) (sub v2 v0)) < eps
  · rw [if_pos ha] at h; cases h
  rw [if_neg ha] at h
  have hab : eps ≤ |det v0 v1 v2 s e| := by
    by_contra hc
    exact ha (abs_lt.mp (not_le.mp hc))
  have hne : dot (sub v1 v0) (cross (sub e s) (sub v2 v0)) ≠ 0 := by
    intro e0
    unfold det at hab
    rw [e0, abs_zero] at hab
    exact absurd hab (not_le.mpr h0)
  have hc := cramer (sub e s) (sub v1 v0) (sub v2 v0) (sub s v0) hne
  generalize 1 / dot (sub v1 v0) (cross (sub e s) (sub v2 v0)) * dot (sub s v0) (cross (sub e s) (sub v2 v0)) = u at *
  generalize 1 / dot (sub v1 v0) (cross (sub e s) (sub v2 v0)) * dot (sub e s) (cross (sub s v0) (sub v1 v0)) = v at *
  generalize 1 / dot (sub v1 v0) (cross (sub e s) (sub v2 v0)) * dot (sub v2 v0) (cross (sub s v0) (sub v1 v0)) = t at *
  by_cases h1 : u < -eps ∨ u > 1 + eps
  · rw [if_pos h1] at h; cases h
  rw [if_neg h1] at h
  by_cases h2 : v < -eps ∨ u + v > 1 + eps
  · rw [if_pos h2] at h; cases h
  rw [if_neg h2] at h
  by_cases h3 : t < -eps ∨ t > 1 + eps
  · rw [if_pos h3] at h; cases h
  rw [if_neg h3] at h
  simp only [not_or, not_lt, gt_iff_lt] at h1 h2 h3
  have hp := (Option.some.inj h).symm
  refine ⟨t, u, v, hp, ?_, h3.1, h3.2, h1.1, h2.1, h2.2, hab⟩
  rw [hp]
  have hx := congrArg V.x hc
  have hy := congrArg V.y hc
  have hz := congrArg V.z hc
  unfold add smul sub at hx hy hz
  unfold inPlane add smul sub
  dsimp only at hx hy hz
  ext <;> dsimp only
  · linear_combination hx
  · linear_combination hy
  · linear_combination hz

/-- **C212.** If the segment is not nearly parallel to the triangle, a common point of the closed segment and the closed
triangle is what is reported (so there is only one, and a report of "no intersection" is right). -/
theorem C212_complete (eps : K) (h0 : 0 < eps) (v0 v1 v2 s e p : V K) (hd : eps ≤ |det v0 v1 v2 s e|)
    (ht : InTri v0 v1 v2 p) (hs : InSeg s e p) : triSeg eps v0 v1 v2 s e = some p := by
  obtain ⟨u, v, u0, v0', uv, hp⟩ := ht
  obtain ⟨t, t0, t1, hq⟩ := hs
  have hne : det v0 v1 v2 s e ≠ 0 := by
    intro e0; rw [e0, abs_zero] at hd; exact absurd hd (not_le.mpr h0)
  have hE := hp.symm.trans hq
  have hx := congrArg V.x hE
  have hy := congrArg V.y hE
  have hz := congrArg V.z hE
  unfold inPlane onLine add smul sub at hx hy hz
  dsimp only at hx hy hz
  have eu : dot (sub s v0) (cross (sub e s) (sub v2 v0)) = det v0 v1 v2 s e * u := by
    unfold det dot cross sub
    dsimp only
    linear_combination (-((e.y - s.y) * (v2.z - v0.z) - (e.z - s.z) * (v2.y - v0.y))) * hx +
      (-((e.z - s.z) * (v2.x - v0.x) - (e.x - s.x) * (v2.z - v0.z))) * hy +
      (-((e.x - s.x) * (v2.y - v0.y) - (e.y - s.y) * (v2.x - v0.x))) * hz
  have ev : dot (sub e s) (cross (sub s v0) (sub v1 v0)) = det v0 v1 v2 s e * v := by
    unfold det dot cross sub
    dsimp only
    linear_combination (-((v1.y - v0.y) * (e.z - s.z) - (v1.z - v0.z) * (e.y - s.y))) * hx +
      (-((v1.z - v0.z) * (e.x - s.x) - (v1.x - v0.x) * (e.z - s.z))) * hy +
      (-((v1.x - v0.x) * (e.y - s.y) - (v1.y - v0.y) * (e.x - s.x))) * hz
  have et : dot (sub v2 v0) (cross (sub s v0) (sub v1 v0)) = det v0 v1 v2 s e * t := by
    unfold det dot cross sub
    dsimp only
    linear_combination (-((v1.y - v0.y) * (v2.z - v0.z) - (v1.z - v0.z) * (v2.y - v0.y))) * hx +
      (-((v1.z - v0.z) * (v2.x - v0.x) - (v1.x - v0.x) * (v2.z - v0.z))) * hy +
      (-((v1.x - v0.x) * (v2.y - v0.y) - (v1.y - v0.y) * (v2.x - v0.x))) * hz
  have hinv : ∀ w, 1 / det v0 v1 v2 s e * (det v0 v1 v2 s e * w) = w := fun w => by field_simp
  unfold triSeg
  dsimp only
  rw [eu, ev, et, show dot (sub v1 v0) (cross (sub e s) (sub v2 v0)) = det v0 v1 v2 s e from rfl]
  rw [if_neg (fun c => absurd (abs_lt.mpr c) (not_lt.mpr hd))]
  rw [hinv, hinv, hinv, if_neg (by rintro (c | c) <;> linarith), if_neg (by rintro (c | c) <;> linarith),
    if_neg (by rintro (c | c) <;> linarith), hq]
  rfl

/-- **C212.** The flag is 1 when a point is reported, which is then in `out`; otherwise it is 0 and `out` is as before. -/
theorem C212_flag (eps : K) (h0 : 0 < eps) (v0 v1 v2 s e out : V K) (hd : eps ≤ |det v0 v1 v2 s e|) :
    (∀ p, InTri v0 v1 v2 p → InSeg s e p → intersectOne eps v0 v1 v2 s e out = (1, p)) ∧
    ((intersectOne eps v0 v1 v2 s e out).1 = 0 ∨ (intersectOne eps v0 v1 v2 s e out).1 = 1) ∧
    ((intersectOne eps v0 v1 v2 s e out).1 = 0 → (intersectOne eps v0 v1 v2 s e out).2 = out ∧ ¬ ∃ p, InTri v0 v1 v2 p ∧ InSeg s e p) ∧
    ((intersectOne eps v0 v1 v2 s e out).1 = 1 → ∃ t u v, (intersectOne eps v0 v1 v2 s e out).2 = onLine s e t ∧
      (intersectOne eps v0 v1 v2 s e out).2 = inPlane v0 v1 v2 u v ∧ -eps ≤ t ∧ t ≤ 1 + eps ∧ -eps ≤ u ∧ -eps ≤ v ∧ u + v ≤ 1 + eps) := by
  refine ⟨?_, ?_⟩
  · intro p h1 h2
    unfold intersectOne
    rw [C212_complete eps h0 v0 v1 v2 s e p hd h1 h2]
  · unfold intersectOne
    cases h : triSeg eps v0 v1 v2 s e with
    | none =>
      refine ⟨Or.inl rfl, fun _ => ⟨rfl, ?_⟩, fun hc => absurd hc (by simp)⟩
      rintro ⟨p, h1, h2⟩
      rw [C212_complete eps h0 v0 v1 v2 s e p hd h1 h2] at h
      cases h
    | some p =>
      refine ⟨Or.inr rfl, fun hc => absurd hc (by simp), fun _ => ?_⟩
      obtain ⟨t, u, v, a1, a2, a3, a4, a5, a6, a7, -⟩ := C212_sound eps h0 v0 v1 v2 s e p h
      exact ⟨t, u, v, a1, a2, a3, a4, a5, a6, a7⟩

/-- **C212.** For a segment which is not nearly parallel and stays clear of the tolerance, "no intersection" is reported
exactly when there is no common point. -/
theorem C212_none (eps : K) (h0 : 0 < eps) (v0 v1 v2 s e : V K) (hd : eps ≤ |det v0 v1 v2 s e|)
    (h : triSeg eps v0 v1 v2 s e = none) : ¬ ∃ p, InTri v0 v1 v2 p ∧ InSeg s e p := by
  rintro ⟨p, h1, h2⟩
  rw [C212_complete eps h0 v0 v1 v2 s e p hd h1 h2] at h
  cases h

/-- **C212, refuted near parallel.** When the determinant is below the tolerance "no intersection" is returned whatever the
position: in particular for all segments in the plane of the triangle. -/
theorem C212_parallel_refuted (eps : K) (h0 : 0 < eps) (v0 v1 v2 : V K) (u v u' v' : K) :
    triSeg eps v0 v1 v2 (inPlane v0 v1 v2 u v) (inPlane v0 v1 v2 u' v') = none := by
  have e : det v0 v1 v2 (inPlane v0 v1 v2 u v) (inPlane v0 v1 v2 u' v') = 0 := by
    unfold det dot cross inPlane add smul sub; ring
  unfold triSeg
  dsimp only
  unfold det at e
  rw [e, if_pos ⟨by linarith, h0⟩]

/-- Scaling everything about the origin. -/
theorem det_smul (l : K) (v0 v1 v2 s e : V K) :
    det (smul l v0) (smul l v1) (smul l v2) (smul l s) (smul l e) = l ^ 3 * det v0 v1 v2 s e := by
  unfold det dot cross smul sub; ring

/-- The common points are scaled too. -/
theorem inTri_smul (l : K) (v0 v1 v2 p : V K) (h : InTri v0 v1 v2 p) :
    InTri (smul l v0) (smul l v1) (smul l v2) (smul l p) := by
  obtain ⟨u, v, a, b, c, e⟩ := h
  refine ⟨u, v, a, b, c, ?_⟩
  rw [e]; unfold inPlane add smul sub
  ext <;> dsimp only <;> ring

theorem inSeg_smul (l : K) (s e p : V K) (h : InSeg s e p) : InSeg (smul l s) (smul l e) (smul l p) := by
  obtain ⟨t, a, b, c⟩ := h
  refine ⟨t, a, b, ?_⟩
  rw [c]; unfold onLine add smul sub
  ext <;> dsimp only <;> ring

/-- **C212, refuted for small figures.** The test for parallelism is not relative: any crossing, however square, is lost when
the whole figure is scaled down enough, although the common point remains. -/
theorem C212_scale_refuted (eps : K) (h0 : 0 < eps) (v0 v1 v2 s e p : V K) (ht : InTri v0 v1 v2 p) (hs : InSeg s e p) :
    ∃ l0 > 0, ∀ l, 0 < l → l < l0 →
      InTri (smul l v0) (smul l v1) (smul l v2) (smul l p) ∧ InSeg (smul l s) (smul l e) (smul l p) ∧
      triSeg eps (smul l v0) (smul l v1) (smul l v2) (smul l s) (smul l e) = none := by
  have hpos : 0 < eps / (|det v0 v1 v2 s e| + 1) := by positivity
  refine ⟨min 1 (eps / (|det v0 v1 v2 s e| + 1)), lt_min one_pos hpos, fun l l0 l1 =>
    ⟨inTri_smul l _ _ _ _ ht, inSeg_smul l _ _ _ hs, ?_⟩⟩
  have l2 := lt_of_lt_of_le l1 (min_le_left _ _)
  have l3 := lt_of_lt_of_le l1 (min_le_right _ _)
  rw [lt_div_iff₀ (by positivity)] at l3
  have hlt : |det (smul l v0) (smul l v1) (smul l v2) (smul l s) (smul l e)| < eps := by
    rw [det_smul, abs_mul, abs_of_pos (pow_pos l0 3)]
    have h1 : l ^ 3 ≤ l := by
      have : l ^ 3 ≤ l ^ 1 := pow_le_pow_of_le_one l0.le l2.le (by norm_num)
      simpa using this
    have h2 := mul_le_mul_of_nonneg_right h1 (abs_nonneg (det v0 v1 v2 s e))
    linarith
  unfold triSeg
  dsimp only
  unfold det at hlt
  rw [if_pos (abs_lt.mp hlt)]

/-! ### Classification -/

theorem isClose_iff (eps a b : K) : isClose eps a b = true ↔ |a - b| < eps := by simp [isClose]

theorem pointEquals_iff (eps : K) (p q : V K) :
    pointEquals eps p q = true ↔ |p.x - q.x| < eps ∧ |p.y - q.y| < eps ∧ |p.z - q.z| < eps := by
  simp [pointEquals, isClose_iff, and_assoc]

theorem pointOnEdge_iff (eps : K) (p a b : V K) :
    pointOnEdge eps p a b = true ↔
      (|(cross (sub p a) (sub b a)).x| < eps ∧ |(cross (sub p a) (sub b a)).y| < eps ∧ |(cross (sub p a) (sub b a)).z| < eps) ∧
      -eps ≤ dot (sub p a) (sub b a) ∧ dot (sub p a) (sub b a) ≤ dot (sub b a) (sub b a) + eps := by
  unfold pointOnEdge
  dsimp only
  by_cases h : (isClose eps (cross (sub p a) (sub b a)).x 0 && isClose eps (cross (sub p a) (sub b a)).y 0 &&
      isClose eps (cross (sub p a) (sub b a)).z 0) = true
  · rw [if_neg (not_not.mpr h)]
    have h' := h
    simp only [Bool.and_eq_true, isClose_iff, sub_zero] at h'
    by_cases h2 : dot (sub p a) (sub b a) < -eps ∨ dot (sub p a) (sub b a) > dot (sub b a) (sub b a) + eps
    · rw [if_pos h2]
      constructor
      · intro c; cases c
      · rintro ⟨_, c1, c2⟩
        rcases h2 with h2 | h2
        · exact absurd c1 (not_le.mpr h2)
        · exact absurd c2 (not_le.mpr h2)
    · rw [if_neg h2]
      simp only [not_or, not_lt, gt_iff_lt] at h2
      exact ⟨fun _ => ⟨⟨h'.1.1, h'.1.2, h'.2⟩, h2⟩, fun _ => rfl⟩
  · rw [if_pos h]
    simp only [Bool.and_eq_true, isClose_iff, sub_zero] at h
    constructor
    · intro c; cases c
    · rintro ⟨⟨c1, c2, c3⟩, _⟩
      exact absurd ⟨⟨c1, c2⟩, c3⟩ h

/-- Close to a vertex: every coordinate within the tolerance. -/
def Near (eps : K) (p q : V K) : Prop := |p.x - q.x| < eps ∧ |p.y - q.y| < eps ∧ |p.z - q.z| < eps

theorem classify_two (eps : K) (p a b c : V K) : classify eps p a b c = 2 ↔ Near eps p a ∨ Near eps p b ∨ Near eps p c := by
  have e : ∀ q, Near eps p q ↔ pointEquals eps p q = true := fun q => (pointEquals_iff eps p q).symm
  rw [e, e, e]
  unfold classify
  by_cases h1 : pointEquals eps p a = true <;> by_cases h2 : pointEquals eps p b = true <;>
    by_cases h3 : pointEquals eps p c = true <;> simp [h1, h2, h3]
  split_ifs <;> simp

theorem classify_three (eps : K) (p a b c : V K) (hn : ¬ (Near eps p a ∨ Near eps p b ∨ Near eps p c)) :
    classify eps p a b c = 3 ↔
      (pointOnEdge eps p a b = true ∨ pointOnEdge eps p b c = true ∨ pointOnEdge eps p c a = true) := by
  have e : ∀ q, Near eps p q ↔ pointEquals eps p q = true := fun q => (pointEquals_iff eps p q).symm
  rw [e, e, e] at hn
  simp only [not_or] at hn
  unfold classify
  rw [if_neg hn.1, if_neg hn.2.1, if_neg hn.2.2]
  by_cases h1 : pointOnEdge eps p a b = true <;> by_cases h2 : pointOnEdge eps p b c = true <;>
    by_cases h3 : pointOnEdge eps p c a = true <;> simp [h1, h2, h3]

/-- The value is always one of the three. -/
theorem classify_range (eps : K) (p a b c : V K) : classify eps p a b c = 1 ∨ classify eps p a b c = 2 ∨ classify eps p a b c = 3 := by
  unfold classify
  split_ifs <;> simp

theorem onEdge_of_inSeg (eps : K) (h0 : 0 < eps) (p a b : V K) (h : InSeg a b p) : pointOnEdge eps p a b = true := by
  obtain ⟨t, t0, t1, e⟩ := h
  have e1 : sub p a = smul t (sub b a) := by
    rw [e]; unfold onLine add smul sub; ext <;> dsimp only <;> ring
  have e2 : cross (smul t (sub b a)) (sub b a) = ⟨0, 0, 0⟩ := by
    unfold cross smul; ext <;> dsimp only <;> ring
  have e3 : dot (smul t (sub b a)) (sub b a) = t * dot (sub b a) (sub b a) := by
    unfold dot smul; ring
  have hq : 0 ≤ dot (sub b a) (sub b a) := by
    unfold dot; nlinarith [mul_self_nonneg (sub b a).x, mul_self_nonneg (sub b a).y, mul_self_nonneg (sub b a).z]
  rw [pointOnEdge_iff, e1, e2, e3]
  refine ⟨⟨by simpa using h0, by simpa using h0, by simpa using h0⟩, ?_, ?_⟩
  · have := mul_nonneg t0 hq; linarith
  · have := mul_le_mul_of_nonneg_right t1 hq; linarith

/-- **C213.** "Vertex" exactly for points with every coordinate within the tolerance of a vertex. "Interior" is never said of
a vertex or a point of an edge. Points of an edge away from the vertices are "edge". -/
theorem C213_boundary (eps : K) (h0 : 0 < eps) (p a b c : V K) :
    (classify eps p a b c = 2 ↔ Near eps p a ∨ Near eps p b ∨ Near eps p c) ∧
    (classify eps p a b c = 1 → ¬ InSeg a b p ∧ ¬ InSeg b c p ∧ ¬ InSeg c a p) ∧
    (InSeg a b p ∨ InSeg b c p ∨ InSeg c a p → ¬ (Near eps p a ∨ Near eps p b ∨ Near eps p c) → classify eps p a b c = 3) := by
  have h3 : InSeg a b p ∨ InSeg b c p ∨ InSeg c a p → ¬ (Near eps p a ∨ Near eps p b ∨ Near eps p c) →
      classify eps p a b c = 3 := by
    intro h hn
    rw [classify_three eps p a b c hn]
    rcases h with h | h | h
    · exact Or.inl (onEdge_of_inSeg eps h0 _ _ _ h)
    · exact Or.inr (Or.inl (onEdge_of_inSeg eps h0 _ _ _ h))
    · exact Or.inr (Or.inr (onEdge_of_inSeg eps h0 _ _ _ h))
  refine ⟨classify_two eps p a b c, fun h1 => ?_, h3⟩
  have hn : ¬ (Near eps p a ∨ Near eps p b ∨ Near eps p c) := by
    intro hn; rw [← classify_two] at hn; rw [hn] at h1; cases h1
  have key : ¬ (InSeg a b p ∨ InSeg b c p ∨ InSeg c a p) := by
    intro h; have := h3 h hn; rw [this] at h1; cases h1
  simpa only [not_or] using key

/-- The normal of the triangle, of length twice the area. -/
def normal (a b c : V K) : V K := cross (sub b a) (sub c a)

/-- **C213, the part that holds.** A point of the triangle with barycentric coordinates `1 - u - v`, `u`, `v` is "interior"
when it is not near a vertex and, for some axis, each coordinate times the component of the normal reaches the tolerance. -/
theorem C213_interior_partial (eps : K) (a b c : V K) (u v : K) (co : V K → K)
    (hco : co = V.x ∨ co = V.y ∨ co = V.z)
    (hn : ¬ (Near eps (inPlane a b c u v) a ∨ Near eps (inPlane a b c u v) b ∨ Near eps (inPlane a b c u v) c))
    (h1 : eps ≤ |(1 - u - v) * co (normal a b c)|) (h2 : eps ≤ |u * co (normal a b c)|) (h3 : eps ≤ |v * co (normal a b c)|) :
    classify eps (inPlane a b c u v) a b c = 1 := by
  have e1 : cross (sub (inPlane a b c u v) a) (sub b a) = smul (-v) (normal a b c) := by
    unfold inPlane normal cross add smul sub; ext <;> dsimp only <;> ring
  have e2 : cross (sub (inPlane a b c u v) b) (sub c b) = smul (-(1 - u - v)) (normal a b c) := by
    unfold inPlane normal cross add smul sub; ext <;> dsimp only <;> ring
  have e3 : cross (sub (inPlane a b c u v) c) (sub a c) = smul (-u) (normal a b c) := by
    unfold inPlane normal cross add smul sub; ext <;> dsimp only <;> ring
  have hno : ∀ w (p q r : V K), eps ≤ |w * co (normal a b c)| → cross (sub p q) (sub r q) = smul (-w) (normal a b c) →
      pointOnEdge eps p q r ≠ true := by
    intro w p q r hw e hc
    obtain ⟨⟨cx, cy, cz⟩, -⟩ := (pointOnEdge_iff eps p q r).mp hc
    rw [e] at cx cy cz
    unfold smul at cx cy cz
    dsimp only at cx cy cz
    rw [neg_mul, abs_neg] at cx cy cz
    rcases hco with g | g | g <;> rw [g] at hw
    · exact absurd cx (not_lt.mpr hw)
    · exact absurd cy (not_lt.mpr hw)
    · exact absurd cz (not_lt.mpr hw)
  rcases classify_range eps (inPlane a b c u v) a b c with g | g | g
  · exact g
  · exact absurd ((classify_two _ _ _ _ _).mp g) hn
  · rcases (classify_three _ _ _ _ _ hn).mp g with k | k | k
    · exact absurd k (hno _ _ _ _ h3 e1)
    · exact absurd k (hno _ _ _ _ h1 e2)
    · exact absurd k (hno _ _ _ _ h2 e3)

/-- **C213, refuted.** Scaled down enough, every triangle has all its points classified as "vertex". -/
theorem C213_scale_refuted (eps : K) (h0 : 0 < eps) (p a b c : V K) :
    ∃ l0 > 0, ∀ l, 0 < l → l < l0 → classify eps (smul l p) (smul l a) (smul l b) (smul l c) = 2 := by
  have hpos : 0 < |p.x - a.x| + |p.y - a.y| + |p.z - a.z| + 1 := by positivity
  refine ⟨eps / (|p.x - a.x| + |p.y - a.y| + |p.z - a.z| + 1), div_pos h0 hpos, fun l l0 l1 => ?_⟩
  rw [lt_div_iff₀ hpos] at l1
  rw [classify_two]
  have key : ∀ d, |d| ≤ |p.x - a.x| + |p.y - a.y| + |p.z - a.z| → |l * d| < eps := by
    intro d hd
    rw [abs_mul, abs_of_pos l0]
    have := mul_le_mul_of_nonneg_left hd l0.le
    linarith
  have hx := abs_nonneg (p.x - a.x)
  have hy := abs_nonneg (p.y - a.y)
  have hz := abs_nonneg (p.z - a.z)
  refine Or.inl ⟨?_, ?_, ?_⟩ <;> unfold smul <;> dsimp only <;> rw [← mul_sub] <;> apply key <;> linarith

/-! ### Examples -/

example : triSeg (1/100000000 : ℚ) ⟨0, 0, 0⟩ ⟨4, 0, 0⟩ ⟨0, 4, 0⟩ ⟨1, 1, -1⟩ ⟨1, 1, 3⟩ = some ⟨1, 1, 0⟩ := by decide +kernel
example : intersectOne (1/100000000 : ℚ) ⟨0, 0, 0⟩ ⟨4, 0, 0⟩ ⟨0, 4, 0⟩ ⟨1, 1, -1⟩ ⟨1, 1, 3⟩ ⟨7, 7, 7⟩ = (1, ⟨1, 1, 0⟩) := by decide +kernel
example : intersectOne (1/100000000 : ℚ) ⟨0, 0, 0⟩ ⟨4, 0, 0⟩ ⟨0, 4, 0⟩ ⟨3, 3, -1⟩ ⟨3, 3, 3⟩ ⟨7, 7, 7⟩ = (0, ⟨7, 7, 7⟩) := by decide +kernel
example : triSeg (1/100000000 : ℚ) ⟨0, 0, 0⟩ ⟨4, 0, 0⟩ ⟨0, 4, 0⟩ ⟨3, 3, -1⟩ ⟨3, 3, 3⟩ = none := by decide +kernel
-- A square crossing of a triangle with sides of one thousandth.
example : triSeg (1/100000000 : ℚ) ⟨0, 0, 0⟩ ⟨1/1000, 0, 0⟩ ⟨0, 1/1000, 0⟩ ⟨1/4000, 1/4000, -1/1000⟩ ⟨1/4000, 1/4000, 1/1000⟩ = none := by
  decide +kernel
example : InTri (K := ℚ) ⟨0, 0, 0⟩ ⟨4, 0, 0⟩ ⟨0, 4, 0⟩ ⟨1, 1, 0⟩ ∧ InSeg (K := ℚ) ⟨1, 1, -1⟩ ⟨1, 1, 3⟩ ⟨1, 1, 0⟩ ∧
    (1/100000000 : ℚ) ≤ |det ⟨0, 0, 0⟩ ⟨4, 0, 0⟩ ⟨0, 4, 0⟩ ⟨1, 1, -1⟩ ⟨1, 1, 3⟩| := by
  refine ⟨⟨1/4, 1/4, ?_⟩, ⟨1/4, ?_⟩, ?_⟩ <;> decide +kernel
example : classify (1/100000000 : ℚ) ⟨1, 1, 0⟩ ⟨0, 0, 0⟩ ⟨4, 0, 0⟩ ⟨0, 4, 0⟩ = 1 := by
  have e : (⟨1, 1, 0⟩ : V ℚ) = inPlane ⟨0, 0, 0⟩ ⟨4, 0, 0⟩ ⟨0, 4, 0⟩ (1/4) (1/4) := by decide +kernel
  rw [e]
  refine C213_interior_partial _ _ _ _ _ _ V.z (Or.inr (Or.inr rfl)) ?_ ?_ ?_ ?_
  · unfold Near; decide +kernel
  · decide +kernel
  · decide +kernel
  · decide +kernel
example : classify (1/100000000 : ℚ) ⟨2, 0, 0⟩ ⟨0, 0, 0⟩ ⟨4, 0, 0⟩ ⟨0, 4, 0⟩ = 3 := by decide +kernel

end Verif.Mol
