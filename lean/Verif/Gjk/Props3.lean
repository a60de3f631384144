import Mathlib.Analysis.Real.Sqrt
import Mathlib.Tactic.FieldSimp
import Verif.Gjk.Model2
import Verif.Gjk.Sound

set_option linter.unusedSectionVars false

/-! # C167: distance from a point to a triangle -/

namespace Verif.Gjk

section
variable {K : Type} [Field K] [LinearOrder K] [IsStrictOrderedRing K]

/-- The point of the triangle with the weights `u`, `v`, `w`. -/
def comb (a b c : V K) (u v w : K) : V K :=
  ⟨u * a.x + v * b.x + w * c.x, u * a.y + v * b.y + w * c.y, u * a.z + v * b.z + w * c.z⟩

/-- Squared distance. -/
def distSq (p q : V K) : K := (p.x - q.x) ^ 2 + (p.y - q.y) ^ 2 + (p.z - q.z) ^ 2

/-- `q` is a point of the triangle. -/
def InTri (a b c q : V K) : Prop :=
  ∃ u v w : K, 0 ≤ u ∧ 0 ≤ v ∧ 0 ≤ w ∧ u + v + w = 1 ∧ q = comb a b c u v w

theorem clip01_range (t : K) : 0 ≤ clip01 t ∧ clip01 t ≤ 1 := by
  unfold clip01
  exact ⟨le_min (le_max_right _ _) zero_le_one, min_le_right _ _⟩

/-- Clipping is the nearest parameter. -/
theorem clip01_best (t s : K) (h0 : 0 ≤ s) (h1 : s ≤ 1) : (clip01 t - t) ^ 2 ≤ (s - t) ^ 2 := by
  unfold clip01
  rcases le_total t 0 with h | h
  · rw [max_eq_right h, min_eq_left zero_le_one]
    nlinarith
  · rw [max_eq_left h]
    rcases le_total t 1 with h' | h'
    · rw [min_eq_left h', sub_self]; simpa using sq_nonneg (s - t)
    · rw [min_eq_right h']
      nlinarith

/-- The nearest point of one edge. -/
theorem edge_spec (p a b : V K) (h : a ≠ b) : ∃ d t, edgeSq p a b = some d ∧ 0 ≤ t ∧ t ≤ 1 ∧
    d = distSq p (comb a b b (1 - t) t 0) ∧
    ∀ s, 0 ≤ s → s ≤ 1 → d ≤ distSq p (comb a b b (1 - s) s 0) := by
  have hpos : 0 < dot (sub b a) (sub b a) := by
    apply dot_self_pos
    intro h0
    obtain ⟨e1, e2, e3⟩ := dot_self_eq_zero h0
    simp only [sub] at e1 e2 e3
    exact h (V.ext (by linarith) (by linarith) (by linarith))
  unfold edgeSq
  dsimp only
  rw [if_neg hpos.ne']
  set N := dot (sub b a) (sub b a) with hN
  set m := dot (sub b a) (sub p a) with hm
  obtain ⟨r1, r2⟩ := clip01_range (m / N)
  refine ⟨_, clip01 (m / N), rfl, r1, r2, ?_, ?_⟩
  · simp only [dot, sub, distSq, comb]; ring
  · intro s hs0 hs1
    have expand : ∀ t : K, distSq p (comb a b b (1 - t) t 0)
        = N * (t - m / N) ^ 2 + (dot (sub p a) (sub p a) - m * m / N) := by
      intro t
      have e1 : N * (t - m / N) ^ 2 = N * t ^ 2 - 2 * t * m + m * m / N := by
        field_simp
        ring
      rw [e1]
      simp only [hN, hm, dot, sub, distSq, comb]; ring
    have e2 : dot (sub ⟨(sub b a).x * clip01 (m / N), (sub b a).y * clip01 (m / N),
        (sub b a).z * clip01 (m / N)⟩ (sub p a)) (sub ⟨(sub b a).x * clip01 (m / N),
        (sub b a).y * clip01 (m / N), (sub b a).z * clip01 (m / N)⟩ (sub p a))
        = distSq p (comb a b b (1 - clip01 (m / N)) (clip01 (m / N)) 0) := by
      simp only [dot, sub, distSq, comb]; ring
    rw [e2, expand, expand]
    have := mul_le_mul_of_nonneg_left (clip01_best (m / N) s hs0 hs1) hpos.le
    linarith

/-- Leaving the triangle of weights along a direction with a negative entry. -/
theorem exit_weights (u v w x y z : K) (hu : 0 ≤ u) (hv : 0 ≤ v) (hw : 0 ≤ w)
    (hneg : x < 0 ∨ y < 0 ∨ z < 0) :
    ∃ t, 0 ≤ t ∧ 0 ≤ u + t * x ∧ 0 ≤ v + t * y ∧ 0 ≤ w + t * z ∧
      ((x < 0 ∧ u + t * x = 0) ∨ (y < 0 ∧ v + t * y = 0) ∨ (z < 0 ∧ w + t * z = 0)) := by
  -- one coordinate
  have one : ∀ a d : K, 0 ≤ a → d < 0 → 0 ≤ a / -d ∧ a + a / -d * d = 0 ∧
      ∀ t, t ≤ a / -d → 0 ≤ a + t * d := by
    intro a d ha hd
    have hd' : 0 < -d := by linarith
    have e : a / -d * d = -a := by
      have : d ≠ 0 := hd.ne
      field_simp
    refine ⟨div_nonneg ha hd'.le, by linarith, fun t ht => ?_⟩
    have := mul_le_mul_of_nonneg_right ht hd'.le
    have e2 : a / -d * -d = a := by linarith
    linarith
  have pos : ∀ a d t : K, 0 ≤ a → 0 ≤ d → 0 ≤ t → 0 ≤ a + t * d := fun a d t ha hd ht =>
    add_nonneg ha (mul_nonneg ht hd)
  rcases lt_or_ge x 0 with hx | hx <;> rcases lt_or_ge y 0 with hy | hy <;>
    rcases lt_or_ge z 0 with hz | hz
  · obtain ⟨a1, a2, a3⟩ := one u x hu hx
    obtain ⟨b1, b2, b3⟩ := one v y hv hy
    obtain ⟨c1, c2, c3⟩ := one w z hw hz
    rcases le_total (u / -x) (v / -y) with h1 | h1
    · rcases le_total (u / -x) (w / -z) with h2 | h2
      · exact ⟨_, a1, a2.ge, b3 _ h1, c3 _ h2, Or.inl ⟨hx, a2⟩⟩
      · exact ⟨_, c1, a3 _ h2, b3 _ (h2.trans h1), c2.ge, Or.inr (Or.inr ⟨hz, c2⟩)⟩
    · rcases le_total (v / -y) (w / -z) with h2 | h2
      · exact ⟨_, b1, a3 _ h1, b2.ge, c3 _ h2, Or.inr (Or.inl ⟨hy, b2⟩)⟩
      · exact ⟨_, c1, a3 _ (h2.trans h1), b3 _ h2, c2.ge, Or.inr (Or.inr ⟨hz, c2⟩)⟩
  · obtain ⟨a1, a2, a3⟩ := one u x hu hx
    obtain ⟨b1, b2, b3⟩ := one v y hv hy
    rcases le_total (u / -x) (v / -y) with h1 | h1
    · exact ⟨_, a1, a2.ge, b3 _ h1, pos _ _ _ hw hz a1, Or.inl ⟨hx, a2⟩⟩
    · exact ⟨_, b1, a3 _ h1, b2.ge, pos _ _ _ hw hz b1, Or.inr (Or.inl ⟨hy, b2⟩)⟩
  · obtain ⟨a1, a2, a3⟩ := one u x hu hx
    obtain ⟨c1, c2, c3⟩ := one w z hw hz
    rcases le_total (u / -x) (w / -z) with h2 | h2
    · exact ⟨_, a1, a2.ge, pos _ _ _ hv hy a1, c3 _ h2, Or.inl ⟨hx, a2⟩⟩
    · exact ⟨_, c1, a3 _ h2, pos _ _ _ hv hy c1, c2.ge, Or.inr (Or.inr ⟨hz, c2⟩)⟩
  · obtain ⟨a1, a2, a3⟩ := one u x hu hx
    exact ⟨_, a1, a2.ge, pos _ _ _ hv hy a1, pos _ _ _ hw hz a1, Or.inl ⟨hx, a2⟩⟩
  · obtain ⟨b1, b2, b3⟩ := one v y hv hy
    obtain ⟨c1, c2, c3⟩ := one w z hw hz
    rcases le_total (v / -y) (w / -z) with h2 | h2
    · exact ⟨_, b1, pos _ _ _ hu hx b1, b2.ge, c3 _ h2, Or.inr (Or.inl ⟨hy, b2⟩)⟩
    · exact ⟨_, c1, pos _ _ _ hu hx c1, b3 _ h2, c2.ge, Or.inr (Or.inr ⟨hz, c2⟩)⟩
  · obtain ⟨b1, b2, b3⟩ := one v y hv hy
    exact ⟨_, b1, pos _ _ _ hu hx b1, b2.ge, pos _ _ _ hw hz b1, Or.inr (Or.inl ⟨hy, b2⟩)⟩
  · obtain ⟨c1, c2, c3⟩ := one w z hw hz
    exact ⟨_, c1, pos _ _ _ hu hx c1, pos _ _ _ hv hy c1, c2.ge, Or.inr (Or.inr ⟨hz, c2⟩)⟩
  · rcases hneg with h | h | h <;> exact absurd h (not_lt.mpr (by assumption))

/-- The smallest of the three edge distances, and where it is attained. -/
theorem edges_spec (p a b c : V K) (hab : a ≠ b) (hbc : b ≠ c) (hca : c ≠ a) :
    ∃ d1 d2 d3, edgeSq p a b = some d1 ∧ edgeSq p b c = some d2 ∧ edgeSq p c a = some d3 ∧
      (∃ q, InTri a b c q ∧ min (min d1 d2) d3 = distSq p q) ∧
      ∀ u v w : K, 0 ≤ u → 0 ≤ v → 0 ≤ w → u + v + w = 1 → (u = 0 ∨ v = 0 ∨ w = 0) →
        min (min d1 d2) d3 ≤ distSq p (comb a b c u v w) := by
  obtain ⟨d1, t1, e1, l1, r1, f1, g1⟩ := edge_spec p a b hab
  obtain ⟨d2, t2, e2, l2, r2, f2, g2⟩ := edge_spec p b c hbc
  obtain ⟨d3, t3, e3, l3, r3, f3, g3⟩ := edge_spec p c a hca
  refine ⟨d1, d2, d3, e1, e2, e3, ?_, ?_⟩
  · have q1 : InTri a b c (comb a b b (1 - t1) t1 0) :=
      ⟨1 - t1, t1, 0, by linarith, l1, le_refl _, by ring, by simp [comb]⟩
    have q2 : InTri a b c (comb b c c (1 - t2) t2 0) :=
      ⟨0, 1 - t2, t2, le_refl _, by linarith, l2, by ring, by simp [comb]⟩
    have q3 : InTri a b c (comb c a a (1 - t3) t3 0) :=
      ⟨t3, 0, 1 - t3, l3, le_refl _, by linarith, by ring, by
        simp only [comb, V.mk.injEq]; refine ⟨?_, ?_, ?_⟩ <;> ring⟩
    rcases min_choice (min d1 d2) d3 with h | h
    · rcases min_choice d1 d2 with h' | h'
      · exact ⟨_, q1, by rw [h, h', f1]⟩
      · exact ⟨_, q2, by rw [h, h', f2]⟩
    · exact ⟨_, q3, by rw [h, f3]⟩
  · intro u v w hu hv hw hs hz
    rcases hz with rfl | rfl | rfl
    · refine le_trans (min_le_left _ _) (le_trans (min_le_right _ _) ?_)
      have := g2 w hw (by linarith)
      have e : comb b c c (1 - w) w 0 = comb a b c 0 v w := by
        have : 1 - w = v := by linarith
        rw [this]
        simp only [comb, V.mk.injEq]; refine ⟨?_, ?_, ?_⟩ <;> ring
      rwa [e] at this
    · refine le_trans (min_le_right _ _) ?_
      have := g3 u hu (by linarith)
      have e : comb c a a (1 - u) u 0 = comb a b c u 0 w := by
        have : 1 - u = w := by linarith
        rw [this]
        simp only [comb, V.mk.injEq]; refine ⟨?_, ?_, ?_⟩ <;> ring
      rwa [e] at this
    · refine le_trans (min_le_left _ _) (le_trans (min_le_left _ _) ?_)
      have := g1 v hv (by linarith)
      have e : comb a b b (1 - v) v 0 = comb a b c u v 0 := by
        have : 1 - v = u := by linarith
        rw [this]
        simp only [comb, V.mk.injEq]; refine ⟨?_, ?_, ?_⟩ <;> ring
      rwa [e] at this

theorem sign_cases (t : K) : (0 < t ∧ sign t = 1) ∨ (t < 0 ∧ sign t = -1) ∨ (t = 0 ∧ sign t = 0) := by
  unfold sign
  rcases lt_trichotomy t 0 with h | h | h
  · right; left
    exact ⟨h, by rw [if_neg (not_lt.mpr h.le), if_pos h]⟩
  · right; right
    subst h
    exact ⟨rfl, by simp⟩
  · left; exact ⟨h, by rw [if_pos h]⟩

/-- The three signed areas of the projection of `p`, multiplied by the square of the normal. -/
theorem areas (p a b c : V K) :
    (dot (cross (sub b a) (cross (sub b a) (sub a c))) (sub p a)
      + dot (cross (sub c b) (cross (sub b a) (sub a c))) (sub p b)
      + dot (cross (sub a c) (cross (sub b a) (sub a c))) (sub p c)
      = dot (cross (sub b a) (sub a c)) (cross (sub b a) (sub a c))) ∧
    ∀ q : V K, q = comb a b c (dot (cross (sub c b) (cross (sub b a) (sub a c))) (sub p b))
        (dot (cross (sub a c) (cross (sub b a) (sub a c))) (sub p c))
        (dot (cross (sub b a) (cross (sub b a) (sub a c))) (sub p a)) →
      q.x = dot (cross (sub b a) (sub a c)) (cross (sub b a) (sub a c)) * p.x
        - dot (cross (sub b a) (sub a c)) (sub p a) * (cross (sub b a) (sub a c)).x ∧
      q.y = dot (cross (sub b a) (sub a c)) (cross (sub b a) (sub a c)) * p.y
        - dot (cross (sub b a) (sub a c)) (sub p a) * (cross (sub b a) (sub a c)).y ∧
      q.z = dot (cross (sub b a) (sub a c)) (cross (sub b a) (sub a c)) * p.z
        - dot (cross (sub b a) (sub a c)) (sub p a) * (cross (sub b a) (sub a c)).z := by
  constructor
  · simp only [dot, cross, sub]; ring
  · rintro q rfl
    simp only [comb, dot, cross, sub]
    refine ⟨?_, ?_, ?_⟩ <;> ring

/-- Distances to points of the plane of the triangle, through the foot of the perpendicular. -/
theorem foot (p a b c f : V K) (k u v w x y z : K) (hs : u + v + w = 1) (hs' : x + y + z = 1)
    (hf : f = comb a b c x y z)
    (hx : p.x - f.x = k * (cross (sub b a) (sub a c)).x) (hy : p.y - f.y = k * (cross (sub b a) (sub a c)).y)
    (hz : p.z - f.z = k * (cross (sub b a) (sub a c)).z) :
    distSq p (comb a b c u v w) = distSq p f + distSq f (comb a b c u v w) := by
  have hu : u = 1 - v - w := by linarith
  have hx' : x = 1 - y - z := by linarith
  have e : distSq p (comb a b c u v w) - distSq p f - distSq f (comb a b c u v w)
      = 2 * ((p.x - f.x) * (f.x - (comb a b c u v w).x) + (p.y - f.y) * (f.y - (comb a b c u v w).y)
        + (p.z - f.z) * (f.z - (comb a b c u v w).z)) := by
    simp only [distSq]; ring
  have e2 : (p.x - f.x) * (f.x - (comb a b c u v w).x) + (p.y - f.y) * (f.y - (comb a b c u v w).y)
        + (p.z - f.z) * (f.z - (comb a b c u v w).z) = 0 := by
    rw [hx, hy, hz, hf, hu, hx']
    simp only [comb, cross, sub]; ring
  rw [e2, mul_zero] at e
  linarith

/-- **C167.** For pairwise different corners (a flat triangle is allowed) `udTriangle` computes the distance from the
point to the triangle: the number under the root is the squared distance to some point of the triangle, and no point of
the triangle is nearer. -/
theorem C167_triangle_distance (p a b c : V K) (hab : a ≠ b) (hbc : b ≠ c) (hca : c ≠ a) :
    ∃ d, udTriangleSq p a b c = some d ∧ (∃ q, InTri a b c q ∧ d = distSq p q) ∧
      ∀ q, InTri a b c q → d ≤ distSq p q := by
  obtain ⟨d1, d2, d3, e1, e2, e3, hatt, hmin⟩ := edges_spec p a b c hab hbc hca
  obtain ⟨hsum, hfoot⟩ := areas p a b c
  unfold udTriangleSq
  dsimp only
  set n := cross (sub b a) (sub a c) with hn
  set A := dot (cross (sub c b) n) (sub p b) with hA
  set B := dot (cross (sub a c) n) (sub p c) with hB
  set C := dot (cross (sub b a) n) (sub p a) with hC
  set N := dot n n with hN
  have hfoot := hfoot _ rfl
  by_cases hN0 : N = 0
  · -- flat triangle
    obtain ⟨n1, n2, n3⟩ := dot_self_eq_zero (hN ▸ hN0)
    have z1 : C = 0 := by simp only [hC, dot, cross, n1, n2, n3]; ring
    have z2 : A = 0 := by simp only [hA, dot, cross, n1, n2, n3]; ring
    have z3 : B = 0 := by simp only [hB, dot, cross, n1, n2, n3]; ring
    have s0 : sign (0 : K) = 0 := by simp [sign]
    rw [z1, z2, z3, s0, if_pos (by norm_num), e1, e2, e3]
    refine ⟨_, rfl, hatt, ?_⟩
    rintro q ⟨u, v, w, hu, hv, hw, hs, rfl⟩
    -- a direction of weights that does not move the point
    set m := dot (sub b a) (sub b a) with hm
    set l := dot (sub b a) (sub c a) with hl
    have hmpos : 0 < m := by
      apply dot_self_pos
      intro h0
      obtain ⟨e1, e2, e3⟩ := dot_self_eq_zero h0
      simp only [sub] at e1 e2 e3
      exact hab (V.ext (by linarith) (by linarith) (by linarith))
    -- m (c - a) = l (b - a)
    have k1 : m * (c.x - a.x) = l * (b.x - a.x) := by
      simp only [hn, cross, sub] at n1 n2 n3
      simp only [hm, hl, dot, sub]
      linear_combination (b.y - a.y) * n3 - (b.z - a.z) * n2
    have k2 : m * (c.y - a.y) = l * (b.y - a.y) := by
      simp only [hn, cross, sub] at n1 n2 n3
      simp only [hm, hl, dot, sub]
      linear_combination (b.z - a.z) * n1 - (b.x - a.x) * n3
    have k3 : m * (c.z - a.z) = l * (b.z - a.z) := by
      simp only [hn, cross, sub] at n1 n2 n3
      simp only [hm, hl, dot, sub]
      linear_combination (b.x - a.x) * n2 - (b.y - a.y) * n1
    obtain ⟨t, t0, p1, p2, p3, hz⟩ := exit_weights u v w (m - l) l (-m) hu hv hw
      (Or.inr (Or.inr (by linarith)))
    have hq : comb a b c (u + t * (m - l)) (v + t * l) (w + t * -m) = comb a b c u v w := by
      simp only [comb, V.mk.injEq]
      refine ⟨?_, ?_, ?_⟩
      · linear_combination (-t) * k1
      · linear_combination (-t) * k2
      · linear_combination (-t) * k3
    rw [← hq]
    exact hmin _ _ _ p1 p2 p3 (by linear_combination hs)
      (hz.elim (fun h => Or.inl h.2) (fun h => Or.inr (h.elim (fun h => Or.inl h.2)
        (fun h => Or.inr h.2))))
  · have hNpos : 0 < N := lt_of_le_of_ne (dot_self_nonneg n) (Ne.symm hN0)
    -- the foot of the perpendicular
    set f := comb a b c (A / N) (B / N) (C / N) with hf
    have hs1 : A / N + B / N + C / N = 1 := by
      rw [← add_div, ← add_div, div_eq_one_iff_eq hN0]; linarith
    set k := dot n (sub p a) / N with hk
    have hpx : p.x - f.x = k * n.x := by
      have := hfoot.1
      simp only [comb] at this
      simp only [hf, comb, hk]
      field_simp
      linarith
    have hpy : p.y - f.y = k * n.y := by
      have := hfoot.2.1
      simp only [comb] at this
      simp only [hf, comb, hk]
      field_simp
      linarith
    have hpz : p.z - f.z = k * n.z := by
      have := hfoot.2.2
      simp only [comb] at this
      simp only [hf, comb, hk]
      field_simp
      linarith
    have hdist : ∀ u v w : K, u + v + w = 1 →
        distSq p (comb a b c u v w) = distSq p f + distSq f (comb a b c u v w) := fun u v w hs =>
      foot p a b c f k u v w _ _ _ hs hs1 hf hpx hpy hpz
    have hnn : ∀ x y : V K, 0 ≤ distSq x y := fun x y => by unfold distSq; positivity
    have hself : distSq p f = dot n (sub p a) * dot n (sub p a) / N := by
      simp only [distSq]
      rw [hpx, hpy, hpz]
      have : (k * n.x) ^ 2 + (k * n.y) ^ 2 + (k * n.z) ^ 2 = k * k * N := by
        simp only [hN, dot]; ring
      rw [this, hk]
      field_simp
    by_cases hneg : A < 0 ∨ B < 0 ∨ C < 0
    · -- outside
      have hlt : sign C + sign A + sign B < 2 := by
        rcases sign_cases A with ⟨_, a1⟩ | ⟨_, a1⟩ | ⟨_, a1⟩ <;>
        rcases sign_cases B with ⟨_, b1⟩ | ⟨_, b1⟩ | ⟨_, b1⟩ <;>
        rcases sign_cases C with ⟨_, c1⟩ | ⟨_, c1⟩ | ⟨_, c1⟩ <;>
        first
        | (rw [a1, b1, c1]; norm_num; done)
        | (exfalso; rcases hneg with h | h | h <;> linarith)
      rw [if_pos hlt, e1, e2, e3]
      refine ⟨_, rfl, hatt, ?_⟩
      rintro q ⟨u, v, w, hu, hv, hw, hs, rfl⟩
      have hdir : A / N - u < 0 ∨ B / N - v < 0 ∨ C / N - w < 0 := by
        rcases hneg with h | h | h
        · left; have := div_neg_of_neg_of_pos h hNpos; linarith
        · right; left; have := div_neg_of_neg_of_pos h hNpos; linarith
        · right; right; have := div_neg_of_neg_of_pos h hNpos; linarith
      obtain ⟨t, t0, p1, p2, p3, hz⟩ := exit_weights u v w _ _ _ hu hv hw hdir
      have ht1 : t ≤ 1 := by
        by_contra h1
        have h1 : 1 < t := not_le.mp h1
        -- at parameter 1 some weight is negative, at t it is not
        have aux : ∀ x y : K, 0 ≤ x → y < 0 → 0 ≤ x + t * (y - x) → False := by
          intro x y hx hy h
          have : (t - 1) * x ≥ 0 := mul_nonneg (by linarith) hx
          have : t * y < 0 := mul_neg_of_pos_of_neg (by linarith) hy
          nlinarith
        rcases hneg with h | h | h
        · exact aux u _ hu (div_neg_of_neg_of_pos h hNpos) p1
        · exact aux v _ hv (div_neg_of_neg_of_pos h hNpos) p2
        · exact aux w _ hw (div_neg_of_neg_of_pos h hNpos) p3
      have hs2 : u + t * (A / N - u) + (v + t * (B / N - v)) + (w + t * (C / N - w)) = 1 := by
        linear_combination (1 - t) * hs + t * hs1
      refine le_trans (hmin _ _ _ p1 p2 p3 hs2 (hz.elim (fun h => Or.inl h.2)
        (fun h => Or.inr (h.elim (fun h => Or.inl h.2) (fun h => Or.inr h.2))))) ?_
      rw [hdist _ _ _ hs2, hdist _ _ _ hs]
      have e4 : distSq f (comb a b c (u + t * (A / N - u)) (v + t * (B / N - v)) (w + t * (C / N - w)))
          = (1 - t) ^ 2 * distSq f (comb a b c u v w) := by
        simp only [hf, distSq, comb]; ring
      rw [e4]
      have : (1 - t) ^ 2 ≤ 1 := by nlinarith
      have := mul_le_mul_of_nonneg_right this (hnn f (comb a b c u v w))
      linarith
    · have hA0 : 0 ≤ A := not_lt.mp (fun h => hneg (Or.inl h))
      have hB0 : 0 ≤ B := not_lt.mp (fun h => hneg (Or.inr (Or.inl h)))
      have hC0 : 0 ≤ C := not_lt.mp (fun h => hneg (Or.inr (Or.inr h)))
      have hle : ∀ q, InTri a b c q → distSq p f ≤ distSq p q := by
        rintro q ⟨u, v, w, hu, hv, hw, hs, rfl⟩
        rw [hdist _ _ _ hs]
        have := hnn f (comb a b c u v w)
        linarith
      by_cases hlt : sign C + sign A + sign B < 2
      · rw [if_pos hlt, e1, e2, e3]
        refine ⟨_, rfl, hatt, fun q hq => le_trans ?_ (hle q hq)⟩
        refine hmin _ _ _ (div_nonneg hA0 hNpos.le) (div_nonneg hB0 hNpos.le) (div_nonneg hC0 hNpos.le)
          hs1 ?_
        by_contra hz
        simp only [not_or] at hz
        obtain ⟨z1, z2, z3⟩ := hz
        have pos : ∀ x : K, 0 ≤ x → x / N ≠ 0 → sign x = 1 := by
          intro x hx hne
          have : 0 < x := lt_of_le_of_ne hx (fun h => hne (by rw [← h, zero_div]))
          unfold sign
          rw [if_pos this]
        rw [pos A hA0 z1, pos B hB0 z2, pos C hC0 z3] at hlt
        norm_num at hlt
      · rw [if_neg hlt, if_neg hN0]
        refine ⟨_, rfl, ⟨f, ⟨_, _, _, div_nonneg hA0 hNpos.le, div_nonneg hB0 hNpos.le,
          div_nonneg hC0 hNpos.le, hs1, hf⟩, hself.symm⟩, fun q hq => ?_⟩
        rw [← hself]
        exact hle q hq

/-- Above the inside, beside an edge, beside a corner, and a flat triangle. -/
example : udTriangleSq ⟨1, 1, 3⟩ ⟨0, 0, 0⟩ ⟨4, 0, 0⟩ (⟨0, 4, 0⟩ : V ℚ) = some 9 ∧
    udTriangleSq ⟨2, -1, 2⟩ ⟨0, 0, 0⟩ ⟨4, 0, 0⟩ (⟨0, 4, 0⟩ : V ℚ) = some 5 ∧
    udTriangleSq ⟨-2, -1, 2⟩ ⟨0, 0, 0⟩ ⟨4, 0, 0⟩ (⟨0, 4, 0⟩ : V ℚ) = some 9 ∧
    udTriangleSq ⟨3, 1, 0⟩ ⟨0, 0, 0⟩ ⟨4, 0, 0⟩ (⟨2, 0, 0⟩ : V ℚ) = some 1 := by decide +kernel

/-- **C167 (failure).** With two equal corners the result is not a number. -/
theorem C167_equal_corners (p a c : V K) : udTriangleSq p a a c = none := by
  have n0 : cross (sub a a) (sub a c) = ⟨0, 0, 0⟩ := by
    simp [cross, sub]
  have s0 : sign (0 : K) = 0 := by simp [sign]
  have e : edgeSq p a a = none := by
    unfold edgeSq
    dsimp only
    rw [if_pos]
    simp [dot, sub]
  unfold udTriangleSq
  dsimp only
  rw [n0, e]
  have z : ∀ x y : V K, dot (cross x ⟨0, 0, 0⟩) y = 0 := fun x y => by simp [dot, cross]
  rw [z, z, z, s0, if_pos (by norm_num)]
  rfl

end

/-- The returned number over the reals is the distance. -/
theorem C167_sqrt (p a b c : V ℝ) (hab : a ≠ b) (hbc : b ≠ c) (hca : c ≠ a) :
    ∃ d, udTriangleSq p a b c = some d ∧ IsLeast {r | ∃ q, InTri a b c q ∧ r = √(distSq p q)} (√d) := by
  obtain ⟨d, e, ⟨q, hq, hd⟩, hmin⟩ := C167_triangle_distance p a b c hab hbc hca
  refine ⟨d, e, ⟨q, hq, by rw [hd]⟩, ?_⟩
  rintro r ⟨q', hq', rfl⟩
  exact Real.sqrt_le_sqrt (hmin q' hq')

end Verif.Gjk
