import Verif.Gjk.Lemmas

/-!
The search of the origin in the difference of two vertex sets: what is known about the simplex and the
direction at the head of the loop as long as the origin is not a weighted mean of differences.
-/

set_option linter.unusedSectionVars false

namespace Verif.Gjk

variable {K : Type} [CommRing K] [LinearOrder K] [IsStrictOrderedRing K]

/-- The origin is a weighted mean of four points of `M` (weights not yet divided by their sum). -/
def Hit (M : V K → Prop) : Prop :=
  ∃ p q r s : V K, M p ∧ M q ∧ M r ∧ M s ∧ ∃ wp wq wr ws : K,
    0 ≤ wp ∧ 0 ≤ wq ∧ 0 ≤ wr ∧ 0 ≤ ws ∧ 0 < wp + wq + wr + ws ∧
    wp * p.x + wq * q.x + wr * r.x + ws * s.x = 0 ∧
    wp * p.y + wq * q.y + wr * r.y + ws * s.y = 0 ∧
    wp * p.z + wq * q.z + wr * r.z + ws * s.z = 0

theorem dot_self_nonneg (a : V K) : 0 ≤ dot a a := by
  unfold dot
  have := mul_self_nonneg a.x; have := mul_self_nonneg a.y; have := mul_self_nonneg a.z
  linarith

theorem dot_self_eq_zero {a : V K} (h : dot a a = 0) : a.x = 0 ∧ a.y = 0 ∧ a.z = 0 := by
  unfold dot at h
  have h1 := mul_self_nonneg a.x; have h2 := mul_self_nonneg a.y; have h3 := mul_self_nonneg a.z
  exact ⟨mul_self_eq_zero.mp (by linarith), mul_self_eq_zero.mp (by linarith),
    mul_self_eq_zero.mp (by linarith)⟩

theorem dot_self_pos {a : V K} (h : dot a a ≠ 0) : 0 < dot a a :=
  lt_of_le_of_ne (dot_self_nonneg a) (Ne.symm h)

/-- What holds at the head of the loop. -/
def Inv (M : V K → Prop) : List (V K) → V K → Prop
  | [b], d => M b ∧ d = neg b
  | [b, a], d => M b ∧ M a ∧ d = cross (cross (sub b a) (neg a)) (sub b a) ∧
      0 < dot (cross (sub b a) (neg a)) (cross (sub b a) (neg a))
  | [c, b, a], d => M c ∧ M b ∧ M a ∧ d = cross (sub b a) (sub c a) ∧ dot a d < 0
  | _, _ => False

/-- A triangle whose plane passes through the origin, seen from the edge `b c`. -/
theorem planar_hit {M : V K → Prop} {a b c d : V K} (ha : M a) (hb : M b) (hc : M c)
    (hne : 0 < dot (sub c b) (sub c b)) (had : 0 ≤ dot a d) (hbd : dot b d < 0)
    (hcd : dot c d = dot b d)
    (h0 : dot (cross (sub b a) (sub c a)) (neg a) = 0)
    (h1 : dot (cross (cross (sub b a) (sub c a)) (sub c a)) (neg a) ≤ 0)
    (h2 : dot (cross (sub b a) (cross (sub b a) (sub c a))) (neg a) ≤ 0) : Hit M := by
  -- the squared area is positive
  have hT : 0 < dot (cross (sub b a) (sub c a)) (cross (sub b a) (sub c a)) := by
    apply dot_self_pos
    intro h
    obtain ⟨e1, e2, e3⟩ := dot_self_eq_zero h
    have : dot (sub c b) (sub c b) * (dot a d - dot b d) = 0 := by
      have k1 : dot (sub c b) (sub c b) * (dot a d - dot b d)
          = dot (sub a b) (sub c b) * (dot c d - dot b d)
            + dot (cross (cross (sub b a) (sub c a)) (sub c b)) d := by
        simp only [dot, cross, sub]; ring
      rw [k1, hcd, sub_self, mul_zero, zero_add]
      simp only [dot, cross] at e1 e2 e3 ⊢
      rw [e1, e2, e3]; ring
    rcases mul_eq_zero.mp this with h | h
    · exact absurd h hne.ne'
    · linarith
  set T := dot (cross (sub b a) (sub c a)) (cross (sub b a) (sub c a)) with hTd
  set s := -dot (cross (cross (sub b a) (sub c a)) (sub c a)) (neg a) with hs
  set t := -dot (cross (sub b a) (cross (sub b a) (sub c a))) (neg a) with ht
  -- T * (-a) = s * (b - a) + t * (c - a)
  have ex : T * a.x + s * (b.x - a.x) + t * (c.x - a.x)
      = -dot (cross (sub b a) (sub c a)) (neg a) * (cross (sub b a) (sub c a)).x := by
    simp only [hTd, hs, ht, dot, cross, sub, neg]; ring
  have ey : T * a.y + s * (b.y - a.y) + t * (c.y - a.y)
      = -dot (cross (sub b a) (sub c a)) (neg a) * (cross (sub b a) (sub c a)).y := by
    simp only [hTd, hs, ht, dot, cross, sub, neg]; ring
  have ez : T * a.z + s * (b.z - a.z) + t * (c.z - a.z)
      = -dot (cross (sub b a) (sub c a)) (neg a) * (cross (sub b a) (sub c a)).z := by
    simp only [hTd, hs, ht, dot, cross, sub, neg]; ring
  rw [h0] at ex ey ez
  have hs0 : 0 ≤ s := by linarith
  have ht0 : 0 ≤ t := by linarith
  have hsum : 0 ≤ T - s - t := by
    by_contra hneg
    have hneg : T - s - t < 0 := not_le.mp hneg
    have key : (T - s - t) * dot a d + (s + t) * dot b d = 0 := by
      have : (T - s - t) * dot a d + s * dot b d + t * dot c d = 0 := by
        simp only [dot]
        linear_combination d.x * ex + d.y * ey + d.z * ez
      rw [hcd] at this
      linear_combination this
    have k1 : (T - s - t) * dot a d ≤ 0 := mul_nonpos_of_nonpos_of_nonneg hneg.le had
    have k2 : (s + t) * dot b d < 0 := mul_neg_of_pos_of_neg (by linarith) hbd
    linarith
  refine ⟨a, b, c, a, ha, hb, hc, ha, T - s - t, s, t, 0, hsum, hs0, ht0, le_refl _,
    by linarith, ?_, ?_, ?_⟩
  · linear_combination ex
  · linear_combination ey
  · linear_combination ez

/-- A segment case keeps the invariant when the degenerate position is excluded. -/
theorem inv_handle2 {M : V K → Prop} {a b : V K} (ha : M a) (hb : M b)
    (h : 0 < dot (sub b a) (neg a) →
      dot (cross (sub b a) (neg a)) (cross (sub b a) (neg a)) ≠ 0) :
    Inv M (handle2 0 b a).1 (handle2 0 b a).2 := by
  unfold handle2
  dsimp only
  split_ifs with h1
  · exact ⟨hb, ha, rfl, dot_self_pos (h h1)⟩
  · exact ⟨ha, rfl⟩

/-- A triangle case keeps the invariant when a plane through the origin is excluded. -/
theorem inv_handle3 {M : V K → Prop} {a b c : V K} (ha : M a) (hb : M b) (hc : M c)
    (h : dot (cross (sub b a) (sub c a)) (neg a) = 0 →
      dot (cross (cross (sub b a) (sub c a)) (sub c a)) (neg a) ≤ 0 →
      dot (cross (sub b a) (cross (sub b a) (sub c a))) (neg a) ≤ 0 → False) :
    Inv M (handle3 0 c b a).1 (handle3 0 c b a).2 := by
  unfold handle3
  dsimp only
  split_ifs with h1 h2 h3 h4
  · refine ⟨hc, ha, rfl, dot_self_pos ?_⟩
    intro h0
    obtain ⟨e1, e2, e3⟩ := dot_self_eq_zero h0
    have : dot (cross (cross (sub b a) (sub c a)) (sub c a)) (neg a)
        = dot (cross (sub b a) (sub c a)) (cross (sub c a) (neg a)) := by
      simp only [dot, cross]; ring
    rw [this] at h1
    unfold dot at h1
    rw [e1, e2, e3] at h1
    simp at h1
  · apply inv_handle2 ha hb
    intro hp h0
    obtain ⟨e1, e2, e3⟩ := dot_self_eq_zero h0
    have k : dot (sub b a) (sub b a) * dot (cross (cross (sub b a) (sub c a)) (sub c a)) (neg a)
        = -(dot (sub b a) (neg a) * dot (cross (sub b a) (sub c a)) (cross (sub b a) (sub c a)))
          + dot (cross (cross (sub b a) (sub c a)) (sub c a))
              (cross (cross (sub b a) (neg a)) (sub b a)) := by
      simp only [dot, cross, sub, neg]; ring
    have k2 : dot (cross (cross (sub b a) (sub c a)) (sub c a))
              (cross (cross (sub b a) (neg a)) (sub b a)) = 0 := by
      generalize hw : cross (sub b a) (neg a) = w at e1 e2 e3 ⊢
      simp only [dot, cross, e1, e2, e3]; ring
    rw [k2, add_zero] at k
    have p1 : 0 ≤ dot (sub b a) (neg a)
        * dot (cross (sub b a) (sub c a)) (cross (sub b a) (sub c a)) :=
      mul_nonneg hp.le (dot_self_nonneg _)
    have p2 : 0 < dot (sub b a) (sub b a) := by
      apply dot_self_pos
      intro h0
      obtain ⟨e1, e2, e3⟩ := dot_self_eq_zero h0
      unfold dot at hp
      rw [e1, e2, e3] at hp
      simp at hp
    have p3 := mul_pos p2 h1
    linarith
  · apply inv_handle2 ha hb
    intro hp h0
    obtain ⟨e1, e2, e3⟩ := dot_self_eq_zero h0
    have : dot (cross (sub b a) (cross (sub b a) (sub c a))) (neg a)
        = -dot (cross (sub b a) (sub c a)) (cross (sub b a) (neg a)) := by
      simp only [dot, cross]; ring
    rw [this] at h3
    unfold dot at h3
    rw [e1, e2, e3] at h3
    simp at h3
  · refine ⟨hc, hb, ha, rfl, ?_⟩
    have : dot a (cross (sub b a) (sub c a)) = -dot (cross (sub b a) (sub c a)) (neg a) := by
      simp only [dot, neg]; ring
    rw [this]; linarith
  · refine ⟨hb, hc, ha, ?_, ?_⟩
    · simp only [neg, cross, V.mk.injEq]
      refine ⟨?_, ?_, ?_⟩ <;> ring
    · have : dot a (neg (cross (sub b a) (sub c a))) = dot (cross (sub b a) (sub c a)) (neg a) := by
        simp only [dot, neg]; ring
      rw [this]
      refine lt_of_le_of_ne (not_lt.mp h4) ?_
      intro h0
      exact h h0 (not_lt.mp h1) (not_lt.mp h3)

/-- One round: with the origin out of reach the answer is not `true`, and the invariant is kept. -/
theorem inv_step {M : V K → Prop} (hM : ¬ Hit M) {s : List (V K)} {d p : V K} (hI : Inv M s d)
    (hp : M p) (hpd : 0 ≤ dot p d) :
    ∃ s' d', handleSimplex 0 (s ++ [p]) d = some (s', d') ∧ Inv M s' d' := by
  rcases s with _ | ⟨x, _ | ⟨y, _ | ⟨z, _ | ⟨w, l⟩⟩⟩⟩
  · exact hI.elim
  · -- one point
    obtain ⟨hx, rfl⟩ := hI
    refine ⟨_, _, rfl, inv_handle2 hp hx ?_⟩
    intro h1 h0
    apply hM
    obtain ⟨e1, e2, e3⟩ := dot_self_eq_zero h0
    set u := sub x p with hu
    have hu0 : 0 < dot u u := by
      apply dot_self_pos
      intro h0
      obtain ⟨f1, f2, f3⟩ := dot_self_eq_zero h0
      unfold dot at h1
      rw [f1, f2, f3] at h1
      simp at h1
    -- |u|² (-p) = (u·(-p)) u
    have ex : dot u u * p.x + dot u (neg p) * u.x = 0 := by
      simp only [dot, cross, neg] at e1 e2 e3 ⊢
      linear_combination (-u.z) * e2 + u.y * e3
    have ey : dot u u * p.y + dot u (neg p) * u.y = 0 := by
      simp only [dot, cross, neg] at e1 e2 e3 ⊢
      linear_combination (-u.x) * e3 + u.z * e1
    have ez : dot u u * p.z + dot u (neg p) * u.z = 0 := by
      simp only [dot, cross, neg] at e1 e2 e3 ⊢
      linear_combination (-u.y) * e1 + u.x * e2
    have hle : dot u (neg p) ≤ dot u u := by
      have : dot u u - dot u (neg p) = dot u x := by
        simp only [hu, dot, sub, neg]; ring
      have h2 : dot u x = dot x x + dot p (neg x) := by
        simp only [hu, dot, sub, neg]; ring
      have := dot_self_nonneg x
      linarith
    refine ⟨p, x, p, p, hp, hx, hp, hp, dot u u - dot u (neg p), dot u (neg p), 0, 0,
      by linarith, h1.le, le_refl _, le_refl _, by linarith, ?_, ?_, ?_⟩
    · have : u.x = x.x - p.x := rfl
      rw [this] at ex; linear_combination ex
    · have : u.y = x.y - p.y := rfl
      rw [this] at ey; linear_combination ey
    · have : u.z = x.z - p.z := rfl
      rw [this] at ez; linear_combination ez
  · -- a segment
    obtain ⟨hx, hy, rfl, hN⟩ := hI
    refine ⟨_, _, rfl, inv_handle3 hp hy hx ?_⟩
    intro h0 h1 h2
    apply hM
    refine planar_hit (d := cross (cross (sub x y) (neg y)) (sub x y)) hp hy hx ?_ hpd ?_ ?_ h0 h1 h2
    · apply dot_self_pos
      intro h0
      obtain ⟨f1, f2, f3⟩ := dot_self_eq_zero h0
      have : cross (sub x y) (neg y) = ⟨0, 0, 0⟩ := by
        simp only [cross, f1, f2, f3]
        simp
      rw [this] at hN
      simp [dot] at hN
    · have : dot y (cross (cross (sub x y) (neg y)) (sub x y))
          = -dot (cross (sub x y) (neg y)) (cross (sub x y) (neg y)) := by
        simp only [dot, cross, sub, neg]; ring
      rw [this]; linarith
    · simp only [dot, cross, sub, neg]; ring
  · -- a triangle
    obtain ⟨hx, hy, hz, rfl, hN⟩ := hI
    have hzy : dot y (cross (sub y z) (sub x z)) = dot z (cross (sub y z) (sub x z)) := by
      simp only [dot, cross, sub]; ring
    have hzx : dot x (cross (sub y z) (sub x z)) = dot z (cross (sub y z) (sub x z)) := by
      simp only [dot, cross, sub]; ring
    have hne : ∀ u v : V K, sub u v = ⟨0, 0, 0⟩ →
        (u = x ∧ v = z) ∨ (u = x ∧ v = y) → False := by
      rintro u v h (⟨rfl, rfl⟩ | ⟨rfl, rfl⟩)
      · rw [h] at hN
        simp [dot, cross] at hN
      · have e1 : u.x = v.x := by have := congrArg V.x h; simp only [sub] at this; linarith
        have e2 : u.y = v.y := by have := congrArg V.y h; simp only [sub] at this; linarith
        have e3 : u.z = v.z := by have := congrArg V.z h; simp only [sub] at this; linarith
        have : u = v := V.ext e1 e2 e3
        subst this
        have : dot z (cross (sub u z) (sub u z)) = 0 := by simp only [dot, cross]; ring
        linarith
    show ∃ s' d', handle4 0 x y z p = some (s', d') ∧ Inv M s' d'
    unfold handle4
    dsimp only
    split_ifs with h1 h2 h3
    · refine ⟨_, _, rfl, inv_handle3 hp hz hy ?_⟩
      intro h0; exact absurd h0 h1.ne'
    · refine ⟨_, _, rfl, inv_handle3 hp hz hx ?_⟩
      intro h0 h4 h5
      apply hM
      refine planar_hit (d := cross (sub y z) (sub x z)) hp hz hx ?_ hpd hN hzx h0 h4 h5
      apply dot_self_pos
      intro h6
      obtain ⟨f1, f2, f3⟩ := dot_self_eq_zero h6
      exact hne x z (V.ext f1 f2 f3) (Or.inl ⟨rfl, rfl⟩)
    · refine ⟨_, _, rfl, inv_handle3 hp hy hx ?_⟩
      intro h0 h4 h5
      apply hM
      refine planar_hit (d := cross (sub y z) (sub x z)) hp hy hx ?_ hpd (by rw [hzy]; exact hN)
        (hzx.trans hzy.symm) h0 h4 h5
      apply dot_self_pos
      intro h6
      obtain ⟨f1, f2, f3⟩ := dot_self_eq_zero h6
      exact hne x y (V.ext f1 f2 f3) (Or.inr ⟨rfl, rfl⟩)
    · exfalso
      apply hM
      have q1 := not_lt.mp h1
      have q2 := not_lt.mp h2
      have q3 := not_lt.mp h3
      refine ⟨p, z, y, x, hp, hz, hy, hx, -dot z (cross (sub y z) (sub x z)),
        -dot (cross (sub y p) (sub x p)) (neg p), -dot (cross (sub x p) (sub z p)) (neg p),
        -dot (cross (sub z p) (sub y p)) (neg p), by linarith, by linarith, by linarith,
        by linarith, by linarith, ?_, ?_, ?_⟩ <;>
      · simp only [dot, cross, sub, neg]; ring
  · exact hI.elim

end Verif.Gjk
