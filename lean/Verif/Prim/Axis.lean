import Verif.Prim.Props

set_option linter.unusedSectionVars false

/-!
# The distance to a line, and the box of a cylinder
-/

namespace Verif.Prim

theorem dot_pos (d : P) (hd : d ≠ ⟨0, 0, 0⟩) : 0 < dot d d := by
  rcases lt_or_eq_of_le (dot_self_nonneg d) with h | h
  · exact h
  · exact absurd ((norm_zero_iff d).mp (by rw [norm_eq, ← h, Real.sqrt_zero])) hd

/-- The parameter of the foot of the perpendicular. -/
noncomputable def footAt (o d p : P) : ℝ := dot (sub p o) d / dot d d

theorem foot_perp (o d p : P) (hd : d ≠ ⟨0, 0, 0⟩) : dot (sub p (along o d (footAt o d p))) d = 0 := by
  have h := (dot_pos d hd).ne'
  have e : dot (sub p (along o d (footAt o d p))) d = dot (sub p o) d - footAt o d p * dot d d := by
    unfold dot sub along
    ring
  rw [e]
  unfold footAt
  rw [div_mul_cancel₀ _ h, sub_self]

theorem foot_unique (o d p : P) (hd : d ≠ ⟨0, 0, 0⟩) (t : ℝ) (h : dot (sub p (along o d t)) d = 0) :
    footAt o d p = t := by
  have hn := (dot_pos d hd).ne'
  have e : dot (sub p (along o d t)) d = dot (sub p o) d - t * dot d d := by
    unfold dot sub along
    ring
  unfold footAt
  rw [div_eq_iff hn]
  linarith

/-- The foot is the nearest point of the line. -/
theorem foot_nearest (o d p : P) (hd : d ≠ ⟨0, 0, 0⟩) (t : ℝ) :
    dist p (along o d (footAt o d p)) ≤ dist p (along o d t) := by
  have h := foot_perp o d p hd
  unfold dist
  refine abs_le_of_sq_le_sq' ?_ (norm_nonneg _) |>.2
  rw [norm_sq, norm_sq]
  have e : dot (sub p (along o d t)) (sub p (along o d t)) =
      dot (sub p (along o d (footAt o d p))) (sub p (along o d (footAt o d p))) +
      2 * (footAt o d p - t) * dot (sub p (along o d (footAt o d p))) d +
      (footAt o d p - t) ^ 2 * dot d d := by
    unfold dot sub along
    ring
  rw [e, h]
  have := mul_nonneg (sq_nonneg (footAt o d p - t)) (dot_self_nonneg d)
  linarith

/-- The value `ImplicitCylinder` computes under the root. -/
theorem cyl_normal (c : Cyl) (p : P) (hd : c.d ≠ ⟨0, 0, 0⟩) :
    c.normalNotUnit p = some (sub p (along c.o c.d (footAt c.o c.d p))) := by
  have hn := dot_pos c.d hd
  have e : c.d.x ^ 2 + c.d.y ^ 2 + c.d.z ^ 2 = dot c.d c.d := by unfold dot; ring
  unfold Cyl.normalNotUnit
  dsimp only
  rw [e, if_neg hn.ne']
  congr 1
  unfold footAt
  generalize dot c.d c.d = n at hn
  have hn' := hn.ne'
  unfold sub along dot
  ext <;> dsimp only <;> field_simp <;> ring

theorem cyl_implicit (c : Cyl) (p : P) (hd : c.d ≠ ⟨0, 0, 0⟩) :
    c.implicit p = some (dist p (along c.o c.d (footAt c.o c.d p)) - c.radius) := by
  unfold Cyl.implicit
  rw [cyl_normal c p hd]
  rfl

theorem cyl_implicit_foot (c : Cyl) (p : P) (hd : c.d ≠ ⟨0, 0, 0⟩) (t : ℝ)
    (h : dot (sub p (along c.o c.d t)) c.d = 0) :
    c.implicit p = some (dist p (along c.o c.d t) - c.radius) := by
  rw [cyl_implicit c p hd, foot_unique c.o c.d p hd t h]

/-- The value `Tube` computes under the root. -/
theorem tube_root (o d p : P) (hd : d ≠ ⟨0, 0, 0⟩) :
    let k := 1 / (d.x ^ 2 + d.y ^ 2 + d.z ^ 2)
    sub p (along o d (footAt o d p)) =
      ⟨p.x - o.x - k * (d.x * (p.x - o.x) + d.y * (p.y - o.y) + d.z * (p.z - o.z)) * d.x,
       p.y - o.y - k * (d.x * (p.x - o.x) + d.y * (p.y - o.y) + d.z * (p.z - o.z)) * d.y,
       p.z - o.z - k * (d.x * (p.x - o.x) + d.y * (p.y - o.y) + d.z * (p.z - o.z)) * d.z⟩ := by
  have hn := (dot_pos d hd).ne'
  have e : d.x ^ 2 + d.y ^ 2 + d.z ^ 2 = dot d d := by unfold dot; ring
  dsimp only
  rw [e]
  unfold footAt
  generalize dot d d = n at hn
  unfold sub along dot
  ext <;> dsimp only <;> field_simp <;> ring

theorem tube_implicit (o d p : P) (r th : ℝ) (hd : d ≠ ⟨0, 0, 0⟩) :
    tubeImplicit o d r th p = some (|dist p (along o d (footAt o d p)) - r| - th / 2) := by
  have hn := (dot_pos d hd).ne'
  have e : d.x ^ 2 + d.y ^ 2 + d.z ^ 2 = dot d d := by unfold dot; ring
  have ht := tube_root o d p hd
  dsimp only at ht
  unfold tubeImplicit dist
  dsimp only
  rw [if_neg (by rw [e]; exact hn)]
  congr 1
  rw [ht, abs_sub_comm]
  unfold norm
  generalize 1 / (d.x ^ 2 + d.y ^ 2 + d.z ^ 2) = k
  dsimp only
  rw [add_comm, neg_div, neg_mul, ← sub_eq_add_neg, one_div, inv_mul_eq_div]
  congr 4
  ring

/-- One of the three directions of the axes, or any other unit vector: the part of it across the line. -/
noncomputable def across (a d : P) : P := sub a (smul (dot a d / dot d d) d)

theorem across_perp (a d : P) (hd : d ≠ ⟨0, 0, 0⟩) : dot (across a d) d = 0 := by
  have hn := (dot_pos d hd).ne'
  have e : dot (across a d) d = dot a d - dot a d / dot d d * dot d d := by
    unfold across
    generalize dot a d / dot d d = t
    unfold dot sub smul
    ring
  rw [e, div_mul_cancel₀ _ hn, sub_self]

theorem across_dot (a d v : P) (hv : dot v d = 0) : dot (across a d) v = dot a v := by
  have e : dot (across a d) v = dot a v - dot a d / dot d d * dot v d := by
    unfold across
    generalize dot a d / dot d d = t
    unfold dot sub smul
    ring
  rw [e, hv, mul_zero, sub_zero]

theorem across_sq (a d : P) (ha : dot a a = 1) (hd : d ≠ ⟨0, 0, 0⟩) :
    dot (across a d) (across a d) = 1 - dot a d * dot a d / dot d d := by
  rw [across_dot a d (across a d) (across_perp a d hd), dot_comm]
  have e : dot (across a d) a = dot a a - dot a d / dot d d * dot a d := by
    unfold across
    generalize dot a d / dot d d = t
    unfold dot sub smul
    ring
  rw [e, ha]
  ring

/-- The largest extent across the line in the direction `a`. -/
noncomputable def extent (a d : P) : ℝ := √(1 - dot a d * dot a d / dot d d)

theorem extent_ge (a d v : P) (ha : dot a a = 1) (hd : d ≠ ⟨0, 0, 0⟩) (hv : dot v d = 0) :
    |dot a v| ≤ norm v * extent a d := by
  rw [← across_dot a d v hv]
  have h := abs_dot_le (across a d) v
  rw [norm_eq (across a d), across_sq a d ha hd] at h
  rw [mul_comm]
  exact h

theorem extent_at (a d : P) (ha : dot a a = 1) (hd : d ≠ ⟨0, 0, 0⟩) (h : extent a d ≠ 0) :
    ∃ v, dot v d = 0 ∧ norm v = 1 ∧ dot a v = extent a d := by
  have hs : norm (across a d) = extent a d := by
    rw [norm_eq, across_sq a d ha hd]
    rfl
  have hp : 0 ≤ extent a d := Real.sqrt_nonneg _
  refine ⟨smul (1 / extent a d) (across a d), ?_, ?_, ?_⟩
  · have : dot (smul (1 / extent a d) (across a d)) d = 1 / extent a d * dot (across a d) d := by
      unfold dot smul
      ring
    rw [this, across_perp a d hd, mul_zero]
  · rw [norm_smul, hs, abs_of_nonneg (div_nonneg zero_le_one hp), one_div, inv_mul_cancel₀ h]
  · have e : dot a (smul (1 / extent a d) (across a d)) = 1 / extent a d * dot a (across a d) := by
      generalize across a d = w
      unfold dot smul
      ring
    rw [e, ← across_dot a d (across a d) (across_perp a d hd), ← norm_sq, hs]
    field_simp

/-- There is a unit vector across every line. -/
theorem exists_perp (d : P) (hd : d ≠ ⟨0, 0, 0⟩) : ∃ v, dot v d = 0 ∧ norm v = 1 := by
  have hn := dot_pos d hd
  have key : ∃ a, dot a a = 1 ∧ extent a d ≠ 0 := by
    by_contra hc
    push Not at hc
    have h1 := hc ⟨1, 0, 0⟩ (by unfold dot; norm_num)
    have h2 := hc ⟨0, 1, 0⟩ (by unfold dot; norm_num)
    unfold extent at h1 h2
    rw [Real.sqrt_eq_zero'] at h1 h2
    have e1 : dot ⟨1, 0, 0⟩ d * dot ⟨1, 0, 0⟩ d = d.x * d.x := by unfold dot; ring
    have e2 : dot ⟨0, 1, 0⟩ d * dot ⟨0, 1, 0⟩ d = d.y * d.y := by unfold dot; ring
    rw [e1, sub_nonpos, le_div_iff₀ hn] at h1
    rw [e2, sub_nonpos, le_div_iff₀ hn] at h2
    unfold dot at h1 h2 hn
    nlinarith [mul_self_nonneg d.x, mul_self_nonneg d.y, mul_self_nonneg d.z]
  obtain ⟨a, ha, h⟩ := key
  obtain ⟨v, h1, h2, -⟩ := extent_at a d ha hd h
  exact ⟨v, h1, h2⟩

theorem extent_attained (a d : P) (ha : dot a a = 1) (hd : d ≠ ⟨0, 0, 0⟩) :
    ∃ v, dot v d = 0 ∧ norm v = 1 ∧ dot a v = extent a d := by
  by_cases h : extent a d = 0
  · obtain ⟨v, h1, h2⟩ := exists_perp d hd
    refine ⟨v, h1, h2, ?_⟩
    have := extent_ge a d v ha hd h1
    rw [h, mul_zero] at this
    rw [h]
    exact abs_eq_zero.mp (le_antisymm this (abs_nonneg _))
  · exact extent_at a d ha hd h

/-- The point lies between the two planes across the axis at its ends. -/
def Between (o e p : P) : Prop := 0 ≤ dot (sub p o) (sub e o) ∧ 0 ≤ dot (sub p e) (sub o e)

theorem between_iff (o e p : P) (hd : sub e o ≠ ⟨0, 0, 0⟩) :
    Between o e p ↔ 0 ≤ footAt o (sub e o) p ∧ footAt o (sub e o) p ≤ 1 := by
  have hn := dot_pos _ hd
  have e1 : dot (sub p e) (sub o e) = dot (sub e o) (sub e o) - dot (sub p o) (sub e o) := by
    unfold dot sub
    ring
  unfold Between footAt
  rw [e1, div_le_one hn]
  constructor
  · rintro ⟨h1, h2⟩
    exact ⟨div_nonneg h1 hn.le, by linarith⟩
  · rintro ⟨h1, h2⟩
    refine ⟨?_, by linarith⟩
    by_contra hc
    push Not at hc
    have := div_neg_of_neg_of_pos hc hn
    linarith

/-- The box of `cylinder_aabb` in the direction of one axis. -/
theorem aabb_eq (o e : P) (r : ℝ) (hd : sub e o ≠ ⟨0, 0, 0⟩) :
    cylinderAabb o e (sub e o) r = some
      ⟨⟨min o.x e.x - r * extent ⟨1, 0, 0⟩ (sub e o), min o.y e.y - r * extent ⟨0, 1, 0⟩ (sub e o),
        min o.z e.z - r * extent ⟨0, 0, 1⟩ (sub e o)⟩,
       ⟨max o.x e.x + r * extent ⟨1, 0, 0⟩ (sub e o), max o.y e.y + r * extent ⟨0, 1, 0⟩ (sub e o),
        max o.z e.z + r * extent ⟨0, 0, 1⟩ (sub e o)⟩⟩ := by
  have hn := dot_pos _ hd
  have hx : ∀ d : P, dot ⟨1, 0, 0⟩ d = d.x := fun d => by unfold dot; ring
  have hy : ∀ d : P, dot ⟨0, 1, 0⟩ d = d.y := fun d => by unfold dot; ring
  have hz : ∀ d : P, dot ⟨0, 0, 1⟩ d = d.z := fun d => by unfold dot; ring
  unfold cylinderAabb
  dsimp only
  rw [if_neg (show ¬((sub e o).x * (sub e o).x + (sub e o).y * (sub e o).y + (sub e o).z * (sub e o).z = 0)
    from hn.ne')]
  unfold extent
  rw [hx, hy, hz, min_sub_sub_right, min_sub_sub_right, min_sub_sub_right, max_add_add_right, max_add_add_right,
    max_add_add_right]
  rfl

/-- One coordinate of a point near the axis. -/
theorem coord_in (a o e p : P) (r : ℝ) (ha : dot a a = 1) (hd : sub e o ≠ ⟨0, 0, 0⟩) (hb : Between o e p)
    (hr : dist p (along o (sub e o) (footAt o (sub e o) p)) ≤ r) :
    min (dot a o) (dot a e) - r * extent a (sub e o) ≤ dot a p ∧
      dot a p ≤ max (dot a o) (dot a e) + r * extent a (sub e o) := by
  obtain ⟨h0, h1⟩ := (between_iff o e p hd).mp hb
  have hv := extent_ge a (sub e o) _ ha hd (foot_perp o (sub e o) p hd)
  have hx : 0 ≤ extent a (sub e o) := Real.sqrt_nonneg _
  have hm : norm (sub p (along o (sub e o) (footAt o (sub e o) p))) * extent a (sub e o) ≤ r * extent a (sub e o) :=
    mul_le_mul_of_nonneg_right hr hx
  have hv := abs_le.mp (hv.trans hm)
  generalize footAt o (sub e o) p = t at h0 h1 hv
  have e1 : dot a p = (1 - t) * dot a o + t * dot a e + dot a (sub p (along o (sub e o) t)) := by
    unfold dot sub along
    ring
  have h2 := min_le_left (dot a o) (dot a e)
  have h3 := min_le_right (dot a o) (dot a e)
  have h4 := le_max_left (dot a o) (dot a e)
  have h5 := le_max_right (dot a o) (dot a e)
  rw [e1]
  constructor <;> nlinarith

/-- The points of the two rims. -/
theorem rim (o e v : P) (R : ℝ) (hR : 0 ≤ R) (hd : sub e o ≠ ⟨0, 0, 0⟩) (hv : dot v (sub e o) = 0) (h1 : norm v = 1)
    (s : ℝ) (hs : s = 0 ∨ s = 1) :
    Between o e (along (along o (sub e o) s) v R) ∧
      dist (along (along o (sub e o) s) v R)
        (along o (sub e o) (footAt o (sub e o) (along (along o (sub e o) s) v R))) = R := by
  have e1 : sub (along (along o (sub e o) s) v R) (along o (sub e o) s) = smul R v := by
    unfold sub along smul
    ext <;> dsimp only <;> ring
  have hf : footAt o (sub e o) (along (along o (sub e o) s) v R) = s := by
    refine foot_unique _ _ _ hd s ?_
    rw [e1]
    have : dot (smul R v) (sub e o) = R * dot v (sub e o) := by
      unfold dot smul
      ring
    rw [this, hv, mul_zero]
  refine ⟨?_, ?_⟩
  · rw [between_iff _ _ _ hd, hf]
    rcases hs with rfl | rfl <;> norm_num
  · rw [hf]
    show norm _ = R
    rw [e1, norm_smul, h1, mul_one, abs_of_nonneg hR]

theorem neg_perp (v d : P) (hv : dot v d = 0) (h1 : norm v = 1) : dot (smul (-1) v) d = 0 ∧ norm (smul (-1) v) = 1 := by
  constructor
  · have : dot (smul (-1) v) d = -dot v d := by
      unfold dot smul
      ring
    rw [this, hv, neg_zero]
  · rw [norm_smul, h1]
    norm_num

/-- The extreme values of one coordinate. -/
theorem coord_out (a o e : P) (R lo hi : ℝ) (ha : dot a a = 1) (hR : 0 ≤ R) (hd : sub e o ≠ ⟨0, 0, 0⟩)
    (h : ∀ p, Between o e p → dist p (along o (sub e o) (footAt o (sub e o) p)) = R → lo ≤ dot a p ∧ dot a p ≤ hi) :
    lo ≤ min (dot a o) (dot a e) - R * extent a (sub e o) ∧
      max (dot a o) (dot a e) + R * extent a (sub e o) ≤ hi := by
  obtain ⟨v, hv, h1, hx⟩ := extent_attained a (sub e o) ha hd
  obtain ⟨hv', h1'⟩ := neg_perp v _ hv h1
  have e0 : ∀ w : P, dot a (along (along o (sub e o) 0) w R) = dot a o + R * dot a w := by
    intro w
    unfold dot along sub
    ring
  have e1 : ∀ w : P, dot a (along (along o (sub e o) 1) w R) = dot a e + R * dot a w := by
    intro w
    unfold dot along sub
    ring
  have en : dot a (smul (-1) v) = -dot a v := by
    unfold dot smul
    ring
  have p1 := rim o e v R hR hd hv h1 0 (Or.inl rfl)
  have p2 := rim o e v R hR hd hv h1 1 (Or.inr rfl)
  have p3 := rim o e _ R hR hd hv' h1' 0 (Or.inl rfl)
  have p4 := rim o e _ R hR hd hv' h1' 1 (Or.inr rfl)
  have q1 := h _ p1.1 p1.2
  have q2 := h _ p2.1 p2.2
  have q3 := h _ p3.1 p3.2
  have q4 := h _ p4.1 p4.2
  rw [e0, hx] at q1
  rw [e1, hx] at q2
  rw [e0, en, hx] at q3
  rw [e1, en, hx] at q4
  constructor
  · rcases min_cases (dot a o) (dot a e) with ⟨hm, -⟩ | ⟨hm, -⟩ <;> rw [hm] <;> linarith [q3.1, q4.1]
  · rcases max_cases (dot a o) (dot a e) with ⟨hm, -⟩ | ⟨hm, -⟩ <;> rw [hm] <;> linarith [q1.2, q2.2]

/-- The box is the smallest one for every set between the cylinder of radius `R` cut by the two planes and the points
of that radius. -/
theorem aabb_smallest (o e : P) (R : ℝ) (hR : 0 ≤ R) (hd : sub e o ≠ ⟨0, 0, 0⟩) (S : P → Prop)
    (hi : ∀ p, S p → Between o e p ∧ dist p (along o (sub e o) (footAt o (sub e o) p)) ≤ R)
    (ho : ∀ p, Between o e p → dist p (along o (sub e o) (footAt o (sub e o) p)) = R → S p) :
    ∃ b, cylinderAabb o e (sub e o) R = some b ∧ Smallest b S := by
  have hx : ∀ d : P, dot ⟨1, 0, 0⟩ d = d.x := fun d => by unfold dot; ring
  have hy : ∀ d : P, dot ⟨0, 1, 0⟩ d = d.y := fun d => by unfold dot; ring
  have hz : ∀ d : P, dot ⟨0, 0, 1⟩ d = d.z := fun d => by unfold dot; ring
  refine ⟨_, aabb_eq o e R hd, fun p hp => ?_, fun c hc => ?_⟩
  · obtain ⟨hb, hr⟩ := hi p hp
    have h1 := coord_in ⟨1, 0, 0⟩ o e p R (by rw [hx]) hd hb hr
    have h2 := coord_in ⟨0, 1, 0⟩ o e p R (by rw [hy]) hd hb hr
    have h3 := coord_in ⟨0, 0, 1⟩ o e p R (by rw [hz]) hd hb hr
    rw [hx, hx, hx] at h1
    rw [hy, hy, hy] at h2
    rw [hz, hz, hz] at h3
    exact ⟨h1, h2, h3⟩
  · have h1 := coord_out ⟨1, 0, 0⟩ o e R c.lo.x c.hi.x (by rw [hx]) hR hd
      (fun p h1 h2 => by rw [hx]; exact (hc p (ho p h1 h2)).1)
    have h2 := coord_out ⟨0, 1, 0⟩ o e R c.lo.y c.hi.y (by rw [hy]) hR hd
      (fun p h1 h2 => by rw [hy]; exact (hc p (ho p h1 h2)).2.1)
    have h3 := coord_out ⟨0, 0, 1⟩ o e R c.lo.z c.hi.z (by rw [hz]) hR hd
      (fun p h1 h2 => by rw [hz]; exact (hc p (ho p h1 h2)).2.2)
    rw [hx, hx] at h1
    rw [hy, hy] at h2
    rw [hz, hz] at h3
    exact ⟨h1.1, h2.1, h3.1, h1.2, h2.2, h3.2⟩

end Verif.Prim
