import Verif.Prim.Axis

set_option linter.unusedSectionVars false

/-!
# Cylinders and tubes as implicit surfaces
-/

namespace Verif.Prim

/-- The values assigned last, starting from three given ones: start, end, radius. -/
def lastOf : P × P × ℝ → List Cyl.Op → P × P × ℝ
  | v, [] => v
  | (_, e, r), .start o :: l => lastOf (o, e, r) l
  | (o, _, r), .stop e :: l => lastOf (o, e, r) l
  | (o, e, _), .radius r :: l => lastOf (o, e, r) l

theorem cyl_run (o e : P) (r : ℝ) (ops : List Cyl.Op) :
    (Cyl.init o e r).run ops = Cyl.init (lastOf (o, e, r) ops).1 (lastOf (o, e, r) ops).2.1 (lastOf (o, e, r) ops).2.2 := by
  induction ops generalizing o e r with
  | nil => rfl
  | cons a l ih =>
    unfold Cyl.run at ih ⊢
    rw [List.foldl_cons]
    cases a with
    | start o' => exact ih o' e r
    | stop e' => exact ih o e' r
    | radius r' => exact ih o e r'

theorem tube_run (o e : P) (r th : ℝ) (ops : List Cyl.Op) :
    (Tube.init o e r th).run ops =
      Tube.init (lastOf (o, e, r) ops).1 (lastOf (o, e, r) ops).2.1 (lastOf (o, e, r) ops).2.2 th := by
  induction ops generalizing o e r with
  | nil => rfl
  | cons a l ih =>
    unfold Tube.run at ih ⊢
    rw [List.foldl_cons]
    cases a with
    | start o' => exact ih o' e r
    | stop e' => exact ih o e' r
    | radius r' => exact ih o e r'

theorem sub_ne (o e : P) (h : o ≠ e) : sub e o ≠ ⟨0, 0, 0⟩ := by
  intro hc
  have : dist e o = 0 := (norm_zero_iff _).mpr hc
  exact h ((dist_zero_iff _ _).mp this).symm

/-- The least distance of `p` to the line through `o` and `e` is `D`: no point of the line is nearer, and one is that
near. -/
def LineDist (o e p : P) (D : ℝ) : Prop :=
  (∀ t, D ≤ dist p (along o (sub e o) t)) ∧ ∃ t, dist p (along o (sub e o) t) = D

theorem lineDist_foot (o e p : P) (h : o ≠ e) :
    LineDist o e p (dist p (along o (sub e o) (footAt o (sub e o) p))) :=
  ⟨fun t => foot_nearest o _ p (sub_ne o e h) t, _, rfl⟩

theorem lineDist_unique (o e p : P) (D D' : ℝ) (h : LineDist o e p D) (h' : LineDist o e p D') : D = D' := by
  obtain ⟨h1, t, ht⟩ := h
  obtain ⟨h1', t', ht'⟩ := h'
  have a := h1 t'
  have b := h1' t
  rw [ht'] at a
  rw [ht] at b
  exact le_antisymm a b

/-- C170.  After construction and any assignments to `start`, `end` and `radius`, the value at a point is its distance
to the line through the ends assigned last, less the radius assigned last; for equal ends it is NaN everywhere. -/
theorem C170_distance (start stop : P) (radius : ℝ) (ops : List Cyl.Op) (o e : P) (r : ℝ)
    (hl : lastOf (start, stop, radius) ops = (o, e, r)) (p : P) :
    (o ≠ e → ∃ D, LineDist o e p D ∧ ((Cyl.init start stop radius).run ops).implicit p = some (D - r)) ∧
    (o = e → ((Cyl.init start stop radius).run ops).implicit p = none) := by
  rw [cyl_run, hl]
  dsimp only
  constructor
  · intro h
    exact ⟨_, lineDist_foot o e p h, cyl_implicit (Cyl.init o e r) p (sub_ne o e h)⟩
  · rintro rfl
    unfold Cyl.implicit Cyl.normalNotUnit Cyl.init Cyl.calcBounds Cyl.calcDirection
    dsimp only
    rw [if_pos (by ring)]
    rfl

/-- C170.  Off the axis the gradient is a unit vector across the axis, and going a length `t` along it changes the
value by exactly `t`, inwards as far as the axis.  On the axis it is NaN. -/
theorem C170_gradient (o e : P) (r : ℝ) (h : o ≠ e) (p : P) (D : ℝ) (hD : LineDist o e p D) :
    (D ≠ 0 → ∃ g, (Cyl.init o e r).gradient p = some g ∧ norm g = 1 ∧ dot g (sub e o) = 0 ∧
      ∀ t, -D ≤ t → (Cyl.init o e r).implicit (along p g t) = some (D - r + t)) ∧
    (D = 0 → (Cyl.init o e r).gradient p = none) := by
  have hd := sub_ne o e h
  have hD' := lineDist_unique o e p _ _ hD (lineDist_foot o e p h)
  have hg : (Cyl.init o e r).gradient p
      = div (sub p (along o (sub e o) (footAt o (sub e o) p))) (norm (sub p (along o (sub e o) (footAt o (sub e o) p)))) := by
    unfold Cyl.gradient
    rw [cyl_normal (Cyl.init o e r) p hd]
    rfl
  have hp := foot_perp o (sub e o) p hd
  rw [hg]
  have hN : norm (sub p (along o (sub e o) (footAt o (sub e o) p))) = D := hD'.symm
  constructor
  · intro h0
    rcases hq : div (sub p (along o (sub e o) (footAt o (sub e o) p)))
      (norm (sub p (along o (sub e o) (footAt o (sub e o) p)))) with _ | g
    · rw [div_norm_none, ← norm_zero_iff, hN] at hq
      exact absurd hq h0
    · obtain ⟨-, h1, h2⟩ := div_norm _ _ hq
      rw [hN] at h2
      have hgd : dot g (sub e o) = 0 := by
        rw [h2] at hp
        have : dot (smul D g) (sub e o) = D * dot g (sub e o) := by
          unfold dot smul
          ring
        rw [this] at hp
        exact (mul_eq_zero.mp hp).resolve_left h0
      refine ⟨g, rfl, h1, hgd, fun t ht => ?_⟩
      have e1 : sub (along p g t) (along o (sub e o) (footAt o (sub e o) p)) = smul (D + t) g := by
        have hx : p.x - (along o (sub e o) (footAt o (sub e o) p)).x = D * g.x := congrArg P.x h2
        have hy : p.y - (along o (sub e o) (footAt o (sub e o) p)).y = D * g.y := congrArg P.y h2
        have hz : p.z - (along o (sub e o) (footAt o (sub e o) p)).z = D * g.z := congrArg P.z h2
        generalize along o (sub e o) (footAt o (sub e o) p) = q at hx hy hz
        unfold sub along smul
        ext <;> dsimp only
        · linear_combination hx
        · linear_combination hy
        · linear_combination hz
      have e2 : (Cyl.init o e r).implicit (along p g t)
          = some (dist (along p g t) (along o (sub e o) (footAt o (sub e o) p)) - r) := by
        refine cyl_implicit_foot (Cyl.init o e r) (along p g t) hd (footAt o (sub e o) p) ?_
        show dot (sub (along p g t) (along o (sub e o) (footAt o (sub e o) p))) (sub e o) = 0
        rw [e1]
        have : dot (smul (D + t) g) (sub e o) = (D + t) * dot g (sub e o) := by
          unfold dot smul
          ring
        rw [this, hgd, mul_zero]
      rw [e2]
      congr 1
      have : dist (along p g t) (along o (sub e o) (footAt o (sub e o) p)) = D + t := by
        show norm _ = _
        rw [e1, norm_smul, h1, mul_one, abs_of_nonneg (by linarith)]
      rw [this]
      ring
  · intro h0
    rw [div_norm_none, ← norm_zero_iff, hN, h0]

/-- The cylinder around the third axis: the point `(3, 4, 9)` is 5 away from the axis. -/
example : LineDist ⟨0, 0, 0⟩ ⟨0, 0, 1⟩ ⟨3, 4, 9⟩ 5 := by
  have h : √((25 : ℝ)) = 5 := by
    rw [show (25 : ℝ) = 5 ^ 2 by norm_num]
    exact Real.sqrt_sq (by norm_num)
  have h2 := lineDist_foot ⟨0, 0, 0⟩ ⟨0, 0, 1⟩ ⟨3, 4, 9⟩ (by simp)
  have e : footAt ⟨0, 0, 0⟩ (sub ⟨0, 0, 1⟩ ⟨0, 0, 0⟩) ⟨3, 4, 9⟩ = 9 := by
    unfold footAt sub dot
    norm_num
  rw [e] at h2
  have e2 : dist ⟨3, 4, 9⟩ (along ⟨0, 0, 0⟩ (sub ⟨0, 0, 1⟩ ⟨0, 0, 0⟩) 9) = 5 := by
    unfold dist sub along norm
    norm_num [h]
  rwa [e2] at h2

/-- C171, refuted.  The values do not know the two ends: for every cylinder with different ends and a radius that is
not negative, the set where the value is at most 0 has a point outside `bounds()`. -/
theorem C171_bounds_refuted (o e : P) (r : ℝ) (h : o ≠ e) (hr : 0 ≤ r) :
    ∃ b, (Cyl.init o e r).bounds = some b ∧
      ∃ p v, (Cyl.init o e r).implicit p = some v ∧ v ≤ 0 ∧ ¬ b.mem p := by
  have hd := sub_ne o e h
  refine ⟨_, aabb_eq o e r hd, ?_⟩
  have hval : ∀ t, (Cyl.init o e r).implicit (along o (sub e o) t) = some (0 - r) := by
    intro t
    have e0 : sub (along o (sub e o) t) (along o (sub e o) t) = ⟨0, 0, 0⟩ := by
      unfold sub
      simp
    have := cyl_implicit_foot (Cyl.init o e r) (along o (sub e o) t) hd t (by
      show dot (sub (along o (sub e o) t) (along o (sub e o) t)) _ = 0
      rw [e0]
      unfold dot
      ring)
    rw [this]
    congr 1
    show norm (sub (along o (sub e o) t) (along o (sub e o) t)) - r = _
    rw [e0, (norm_zero_iff _).mpr rfl]
  by_contra hc
  push Not at hc
  have hall : ∀ t, Box.mem _ (along o (sub e o) t) := fun t => hc _ _ (hval t) (by linarith)
  refine hd ?_
  have key : ∀ (a d lo hi : ℝ), (∀ t : ℝ, lo ≤ a + t * d ∧ a + t * d ≤ hi) → d = 0 := by
    intro a d lo hi hb
    by_contra hne
    have h1 := (hb ((hi - a + 1) / d)).2
    rw [div_mul_cancel₀ _ hne] at h1
    linarith
  ext
  · exact key o.x _ _ _ (fun t => (hall t).1)
  · exact key o.y _ _ _ (fun t => (hall t).2.1)
  · exact key o.z _ _ _ (fun t => (hall t).2.2)

/-- C171, what holds: after any assignments, `bounds()` is the smallest box that holds the part of the solid between
the planes across the axis at its two ends, and already the smallest box for that part of the surface. -/
theorem C171_bounds_partial (start stop : P) (radius : ℝ) (ops : List Cyl.Op) (o e : P) (r : ℝ)
    (hl : lastOf (start, stop, radius) ops = (o, e, r)) (h : o ≠ e) (hr : 0 ≤ r) :
    let c := (Cyl.init start stop radius).run ops
    ∃ b, c.bounds = some b ∧ Smallest b (fun p => Between o e p ∧ ∃ v, c.implicit p = some v ∧ v ≤ 0) ∧
      Smallest b (fun p => Between o e p ∧ c.implicit p = some 0) := by
  intro c
  have hc : c = Cyl.init o e r := by
    show (Cyl.init start stop radius).run ops = _
    rw [cyl_run, hl]
  have hd := sub_ne o e h
  rw [hc]
  have hv : ∀ p, (Cyl.init o e r).implicit p = some (dist p (along o (sub e o) (footAt o (sub e o) p)) - r) :=
    fun p => cyl_implicit (Cyl.init o e r) p hd
  obtain ⟨b, hb, h1⟩ := aabb_smallest o e r hr hd
    (fun p => Between o e p ∧ ∃ v, (Cyl.init o e r).implicit p = some v ∧ v ≤ 0)
    (fun p hp => by
      obtain ⟨hp1, v, hp2, hp3⟩ := hp
      rw [hv] at hp2
      have := Option.some.inj hp2
      exact ⟨hp1, by linarith⟩)
    (fun p hp1 hp2 => ⟨hp1, _, hv p, by linarith⟩)
  obtain ⟨b', hb', h2⟩ := aabb_smallest o e r hr hd
    (fun p => Between o e p ∧ (Cyl.init o e r).implicit p = some 0)
    (fun p hp => by
      obtain ⟨hp1, hp2⟩ := hp
      rw [hv] at hp2
      have := Option.some.inj hp2
      exact ⟨hp1, by linarith⟩)
    (fun p hp1 hp2 => ⟨hp1, by rw [hv, hp2, sub_self]⟩)
  rw [hb] at hb'
  rw [← Option.some.inj hb'] at h2
  exact ⟨b, hb, h1, h2⟩

/-- A slanted cylinder, the end of which is moved after construction. -/
example : lastOf (⟨0, 0, 0⟩, ⟨0, 0, 1⟩, 2) [.stop ⟨1, 2, 3⟩, .radius 5] = (⟨0, 0, 0⟩, ⟨1, 2, 3⟩, 5) ∧
    (⟨0, 0, 0⟩ : P) ≠ ⟨1, 2, 3⟩ := by
  refine ⟨rfl, ?_⟩
  simp

/-- C172.  After any assignments, the value of the tube at a point is how far the distance to the axis is from the
radius, less half the thickness. -/
theorem C172_distance (start stop : P) (radius th : ℝ) (ops : List Cyl.Op) (o e : P) (r : ℝ)
    (hl : lastOf (start, stop, radius) ops = (o, e, r)) (p : P) :
    (o ≠ e → ∃ D, LineDist o e p D ∧
      ((Tube.init start stop radius th).run ops).implicit p = some (|D - r| - th / 2)) ∧
    (o = e → ((Tube.init start stop radius th).run ops).implicit p = none) := by
  rw [tube_run, hl]
  dsimp only
  constructor
  · intro h
    exact ⟨_, lineDist_foot o e p h, tube_implicit o (sub e o) p r th (sub_ne o e h)⟩
  · rintro rfl
    unfold Tube.implicit tubeImplicit Tube.init Tube.calcBounds Tube.calcDirection
    dsimp only
    rw [if_pos (by ring)]

/-- C172.  The wall between the two end planes has `bounds()` as its smallest box, and so have the points of the
outer face. -/
theorem C172_bounds_partial (start stop : P) (radius th : ℝ) (ops : List Cyl.Op) (o e : P) (r : ℝ)
    (hl : lastOf (start, stop, radius) ops = (o, e, r)) (h : o ≠ e) (hr : 0 ≤ r) (ht : 0 ≤ th) :
    let c := (Tube.init start stop radius th).run ops
    ∃ b, c.bounds = some b ∧ Smallest b (fun p => Between o e p ∧ ∃ v, c.implicit p = some v ∧ v ≤ 0) ∧
      Smallest b (fun p => Between o e p ∧ c.implicit p = some 0) := by
  intro c
  have hc : c = Tube.init o e r th := by
    show (Tube.init start stop radius th).run ops = _
    rw [tube_run, hl]
  have hd := sub_ne o e h
  rw [hc]
  have hv : ∀ p, (Tube.init o e r th).implicit p
      = some (|dist p (along o (sub e o) (footAt o (sub e o) p)) - r| - th / 2) :=
    fun p => tube_implicit o (sub e o) p r th hd
  have hR : 0 ≤ r + th / 2 := by linarith
  obtain ⟨b, hb, h1⟩ := aabb_smallest o e (r + th / 2) hR hd
    (fun p => Between o e p ∧ ∃ v, (Tube.init o e r th).implicit p = some v ∧ v ≤ 0)
    (fun p hp => by
      obtain ⟨hp1, v, hp2, hp3⟩ := hp
      rw [hv] at hp2
      have := Option.some.inj hp2
      refine ⟨hp1, ?_⟩
      have := le_abs_self (dist p (along o (sub e o) (footAt o (sub e o) p)) - r)
      linarith)
    (fun p hp1 hp2 => ⟨hp1, _, hv p, by
      rw [hp2, show r + th / 2 - r = th / 2 by ring, abs_of_nonneg (by linarith)]
      linarith⟩)
  obtain ⟨b', hb', h2⟩ := aabb_smallest o e (r + th / 2) hR hd
    (fun p => Between o e p ∧ (Tube.init o e r th).implicit p = some 0)
    (fun p hp => by
      obtain ⟨hp1, hp2⟩ := hp
      rw [hv] at hp2
      have := Option.some.inj hp2
      refine ⟨hp1, ?_⟩
      have := le_abs_self (dist p (along o (sub e o) (footAt o (sub e o) p)) - r)
      linarith)
    (fun p hp1 hp2 => ⟨hp1, by
      rw [hv, hp2, show r + th / 2 - r = th / 2 by ring, abs_of_nonneg (by linarith), sub_self]⟩)
  rw [hb] at hb'
  rw [← Option.some.inj hb'] at h2
  exact ⟨b, hb, h1, h2⟩

/-- C172, refuted as for the cylinder: the wall goes on beyond both ends. -/
theorem C172_bounds_refuted (o e : P) (r th : ℝ) (h : o ≠ e) (hr : 0 ≤ r) (ht : 0 ≤ th) :
    ∃ b, (Tube.init o e r th).bounds = some b ∧
      ∃ p v, (Tube.init o e r th).implicit p = some v ∧ v ≤ 0 ∧ ¬ b.mem p := by
  have hd := sub_ne o e h
  refine ⟨_, aabb_eq o e (r + th / 2) hd, ?_⟩
  obtain ⟨w, hw, hw1⟩ := exists_perp _ hd
  have hval : ∀ t, (Tube.init o e r th).implicit (along (along o (sub e o) t) w r) = some (0 - th / 2) := by
    intro t
    have e1 : sub (along (along o (sub e o) t) w r) (along o (sub e o) t) = smul r w := by
      unfold sub along smul
      ext <;> dsimp only <;> ring
    have hf : footAt o (sub e o) (along (along o (sub e o) t) w r) = t := by
      refine foot_unique _ _ _ hd t ?_
      rw [e1]
      have : dot (smul r w) (sub e o) = r * dot w (sub e o) := by
        unfold dot smul
        ring
      rw [this, hw, mul_zero]
    have := tube_implicit o (sub e o) (along (along o (sub e o) t) w r) r th hd
    rw [hf] at this
    show tubeImplicit o (sub e o) r th _ = _
    rw [this]
    congr 1
    have h3 : dist (along (along o (sub e o) t) w r) (along o (sub e o) t) = r := by
      show norm _ = r
      rw [e1, norm_smul, hw1, mul_one, abs_of_nonneg hr]
    rw [h3, sub_self, abs_zero]
  by_contra hc
  push Not at hc
  have hall : ∀ t, Box.mem _ (along (along o (sub e o) t) w r) := fun t => hc _ _ (hval t) (by linarith)
  refine hd ?_
  have key : ∀ (a d u lo hi : ℝ), (∀ t : ℝ, lo ≤ a + t * d + u ∧ a + t * d + u ≤ hi) → d = 0 := by
    intro a d u lo hi hb
    by_contra hne
    have h1 := (hb ((hi - a - u + 1) / d)).2
    rw [div_mul_cancel₀ _ hne] at h1
    linarith
  ext
  · exact key o.x _ _ _ _ (fun t => (hall t).1)
  · exact key o.y _ _ _ _ (fun t => (hall t).2.1)
  · exact key o.z _ _ _ _ (fun t => (hall t).2.2)

/-- The squared distance to the axis, with `k` for the inverse of the squared length of the direction. -/
def rootArg (o d : P) (k : ℝ) (p : P) : ℝ :=
  (p.x - o.x - k * (d.x * (p.x - o.x) + d.y * (p.y - o.y) + d.z * (p.z - o.z)) * d.x) ^ 2 +
  (p.y - o.y - k * (d.x * (p.x - o.x) + d.y * (p.y - o.y) + d.z * (p.z - o.z)) * d.y) ^ 2 +
  (p.z - o.z - k * (d.x * (p.x - o.x) + d.y * (p.y - o.y) + d.z * (p.z - o.z)) * d.z) ^ 2

theorem tube_value (o d p : P) (r th : ℝ) (hd : d ≠ ⟨0, 0, 0⟩) :
    tubeImplicit o d r th p = some (|r - √(rootArg o d (1 / (d.x ^ 2 + d.y ^ 2 + d.z ^ 2)) p)| - th / 2) := by
  have ht := tube_root o d p hd
  dsimp only at ht
  rw [tube_implicit o d p r th hd, abs_sub_comm]
  unfold dist
  rw [ht]
  rfl

theorem tube_gradient (o d p : P) (r : ℝ) (hd : d ≠ ⟨0, 0, 0⟩) :
    tubeGradient o d r p =
      let k := 1 / (d.x ^ 2 + d.y ^ 2 + d.z ^ 2)
      some ⟨500 * |r - √(rootArg o d k ⟨p.x + 0.001, p.y, p.z⟩)| - 500 * |r - √(rootArg o d k ⟨p.x - 0.001, p.y, p.z⟩)|,
        500 * |r - √(rootArg o d k ⟨p.x, p.y + 0.001, p.z⟩)| - 500 * |r - √(rootArg o d k ⟨p.x, p.y - 0.001, p.z⟩)|,
        500 * |r - √(rootArg o d k ⟨p.x, p.y, p.z + 0.001⟩)| - 500 * |r - √(rootArg o d k ⟨p.x, p.y, p.z - 0.001⟩)|⟩ := by
  have hn := (dot_pos d hd).ne'
  have en : d.x ^ 2 + d.y ^ 2 + d.z ^ 2 = dot d d := by unfold dot; ring
  unfold tubeGradient
  dsimp only
  rw [if_neg (by rw [en]; exact hn)]
  generalize 1 / (d.x ^ 2 + d.y ^ 2 + d.z ^ 2) = k
  unfold rootArg
  dsimp only
  rw [neg_mul, neg_add_eq_sub]
  congr 2
  · congr 5 <;> ring
  · congr 5 <;> ring
  · congr 5 <;> ring

/-- C172.  The gradient of the tube is the vector of central differences of its values at distance `0.001`. -/
theorem C172_gradient (o e : P) (r th : ℝ) (h : o ≠ e) (p : P) :
    ∃ g x1 x0 y1 y0 z1 z0, (Tube.init o e r th).gradient p = some g ∧
      (Tube.init o e r th).implicit ⟨p.x + 0.001, p.y, p.z⟩ = some x1 ∧
      (Tube.init o e r th).implicit ⟨p.x - 0.001, p.y, p.z⟩ = some x0 ∧
      (Tube.init o e r th).implicit ⟨p.x, p.y + 0.001, p.z⟩ = some y1 ∧
      (Tube.init o e r th).implicit ⟨p.x, p.y - 0.001, p.z⟩ = some y0 ∧
      (Tube.init o e r th).implicit ⟨p.x, p.y, p.z + 0.001⟩ = some z1 ∧
      (Tube.init o e r th).implicit ⟨p.x, p.y, p.z - 0.001⟩ = some z0 ∧
      g.x = (x1 - x0) / (2 * 0.001) ∧ g.y = (y1 - y0) / (2 * 0.001) ∧ g.z = (z1 - z0) / (2 * 0.001) := by
  have hd := sub_ne o e h
  refine ⟨_, _, _, _, _, _, _, tube_gradient o (sub e o) p r hd, tube_value o (sub e o) _ r th hd,
    tube_value o (sub e o) _ r th hd, tube_value o (sub e o) _ r th hd, tube_value o (sub e o) _ r th hd,
    tube_value o (sub e o) _ r th hd, tube_value o (sub e o) _ r th hd, ?_, ?_, ?_⟩ <;>
  · dsimp only
    rw [eq_div_iff (by norm_num)]
    ring

/-- C172, refuted: unlike that of the sphere and of the cylinder, it is not of length 1.  For every tube along the third
axis it is zero at the point of the first axis in the middle of the wall. -/
theorem C172_unit_refuted (L r th : ℝ) (hL : L ≠ 0) (hr : 0.001 ≤ r) :
    (Tube.init ⟨0, 0, 0⟩ ⟨0, 0, L⟩ r th).gradient ⟨r, 0, 0⟩ = some ⟨0, 0, 0⟩ ∧
    (Tube.init ⟨0, 0, 0⟩ ⟨0, 0, L⟩ r th).implicit ⟨r, 0, 0⟩ = some (-th / 2) := by
  have hd : sub ⟨0, 0, L⟩ ⟨0, 0, 0⟩ ≠ ⟨0, 0, 0⟩ := sub_ne _ _ (by simp [Ne.symm hL])
  have hr0 : 0 ≤ r := le_trans (by norm_num) hr
  have key : ∀ x y z : ℝ, rootArg ⟨0, 0, 0⟩ (sub ⟨0, 0, L⟩ ⟨0, 0, 0⟩) (1 / ((sub ⟨0, 0, L⟩ ⟨0, 0, 0⟩).x ^ 2 +
      (sub ⟨0, 0, L⟩ ⟨0, 0, 0⟩).y ^ 2 + (sub ⟨0, 0, L⟩ ⟨0, 0, 0⟩).z ^ 2)) ⟨x, y, z⟩ = x ^ 2 + y ^ 2 := by
    intro x y z
    unfold rootArg sub
    dsimp only
    field_simp
    ring
  constructor
  · have := tube_gradient ⟨0, 0, 0⟩ (sub ⟨0, 0, L⟩ ⟨0, 0, 0⟩) ⟨r, 0, 0⟩ r hd
    show tubeGradient ⟨0, 0, 0⟩ (sub ⟨0, 0, L⟩ ⟨0, 0, 0⟩) r ⟨r, 0, 0⟩ = _
    rw [this]
    dsimp only
    rw [key, key, key, key, key, key]
    have s1 : √((r + 0.001) ^ 2 + 0 ^ 2) = r + 0.001 := by
      rw [show ((r + 0.001) ^ 2 + 0 ^ 2 : ℝ) = (r + 0.001) ^ 2 by ring]
      exact Real.sqrt_sq (by linarith [show (0 : ℝ) ≤ 0.001 by norm_num])
    have s2 : √((r - 0.001) ^ 2 + 0 ^ 2) = r - 0.001 := by
      rw [show ((r - 0.001) ^ 2 + 0 ^ 2 : ℝ) = (r - 0.001) ^ 2 by ring]
      exact Real.sqrt_sq (by linarith)
    rw [s1, s2]
    congr 1
    ext <;> dsimp only
    · rw [show r - (r + 0.001) = -0.001 by ring, show r - (r - 0.001) = 0.001 by ring, abs_neg, sub_self]
    · rw [show (0 + 0.001 : ℝ) ^ 2 = (0 - 0.001) ^ 2 by norm_num, sub_self]
    · ring
  · have := tube_value ⟨0, 0, 0⟩ (sub ⟨0, 0, L⟩ ⟨0, 0, 0⟩) ⟨r, 0, 0⟩ r th hd
    show tubeImplicit ⟨0, 0, 0⟩ (sub ⟨0, 0, L⟩ ⟨0, 0, 0⟩) r th ⟨r, 0, 0⟩ = _
    rw [this, key, show r ^ 2 + 0 ^ 2 = r ^ 2 by ring, Real.sqrt_sq hr0, sub_self, abs_zero, zero_sub, neg_div]

/-- A tube whose radius is changed: its ends stay apart. -/
example : lastOf (⟨0, 0, 0⟩, ⟨3, 0, 4⟩, 2) [.radius 1] = (⟨0, 0, 0⟩, ⟨3, 0, 4⟩, 1) ∧ (⟨0, 0, 0⟩ : P) ≠ ⟨3, 0, 4⟩ := by
  refine ⟨rfl, ?_⟩
  simp

end Verif.Prim
