import Verif.Prim.Lemmas

set_option linter.unusedSectionVars false

/-!
# Spheres
-/

namespace Verif.Prim

theorem sphere_eq (s : Sphere) (p : P) : s.implicit p = dist p s.o - s.radius := rfl

/-- C168.  The value is the distance to the sphere, negative inside: no point of the zero set is nearer than the
absolute value, one point of it is exactly that far away, and the sign tells the side. -/
theorem C168_distance (s : Sphere) (hr : 0 ≤ s.radius) (p : P) :
    (∀ q, s.implicit q = 0 → |s.implicit p| ≤ dist p q) ∧
    (∃ q, s.implicit q = 0 ∧ dist p q = |s.implicit p|) ∧
    (s.implicit p < 0 ↔ dist p s.o < s.radius) ∧ (0 < s.implicit p ↔ s.radius < dist p s.o) := by
  refine ⟨fun q hq => ?_, ?_, ?_, ?_⟩
  · rw [sphere_eq] at hq ⊢
    have h := dist_tri p q s.o
    have e : dist q s.o = s.radius := by linarith
    rwa [e] at h
  · by_cases hp : dist p s.o = 0
    · refine ⟨⟨s.o.x + s.radius, s.o.y, s.o.z⟩, ?_, ?_⟩
      · rw [sphere_eq]
        have : dist ⟨s.o.x + s.radius, s.o.y, s.o.z⟩ s.o = s.radius := by
          refine norm_eq_of_sq _ _ hr ?_
          unfold dot sub
          ring
        rw [this, sub_self]
      · rw [sphere_eq, hp, (dist_zero_iff p s.o).mp hp, zero_sub, abs_neg, abs_of_nonneg hr]
        refine norm_eq_of_sq _ _ hr ?_
        unfold dot sub
        ring
    · have hn := dist_nonneg p s.o
      have e : sub (along s.o (sub p s.o) (s.radius / dist p s.o)) s.o
          = smul (s.radius / dist p s.o) (sub p s.o) := by
        unfold sub along smul
        ext <;> dsimp only <;> ring
      have e2 : sub p (along s.o (sub p s.o) (s.radius / dist p s.o))
          = smul (1 - s.radius / dist p s.o) (sub p s.o) := by
        unfold sub along smul
        ext <;> dsimp only <;> ring
      refine ⟨along s.o (sub p s.o) (s.radius / dist p s.o), ?_, ?_⟩
      · rw [sphere_eq]
        have : dist (along s.o (sub p s.o) (s.radius / dist p s.o)) s.o = s.radius := by
          show norm _ = _
          rw [e, norm_smul, abs_of_nonneg (div_nonneg hr hn)]
          exact div_mul_cancel₀ _ hp
        rw [this, sub_self]
      · rw [sphere_eq]
        show norm _ = _
        rw [e2, norm_smul]
        show _ * dist p s.o = _
        have h1 : dist p s.o = |dist p s.o| := (abs_of_nonneg hn).symm
        conv_lhs => rw [h1]
        rw [← abs_mul]
        congr 1
        rw [← h1]
        field_simp
  · rw [sphere_eq]
    constructor <;> intro h <;> linarith
  · rw [sphere_eq]
    constructor <;> intro h <;> linarith

/-- C168.  The gradient is a unit vector, and going a length `t` along it changes the value by exactly `t`, outwards
without limit and inwards as far as the centre.  Only at the centre it is NaN. -/
theorem C168_gradient (s : Sphere) (p : P) :
    (p ≠ s.o → ∃ g, s.gradient p = some g ∧ norm g = 1 ∧
      ∀ t, -dist p s.o ≤ t → s.implicit (along p g t) = s.implicit p + t) ∧
    s.gradient s.o = none := by
  constructor
  · intro hp
    have e : s.gradient p = div (sub p s.o) (norm (sub p s.o)) := rfl
    rcases h : div (sub p s.o) (norm (sub p s.o)) with _ | g
    · rw [div_norm_none] at h
      have : dist p s.o = 0 := (norm_zero_iff _).mpr h
      exact absurd ((dist_zero_iff _ _).mp this) hp
    · obtain ⟨h0, h1, h2⟩ := div_norm _ _ h
      refine ⟨g, by rw [e, h], h1, fun t ht => ?_⟩
      rw [sphere_eq, sphere_eq]
      have e2 : sub (along p g t) s.o = smul (dist p s.o + t) g := by
        have hx : p.x - s.o.x = dist p s.o * g.x := congrArg P.x h2
        have hy : p.y - s.o.y = dist p s.o * g.y := congrArg P.y h2
        have hz : p.z - s.o.z = dist p s.o * g.z := congrArg P.z h2
        unfold sub along smul
        ext <;> dsimp only
        · linear_combination hx
        · linear_combination hy
        · linear_combination hz
      have : dist (along p g t) s.o = dist p s.o + t := by
        show norm _ = _
        rw [e2, norm_smul, h1, mul_one, abs_of_nonneg (by linarith)]
      rw [this]
      ring
  · show div (sub s.o s.o) (norm (sub s.o s.o)) = none
    rw [div_norm_none]
    unfold sub
    simp

/-- The unit sphere at `(1, 2, 3)`: the point `(1, 2, 6)` is 2 away from it. -/
example : (Sphere.init ⟨⟨0, 0, 0⟩, ⟨0, 0, 0⟩⟩ ⟨1, 2, 3⟩ 1).implicit ⟨1, 2, 6⟩ = 2 := by
  have h : √((9 : ℝ)) = 3 := by
    rw [show (9 : ℝ) = 3 ^ 2 by norm_num]
    exact Real.sqrt_sq (by norm_num)
  unfold Sphere.init Sphere.calcBounds Sphere.implicit
  norm_num [h]

/-- Membership in a box. -/
def Box.mem (b : Box) (p : P) : Prop :=
  (b.lo.x ≤ p.x ∧ p.x ≤ b.hi.x) ∧ (b.lo.y ≤ p.y ∧ p.y ≤ b.hi.y) ∧ (b.lo.z ≤ p.z ∧ p.z ≤ b.hi.z)

/-- `b` is the smallest box holding the set: it holds it, and every box that holds it holds `b`. -/
def Smallest (b : Box) (S : P → Prop) : Prop :=
  (∀ p, S p → b.mem p) ∧ ∀ c : Box, (∀ p, S p → c.mem p) →
    c.lo.x ≤ b.lo.x ∧ c.lo.y ≤ b.lo.y ∧ c.lo.z ≤ b.lo.z ∧ b.hi.x ≤ c.hi.x ∧ b.hi.y ≤ c.hi.y ∧ b.hi.z ≤ c.hi.z

theorem coord_le (a : P) : |a.x| ≤ norm a ∧ |a.y| ≤ norm a ∧ |a.z| ≤ norm a := by
  have h := norm_sq a
  unfold dot at h
  have hx := mul_self_nonneg a.x
  have hy := mul_self_nonneg a.y
  have hz := mul_self_nonneg a.z
  refine ⟨abs_le_of_sq_le_sq ?_ (norm_nonneg a), abs_le_of_sq_le_sq ?_ (norm_nonneg a),
    abs_le_of_sq_le_sq ?_ (norm_nonneg a)⟩ <;> rw [h] <;> nlinarith

theorem sphere_run (s : Sphere) (h : s = Sphere.calcBounds s) (ops : List Sphere.Op) :
    s.run ops = Sphere.calcBounds (s.run ops) := by
  induction ops generalizing s with
  | nil => exact h
  | cons a l ih =>
    unfold Sphere.run at ih ⊢
    rw [List.foldl_cons]
    refine ih _ ?_
    cases a <;> rfl

/-- The last value assigned to the radius, the last point assigned to the origin. -/
def Sphere.lastRadius (r : ℝ) : List Sphere.Op → ℝ
  | [] => r
  | .radius r' :: l => Sphere.lastRadius r' l
  | .origin _ :: l => Sphere.lastRadius r l

/-- The last point assigned to the origin. -/
def Sphere.lastOrigin (o : P) : List Sphere.Op → P
  | [] => o
  | .radius _ :: l => Sphere.lastOrigin o l
  | .origin o' :: l => Sphere.lastOrigin o' l

theorem sphere_last (s : Sphere) (ops : List Sphere.Op) :
    (s.run ops).radius = Sphere.lastRadius s.radius ops ∧ (s.run ops).o = Sphere.lastOrigin s.o ops := by
  induction ops generalizing s with
  | nil => exact ⟨rfl, rfl⟩
  | cons a l ih =>
    have h := ih (s.step a)
    unfold Sphere.run at h ⊢
    rw [List.foldl_cons]
    cases a <;> exact h

/-- C169.  After construction and any sequence of assignments to `radius` and `origin`, the ball is that of the values
assigned last, and (radius not negative) `bounds()` is the smallest box that holds it; it is already the smallest box
that holds the surface. -/
theorem C169_bounds (b0 : Box) (o : P) (r : ℝ) (ops : List Sphere.Op)
    (hr : 0 ≤ Sphere.lastRadius r ops) :
    let s := (Sphere.init b0 o r).run ops
    (∀ p, s.implicit p = dist p (Sphere.lastOrigin o ops) - Sphere.lastRadius r ops) ∧
    Smallest s.bounds (fun p => s.implicit p ≤ 0) ∧ Smallest s.bounds (fun p => s.implicit p = 0) := by
  intro s
  have hl := sphere_last (Sphere.init b0 o r) ops
  have hv : ∀ p, s.implicit p = dist p (Sphere.lastOrigin o ops) - Sphere.lastRadius r ops := by
    intro p
    rw [sphere_eq]
    show dist p ((Sphere.init b0 o r).run ops).o - ((Sphere.init b0 o r).run ops).radius = _
    rw [hl.1, hl.2]
    rfl
  have hb : s.bounds = (Sphere.calcBounds s).bounds := congrArg Sphere.bounds (sphere_run _ rfl ops)
  have hrad : 0 ≤ s.radius := by
    show 0 ≤ ((Sphere.init b0 o r).run ops).radius
    rw [hl.1]
    exact hr
  have hin : ∀ p, s.implicit p ≤ 0 → s.bounds.mem p := by
    intro p hp
    rw [sphere_eq] at hp
    obtain ⟨hx, hy, hz⟩ := coord_le (sub p s.o)
    have hx := abs_le.mp (hx.trans (show _ ≤ s.radius from (show dist p s.o ≤ s.radius by linarith)))
    have hy := abs_le.mp (hy.trans (show _ ≤ s.radius from (show dist p s.o ≤ s.radius by linarith)))
    have hz := abs_le.mp (hz.trans (show _ ≤ s.radius from (show dist p s.o ≤ s.radius by linarith)))
    unfold sub at hx hy hz
    dsimp only at hx hy hz
    rw [hb]
    unfold Sphere.calcBounds Box.mem
    dsimp only
    refine ⟨⟨?_, ?_⟩, ⟨?_, ?_⟩, ⟨?_, ?_⟩⟩ <;> linarith
  have hpt : ∀ v : P, dot v v = s.radius ^ 2 → s.implicit ⟨s.o.x + v.x, s.o.y + v.y, s.o.z + v.z⟩ = 0 := by
    intro v hv
    rw [sphere_eq]
    have : dist ⟨s.o.x + v.x, s.o.y + v.y, s.o.z + v.z⟩ s.o = s.radius := by
      refine norm_eq_of_sq _ _ hrad ?_
      rw [← hv]
      unfold dot sub
      ring
    rw [this, sub_self]
  have hout : ∀ c : Box, (∀ p, s.implicit p = 0 → c.mem p) →
      c.lo.x ≤ s.bounds.lo.x ∧ c.lo.y ≤ s.bounds.lo.y ∧ c.lo.z ≤ s.bounds.lo.z ∧
        s.bounds.hi.x ≤ c.hi.x ∧ s.bounds.hi.y ≤ c.hi.y ∧ s.bounds.hi.z ≤ c.hi.z := by
    intro c hc
    have h1 := hc _ (hpt ⟨s.radius, 0, 0⟩ (by unfold dot; ring))
    have h2 := hc _ (hpt ⟨-s.radius, 0, 0⟩ (by unfold dot; ring))
    have h3 := hc _ (hpt ⟨0, s.radius, 0⟩ (by unfold dot; ring))
    have h4 := hc _ (hpt ⟨0, -s.radius, 0⟩ (by unfold dot; ring))
    have h5 := hc _ (hpt ⟨0, 0, s.radius⟩ (by unfold dot; ring))
    have h6 := hc _ (hpt ⟨0, 0, -s.radius⟩ (by unfold dot; ring))
    unfold Box.mem at h1 h2 h3 h4 h5 h6
    dsimp only at h1 h2 h3 h4 h5 h6
    rw [hb]
    unfold Sphere.calcBounds
    dsimp only
    refine ⟨?_, ?_, ?_, ?_, ?_, ?_⟩
    · linarith [h2.1.1]
    · linarith [h4.2.1.1]
    · linarith [h6.2.2.1]
    · linarith [h1.1.2]
    · linarith [h3.2.1.2]
    · linarith [h5.2.2.2]
  exact ⟨hv, ⟨hin, fun c hc => hout c (fun p hp => hc p hp.le)⟩, ⟨fun p hp => hin p hp.le, hout⟩⟩

/-- A sphere that is moved and then made larger. -/
example : 0 ≤ Sphere.lastRadius 1 [.origin ⟨1, 2, 3⟩, .radius 4, .origin ⟨0, 0, 7⟩] := by
  norm_num [Sphere.lastRadius]

end Verif.Prim
