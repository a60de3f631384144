import Verif.Apc.Props
import Mathlib.Algebra.BigOperators.Group.List.Basic

/-! # Properties of offsets, lines, vector helpers and evaluators of the API -/

set_option linter.unusedSectionVars false

namespace Verif.Apc

open Verif.Vec (V3)
open Verif.Vec.V3

variable {K : Type} [Field K] [LinearOrder K] [IsStrictOrderedRing K]

/-! ## C307: offsets of offsets -/

/-- Offsetting again and again by distances `ds` is one offset of the first curve by the sum of the distances. -/
theorem C307_nested (nrm : Cv K → K → V3 K) (p n : K → V3 K) (d : K) (ds : List K) (t : K) :
    (ds.foldl mkOffset (mkOffset (.base p n) d)).eval nrm t = add (p t) (smul (d + ds.sum) (n t)) := by
  have key : ∀ (ds : List K) (d : K), ds.foldl mkOffset (mkOffset (.base p n) d) = .offset (.base p n) (d + ds.sum) := by
    intro ds
    induction ds with
    | nil => intro d; simp [mkOffset]
    | cons a ds ih =>
      intro d
      have : List.foldl mkOffset (mkOffset (.base p n) d) (a :: ds) = List.foldl mkOffset (mkOffset (.base p n) (d + a)) ds := rfl
      rw [this, ih (d + a), List.sum_cons, add_assoc]
  rw [key]
  rfl

/-- The distance from the point of the first curve is the sum of the distances. -/
theorem C307_distance (nrm : Cv K → K → V3 K) (p n : K → V3 K) (hn : ∀ t, dot (n t) (n t) = 1) (d : K) (ds : List K) (t : K) :
    let e := sub ((ds.foldl mkOffset (mkOffset (.base p n) d)).eval nrm t) (p t)
    dot e e = (d + ds.sum) ^ 2 ∧ (dot e (n t) = d + ds.sum) := by
  intro e
  have he : e = smul (d + ds.sum) (n t) := by
    show sub _ _ = _
    rw [C307_nested]
    ext <;> simp [sub, add, smul]
  rw [he]
  have := hn t
  unfold dot at *
  simp only [smul]
  constructor
  · linear_combination (d + ds.sum) ^ 2 * this
  · linear_combination (d + ds.sum) * this

example : ([(2 : ℚ), -1].foldl mkOffset (mkOffset (.base (fun t => ⟨t, 0, 0⟩) (fun _ => ⟨0, 1, 0⟩)) 3)).eval (fun _ _ => zero) 7 = ⟨7, 4, 0⟩ := by
  decide +kernel

/-! ## C308: lines -/

theorem mem_abstracts (n : String) (pre rest : List Cls) (h : n ∈ abstracts rest) (hp : ∀ c ∈ pre, n ∉ c.defs) :
    n ∈ abstracts (pre ++ rest) := by
  induction pre with
  | nil => exact h
  | cons c pre ih =>
    have hc : n ∉ c.defs := hp c List.mem_cons_self
    have hi := ih (fun d hd => hp d (List.mem_cons_of_mem _ hd))
    rw [List.cons_append, abstracts, List.mem_append]
    by_cases ha : n ∈ c.abs
    · exact Or.inl ha
    · refine Or.inr (List.mem_filter.2 ⟨hi, ?_⟩)
      simp [List.contains_iff_mem, hc, ha]

/-- No line can be created: neither the classes of the library nor any subclass that does not define `evaluate` itself. -/
theorem C308_create_refuted (pre : List Cls) (hp : ∀ c ∈ pre, "evaluate" ∉ c.defs) :
    instantiate (pre ++ [line3D, baseLine3D, curve3D, baseCurve]) = none ∧
      instantiate (pre ++ [infiniteLine3D, baseLine3D, curve3D, baseCurve]) = none ∧
      instantiate (pre ++ [line2D, curve2D, baseCurve]) = none := by
  have key : ∀ rest, "evaluate" ∈ abstracts rest → instantiate (pre ++ rest) = none := by
    intro rest h
    have := mem_abstracts "evaluate" pre rest h hp
    unfold instantiate
    rw [if_neg]
    intro he
    rw [List.isEmpty_iff] at he
    rw [he] at this
    exact absurd this (by simp)
  exact ⟨key _ (by decide), key _ (by decide), key _ (by decide)⟩

/-- A class that defines all abstract methods can be created, as `Circle3D`. -/
theorem C308_circle_partial : instantiate [circle3D, curve3D, baseCurve] = some () := by decide

/-- The point of a line at a parameter. -/
def onLine (a b : V3 K) (t : K) : V3 K := add a (smul t (sub b a))

/-- The two parameters belong to points of the lines that agree in their first two coordinates; the third ones agree exactly
when the third result is the height of the start of the first line.  The first parameter is that of the second line. -/
theorem C308_tsz_partial {p1 p2 p3 p4 : V3 K} {t s z : K} (h : tsz p1 p2 p3 p4 = some (t, s, z)) :
    (onLine p1 p2 s).x = (onLine p3 p4 t).x ∧ (onLine p1 p2 s).y = (onLine p3 p4 t).y ∧
      ((onLine p1 p2 s).z = (onLine p3 p4 t).z ↔ z = p1.z) := by
  unfold tsz at h
  simp only at h
  split_ifs at h with hc
  rw [not_or] at hc
  obtain ⟨h1, h2⟩ := hc
  simp only [Option.some.injEq, Prod.mk.injEq] at h
  obtain ⟨ht, hs, hz⟩ := h
  set c1 := p1.x * p3.y - p1.x * p4.y - p2.x * p3.y + p2.x * p4.y - p3.x * p1.y + p3.x * p2.y + p4.x * p1.y - p4.x * p2.y with e1
  set c2 := p2.x * p3.y - p2.x * p4.y - p3.x * p2.y + p3.x * p4.y + p4.x * p2.y - p4.x * p3.y with e2
  clear_value c1 c2
  simp only [onLine, add, smul, sub]
  refine ⟨?_, ?_, ?_⟩
  · have ht' := (div_eq_iff h1).1 ht
    have hs' := (div_eq_iff h1).1 hs
    apply mul_left_cancel₀ h1
    linear_combination (p1.x - p3.x) * e1 - (p2.x - p1.x) * hs' + (p4.x - p3.x) * ht'
  · have ht' := (div_eq_iff h1).1 ht
    have hs' := (div_eq_iff h1).1 hs
    apply mul_left_cancel₀ h1
    linear_combination (p1.y - p3.y) * e1 - (p2.y - p1.y) * hs' + (p4.y - p3.y) * ht'
  · have ht' := (div_eq_iff h1).1 ht
    have hs' := (div_eq_iff h1).1 hs
    have hz' := (div_eq_iff h2).1 hz
    have hkey : c1 * ((p1.z + s * (p2.z - p1.z)) - (p3.z + t * (p4.z - p3.z))) = (p1.z - z) * c2 ∨
        c1 * ((p1.z + s * (p2.z - p1.z)) - (p3.z + t * (p4.z - p3.z))) = (z - p1.z) * c2 := by
      right
      linear_combination (p1.z - p3.z) * e1 - (p2.z - p1.z) * hs' + (p4.z - p3.z) * ht' + hz' + p1.z * e2
    constructor
    · intro he
      have : (z - p1.z) * c2 = 0 := by
        rcases hkey with hk | hk
        · rw [he, sub_self, mul_zero] at hk; linear_combination hk
        · rw [he, sub_self, mul_zero] at hk; exact hk.symm
      rcases mul_eq_zero.1 this with h | h
      · linear_combination h
      · exact absurd h h2
    · intro hz0
      have : c1 * ((p1.z + s * (p2.z - p1.z)) - (p3.z + t * (p4.z - p3.z))) = 0 := by
        rcases hkey with hk | hk <;> rw [hk, hz0] <;> ring
      rcases mul_eq_zero.1 this with h | h
      · exact absurd h h1
      · linear_combination h

/-- The third result, which callers compare with zero, is not zero for lines that meet unless the first line starts at the height zero. -/
theorem C308_height_refuted {p1 p2 p3 p4 : V3 K} {t s z : K} (h : tsz p1 p2 p3 p4 = some (t, s, z))
    (hm : onLine p1 p2 s = onLine p3 p4 t) : z = p1.z :=
  (C308_tsz_partial h).2.2.1 (congrArg V3.z hm)

/-- The results are in the other order than the lines: whenever the two parameters differ, the points of the lines at the parameters in the
order of the lines are different. -/
theorem C308_order_refuted {p1 p2 p3 p4 : V3 K} {t s z : K} (h : tsz p1 p2 p3 p4 = some (t, s, z)) (hts : t ≠ s) :
    onLine p1 p2 t ≠ onLine p3 p4 s := by
  intro he
  obtain ⟨hx, hy, _⟩ := C308_tsz_partial h
  have gx := congrArg V3.x he
  have gy := congrArg V3.y he
  unfold tsz at h
  simp only at h
  split_ifs at h with hc
  rw [not_or] at hc
  apply hc.1
  simp only [onLine, add, smul, sub] at hx hy gx gy
  have ax : (s - t) * ((p2.x - p1.x) + (p4.x - p3.x)) = 0 := by linear_combination hx - gx
  have ay : (s - t) * ((p2.y - p1.y) + (p4.y - p3.y)) = 0 := by linear_combination hy - gy
  have hst : s - t ≠ 0 := sub_ne_zero.2 (Ne.symm hts)
  have bx := (mul_eq_zero.1 ax).resolve_left hst
  have by' := (mul_eq_zero.1 ay).resolve_left hst
  linear_combination (p2.x - p1.x) * by' - (p2.y - p1.y) * bx

/-- Lines that meet in the end of the first one have no result. -/
theorem C308_touch_refuted (p1 p3 p4 : V3 K) (k : K) : tsz p1 (onLine p3 p4 k) p3 p4 = none := by
  unfold tsz
  simp only
  rw [if_pos (Or.inr ?_)]
  simp only [onLine, add, smul, sub]
  ring

example : tsz (⟨0, 0, 0⟩ : V3 ℚ) ⟨4, 4, 4⟩ ⟨0, 2, 1⟩ ⟨3, -1, 1⟩ = some (1/3, 1/4, 0) := by decide +kernel
example : tsz (⟨0, 0, 7⟩ : V3 ℚ) ⟨4, 4, 7⟩ ⟨0, 2, 7⟩ ⟨3, -1, 7⟩ = some (1/3, 1/4, 7) := by decide +kernel
example : tsz (⟨0, 0, 0⟩ : V3 ℚ) ⟨1, 1, 0⟩ ⟨0, 2, 0⟩ ⟨3, -1, 0⟩ = none := by decide +kernel

/-! ## C309: `orthonormalize` -/

/-- A norm: not negative, its square the scalar product. -/
structure IsNorm (nrm : V3 K → K) : Prop where
  nonneg : ∀ v, 0 ≤ nrm v
  sq : ∀ v, nrm v * nrm v = dot v v

theorem dot_unit {nrm : V3 K → K} (hn : IsNorm nrm) {v : V3 K} (h : nrm v ≠ 0) : dot (smul (1 / nrm v) v) (smul (1 / nrm v) v) = 1 := by
  have := hn.sq v
  unfold dot at *
  simp only [smul]
  field_simp
  linear_combination -this

/-- A result is an orthonormal frame; its first vector has the direction of the first argument, the others lie on the sides of the
second and third arguments. -/
theorem C309_frame {nrm : V3 K → K} (hn : IsNorm nrm) {eps : K} (he : 0 ≤ eps) (u v w : V3 K) {a b c : V3 K}
    (h : (orthonormalize nrm eps u v w).ret = some (a, b, c)) :
    dot a a = 1 ∧ dot b b = 1 ∧ dot c c = 1 ∧ dot a b = 0 ∧ dot a c = 0 ∧ dot b c = 0 ∧
      u = smul (nrm u) a ∧ 0 < dot b v ∧ 0 < dot c w ∧ ∃ k l, v = add (smul k a) (smul l b) ∧ 0 < l := by
  unfold orthonormalize at h
  by_cases hu : nrm u = 0
  · simp [hu] at h
  rw [if_neg hu] at h
  simp only at h
  set a' := smul (1 / nrm u) u with ha
  set v' := sub v (smul (dot a' v) a') with hv
  by_cases h1 : eps < nrm v'
  swap
  · rw [if_neg h1] at h; simp at h
  rw [if_pos h1] at h
  set b' := smul (1 / nrm v') v' with hb
  set w1 := sub w (smul (dot a' w) a') with hw1
  set w' := sub w1 (smul (dot b' w1) b') with hw
  by_cases h2 : eps < nrm w'
  swap
  · rw [if_neg h2] at h; simp at h
  rw [if_pos h2] at h
  simp only [Option.some.injEq, Prod.mk.injEq] at h
  obtain ⟨rfl, rfl, rfl⟩ := h
  have nv : nrm v' ≠ 0 := ne_of_gt (lt_of_le_of_lt he h1)
  have nw : nrm w' ≠ 0 := ne_of_gt (lt_of_le_of_lt he h2)
  have haa : dot a' a' = 1 := dot_unit hn hu
  have hbb : dot b' b' = 1 := dot_unit hn nv
  have hav : dot a' v' = 0 := by
    rw [hv]; unfold dot at *; simp only [sub, smul]
    linear_combination -(a'.x * v.x + a'.y * v.y + a'.z * v.z) * haa
  have hab : dot a' b' = 0 := by
    rw [hb]; unfold dot at *; simp only [smul]
    linear_combination (1 / nrm v') * hav
  have haw1 : dot a' w1 = 0 := by
    rw [hw1]; unfold dot at *; simp only [sub, smul]
    linear_combination -(a'.x * w.x + a'.y * w.y + a'.z * w.z) * haa
  have haw : dot a' w' = 0 := by
    rw [hw]; unfold dot at *; simp only [sub, smul]
    linear_combination haw1 - (b'.x * w1.x + b'.y * w1.y + b'.z * w1.z) * hab
  have hbw : dot b' w' = 0 := by
    rw [hw]; unfold dot at *; simp only [sub, smul]
    linear_combination -(b'.x * w1.x + b'.y * w1.y + b'.z * w1.z) * hbb
  have hwpos : 0 < nrm w' := lt_of_le_of_lt he h2
  have hvpos : 0 < nrm v' := lt_of_le_of_lt he h1
  have eu : u = smul (nrm u) a' := by
    rw [ha]; ext <;> simp only [smul] <;> field_simp
  have ev : v = add (smul (dot a' v) a') (smul (nrm v') b') := by
    rw [hb]
    have e : smul (nrm v') (smul (1 / nrm v') v') = v' := by ext <;> simp only [smul] <;> field_simp
    rw [e, hv]; ext <;> simp only [add, sub, smul] <;> ring
  have ebv : dot b' v = nrm v' := by
    rw [ev]
    have e : dot b' (add (smul (dot a' v) a') (smul (nrm v') b')) = dot a' v * dot a' b' + nrm v' * dot b' b' := by
      unfold dot; simp only [add, smul]; ring
    rw [e, hab, hbb]; ring
  have ecw : dot (smul (1 / nrm w') w') w = nrm w' := by
    have ew : w = add (add w' (smul (dot b' w1) b')) (smul (dot a' w) a') := by
      rw [hw]
      ext
      · simp only [add, sub, smul, hw1]; ring
      · simp only [add, sub, smul, hw1]; ring
      · simp only [add, sub, smul, hw1]; ring
    have e : dot (smul (1 / nrm w') w') w = (1 / nrm w') * (dot w' w' + dot b' w1 * dot b' w' + dot a' w * dot a' w') := by
      have : dot (smul (1 / nrm w') w') w = (1 / nrm w') * dot w' (add (add w' (smul (dot b' w1) b')) (smul (dot a' w) a')) := by
        rw [← ew]; unfold dot; simp only [smul]; ring
      rw [this]
      congr 1
      generalize dot b' w1 = k1
      generalize dot a' w = k2
      unfold dot; simp only [add, smul]; ring
    rw [e, hbw, haw, ← hn.sq w']
    field_simp
    ring
  refine ⟨haa, hbb, dot_unit hn nw, hab, ?_, ?_, eu, by rw [ebv]; exact hvpos, by rw [ecw]; exact hwpos, _, _, ev, hvpos⟩
  · have : dot a' (smul (1 / nrm w') w') = (1 / nrm w') * dot a' w' := by unfold dot; simp only [smul]; ring
    rw [this, haw, mul_zero]
  · have : dot b' (smul (1 / nrm w') w') = (1 / nrm w') * dot b' w' := by unfold dot; simp only [smul]; ring
    rw [this, hbw, mul_zero]

/-- The arrays of the second and the third argument are overwritten with the result. -/
theorem C309_arguments_refuted (nrm : V3 K → K) (eps : K) (u v w : V3 K) {a b c : V3 K}
    (h : (orthonormalize nrm eps u v w).ret = some (a, b, c)) :
    (orthonormalize nrm eps u v w).v = b ∧ (orthonormalize nrm eps u v w).w = c := by
  unfold orthonormalize at h ⊢
  by_cases hu : nrm u = 0
  · simp [hu] at h
  rw [if_neg hu] at h ⊢
  simp only at h ⊢
  split_ifs at h ⊢
  simp only [Option.some.injEq, Prod.mk.injEq] at h
  exact ⟨h.2.1, h.2.2⟩

/-- When an error is raised for three vectors in a plane, the second array has been changed to the unit vector all the same. -/
theorem C309_error_refuted {nrm : V3 K → K} {eps : K} (u v w : V3 K) (hu : nrm u ≠ 0)
    (hv : eps < nrm (sub v (smul (dot (smul (1 / nrm u) u) v) (smul (1 / nrm u) u)))) (h : (orthonormalize nrm eps u v w).ret = none) :
    (orthonormalize nrm eps u v w).v = smul (1 / nrm (sub v (smul (dot (smul (1 / nrm u) u) v) (smul (1 / nrm u) u))))
      (sub v (smul (dot (smul (1 / nrm u) u) v) (smul (1 / nrm u) u))) := by
  unfold orthonormalize at h ⊢
  rw [if_neg hu] at h ⊢
  simp only at h ⊢
  rw [if_pos hv] at h ⊢
  split_ifs at h ⊢
  rfl

/-- A norm of vectors along the axes, enough for the example. -/
def axisNorm (v : V3 ℚ) : ℚ := |v.x| + |v.y| + |v.z|

example : (orthonormalize axisNorm (1/10000000000) ⟨2, 0, 0⟩ ⟨5, 3, 0⟩ ⟨1, 1, -4⟩).ret = some (⟨1, 0, 0⟩, ⟨0, 1, 0⟩, ⟨0, 0, -1⟩) ∧
    (orthonormalize axisNorm (1/10000000000) ⟨2, 0, 0⟩ ⟨5, 3, 0⟩ ⟨1, 1, -4⟩).v = ⟨0, 1, 0⟩ ∧
    (orthonormalize axisNorm (1/10000000000) ⟨2, 0, 0⟩ ⟨5, 0, 0⟩ ⟨1, 1, -4⟩).ret = none ∧
    (orthonormalize axisNorm (1/10000000000) ⟨2, 0, 0⟩ ⟨5, 3, 0⟩ ⟨1, 1, 0⟩).ret = none ∧
    (orthonormalize axisNorm (1/10000000000) ⟨2, 0, 0⟩ ⟨5, 3, 0⟩ ⟨1, 1, 0⟩).v = ⟨0, 1, 0⟩ := by decide +kernel

/-! ## C310: scalar products in `geom.vec` -/

/-- `dot` and what is built on it raise for all arguments. -/
theorem C310_dot_refuted (nrm : V3 K → K) (unit : V3 K → V3 K) (a b : V3 K) :
    vdot a b = none ∧ projectionLength nrm a b = none ∧ gramSchmidt unit a b = none := by
  have h : ∀ x y : V3 K, vdot x y = none := by
    intro x y
    unfold vdot callName
    rw [if_neg (by decide)]
  refine ⟨h a b, ?_, ?_⟩
  · unfold projectionLength; rw [h]; rfl
  · unfold gramSchmidt; rw [h]; rfl

/-- `angle` of two unit vectors never raises, so the error is about arguments that are not unit vectors. -/
theorem C310_angle (arccos : K → K) (a b : V3 K) (ha : dot a a = 1) (hb : dot b b = 1) :
    angle arccos a b = some (arccos (dot a b)) := by
  unfold angle
  have h1 : 0 ≤ dot (add a b) (add a b) := by
    unfold dot; nlinarith [mul_self_nonneg ((add a b).x), mul_self_nonneg ((add a b).y), mul_self_nonneg ((add a b).z)]
  have h2 : 0 ≤ dot (sub a b) (sub a b) := by
    unfold dot; nlinarith [mul_self_nonneg ((sub a b).x), mul_self_nonneg ((sub a b).y), mul_self_nonneg ((sub a b).z)]
  have e1 : dot (add a b) (add a b) = dot a a + 2 * dot a b + dot b b := by unfold dot; simp only [add]; ring
  have e2 : dot (sub a b) (sub a b) = dot a a - 2 * dot a b + dot b b := by unfold dot; simp only [sub]; ring
  rw [if_neg]
  rintro (h | h) <;> linarith

/-! ## C311: the evaluators of curves -/

/-- On a line the first derivative is exact. -/
theorem C311_first_partial (h : K) (hh : h ≠ 0) (p d : V3 K) (t : K) :
    firstDerivative h (fun t => add p (smul t d)) t = some (.flagged true d) := by
  unfold firstDerivative fdm
  simp only [Val.sub, Option.bind_eq_bind, Option.bind_some, pure]
  congr 2
  ext <;> simp only [V3.sub, add, smul] <;> field_simp <;> ring

/-- Second and third derivatives and tangents raise for every curve and every parameter. -/
theorem C311_second_refuted (evalTangent : V3 K → V3 K → V3 K × Bool) (h : K) (curve : K → V3 K) (t : K) :
    secondDerivative h curve t = none ∧ thirdDerivative h curve t = none ∧ tangent evalTangent h curve t = none := by
  have hs : ∀ t, secondRaw h curve t = none := by
    intro t
    unfold secondRaw firstDerivative fdm
    simp [Val.sub]
  refine ⟨?_, ?_, ?_⟩
  · unfold secondDerivative; rw [hs]
  · unfold thirdDerivative
    have : fdm h (secondRaw h curve) t = none := by
      unfold fdm; rw [hs]; rfl
    rw [this]
  · unfold tangent; rw [hs]
    cases fdm h (fun t => some (Val.vec (curve t))) t with
    | none => rfl
    | some v => cases v <;> rfl

/-- The strokes are points of the curve, the first at the start and the last at the end. -/
theorem C311_strokes (curve : K → V3 K) (a b : K) (n : Nat) (hn : 2 ≤ n) :
    (strokes curve a b n).length = n ∧ (strokes curve a b n).head? = some (curve a) ∧ (strokes curve a b n).getLast? = some (curve b) ∧
      ∀ p ∈ strokes curve a b n, a ≤ b → ∃ t, a ≤ t ∧ t ≤ b ∧ p = curve t := by
  have h1 : n ≠ 1 := by omega
  have hk : ((n : K) - 1) ≠ 0 := by
    have : ((1 : ℕ) : K) < (n : K) := Nat.cast_lt.2 (by omega)
    rw [Nat.cast_one] at this
    exact ne_of_gt (sub_pos.2 this)
  have hpos : 0 < ((n : K) - 1) := by
    have : ((1 : ℕ) : K) < (n : K) := Nat.cast_lt.2 (by omega)
    rw [Nat.cast_one] at this
    exact sub_pos.2 this
  unfold strokes
  simp only [if_neg h1]
  refine ⟨by simp, ?_, ?_, ?_⟩
  · obtain ⟨m, rfl⟩ : ∃ m, n = m + 1 := ⟨n - 1, by omega⟩
    rw [List.range_succ_eq_map]
    simp
  · obtain ⟨m, rfl⟩ : ∃ m, n = m + 1 := ⟨n - 1, by omega⟩
    rw [List.range_succ]
    simp only [List.map_append, List.map_cons, List.map_nil, List.getLast?_append, List.getLast?_singleton, Option.some_or]
    congr 2
    push_cast at *
    have : ((m : K) + 1 - 1) = m := by ring
    rw [this] at hk ⊢
    field_simp
    ring
  · intro p hp hab
    rw [List.mem_map] at hp
    obtain ⟨i, hi, rfl⟩ := hp
    rw [List.mem_range] at hi
    have hi' : (i : K) ≤ (n : K) - 1 := by
      have : ((i + 1 : ℕ) : K) ≤ (n : K) := Nat.cast_le.2 hi
      push_cast at this; linarith
    refine ⟨_, ?_, ?_, rfl⟩
    · have := mul_nonneg (Nat.cast_nonneg (α := K) i) (div_nonneg (sub_nonneg.2 hab) (le_of_lt hpos))
      linarith
    · have : (i : K) * ((b - a) / ((n : K) - 1)) ≤ ((n : K) - 1) * ((b - a) / ((n : K) - 1)) :=
        mul_le_mul_of_nonneg_right hi' (div_nonneg (sub_nonneg.2 hab) (le_of_lt hpos))
      rw [mul_div_cancel₀ _ hk] at this
      linarith

example : strokes (fun t => (⟨t, t * t, 0⟩ : V3 ℚ)) 1 2 3 = [⟨1, 1, 0⟩, ⟨3/2, 9/4, 0⟩, ⟨2, 4, 0⟩] := by decide +kernel
example : angle (K := ℚ) id ⟨3/5, 4/5, 0⟩ ⟨1, 0, 0⟩ = some (3/5) ∧ angle (K := ℚ) id ⟨3, 4, 0⟩ ⟨1, 0, 0⟩ = none := by decide +kernel
example : (⟨3/5, 4/5, 0⟩ : V3 ℚ).dot ⟨3/5, 4/5, 0⟩ = 1 := by decide +kernel

end Verif.Apc
