import Verif.Opt.Props

/-! # C320–C326: constraints of `opt1`, offsets, tangents, counts, primitives, areas -/

set_option linter.unusedSectionVars false

namespace Verif.Opt

open Verif.Vec (V3)
open Verif.Vec.V3

variable {K : Type} [Field K] [LinearOrder K] [IsStrictOrderedRing K]

/-- The matrix of the example is regular. -/
example : ∀ v, (kkt (fun _ _ => (2 : ℚ) : Matrix Unit Unit ℚ) (fun _ _ => 1 : Matrix Unit Unit ℚ)).mulVec v = 0 → v = 0 := by
  intro v h
  obtain ⟨h1, h2⟩ := kkt_mulVec _ _ _ _ h
  have e2 := congrFun h2 ()
  have e1 := congrFun h1 ()
  simp [Matrix.mulVec, dotProduct, Matrix.transpose] at e1 e2
  funext i
  rcases i with ⟨⟩ | ⟨⟩
  · exact e2
  · rw [e2, mul_zero, zero_add] at e1; exact e1

/-! ## C320 -/

/-- The constraint is fulfilled exactly if the first point is on the plane and the second on it or below. -/
theorem C320_constraint_partial (orig normal p q : V3 K) :
    optH orig normal p q = 0 ↔ dot (sub p orig) normal = 0 ∧ dot (sub q orig) normal ≤ 0 := by
  unfold optH
  simp only
  split_ifs with h
  · constructor
    · intro h0
      rw [h0, abs_zero] at h
      exact ⟨h0, h.le⟩
    · exact fun h => h.1
  · rw [gt_iff_lt, not_lt] at h
    constructor
    · intro h0
      rw [h0] at h
      exact ⟨abs_nonpos_iff.1 h, h0.le⟩
    · rintro ⟨h1, h2⟩
      rw [h1, abs_zero] at h
      exact le_antisymm h2 h

/-- The second point may be any distance below the plane. -/
theorem C320_below_refuted (orig normal : V3 K) (d : K) (hd : d ≤ 0) (hn : dot normal normal = 1) :
    optH orig normal orig (add orig (smul d normal)) = 0 ∧ dot (sub (add orig (smul d normal)) orig) normal = d := by
  have e1 : dot (sub orig orig) normal = 0 := by unfold dot sub; ring
  have e2 : dot (sub (add orig (smul d normal)) orig) normal = d := by
    unfold dot at *
    simp only [sub, add, smul]
    linear_combination d * hn
  exact ⟨(C320_constraint_partial _ _ _ _).2 ⟨e1, e2.le.trans hd⟩, e2⟩

/-- A common point of the surfaces on the plane is a zero of the system, with the multiplier zero. -/
theorem C320_solution (orig normal p pu pv qs qt : V3 K) (h : dot (sub p orig) normal = 0) :
    optF orig normal p p pu pv qs qt 0 = ((0, 0, 0, 0), 0) := by
  have e := (C320_constraint_partial orig normal p p).2 ⟨h, h.le⟩
  simp only [optF, e, optGradF]
  simp [dot, sub]

/-- The objective is the squared distance: for points moving along the derivatives it grows by the computed gradient and the square of the
difference of the two motions. -/
theorem C320_objective (p q pu pv qs qt : V3 K) (a b c d : K) :
    let dp := add (smul a pu) (smul b pv)
    let dq := add (smul c qs) (smul d qt)
    let g := optGradF p q pu pv qs qt
    dot (sub (add p dp) (add q dq)) (sub (add p dp) (add q dq)) =
      dot (sub p q) (sub p q) + (a * g.1 + b * g.2.1 + c * g.2.2.1 + d * g.2.2.2) + dot (sub dp dq) (sub dp dq) := by
  simp only [optGradF, dot, sub, add, smul]
  ring

/-- Where the constraint follows the first point, its derivatives along the first surface are twice those computed, and the ones along the
second surface, computed as half of the slope there, are zero. -/
theorem C320_gradient_refuted (orig normal p q pu pv qs qt : V3 K) (e : K)
    (h0 : |dot (sub p orig) normal| > dot (sub q orig) normal)
    (h1 : |dot (sub (add p (smul e pu)) orig) normal| > dot (sub q orig) normal)
    (h2 : |dot (sub p orig) normal| > dot (sub (add q (smul e qs)) orig) normal) :
    optH orig normal (add p (smul e pu)) q - optH orig normal p q = e * (2 * (optGradH normal pu pv qs qt).1) ∧
      optH orig normal p (add q (smul e qs)) - optH orig normal p q = 0 ∧ 2 * (optGradH normal pu pv qs qt).2.2.1 = dot normal qs := by
  unfold optH
  simp only
  rw [if_pos h0, if_pos h1, if_pos h2]
  refine ⟨?_, sub_self _, ?_⟩
  · simp only [optGradH, dot, sub, add, smul]; ring
  · simp only [optGradH, dot, smul]; ring

example : optH (⟨0, 0, 0⟩ : V3 ℚ) ⟨0, 0, 1⟩ ⟨5, 5, 0⟩ ⟨1, 2, -100⟩ = 0 := by decide +kernel
example : optGradH (⟨0, 0, 1⟩ : V3 ℚ) ⟨1, 0, 4⟩ ⟨0, 1, 0⟩ ⟨1, 0, 6⟩ ⟨0, 1, 0⟩ = (2, 0, 3, 0) := by decide +kernel

/-! ## C321 -/

/-- An offset curve has no points: the offset never gets a value, at any depth of recursion. -/
theorem C321_offset_refuted (o n : V3 K) (offset : K) (depth : ℕ) : offsetGet offset depth = none ∧ offsetEval o n offset depth = none := by
  have h : ∀ k, offsetGet offset k = none := by
    intro k
    induction k with
    | zero => rfl
    | succ k ih => exact ih
  exact ⟨h depth, by unfold offsetEval; rw [h depth]; rfl⟩

/-! ## C322 -/

/-- `det` is not the determinant: they agree only for special matrices. -/
theorem C322_det_refuted (a b c d : K) : det2 a b c d = a * d - b * c ↔ c * d - 2 * a * d = a * b - 2 * b * c := by
  unfold det2
  constructor <;> intro h <;> linear_combination h

/-- The system of equations that is chosen. -/
def chosen (du dv delta : V3 K) : Sys K :=
  maxKey (fun s => det2 s.a s.b s.c s.d) ⟨du.x, dv.x, du.y, dv.y, delta.x, delta.y⟩
    [⟨du.x, dv.x, du.z, dv.z, delta.x, delta.z⟩, ⟨du.y, dv.y, du.z, dv.z, delta.y, delta.z⟩]

/-- When the system chosen is regular, the result reproduces a displacement in the tangent plane. -/
theorem C322_exact_partial (du dv : V3 K) (s t : K)
    (hr : (chosen du dv (add (smul s du) (smul t dv))).a * (chosen du dv (add (smul s du) (smul t dv))).d -
      (chosen du dv (add (smul s du) (smul t dv))).b * (chosen du dv (add (smul s du) (smul t dv))).c ≠ 0) : improveUV du dv (add (smul s du) (smul t dv)) = (s, t) := by
  have key : ∀ m : Sys K, m.a * m.d - m.b * m.c ≠ 0 → m.y1 = s * m.a + t * m.b → m.y2 = s * m.c + t * m.d → solveInto m = (s, t) := by
    intro m h h1 h2
    unfold solveInto
    simp only
    rw [if_neg h, h1, h2]
    ext
    · show _ / _ = s
      rw [div_eq_iff h]; ring
    · show _ / _ = t
      rw [div_eq_iff h]; ring
  have mem : ∀ (x : Sys K) (l : List (Sys K)), maxKey (fun s : Sys K => det2 s.a s.b s.c s.d) x l ∈ x :: l := by
    intro x l
    induction l generalizing x with
    | nil => simp [maxKey]
    | cons y l ih =>
      rw [maxKey]
      split_ifs
      · exact List.mem_cons_of_mem _ (ih y)
      · rcases List.mem_cons.1 (ih x) with h | h
        · rw [h]; exact List.mem_cons_self
        · exact List.mem_cons_of_mem _ (List.mem_cons_of_mem _ h)
  show solveInto (chosen du dv (add (smul s du) (smul t dv))) = (s, t)
  have hm : chosen du dv (add (smul s du) (smul t dv)) ∈ _ := mem _ _
  apply key _ hr
  · simp only [List.mem_cons, List.not_mem_nil, or_false] at hm
    rcases hm with h | h | h <;> rw [h] <;> simp only [add, smul]
  · simp only [List.mem_cons, List.not_mem_nil, or_false] at hm
    rcases hm with h | h | h <;> rw [h] <;> simp only [add, smul]

/-- On a horizontal plane whose parameters run along the axes the result is zero for every displacement: a singular system is chosen. -/
theorem C322_plane_refuted (a b : K) (ha : 0 < a) (hb : 0 < b) (delta : V3 K) : improveUV ⟨a, 0, 0⟩ ⟨0, b, 0⟩ delta = (0, 0) := by
  unfold improveUV
  have h : det2 a 0 0 b < det2 a 0 0 0 := by
    unfold det2
    have := mul_pos ha hb
    linarith
  simp only [maxKey]
  rw [if_pos h]
  have h2 : ¬ det2 a 0 0 0 < det2 0 b 0 0 := by unfold det2; simp
  rw [if_neg h2]
  unfold solveInto
  simp

example : improveUV (⟨0, 1, 0⟩ : V3 ℚ) ⟨3, 0, 1⟩ ⟨6, 5, 2⟩ = (5, 2) := by decide +kernel
example : improveUV (⟨1, 0, 0⟩ : V3 ℚ) ⟨0, 1, 0⟩ ⟨6, 5, 0⟩ = (0, 0) := by decide +kernel

/-! ## C323 -/

/-- The tangent is a unit vector perpendicular to both normals; there is none exactly where the normals are parallel. -/
theorem C323_tangent {nrm : V3 K → K} (hn : ∀ v, nrm v * nrm v = dot v v) (n1 n2 : V3 K) :
    (sectionalTangent nrm n1 n2 = none ↔ cross n1 n2 = zero) ∧
      ∀ T, sectionalTangent nrm n1 n2 = some T → dot T n1 = 0 ∧ dot T n2 = 0 ∧ dot T T = 1 := by
  have h0 : nrm (cross n1 n2) = 0 ↔ cross n1 n2 = zero := by
    constructor
    · intro h
      have := hn (cross n1 n2)
      rw [h, mul_zero] at this
      unfold dot at this
      have hx := mul_self_nonneg (cross n1 n2).x
      have hy := mul_self_nonneg (cross n1 n2).y
      have hz := mul_self_nonneg (cross n1 n2).z
      ext
      · exact mul_self_eq_zero.1 (by linarith)
      · exact mul_self_eq_zero.1 (by linarith)
      · exact mul_self_eq_zero.1 (by linarith)
    · intro h
      have := hn (cross n1 n2)
      rw [h] at this ⊢
      have e : dot (zero : V3 K) zero = 0 := by simp [dot, zero]
      rw [e] at this
      exact mul_self_eq_zero.1 this
  unfold sectionalTangent
  simp only
  constructor
  · rw [← h0]
    split_ifs with h <;> simp [h]
  · intro T hT
    split_ifs at hT with h
    simp only [Option.some.injEq] at hT
    subst hT
    have := hn (cross n1 n2)
    refine ⟨?_, ?_, ?_⟩
    · unfold dot cross smul; ring
    · unfold dot cross smul; ring
    · have e : dot (smul (1 / nrm (cross n1 n2)) (cross n1 n2)) (smul (1 / nrm (cross n1 n2)) (cross n1 n2)) =
          1 / nrm (cross n1 n2) * (1 / nrm (cross n1 n2)) * dot (cross n1 n2) (cross n1 n2) := by
        generalize 1 / nrm (cross n1 n2) = k
        generalize cross n1 n2 = c
        unfold dot smul; ring
      rw [e, ← this]
      field_simp

/-- In the version from parameters the second surface has no influence; at equal parameters there is never a tangent. -/
theorem C323_second_refuted {P : Type} {nrm : V3 K → K} (hn : ∀ v, nrm v * nrm v = dot v v) (s1 s2 s2' : P → V3 K) (uv1 uv2 : P) :
    sectionalTangentUV nrm s1 s2 uv1 uv2 = sectionalTangentUV nrm s1 s2' uv1 uv2 ∧ sectionalTangentUV nrm s1 s2 uv1 uv1 = none := by
  refine ⟨rfl, ?_⟩
  unfold sectionalTangentUV
  rw [(C323_tangent hn _ _).1]
  ext <;> simp [cross, zero] <;> ring

/-- A norm of vectors along the axes. -/
example : sectionalTangent (fun v : V3 ℚ => |v.x| + |v.y| + |v.z|) ⟨0, 0, 1⟩ ⟨0, -2, 0⟩ = some ⟨1, 0, 0⟩ := by decide +kernel

/-! ## C324 -/

/-- A result has the number of control points asked for, and the degrees fit the knots. -/
theorem C324_shape (ku kv du dv n u v : ℤ) :
    gridShape ku kv du dv n = some (u, v) ↔ u * v = n ∧ ku = u + du + 1 ∧ kv = v + dv + 1 := by
  unfold gridShape
  split_ifs with h
  · simp only [reduceCtorEq, false_iff]
    rintro ⟨h1, h2, h3⟩
    apply h
    rw [h2, h3, ← h1]; ring
  · rw [not_not] at h
    simp only [Option.some.injEq, Prod.mk.injEq]
    constructor
    · rintro ⟨rfl, rfl⟩
      exact ⟨h, by ring, by ring⟩
    · rintro ⟨h1, h2, h3⟩
      exact ⟨by rw [h2]; ring, by rw [h3]; ring⟩

/-- Too few knots in both directions are not noticed: negative counts are returned. -/
theorem C324_negative_refuted (du dv u v : ℤ) (_hu : 0 < u) (_hv : 0 < v) :
    gridShape (du + 1 - u) (dv + 1 - v) du dv (u * v) = some (-u, -v) := by
  rw [C324_shape]
  exact ⟨by ring, by ring, by ring⟩

example : gridShape 8 9 3 2 24 = some (4, 6) := by decide
example : gridShape 2 2 3 3 4 = some (-2, -2) := by decide

/-! ## C325 -/

/-- The primitive at one parameter is the integral from the start, shifted; with an exact rule it has the increments of every primitive. -/
theorem C325_scalar_partial (quad : (K → K) → K → K → K × K) (f : Fun K K) (F : K → K) (hq : ∀ a b, quad f.call a b = (F b - F a, 0))
    (translate : K) (t0 : Option K) (tol : K) (h : 0 ≤ tol) (t : K) :
    primeCall quad f translate t0 tol (.inl t) = some (.inl (F t - F (t0.getD 0) + translate)) := by
  unfold primeCall
  simp only [hq]
  rw [if_neg (not_lt.2 h)]

/-- For several parameters the function itself is called, with keywords; a function of the parameter alone raises. -/
theorem C325_array_refuted (quad : (K → K) → K → K → K × K) (f : Fun K K) (translate : K) (t0 : Option K) (tol : K) (ts : List K) :
    (f.callKw = none → primeCall quad f translate t0 tol (.inr ts) = none) ∧
      ∀ g, f.callKw = some g → (∀ t a b, g t a b = f.call t) → primeCall quad f translate t0 tol (.inr ts) = some (.inr (ts.map f.call)) := by
  unfold primeCall
  constructor
  · intro h; rw [h]; rfl
  · intro g h hg
    rw [h]
    simp [hg]

example : primeCall (K := ℚ) (V := ℚ) (fun _ a b => (b ^ 2 - a ^ 2, 0)) ⟨fun t => 2 * t, none⟩ 7 none (1/10) (.inl 3) = some (.inl 16) := by decide +kernel
example : primeCall (K := ℚ) (V := ℚ) (fun _ a b => (b ^ 2 - a ^ 2, 0)) ⟨fun t => 2 * t, none⟩ 7 none (1/10) (.inr [3, 4]) = none := by decide +kernel

/-! ## C326 -/

/-- A quadrature that is exact for constants. -/
def ExactConst (quad : (K → K → K) → K → K → K → K → K) : Prop := ∀ c a b d e, quad (fun _ _ => c) a b d e = c * (b - a) * (e - d)

/-- The area of a parallelogram is exact, with derivatives of the class and with differences of any step. -/
theorem C326_parallelogram {quad : (K → K → K) → K → K → K → K → K} (hq : ExactConst quad) (nrm : V3 K → K) (o a b : V3 K) (h : K) (hh : h ≠ 0)
    (ua ub va vb : K) :
    let s := fun u v => add (add o (smul u a)) (smul v b)
    rectArea quad nrm (fun _ _ => a) (fun _ _ => b) ua ub va vb = nrm (cross a b) * ((ub - ua) * (vb - va)) ∧
      rectArea quad nrm (fun u v => (partials h s u v).1) (fun u v => (partials h s u v).2) ua ub va vb = nrm (cross a b) * ((ub - ua) * (vb - va)) := by
  intro s
  have e1 : ∀ u v, (partials h s u v).1 = a := by
    intro u v
    ext <;> simp [partials, s, add, sub, smul] <;> field_simp <;> ring
  have e2 : ∀ u v, (partials h s u v).2 = b := by
    intro u v
    ext <;> simp [partials, s, add, sub, smul] <;> field_simp <;> ring
  unfold rectArea
  simp only [e1, e2]
  rw [hq]
  exact ⟨by ring, by ring⟩

/-- The order of the variables fits that of the bounds: where the element of area is a product, as on surfaces of revolution, the area is the
product of the integrals over the intervals of the two parameters.  `Prim f F` says that `F` is a primitive of `f`. -/
theorem C326_product {quad : (K → K → K) → K → K → K → K → K} (Prim : (K → K) → (K → K) → Prop)
    (hq : ∀ (f F g G : K → K) (a b d e : K), Prim f F → Prim g G → quad (fun y x => g y * f x) a b d e = (F b - F a) * (G e - G d))
    (nrm : V3 K → K) (du dv : K → K → V3 K) (ua ub va vb : K) (f F g G : K → K) (hf : Prim f F) (hg : Prim g G)
    (hel : ∀ u v, nrm (cross (du u v) (dv u v)) = g u * f v) :
    rectArea quad nrm du dv ua ub va vb = (G ub - G ua) * (F vb - F va) := by
  unfold rectArea
  simp only [hel]
  rw [hq f F g G va vb ua ub hf hg, mul_comm]

/-- A cylinder of height `3` and one turn of length `6` on a rule that is exact for this element of area. -/
example : rectArea (K := ℚ) (fun f a b d e => f 0 0 * (b - a) * (e - d)) (fun v => |v.x| + |v.y| + |v.z|) (fun _ _ => ⟨1, 0, 0⟩) (fun _ _ => ⟨0, 0, 1⟩) 0 6 2 5 = 18 := by
  decide +kernel
example : ExactConst (K := ℚ) (fun f a b d e => f 0 0 * (b - a) * (e - d)) := fun _ _ _ _ _ => rfl

end Verif.Opt
