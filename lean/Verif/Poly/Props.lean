import Verif.Poly.Pip
import Mathlib.Algebra.BigOperators.Group.List.Basic
import Mathlib.Tactic.LinearCombination
import Mathlib.Tactic.NormNum

/-! # C20–C22: point in polygon, area, segment intersection -/

set_option linter.unusedSectionVars false

namespace Verif.Poly
variable {K : Type} [Field K] [LinearOrder K]

/-! ## C20 -/

section ordered
variable [IsStrictOrderedRing K]

/-- **C20.** For every non-empty polygon both functions return the parity of the number of edges (each vertex joined to the
next one, cyclically) crossed by the ray from the point to the right: neither raises, and the pruning of the tree changes
nothing. -/
theorem C20_point_in_polygon (poly : List (K × K)) (h : poly ≠ []) (q : K × K) (fuel : Nat) (hf : poly.length ≤ fuel) :
    isPointInPolygonBvh fuel poly q = isPointInPolygon q poly ∧
    isPointInPolygon q poly =
      some (decide ((poly.zip (poly.rotate 1)).countP (fun e => Crosses q.1 q.2 e) % 2 = 1)) := by
  have hp := plain_spec q poly h
  refine ⟨?_, hp⟩
  rw [hp, isPointInPolygonBvh, buildBvh, edges_eq]
  have hlen : (poly.zip (poly.rotate 1)).length = poly.length := by simp
  obtain ⟨t, h1, _, h3⟩ := build_spec q.1 q.2 fuel ((poly.zip (poly.rotate 1)).map fun e => (edgeBox e, e))
    (by
      intro h0
      have := congrArg List.length h0
      rw [List.length_map, hlen, List.length_nil] at this
      exact h (List.length_eq_zero_iff.mp this))
    (by rw [List.length_map, hlen]; exact hf)
    (by
      intro o ho
      obtain ⟨e, _, rfl⟩ := List.mem_map.mp ho
      rfl)
  rw [h1, Option.map_some, h3, List.countP_map]
  congr 1

end ordered

/-- A non-convex polygon (examples). -/
def arrow : List (ℚ × ℚ) := [(0, 0), (4, 0), (4, 4), (2, 1), (0, 4)]

example : arrow ≠ [] ∧ isPointInPolygon (1, 1) arrow = some true ∧ isPointInPolygonBvh 5 arrow (1, 1) = some true ∧
    isPointInPolygon (2, 2) arrow = some false ∧ isPointInPolygonBvh 5 arrow (2, 2) = some false ∧
    isPointInPolygonBvh 5 arrow (3, 2) = some true := by
  refine ⟨by decide, ?_, ?_, ?_, ?_, ?_⟩ <;> decide +kernel

section ordered
variable [IsStrictOrderedRing K]

/-- **C20, start vertex.** The answer does not depend on the vertex the polygon starts with. -/
theorem C20_rotate (poly : List (K × K)) (q : K × K) (k : Nat) :
    isPointInPolygon q (poly.rotate k) = isPointInPolygon q poly := by
  by_cases h : poly = []
  · subst h; simp
  · rw [plain_spec q poly h, plain_spec q (poly.rotate k) (by rwa [Ne, List.rotate_eq_nil_iff])]
    have : (poly.rotate k).zip ((poly.rotate k).rotate 1) = (poly.zip (poly.rotate 1)).rotate k := by
      rw [List.rotate_rotate, Nat.add_comm, ← List.rotate_rotate, List.zip, ← List.zipWith_rotate_distrib _ _ _ _ (by simp)]
    rw [this, (List.rotate_perm _ k).countP_eq]

/-- **C20, outside.** A point above, below, or to the right of all vertices is outside; so is a point to the left of all
vertices of a polygon. -/
theorem C20_outside (poly : List (K × K)) (h : poly ≠ []) (q : K × K)
    (hq : (∀ p ∈ poly, p.2 < q.2) ∨ (∀ p ∈ poly, q.2 ≤ p.2) ∨ ∀ p ∈ poly, p.1 < q.1) :
    isPointInPolygon q poly = some false := by
  rw [plain_spec q poly h]
  have h0 : (poly.zip (poly.rotate 1)).countP (fun e => decide (Crosses q.1 q.2 e)) = 0 := by
    rw [List.countP_eq_zero]
    intro e he hc
    have hc' := of_decide_eq_true hc
    have m1 : e.1 ∈ poly := (List.of_mem_zip (a := e.1) (b := e.2) he).1
    have m2 : e.2 ∈ poly := List.mem_rotate.mp (List.of_mem_zip (a := e.1) (b := e.2) he).2
    have hx := crosses_x _ _ _ hc'
    obtain ⟨c1, c2, _⟩ := hc'
    rcases hq with hq | hq | hq
    · rcases c2 with c2 | c2
      · exact absurd c2 (not_le.mpr (hq _ m1))
      · exact absurd c2 (not_le.mpr (hq _ m2))
    · rcases c1 with c1 | c1
      · exact absurd (hq _ m1) (not_le.mpr c1)
      · exact absurd (hq _ m2) (not_le.mpr c1)
    · exact absurd hx (not_le.mpr (max_lt (hq _ m1) (hq _ m2)))
  rw [h0]; rfl

/-- Number of times a cyclic sequence of booleans changes value. -/
theorem alternate (f : K × K → Bool) : ∀ (l : List (K × K)) (a : K × K),
    (((a :: l).zip l).countP (fun e => f e.1 != f e.2)) % 2 = if f a = f ((a :: l).getLast (by simp)) then 0 else 1 := by
  intro l
  induction l with
  | nil => intro a; simp
  | cons b l ih =>
    intro a
    rw [List.zip_cons_cons, List.countP_cons, Nat.add_mod, ih b, List.getLast_cons (List.cons_ne_nil b l)]
    obtain ⟨c, hc⟩ : ∃ c, (b :: l).getLast (by simp) = c := ⟨_, rfl⟩
    rw [hc]
    cases f a <;> cases f b <;> cases f c <;> simp

theorem zip_rotate_one (p0 : K × K) (rest : List (K × K)) :
    (p0 :: rest).zip ((p0 :: rest).rotate 1) = (p0 :: (rest ++ [p0])).zip (rest ++ [p0]) := by
  rw [List.rotate_cons_succ, List.rotate_zero]
  have h2 : rest ++ [p0] = (rest ++ [p0]) ++ [] := by simp
  have : (p0 :: (rest ++ [p0])) = (p0 :: rest) ++ [p0] := rfl
  rw [this]
  conv_rhs => rw [h2]
  rw [List.zip_append (by simp)]
  simp

/-- **C20, outside on the left.** A point to the left of all vertices is outside. -/
theorem C20_outside_left (poly : List (K × K)) (h : poly ≠ []) (q : K × K) (hq : ∀ p ∈ poly, q.1 < p.1) :
    isPointInPolygon q poly = some false := by
  rw [plain_spec q poly h]
  have hiff : ∀ e ∈ poly.zip (poly.rotate 1), (decide (Crosses q.1 q.2 e) = true ↔
      (decide (e.1.2 < q.2) != decide (e.2.2 < q.2)) = true) := by
    intro e he
    have m1 : e.1 ∈ poly := (List.of_mem_zip (a := e.1) (b := e.2) he).1
    have m2 : e.2 ∈ poly := List.mem_rotate.mp (List.of_mem_zip (a := e.1) (b := e.2) he).2
    rw [decide_eq_true_iff, Crosses]
    constructor
    · rintro ⟨h1, h2, _⟩
      by_cases a : e.1.2 < q.2
      · have : ¬ e.2.2 < q.2 := by
          rcases h2 with h2 | h2
          · exact absurd h2 (not_le.mpr a)
          · exact not_lt.mpr h2
        simp [a, this]
      · have : e.2.2 < q.2 := by
          rcases h1 with h1 | h1
          · exact absurd h1 a
          · exact h1
        simp [a, this]
    · intro hb
      have h1 : e.1.2 < q.2 ∨ e.2.2 < q.2 := by
        by_contra hc
        push Not at hc
        simp [not_lt.mpr hc.1, not_lt.mpr hc.2] at hb
      have h2 : q.2 ≤ e.1.2 ∨ q.2 ≤ e.2.2 := by
        by_contra hc
        push Not at hc
        simp [hc.1, hc.2] at hb
      obtain ⟨hne, t0, t1⟩ := param_bounds _ _ q.2 h1 h2
      refine ⟨h1, h2, _, t0, t1, ?_, ?_⟩
      · rw [div_mul_cancel₀ _ (sub_ne_zero.mpr (Ne.symm hne))]; ring
      · obtain ⟨t, ht⟩ : ∃ t, (q.2 - e.1.2) / (e.2.2 - e.1.2) = t := ⟨_, rfl⟩
        rw [ht] at t0 t1 ⊢
        have a1 := hq _ m1
        have a2 := hq _ m2
        nlinarith [mul_nonneg t0 (le_of_lt (sub_pos.mpr a2)), mul_nonneg (sub_nonneg.mpr t1) (le_of_lt (sub_pos.mpr a1))]
  rw [List.countP_congr hiff]
  cases poly with
  | nil => exact absurd rfl h
  | cons p0 rest =>
    rw [zip_rotate_one, alternate (fun p => decide (p.2 < q.2))]
    rw [if_pos (by congr 1; simp)]
    rfl

end ordered

example : isPointInPolygon (-1, 1) arrow = some false ∧ isPointInPolygon (9, 1) arrow = some false ∧
    isPointInPolygon (1, 7) arrow = some false ∧ arrow.rotate 2 ≠ arrow := by
  refine ⟨?_, ?_, ?_, ?_⟩ <;> decide +kernel

/-! ## C21 -/

/-- Specification: twice the signed area of the polygon through the listed vertices, `Σ (y_i x_{i+1} - x_i y_{i+1})` over its
edges, cyclically. -/
def twiceArea (l : List (K × K)) : K := ((l.zip (l.rotate 1)).map fun e => e.1.2 * e.2.1 - e.1.1 * e.2.2).sum

theorem foldl_add_eq (l : List K) : ∀ a, l.foldl (· + ·) a = a + l.sum := by
  induction l with
  | nil => intro a; simp
  | cons b l ih => intro a; rw [List.foldl_cons, ih, List.sum_cons, add_assoc]

theorem dot_cons (a b : K) (l m : List K) : dot (a :: l) (b :: m) = a * b + dot l m := by
  simp only [dot, List.zipWith_cons_cons, List.foldl_cons, foldl_add_eq]
  ring

/-- The two dot products over an open chain. -/
theorem dots_chain : ∀ (l : List (K × K)) (a : K × K),
    dot (((a :: l).take l.length).map (·.2)) (l.map (·.1)) - dot (((a :: l).take l.length).map (·.1)) (l.map (·.2)) =
      (((a :: l).zip l).map fun e => e.1.2 * e.2.1 - e.1.1 * e.2.2).sum := by
  intro l
  induction l with
  | nil => intro a; simp [dot]
  | cons b l ih =>
    intro a
    simp only [List.length_cons, List.take_succ_cons, List.map_cons, dot_cons, List.zip_cons_cons, List.sum_cons]
    rw [← ih b]
    ring

theorem areaOf_eq [IsStrictOrderedRing K] (p : K × K) (rest : List (K × K)) : areaOf (p :: rest) = some (|twiceArea (p :: rest)| / 2) := by
  rw [areaOf, toPolygonArea, Option.map_some, polygonArea, twiceArea, zip_rotate_one]
  congr 3
  have := dots_chain (rest ++ [p]) p
  simpa using this

section ordered
variable [IsStrictOrderedRing K]

/-- **C21, formula.** `Polygon.area` of a non-empty vertex list is half the absolute value of the shoelace sum over its
edges; in particular it is not negative. -/
theorem C21_area_formula (l : List (K × K)) (h : l ≠ []) :
    ∃ A, areaOf l = some A ∧ 0 ≤ A ∧ A = |twiceArea l| / 2 := by
  cases l with
  | nil => exact absurd rfl h
  | cons p rest => exact ⟨_, areaOf_eq p rest, div_nonneg (abs_nonneg _) (by norm_num), rfl⟩

theorem areaOf_congr (l m : List (K × K)) (hl : l ≠ []) (hm : m ≠ []) (h : |twiceArea l| = |twiceArea m|) :
    areaOf l = areaOf m := by
  cases l with
  | nil => exact absurd rfl hl
  | cons p rest =>
    cases m with
    | nil => exact absurd rfl hm
    | cons p' rest' => rw [areaOf_eq, areaOf_eq, h]

/-- **C21, start vertex.** -/
theorem C21_rotate (l : List (K × K)) (k : Nat) : areaOf (l.rotate k) = areaOf l := by
  by_cases h : l = []
  · subst h; simp
  · refine areaOf_congr _ _ (by rwa [Ne, List.rotate_eq_nil_iff]) h ?_
    have : (l.rotate k).zip ((l.rotate k).rotate 1) = (l.zip (l.rotate 1)).rotate k := by
      rw [List.rotate_rotate, Nat.add_comm, ← List.rotate_rotate, List.zip, ← List.zipWith_rotate_distrib _ _ _ _ (by simp)]
    rw [twiceArea, this, twiceArea, ((List.rotate_perm _ k).map _).sum_eq]

/-- **C21, direction.** -/
theorem C21_reverse (l : List (K × K)) : areaOf l.reverse = areaOf l := by
  by_cases h : l = []
  · subst h; rfl
  · refine areaOf_congr _ _ (by simpa using h) h ?_
    -- the edges of the reversed polygon are the reversed edges
    have hsum : twiceArea l.reverse = - twiceArea l := by
      cases l with
      | nil => exact absurd rfl h
      | cons p rest =>
        by_cases hr : rest = []
        · subst hr; simp [twiceArea]; ring
        have hlen : 0 < rest.length := List.length_pos_iff.mpr hr
        have hrot : ((p :: rest).reverse).rotate 1 = ((p :: rest).rotate ((p :: rest).length - 1)).reverse := by
          rw [List.rotate_reverse]
          congr 2
          rw [Nat.mod_eq_of_lt (by simp; omega)]
        rw [twiceArea, hrot, List.zip, ← List.reverse_zipWith (by simp), List.map_reverse, List.sum_reverse, twiceArea]
        have hz : List.zipWith Prod.mk (p :: rest) ((p :: rest).rotate ((p :: rest).length - 1)) =
            (List.zipWith (fun a b => (b, a)) (p :: rest) ((p :: rest).rotate 1)).rotate ((p :: rest).length - 1) := by
          rw [List.zipWith_rotate_distrib _ _ _ _ (by simp), List.rotate_rotate]
          have : (p :: rest).rotate (1 + ((p :: rest).length - 1)) = p :: rest := by
            have : 1 + ((p :: rest).length - 1) = (p :: rest).length := by simp; omega
            rw [this, List.rotate_length]
          rw [this, List.zipWith_comm]
        rw [hz, ((List.rotate_perm _ _).map _).sum_eq]
        generalize (p :: rest).rotate 1 = m
        generalize p :: rest = l
        clear hrot hz h
        induction l generalizing m with
        | nil => simp
        | cons a l ih =>
          cases m with
          | nil => simp
          | cons b m =>
            simp only [List.zipWith_cons_cons, List.map_cons, List.sum_cons, List.zip_cons_cons]
            rw [ih m]
            ring
    rw [hsum, abs_neg]

/-- Sum of a difference around a polygon. -/
theorem sum_cyclic (g : K × K → K) (l : List (K × K)) : ((l.zip (l.rotate 1)).map fun e => g e.2 - g e.1).sum = 0 := by
  have h : ∀ (l m : List (K × K)), l.length = m.length →
      ((l.zip m).map fun e => g e.2 - g e.1).sum = (m.map g).sum - (l.map g).sum := by
    intro l
    induction l with
    | nil => intro m hm; have : m = [] := List.length_eq_zero_iff.mp hm.symm
             subst this; simp
    | cons a l ih =>
      intro m hm
      cases m with
      | nil => simp at hm
      | cons b m =>
        simp only [List.zip_cons_cons, List.map_cons, List.sum_cons]
        rw [ih m (by simpa using hm)]
        ring
  rw [h _ _ (by simp), ((List.rotate_perm l 1).map g).sum_eq, sub_self]

/-- **C21, position, size, shape.** Under an affine map the area is multiplied by the absolute value of the determinant:
unchanged by translations, rotations, reflections and shears, times `k²` for a dilation. -/
theorem C21_affine (l : List (K × K)) (h : l ≠ []) (a b c d s t : K) :
    ∃ A, areaOf l = some A ∧
      areaOf (l.map fun p => (a * p.1 + b * p.2 + s, c * p.1 + d * p.2 + t)) = some (|a * d - b * c| * A) := by
  have hgen : ∀ (l m : List (K × K)),
      (((l.map fun p => (a * p.1 + b * p.2 + s, c * p.1 + d * p.2 + t)).zip
        (m.map fun p => (a * p.1 + b * p.2 + s, c * p.1 + d * p.2 + t))).map fun e => e.1.2 * e.2.1 - e.1.1 * e.2.2).sum =
      (a * d - b * c) * ((l.zip m).map fun e => e.1.2 * e.2.1 - e.1.1 * e.2.2).sum +
        ((l.zip m).map fun e => (t * (a * e.2.1 + b * e.2.2) - s * (c * e.2.1 + d * e.2.2)) -
          (t * (a * e.1.1 + b * e.1.2) - s * (c * e.1.1 + d * e.1.2))).sum := by
    intro l
    induction l with
    | nil => intro m; simp
    | cons p l ih =>
      intro m
      cases m with
      | nil => simp
      | cons p' m =>
        simp only [List.map_cons, List.zip_cons_cons, List.sum_cons]
        rw [ih m]
        ring
  have key : twiceArea (l.map fun p => (a * p.1 + b * p.2 + s, c * p.1 + d * p.2 + t)) = (a * d - b * c) * twiceArea l := by
    rw [twiceArea, ← List.map_rotate, hgen, sum_cyclic (fun p => t * (a * p.1 + b * p.2) - s * (c * p.1 + d * p.2)), add_zero,
      twiceArea]
  cases l with
  | nil => exact absurd rfl h
  | cons p rest =>
    refine ⟨_, areaOf_eq p rest, ?_⟩
    rw [List.map_cons] at key ⊢
    rw [areaOf_eq, key, abs_mul, mul_div_assoc]

/-- **C21, cutting along a chord.** Cutting a polygon along the chord from `p` to `q` splits its signed area. -/
theorem C21_chord (p q : K × K) (l m : List (K × K)) :
    twiceArea (p :: l ++ q :: m) = twiceArea (p :: l ++ [q]) + twiceArea (q :: m ++ [p]) := by
  have hz : ∀ (a : K × K) (l : List (K × K)), twiceArea (a :: l) =
      (((a :: (l ++ [a])).zip (l ++ [a])).map fun e => e.1.2 * e.2.1 - e.1.1 * e.2.2).sum := fun a l => by
    rw [twiceArea, zip_rotate_one]
  have hchain : ∀ (l m : List (K × K)) (a b : K × K),
      (((a :: (l ++ b :: m)).zip (l ++ b :: m)).map fun e => e.1.2 * e.2.1 - e.1.1 * e.2.2).sum =
      (((a :: (l ++ [b])).zip (l ++ [b])).map fun e => e.1.2 * e.2.1 - e.1.1 * e.2.2).sum +
      (((b :: m).zip m).map fun e => e.1.2 * e.2.1 - e.1.1 * e.2.2).sum := by
    intro l
    induction l with
    | nil => intro m a b; simp
    | cons c l ih =>
      intro m a b
      simp only [List.cons_append, List.zip_cons_cons, List.map_cons, List.sum_cons]
      rw [ih m c b]
      ring
  rw [List.cons_append, List.cons_append, List.cons_append, hz, hz, hz, List.append_assoc, List.cons_append,
    hchain l (m ++ [p]) p q, List.append_assoc, List.singleton_append, hchain l [p] p q, List.append_assoc,
    List.singleton_append, hchain m [q] q p]
  simp
  ring

/-- **C21, triangles and chords through the API.** The area of a triangle is half the absolute cross product of two sides, and
if both parts of a polygon cut along a chord have the same direction their areas add up. -/
theorem C21_triangle_and_cut :
    (∀ a b c : K × K, areaOf [a, b, c] = some (|(b.1 - a.1) * (c.2 - a.2) - (b.2 - a.2) * (c.1 - a.1)| / 2)) ∧
    ∀ (p q : K × K) (l m : List (K × K)), 0 ≤ twiceArea (p :: l ++ [q]) * twiceArea (q :: m ++ [p]) →
      ∃ A B, areaOf (p :: l ++ [q]) = some A ∧ areaOf (q :: m ++ [p]) = some B ∧ areaOf (p :: l ++ q :: m) = some (A + B) := by
  constructor
  · intro a b c
    rw [areaOf_eq]
    congr 2
    have : twiceArea [a, b, c] = -((b.1 - a.1) * (c.2 - a.2) - (b.2 - a.2) * (c.1 - a.1)) := by
      simp [twiceArea]
      ring
    rw [this, abs_neg]
  · intro p q l m h
    refine ⟨_, _, areaOf_eq p _, areaOf_eq q _, ?_⟩
    have := C21_chord p q l m
    rw [List.cons_append] at this ⊢
    rw [areaOf_eq, this, abs_add_eq_add_abs_iff _ _ |>.mpr, add_div]
    · rfl
    · rcases mul_nonneg_iff.mp h with h | h
      · exact Or.inl h
      · exact Or.inr h

end ordered

example : areaOf arrow = some 10 ∧ areaOf (arrow.rotate 3) = some 10 ∧ areaOf arrow.reverse = some 10 ∧
    areaOf (arrow.map fun p => (2 * p.1 + p.2 - 7, 3 * p.2 + 5)) = some 60 ∧
    0 ≤ twiceArea ((0, 0) :: [(4, 0), (4, 4)] ++ [((2 : ℚ), (1 : ℚ))]) * twiceArea ((2, 1) :: [(0, 4)] ++ [((0 : ℚ), (0 : ℚ))]) := by
  refine ⟨?_, ?_, ?_, ?_, ?_⟩ <;> decide +kernel

/-! ## C22 -/

section ordered
variable [IsStrictOrderedRing K]

/-- **C22, soundness.** A result of `intersect` is a point strictly inside both segments, with the parameters that reproduce it
on each. -/
theorem C22_intersect_sound (s1 s2 c1 c2 : K × K) (p : K × K) (us uc : K) (h : intersect s1 s2 c1 c2 = some (p, us, uc)) :
    0 < us ∧ us < 1 ∧ 0 < uc ∧ uc < 1 ∧
    p = (s1.1 + us * (s2.1 - s1.1), s1.2 + us * (s2.2 - s1.2)) ∧ p = (c1.1 + uc * (c2.1 - c1.1), c1.2 + uc * (c2.2 - c1.2)) := by
  rw [intersect] at h
  dsimp only at h
  split at h
  · cases h
  · rename_i hd
    split at h
    · cases h
    · split at h
      · rename_i hin
        simp only [Option.some.injEq, Prod.mk.injEq] at h
        obtain ⟨hp, hus, huc⟩ := h
        rw [hus, huc] at hin
        refine ⟨hin.1.1, hin.1.2, hin.2.1, hin.2.2, ?_, ?_⟩
        · rw [← hp, ← hus]
        · rw [← hp, ← huc]
          refine Prod.ext ?_ ?_
          · dsimp only; field_simp; ring
          · dsimp only; field_simp; ring
      · cases h

/-- **C22, completeness.** Segments that are not parallel and meet strictly inside both always get that point. -/
theorem C22_intersect_complete (s1 s2 c1 c2 : K × K) (us uc : K) (h1 : 0 < us) (h2 : us < 1) (h3 : 0 < uc) (h4 : uc < 1)
    (hx : s1.1 + us * (s2.1 - s1.1) = c1.1 + uc * (c2.1 - c1.1)) (hy : s1.2 + us * (s2.2 - s1.2) = c1.2 + uc * (c2.2 - c1.2))
    (hpar : (s2.1 - s1.1) * (c2.2 - c1.2) ≠ (s2.2 - s1.2) * (c2.1 - c1.1)) :
    intersect s1 s2 c1 c2 = some ((s1.1 + us * (s2.1 - s1.1), s1.2 + us * (s2.2 - s1.2)), us, uc) := by
  have hd : (c2.2 - c1.2) * (s2.1 - s1.1) - (c2.1 - c1.1) * (s2.2 - s1.2) ≠ 0 := by
    intro h; apply hpar; linear_combination h
  have e1 : ((c2.1 - c1.1) * (s1.2 - c1.2) - (c2.2 - c1.2) * (s1.1 - c1.1)) /
      ((c2.2 - c1.2) * (s2.1 - s1.1) - (c2.1 - c1.1) * (s2.2 - s1.2)) = us := by
    rw [div_eq_iff hd]
    linear_combination (c2.1 - c1.1) * hy - (c2.2 - c1.2) * hx
  have e2 : ((s2.1 - s1.1) * (s1.2 - c1.2) - (s2.2 - s1.2) * (s1.1 - c1.1)) /
      ((c2.2 - c1.2) * (s2.1 - s1.1) - (c2.1 - c1.1) * (s2.2 - s1.2)) = uc := by
    rw [div_eq_iff hd]
    linear_combination (s2.1 - s1.1) * hy - (s2.2 - s1.2) * hx
  rw [intersect]
  dsimp only
  rw [if_neg hd, e1, e2, if_neg, if_pos ⟨⟨h1, h2⟩, h3, h4⟩]
  rintro (⟨h | h, _⟩ | ⟨h | h, _⟩)
  · exact absurd h (ne_of_gt h1)
  · exact absurd h (ne_of_lt h2)
  · exact absurd h (ne_of_gt h3)
  · exact absurd h (ne_of_lt h4)

/-- **C22, nothing else.** `None` means that the segments are parallel, touch only at an end point, or do not meet. -/
theorem C22_intersect_none (s1 s2 c1 c2 : K × K) (h : intersect s1 s2 c1 c2 = none)
    (hpar : (s2.1 - s1.1) * (c2.2 - c1.2) ≠ (s2.2 - s1.2) * (c2.1 - c1.1)) (us uc : K) (h1 : 0 ≤ us ∧ us ≤ 1)
    (h2 : 0 ≤ uc ∧ uc ≤ 1)
    (hx : s1.1 + us * (s2.1 - s1.1) = c1.1 + uc * (c2.1 - c1.1)) (hy : s1.2 + us * (s2.2 - s1.2) = c1.2 + uc * (c2.2 - c1.2)) :
    us = 0 ∨ us = 1 ∨ uc = 0 ∨ uc = 1 := by
  by_contra hc
  push Not at hc
  obtain ⟨a, b, c, d⟩ := hc
  rw [C22_intersect_complete s1 s2 c1 c2 us uc (lt_of_le_of_ne h1.1 (Ne.symm a)) (lt_of_le_of_ne h1.2 b)
    (lt_of_le_of_ne h2.1 (Ne.symm c)) (lt_of_le_of_ne h2.2 d) hx hy hpar] at h
  cases h

end ordered

example : intersect ((0 : ℚ), (0 : ℚ)) (4, 4) (0, 2) (4, 0) = some ((4 / 3, 4 / 3), 1 / 3, 1 / 3) ∧
    intersect ((0 : ℚ), (0 : ℚ)) (4, 4) (4, 4) (5, 0) = none := by
  constructor <;> decide +kernel

end Verif.Poly
