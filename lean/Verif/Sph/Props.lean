import Verif.Sph.Model
import Mathlib.Algebra.Order.Field.Rat
import Mathlib.Tactic.Linarith
import Mathlib.Tactic.LinearCombination
import Mathlib.Tactic.FieldSimp
import Mathlib.Tactic.Positivity
import Mathlib.Tactic.NormNum
import Mathlib.Tactic.Ring

/-! # C424, C425: separation of hulls in the plane and of directions on the sphere -/

set_option linter.unusedSectionVars false
set_option linter.unusedVariables false

namespace Verif.Sph

open Verif.Vec

variable {K : Type} [Field K] [LinearOrder K] [IsStrictOrderedRing K]

/-- The Euclidean norm in the plane. -/
def IsNorm2 (nrm : K × K → K) : Prop := ∀ v, 0 ≤ nrm v ∧ nrm v * nrm v = v.1 * v.1 + v.2 * v.2

/-- The Euclidean norm in space. -/
def IsNorm3 (nrm : V3 K → K) : Prop := ∀ v, 0 ≤ nrm v ∧ nrm v * nrm v = v.x * v.x + v.y * v.y + v.z * v.z

theorem lo_le (l : List K) : ∀ x, lo x l ≤ x ∧ ∀ y ∈ l, lo x l ≤ y := by
  induction l with
  | nil => intro x; exact ⟨le_refl _, by simp⟩
  | cons a l ih =>
    intro x
    obtain ⟨h1, h2⟩ := ih (min x a)
    refine ⟨h1.trans (min_le_left _ _), ?_⟩
    intro y hy
    rcases List.mem_cons.1 hy with rfl | h
    · exact h1.trans (min_le_right _ _)
    · exact h2 y h

theorem le_hi (l : List K) : ∀ x, x ≤ hi x l ∧ ∀ y ∈ l, y ≤ hi x l := by
  induction l with
  | nil => intro x; exact ⟨le_refl _, by simp⟩
  | cons a l ih =>
    intro x
    obtain ⟨h1, h2⟩ := ih (max x a)
    refine ⟨(le_max_left _ _).trans h1, ?_⟩
    intro y hy
    rcases List.mem_cons.1 hy with rfl | h
    · exact (le_max_right _ _).trans h1
    · exact h2 y h

theorem lo_mem (l : List K) : ∀ x, lo x l ∈ x :: l := by
  induction l with
  | nil => intro x; simp [lo]
  | cons a l ih =>
    intro x
    have := ih (min x a)
    show lo (min x a) l ∈ _
    rcases List.mem_cons.1 this with h | h
    · rw [h]; rcases min_choice x a with h | h <;> rw [h] <;> simp
    · exact List.mem_cons_of_mem _ (List.mem_cons_of_mem _ h)

theorem hi_mem (l : List K) : ∀ x, hi x l ∈ x :: l := by
  induction l with
  | nil => intro x; simp [hi]
  | cons a l ih =>
    intro x
    have := ih (max x a)
    show hi (max x a) l ∈ _
    rcases List.mem_cons.1 this with h | h
    · rw [h]; rcases max_choice x a with h | h <;> rw [h] <;> simp
    · exact List.mem_cons_of_mem _ (List.mem_cons_of_mem _ h)

/-- A line with direction `d` has all points of one list on one side and those of the other on the other side. -/
def SepBy (d : K × K) (h1 h2 : List (K × K)) : Prop :=
  ∃ c : K, ((∀ a ∈ h1, dot2 a d ≤ c) ∧ ∀ b ∈ h2, c ≤ dot2 b d) ∨ ((∀ b ∈ h2, dot2 b d ≤ c) ∧ ∀ a ∈ h1, c ≤ dot2 a d)

/-- `d` is the difference of two vertices that follow each other around, or at a right angle to it. -/
def IsSide (h : List (K × K)) (d : K × K) : Prop :=
  ∃ i, ∃ hi : i < h.length, ∃ hj : (i + 1) % h.length < h.length,
    d = (h[i].1 - (h[(i + 1) % h.length]).1, h[i].2 - (h[(i + 1) % h.length]).2) ∨
    d = (h[i].2 - (h[(i + 1) % h.length]).2, -(h[i].1 - (h[(i + 1) % h.length]).1))

theorem mem_sides {h : List (K × K)} {d : K × K} : d ∈ hullSides h ↔ IsSide h d := by
  have hedge : ∀ v, v ∈ edges h ↔ ∃ i, ∃ hi : i < h.length, ∃ hj : (i + 1) % h.length < h.length,
      v = (h[i].1 - (h[(i + 1) % h.length]).1, h[i].2 - (h[(i + 1) % h.length]).2) := by
    intro v
    unfold edges
    constructor
    · intro hv
      obtain ⟨⟨p, i⟩, hp, rfl⟩ := List.mem_map.1 hv
      have hp' := List.mk_mem_zipIdx_iff_getElem?.1 hp
      obtain ⟨hi, rfl⟩ := List.getElem?_eq_some_iff.1 hp'
      have hj : (i + 1) % h.length < h.length := Nat.mod_lt _ (by omega)
      exact ⟨i, hi, hj, by simp [List.getD_eq_getElem?_getD, List.getElem?_eq_getElem hj]⟩
    · rintro ⟨i, hi, hj, rfl⟩
      refine List.mem_map.2 ⟨(h[i], i), List.mk_mem_zipIdx_iff_getElem?.2 (List.getElem?_eq_getElem hi), ?_⟩
      simp [List.getD_eq_getElem?_getD, List.getElem?_eq_getElem hj]
  unfold hullSides
  rw [List.mem_append, List.mem_map, hedge]
  constructor
  · rintro (⟨i, hi, hj, rfl⟩ | ⟨v, hv, rfl⟩)
    · exact ⟨i, hi, hj, Or.inl rfl⟩
    · obtain ⟨i, hi, hj, rfl⟩ := (hedge v).1 hv
      exact ⟨i, hi, hj, Or.inr rfl⟩
  · rintro ⟨i, hi, hj, rfl | rfl⟩
    · exact Or.inl ⟨i, hi, hj, rfl⟩
    · exact Or.inr ⟨_, (hedge _).2 ⟨i, hi, hj, rfl⟩, rfl⟩

theorem nrm_pos {nrm : K × K → K} (hn : IsNorm2 nrm) {v : K × K} (hv : v ≠ (0, 0)) : 0 < nrm v := by
  obtain ⟨h1, h2⟩ := hn v
  rcases h1.lt_or_eq with h | h
  · exact h
  · rw [← h] at h2
    exfalso
    apply hv
    have h3 : v.1 * v.1 = 0 := by nlinarith [mul_self_nonneg v.1, mul_self_nonneg v.2]
    have h4 : v.2 * v.2 = 0 := by nlinarith [mul_self_nonneg v.1, mul_self_nonneg v.2]
    exact Prod.ext (mul_self_eq_zero.1 h3) (mul_self_eq_zero.1 h4)

/-- The parameter of a projection on a unit vector is a positive multiple of the product with the vector. -/
theorem paramT_unit {nrm : K × K → K} (hn : IsNorm2 nrm) {v : K × K} (hv : v ≠ (0, 0)) (a : K × K) :
    paramT a (v.1 / nrm v, v.2 / nrm v) = dot2 a v / nrm v := by
  have h0 := nrm_pos hn hv
  have h2 := (hn v).2
  have h1 : dot2 (v.1 / nrm v, v.2 / nrm v) (v.1 / nrm v, v.2 / nrm v) = 1 := by
    unfold dot2
    field_simp
    nlinarith
  unfold paramT
  rw [h1, div_one]
  unfold dot2
  field_simp

/-- A direction is found to separate exactly if it does. -/
theorem axisSep_iff {nrm : K × K → K} (hn : IsNorm2 nrm) {v : K × K} (hv : v ≠ (0, 0)) (p : K × K) (l : List (K × K)) (q : K × K)
    (m : List (K × K)) : axisSep p l q m (unit2 nrm v) = true ↔ SepBy v (p :: l) (q :: m) := by
  have h0 := nrm_pos hn hv
  unfold unit2
  rw [if_neg hv]
  simp only [axisSep]
  generalize hs : ((v.1 / nrm v, v.2 / nrm v) : K × K) = s
  have hp : ∀ a, paramT a s = dot2 a v / nrm v := by intro a; rw [← hs]; exact paramT_unit hn hv a
  have A1 := lo_le (l.map (paramT · s)) (paramT p s)
  have A2 := le_hi (l.map (paramT · s)) (paramT p s)
  have A3 := lo_mem (l.map (paramT · s)) (paramT p s)
  have A4 := hi_mem (l.map (paramT · s)) (paramT p s)
  have B1 := lo_le (m.map (paramT · s)) (paramT q s)
  have B2 := le_hi (m.map (paramT · s)) (paramT q s)
  have B3 := lo_mem (m.map (paramT · s)) (paramT q s)
  have B4 := hi_mem (m.map (paramT · s)) (paramT q s)
  have mc : ∀ (x : K × K) (k : List (K × K)), paramT x s :: k.map (paramT · s) = (x :: k).map (paramT · s) := fun _ _ => rfl
  rw [mc] at A3 A4 B3 B4
  generalize lo (paramT p s) (l.map (paramT · s)) = l1 at *
  generalize hi (paramT p s) (l.map (paramT · s)) = u1 at *
  generalize lo (paramT q s) (m.map (paramT · s)) = l2 at *
  generalize hi (paramT q s) (m.map (paramT · s)) = u2 at *
  have a1 : ∀ a ∈ p :: l, l1 ≤ paramT a s ∧ paramT a s ≤ u1 := by
    intro a ha
    rcases List.mem_cons.1 ha with rfl | h
    · exact ⟨A1.1, A2.1⟩
    · exact ⟨A1.2 _ (List.mem_map.2 ⟨a, h, rfl⟩), A2.2 _ (List.mem_map.2 ⟨a, h, rfl⟩)⟩
  have b1 : ∀ a ∈ q :: m, l2 ≤ paramT a s ∧ paramT a s ≤ u2 := by
    intro a ha
    rcases List.mem_cons.1 ha with rfl | h
    · exact ⟨B1.1, B2.1⟩
    · exact ⟨B1.2 _ (List.mem_map.2 ⟨a, h, rfl⟩), B2.2 _ (List.mem_map.2 ⟨a, h, rfl⟩)⟩
  obtain ⟨x1, hx1, e1⟩ := List.mem_map.1 A3
  obtain ⟨x2, hx2, e2⟩ := List.mem_map.1 A4
  obtain ⟨y1, hy1, f1⟩ := List.mem_map.1 B3
  obtain ⟨y2, hy2, f2⟩ := List.mem_map.1 B4
  simp only [Bool.not_eq_true', Bool.and_eq_false_iff, decide_eq_false_iff_not, not_lt]
  have hd : ∀ (a : K × K) (c : K), dot2 a v ≤ c ↔ paramT a s ≤ c / nrm v := by
    intro a c; rw [hp]; exact (div_le_div_iff_of_pos_right h0).symm
  have hd' : ∀ (a : K × K) (c : K), c ≤ dot2 a v ↔ c / nrm v ≤ paramT a s := by
    intro a c; rw [hp]; exact (div_le_div_iff_of_pos_right h0).symm
  have hc : ∀ c : K, c * nrm v / nrm v = c := fun c => by field_simp
  constructor
  · rintro (h | h)
    · refine ⟨u2 * nrm v, Or.inr ⟨fun b hb => ?_, fun a ha => ?_⟩⟩
      · rw [hd, hc]; exact (b1 b hb).2
      · rw [hd', hc]; exact h.trans (a1 a ha).1
    · refine ⟨u1 * nrm v, Or.inl ⟨fun b hb => ?_, fun a ha => ?_⟩⟩
      · rw [hd, hc]; exact (a1 b hb).2
      · rw [hd', hc]; exact h.trans (b1 a ha).1
  · rintro ⟨c, ⟨h1, h2⟩ | ⟨h1, h2⟩⟩
    · right
      rw [← f1, ← e2]
      exact ((hd _ _).1 (h1 _ hx2)).trans ((hd' _ _).1 (h2 _ hy1))
    · left
      rw [← f2, ← e1]
      exact ((hd _ _).1 (h1 _ hy2)).trans ((hd' _ _).1 (h2 _ hx1))

/-- **C424** (part).  For hulls whose vertices that follow each other around are different, `ch2d_sep` says "separable" exactly if a line
along a side of one of the two hulls, or at a right angle to one, has the hulls on different sides (they may touch it). -/
theorem C424_partial {nrm : K × K → K} (hn : IsNorm2 nrm) {h1 h2 : List (K × K)} (n1 : h1 ≠ []) (n2 : h2 ≠ [])
    (d1 : ¬ IsSide h1 (0, 0)) (d2 : ¬ IsSide h2 (0, 0)) :
    ∃ r, ch2dSep nrm h1 h2 = some r ∧ (r = true ↔ ∃ d, d ≠ (0, 0) ∧ (IsSide h1 d ∨ IsSide h2 d) ∧ SepBy d h1 h2) := by
  obtain ⟨p, l, rfl⟩ := List.exists_cons_of_ne_nil n1
  obtain ⟨q, m, rfl⟩ := List.exists_cons_of_ne_nil n2
  refine ⟨_, rfl, ?_⟩
  rw [List.any_eq_true]
  constructor
  · rintro ⟨o, ho, hs⟩
    obtain ⟨v, hv, rfl⟩ := List.mem_map.1 ho
    rw [List.mem_append, mem_sides, mem_sides] at hv
    have hv0 : v ≠ (0, 0) := by
      rintro rfl
      rcases hv with h | h
      · exact d1 h
      · exact d2 h
    exact ⟨v, hv0, hv, (axisSep_iff hn hv0 _ _ _ _).1 hs⟩
  · rintro ⟨v, hv0, hv, hs⟩
    refine ⟨unit2 nrm v, List.mem_map.2 ⟨v, ?_, rfl⟩, (axisSep_iff hn hv0 _ _ _ _).2 hs⟩
    rw [List.mem_append, mem_sides, mem_sides]
    exact hv

/-- **C424** refuted.  If two vertices of a hull that follow each other are equal, in particular if the hull is one point, the answer is
"separable", whatever the other hull. -/
theorem C424_repeated_refuted (nrm : K × K → K) {h1 h2 : List (K × K)} (n1 : h1 ≠ []) (n2 : h2 ≠ [])
    (d : IsSide h1 (0, 0) ∨ IsSide h2 (0, 0)) : ch2dSep nrm h1 h2 = some true := by
  obtain ⟨p, l, rfl⟩ := List.exists_cons_of_ne_nil n1
  obtain ⟨q, m, rfl⟩ := List.exists_cons_of_ne_nil n2
  simp only [ch2dSep, Option.some.injEq, List.any_eq_true]
  refine ⟨none, List.mem_map.2 ⟨(0, 0), ?_, by simp [unit2]⟩, rfl⟩
  rw [List.mem_append, mem_sides, mem_sides]
  exact d

/-- A point in the middle of a square is "separable" from it. -/
theorem C424_point_refuted (nrm : K × K → K) : ch2dSep nrm [((1 : K), 1)] [(0, 0), (2, 0), (2, 2), (0, 2)] = some true :=
  C424_repeated_refuted nrm (by simp) (by simp) (Or.inl ⟨0, by simp, by simp, Or.inl (by simp)⟩)

/-- For two squares that overlap the answer of `C424_partial` is "not separable", for two apart it is "separable". -/
example : ∀ {nrm : ℚ × ℚ → ℚ}, IsNorm2 nrm → ch2dSep nrm [((0 : ℚ), (0 : ℚ)), (2, 0), (2, 2), (0, 2)] [(3, 0), (5, 0), (5, 2), (3, 2)] = some true := by
  intro nrm hn
  have key : ∀ h : List (ℚ × ℚ), (0, 0) ∉ hullSides h → ¬ IsSide h (0, 0) := fun h h' hs => h' (mem_sides.2 hs)
  obtain ⟨r, hr, hi⟩ := C424_partial hn (h1 := [((0 : ℚ), (0 : ℚ)), (2, 0), (2, 2), (0, 2)]) (h2 := [(3, 0), (5, 0), (5, 2), (3, 2)]) (by simp) (by simp)
    (key _ (by decide +kernel)) (key _ (by decide +kernel))
  rw [hr, hi.2 ⟨(2, 0), by decide +kernel, Or.inl (mem_sides.1 (by decide +kernel)), 4, Or.inl ⟨by decide +kernel, by decide +kernel⟩⟩]

/-! ## Directions -/

/-- The common point of a bilinear piece with control points `p, p, a, b` at `(u, v)`. -/
def patch (p a b : V3 K) (u v : K) : V3 K :=
  ⟨(1 - v) * ((1 - u) * p.x + u * p.x) + v * ((1 - u) * a.x + u * b.x), (1 - v) * ((1 - u) * p.y + u * p.y) + v * ((1 - u) * a.y + u * b.y),
   (1 - v) * ((1 - u) * p.z + u * p.z) + v * ((1 - u) * a.z + u * b.z)⟩

/-- The quadratic curve with three control points. -/
def quad (p a b : V3 K) (t : K) : V3 K :=
  ⟨(1 - t) * (1 - t) * p.x + 2 * t * (1 - t) * a.x + t * t * b.x, (1 - t) * (1 - t) * p.y + 2 * t * (1 - t) * a.y + t * t * b.y,
   (1 - t) * (1 - t) * p.z + 2 * t * (1 - t) * a.z + t * t * b.z⟩

theorem nrm3_eq {nrm : V3 K → K} (hn : IsNorm3 nrm) {v : V3 K} {r : K} (hr : 0 ≤ r) (h : v.x * v.x + v.y * v.y + v.z * v.z = r * r) : nrm v = r := by
  obtain ⟨h1, h2⟩ := hn v
  rw [h] at h2
  exact (mul_self_inj h1 hr).1 h2

/-- **C425** refuted.  A piece of a surface and a piece of a curve that start at `p` and meet a second time, in the middle of both, are
found to be separable, and the pair is dropped: the projection to the plane does not keep hulls of directions. -/
theorem C425_refuted {nrm2 : K × K → K} (hn2 : IsNorm2 nrm2) {nrm : V3 K → K} (hn : IsNorm3 nrm) {rtol atol : K} (ha0 : 0 ≤ atol)
    (ha : atol < 1 / 4) (eps : K) (angle : K × K → K) :
    ∃ p a b c d : V3 K, (∃ u v t, 0 < u ∧ u < 1 ∧ 0 < v ∧ v < 1 ∧ 0 < t ∧ t < 1 ∧ patch p a b u v = quad p c d t ∧ quad p c d t ≠ p) ∧
      pieceSep nrm2 nrm rtol atol eps angle p [p, p, a, b] [p, c, d] = some true := by
  refine ⟨⟨0, 0, 0⟩, ⟨1, 0, 0⟩, ⟨0, 1, 0⟩, ⟨1 / 4, 1 / 4, -1 / 48⟩, ⟨1 / 2, 1 / 2, 1 / 24⟩,
    ⟨1 / 2, 1 / 2, 1 / 2, by norm_num, by norm_num, by norm_num, by norm_num, by norm_num, by norm_num, ?_, ?_⟩, ?_⟩
  · simp only [patch, quad, V3.mk.injEq]; norm_num
  · intro h
    have := congrArg V3.x h
    simp only [quad] at this
    norm_num at this
  · have c0 : allclose rtol atol (⟨0, 0, 0⟩ : V3 K) ⟨0, 0, 0⟩ = true := by simp [allclose, ha0]
    have c1 : allclose rtol atol (⟨1, 0, 0⟩ : V3 K) ⟨0, 0, 0⟩ = false := by
      simp only [allclose, Bool.and_eq_false_iff, decide_eq_false_iff_not, not_le]
      left; left; norm_num; linarith
    have c2 : allclose rtol atol (⟨0, 1, 0⟩ : V3 K) ⟨0, 0, 0⟩ = false := by
      simp only [allclose, Bool.and_eq_false_iff, decide_eq_false_iff_not, not_le]
      left; right; norm_num; linarith
    have c3 : allclose rtol atol (⟨1 / 4, 1 / 4, -1 / 48⟩ : V3 K) ⟨0, 0, 0⟩ = false := by
      simp only [allclose, Bool.and_eq_false_iff, decide_eq_false_iff_not, not_le]
      left; left; rw [sub_zero, abs_zero, mul_zero, add_zero, abs_of_pos (by norm_num : (0 : K) < 1 / 4)]; exact ha
    have c4 : allclose rtol atol (⟨1 / 2, 1 / 2, 1 / 24⟩ : V3 K) ⟨0, 0, 0⟩ = false := by
      simp only [allclose, Bool.and_eq_false_iff, decide_eq_false_iff_not, not_le]
      left; left; rw [sub_zero, abs_zero, mul_zero, add_zero, abs_of_pos (by norm_num : (0 : K) < 1 / 2)]; linarith
    have n1 : nrm ⟨1, 0, 0⟩ = 1 := nrm3_eq hn (by norm_num) (by norm_num)
    have n2 : nrm ⟨0, 1, 0⟩ = 1 := nrm3_eq hn (by norm_num) (by norm_num)
    have n3 : nrm ⟨1 / 4, 1 / 4, -1 / 48⟩ = 17 / 48 := nrm3_eq hn (by norm_num) (by norm_num)
    have n4 : nrm ⟨1 / 2, 1 / 2, 1 / 24⟩ = 17 / 24 := nrm3_eq hn (by norm_num) (by norm_num)
    have s1 : projected nrm rtol atol ⟨0, 0, 0⟩ [⟨0, 0, 0⟩, ⟨0, 0, 0⟩, ⟨1, 0, 0⟩, ⟨0, 1, 0⟩] = [((1 : K), (0 : K)), (0, 1)] := by
      simp [projected, c0, c1, c2, n1, n2, centerProj]
    have s2 : projected nrm rtol atol ⟨0, 0, 0⟩ [⟨0, 0, 0⟩, ⟨1 / 4, 1 / 4, -1 / 48⟩, ⟨1 / 2, 1 / 2, 1 / 24⟩] = [((2 / 3 : K), (2 / 3 : K)), (3 / 4, 3 / 4)] := by
      have f : ([⟨0, 0, 0⟩, ⟨1 / 4, 1 / 4, -1 / 48⟩, ⟨1 / 2, 1 / 2, 1 / 24⟩] : List (V3 K)).filter (fun q => !allclose rtol atol q ⟨0, 0, 0⟩) =
          [⟨1 / 4, 1 / 4, -1 / 48⟩, ⟨1 / 2, 1 / 2, 1 / 24⟩] := by
        rw [List.filter_cons_of_neg (by rw [c0]; simp), List.filter_cons_of_pos (by rw [c3]; simp), List.filter_cons_of_pos (by rw [c4]; simp)]
        rfl
      have g1 : centerProj (⟨0, 0, 1⟩ : V3 K) ⟨1 / 4 / (17 / 48), 1 / 4 / (17 / 48), -1 / 48 / (17 / 48)⟩ = (2 / 3, 2 / 3) := by
        unfold centerProj
        rw [if_neg (by norm_num)]
        norm_num
      have g2 : centerProj (⟨0, 0, 1⟩ : V3 K) ⟨1 / 2 / (17 / 24), 1 / 2 / (17 / 24), 1 / 24 / (17 / 24)⟩ = (3 / 4, 3 / 4) := by
        unfold centerProj
        rw [if_neg (by norm_num)]
        norm_num
      unfold projected
      rw [f]
      simp only [List.map_cons, List.map_nil, sub_zero, n3, n4, g1, g2]
    unfold pieceSep
    rw [s1, s2]
    have e1 : Poly.convexHull2d eps angle [((1 : K), (0 : K)), (0, 1)] = [(1, 0), (0, 1)] := by simp [Poly.convexHull2d]
    have e2 : Poly.convexHull2d eps angle [((2 / 3 : K), (2 / 3 : K)), (3 / 4, 3 / 4)] = [(2 / 3, 2 / 3), (3 / 4, 3 / 4)] := by simp [Poly.convexHull2d]
    rw [e1, e2]
    simp only [ch2dSep, Option.some.injEq, List.any_eq_true]
    refine ⟨unit2 nrm2 (-1, -1), List.mem_map.2 ⟨(-1, -1), ?_, rfl⟩, (axisSep_iff hn2 (by simp) _ _ _ _).2 ⟨-1, Or.inr ⟨?_, ?_⟩⟩⟩
    · rw [List.mem_append, mem_sides]
      exact Or.inl ⟨0, by simp, by simp, Or.inr (by norm_num)⟩
    · intro b hb
      simp only [List.mem_cons, List.not_mem_nil, or_false] at hb
      rcases hb with rfl | rfl <;> norm_num [dot2]
    · intro b hb
      simp only [List.mem_cons, List.not_mem_nil, or_false] at hb
      rcases hb with rfl | rfl <;> norm_num [dot2]

/-- **C425** refuted: opposite directions, to the pole and away from it, have the same image. -/
theorem C425_pole_refuted : centerProj (⟨0, 0, 1⟩ : V3 K) ⟨0, 0, 1⟩ = centerProj (⟨0, 0, 1⟩ : V3 K) ⟨0, 0, -1⟩ := by
  simp [centerProj]

/-- **C425** (part).  A line through the origin of the plane stands for a plane through the pole: where such a line separates the images
of directions that are not at the pole, that plane separates the directions. -/
theorem C425_partial {n : V3 K} (hz : n.z < 1) (d : K × K) :
    (0 ≤ dot2 (centerProj ⟨0, 0, 1⟩ n) d ↔ 0 ≤ n.x * d.1 + n.y * d.2) ∧ (dot2 (centerProj ⟨0, 0, 1⟩ n) d ≤ 0 ↔ n.x * d.1 + n.y * d.2 ≤ 0) := by
  have h1 : 0 < 1 - n.z := by linarith
  have h2 : n.z - 1 ≠ 0 := by intro h; linarith
  have e : dot2 (centerProj ⟨0, 0, 1⟩ n) d = (n.x * d.1 + n.y * d.2) / (1 - n.z) := by
    unfold centerProj dot2
    rw [if_neg (by show (1 : K) ≠ n.z; intro h; linarith)]
    dsimp only
    field_simp
    ring
  rw [e]
  exact ⟨by rw [le_div_iff₀ h1, zero_mul], by rw [div_le_iff₀ h1, zero_mul]⟩

example : centerProj (⟨0, 0, 1⟩ : V3 ℚ) ⟨3 / 5, 0, -4 / 5⟩ = (1 / 3, 0) ∧ centerProj (⟨0, 0, 1⟩ : V3 ℚ) ⟨3 / 5, 0, 4 / 5⟩ = (3, 0) := by decide +kernel

end Verif.Sph
