import Verif.Tes.Props

/-! # C314–C316: tessellation of surfaces -/

set_option linter.unusedSectionVars false

namespace Verif.Tes

open Verif.Rtn (linspace uvs)

variable {α K : Type}

/-! ## C314: the counts -/

/-- Two counts are kept; a count in the second direction alone is used for both. -/
theorem C314_counts_partial (u v : ℕ) : counts (some u) (some v) = (some u, some v) ∧ counts none (some v) = (some v, some v) := ⟨rfl, rfl⟩

/-- A count in the first direction alone has no influence at all. -/
theorem C314_first_refuted [Field K] (trunc : K → ℕ) (ratio : K) (u u' : ℕ) :
    counts (some u) none = counts (some u') none ∧ countsDensity trunc ratio (some u) none = countsDensity trunc ratio (some u') none ∧
      (u ≠ 25 → (counts (some u) none).1 ≠ some u) := by
  refine ⟨rfl, rfl, fun h e => h ?_⟩
  have : (some 25 : Option ℕ) = some u := e
  simpa using this.symm

/-- With density one count gives the other by the ratio: `int(v / ratio)` for a second count alone; in place of a first count alone 25 is used.  Two
counts are kept. -/
theorem C314_density_partial [Field K] (trunc : K → ℕ) (ratio : K) (u v : ℕ) :
    countsDensity trunc ratio none (some v) = some (trunc (v / ratio), v) ∧ countsDensity trunc ratio (some u) none = some (25, trunc (ratio * 25)) ∧
      countsDensity trunc ratio (some u) (some v) = some (u, v) := by
  refine ⟨?_, ?_, rfl⟩
  · show some (trunc (1 / ratio * v), v) = _
    rw [div_mul_eq_mul_div, one_mul]
  · unfold countsDensity; norm_num

example : countsDensity (fun x : ℚ => (x.num / x.den).toNat) (3 / 2) none (some 10) = some (6, 10) := by decide +kernel

/-- Without counts there is no default: no surface is tessellated. -/
theorem C314_default_refuted [Field K] (trunc : K → ℕ) (ratio : K) :
    counts none none = (none, none) ∧ countsDensity trunc ratio none none = none := ⟨rfl, rfl⟩

/-! ## C315: vertices and segments -/

theorem addTrims_eq (ps : List (List α)) (m : ℕ) (es : List (ℕ × ℕ)) (vs : List α) :
    addTrims ps m es vs = (es ++ edgesFrom (ps.map List.length) m, vs ++ ps.flatten) := by
  induction ps generalizing m es vs with
  | nil => simp [addTrims, edgesFrom]
  | cons p ps ih =>
    rw [addTrims, ih, length_seg]
    have e : (segmentsByLoop p.length 0).map (fun e => (e.1 + m, e.2 + m)) = segmentsByLoop p.length m := by
      unfold segmentsByLoop
      rw [List.map_map]
      rfl
    rw [e]
    simp [edgesFrom, List.append_assoc]

variable [Field K]

/-- The segments are the edges of the closed polygon around the parameter rectangle and of the closed polygons of the trims. -/
theorem C315_segments_partial (lo hi : K × K) (uc vc : ℕ) (trims : List (List (K × K))) (mem : ℕ → K × K) :
    look (tessParams lo hi uc vc trims mem).2 (tessParams lo hi uc vc trims mem).1 =
      (ring (boundary lo hi uc vc)).map present ++ (trims.flatMap ring).map present := by
  have e1 : (tessParams lo hi uc vc trims mem).1 = edgesFrom ((boundary lo hi uc vc :: trims).map List.length) ([] : List (K × K)).length := by
    simp only [tessParams, addTrims_eq, List.map_cons, edgesFrom]
    simp
  have e2 : (tessParams lo hi uc vc trims mem).2 = [] ++ (boundary lo hi uc vc :: trims).flatten ++ inner lo hi uc vc mem := by
    simp [tessParams, addTrims_eq, List.append_assoc]
  rw [e1, e2, look_edgesFrom (boundary lo hi uc vc :: trims) []]
  simp

/-- No value can be tessellated, whatever the counts: a surface cannot be unpacked, a pair of corners cannot be called. -/
theorem C315_raises_refuted {P : Type} (tri : List (ℕ × ℕ) × List (K × K) → List (K × K)) (s : Val K P) (trims : List (List (K × K)))
    (uc vc : Option ℕ) (mem : ℕ → K × K) : tessellateSurface tri s trims uc vc mem = none := by
  cases s with
  | surface lo hi f => rfl
  | corners lo hi =>
    unfold tessellateSurface
    cases h1 : (counts uc vc).1 <;> cases h2 : (counts uc vc).2 <;> simp [Val.unpack, Val.call, h1, h2]

variable [LinearOrder K] [IsStrictOrderedRing K]

theorem linspace2_last (p q : K × K) (n : ℕ) (hn : 2 ≤ n) : (linspace2 p q n)[n - 1]? = some q := by
  unfold linspace2
  rw [List.getElem?_map, List.getElem?_range (by omega)]
  simp only [Option.map_some, Option.some.injEq]
  rw [(Rtn.C299_linspace p.1 q.1 n hn).2.1, (Rtn.C299_linspace p.2 q.2 n hn).2.1]

theorem linspace2_first (p q : K × K) (n : ℕ) (hn : 2 ≤ n) : (linspace2 p q n)[0]? = some p := by
  unfold linspace2
  rw [List.getElem?_map, List.getElem?_range (by omega)]
  simp only [Option.map_some, Option.some.injEq]
  rw [(Rtn.C299_linspace p.1 q.1 n hn).1, (Rtn.C299_linspace p.2 q.2 n hn).1]

theorem length_lin2 (p q : K × K) (n : ℕ) : (linspace2 p q n).length = n := by simp [linspace2]

/-- All four corners occur twice, so that the polygon around the rectangle has edges of length zero in each of them. -/
theorem C315_corners_refuted (lo hi : K × K) (uc vc : ℕ) (hu : 2 ≤ uc) (hv : 2 ≤ vc) :
    ∀ c : K × K, (c.1 = lo.1 ∨ c.1 = hi.1) → (c.2 = lo.2 ∨ c.2 = hi.2) → (c, c) ∈ ring (boundary lo hi uc vc) := by
  have hlen : (boundary lo hi uc vc).length = uc + vc + uc + vc := by simp [boundary, length_lin2]; omega
  have mem : ∀ i, ∀ h : i < (boundary lo hi uc vc).length, ∀ c, (boundary lo hi uc vc)[i]? = some c →
      (boundary lo hi uc vc)[(i + 1) % (uc + vc + uc + vc)]? = some c → (c, c) ∈ ring (boundary lo hi uc vc) := by
    intro i h c h1 h2
    have h3 := ring_get (boundary lo hi uc vc) i h
    have e1 : (boundary lo hi uc vc)[i] = c := by rw [List.getElem?_eq_getElem h] at h1; simpa using h1
    have hj : (i + 1) % (boundary lo hi uc vc).length < (boundary lo hi uc vc).length := Nat.mod_lt _ (by omega)
    have e2 : (boundary lo hi uc vc)[(i + 1) % (boundary lo hi uc vc).length] = c := by
      rw [← hlen, List.getElem?_eq_getElem hj] at h2; simpa using h2
    rw [e1, e2] at h3
    exact List.mem_of_getElem? h3
  have getA : ∀ j, j < uc → (boundary lo hi uc vc)[j]? = (linspace2 (lo.1, lo.2) (hi.1, lo.2) uc)[j]? := by
    intro j hj
    unfold boundary
    rw [List.getElem?_append_left (by simp [length_lin2]; omega), List.getElem?_append_left (by simp [length_lin2]; omega),
      List.getElem?_append_left (by simp [length_lin2]; omega)]
  have getB : ∀ j, j < vc → (boundary lo hi uc vc)[uc + j]? = (linspace2 (hi.1, lo.2) (hi.1, hi.2) vc)[j]? := by
    intro j hj
    unfold boundary
    rw [List.getElem?_append_left (by simp [length_lin2]; omega), List.getElem?_append_left (by simp [length_lin2]; omega),
      List.getElem?_append_right (by simp [length_lin2]), length_lin2, Nat.add_sub_cancel_left]
  have getC : ∀ j, j < uc → (boundary lo hi uc vc)[uc + vc + j]? = (linspace2 (hi.1, hi.2) (lo.1, hi.2) uc)[j]? := by
    intro j hj
    unfold boundary
    rw [List.getElem?_append_left (by simp [length_lin2]; omega),
      List.getElem?_append_right (by simp [length_lin2]), List.length_append, length_lin2, length_lin2, Nat.add_sub_cancel_left]
  have getD : ∀ j, j < vc → (boundary lo hi uc vc)[uc + vc + uc + j]? = (linspace2 (lo.1, hi.2) (lo.1, lo.2) vc)[j]? := by
    intro j hj
    unfold boundary
    rw [List.getElem?_append_right (by simp [length_lin2]; omega), List.length_append, List.length_append, length_lin2, length_lin2, length_lin2,
      Nat.add_sub_cancel_left]
  rintro ⟨c1, c2⟩ (h1 | h1) (h2 | h2) <;> simp only at h1 h2 <;> subst h1 <;> subst h2
  · apply mem (uc + vc + uc + (vc - 1)) (by omega)
    · rw [getD _ (by omega), linspace2_last _ _ _ hv]
    · have : uc + vc + uc + (vc - 1) + 1 = uc + vc + uc + vc := by omega
      rw [this, Nat.mod_self, getA 0 (by omega), linspace2_first _ _ _ hu]
  · apply mem (uc + vc + (uc - 1)) (by omega)
    · rw [getC _ (by omega), linspace2_last _ _ _ hu]
    · have : uc + vc + (uc - 1) + 1 = uc + vc + uc + 0 := by omega
      rw [this, Nat.mod_eq_of_lt (by omega), getD 0 (by omega), linspace2_first _ _ _ hv]
  · apply mem (uc - 1) (by omega)
    · rw [getA _ (by omega), linspace2_last _ _ _ hu]
    · have : uc - 1 + 1 = uc + 0 := by omega
      rw [this, Nat.mod_eq_of_lt (by omega), getB 0 (by omega), linspace2_first _ _ _ hv]
  · apply mem (uc + (vc - 1)) (by omega)
    · rw [getB _ (by omega), linspace2_last _ _ _ hv]
    · have : uc + (vc - 1) + 1 = uc + vc + 0 := by omega
      rw [this, Nat.mod_eq_of_lt (by omega), getC 0 (by omega), linspace2_first _ _ _ hu]

theorem linspace_const (a : K) (n i : ℕ) : linspace a a n i = a := by
  unfold linspace
  split_ifs <;> simp

/-- The two corners of the inner rectangle are taken for the two intervals: on a square with equal counts all points inside are one
point near a corner. -/
theorem C315_inner_refuted (a b : K) (n : ℕ) (mem : ℕ → K × K) :
    ∀ p ∈ inner (a, a) (b, b) n n mem, p = (a + (b - a) / (n : K), b - (b - a) / (n : K)) := by
  intro p hp
  unfold inner uvs at hp
  rw [List.mem_map] at hp
  obtain ⟨k, hk, he⟩ := hp
  rw [List.mem_range] at hk
  rw [Rtn.uvOuter_spec _ _ _ _ 0 0 mem (by simp), if_pos ⟨Nat.zero_le _, by simpa using hk⟩] at he
  simp only [linspace_const] at he
  exact he.symm

example : inner (K := ℚ) (0, 0) (1, 1) 4 4 (fun _ => (7, 7)) = List.replicate 9 (1/4, 3/4) := by decide +kernel
/-- A rectangle wider than high: a point outside it. -/
example : ((2 : ℚ), 6) ∈ inner (K := ℚ) (0, 0) (8, 2) 4 4 (fun _ => (7, 7)) := by
  decide +kernel
example : boundary (K := ℚ) (0, 0) (2, 2) 3 2 = [(0, 0), (1, 0), (2, 0), (2, 0), (2, 2), (2, 2), (1, 2), (0, 2), (0, 2), (0, 0)] := by decide +kernel
example : (tessParams (K := ℚ) (0, 0) (2, 2) 2 2 [[(1, 1), (1, 2), (2, 1)]] (fun _ => (7, 7))).1 =
    [(0, 1), (1, 2), (2, 3), (3, 4), (4, 5), (5, 6), (6, 7), (7, 0), (8, 9), (9, 10), (10, 8)] := by decide +kernel

/-! ## C316: curves on surfaces -/

/-- The segments are the edges of the polygon of the curve; the other vertices are points of a grid inside it. -/
theorem C316_vertices_partial (inside : List (K × K) → K × K → Bool) (plgn : List (K × K)) (uc vc : ℕ) :
    look (tessCurve inside plgn uc vc).2 (tessCurve inside plgn uc vc).1 = (ring plgn).map present ∧
      ∃ more, (tessCurve inside plgn uc vc).2 = plgn ++ more ∧
        ∀ p, p ∈ more ↔ inside plgn p = true ∧ ∃ i j, i < uc ∧ j < vc ∧ p = (linspace 0 1 uc i, linspace 0 1 vc j) := by
  refine ⟨?_, _, rfl, ?_⟩
  · have := look_seg [] plgn (((List.range uc).flatMap fun i : ℕ => (List.range vc).map fun j : ℕ => (linspace (0 : K) 1 uc i, linspace (0 : K) 1 vc j)).filter (inside plgn))
    rw [List.length_nil, List.nil_append] at this
    exact this
  · intro p
    rw [List.mem_filter, List.mem_flatMap]
    constructor
    · rintro ⟨⟨i, hi, h⟩, hin⟩
      rw [List.mem_map] at h
      obtain ⟨j, hj, he⟩ := h
      exact ⟨hin, i, j, List.mem_range.1 hi, List.mem_range.1 hj, he.symm⟩
    · rintro ⟨hin, i, j, hi, hj, he⟩
      exact ⟨⟨i, List.mem_range.2 hi, List.mem_map.2 ⟨j, List.mem_range.2 hj, he.symm⟩⟩, hin⟩

/-- The grid is on the unit square wherever the surface is parametrised: a curve outside the unit square has no points inside it. -/
theorem C316_interval_refuted (inside : List (K × K) → K × K → Bool) (plgn : List (K × K)) (uc vc : ℕ) (hu : 2 ≤ uc) (hv : 2 ≤ vc)
    (hout : ∀ p, inside plgn p = true → p.1 < 0 ∨ 1 < p.1 ∨ p.2 < 0 ∨ 1 < p.2) : (tessCurve inside plgn uc vc).2 = plgn := by
  unfold tessCurve
  simp only
  rw [List.append_right_eq_self, List.filter_eq_nil_iff]
  intro p hp hin
  rw [List.mem_flatMap] at hp
  obtain ⟨i, hi, h⟩ := hp
  rw [List.mem_map] at h
  obtain ⟨j, hj, rfl⟩ := h
  have h1 := (Rtn.C299_linspace (0 : K) 1 uc hu).2.2.2 zero_le_one i (List.mem_range.1 hi)
  have h2 := (Rtn.C299_linspace (0 : K) 1 vc hv).2.2.2 zero_le_one j (List.mem_range.1 hj)
  rcases hout _ hin with g | g | g | g
  · exact absurd h1.1 (not_le.2 g)
  · exact absurd h1.2 (not_le.2 g)
  · exact absurd h2.1 (not_le.2 g)
  · exact absurd h2.2 (not_le.2 g)

/-- A polygon over `[2, 4] × [2, 4]`, inside being its box. -/
example : tessCurve (K := ℚ) (fun _ p => decide (2 ≤ p.1 ∧ p.1 ≤ 4 ∧ 2 ≤ p.2 ∧ p.2 ≤ 4)) [(2, 2), (4, 2), (4, 4), (2, 4)] 3 3 =
    ([(0, 1), (1, 2), (2, 3), (3, 0)], [(2, 2), (4, 2), (4, 4), (2, 4)]) := by decide +kernel
example : (tessCurve (K := ℚ) (fun _ p => decide (0 < p.1 ∧ p.1 < 1 ∧ 0 < p.2 ∧ p.2 < 1)) [(0, 0), (1, 0), (1, 1), (0, 1)] 3 3).2 =
    [(0, 0), (1, 0), (1, 1), (0, 1), (1/2, 1/2)] := by decide +kernel

end Verif.Tes
