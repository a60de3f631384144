import Verif.Sinv.Model2
import Verif.Sinv.Props

set_option linter.unusedSectionVars false

/-! # Nearest points of a surface for many points (C476) -/

namespace Verif.Sinv

open Verif.Vec V3

variable {K : Type} [Field K] [LinearOrder K] [IsStrictOrderedRing K]

theorem span_step (l : List (K × K)) : ∀ (b r : DnC.Box K), DnC.Within r b → (∀ q ∈ l, DnC.InBox q r) →
    DnC.Within r (l.foldl (fun b q => (⟨min b.x0 q.1, max b.x1 q.1, min b.y0 q.2, max b.y1 q.2⟩ : DnC.Box K)) b) := by
  induction l with
  | nil => intro b r h _; exact h
  | cons q l ih =>
    intro b r h hq
    obtain ⟨h1, h2, h3, h4, h5, h6⟩ := h
    obtain ⟨q1, q2, q3, q4⟩ := hq q List.mem_cons_self
    refine ih _ r ⟨le_min h1 q1, (min_le_left _ _).trans (h2.trans (le_max_left _ _)), max_le h3 q2, le_min h4 q3,
      (min_le_left _ _).trans (h5.trans (le_max_left _ _)), max_le h6 q4⟩ fun x hx => hq x (List.mem_cons_of_mem _ hx)

theorem span_within (a : K × K) (l : List (K × K)) (r : DnC.Box K) (h : ∀ q ∈ a :: l, DnC.InBox q r) : DnC.Within r (span a l) := by
  obtain ⟨h1, h2, h3, h4⟩ := h a List.mem_cons_self
  exact span_step l _ r ⟨h1, le_rfl, h2, h3, le_rfl, h4⟩ fun q hq => h q (List.mem_cons_of_mem _ hq)

theorem within_self {r b : DnC.Box K} (h : DnC.Within r b) : DnC.Within b b := ⟨le_rfl, h.2.1, le_rfl, le_rfl, h.2.2.2.2.1, le_rfl⟩

theorem lin_in (a b : K) (h : a ≤ b) (n i : Nat) (hi : i < n) : a ≤ Srf.lin a b n i ∧ Srf.lin a b n i ≤ b := by
  unfold Srf.lin
  split_ifs with hn
  · exact ⟨le_rfl, h⟩
  · have hp : (0 : K) < ((n - 1 : Nat) : K) := by exact_mod_cast (by omega : 0 < n - 1)
    have hi' : (i : K) ≤ ((n - 1 : Nat) : K) := by exact_mod_cast (by omega : i ≤ n - 1)
    have hi0 : (0 : K) ≤ (i : K) := Nat.cast_nonneg i
    have hd : 0 ≤ b - a := sub_nonneg.2 h
    constructor
    · have := div_nonneg (mul_nonneg hd hi0) hp.le
      linarith
    · have : (b - a) * i / ((n - 1 : Nat) : K) ≤ b - a := by
        rw [div_le_iff₀ hp]; exact mul_le_mul_of_nonneg_left hi' hd
      linarith

/-- The parameters of the quads lie in the range. -/
theorem quads_in (ev : K × K → V3 K) (r : DnC.Box K) (hr : DnC.Within r r) (nu nv : Nat) (q : (K × K) × (K × K) × (K × K) × (K × K))
    (hq : q ∈ Srf.quads r.x0 r.x1 r.y0 r.y1 nu nv) : ∀ x ∈ (mkQuad ev q).uvs, DnC.InBox x r := by
  simp only [Srf.quads, List.mem_flatMap, List.mem_range] at hq
  obtain ⟨i, hi, j, hj, hq⟩ := hq
  split_ifs at hq with hc
  · cases hq
  · simp only [List.mem_singleton] at hq
    subst hq
    have hx := fun m (hm : m < nu) => lin_in r.x0 r.x1 hr.2.1 nu m hm
    have hy := fun m (hm : m < nv) => lin_in r.y0 r.y1 hr.2.2.2.2.1 nv m hm
    have a0 := hx i hi
    have a1 := hx (i + 1) (by omega)
    have b0 := hy j hj
    have b1 := hy (j + 1) (by omega)
    intro x hxm
    simp only [mkQuad, List.mem_cons, List.not_mem_nil, or_false] at hxm
    rcases hxm with rfl | rfl | rfl | rfl
    · exact ⟨a0.1, a0.2, b0.1, b0.2⟩
    · exact ⟨a1.1, a1.2, b0.1, b0.2⟩
    · exact ⟨a1.1, a1.2, b1.1, b1.2⟩
    · exact ⟨a0.1, a0.2, b1.1, b1.2⟩

/-- What the tree of the surface finds for a point: quads of the grid whose box contains it. -/
theorem tree_found (ev : K × K → V3 K) (r : DnC.Box K) (nu nv f : Nat) (hne : Srf.quads r.x0 r.x1 r.y0 r.y1 nu nv ≠ [])
    (hf : (Srf.quads r.x0 r.x1 r.y0 r.y1 nu nv).length ≤ 2 ^ f) :
    ∃ n, tree ev r nu nv (f + 1) = some n ∧ ∀ p, ∀ o ∈ (Bvh.containsPt n (toPt p)).flatten,
      ∃ q ∈ Srf.quads r.x0 r.x1 r.y0 r.y1 nu nv, o = mkQuad ev q ∧ Aabb.InBox 3 o.box.arr (toPt p) := by
  obtain ⟨n, e, _⟩ := tree_hit ev r nu nv f hne hf ⟨0, 0, 0⟩
  refine ⟨n, e, fun p o ho => ?_⟩
  obtain ⟨n', e', h⟩ := Bvh.C26_contains_point Quad.box ((Srf.quads r.x0 r.x1 r.y0 r.y1 nu nv).map (mkQuad ev)) (by simpa using hne)
    (by intro o ho; obtain ⟨q, _, rfl⟩ := List.mem_map.1 ho; exact good_quad ev q) f (by simpa using hf) (toPt p)
  obtain rfl : n = n' := Option.some.inj (e.symm.trans e')
  obtain ⟨l, hl, hol⟩ := List.mem_flatten.1 ho
  obtain ⟨o', ho', rfl⟩ := List.mem_map.1 (h.subset hl)
  obtain rfl := List.mem_singleton.1 hol
  obtain ⟨hm, hb⟩ := List.mem_filter.1 ho'
  obtain ⟨q, hq, rfl⟩ := List.mem_map.1 hm
  exact ⟨q, hq, rfl, by simpa using hb⟩

/-- The grid of 10 by 10 has 81 quads. -/
theorem quads_len (r : DnC.Box K) : (Srf.quads r.x0 r.x1 r.y0 r.y1 10 10).length = 81 := by
  simp [Srf.quads, List.range_succ]

/-- **C476, what holds: range and end.** On a proper range with a tolerance above zero the search ends for every point, and its result is
in the range.  Where boxes of the tree contain the point, the result is in the smallest rectangle with the parameters of their quads.
Missing: the result is the nearest point, refuted below. -/
theorem C476_range_partial [Archimedean K] (ev : K × K → V3 K) (tol : K) (ht : 0 < tol) (r : DnC.Box K) (hr : DnC.Within r r) :
    ∃ n, tree ev r 10 10 8 = some n ∧ ∀ p,
      (∃ k uv, closestOne ev tol k n r p = some uv) ∧ ∀ k uv, closestOne ev tol k n r p = some uv → DnC.InBox uv r ∧
        ∀ b : DnC.Box K, (Bvh.containsPt n (toPt p)).flatten ≠ [] →
          (∀ o ∈ (Bvh.containsPt n (toPt p)).flatten, ∀ x ∈ o.uvs, DnC.InBox x b) → DnC.InBox uv b := by
  have hlen := quads_len r
  obtain ⟨n, e, h⟩ := tree_found ev r 10 10 7 (by intro hc; rw [hc] at hlen; simp at hlen) (by rw [hlen]; norm_num)
  refine ⟨n, e, fun p => ?_⟩
  have hp := h p
  unfold closestOne
  cases hc : (Bvh.containsPt n (toPt p)).flatten with
  | nil =>
    obtain ⟨h1, h2⟩ := DnC.C81_search_partial (sqDist ev p) tol r hr ht
    exact ⟨h1, fun k uv huv => ⟨(h2 k uv huv).1, fun b hb => absurd rfl hb⟩⟩
  | cons o os =>
    rw [hc] at hp
    have hin : ∀ x ∈ (o :: os).flatMap Quad.uvs, DnC.InBox x r := by
      intro x hx
      obtain ⟨o', ho', hx'⟩ := List.mem_flatMap.1 hx
      obtain ⟨q, hq, rfl, _⟩ := hp o' ho'
      exact quads_in ev r hr 10 10 q hq x hx'
    cases hu : (o :: os).flatMap Quad.uvs with
    | nil =>
      obtain ⟨q, _, rfl, _⟩ := hp o List.mem_cons_self
      simp [mkQuad] at hu
    | cons a l =>
      rw [hu] at hin
      simp only [hu]
      have hw := span_within a l r hin
      obtain ⟨h1, h2⟩ := DnC.C81_search_partial (sqDist ev p) tol (span a l) (within_self hw) ht
      refine ⟨h1, fun k uv huv => ?_⟩
      obtain ⟨u1, u2, u3, u4⟩ := (h2 k uv huv).1
      obtain ⟨w1, _, w3, w4, _, w6⟩ := hw
      refine ⟨⟨w1.trans u1, u2.trans w3, w4.trans u3, u4.trans w6⟩, fun b _ hb => ?_⟩
      have hb' : ∀ x ∈ a :: l, DnC.InBox x b := by
        rw [← hu]
        intro x hx
        obtain ⟨o', ho', hx'⟩ := List.mem_flatMap.1 hx
        exact hb o' ho' x hx'
      obtain ⟨w1, _, w3, w4, _, w6⟩ := span_within a l b hb'
      exact ⟨w1.trans u1, u2.trans w3, w4.trans u3, u4.trans w6⟩

theorem span_grow (l : List (K × K)) : ∀ (b : DnC.Box K) (x : K × K), DnC.InBox x b ∨ x ∈ l →
    DnC.InBox x (l.foldl (fun b q => (⟨min b.x0 q.1, max b.x1 q.1, min b.y0 q.2, max b.y1 q.2⟩ : DnC.Box K)) b) := by
  induction l with
  | nil => rintro b x (h | h)
           · exact h
           · cases h
  | cons q l ih =>
    intro b x h
    refine ih _ x ?_
    rcases h with ⟨h1, h2, h3, h4⟩ | h
    · exact .inl ⟨(min_le_left _ _).trans h1, h2.trans (le_max_left _ _), (min_le_left _ _).trans h3, h4.trans (le_max_left _ _)⟩
    · rcases List.mem_cons.1 h with rfl | h
      · exact .inl ⟨min_le_right _ _, le_max_right _ _, min_le_right _ _, le_max_right _ _⟩
      · exact .inr h

/-- **C476, where the search looks.** If boxes of the tree contain the point, the search is on a rectangle with the parameters of all of their
quads, and on the smallest such rectangle. -/
theorem C476_rectangle (ev : K × K → V3 K) (tol : K) (n : Bvh.Node K (Quad K)) (r : DnC.Box K) (p : V3 K)
    (hq : ∃ o ∈ (Bvh.containsPt n (toPt p)).flatten, o.uvs ≠ []) :
    ∃ b : DnC.Box K, (∀ k, closestOne ev tol k n r p = DnC.min2d (sqDist ev p) tol b k) ∧
      (∀ o ∈ (Bvh.containsPt n (toPt p)).flatten, ∀ x ∈ o.uvs, DnC.InBox x b) ∧
      ∀ b' : DnC.Box K, (∀ o ∈ (Bvh.containsPt n (toPt p)).flatten, ∀ x ∈ o.uvs, DnC.InBox x b') → DnC.Within b' b := by
  unfold closestOne
  cases hc : (Bvh.containsPt n (toPt p)).flatten with
  | nil => obtain ⟨o, ho, _⟩ := hq; rw [hc] at ho; cases ho
  | cons o os =>
    rw [hc] at hq
    cases hu : (o :: os).flatMap Quad.uvs with
    | nil =>
      obtain ⟨o', ho', h⟩ := hq
      exact absurd (List.flatMap_eq_nil_iff.1 hu o' ho') h
    | cons a l =>
      refine ⟨span a l, fun k => by simp only [hu], fun o' ho' x hx => ?_, fun b' hb' => ?_⟩
      · have hm : x ∈ a :: l := by rw [← hu]; exact List.mem_flatMap.2 ⟨o', ho', hx⟩
        refine span_grow l _ x ?_
        rcases List.mem_cons.1 hm with rfl | hm
        · exact .inl ⟨le_rfl, le_rfl, le_rfl, le_rfl⟩
        · exact .inr hm
      · refine span_within a l b' fun x hx => ?_
        rw [← hu] at hx
        obtain ⟨o', ho', hx'⟩ := List.mem_flatMap.1 hx
        exact hb' o' ho' x hx'

/-- **C476, one result for each point**: the results have the order of the points, and a result does not depend on the other points. -/
theorem C476_each (ev : K × K → V3 K) (tol : K) (k fuel : Nat) (r : DnC.Box K) (pts : List (V3 K)) (res : List (K × K))
    (h : closestPoints ev tol k fuel r pts = some res) :
    res.length = pts.length ∧ ∀ i (hi : i < pts.length) (hi' : i < res.length),
      closestPoints ev tol k fuel r [pts[i]] = some [res[i]] := by
  unfold closestPoints at h ⊢
  cases hn : tree ev r 10 10 fuel with
  | none => rw [hn] at h; cases h
  | some n =>
    rw [hn] at h
    dsimp only at h ⊢
    induction pts generalizing res with
    | nil =>
      obtain rfl : ([] : List (K × K)) = res := by simpa using h
      exact ⟨rfl, fun i hi => absurd hi (by simp)⟩
    | cons p ps ih =>
      rw [List.mapM_cons] at h
      cases h1 : closestOne ev tol k n r p with
      | none => rw [h1] at h; cases h
      | some a =>
        cases h2 : ps.mapM (closestOne ev tol k n r) with
        | none => rw [h1, h2] at h; cases h
        | some l =>
          rw [h1, h2] at h
          obtain rfl : a :: l = res := Option.some.inj h
          obtain ⟨i1, i2⟩ := ih l h2
          refine ⟨by simp [i1], fun i hi hi' => ?_⟩
          cases i with
          | zero => simp [h1]
          | succ i => exact i2 i (by simpa using hi) (by simpa using hi')

/-- A band through ten points, straight between them: the first piece rises, the last one lies on the plane at height zero below it. -/
def band (uv : ℚ × ℚ) : V3 ℚ :=
  let pts : List (ℚ × ℚ) := [(0, 0), (10, 10), (20, 10), (20, -10), (0, -10), (-5, -10), (-5, -5), (-5, 0), (0, 0), (10, 0)]
  let w := 9 * uv.1
  let i := min 8 w.floor.toNat
  let a := pts.getD i (0, 0)
  let b := pts.getD (i + 1) (0, 0)
  ⟨a.1 + (b.1 - a.1) * (w - i), uv.2, a.2 + (b.2 - a.2) * (w - i)⟩

/-- **C476, refuted, nearest point.** A point a tenth above the last piece of the band is in a box of the first piece and in no other box: the
search looks at the first piece only, and the square of the distance of its result is a thousand times that of the nearest point. -/
theorem C476_nearest_refuted : ∃ uv, closestPoints band (1 / 1000) 30 8 ⟨0, 1, 0, 1⟩ [⟨9, 1 / 18, 1 / 10⟩] = some [uv] ∧ uv.1 ≤ 1 / 9 ∧
    1000 * sqDist band ⟨9, 1 / 18, 1 / 10⟩ (89 / 90, 1 / 18) < sqDist band ⟨9, 1 / 18, 1 / 10⟩ uv := by
  have : ((closestPoints band (1 / 1000) 30 8 ⟨0, 1, 0, 1⟩ [⟨9, 1 / 18, 1 / 10⟩]).any fun l => decide (l.length = 1 ∧ (l.getD 0 (0, 0)).1 ≤ 1 / 9 ∧
    1000 * sqDist band ⟨9, 1 / 18, 1 / 10⟩ (89 / 90, 1 / 18) < sqDist band ⟨9, 1 / 18, 1 / 10⟩ (l.getD 0 (0, 0)))) = true := by decide +kernel
  obtain ⟨h1, h2⟩ := (Option.any_eq_true_iff_get _ _).1 this
  obtain ⟨h3, h4, h5⟩ := of_decide_eq_true h2
  obtain ⟨uv, e⟩ := List.length_eq_one_iff.1 h3
  rw [e] at h4 h5
  exact ⟨uv, by rw [← e, Option.some_get], h4, h5⟩

/-- **C476, one point at a time in the batch**: with one point the batch is the search on the whole range at half the tolerance. -/
theorem C476_batch_single_partial (ev : K × K → V3 K) (tol : K) (k : Nat) (r : DnC.Box K) (p : V3 K) :
    closestBatched ev tol k r [p] = (DnC.min2d (sqDist ev p) (tol / 2) r k).map fun q => [q] :=
  DnC.C82_single_column_partial _ _ _ _

/-- **C476, refuted, the batch.** On the flat square the result for a point of the surface is more than the tolerance away when a corner of
the square is in the same batch; alone it is within the tolerance. -/
theorem C476_batch_refuted : ∃ a b c : ℚ × ℚ,
    closestBatched (plane ⟨0, 0, 0⟩ ⟨1, 0, 0⟩ ⟨0, 1, 0⟩) (1 / 100) 20 ⟨0, 1, 0, 1⟩ [⟨0, 0, 0⟩, ⟨1 / 3, 1 / 3, 0⟩] = some [a, b] ∧
    closestBatched (plane ⟨0, 0, 0⟩ ⟨1, 0, 0⟩ ⟨0, 1, 0⟩) (1 / 100) 20 ⟨0, 1, 0, 1⟩ [⟨1 / 3, 1 / 3, 0⟩] = some [c] ∧
    1 / 100 < |b.1 - 1 / 3| ∧ |c.1 - 1 / 3| ≤ 1 / 100 := by
  have : ((closestBatched (plane (⟨0, 0, 0⟩ : V3 ℚ) ⟨1, 0, 0⟩ ⟨0, 1, 0⟩) (1 / 100) 20 ⟨0, 1, 0, 1⟩ [⟨0, 0, 0⟩, ⟨1 / 3, 1 / 3, 0⟩]).any
    fun l => decide (l.length = 2 ∧ 1 / 100 < |(l.getD 1 (0, 0)).1 - 1 / 3|)) = true := by decide +kernel
  have that : ((closestBatched (plane (⟨0, 0, 0⟩ : V3 ℚ) ⟨1, 0, 0⟩ ⟨0, 1, 0⟩) (1 / 100) 20 ⟨0, 1, 0, 1⟩ [⟨1 / 3, 1 / 3, 0⟩]).any
    fun l => decide (l.length = 1 ∧ |(l.getD 0 (0, 0)).1 - 1 / 3| ≤ 1 / 100)) = true := by decide +kernel
  obtain ⟨h1, h2⟩ := (Option.any_eq_true_iff_get _ _).1 this
  obtain ⟨h3, h4⟩ := of_decide_eq_true h2
  obtain ⟨g1, g2⟩ := (Option.any_eq_true_iff_get _ _).1 that
  obtain ⟨g3, g4⟩ := of_decide_eq_true g2
  obtain ⟨a, b, e⟩ := List.length_eq_two.1 h3
  obtain ⟨c, e'⟩ := List.length_eq_one_iff.1 g3
  rw [e] at h4
  rw [e'] at g4
  exact ⟨a, b, c, by rw [← e, Option.some_get], by rw [← e', Option.some_get], h4, g4⟩

/-- A tree whose boxes contain the point of `C476_nearest_refuted`. -/
example : ((tree band ⟨0, 1, 0, 1⟩ 10 10 8).map fun n => (Bvh.containsPt n (toPt ⟨9, 1 / 18, 1 / 10⟩)).flatten.map fun o => o.uvs.length) =
    some [4] := by decide +kernel

/-- A range and a tolerance as in `C476_range_partial`. -/
example : DnC.Within (⟨0, 1, 0, 1⟩ : DnC.Box ℚ) ⟨0, 1, 0, 1⟩ ∧ (0 : ℚ) < 1 / 1000 := by simp [DnC.Within]

end Verif.Sinv
