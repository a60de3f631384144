import Verif.RTree.Flat
import Mathlib.Algebra.Order.Ring.Int

/-! # C11: the R*-tree rectangle search -/

namespace Verif.RTree

/-- Specification: two closed axis-aligned rectangles share a point. -/
def Meet {K : Type} [LE K] (a b : Rect K) : Prop :=
  a.minx ≤ b.maxx ∧ b.minx ≤ a.maxx ∧ a.miny ≤ b.maxy ∧ b.miny ≤ a.maxy

theorem intersect_iff_meet {K : Type} [LinearOrder K] (a b : Rect K) : a.intersect b = true ↔ Meet a b := by
  rw [intersect_iff]; unfold Meet; tauto

/-- The full claim for one insert history and one query: exactly the inserted rectangles that meet the query. -/
def SearchClaim (M m : Nat) (rs : List (Rect Int)) (q : Rect Int) : Prop :=
  ∃ t res, run M m empty rs = some t ∧ search q t = some res ∧ ∀ r ∈ rs, Meet r q → r ∈ res

/-- Twelve unit squares along the x axis. -/
def row : List (Rect Int) := (List.range 12).map (fun i => ⟨10 * i, 0, 10 * i + 1, 1⟩)

/-- **C11 (refuted).** With the default limits (4 children, at least 2) twelve unit squares in a row are enough:
the rectangle of an inner node is not enlarged by later inserts below it, so the twelfth square is not found by a
search for that very square. -/
theorem C11_misses_refuted : ¬ SearchClaim 4 2 row ⟨110, 0, 111, 1⟩ := by
  rintro ⟨t, res, e, hs, h⟩
  have h2 : ((run 4 2 empty row).bind (search ⟨110, 0, 111, 1⟩)) = some [] := by decide +kernel
  rw [e, Option.bind_some, hs] at h2
  cases h2
  exact absurd (h ⟨110, 0, 111, 1⟩ (by decide) (by unfold Meet; decide)) (by simp)

variable {K : Type} [CommRing K] [LinearOrder K]

/-- **C11 (partial, soundness).** For all limits with `1 ≤ m`, `2m ≤ M+1` and every insert history, inserting and
searching never fail, the tree stores exactly the inserted rectangles, and a search returns no rectangle more often than
it was inserted and none that does not meet the query. -/
theorem C11_sound_partial (M m : Nat) (hm : 0 < m) (hM : 2 * m ≤ M + 1) (rs : List (Rect K)) (q : Rect K) :
    ∃ t res, run M m empty rs = some t ∧ (entries t).Perm rs ∧ search q t = some res ∧ res.Subperm rs ∧
      ∀ r ∈ res, Meet r q := by
  obtain ⟨t, e, hr, hp⟩ := run_spec M m hm hM rs (empty : Tree K) trivial
  obtain ⟨res, hs, hsub, hi⟩ := search_good q t hr
  have hp' : (entries t).Perm rs := by simpa [empty, entries] using hp
  exact ⟨t, res, e, hp', hs, hsub.trans hp'.subperm, fun r h => (intersect_iff_meet r q).1 (hi r h)⟩

/-- The default limits satisfy the hypotheses; a search over a two-level split tree. -/
example : (0 < 2 ∧ 2 * 2 ≤ 4 + 1) ∧ ((run 4 2 empty row).bind (search ⟨5, 0, 31, 1⟩)) =
    some [⟨10, 0, 11, 1⟩, ⟨20, 0, 21, 1⟩, ⟨30, 0, 31, 1⟩] := by decide +kernel

/-- **C11 (partial, completeness).** As long as fewer than `m*(M+1)` rectangles were inserted (10 with the default
limits) the answer is exact: a permutation of the inserted rectangles that meet the query.  Missing compared with the
full claim: larger trees, where completeness is refuted above. -/
theorem C11_exact_small_partial (M m : Nat) (hm : 0 < m) (hM : 2 * m ≤ M + 1) (rs : List (Rect K)) (q : Rect K)
    (hn : rs.length < m * (M + 1)) :
    ∃ t res, run M m empty rs = some t ∧ search q t = some res ∧
      res.Perm (rs.filter (fun r => decide (r.minx ≤ q.maxx ∧ q.minx ≤ r.maxx ∧ r.miny ≤ q.maxy ∧ q.miny ≤ r.maxy))) := by
  obtain ⟨t, e, hr, hp⟩ := run_spec M m hm hM rs (empty : Tree K) trivial
  have hp' : (entries t).Perm rs := by simpa [empty, entries] using hp
  have hf := run_flat M m hm hM rs empty t trivial trivial (by simpa [empty, entries] using hn) e
  refine ⟨t, _, e, search_flat m q t hf, ?_⟩
  have heq : (fun r : Rect K => r.intersect q) =
      (fun r => decide (r.minx ≤ q.maxx ∧ q.minx ≤ r.maxx ∧ r.miny ≤ q.maxy ∧ q.miny ≤ r.maxy)) := by
    funext r
    rw [Bool.eq_iff_iff, intersect_iff_meet, decide_eq_true_iff]
    rfl
  rw [← heq]
  exact hp'.filter _

/-- Nine inserts (root split, several leaves) and a query. -/
example : (row.take 9).length < 2 * (4 + 1) ∧ ((run 4 2 empty (row.take 9)).bind (search ⟨25, 0, 61, 1⟩)) =
    some [⟨30, 0, 31, 1⟩, ⟨40, 0, 41, 1⟩, ⟨50, 0, 51, 1⟩, ⟨60, 0, 61, 1⟩] := by decide +kernel

end Verif.RTree
