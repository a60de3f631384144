import Verif.Dqr.Model
import Verif.Vec.Props
import Mathlib.Tactic.Ring
import Mathlib.Tactic.Linarith
import Mathlib.Tactic.NormNum
import Mathlib.Tactic.Positivity
import Mathlib.Algebra.Order.Archimedean.Basic

set_option linter.unusedSectionVars false

/-! # Candidates for intersections of two surfaces by quartering (C454–C456) -/

namespace Verif.Dqr

open Verif.Vec V3

variable {K : Type} [Field K] [LinearOrder K] [IsStrictOrderedRing K]

/-! ## Which pairs are tested -/

theorem pairs_before (l : List (Nat × Nat)) (p : Nat × Nat) (l' : List (Nat × Nat)) (h : pairs = l ++ p :: l') (hlt : p.2 < p.1) :
    (p.2, p.1) ∈ l := by
  have key : ∀ n : Fin 16, (pairs[n.1]'(by have := n.2; exact this)).2 < (pairs[n.1]'(by have := n.2; exact this)).1 →
      ((pairs[n.1]'(by have := n.2; exact this)).2, (pairs[n.1]'(by have := n.2; exact this)).1) ∈ pairs.take n.1 := by decide
  have hl : l.length < 16 := by
    have : pairs.length = 16 := rfl
    rw [h] at this
    simp at this
    omega
  have hp : pairs[l.length]'(by exact hl) = p := by simp [h]
  have ht : pairs.take l.length = l := by rw [h]; simp
  have := key ⟨l.length, hl⟩
  simp only [hp, ht] at this
  exact this hlt

/-- What the loop keeps true. -/
structure ScanInv (hit : Nat → Nat → Bool) (done : List (Nat × Nat)) (s : Scan) : Prop where
  vis : ∀ p ∈ done, p ∈ s.visited ∧ (p.2, p.1) ∈ s.visited
  cand : ∀ p ∈ s.cands, p.1 ≤ p.2 ∧ p ∈ pairs ∧ hit p.1 p.2 = true
  ix : ∀ p, p ∈ s.ixs ↔ p ∈ s.cands
  sym : ∀ p ∈ s.visited, (p.2, p.1) ∈ s.visited
  from' : ∀ p ∈ s.visited, p ∈ done ∨ (p.2, p.1) ∈ done

theorem scan_inv (hit : Nat → Nat → Bool) (step : Nat) : ∀ (l' l : List (Nat × Nat)) (s : Scan), pairs = l ++ l' → ScanInv hit l s →
    ScanInv hit pairs (l'.foldl (scanStep hit step) s)
  | [], l, s, h, I => by rw [List.append_nil] at h; rw [h]; exact I
  | p :: l', l, s, h, I => by
    refine scan_inv hit step l' (l ++ [p]) _ (by rw [h]; simp) ?_
    have hp : p ∈ pairs := by rw [h]; simp
    unfold scanStep
    by_cases hv : p ∈ s.visited
    · rw [if_pos hv]
      refine ⟨fun q hq => ?_, I.cand, I.ix, I.sym, fun q hq => ?_⟩
      · rcases List.mem_append.1 hq with hq | hq
        · exact I.vis q hq
        · rw [List.mem_singleton.1 hq]; exact ⟨hv, I.sym p hv⟩
      · rcases I.from' q hq with h | h
        · exact Or.inl (List.mem_append_left _ h)
        · exact Or.inr (List.mem_append_left _ h)
    · rw [if_neg hv]
      have hle : p.1 ≤ p.2 := by
        by_contra hlt
        exact hv (I.vis _ (pairs_before l p l' h (not_le.1 hlt))).2
      have vis' : ∀ q ∈ l ++ [p], q ∈ p :: (p.2, p.1) :: s.visited ∧ (q.2, q.1) ∈ p :: (p.2, p.1) :: s.visited := by
        intro q hq
        rcases List.mem_append.1 hq with hq | hq
        · have := I.vis q hq
          exact ⟨by simp [this.1], by simp [this.2]⟩
        · rw [List.mem_singleton.1 hq]; simp
      have sym' : ∀ q ∈ p :: (p.2, p.1) :: s.visited, (q.2, q.1) ∈ p :: (p.2, p.1) :: s.visited := by
        intro q hq
        rcases List.mem_cons.1 hq with rfl | hq
        · simp
        · rcases List.mem_cons.1 hq with rfl | hq
          · simp
          · have := I.sym q hq
            simp [this]
      have from'' : ∀ q ∈ p :: (p.2, p.1) :: s.visited, q ∈ l ++ [p] ∨ (q.2, q.1) ∈ l ++ [p] := by
        intro q hq
        rcases List.mem_cons.1 hq with rfl | hq
        · simp
        · rcases List.mem_cons.1 hq with rfl | hq
          · simp
          · rcases I.from' q hq with h | h
            · exact Or.inl (List.mem_append_left _ h)
            · exact Or.inr (List.mem_append_left _ h)
      dsimp only
      split_ifs with h1 h2
      · exact ⟨vis', I.cand, I.ix, sym', from''⟩
      · refine ⟨vis', fun q hq => ?_, fun q => ?_, sym', from''⟩
        · rcases List.mem_append.1 hq with hq | hq
          · exact I.cand q hq
          · rw [List.mem_singleton.1 hq]; exact ⟨hle, hp, h2⟩
        · show q ∈ p :: s.ixs ↔ q ∈ s.cands ++ [p]
          rw [List.mem_cons, List.mem_append, List.mem_singleton, I.ix q, or_comm]
      · exact ⟨vis', I.cand, I.ix, sym', from''⟩

theorem cand_spec (hit : Nat → Nat → Bool) (step : Nat) : ∀ p ∈ candidates hit step, p.1 ≤ p.2 ∧ p ∈ pairs ∧ hit p.1 p.2 = true :=
  (scan_inv hit step pairs [] _ rfl ⟨by simp, by simp, by simp, by simp, by simp⟩).cand

/-- **C454, refuted, pairs.** Whatever boxes meet, cell `i` of the first surface is never tested against cell `j < i` of the second; boxes that meet
only there give no candidate, so nothing is found below. -/
theorem C454_pairs_refuted (hit : Nat → Nat → Bool) (step : Nat) :
    (∀ p ∈ candidates hit step, p.1 ≤ p.2) ∧ ((∀ i j, hit i j = true → j < i) → candidates hit step = []) := by
  refine ⟨fun p hp => (cand_spec hit step p hp).1, fun h => List.eq_nil_iff_forall_not_mem.2 fun p hp => ?_⟩
  obtain ⟨h1, _, h2⟩ := cand_spec hit step p hp
  exact absurd (h _ _ h2) (not_lt.2 h1)

/-- **C454, refuted.** Two plane pieces that cross along a segment of length `3/4`, in the unit square of parameters: nothing is found, with any
tolerances. -/
theorem C454_missed_refuted (tol ptol htol : ℚ) (ht : tol ≤ 1) (n : Nat) :
    findIntersections (fun u v => ⟨u, v, 0⟩) (fun s t => ⟨3 / 4, 2 * t + 1 / 4, s - 1 / 4⟩) tol ptol htol (n + 1) ((0, 1), (0, 1)) ((0, 1), (0, 1)) =
        some ([] : List ((ℚ × ℚ) × (ℚ × ℚ))) ∧
      ∀ t : ℚ, 0 ≤ t → t ≤ 3 / 8 → (⟨3 / 4, 2 * t + 1 / 4, 0⟩ : V3 ℚ) = ⟨3 / 4, 2 * t + 1 / 4, 1 / 4 - 1 / 4⟩ ∧ 0 ≤ 2 * t + 1 / 4 ∧ 2 * t + 1 / 4 ≤ 1 := by
  refine ⟨?_, fun t h0 h1 => ⟨by norm_num, by linarith, by linarith⟩⟩
  unfold findIntersections
  have h0 : boxesIntersect (bbox (fun u v : ℚ => (⟨u, v, 0⟩ : V3 ℚ)) ((0, 1), (0, 1)))
      (bbox (fun s t : ℚ => (⟨3 / 4, 2 * t + 1 / 4, s - 1 / 4⟩ : V3 ℚ)) ((0, 1), (0, 1))) = true := by decide +kernel
  rw [h0]
  simp only [Bool.not_true, Bool.false_eq_true, if_false]
  rw [inner, if_neg (by simp only; intro h; linarith [h.1])]
  have hc : candidates (fun i j => (boxesIntersection
      (bbox (fun u v : ℚ => (⟨u, v, 0⟩ : V3 ℚ)) ((cells1 ((0, 1) : ℚ × ℚ) (0, 1)).getD i ((0, 1), (0, 1))))
      (bbox (fun s t : ℚ => (⟨3 / 4, 2 * t + 1 / 4, s - 1 / 4⟩ : V3 ℚ))
        ((cells2 (mid ((0, 1) : ℚ × ℚ)) (mid ((0, 1) : ℚ × ℚ)) (0, 1) (0, 1)).getD j ((0, 1), (0, 1))))).isSome) 1 = [] := by decide +kernel
  simp only
  rw [hc]
  rfl

/-! ## The cells of the second surface -/

/-- **C455, refuted.** The first two cells of the second surface end at the middle of the range of the first: when that is not in the range of the
second surface they reach out of it, and even inside of it the cells do not make up the range unless the middles agree. -/
theorem C455_cells_refuted (m1 n1 : K) (u v : Rng K) :
    (∃ c ∈ cells2 m1 n1 u v, c.1.2 = m1 ∧ c.1.1 = u.1 ∧ c.2.2 = n1) ∧ (cells2 m1 n1 u v = cells1 u v ↔ m1 = mid u ∧ n1 = mid v) := by
  refine ⟨⟨_, List.mem_cons_self, rfl, rfl, rfl⟩, ?_⟩
  simp [cells2, cells1]

/-- The cells make up the range when the middles agree. -/
theorem C455_cover_partial (u v : Rng K) (x y : K) (hx : u.1 ≤ x ∧ x ≤ u.2) (hy : v.1 ≤ y ∧ y ≤ v.2) :
    ∃ c ∈ cells2 (mid u) (mid v) u v, (c.1.1 ≤ x ∧ x ≤ c.1.2) ∧ c.2.1 ≤ y ∧ y ≤ c.2.2 := by
  rcases le_total x (mid u) with h | h <;> rcases le_total y (mid v) with h' | h'
  · exact ⟨_, List.mem_cons_self, ⟨hx.1, h⟩, hy.1, h'⟩
  · exact ⟨((u.1, mid u), (mid v, v.2)), by simp [cells2], ⟨hx.1, h⟩, h', hy.2⟩
  · exact ⟨((mid u, u.2), (v.1, mid v)), by simp [cells2], ⟨h, hx.2⟩, hy.1, h'⟩
  · exact ⟨((mid u, u.2), (mid v, v.2)), by simp [cells2], ⟨h, hx.2⟩, h', hy.2⟩

/-- A case: for the ranges `(0, 1)` and `(2, 3)` the first cell of the second surface is `(2, 1/2)`. -/
example : (cells2 (mid ((0, 1) : ℚ × ℚ)) (mid ((0, 1) : ℚ × ℚ)) (2, 3) (2, 3)).head? = some ((2, 1 / 2), (2, 1 / 2)) := by decide +kernel

/-! ## Ranges, end -/

/-- A range with ends in order, inside of another. -/
def Inside (c r : Rng K) : Prop := r.1 ≤ c.1 ∧ c.1 ≤ c.2 ∧ c.2 ≤ r.2

theorem mid_in {c : Rng K} (h : c.1 ≤ c.2) : c.1 ≤ mid c ∧ mid c ≤ c.2 := by
  unfold mid; constructor <;> linarith

theorem inside_lo {c r : Rng K} (h : Inside c r) : Inside (c.1, mid c) r := by
  have := mid_in h.2.1
  exact ⟨h.1, this.1, this.2.trans h.2.2⟩

theorem inside_hi {c r : Rng K} (h : Inside c r) : Inside (mid c, c.2) r := by
  have := mid_in h.2.1
  exact ⟨h.1.trans this.1, this.2, h.2.2⟩

theorem pair_lt {p : Nat × Nat} (h : p ∈ pairs) : p.1 < 4 ∧ p.2 < 4 := by
  have : ∀ q ∈ pairs, q.1 < 4 ∧ q.2 < 4 := by decide
  exact this p h

theorem cells1_in {u v ru rv : Rng K} (hu : Inside u ru) (hv : Inside v rv) (i : Nat) (hi : i < 4) (d : Cell K) :
    Inside ((cells1 u v).getD i d).1 ru ∧ Inside ((cells1 u v).getD i d).2 rv := by
  match i, hi with
  | 0, _ => exact ⟨inside_lo hu, inside_lo hv⟩
  | 1, _ => exact ⟨inside_hi hu, inside_lo hv⟩
  | 2, _ => exact ⟨inside_hi hu, inside_hi hv⟩
  | 3, _ => exact ⟨inside_lo hu, inside_hi hv⟩

theorem cells1_half (u v : Rng K) (i : Nat) (hi : i < 4) (d : Cell K) :
    ((cells1 u v).getD i d).1.2 - ((cells1 u v).getD i d).1.1 = (u.2 - u.1) / 2 ∧
      ((cells1 u v).getD i d).2.2 - ((cells1 u v).getD i d).2.1 = (v.2 - v.1) / 2 := by
  have e1 : ∀ r : Rng K, mid r - r.1 = (r.2 - r.1) / 2 := fun r => by unfold mid; ring
  have e2 : ∀ r : Rng K, r.2 - mid r = (r.2 - r.1) / 2 := fun r => by unfold mid; ring
  match i, hi with
  | 0, _ => exact ⟨e1 u, e1 v⟩
  | 1, _ => exact ⟨e2 u, e1 v⟩
  | 2, _ => exact ⟨e2 u, e2 v⟩
  | 3, _ => exact ⟨e1 u, e2 v⟩

theorem mapM_ex {A B : Type} (f : A → Option B) : ∀ l : List A, (∀ a ∈ l, ∃ b, f a = some b) → ∃ m, l.mapM f = some m
  | [], _ => ⟨[], rfl⟩
  | a :: l, h => by
    obtain ⟨b, hb⟩ := h a List.mem_cons_self
    obtain ⟨m, hm⟩ := mapM_ex f l fun c hc => h c (List.mem_cons_of_mem _ hc)
    rw [List.mapM_cons, hb, hm]
    exact ⟨_, rfl⟩

theorem map_ex {A B : Type} (f : A → B) (o : Option A) (h : ∃ m, o = some m) : ∃ l, o.map f = some l := by
  obtain ⟨m, rfl⟩ := h
  exact ⟨_, rfl⟩

theorem mapM_mem {A B : Type} (f : A → Option B) : ∀ (l : List A) (m : List B), l.mapM f = some m → ∀ b ∈ m, ∃ a ∈ l, f a = some b
  | [], m, h, b, hb => by
    have : m = [] := by simpa using h.symm
    rw [this] at hb; cases hb
  | a :: l, m, h, b, hb => by
    rw [List.mapM_cons] at h
    obtain ⟨x, hx, h⟩ := Option.bind_eq_some_iff.1 h
    obtain ⟨y, hy, h⟩ := Option.bind_eq_some_iff.1 h
    cases h
    rcases List.mem_cons.1 hb with rfl | hb
    · exact ⟨a, List.mem_cons_self, hx⟩
    · obtain ⟨c, hc, e⟩ := mapM_mem f l y hy b hb
      exact ⟨c, List.mem_cons_of_mem _ hc, e⟩

/-- One row of boxes from the second level on: at most one candidate for each cell of the first surface. -/
theorem scan_row (hit : Nat → Nat → Bool) (step : Nat) (hs : 2 ≤ step) : ∀ (l : List (Nat × Nat)) (s : Scan),
    (∀ p, p ∈ s.ixs ↔ p ∈ s.cands) → (s.cands.Pairwise fun p q => p.1 ≠ q.1) → ((l.foldl (scanStep hit step) s).cands.Pairwise fun p q => p.1 ≠ q.1)
  | [], _, _, h => h
  | p :: l, s, hi, h => by
    have hgo : (∀ q, q ∈ (scanStep hit step s p).ixs ↔ q ∈ (scanStep hit step s p).cands) ∧
        (scanStep hit step s p).cands.Pairwise fun p q => p.1 ≠ q.1 := by
      unfold scanStep
      by_cases hv : p ∈ s.visited
      · rw [if_pos hv]; exact ⟨hi, h⟩
      rw [if_neg hv]
      dsimp only
      split_ifs with h1 h2
      · exact ⟨hi, h⟩
      · refine ⟨fun q => ?_, ?_⟩
        · show q ∈ p :: s.ixs ↔ q ∈ s.cands ++ [p]
          rw [List.mem_cons, List.mem_append, List.mem_singleton, hi q, or_comm]
        · refine List.pairwise_append.2 ⟨h, List.pairwise_singleton _ _, fun a ha b hb => ?_⟩
          rw [List.mem_singleton.1 hb]
          intro e
          refine h1 ?_
          simp only [Bool.and_eq_true, List.any_eq_true, decide_eq_true_eq]
          exact ⟨⟨a, (hi a).2 ha, e⟩, hs⟩
      · exact ⟨hi, h⟩
    exact scan_row hit step hs l _ hgo.1 hgo.2

/-- **C454, refuted, rows.** From the second level on a cell of the first surface is followed against one cell of the second at most, however many
of its boxes it meets. -/
theorem C454_rows_refuted (hit : Nat → Nat → Bool) (step : Nat) (hs : 2 ≤ step) : (candidates hit step).Pairwise fun p q => p.1 ≠ q.1 :=
  scan_row hit step hs pairs _ (by simp) List.Pairwise.nil

/-- A case: all boxes meet; ten candidates at the first level, four from the second on. -/
example : (candidates (fun _ _ => true) 1).length = 10 ∧ candidates (fun _ _ => true) 2 = [(0, 0), (1, 1), (2, 2), (3, 3)] := by decide

/-- **C454, boxes.** The overlap of two boxes is found exactly when they have a common point, and is the set of common points. -/
theorem C454_boxes (a b : V3 K × V3 K) (p : V3 K) :
    ((a.1.x ≤ p.x ∧ p.x ≤ a.2.x) ∧ (a.1.y ≤ p.y ∧ p.y ≤ a.2.y) ∧ a.1.z ≤ p.z ∧ p.z ≤ a.2.z) ∧
      ((b.1.x ≤ p.x ∧ p.x ≤ b.2.x) ∧ (b.1.y ≤ p.y ∧ p.y ≤ b.2.y) ∧ b.1.z ≤ p.z ∧ p.z ≤ b.2.z) ↔
    ∃ lo hi, boxesIntersection a b = some (lo, hi) ∧ (lo.x ≤ p.x ∧ p.x ≤ hi.x) ∧ (lo.y ≤ p.y ∧ p.y ≤ hi.y) ∧ lo.z ≤ p.z ∧ p.z ≤ hi.z := by
  unfold boxesIntersection
  dsimp only
  constructor
  · rintro ⟨⟨⟨a1, a2⟩, ⟨a3, a4⟩, a5, a6⟩, ⟨b1, b2⟩, ⟨b3, b4⟩, b5, b6⟩
    have h1 := max_le a1 b1
    have h2 := le_min a2 b2
    have h3 := max_le a3 b3
    have h4 := le_min a4 b4
    have h5 := max_le a5 b5
    have h6 := le_min a6 b6
    refine ⟨_, _, if_neg ?_, ⟨h1, h2⟩, ⟨h3, h4⟩, h5, h6⟩
    rintro (h | h | h)
    · exact absurd (h1.trans h2) (not_le.2 h)
    · exact absurd (h3.trans h4) (not_le.2 h)
    · exact absurd (h5.trans h6) (not_le.2 h)
  · rintro ⟨lo, hi, h, ⟨h1, h2⟩, ⟨h3, h4⟩, h5, h6⟩
    split_ifs at h with hc
    simp only [Option.some.injEq, Prod.mk.injEq] at h
    obtain ⟨rfl, rfl⟩ := h
    simp only [max_le_iff, le_min_iff] at h1 h2 h3 h4 h5 h6
    exact ⟨⟨⟨h1.1, h2.1⟩, ⟨h3.1, h4.1⟩, h5.1, h6.1⟩, ⟨h1.2, h2.2⟩, ⟨h3.2, h4.2⟩, h5.2, h6.2⟩

/-- The two tests of boxes agree, for boxes with ends in order. -/
theorem C454_tests (a b : V3 K × V3 K) (ha : a.1.x ≤ a.2.x ∧ a.1.y ≤ a.2.y ∧ a.1.z ≤ a.2.z) (hb : b.1.x ≤ b.2.x ∧ b.1.y ≤ b.2.y ∧ b.1.z ≤ b.2.z) :
    boxesIntersect a b = (boxesIntersection a b).isSome := by
  rw [Bool.eq_iff_iff]
  unfold boxesIntersect boxesIntersection
  dsimp only
  rw [decide_eq_true_eq]
  split_ifs with h
  · simp only [Option.isSome_none, Bool.false_eq_true, iff_false]
    rintro ⟨h1, h2, h3, h4, h5, h6⟩
    rcases h with h | h | h
    · exact absurd (max_le (le_min ha.1 h2) (le_min h1 hb.1)) (not_le.2 h)
    · exact absurd (max_le (le_min ha.2.1 h4) (le_min h3 hb.2.1)) (not_le.2 h)
    · exact absurd (max_le (le_min ha.2.2 h6) (le_min h5 hb.2.2)) (not_le.2 h)
  · simp only [Option.isSome_some, iff_true]
    simp only [not_or, not_lt, gt_iff_lt, max_le_iff, le_min_iff] at h
    exact ⟨h.1.1.2, h.1.2.1, h.2.1.1.2, h.2.1.2.1, h.2.2.1.2, h.2.2.2.1⟩

/-- A case: boxes that share a face. -/
example : boxesIntersection ((⟨0, 0, 0⟩, ⟨1, 1, 1⟩) : V3 ℚ × V3 ℚ) (⟨1, 0, 0⟩, ⟨2, 1, 1⟩) = some (⟨1, 0, 0⟩, ⟨1, 1, 1⟩) := by decide +kernel

theorem inner_ends (s1 s2 : K → K → V3 K) (tol ptol htol : K) : ∀ (n : Nat) (c1 c2 : Cell K) (step : Nat),
    (c1.1.2 - c1.1.1) * (1 / 2) ^ n < tol → (c1.2.2 - c1.2.1) * (1 / 2) ^ n < ptol → ∃ l, inner s1 s2 tol ptol htol (n + 1) c1 c2 step = some l
  | n, c1, c2, step, h1, h2 => by
    rw [inner]
    by_cases hs : c1.1.2 - c1.1.1 < tol ∧ c1.2.2 - c1.2.1 < ptol
    · exact ⟨_, if_pos hs⟩
    rw [if_neg hs]
    match n, h1, h2 with
    | 0, h1, h2 => exact absurd ⟨by simpa using h1, by simpa using h2⟩ hs
    | n + 1, h1, h2 =>
      dsimp only
      refine map_ex List.flatten _ (mapM_ex _ _ fun ij hij => ?_)
      have hlt := pair_lt (cand_spec _ _ ij hij).2.1
      split
      · exact ⟨_, rfl⟩
      · split_ifs
        · exact ⟨_, rfl⟩
        · have hh := cells1_half c1.1 c1.2 ij.1 hlt.1 c1
          refine inner_ends s1 s2 tol ptol htol n _ _ _ ?_ ?_
          · rw [hh.1]; rw [pow_succ] at h1; linarith
          · rw [hh.2]; rw [pow_succ] at h2; linarith

/-- **C456, end.** For positive tolerances the search ends for all surfaces and ranges. -/
theorem C456_ends [Archimedean K] (s1 s2 : K → K → V3 K) (tol ptol htol : K) (ht : 0 < tol) (hp : 0 < ptol) (c1 c2 : Cell K) :
    ∃ n l, findIntersections s1 s2 tol ptol htol n c1 c2 = some l := by
  have small : ∀ (w t : K), 0 < t → ∃ n, ∀ m, n ≤ m → w * (1 / 2) ^ m < t := by
    intro w t h
    obtain ⟨n, hn⟩ := exists_pow_lt_of_lt_one (show 0 < t / (|w| + 1) by positivity) (show (1 / 2 : K) < 1 by norm_num)
    refine ⟨n, fun m hm => ?_⟩
    have h1 : (1 / 2 : K) ^ m ≤ (1 / 2) ^ n := pow_le_pow_of_le_one (by norm_num) (by norm_num) hm
    have h2 : (1 / 2 : K) ^ m < t / (|w| + 1) := h1.trans_lt hn
    rw [lt_div_iff₀ (by positivity)] at h2
    have h3 : (0 : K) ≤ (1 / 2) ^ m := by positivity
    nlinarith [le_abs_self w]
  obtain ⟨n1, h1⟩ := small (c1.1.2 - c1.1.1) tol ht
  obtain ⟨n2, h2⟩ := small (c1.2.2 - c1.2.1) ptol hp
  refine ⟨max n1 n2 + 1, ?_⟩
  unfold findIntersections
  split_ifs
  · exact ⟨_, rfl⟩
  · exact inner_ends s1 s2 tol ptol htol _ c1 c2 1 (h1 _ (le_max_left _ _)) (h2 _ (le_max_right _ _))

theorem inner_range (s1 s2 : K → K → V3 K) (tol ptol htol : K) (ru rv : Rng K) : ∀ (n : Nat) (c1 c2 : Cell K) (step : Nat) (l : List ((K × K) × (K × K))),
    Inside c1.1 ru → Inside c1.2 rv → inner s1 s2 tol ptol htol n c1 c2 step = some l →
    ∀ r ∈ l, (ru.1 ≤ r.1.1 ∧ r.1.1 ≤ ru.2) ∧ rv.1 ≤ r.1.2 ∧ r.1.2 ≤ rv.2
  | 0, _, _, _, _, _, _, h => by rw [inner] at h; cases h
  | n + 1, c1, c2, step, l, hu, hv, h => by
    have hc : (ru.1 ≤ mid c1.1 ∧ mid c1.1 ≤ ru.2) ∧ rv.1 ≤ mid c1.2 ∧ mid c1.2 ≤ rv.2 := by
      have a := mid_in hu.2.1
      have b := mid_in hv.2.1
      exact ⟨⟨hu.1.trans a.1, a.2.trans hu.2.2⟩, hv.1.trans b.1, b.2.trans hv.2.2⟩
    rw [inner] at h
    split_ifs at h with hs
    · cases h
      intro r hr
      rw [List.mem_singleton.1 hr]; exact hc
    dsimp only at h
    obtain ⟨m, hm, rfl⟩ := Option.map_eq_some_iff.1 h
    intro r hr
    obtain ⟨x, hx, hrx⟩ := List.mem_flatten.1 hr
    obtain ⟨ij, hij, e⟩ := mapM_mem _ _ _ hm x hx
    have hlt := pair_lt (cand_spec _ _ ij hij).2.1
    split at e
    · cases e; cases hrx
    · split_ifs at e with hd
      · cases e
        rw [List.mem_singleton.1 hrx]; exact hc
      · have hi := cells1_in hu hv ij.1 hlt.1 c1
        exact inner_range s1 s2 tol ptol htol ru rv n _ _ _ _ hi.1 hi.2 e r hrx

/-- **C456, range.** The parameters reported for the first surface lie in its range. -/
theorem C456_range_partial (s1 s2 : K → K → V3 K) (tol ptol htol : K) (n : Nat) (c1 c2 : Cell K) (hu : c1.1.1 ≤ c1.1.2) (hv : c1.2.1 ≤ c1.2.2)
    (l : List ((K × K) × (K × K))) (h : findIntersections s1 s2 tol ptol htol n c1 c2 = some l) :
    ∀ r ∈ l, (c1.1.1 ≤ r.1.1 ∧ r.1.1 ≤ c1.1.2) ∧ c1.2.1 ≤ r.1.2 ∧ r.1.2 ≤ c1.2.2 := by
  unfold findIntersections at h
  split_ifs at h
  · cases h; intro r hr; cases hr
  · exact inner_range s1 s2 tol ptol htol c1.1 c1.2 n c1 c2 1 l ⟨le_refl _, hu, le_refl _⟩ ⟨le_refl _, hv, le_refl _⟩ h

/-- Both ends in a range, in any order. -/
def EndsIn (c r : Rng K) : Prop := (r.1 ≤ c.1 ∧ c.1 ≤ r.2) ∧ r.1 ≤ c.2 ∧ c.2 ≤ r.2

theorem mid_ends {c r : Rng K} (h : EndsIn c r) : r.1 ≤ mid c ∧ mid c ≤ r.2 := by
  obtain ⟨⟨h1, h2⟩, h3, h4⟩ := h
  unfold mid; constructor <;> linarith

theorem cells2_in {u v ru rv : Rng K} {m1 n1 : K} (hm : ru.1 ≤ m1 ∧ m1 ≤ ru.2) (hn : rv.1 ≤ n1 ∧ n1 ≤ rv.2) (hu : EndsIn u ru) (hv : EndsIn v rv)
    (i : Nat) (hi : i < 4) (d : Cell K) : EndsIn ((cells2 m1 n1 u v).getD i d).1 ru ∧ EndsIn ((cells2 m1 n1 u v).getD i d).2 rv := by
  have a := mid_ends hu
  have b := mid_ends hv
  match i, hi with
  | 0, _ => exact ⟨⟨hu.1, hm⟩, hv.1, hn⟩
  | 1, _ => exact ⟨⟨a, hu.2⟩, hv.1, hn⟩
  | 2, _ => exact ⟨⟨a, hu.2⟩, b, hv.2⟩
  | 3, _ => exact ⟨⟨hu.1, a⟩, b, hv.2⟩

theorem inner_range2 (s1 s2 : K → K → V3 K) (tol ptol htol : K) (ru rv : Rng K) : ∀ (n : Nat) (c1 c2 : Cell K) (step : Nat) (l : List ((K × K) × (K × K))),
    Inside c1.1 ru → Inside c1.2 rv → EndsIn c2.1 ru → EndsIn c2.2 rv → inner s1 s2 tol ptol htol n c1 c2 step = some l →
    ∀ r ∈ l, (ru.1 ≤ r.2.1 ∧ r.2.1 ≤ ru.2) ∧ rv.1 ≤ r.2.2 ∧ r.2.2 ≤ rv.2
  | 0, _, _, _, _, _, _, _, _, h => by rw [inner] at h; cases h
  | n + 1, c1, c2, step, l, hu, hv, hu2, hv2, h => by
    have hc : (ru.1 ≤ mid c2.1 ∧ mid c2.1 ≤ ru.2) ∧ rv.1 ≤ mid c2.2 ∧ mid c2.2 ≤ rv.2 := ⟨mid_ends hu2, mid_ends hv2⟩
    rw [inner] at h
    split_ifs at h with hs
    · cases h
      intro r hr
      rw [List.mem_singleton.1 hr]; exact hc
    dsimp only at h
    obtain ⟨m, hm, rfl⟩ := Option.map_eq_some_iff.1 h
    intro r hr
    obtain ⟨x, hx, hrx⟩ := List.mem_flatten.1 hr
    obtain ⟨ij, hij, e⟩ := mapM_mem _ _ _ hm x hx
    have hlt := pair_lt (cand_spec _ _ ij hij).2.1
    split at e
    · cases e; cases hrx
    · split_ifs at e with hd
      · cases e
        rw [List.mem_singleton.1 hrx]; exact hc
      · have hi := cells1_in hu hv ij.1 hlt.1 c1
        have a := mid_in hu.2.1
        have b := mid_in hv.2.1
        have hj := cells2_in ⟨hu.1.trans a.1, a.2.trans hu.2.2⟩ ⟨hv.1.trans b.1, b.2.trans hv.2.2⟩ hu2 hv2 ij.2 hlt.2 c2
        exact inner_range2 s1 s2 tol ptol htol ru rv n _ _ _ _ hi.1 hi.2 hj.1 hj.2 e r hrx

/-- **C456, range of the second surface.** When both surfaces have the same ranges the parameters reported for the second lie in them. -/
theorem C456_second_partial (s1 s2 : K → K → V3 K) (tol ptol htol : K) (n : Nat) (c : Cell K) (hu : c.1.1 ≤ c.1.2) (hv : c.2.1 ≤ c.2.2)
    (l : List ((K × K) × (K × K))) (h : findIntersections s1 s2 tol ptol htol n c c = some l) :
    ∀ r ∈ l, (c.1.1 ≤ r.2.1 ∧ r.2.1 ≤ c.1.2) ∧ c.2.1 ≤ r.2.2 ∧ r.2.2 ≤ c.2.2 := by
  unfold findIntersections at h
  split_ifs at h
  · cases h; intro r hr; cases hr
  · exact inner_range2 s1 s2 tol ptol htol c.1 c.2 n c c 1 l ⟨le_refl _, hu, le_refl _⟩ ⟨le_refl _, hv, le_refl _⟩
      ⟨⟨le_refl _, hu⟩, hu, le_refl _⟩ ⟨⟨le_refl _, hv⟩, hv, le_refl _⟩ h

/-- The search for two surfaces with the ranges `(0, 1)` and `(2, 3)`. -/
def shifted : Option (List ((ℚ × ℚ) × (ℚ × ℚ))) :=
  findIntersections (fun u v => ⟨u, v, u⟩) (fun s t => ⟨s - 1, t - 1, s - 1⟩) (1 / 10) (1 / 10000) (1 / 100) 20 ((0, 1), (0, 1)) ((2, 3), (2, 3))

/-- **C456, refuted, second surface.** The surfaces meet in one point only, at `(1, 1)` and `(2, 2)`; all parameters reported are far outside
of the range `(2, 3)` of the second surface. -/
theorem C456_second_refuted : ∃ l, shifted = some l ∧ l.length = 7 ∧ ∀ r ∈ l, r.2.1 < 2 := by
  have h : (shifted.map fun l => decide (l.length = 7) && l.all fun r => decide (r.2.1 < 2)) = some true := by decide +kernel
  obtain ⟨l, hl, e⟩ := Option.map_eq_some_iff.1 h
  rw [Bool.and_eq_true] at e
  exact ⟨l, hl, of_decide_eq_true e.1, fun r hr => of_decide_eq_true (List.all_eq_true.1 e.2 r hr)⟩

/-- The height of the box of a surface in a horizontal plane is zero. -/
theorem bbox_flat (ev : K → K → V3 K) (z : K) (h : ∀ u v, (ev u v).z = z) (c : Cell K) : (bbox ev c).1.z = z ∧ (bbox ev c).2.z = z := by
  simp [bbox, h]

/-- **C456, refuted.** For a first surface in a horizontal plane and a positive third tolerance every pair reported is the centre of the two whole
ranges, wherever the surfaces meet. -/
theorem C456_centre_refuted (s1 s2 : K → K → V3 K) (z : K) (hz : ∀ u v, (s1 u v).z = z) (tol ptol htol : K) (hh : 0 < htol) (n : Nat) (c1 c2 : Cell K)
    (l : List ((K × K) × (K × K))) (h : findIntersections s1 s2 tol ptol htol n c1 c2 = some l) : ∀ r ∈ l, r = centre c1 c2 := by
  unfold findIntersections at h
  split_ifs at h
  · cases h; intro r hr; cases hr
  cases n with
  | zero => rw [inner] at h; cases h
  | succ n =>
    rw [inner] at h
    split_ifs at h with hs
    · cases h
      intro r hr
      exact List.mem_singleton.1 hr
    dsimp only at h
    obtain ⟨m, hm, rfl⟩ := Option.map_eq_some_iff.1 h
    intro r hr
    obtain ⟨x, hx, hrx⟩ := List.mem_flatten.1 hr
    obtain ⟨ij, hij, e⟩ := mapM_mem _ _ _ hm x hx
    split at e
    · cases e; cases hrx
    · rename_i lo hi hb
      have hd : (sub hi lo).z ≤ 0 := by
        unfold boxesIntersection at hb
        dsimp only at hb
        split_ifs at hb with hc
        simp only [Option.some.injEq, Prod.mk.injEq] at hb
        obtain ⟨rfl, rfl⟩ := hb
        obtain ⟨e1, e2⟩ := bbox_flat s1 z hz ((cells1 c1.1 c1.2).getD ij.1 c1)
        simp only [sub, e1, e2]
        have a := min_le_left z (bbox s2 ((cells2 (mid c1.1) (mid c1.2) c2.1 c2.2).getD ij.2 c2)).2.z
        have b := le_max_left z (bbox s2 ((cells2 (mid c1.1) (mid c1.2) c2.1 c2.2).getD ij.2 c2)).1.z
        linarith
      rw [if_pos (Or.inr (hd.trans_lt hh))] at e
      cases e
      exact List.mem_singleton.1 hrx

/-- A case: a horizontal piece and a vertical one that meet at `x = 7/8`; the point of the first surface at the centre is `(1/2, 1/2, 0)`. -/
example : (findIntersections (fun u v => (⟨u, v, 0⟩ : V3 ℚ)) (fun s t => ⟨7 / 8, s, t - 1 / 4⟩) (1 / 10) (1 / 10) (1 / 100) 8 ((0, 1), (0, 1)) ((0, 1), (0, 1))).map
    (fun l => l.map fun r => (r.1.1, r.1.2, r.2.1, r.2.2)) = some [(1 / 2, 1 / 2, 1 / 2, 1 / 2)] := by decide +kernel

end Verif.Dqr
