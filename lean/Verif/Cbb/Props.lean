import Verif.Cbb.Model
import Verif.Aabb.Props
import Verif.DnC.Props
import Mathlib.Algebra.Order.Group.MinMax

/-! # C415–C417: bounding boxes of curves -/

set_option linter.unusedSectionVars false

namespace Verif.Cbb
open Aabb

variable {K : Type} [Field K] [LinearOrder K] [IsStrictOrderedRing K]

theorem mem_insertU (x y : K) (l : List K) : y ∈ insertU x l ↔ y = x ∨ y ∈ l := by
  induction l with
  | nil => simp [insertU]
  | cons z l ih =>
    rw [insertU]
    split_ifs with h1 h2
    · simp
    · subst h2; simp
    · simp only [List.mem_cons, ih]; tauto

theorem mem_unique (y : K) (l : List K) : y ∈ unique l ↔ y ∈ l := by
  induction l with
  | nil => simp [unique]
  | cons x l ih =>
    have : unique (x :: l) = insertU x (unique l) := rfl
    rw [this, mem_insertU, ih, List.mem_cons]

/-- A list with an element has one with the least coordinate. -/
theorem exists_least (i : Nat) (l : List (Pt K)) (h : l ≠ []) : ∃ p ∈ l, ∀ q ∈ l, p i ≤ q i := by
  induction l with
  | nil => exact absurd rfl h
  | cons p l ih =>
    by_cases hl : l = []
    · subst hl; exact ⟨p, List.mem_cons_self, fun q hq => by simp at hq; rw [hq]⟩
    · obtain ⟨r, hr, hm⟩ := ih hl
      rcases le_total (p i) (r i) with hle | hle
      · exact ⟨p, List.mem_cons_self, fun q hq => by
          rcases List.mem_cons.1 hq with rfl | hq
          · exact le_rfl
          · exact hle.trans (hm q hq)⟩
      · exact ⟨r, List.mem_cons_of_mem _ hr, fun q hq => by
          rcases List.mem_cons.1 hq with rfl | hq
          · exact hle
          · exact hm q hq⟩

theorem exists_greatest (i : Nat) (l : List (Pt K)) (h : l ≠ []) : ∃ p ∈ l, ∀ q ∈ l, q i ≤ p i := by
  obtain ⟨p, hp, hm⟩ := exists_least i (l.map fun p : Pt K => fun j => - p j) (by simpa using h)
  obtain ⟨q, hq, rfl⟩ := List.mem_map.1 hp
  refine ⟨q, hq, fun r hr => ?_⟩
  have := hm _ (List.mem_map.2 ⟨r, hr, rfl⟩)
  simpa using this

/-- Every face of the box of some points has one of the points on it, and the box contains all. -/
theorem aabb_faces {l : List (Pt K)} {b : Box K} (h : aabb 3 l = some b) :
    (∀ p ∈ l, InBox 3 b p) ∧ ∀ i < 3, (∃ p ∈ l, b.lo i = p i) ∧ ∃ p ∈ l, b.hi i = p i := by
  have hne : l ≠ [] := by rintro rfl; simp [aabb, caabb] at h
  obtain ⟨b', h1, h2, h3, _⟩ := C17_aabb_smallest 3 (le_refl 3) l hne
  rw [h] at h1
  cases h1
  refine ⟨h2, fun i hi => ?_⟩
  obtain ⟨p0, hp0⟩ := List.exists_mem_of_ne_nil l hne
  have hpr : Proper 3 b := fun j hj => (h2 p0 hp0 j hj).1.trans (h2 p0 hp0 j hj).2
  constructor
  · obtain ⟨p, hp, hm⟩ := exists_least i l hne
    refine ⟨p, hp, le_antisymm (h2 p hp i hi).1 ?_⟩
    have := h3 ⟨fun j => if j = i then p i else b.lo j, b.hi⟩ (fun q hq j hj => ⟨by
      dsimp only
      split_ifs with e
      · subst e; exact hm q hq
      · exact (h2 q hq j hj).1, (h2 q hq j hj).2⟩) b.lo (fun j hj => ⟨le_rfl, hpr j hj⟩) i hi
    simpa using this.1
  · obtain ⟨p, hp, hm⟩ := exists_greatest i l hne
    refine ⟨p, hp, le_antisymm ?_ (h2 p hp i hi).2⟩
    have := h3 ⟨b.lo, fun j => if j = i then p i else b.hi j⟩ (fun q hq j hj => ⟨(h2 q hq j hj).1, by
      dsimp only
      split_ifs with e
      · subst e; exact hm q hq
      · exact (h2 q hq j hj).2⟩) b.hi (fun j hj => ⟨hpr j hj, le_rfl⟩) i hi
    simpa using this.2

theorem solve_spec {fuel : Nat} {tol a b : K} {f : K → K} {l : List K}
    (h : solveInterval fuel tol a b f = some l) :
    ∃ r s, DnC.minIter f tol fuel a b = some r ∧ DnC.minIter (fun t => - f t) tol fuel a b = some s ∧ l = [r.1, s.1] := by
  unfold solveInterval at h
  cases h1 : DnC.minIter f tol fuel a b with
  | none => simp [h1] at h
  | some r =>
    cases h2 : DnC.minIter (fun t => - f t) tol fuel a b with
    | none => simp [h1, h2] at h
    | some s =>
      simp [h1, h2] at h
      exact ⟨r, s, rfl, rfl, h.symm⟩

/-- The points that `curve_aabb` looks at: the ends and, for each coordinate, the answers of the two searches. -/
theorem curveAabb_spec {fuel : Nat} {tol a b : K} {c : K → Pt K} {B : Box K} (h : curveAabb fuel tol c a b = some B) :
    ∃ ts : List K, aabb 3 (ts.map c) = some B ∧ a ∈ ts ∧ b ∈ ts ∧
      (∀ i < 3, ∃ r s, DnC.minIter (fun t => c t i) tol fuel a b = some r ∧
        DnC.minIter (fun t => - c t i) tol fuel a b = some s ∧ r.1 ∈ ts ∧ s.1 ∈ ts) ∧
      ∀ t ∈ ts, t = a ∨ t = b ∨ ∃ i < 3, ∃ r, t = r.1 ∧ (DnC.minIter (fun t => c t i) tol fuel a b = some r ∨
        DnC.minIter (fun t => - c t i) tol fuel a b = some r) := by
  unfold curveAabb curveBoundPoints at h
  cases hx : solveInterval fuel tol a b (fun t => c t 0) with
  | none => simp [hx] at h
  | some x =>
    cases hy : solveInterval fuel tol a b (fun t => c t 1) with
    | none => simp [hx, hy] at h
    | some y =>
      cases hz : solveInterval fuel tol a b (fun t => c t 2) with
      | none => simp [hx, hy, hz] at h
      | some z =>
        simp [hx, hy, hz] at h
        obtain ⟨rx, sx, x1, x2, rfl⟩ := solve_spec hx
        obtain ⟨ry, sy, y1, y2, rfl⟩ := solve_spec hy
        obtain ⟨rz, sz, z1, z2, rfl⟩ := solve_spec hz
        refine ⟨_, h, ?_, ?_, ?_, ?_⟩
        · rw [mem_unique]; simp
        · rw [mem_unique]; simp
        · intro i hi
          have : i = 0 ∨ i = 1 ∨ i = 2 := by omega
          rcases this with rfl | rfl | rfl
          · exact ⟨rx, sx, x1, x2, by rw [mem_unique]; simp, by rw [mem_unique]; simp⟩
          · exact ⟨ry, sy, y1, y2, by rw [mem_unique]; simp, by rw [mem_unique]; simp⟩
          · exact ⟨rz, sz, z1, z2, by rw [mem_unique]; simp, by rw [mem_unique]; simp⟩
        · intro t ht
          rw [mem_unique] at ht
          simp only [List.mem_cons, List.mem_append, List.not_mem_nil, or_false, or_assoc] at ht
          rcases ht with rfl | h | h | h | h | h | h | rfl
          · exact Or.inl rfl
          · exact Or.inr (Or.inr ⟨0, by omega, rx, h, Or.inl x1⟩)
          · exact Or.inr (Or.inr ⟨0, by omega, sx, h, Or.inr x2⟩)
          · exact Or.inr (Or.inr ⟨1, by omega, ry, h, Or.inl y1⟩)
          · exact Or.inr (Or.inr ⟨1, by omega, sy, h, Or.inr y2⟩)
          · exact Or.inr (Or.inr ⟨2, by omega, rz, h, Or.inl z1⟩)
          · exact Or.inr (Or.inr ⟨2, by omega, sz, h, Or.inr z2⟩)
          · exact Or.inr (Or.inl rfl)

theorem minIter_range {f : K → K} {tol a b : K} {k : Nat} {r : K × K} (hab : a ≤ b)
    (h : DnC.minIter f tol k a b = some r) : a ≤ r.1 ∧ r.1 ≤ b := by
  rw [DnC.minIter_eq f tol k hab] at h
  have := DnC.minRec_range k hab h
  exact ⟨this.1, this.2.1⟩

theorem minIter_some (f : K → K) {tol a b : K} (hab : a ≤ b) (n k : Nat) (hn : (b - a) * (3 / 4) ^ n < tol)
    (hk : n < k) : ∃ r, DnC.minIter f tol k a b = some r := by
  obtain ⟨m, rfl⟩ : ∃ m, k = m + 1 := ⟨k - 1, by omega⟩
  rw [DnC.minIter_eq f tol _ hab]
  apply DnC.minRec_some f m
  refine lt_of_le_of_lt ?_ hn
  have h1 : (3 / 4 : K) ^ m ≤ (3 / 4) ^ n :=
    pow_le_pow_of_le_one (by norm_num) (by norm_num) (by omega)
  exact mul_le_mul_of_nonneg_left h1 (by linarith)

/-- `curve_aabb` returns for every curve, every interval and every positive tolerance. -/
theorem C415_returns [Archimedean K] (c : K → Pt K) (a b tol : K) (hab : a ≤ b) (ht : 0 < tol) :
    ∃ N, ∀ fuel ≥ N, ∃ B, curveAabb fuel tol c a b = some B := by
  obtain ⟨n, hn⟩ := DnC.enough (b - a) ht (3 / 4) (by norm_num) (by norm_num)
  refine ⟨n + 1, fun fuel hf => ?_⟩
  have hs : ∀ f : K → K, ∃ l, solveInterval fuel tol a b f = some l := by
    intro f
    obtain ⟨r, hr⟩ := minIter_some f hab n fuel hn hf
    obtain ⟨s, hs⟩ := minIter_some (fun t => - f t) hab n fuel hn hf
    exact ⟨[r.1, s.1], by simp [solveInterval, hr, hs]⟩
  obtain ⟨x, hx⟩ := hs (fun t => c t 0)
  obtain ⟨y, hy⟩ := hs (fun t => c t 1)
  obtain ⟨z, hz⟩ := hs (fun t => c t 2)
  have hm : a ∈ unique (a :: (x ++ y ++ z ++ [b])) := by rw [mem_unique]; simp
  obtain ⟨B, hB, _⟩ := C17_aabb_smallest 3 (le_refl 3) ((unique (a :: (x ++ y ++ z ++ [b]))).map c)
    (fun h => by rw [List.map_eq_nil_iff] at h; rw [h] at hm; cases hm)
  refine ⟨B, ?_⟩
  simp only [List.append_assoc] at hB
  simp [curveAabb, curveBoundPoints, hx, hy, hz, hB]

/-- The box contains both ends of the curve and is nowhere too large: every face is touched by the curve. -/
theorem C415_inside (fuel : Nat) (c : K → Pt K) (a b tol : K) (hab : a ≤ b) (B : Box K)
    (h : curveAabb fuel tol c a b = some B) :
    InBox 3 B (c a) ∧ InBox 3 B (c b) ∧ ∀ i < 3, (∃ t, a ≤ t ∧ t ≤ b ∧ B.lo i = c t i) ∧
      ∃ t, a ≤ t ∧ t ≤ b ∧ B.hi i = c t i := by
  obtain ⟨ts, h1, h2, h3, _, h5⟩ := curveAabb_spec h
  obtain ⟨f1, f2⟩ := aabb_faces h1
  have hin : ∀ t ∈ ts, a ≤ t ∧ t ≤ b := by
    intro t ht
    rcases h5 t ht with rfl | rfl | ⟨i, _, r, rfl, hr | hr⟩
    · exact ⟨le_rfl, hab⟩
    · exact ⟨hab, le_rfl⟩
    · exact minIter_range hab hr
    · exact minIter_range hab hr
  refine ⟨f1 _ (List.mem_map.2 ⟨a, h2, rfl⟩), f1 _ (List.mem_map.2 ⟨b, h3, rfl⟩), fun i hi => ?_⟩
  obtain ⟨⟨p, hp, e1⟩, ⟨q, hq, e2⟩⟩ := f2 i hi
  obtain ⟨t, ht, rfl⟩ := List.mem_map.1 hp
  obtain ⟨u, hu, rfl⟩ := List.mem_map.1 hq
  exact ⟨⟨t, (hin t ht).1, (hin t ht).2, e1⟩, ⟨u, (hin u hu).1, (hin u hu).2, e2⟩⟩

/-- A function that falls and then rises is largest at one of the ends. -/
theorem uni_max {f : K → K} {a b xs : K} (hu : DnC.Unimodal f a b xs) (t : K) (h1 : a ≤ t) (h2 : t ≤ b) :
    f xs ≤ f t ∧ (f t ≤ f a ∨ f t ≤ f b) := by
  rcases lt_trichotomy t xs with h | h | h
  · refine ⟨(hu.dec t xs h1 h le_rfl).le, Or.inl ?_⟩
    rcases eq_or_lt_of_le h1 with e | e
    · rw [e]
    · exact (hu.dec a t le_rfl e h.le).le
  · subst h
    refine ⟨le_rfl, ?_⟩
    rcases eq_or_lt_of_le h1 with e | e
    · left; rw [e]
    · left; exact (hu.dec a t le_rfl e le_rfl).le
  · refine ⟨(hu.inc xs t le_rfl h h2).le, Or.inr ?_⟩
    rcases eq_or_lt_of_le h2 with e | e
    · rw [e]
    · exact (hu.inc t b h.le e le_rfl).le

/-- If each coordinate has one turning point and speed at most `L`, the box misses the curve by at most
half the tolerance times `L`; the bound does not depend on the number of rounds. -/
theorem C415_unimodal_partial [Archimedean K] (fuel : Nat) (c : K → Pt K) (a b tol L : K) (ht : 0 < tol) (hL0 : 0 ≤ L)
    (hL : ∀ i < 3, ∀ s t, a ≤ s → s ≤ b → a ≤ t → t ≤ b → |c s i - c t i| ≤ L * |s - t|)
    (hu : ∀ i < 3, ∃ xs, DnC.Unimodal (fun t => c t i) a b xs ∨ DnC.Unimodal (fun t => - c t i) a b xs)
    (B : Box K) (h : curveAabb fuel tol c a b = some B) (t : K) (h1 : a ≤ t) (h2 : t ≤ b) (i : Nat) (hi : i < 3) :
    B.lo i - L * (tol / 2) ≤ c t i ∧ c t i ≤ B.hi i + L * (tol / 2) := by
  have hab := h1.trans h2
  obtain ⟨ts, g1, g2, g3, g4, _⟩ := curveAabb_spec h
  obtain ⟨f1, _⟩ := aabb_faces g1
  have ha := f1 _ (List.mem_map.2 ⟨a, g2, rfl⟩) i hi
  have hb := f1 _ (List.mem_map.2 ⟨b, g3, rfl⟩) i hi
  obtain ⟨r, s, m1, m2, r1, s1⟩ := g4 i hi
  have hr := f1 _ (List.mem_map.2 ⟨r.1, r1, rfl⟩) i hi
  have hs := f1 _ (List.mem_map.2 ⟨s.1, s1, rfl⟩) i hi
  have rr := minIter_range hab m1
  have ss := minIter_range hab m2
  have hL1 := hL0
  obtain ⟨xs, hu | hu⟩ := hu i hi
  · obtain ⟨u1, u2⟩ := uni_max hu t h1 h2
    have near := ((DnC.C31_iterative (fun t => c t i) a b xs tol hu ht).2 fuel r m1).2.2.2
    have l1 := hL i hi r.1 xs rr.1 rr.2 hu.left hu.right
    have l2 : L * |r.1 - xs| ≤ L * (tol / 2) := mul_le_mul_of_nonneg_left near.le hL1
    have l3 := (abs_le.1 l1).2
    have l4 := mul_nonneg hL1 (by linarith : (0 : K) ≤ tol / 2)
    refine ⟨by linarith [hr.1], ?_⟩
    rcases u2 with u2 | u2
    · linarith [ha.2]
    · linarith [hb.2]
  · obtain ⟨u1, u2⟩ := uni_max hu t h1 h2
    have near := ((DnC.C31_iterative (fun t => - c t i) a b xs tol hu ht).2 fuel s m2).2.2.2
    have l1 := hL i hi s.1 xs ss.1 ss.2 hu.left hu.right
    have l2 : L * |s.1 - xs| ≤ L * (tol / 2) := mul_le_mul_of_nonneg_left near.le hL1
    have l3 := (abs_le.1 l1).1
    have l4 := mul_nonneg hL1 (by linarith : (0 : K) ≤ tol / 2)
    refine ⟨?_, by linarith [hs.2]⟩
    rcases u2 with u2 | u2
    · linarith [ha.1]
    · linarith [hb.1]

/-- If each coordinate grows or falls all the way, the whole curve is in the box. -/
theorem C415_monotone (fuel : Nat) (c : K → Pt K) (a b tol : K)
    (hm : ∀ i < 3, (∀ s t, a ≤ s → s ≤ t → t ≤ b → c s i ≤ c t i) ∨ (∀ s t, a ≤ s → s ≤ t → t ≤ b → c t i ≤ c s i))
    (B : Box K) (h : curveAabb fuel tol c a b = some B) (t : K) (h1 : a ≤ t) (h2 : t ≤ b) : InBox 3 B (c t) := by
  obtain ⟨ha, hb, _⟩ := C415_inside fuel c a b tol (h1.trans h2) B h
  intro i hi
  rcases hm i hi with m | m
  · exact ⟨(ha i hi).1.trans (m a t le_rfl h1 h2), (m t b h1 h2 le_rfl).trans (hb i hi).2⟩
  · exact ⟨(hb i hi).1.trans (m t b h1 h2 le_rfl), (m a t le_rfl h1 h2).trans (ha i hi).2⟩

/-- A tooth of height `M` between 0 and 1/4. -/
def tooth (M t : K) : K := max 0 (M * (1 - 8 * |t - 1 / 8|))

theorem tooth_zero {M t : K} (hM : 0 < M) (ht : 1 / 4 ≤ t) : tooth M t = 0 := by
  have : 1 / 8 ≤ |t - 1 / 8| := by rw [abs_of_nonneg (by linarith)]; linarith
  exact max_eq_left (mul_nonpos_of_nonneg_of_nonpos hM.le (by linarith))

theorem tooth_lip {M : K} (hM : 0 < M) (s t : K) : |tooth M s - tooth M t| ≤ 8 * M * |s - t| := by
  have h1 : |tooth M s - tooth M t| ≤ |M * (1 - 8 * |s - 1 / 8|) - M * (1 - 8 * |t - 1 / 8|)| :=
    by
    have := abs_max_sub_max_le_max (0 : K) (M * (1 - 8 * |s - 1 / 8|)) 0 (M * (1 - 8 * |t - 1 / 8|))
    rw [sub_self, abs_zero] at this
    exact this.trans (max_eq_right (abs_nonneg _)).le
  have h2 : M * (1 - 8 * |s - 1 / 8|) - M * (1 - 8 * |t - 1 / 8|) = 8 * M * (|t - 1 / 8| - |s - 1 / 8|) := by ring
  rw [h2, abs_mul, abs_of_pos (show 0 < 8 * M by linarith)] at h1
  refine h1.trans (mul_le_mul_of_nonneg_left ?_ (by linarith))
  have := abs_abs_sub_abs_le (t - 1 / 8) (s - 1 / 8)
  rw [show t - 1 / 8 - (s - 1 / 8) = t - s by ring, abs_sub_comm t s] at this
  exact this

theorem search_past {f : K → K} (hf : ∀ t, 1 / 4 ≤ t → f t = 0) {tol : K} {k : Nat} {r : K × K}
    (h : DnC.minIter f tol k 0 1 = some r) : 1 / 4 ≤ r.1 := by
  cases k with
  | zero => simp [DnC.minIter] at h
  | succ k =>
    rw [DnC.minIter] at h
    by_cases ht : |(1 : K) - 0| ≥ tol
    · rw [if_pos ht] at h
      dsimp only at h
      rw [if_neg (by rw [hf _ (by norm_num), hf _ (by norm_num)]; exact lt_irrefl _)] at h
      have := minIter_range (by norm_num) h
      norm_num at this ⊢
      exact this.1
    · rw [if_neg ht] at h
      injection h with h
      rw [← h]; norm_num

/-- For every height and every tolerance there is a curve, continuous with bounded speed, that leaves its
bounding box by that height. -/
theorem C415_refuted [Archimedean K] (M tol : K) (hM : 0 < M) (ht : 0 < tol) :
    ∃ c : K → Pt K, (∀ i s t, |c s i - c t i| ≤ 8 * M * |s - t|) ∧ c (1 / 8) 0 = M ∧
      (∃ N, ∀ fuel ≥ N, ∃ B, curveAabb fuel tol c 0 1 = some B) ∧
      ∀ fuel B, curveAabb fuel tol c 0 1 = some B → ∀ i < 3, B.lo i = 0 ∧ B.hi i = 0 := by
  refine ⟨fun t i => if i = 0 then tooth M t else 0, ?_, ?_, C415_returns _ 0 1 tol (by norm_num) ht, ?_⟩
  · intro i s t
    dsimp only
    split_ifs
    · exact tooth_lip hM s t
    · simp; exact mul_nonneg (by linarith) (abs_nonneg _)
  · simp [tooth, hM.le]
  · intro fuel B h i hi
    obtain ⟨ts, h1, _, _, _, h5⟩ := curveAabb_spec h
    obtain ⟨_, f2⟩ := aabb_faces h1
    have hz : ∀ t ∈ ts, ∀ j : Nat, (if j = 0 then tooth M t else 0) = (0 : K) := by
      intro t ht j
      by_cases hj : j = 0
      · rw [if_pos hj]
        rcases h5 t ht with rfl | rfl | ⟨i, _, r, rfl, hr | hr⟩
        · simp only [tooth, zero_sub, abs_neg]
          rw [abs_of_pos (by norm_num)]
          norm_num
        · exact tooth_zero hM (by norm_num)
        · refine tooth_zero hM (search_past ?_ hr)
          intro t ht; rw [tooth_zero hM ht, ite_self]
        · refine tooth_zero hM (search_past ?_ hr)
          intro t ht; rw [tooth_zero hM ht, ite_self, neg_zero]
      · rw [if_neg hj]
    obtain ⟨⟨p, hp, e1⟩, ⟨q, hq, e2⟩⟩ := f2 i hi
    obtain ⟨t, ht, rfl⟩ := List.mem_map.1 hp
    obtain ⟨u, hu, rfl⟩ := List.mem_map.1 hq
    exact ⟨e1.trans (hz t ht i), e2.trans (hz u hu i)⟩

/-! Cases: an arc that rises and falls, and a line. -/

/-- A parabola. -/
def parab (t : ℚ) : Pt ℚ := fun i => if i = 0 then t else if i = 1 then t * t - t else 1 - t

example : (curveAabb 30 (1 / 10) parab 0 1).map (fun B => decide ((B.lo 0, B.hi 0) = (0, 1) ∧ (B.lo 2, B.hi 2) = (0, 1) ∧
    B.hi 1 = 0 ∧ -1 / 4 ≤ B.lo 1 ∧ B.lo 1 ≤ -1 / 4 + 1 / 20)) = some true := by decide +kernel

example : ∀ i < 3, ∃ xs, DnC.Unimodal (fun t => parab t i) 0 1 xs ∨ DnC.Unimodal (fun t => - parab t i) 0 1 xs := by
  intro i hi
  have : i = 0 ∨ i = 1 ∨ i = 2 := by omega
  rcases this with rfl | rfl | rfl
  · exact ⟨0, Or.inl ⟨by norm_num, by norm_num, by intro x y h1 h2 h3; linarith, by
      intro x y h1 h2 h3; simpa [parab] using h2⟩⟩
  · exact ⟨1 / 2, Or.inl ⟨by norm_num, by norm_num, by
      intro x y h1 h2 h3; simp only [parab]; norm_num; nlinarith, by
      intro x y h1 h2 h3; simp only [parab]; norm_num; nlinarith⟩⟩
  · exact ⟨1, Or.inl ⟨by norm_num, by norm_num, by
      intro x y h1 h2 h3; simpa [parab] using h2, by intro x y h1 h2 h3; linarith⟩⟩

end Verif.Cbb
