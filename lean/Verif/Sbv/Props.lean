import Mathlib.Algebra.Order.Field.Rat
import Mathlib.Data.Rat.Floor
import Mathlib.Order.Monotone.Basic
import Mathlib.Tactic.Linarith
import Mathlib.Tactic.NormNum
import Mathlib.Tactic.Ring
import Mathlib.Data.Fin.VecNotation
import Mathlib.Order.Interval.Set.Basic
import Verif.Clm.Props
import Verif.Sbv.Model

/-! # C486: the boxes of a spline -/

set_option linter.unusedSectionVars false

namespace Verif.Sbv

open Verif.Clm (linspace linspace_eq linspace_lt linspace_mem)

variable {K : Type} [Field K] [LinearOrder K] [IsStrictOrderedRing K]

/-- A point lies in a box. -/
def In (x : Fin 3 → K) (b : (Fin 3 → K) × (Fin 3 → K)) : Prop := ∀ i, b.1 i ≤ x i ∧ x i ≤ b.2 i

theorem between (L : ℕ → K) (t : K) : ∀ n, 0 < n → L 0 ≤ t → t ≤ L n → ∃ i < n, L i ≤ t ∧ t ≤ L (i + 1)
  | 0, h, _, _ => absurd h (lt_irrefl _)
  | 1, _, h0, h1 => ⟨0, Nat.one_pos, h0, h1⟩
  | n + 2, _, h0, h1 => by
    by_cases h : t ≤ L (n + 1)
    · obtain ⟨i, hi, h2⟩ := between L t (n + 1) (by omega) h0 h
      exact ⟨i, by omega, h2⟩
    · exact ⟨n + 1, by omega, (not_le.1 h).le, h1⟩

theorem first_eq (a b : K) (n : ℕ) (hn : 0 < n) : linspace a b (n + 1) 0 = a := by
  rw [linspace_eq a b (n + 1) 0 (by omega) (by omega)]; simp

theorem last_eq (a b : K) (n : ℕ) (hn : 0 < n) : linspace a b (n + 1) n = b := by
  unfold linspace
  rw [if_neg (by omega), if_pos (by omega)]

/-- **C486** (the pieces).  There are `count` segments; the first begins at the start of the curve, the last ends at its end, each begins where the one
before ends; and every parameter of the interval lies between the parameters of a segment, whose points are those of the curve there. -/
theorem C486_pieces (f : K → Fin 3 → K) (a b : K) (n : ℕ) (hn : 0 < n) :
    (segments f a b n).length = n ∧ (∃ s, (segments f a b n).head? = some s ∧ s.p = f a ∧ s.t.1 = a) ∧
    (∃ s, (segments f a b n).getLast? = some s ∧ s.q = f b ∧ s.t.2 = b) ∧
    (∀ i s s', (segments f a b n)[i]? = some s → (segments f a b n)[i + 1]? = some s' → s.q = s'.p ∧ s.t.2 = s'.t.1) ∧
    ∀ t, a ≤ t → t ≤ b → ∃ s ∈ segments f a b n, s.t.1 ≤ t ∧ t ≤ s.t.2 ∧ s.p = f s.t.1 ∧ s.q = f s.t.2 := by
  refine ⟨by simp [segments], ?_, ?_, ?_, ?_⟩
  · obtain ⟨m, rfl⟩ := Nat.exists_eq_succ_of_ne_zero hn.ne'
    refine ⟨_, by simp only [segments, List.head?_map, List.head?_range]; rfl, ?_, ?_⟩
    · show f (linspace a b (m + 1 + 1) 0) = f a
      rw [first_eq a b _ hn]
    · exact first_eq a b _ hn
  · obtain ⟨m, rfl⟩ := Nat.exists_eq_succ_of_ne_zero hn.ne'
    refine ⟨_, by simp only [segments, Nat.succ_eq_add_one, List.range_succ, List.map_append, List.map_cons, List.map_nil, List.getLast?_concat]; rfl, ?_, ?_⟩
    · show f (linspace a b (m + 1 + 1) (m + 1)) = f b
      rw [last_eq a b _ hn]
    · exact last_eq a b _ hn
  · intro i s s' h h'
    unfold segments at h h'
    rw [List.getElem?_map, Option.map_eq_some_iff] at h h'
    obtain ⟨j, hj, rfl⟩ := h
    obtain ⟨k, hk, rfl⟩ := h'
    have e1 := (List.getElem?_eq_some_iff.1 hj).2
    have e2 := (List.getElem?_eq_some_iff.1 hk).2
    rw [List.getElem_range] at e1 e2
    subst e1 e2
    exact ⟨rfl, rfl⟩
  · intro t h1 h2
    obtain ⟨i, hi, h3⟩ := between (linspace a b (n + 1)) t n hn (by rw [first_eq a b n hn]; exact h1) (by rw [last_eq a b n hn]; exact h2)
    exact ⟨_, List.mem_map.2 ⟨i, List.mem_range.2 hi, rfl⟩, h3.1, h3.2, rfl, rfl⟩

/-- **C486** (the boxes, part).  If on every piece each coordinate of the curve rises or falls, every point of the curve is in a box; a polyline with its
vertices among the samples is such a curve.  Missing: curves that turn within a piece. -/
theorem C486_boxes_partial (f : K → Fin 3 → K) (a b : K) (n : ℕ) (hn : 0 < n)
    (hm : ∀ s ∈ segments f a b n, ∀ c, MonotoneOn (fun t => f t c) (Set.Icc s.t.1 s.t.2) ∨ AntitoneOn (fun t => f t c) (Set.Icc s.t.1 s.t.2))
    (t : K) (h1 : a ≤ t) (h2 : t ≤ b) : ∃ s ∈ segments f a b n, In (f t) s.box := by
  obtain ⟨s, hs, h3, h4, hp, hq⟩ := (C486_pieces f a b n hn).2.2.2.2 t h1 h2
  refine ⟨s, hs, fun c => ?_⟩
  have hle := le_trans h3 h4
  show min (s.p c) (s.q c) ≤ f t c ∧ f t c ≤ max (s.p c) (s.q c)
  rw [hp, hq]
  rcases hm s hs c with h | h
  · exact ⟨(min_le_left _ _).trans (h ⟨le_rfl, hle⟩ ⟨h3, h4⟩ h3), (h ⟨h3, h4⟩ ⟨hle, le_rfl⟩ h4).trans (le_max_right _ _)⟩
  · exact ⟨(min_le_right _ _).trans (h ⟨h3, h4⟩ ⟨hle, le_rfl⟩ h4), (h ⟨le_rfl, hle⟩ ⟨h3, h4⟩ h3).trans (le_max_left _ _)⟩

/-- **C486** refuted, curves that turn.  However many segments are asked for, there is a parabola with a point in none of the boxes. -/
theorem C486_boxes_refuted (a b : K) (hab : a < b) (n : ℕ) (hn : 0 < n) :
    ∃ p q : K, ∃ t, a ≤ t ∧ t ≤ b ∧
      ∀ s ∈ segments (fun t => ![t, (t - p) * (q - t), 0]) a b n, ¬ In ![t, (t - p) * (q - t), 0] s.box := by
  have h01 := linspace_lt a b hab (n + 1) 0 1 (by omega) (by omega)
  have hL1 := linspace_mem a b hab.le (n + 1) 1 (by omega)
  rw [first_eq a b n hn] at h01
  set q := linspace a b (n + 1) 1 with hq
  refine ⟨a, q, (a + q) / 2, by linarith, by linarith [hL1.2], ?_⟩
  have out : ∀ j, j < n + 1 → (linspace a b (n + 1) j - a) * (q - linspace a b (n + 1) j) ≤ 0 := by
    intro j hj
    rcases Nat.eq_zero_or_pos j with rfl | hj0
    · rw [first_eq a b n hn]; simp
    · have h1 := (linspace_mem a b hab.le (n + 1) j hj).1
      have h2 : q ≤ linspace a b (n + 1) j := by
        rcases Nat.lt_or_ge 1 j with h | h
        · exact (linspace_lt a b hab (n + 1) 1 j h hj).le
        · rw [hq, show j = 1 by omega]
      exact mul_nonpos_of_nonneg_of_nonpos (by linarith) (by linarith)
  rintro s hs hin
  obtain ⟨i, hi, rfl⟩ := List.mem_map.1 hs
  have hi := List.mem_range.1 hi
  have hmax := (hin 1).2
  have o1 := out i (by omega)
  have o2 := out (i + 1) (by omega)
  change ((a + q) / 2 - a) * (q - (a + q) / 2) ≤ max ((linspace a b (n + 1) i - a) * (q - linspace a b (n + 1) i))
    ((linspace a b (n + 1) (i + 1) - a) * (q - linspace a b (n + 1) (i + 1))) at hmax
  have hpos : 0 < ((a + q) / 2 - a) * (q - (a + q) / 2) := mul_pos (by linarith) (by linarith)
  have := max_le o1 o2
  linarith

/-- **C486** (the default, part).  By default a piece is at most one over the degree long. -/
theorem C486_default_partial [FloorRing K] (f : K → Fin 3 → K) (a b : K) (hab : a < b) (degree : ℕ) (hd : 0 < degree) :
    0 < defaultCount a b degree ∧ ∀ s ∈ segments f a b (defaultCount a b degree).toNat, s.t.2 - s.t.1 ≤ 1 / degree := by
  have hc : 0 < ⌈b - a⌉ := Int.ceil_pos.2 (sub_pos.2 hab)
  have hpos : 0 < defaultCount a b degree := mul_pos hc (by exact_mod_cast hd)
  refine ⟨hpos, fun s hs => ?_⟩
  have hdK : (0 : K) < degree := Nat.cast_pos.2 hd
  have hn : (((defaultCount a b degree).toNat : ℕ) : K) = (⌈b - a⌉ : K) * degree := by
    have : (((defaultCount a b degree).toNat : ℕ) : ℤ) = ⌈b - a⌉ * degree := Int.toNat_of_nonneg hpos.le
    exact_mod_cast congrArg (Int.cast : ℤ → K) this
  have hN : 0 < (defaultCount a b degree).toNat := by omega
  generalize (defaultCount a b degree).toNat = N at *
  obtain ⟨i, hi, rfl⟩ := List.mem_map.1 hs
  have hi := List.mem_range.1 hi
  show linspace a b (N + 1) (i + 1) - linspace a b (N + 1) i ≤ 1 / degree
  rw [linspace_eq a b (N + 1) i (by omega) (by omega), linspace_eq a b (N + 1) (i + 1) (by omega) (by omega)]
  have hNK : (0 : K) < N := Nat.cast_pos.2 hN
  have e : a + ((i + 1 : ℕ) : K) * ((b - a) / ((N + 1 - 1 : ℕ) : K)) - (a + (i : K) * ((b - a) / ((N + 1 - 1 : ℕ) : K))) = (b - a) / N := by
    push_cast [Nat.add_sub_cancel]; ring
  rw [e, div_le_div_iff₀ hNK hdK, hn, one_mul]
  exact mul_le_mul_of_nonneg_right (Int.le_ceil _) hdK.le

/-- **C486** refuted, the default for closed polylines.  On the interval `[0, 1]` and for degree 1 there is a single segment, whatever the number of
vertices: of a closed polyline only the points equal to the start are in a box. -/
theorem C486_default_refuted [FloorRing K] (f : K → Fin 3 → K) (hcl : f 0 = f 1) (t : K) (ht : f t ≠ f 0) :
    defaultCount (0 : K) 1 1 = 1 ∧ ∀ s ∈ segments f 0 1 (defaultCount (0 : K) 1 1).toNat, ¬ In (f t) s.box := by
  have h1 : defaultCount (0 : K) 1 1 = 1 := by simp [defaultCount]
  refine ⟨h1, fun s hs hin => ht ?_⟩
  rw [h1] at hs
  obtain ⟨i, hi, rfl⟩ := List.mem_map.1 hs
  have hi : i = 0 := by have := List.mem_range.1 hi; simpa using this
  subst hi
  funext c
  have hc := hin c
  change min (f (linspace 0 1 2 0) c) (f (linspace 0 1 2 1) c) ≤ f t c ∧ f t c ≤ max (f (linspace 0 1 2 0) c) (f (linspace 0 1 2 1) c) at hc
  rw [show linspace (0 : K) 1 2 0 = 0 from first_eq 0 1 1 Nat.one_pos, show linspace (0 : K) 1 2 1 = 1 from last_eq 0 1 1 Nat.one_pos, ← hcl, min_self,
    max_self] at hc
  exact le_antisymm hc.2 hc.1

/-- Two and a half units of a curve of degree two: six pieces; the parameters of two pieces of `[0, 1]`. -/
example : defaultCount (0 : ℚ) (5 / 2) 2 = 6 ∧ (segments (fun t : ℚ => ![t, t, 0]) 0 1 2).map (·.t) = [(0, 1 / 2), (1 / 2, 1)] := by
  constructor
  · rw [defaultCount, show ⌈(5 / 2 - 0 : ℚ)⌉ = 3 by norm_num [Int.ceil_eq_iff]]; norm_num
  · decide +kernel

end Verif.Sbv
