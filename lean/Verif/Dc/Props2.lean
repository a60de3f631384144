import Verif.Dc.Props
import Verif.ImplTree.Lemmas2
import Mathlib.Topology.Order.IntermediateValue
import Mathlib.Topology.Algebra.Order.Field
import Mathlib.Topology.Instances.Real.Lemmas
import Mathlib.Tactic.Abel
import Mathlib.Tactic.LinearCombination

/-! # C343 over the reals, C345: segments of neighbouring cells fit together -/

set_option linter.unusedSectionVars false

namespace Verif.Dc
open Verif.ImplTree

/-- For a continuous shape the point returned by `zero` is within 1/2048 of the length from a zero of the shape. -/
theorem C343_continuous (s : P ℝ → ℝ) (hs : Continuous s) (a b : P ℝ) (h : (s a < 0 ∧ 0 ≤ s b) ∨ (0 ≤ s a ∧ s b < 0)) (n : Nat) (hn : 2 ≤ n) :
    ∃ g t, zero s n a b = some (pos a b g) ∧ 0 ≤ g ∧ g ≤ 1 ∧ |t - g| ≤ 1 / 2048 ∧ s (pos a b t) = 0 := by
  obtain ⟨g, e, h0, h1, g1, g2, k1, k2, s1, s2⟩ := C343_zero s a b h n hn
  have hc : Continuous fun t => s (pos a b t) := by
    refine hs.comp (Continuous.prodMk ?_ ?_) <;> fun_prop
  obtain ⟨t, ht, hz⟩ := intermediate_value_uIcc (a := g1) (b := g2) hc.continuousOn (show (0 : ℝ) ∈ Set.uIcc (s (pos a b g1)) (s (pos a b g2)) from
    Set.mem_uIcc.2 (Or.inl ⟨s1.le, s2⟩))
  refine ⟨g, t, e, h0, h1, ?_, hz⟩
  rw [abs_le] at k1 k2 ⊢
  rcases Set.mem_uIcc.1 ht with ⟨u, v⟩ | ⟨u, v⟩ <;> constructor <;> linarith [k1.1, k1.2, k2.1, k2.2]

variable {K : Type} [Field K] [LinearOrder K] [IsStrictOrderedRing K]

/-! ## C345 -/

/-- The point of `zero` on a piece with a change of sign. -/
def zp (s : P K → K) (p q : P K) : P K := (zero s 2 p q).getD p

theorem zero_zp (s : P K → K) (p q : P K) (h : ¬(s p < 0 ↔ s q < 0)) (n : Nat) (hn : 2 ≤ n) : zero s n p q = some (zp s p q) := by
  obtain ⟨n, rfl⟩ : ∃ k, n = k + 2 := ⟨n - 2, by omega⟩
  by_cases hp : s p < 0
  · unfold zp zero
    rw [if_neg (not_le.2 hp), if_neg (not_le.2 hp)]
    rfl
  · have hq : s q < 0 := by
      by_contra hq
      exact h ⟨fun x => absurd x hp, fun x => absurd x hq⟩
    have e : ∀ k, zero s (k + 2) p q = some (zeroRec s q p (1 / 2) (1 / 4) 10) := by
      intro k
      unfold zero
      rw [if_pos (not_lt.1 hp)]
      unfold zero
      rw [if_neg (not_le.2 hq)]
    unfold zp
    rw [e n, e 0]
    rfl

/-- How often a point is the start of a segment, minus how often it is an end. -/
def balance (l : List (P K × P K)) (x : P K) : ℤ := (l.map fun e => (if e.1 = x then (1 : ℤ) else 0) - (if e.2 = x then 1 else 0)).sum

theorem balance_append (l l' : List (P K × P K)) (x : P K) : balance (l ++ l') x = balance l x + balance l' x := by
  unfold balance
  rw [List.map_append, List.sum_append]

theorem balance_count (l : List (P K × P K)) (x : P K) : balance l x = ((l.map Prod.fst).count x : ℤ) - ((l.map Prod.snd).count x : ℤ) := by
  induction l with
  | nil => rfl
  | cons e l ih =>
    have : balance (e :: l) x = (if e.1 = x then (1 : ℤ) else 0) - (if e.2 = x then 1 else 0) + balance l x := by
      unfold balance
      rw [List.map_cons, List.sum_cons]
    rw [this, ih, List.map_cons, List.map_cons, List.count_cons, List.count_cons]
    by_cases h1 : e.1 = x <;> by_cases h2 : e.2 = x <;> simp [h1, h2] <;> ring

/-- What a piece from `p` to `q` contributes. -/
def H (s : P K → K) (p q x : P K) : ℤ :=
  if zp s p q = x then (if s p < 0 then 1 else 0) - (if s q < 0 then 1 else 0) else 0

theorem contours_some (s : P K → K) (n : Nat) (hn : 2 ≤ n) (c : Q K) :
    contours s n c = some ((edges s c).map fun e =>
      (zp s (sideEnds c e.1).1 (sideEnds c e.1).2, zp s (sideEnds c e.2).1 (sideEnds c e.2).2)) := by
  unfold contours
  have key : ∀ e ∈ edges s c, Crossed s c e.1 ∧ Crossed s c e.2 := by
    intro e he
    constructor
    · by_contra hc
      have := (C344_sides s c e.1).2 hc
      rw [List.count_eq_zero] at this
      exact this (List.mem_flatMap.2 ⟨e, he, by simp⟩)
    · by_contra hc
      have := (C344_sides s c e.2).2 hc
      rw [List.count_eq_zero] at this
      exact this (List.mem_flatMap.2 ⟨e, he, by simp⟩)
  generalize edges s c = l at key
  induction l with
  | nil => rfl
  | cons e l ih =>
    have h := key e (by simp)
    rw [List.mapM_cons, ih (fun e' he' => key e' (by simp [he']))]
    unfold pt
    rw [zero_zp s _ _ h.1 n hn, zero_zp s _ _ h.2 n hn]
    rfl

theorem cell_balance (s : P K → K) (c : Q K) (n : Nat) (hn : 2 ≤ n) (x : P K) :
    balance ((contours s n c).getD []) x = H s (c.1.1, c.1.2) (c.2.1, c.1.2) x - H s (c.1.1, c.2.2) (c.2.1, c.2.2) x -
      H s (c.1.1, c.1.2) (c.1.1, c.2.2) x + H s (c.2.1, c.1.2) (c.2.1, c.2.2) x := by
  rw [contours_some s n hn c, edges_tab]
  unfold H
  by_cases h1 : s (c.1.1, c.1.2) < 0 <;> by_cases h2 : s (c.2.1, c.1.2) < 0 <;> by_cases h3 : s (c.1.1, c.2.2) < 0 <;>
    by_cases h4 : s (c.2.1, c.2.2) < 0 <;>
    simp only [h1, h2, h3, h4, decide_true, decide_false, tab0, tab1, tab2, tab3, tab4, tab5, tab6, tab7, tab8, tab9, tab10, tab11, tab12, tab13,
      tab14, tab15, Option.getD_some, List.map_cons, List.map_nil, balance, List.sum_cons, List.sum_nil, sideEnds, if_true, if_false] <;>
    simp only [sub_self, sub_zero, zero_sub, ite_self, add_zero] <;>
    split_ifs <;> simp_all

/-- The contribution of a side divided in halves `i` times. -/
def HH (s : P K → K) (x : P K) : Nat → P K → P K → ℤ
  | 0, p, q => H s p q x
  | i + 1, p, q => HH s x i p ((p.1 + q.1) / 2, (p.2 + q.2) / 2) + HH s x i ((p.1 + q.1) / 2, (p.2 + q.2) / 2) q

/-- The segments of all cells of a tree. -/
def segments (s : P K → K) (n : Nat) (t : T 4 (Q K)) : List (P K × P K) := t.leaves.flatMap fun c => (contours s n c).getD []

theorem same_half (a : K) : (a + a) / 2 = a := by ring

theorem tree_balance (s : P K → K) (n : Nat) (hn : 2 ≤ n) (x : P K) : ∀ (i : Nat) (c : Q K),
    balance (segments s n (buildTree quadSplit i c)) x = HH s x i (c.1.1, c.1.2) (c.2.1, c.1.2) - HH s x i (c.1.1, c.2.2) (c.2.1, c.2.2) -
      HH s x i (c.1.1, c.1.2) (c.1.1, c.2.2) + HH s x i (c.2.1, c.1.2) (c.2.1, c.2.2) := by
  intro i
  induction i with
  | zero =>
    intro c
    have : segments s n (buildTree quadSplit 0 c) = (contours s n c).getD [] := by
      simp [segments, buildTree, T.leaves]
    rw [this]
    exact cell_balance s c n hn x
  | succ i ih =>
    intro c
    have e : segments s n (buildTree quadSplit (i + 1) c) = segments s n (buildTree quadSplit i (quadSplit c 0)) ++
        (segments s n (buildTree quadSplit i (quadSplit c 1)) ++ (segments s n (buildTree quadSplit i (quadSplit c 2)) ++
        segments s n (buildTree quadSplit i (quadSplit c 3)))) := by
      have fr : List.finRange 4 = [0, 1, 2, 3] := rfl
      simp only [segments, buildTree, T.leaves, fr, List.flatMap_cons, List.flatMap_nil, List.append_nil, List.flatMap_append, List.append_assoc]
    obtain ⟨⟨x0, y0⟩, ⟨x1, y1⟩⟩ := c
    rw [e, balance_append, balance_append, balance_append, ih, ih, ih, ih]
    have q0 : quadSplit ((x0, y0), (x1, y1)) 0 = ((x0, y0), ((x0 + x1) / 2, (y0 + y1) / 2)) := rfl
    have q1 : quadSplit ((x0, y0), (x1, y1)) 1 = (((x0 + x1) / 2, y0), (x1, (y0 + y1) / 2)) := rfl
    have q2 : quadSplit ((x0, y0), (x1, y1)) 2 = ((x0, (y0 + y1) / 2), ((x0 + x1) / 2, y1)) := rfl
    have q3 : quadSplit ((x0, y0), (x1, y1)) 3 = (((x0 + x1) / 2, (y0 + y1) / 2), (x1, y1)) := rfl
    rw [q0, q1, q2, q3]
    simp only [HH, same_half]
    ring

theorem HH_zero (s : P K → K) (x : P K) (B : P K → Prop) (hB : ∀ p, B p → 0 ≤ s p)
    (hm : ∀ p q, B p → B q → B ((p.1 + q.1) / 2, (p.2 + q.2) / 2)) : ∀ (i : Nat) (p q : P K), B p → B q → HH s x i p q = 0 := by
  intro i
  induction i with
  | zero =>
    intro p q hp hq
    unfold HH H
    rw [if_neg (not_lt.2 (hB p hp)), if_neg (not_lt.2 (hB q hq))]
    simp
  | succ i ih =>
    intro p q hp hq
    unfold HH
    rw [ih _ _ hp (hm p q hp hq), ih _ _ (hm p q hp hq) hq, add_zero]

/-- C345: the segments of all cells of a tree of uniform depth form closed curves, if the shape is not inside anywhere on the boundary of the domain:
every cell gets its segments, and every point is as often the start of a segment as it is the end of one. -/
theorem C345_closed (s : P K → K) (n : Nat) (hn : 2 ≤ n) (q : Q K) (i : Nat)
    (hb : ∀ p : P K, p.1 = q.1.1 ∨ p.1 = q.2.1 ∨ p.2 = q.1.2 ∨ p.2 = q.2.2 → 0 ≤ s p) :
    (∀ c ∈ (buildTree quadSplit i q).leaves, (contours s n c).isSome) ∧
    ∀ x, ((segments s n (buildTree quadSplit i q)).map Prod.fst).count x = ((segments s n (buildTree quadSplit i q)).map Prod.snd).count x := by
  constructor
  · intro c _
    rw [contours_some s n hn c]
    rfl
  · intro x
    have h := tree_balance s n hn x i q
    rw [HH_zero s x (fun p => p.2 = q.1.2) (fun p hp => hb p (Or.inr (Or.inr (Or.inl hp)))) (fun p r hp hr => by
        show (p.2 + r.2) / 2 = q.1.2; rw [hp, hr]; exact same_half _) i (q.1.1, q.1.2) (q.2.1, q.1.2) rfl rfl,
      HH_zero s x (fun p => p.2 = q.2.2) (fun p hp => hb p (Or.inr (Or.inr (Or.inr hp)))) (fun p r hp hr => by
        show (p.2 + r.2) / 2 = q.2.2; rw [hp, hr]; exact same_half _) i (q.1.1, q.2.2) (q.2.1, q.2.2) rfl rfl,
      HH_zero s x (fun p => p.1 = q.1.1) (fun p hp => hb p (Or.inl hp)) (fun p r hp hr => by
        show (p.1 + r.1) / 2 = q.1.1; rw [hp, hr]; exact same_half _) i (q.1.1, q.1.2) (q.1.1, q.2.2) rfl rfl,
      HH_zero s x (fun p => p.1 = q.2.1) (fun p hp => hb p (Or.inr (Or.inl hp))) (fun p r hp hr => by
        show (p.1 + r.1) / 2 = q.2.1; rw [hp, hr]; exact same_half _) i (q.2.1, q.1.2) (q.2.1, q.2.2) rfl rfl, balance_count] at h
    omega

/-- A rectangle inside the unit square meets the hypothesis, and has segments at depth two. -/
example : (∀ p : P ℚ, p.1 = 0 ∨ p.1 = 1 ∨ p.2 = 0 ∨ p.2 = 1 → 0 ≤ rectangle ((1 / 5, 1 / 5) : P ℚ) (3 / 5, 4 / 5) p) ∧
    (segments (rectangle ((1 / 5, 1 / 5) : P ℚ) (3 / 5, 4 / 5)) 2 (buildTree quadSplit 2 ((0, 0), (1, 1)))).length = 10 := by
  constructor
  · intro p hp
    by_contra hc
    have := (C340_rectangle _ _ p).1 (not_le.1 hc)
    obtain ⟨h1, h2, h3, h4⟩ := this
    simp only at h1 h2 h3 h4
    rcases hp with h | h | h | h <;> linarith
  · decide +kernel

end Verif.Dc
