import Verif.Csx.Model
import Mathlib.Tactic.Set
import Mathlib.Tactic.Ring
import Mathlib.Tactic.Linarith
import Mathlib.Tactic.NormNum

/-! # C260: `spherical_separability` -/

set_option linter.unusedSectionVars false

namespace Verif.Csx

open Verif.Mol (V)

variable {K : Type} [Field K] [LinearOrder K] [IsStrictOrderedRing K]

theorem diffs_length (s : List K) : (diffs s).length = s.length - 1 := by
  induction s with
  | nil => rfl
  | cons a s ih =>
    cases s with
    | nil => rfl
    | cons b s => simp only [diffs, List.length_cons] at ih ⊢; omega

theorem diffs_getD (s : List K) : ∀ i, i + 1 < s.length → (diffs s).getD i 0 = s.getD (i + 1) 0 - s.getD i 0 := by
  induction s with
  | nil => intro i h; simp at h
  | cons a s ih =>
    intro i h
    cases s with
    | nil => simp at h
    | cons b s =>
      cases i with
      | zero => simp [diffs]
      | succ i =>
        have := ih i (by simpa using h)
        simpa [diffs] using this

theorem argmaxFrom_spec (all : List K) : ∀ (l : List K) (best i : Nat), best < i → all.drop i = l →
    (∀ j, j < i → all.getD j 0 ≤ all.getD best 0) → best < all.length →
    argmaxFrom best (all.getD best 0) i l < all.length ∧
    ∀ j, j < all.length → all.getD j 0 ≤ all.getD (argmaxFrom best (all.getD best 0) i l) 0 := by
  intro l
  induction l with
  | nil =>
    intro best i hb hd hm hl
    unfold argmaxFrom
    refine ⟨hl, fun j hj => hm j ?_⟩
    have : all.length ≤ i := List.drop_eq_nil_iff.1 hd
    omega
  | cons x l ih =>
    intro best i hb hd hm hl
    have hil : i < all.length := by
      by_contra h
      rw [List.drop_eq_nil_of_le (by omega)] at hd
      simp at hd
    have hx : all.getD i 0 = x := by
      have e : all.getD i 0 = (all.drop i).getD 0 0 := by simp [List.getD_eq_getElem?_getD]
      rw [e, hd]; rfl
    have hd' : all.drop (i + 1) = l := by
      rw [← List.tail_drop, hd, List.tail_cons]
    unfold argmaxFrom
    split_ifs with h
    · rw [← hx]
      rw [← hx] at h
      refine ih i (i + 1) (by omega) hd' (fun j hj => ?_) hil
      rcases Nat.lt_succ_iff_lt_or_eq.1 hj with hj | rfl
      · exact (hm j hj).trans h.le
      · exact le_rfl
    · refine ih best (i + 1) (by omega) hd' (fun j hj => ?_) hl
      rcases Nat.lt_succ_iff_lt_or_eq.1 hj with hj | rfl
      · exact hm j hj
      · rw [hx]; exact not_lt.1 h

/-- `a` and `b` are neighbours: no angle of the list lies between them. -/
def Next (l : List K) (a b : K) : Prop := a ∈ l ∧ b ∈ l ∧ a < b ∧ ∀ c ∈ l, c ≤ a ∨ b ≤ c

/-- The wedge returned covers the angles from its end up to its start: the largest gap is the one over ±π. -/
structure Wraps (tau : K) (l : List K) (w : K × K) : Prop where
  start : w.1 ∈ l
  stop : w.2 ∈ l
  all : ∀ c ∈ l, w.2 ≤ c ∧ c ≤ w.1
  largest : ∀ a b, Next l a b → b - a ≤ tau - (w.1 - w.2)

/-- The wedge returned covers the angles from its end over ±π to its start: the largest gap lies from `w.1` to `w.2`. -/
structure GapAt (tau : K) (l : List K) (w : K × K) : Prop where
  next : Next l w.1 w.2
  around : ∀ a ∈ l, ∀ b ∈ l, tau - (a - b) ≤ w.2 - w.1 ∨ ∃ c ∈ l, a < c ∨ c < b
  largest : ∀ a b, Next l a b → b - a ≤ w.2 - w.1

/-- `np.argmax`. -/
def argmax : List K → Nat
  | [] => 0
  | g :: gs => argmaxFrom 0 g 1 gs

theorem wedge_eq (tau : K) (l S : List K) (hs : l.insertionSort (· ≤ ·) = S) (hne : S ≠ []) :
    wedge tau l = some (S.getD (argmax (diffs S ++ [tau - S.getD (S.length - 1) 0 + S.getD 0 0])) 0,
      S.getD ((argmax (diffs S ++ [tau - S.getD (S.length - 1) 0 + S.getD 0 0]) + 1) % S.length) 0) := by
  have hlast : ∀ (S : List K) (h : S ≠ []), S.getLast h = S.getD (S.length - 1) 0 := by
    intro S h
    have := List.length_pos_of_ne_nil h
    rw [List.getLast_eq_getElem, List.getD_eq_getElem?_getD, List.getElem?_eq_getElem (by omega), Option.getD_some]
  unfold wedge
  rw [hs]
  cases S with
  | nil => exact absurd rfl hne
  | cons a s =>
    dsimp only
    rw [hlast]
    rfl

/-- **C260, the wedge**: for a nonempty set of angles within less than a turn, `find_smallest_wedge` finds the largest gap. -/
theorem C260_wedge (tau : K) (l : List K) (hl : l ≠ []) (hr : ∀ a ∈ l, ∀ b ∈ l, a - b < tau) :
    ∃ w, wedge tau l = some w ∧ (Wraps tau l w ∨ GapAt tau l w) := by
  have hperm := List.perm_insertionSort (· ≤ ·) l
  have hsort : (l.insertionSort (· ≤ ·)).Pairwise (· ≤ ·) := List.pairwise_insertionSort (· ≤ ·) l
  generalize hs : l.insertionSort (· ≤ ·) = S at hperm hsort
  have hne : S ≠ [] := by
    rintro rfl
    exact hl (List.Perm.nil_eq hperm).symm
  rw [wedge_eq tau l S hs hne]
  have hmem : ∀ c, c ∈ S ↔ c ∈ l := fun c => hperm.mem_iff
  have hlen : 0 < S.length := List.length_pos_of_ne_nil hne
  clear hs
  · skip
    have hin : ∀ i, i < S.length → S.getD i 0 ∈ S := by
      intro i hi
      rw [List.getD_eq_getElem?_getD, List.getElem?_eq_getElem hi, Option.getD_some]
      exact List.getElem_mem hi
    have mono : ∀ i j, i ≤ j → j < S.length → S.getD i 0 ≤ S.getD j 0 := by
      intro i j hij hj
      rcases Nat.lt_or_eq_of_le hij with h | h
      · rw [List.getD_eq_getElem?_getD, List.getElem?_eq_getElem (by omega), List.getD_eq_getElem?_getD, List.getElem?_eq_getElem hj]
        exact List.pairwise_iff_getElem.1 hsort i j (by omega) hj h
      · rw [h]
    have hidx : ∀ c ∈ S, ∃ i, i < S.length ∧ S.getD i 0 = c := by
      intro c hc
      obtain ⟨i, hi, e⟩ := List.getElem_of_mem hc
      exact ⟨i, hi, by rw [List.getD_eq_getElem?_getD, List.getElem?_eq_getElem hi, Option.getD_some, e]⟩
    -- the list of gaps
    set G := diffs S ++ [tau - S.getD (S.length - 1) 0 + S.getD 0 0] with hG
    have hGl : G.length = S.length := by rw [hG, List.length_append, diffs_length, List.length_singleton]; omega
    have hGi : ∀ i, i + 1 < S.length → G.getD i 0 = S.getD (i + 1) 0 - S.getD i 0 := by
      intro i hi
      rw [hG, List.getD_eq_getElem?_getD, List.getElem?_append_left (by rw [diffs_length]; omega), ← List.getD_eq_getElem?_getD, diffs_getD S i hi]
    have hGn : G.getD (S.length - 1) 0 = tau - (S.getD (S.length - 1) 0 - S.getD 0 0) := by
      rw [hG, List.getD_eq_getElem?_getD, List.getElem?_append_right (by rw [diffs_length]), diffs_length, Nat.sub_self]
      simp only [List.getElem?_cons_zero, Option.getD_some]
      ring
    have hk : ∃ k, argmax G = k ∧ k < S.length ∧ ∀ j, j < S.length → G.getD j 0 ≤ G.getD k 0 := by
      cases hc : G with
      | nil => rw [hc] at hGl; simp at hGl; omega
      | cons g gs =>
        refine ⟨_, rfl, ?_⟩
        have hg : (g :: gs).getD 0 0 = g := rfl
        have := argmaxFrom_spec (g :: gs) gs 0 1 (by omega) rfl (fun j hj => by
          have : j = 0 := by omega
          rw [this]) (by simp)
        rw [hg, ← hc, hGl] at this
        rw [hc] at this
        exact this
    obtain ⟨k, ek, hkl, hmax⟩ := hk
    rw [ek]
    -- every pair of neighbours is covered by a gap of the list
    have cover : ∀ x y, Next l x y → ∃ i, i + 1 < S.length ∧ S.getD i 0 ≤ x ∧ y ≤ S.getD (i + 1) 0 := by
      intro x y ⟨hx, hy, hxy, hb⟩
      obtain ⟨jy, hjy, ejy⟩ := hidx y ((hmem y).2 hy)
      obtain ⟨jx, hjx, ejx⟩ := hidx x ((hmem x).2 hx)
      have hex : ∃ j, j < S.length ∧ x < S.getD j 0 := ⟨jy, hjy, by rw [ejy]; exact hxy⟩
      classical
      have hf := Nat.find_spec hex
      have hmin : ∀ j, j < Nat.find hex → ¬ (j < S.length ∧ x < S.getD j 0) := fun j hj => Nat.find_min hex hj
      generalize Nat.find hex = f at hf hmin
      obtain ⟨hf1, hf2⟩ := hf
      have hf0 : f ≠ 0 := by
        rintro rfl
        have := mono 0 jx (by omega) hjx
        rw [ejx] at this
        exact absurd hf2 (not_lt.2 this)
      refine ⟨f - 1, by omega, ?_, ?_⟩
      · have := hmin (f - 1) (by omega)
        by_contra hcon
        exact this ⟨by omega, not_le.1 hcon⟩
      · have e : f - 1 + 1 = f := by omega
        rw [e]
        rcases hb (S.getD f 0) ((hmem _).1 (hin f hf1)) with h | h
        · exact absurd hf2 (not_lt.2 h)
        · exact h
    refine ⟨_, rfl, ?_⟩
    by_cases hwrap : k + 1 = S.length
    · left
      have e1 : k = S.length - 1 := by omega
      have e2 : (k + 1) % S.length = 0 := by rw [hwrap, Nat.mod_self]
      rw [e2]
      refine ⟨(hmem _).1 (hin k hkl), (hmem _).1 (hin 0 hlen), fun c hc => ?_, fun x y hxy => ?_⟩
      · obtain ⟨i, hi, e⟩ := hidx c ((hmem c).2 hc)
        rw [← e]
        exact ⟨mono 0 i (by omega) hi, mono i k (by omega) hkl⟩
      · obtain ⟨i, hi, c1, c2⟩ := cover x y hxy
        have := hmax i (by omega)
        rw [hGi i hi, e1, hGn, ← e1] at this
        dsimp only
        linarith
    · right
      have hk1 : k + 1 < S.length := by omega
      have e2 : (k + 1) % S.length = k + 1 := Nat.mod_eq_of_lt hk1
      rw [e2]
      have h1 := hmax (S.length - 1) (by omega)
      rw [hGn, hGi k hk1] at h1
      have h2 := hr _ ((hmem _).1 (hin (S.length - 1) (by omega))) _ ((hmem _).1 (hin 0 hlen))
      refine ⟨⟨(hmem _).1 (hin k hkl), (hmem _).1 (hin (k + 1) hk1), by dsimp only; linarith, fun c hc => ?_⟩, fun x hx y hy => ?_,
        fun x y hxy => ?_⟩
      · obtain ⟨i, hi, e⟩ := hidx c ((hmem c).2 hc)
        rw [← e]
        rcases Nat.lt_or_ge k i with h | h
        · exact Or.inr (mono (k + 1) i (by omega) hi)
        · exact Or.inl (mono i k h hkl)
      · by_cases hx' : x < S.getD (S.length - 1) 0
        · exact Or.inr ⟨_, (hmem _).1 (hin (S.length - 1) (by omega)), Or.inl hx'⟩
        · by_cases hy' : S.getD 0 0 < y
          · exact Or.inr ⟨_, (hmem _).1 (hin 0 hlen), Or.inr hy'⟩
          · left
            dsimp only
            rw [not_lt] at hx' hy'
            linarith
      · obtain ⟨i, hi, c1, c2⟩ := cover x y hxy
        have := hmax i (by omega)
        rw [hGi i hi, hGi k hk1] at this
        dsimp only
        linarith

/-- The directions of the wedge of a set: the complement of its largest gap. -/
def InWedge (tau : K) (l : List K) (w : K × K) (x : K) : Prop :=
  (Wraps tau l w ∧ w.2 ≤ x ∧ x ≤ w.1) ∨ (GapAt tau l w ∧ (x ≤ w.1 ∨ w.2 ≤ x))

/-- **C260, partial**: when the largest gap of both sets is the one over ±π the comparison is right: the answer is True iff the
ranges of angles are disjoint. -/
theorem C260_wedges_partial (tau : K) (l1 l2 : List K) (w1 w2 : K × K) (h1 : Wraps tau l1 w1) (h2 : Wraps tau l2 w2) :
    wedgesApart w1 w2 = true ↔ (∀ a ∈ l1, ∀ b ∈ l2, a < b) ∨ (∀ a ∈ l1, ∀ b ∈ l2, b < a) := by
  have r1 := h1.all w1.2 h1.stop
  have r2 := h2.all w2.2 h2.stop
  simp only [wedgesApart, Bool.or_eq_true, Bool.and_eq_true, decide_eq_true_eq]
  constructor
  · rintro (⟨_, h⟩ | ⟨h, h'⟩)
    · exact Or.inl fun a ha b hb => (h1.all a ha).2.trans_lt (h.trans_le (h2.all b hb).1)
    · exact Or.inr fun a ha b hb => (h2.all b hb).2.trans_lt (h'.trans_le (h1.all a ha).1)
  · rintro (h | h)
    · have := h w1.1 h1.start w2.2 h2.stop
      exact Or.inl ⟨by linarith [r1.2, r2.2], this⟩
    · have := h w1.2 h1.stop w2.1 h2.start
      exact Or.inr ⟨by linarith [r1.2, r2.2], this⟩

/-- **C260 refuted**: in every other case the answer True is wrong: when the largest gap of at least one set is not the one over
±π and the comparison says "separated", then one of the *points* of one set lies in the wedge of the other. -/
theorem C260_wedges_refuted (tau : K) (l1 l2 : List K) (w1 w2 : K × K) (h1 : Wraps tau l1 w1 ∨ GapAt tau l1 w1)
    (h2 : Wraps tau l2 w2 ∨ GapAt tau l2 w2) (hn : GapAt tau l1 w1 ∨ GapAt tau l2 w2) (h : wedgesApart w1 w2 = true) :
    (∃ x ∈ l2, InWedge tau l1 w1 x) ∨ (∃ x ∈ l1, InWedge tau l2 w2 x) := by
  simp only [wedgesApart, Bool.or_eq_true, Bool.and_eq_true, decide_eq_true_eq] at h
  rcases hn with g | g
  · have s2 : w2.1 ∈ l2 := by rcases h2 with h | h; exacts [h.start, h.next.1]
    have e2 : w2.2 ∈ l2 := by rcases h2 with h | h; exacts [h.stop, h.next.2.1]
    left
    rcases h with ⟨a, _⟩ | ⟨a, _⟩
    · exact ⟨w2.1, s2, Or.inr ⟨g, Or.inr a.le⟩⟩
    · exact ⟨w2.2, e2, Or.inr ⟨g, Or.inl a.le⟩⟩
  · have s1 : w1.1 ∈ l1 := by rcases h1 with h | h; exacts [h.start, h.next.1]
    have e1 : w1.2 ∈ l1 := by rcases h1 with h | h; exacts [h.stop, h.next.2.1]
    right
    rcases h with ⟨a, _⟩ | ⟨a, _⟩
    · exact ⟨w1.2, e1, Or.inr ⟨g, Or.inl a.le⟩⟩
    · exact ⟨w1.1, s1, Or.inr ⟨g, Or.inr a.le⟩⟩

/-- **C260 refuted**: sets that are separated, one lying inside the largest gap of the other, are never reported. -/
theorem C260_separated_refuted (tau : K) (l1 l2 : List K) (w1 w2 : K × K) (h1 : GapAt tau l1 w1) (h2 : Wraps tau l2 w2)
    (h : ∀ b ∈ l2, w1.1 < b ∧ b < w1.2) : wedgesApart w1 w2 = false ∧ ∀ b ∈ l2, ¬ InWedge tau l1 w1 b := by
  have s := h _ h2.start
  have e := h _ h2.stop
  constructor
  · simp only [wedgesApart, Bool.or_eq_false_iff, Bool.and_eq_false_iff, decide_eq_false_iff_not, not_lt]
    exact ⟨Or.inl s.2.le, Or.inl e.1.le⟩
  · intro b hb hw
    have hb' := h b hb
    rcases hw with ⟨hw, -⟩ | ⟨-, hw⟩
    · have := (hw.all _ h1.next.1).1
      have := h1.next.2.2.1
      linarith
    · rcases hw with hw | hw <;> linarith [hb'.1, hb'.2]

/-- Sets in the plane, with the turn scaled to 8: `{0, 2, 3}` and `{-3, 1, 2, 4}` both contain the direction 2, and the test says
that they are separated; `{-3, 3}` and `{0, 1}` are separated and the test says that they are not; `{0, 2, 3}` and `{-1, -2}` are
separated and the test says so. -/
theorem C260_shared_direction_refuted : boxTest (8 : ℚ) (fun _ => [0, 2, 3]) (fun _ => [-3, 1, 2, 4]) [0, 1, 2] = some true ∧
    boxTest (8 : ℚ) (fun _ => [-3, 3]) (fun _ => [0, 1]) [0, 1, 2] = some false ∧
    boxTest (8 : ℚ) (fun _ => [0, 2, 3]) (fun _ => [-1, -2]) [0, 1, 2] = some true := by
  refine ⟨?_, ?_, ?_⟩ <;> decide +kernel

/-- The hypotheses are met: the wedges of these sets. -/
example : wedge (8 : ℚ) [0, 2, 3] = some (3, 0) ∧ wedge (8 : ℚ) [-3, 1, 2, 4] = some (-3, 1) ∧ wedge (8 : ℚ) [-3, 3] = some (-3, 3) ∧
    wedge (8 : ℚ) [0, 1] = some (1, 0) := by
  refine ⟨?_, ?_, ?_, ?_⟩ <;> decide +kernel

example : GapAt (8 : ℚ) [-3, 3] (-3, 3) ∧ Wraps (8 : ℚ) [0, 1] (1, 0) := by
  refine ⟨⟨⟨by simp, by simp, by norm_num, by simp⟩, ?_, ?_⟩, ⟨by simp, by simp, by simp, ?_⟩⟩
  · intro a ha b hb
    simp only [List.mem_cons, List.not_mem_nil, or_false] at ha hb
    rcases ha with rfl | rfl <;> rcases hb with rfl | rfl
    · exact Or.inr ⟨3, by simp, by norm_num⟩
    · exact Or.inr ⟨3, by simp, by norm_num⟩
    · exact Or.inl (by norm_num)
    · exact Or.inr ⟨-3, by simp, by norm_num⟩
  · rintro a b ⟨ha, hb, -, -⟩
    simp only [List.mem_cons, List.not_mem_nil, or_false] at ha hb
    rcases ha with rfl | rfl <;> rcases hb with rfl | rfl <;> norm_num
  · rintro a b ⟨ha, hb, -, -⟩
    simp only [List.mem_cons, List.not_mem_nil, or_false] at ha hb
    rcases ha with rfl | rfl <;> rcases hb with rfl | rfl <;> norm_num

/-- **C260 refuted**: the linear program of `separating_circles_test` can always be solved, by 0. -/
theorem C260_circles_refuted (p1 p2 : List (V K)) : solvable p1 p2 := by
  refine ⟨(0, 0, 0, 0), ⟨by simp, by simp, by simp⟩, fun y hy => hy.1.2.2.2⟩

/-- **C260**: so the second test never separates anything, and `spherical_separability`, whose test answers `not res.success`, is
the comparison of wedges alone: True iff in one of the three planes the wedges compare as apart. -/
theorem C260_spherical (tau : K) (a1 a2 : Nat → List K) (p1 p2 : List (V K)) (circles : Bool) (hc : circles = true ↔ ¬ solvable p1 p2)
    (h1 : ∀ i, a1 i ≠ []) (h2 : ∀ i, a2 i ≠ []) :
    (∃ b, spherical tau a1 a2 circles = some b) ∧
    (spherical tau a1 a2 circles = some true ↔ ∃ i, i < 3 ∧ ∃ w1 w2, wedge tau (a1 i) = some w1 ∧ wedge tau (a2 i) = some w2 ∧ wedgesApart w1 w2 = true) := by
  have hcf : circles = false := by
    cases circles with
    | false => rfl
    | true => exact absurd (C260_circles_refuted p1 p2) (hc.1 rfl)
  have hw : ∀ l : List K, l ≠ [] → ∃ w, wedge tau l = some w := by
    intro l hl
    have hp := List.perm_insertionSort (· ≤ ·) l
    refine ⟨_, wedge_eq tau l _ rfl fun h => hl ?_⟩
    rw [h] at hp
    exact (List.Perm.nil_eq hp).symm
  have key : ∀ is : List Nat, ∃ b, boxTest tau a1 a2 is = some b ∧
      (b = true ↔ ∃ i, i ∈ is ∧ ∃ w1 w2, wedge tau (a1 i) = some w1 ∧ wedge tau (a2 i) = some w2 ∧ wedgesApart w1 w2 = true) := by
    intro is
    induction is with
    | nil => exact ⟨false, rfl, by simp⟩
    | cons i is ih =>
      obtain ⟨w1, e1⟩ := hw _ (h1 i)
      obtain ⟨w2, e2⟩ := hw _ (h2 i)
      obtain ⟨b, e3, h3⟩ := ih
      unfold boxTest
      rw [e1, e2]
      dsimp only
      by_cases ha : wedgesApart w1 w2 = true
      · rw [if_pos ha]
        exact ⟨true, rfl, by simp only [true_iff]; exact ⟨i, by simp, w1, w2, e1, e2, ha⟩⟩
      · rw [if_neg ha]
        refine ⟨b, e3, h3.trans ⟨?_, ?_⟩⟩
        · rintro ⟨j, hj, r⟩
          exact ⟨j, List.mem_cons_of_mem _ hj, r⟩
        · rintro ⟨j, hj, v1, v2, f1, f2, r⟩
          rcases List.mem_cons.1 hj with rfl | hj
          · rw [e1] at f1; rw [e2] at f2
            simp only [Option.some.injEq] at f1 f2
            subst f1; subst f2
            exact absurd r ha
          · exact ⟨j, hj, v1, v2, f1, f2, r⟩
  obtain ⟨b, e, h⟩ := key [0, 1, 2]
  have hmem : ∀ i, i ∈ [0, 1, 2] ↔ i < 3 := by intro i; simp; omega
  simp only [hmem] at h
  unfold spherical
  rw [e, hcf]
  cases b with
  | false => exact ⟨⟨false, rfl⟩, by rw [← h]; simp⟩
  | true => exact ⟨⟨true, rfl⟩, by rw [← h]; simp⟩

/-- **C260**: a set left empty after the point itself is removed raises. -/
theorem C260_empty (tau : K) (a1 a2 : Nat → List K) (c : Bool) (h : a1 0 = [] ∨ a2 0 = []) : spherical tau a1 a2 c = none := by
  have e : wedge tau ([] : List K) = none := rfl
  unfold spherical boxTest
  rcases h with h | h <;> rw [h]
  · rw [e]
  · rw [e]
    cases wedge tau (a1 0) <;> rfl

end Verif.Csx
