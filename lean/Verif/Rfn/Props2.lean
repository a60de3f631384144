import Verif.Rfn.Props
import Mathlib.Tactic.IntervalCases

/-! # C381–C385: density, close knots, the Python relatives, knot removal -/

set_option linter.unusedSectionVars false

namespace Verif.Rfn
open Verif.Nurbs Verif.Knot

variable {K : Type} [Field K] [LinearOrder K] [IsStrictOrderedRing K]

/-! ## Density -/

/-- A list with the middles put in. -/
def mids : List K → List K
  | [] => []
  | [x] => [x]
  | x :: y :: t => x :: (x + (y - x) / 2) :: mids (y :: t)

theorem densify_mids (t : List K) : ∀ x : K,
    ((List.range t.length).flatMap fun i => [(x :: t).getD i 0, (x :: t).getD i 0 + ((x :: t).getD (i + 1) 0 - (x :: t).getD i 0) / 2]) ++
      [(x :: t).getD t.length 0] = mids (x :: t) := by
  induction t with
  | nil => intro x; rfl
  | cons y t ih =>
    intro x
    rw [mids, ← ih y, List.length_cons, List.range_succ_eq_map, List.flatMap_cons, List.flatMap_map]
    rfl

theorem mids_head (x : K) (t : List K) : ∃ s, mids (x :: t) = x :: s := by
  cases t with
  | nil => exact ⟨_, rfl⟩
  | cons y t => exact ⟨_, rfl⟩

theorem mids_sorted : ∀ L : List K, L.Pairwise (· < ·) → (mids L).Pairwise (· < ·) ∧ (∀ x ∈ L, x ∈ mids L) ∧
    (∀ lo, (∀ x ∈ L, lo ≤ x) → ∀ x ∈ mids L, lo ≤ x) ∧ (∀ hi, (∀ x ∈ L, x ≤ hi) → ∀ x ∈ mids L, x ≤ hi) := by
  intro L
  induction L with
  | nil => intro _; exact ⟨List.Pairwise.nil, fun _ h => h, fun _ h => h, fun _ h => h⟩
  | cons x t ih =>
    intro h
    cases t with
    | nil => exact ⟨h, fun _ h => h, fun _ h => h, fun _ h => h⟩
    | cons y t =>
      rw [List.pairwise_cons] at h
      obtain ⟨i1, i2, i3, i4⟩ := ih h.2
      have hxy : x < y := h.1 y (by simp)
      have hm1 : x < x + (y - x) / 2 := by linarith
      have hm2 : x + (y - x) / 2 < y := by linarith
      have hy : ∀ z ∈ mids (y :: t), y ≤ z := by
        refine i3 y ?_
        intro z hz
        rcases List.mem_cons.1 hz with rfl | hz
        · exact le_refl _
        · have h2 := h.2
          rw [List.pairwise_cons] at h2
          exact (h2.1 z hz).le
      refine ⟨?_, ?_, ?_, ?_⟩
      · rw [mids, List.pairwise_cons, List.pairwise_cons]
        refine ⟨?_, fun z hz => lt_of_lt_of_le hm2 (hy z hz), i1⟩
        intro z hz
        rcases List.mem_cons.1 hz with rfl | hz
        · exact hm1
        · exact lt_of_lt_of_le hxy (hy z hz)
      · intro z hz
        rw [mids]
        rcases List.mem_cons.1 hz with rfl | hz
        · exact List.mem_cons_self
        · exact List.mem_cons_of_mem _ (List.mem_cons_of_mem _ (i2 z hz))
      · intro lo hlo z hz
        rw [mids] at hz
        have g1 := hlo x (by simp)
        rcases List.mem_cons.1 hz with rfl | hz
        · exact g1
        · rcases List.mem_cons.1 hz with rfl | hz
          · linarith
          · exact i3 lo (fun u hu => hlo u (List.mem_cons_of_mem _ hu)) z hz
      · intro hi hhi z hz
        rw [mids] at hz
        have g1 := hhi y (by simp)
        rcases List.mem_cons.1 hz with rfl | hz
        · linarith
        · rcases List.mem_cons.1 hz with rfl | hz
          · linarith
          · exact i4 hi (fun u hu => hhi u (List.mem_cons_of_mem _ hu)) z hz

/-- **C381, partial.** With `density` 2 and knots without repetition the list is the sorted knots with the middle of each interval
put in. -/
theorem C381_density_partial (c : Curve K) (knots add : Option (List K)) (hne : knots.getD (inner c) ++ add.getD [] ≠ [])
    (hnd : (uniqueSorted (knots.getD (inner c) ++ add.getD [])).length = (knots.getD (inner c) ++ add.getD []).length) :
    refineList c knots add 2 = some (mids (uniqueSorted (knots.getD (inner c) ++ add.getD []))) ∧
    (mids (uniqueSorted (knots.getD (inner c) ++ add.getD []))).Pairwise (· < ·) := by
  refine ⟨?_, (mids_sorted _ (uniqueSorted_spec _).1).1⟩
  simp only [refineList, densify]
  rw [← hnd]
  set L := uniqueSorted (knots.getD (inner c) ++ add.getD []) with hL
  have hpos : 0 < L.length := by rw [hnd]; exact List.length_pos_iff.2 hne
  clear_value L
  cases L with
  | nil => simp at hpos
  | cons x t =>
    have e : densifyOnce (x :: t).length (x :: t).length (x :: t) = some (mids (x :: t)) := by
      rw [densifyOnce, if_pos ⟨le_refl _, le_refl _, hpos, hpos⟩]
      rw [← densify_mids t x]
      rfl
    show (match densifyOnce (x :: t).length (x :: t).length (x :: t) with | none => none | some L' => some L') = _
    rw [e]

theorem insertSet_length (x : K) : ∀ l : List K, (insertSet x l).length ≤ l.length + 1 ∧ (x ∈ l → (insertSet x l).length ≤ l.length ∨ ¬ l.Pairwise (· < ·)) := by
  intro l
  induction l with
  | nil => exact ⟨by simp [insertSet], fun h => absurd h (by simp)⟩
  | cons y l ih =>
    simp only [insertSet]
    refine ⟨?_, fun h => ?_⟩
    · split
      · simp
      · split
        · simp
        · simp only [List.length_cons]; omega
    · by_cases hp : (y :: l).Pairwise (· < ·)
      · left
        have hp' := hp
        rw [List.pairwise_cons] at hp
        rcases List.mem_cons.1 h with rfl | h
        · rw [if_neg (lt_irrefl _), if_pos rfl]
        · have := hp.1 x h
          rw [if_neg (not_lt.2 this.le), if_neg (ne_of_gt this)]
          rcases ih.2 h with g | g
          · simp only [List.length_cons]; omega
          · exact absurd hp.2 g
      · exact Or.inr hp

theorem unique_shorter (L : List K) (h : ¬ L.Nodup) : (uniqueSorted L).length < L.length := by
  have hle : ∀ l : List K, (uniqueSorted l).length ≤ l.length := by
    intro l
    induction l with
    | nil => simp [uniqueSorted]
    | cons x l ih =>
      have := (insertSet_length x (uniqueSorted l)).1
      show (insertSet x (uniqueSorted l)).length ≤ l.length + 1
      omega
  induction L with
  | nil => exact absurd List.nodup_nil h
  | cons x L ih =>
    show (insertSet x (uniqueSorted L)).length < L.length + 1
    have h1 := insertSet_length x (uniqueSorted L)
    by_cases hx : x ∈ L
    · rcases h1.2 (((uniqueSorted_spec L).2 x).2 hx) with g | g
      · have := hle L; omega
      · exact absurd (uniqueSorted_spec L).1 g
    · have := ih (fun hc => h (List.nodup_cons.2 ⟨hx, hc⟩))
      omega

/-- **C381, refuted: repeated knots.** With a `density` above 1 and any knot of the list repeated, the loop reads past the end of the
list, because it goes on with the number of knots before the repetitions were removed. -/
theorem C381_repeated_refuted (c : Curve K) (knots add : Option (List K)) (h : ¬ (knots.getD (inner c) ++ add.getD []).Nodup) (d : Nat) :
    refineList c knots add (d + 2) = none := by
  have := unique_shorter _ h
  simp only [refineList, Nat.add_succ_sub_one, densify, densifyOnce]
  rw [if_neg (by omega)]

/-- The double inner knot of the example is enough. -/
example : ¬ ((none : Option (List ℚ)).getD (inner exPoly) ++ (none : Option (List ℚ)).getD []).Nodup := by decide +kernel

/-- The line from `P 0` to `P 1` over `[a, b]`. -/
def seg (a b : K) (P : Nat → Nat → K) : Curve K where
  degree := 1
  n := 2
  P := P
  m := 4
  U := fun k => if k < 2 then a else b
  periodic := false

theorem seg_valid (a b : K) (P : Nat → Nat → K) (h : a < b) : Valid (seg a b P) := by
  refine ⟨show 1 < 2 by omega, rfl, ?_, ?_⟩
  · intro i j hij hj
    simp only [seg]
    by_cases h1 : j < 2
    · rw [if_pos h1, if_pos (by omega)]
    · rw [if_neg h1]; split
      · exact h.le
      · exact le_refl _
  · simp only [seg]
    rw [if_pos (by omega), if_neg (by omega)]; exact h

theorem seg_span (a b x : K) (P : Nat → Nat → K) (fuel : Nat) (hf : 2 ≤ fuel) (h1 : a ≤ x) (h2 : x < b) :
    findSpan fuel ((seg a b P).n - 1) (seg a b P).degree x (seg a b P).U (seg a b P).periodic = some 1 := by
  obtain ⟨i, e, g1, g2, _⟩ := findSpan_spec fuel 1 1 x (seg a b P).U (le_refl _) (by omega) (le_refl _) h1 h2
  rw [show i = 1 by omega] at e
  exact e

theorem seg_count (a b x : K) (P : Nat → Nat → K) (ha : a ≠ x) (hb : b ≠ x) : (kl (seg a b P).U (seg a b P).m).count x = 0 := by
  rw [List.count_eq_zero]
  intro hc
  obtain ⟨i, _, hi⟩ := (kl_range _ _ _).1 hc
  simp only [seg] at hi
  split at hi
  · exact ha hi
  · exact hb hi

theorem inner_seg (a b : K) (P : Nat → Nat → K) : inner (seg a b P) = [a, b] := rfl

/-- **C381, refuted: density 3.** On every straight line the knots returned for `density=3` are out of order: the middle comes
again after the three quarters. -/
theorem C381_density3_refuted (a b : K) (hab : a < b) (P : Nat → Nat → K) (fuel : Nat) (hf : 2 ≤ fuel) (eps : K → K) (tol : K)
    (hap : ∀ k : Nat, k ≤ 3 → Apart eps (seg a b P) (a + (b - a) * k / 4)) :
    ∃ d, knotRefinement fuel eps tol (seg a b P) none none 3 = some d ∧ d.m = 8 ∧ d.U 5 < d.U 4 ∧ ¬ MonoUpTo d.U d.m := by
  have hL : refineList (seg a b P) none none 3 = some [a, a + (a + (b - a) / 2 - a) / 2, a + (b - a) / 2,
      a + (b - a) / 2 + (b - (a + (b - a) / 2)) / 2, a + (b - a) / 2] := by
    have hu : uniqueSorted [a, b] = [a, b] := by
      show insertSet a (insertSet b []) = _
      simp only [insertSet]
      rw [if_pos hab]
    simp only [refineList, Option.getD_none, inner_seg, List.append_nil, hu]
    rfl
  obtain ⟨q1, hq1⟩ : ∃ q, q = a + (a + (b - a) / 2 - a) / 2 := ⟨_, rfl⟩
  obtain ⟨q2, hq2⟩ : ∃ q, q = a + (b - a) / 2 := ⟨_, rfl⟩
  obtain ⟨q3, hq3⟩ : ∃ q, q = a + (b - a) / 2 + (b - (a + (b - a) / 2)) / 2 := ⟨_, rfl⟩
  rw [← hq1, ← hq3, ← hq2] at hL
  have h1 : a < q1 := by rw [hq1]; linarith
  have h2 : q1 < q2 := by rw [hq1, hq2]; linarith
  have h3 : q2 < q3 := by rw [hq2, hq3]; linarith
  have h4 : q3 < b := by rw [hq3]; linarith
  have ap0 : Apart eps (seg a b P) a := by have := hap 0 (by omega); simpa using this
  have ap1 : Apart eps (seg a b P) q1 := by
    have := hap 1 (by omega); rwa [show a + (b - a) * ((1 : Nat) : K) / 4 = q1 by rw [hq1]; push_cast; ring] at this
  have ap2 : Apart eps (seg a b P) q2 := by
    have := hap 2 (by omega); rwa [show a + (b - a) * ((2 : Nat) : K) / 4 = q2 by rw [hq2]; push_cast; ring] at this
  have ap3 : Apart eps (seg a b P) q3 := by
    have := hap 3 (by omega); rwa [show a + (b - a) * ((3 : Nat) : K) / 4 = q3 by rw [hq3]; push_cast; ring] at this
  have m0 : ∀ x, Apart eps (seg a b P) x → a < x → x < b → findMultiplicity eps x (seg a b P).U (seg a b P).m = 0 := fun x g0 g1 g2 => by
    rw [mult_count eps _ x g0]; exact seg_count a b x P (ne_of_lt g1) (ne_of_gt g2)
  have ma : 1 ≤ findMultiplicity eps a (seg a b P).U (seg a b P).m := by
    rw [mult_count eps _ a ap0]
    exact List.count_pos_iff.2 ((kl_range _ _ _).2 ⟨0, show 0 < 4 by omega, rfl⟩)
  have hX : missing eps (seg a b P) [a, q1, q2, q3, q2] = [q1, q2, q3, q2] := by
    have e0 : (seg a b P).degree - findMultiplicity eps a (seg a b P).U (seg a b P).m = 0 := by
      show 1 - _ = 0; omega
    have e : ∀ x, Apart eps (seg a b P) x → a < x → x < b → (seg a b P).degree - findMultiplicity eps x (seg a b P).U (seg a b P).m = 1 :=
      fun x g0 g1 g2 => by rw [m0 x g0 g1 g2]; rfl
    simp only [missing, List.flatMap_cons, List.flatMap_nil]
    rw [e0, e q1 ap1 h1 (by linarith), e q2 ap2 (by linarith) (by linarith), e q3 ap3 (by linarith) h4]
    rfl
  have hspan1 := seg_span a b q1 P fuel hf h1.le (by linarith)
  have hspan2 := seg_span a b q2 P fuel hf (by linarith) (by linarith)
  have hval : ∀ p, (refineCol tol 1 1 2 (seg a b P).U p [q1, q2, q3, q2]).V 4 = q3 ∧
      (refineCol tol 1 1 2 (seg a b P).U p [q1, q2, q3, q2]).V 5 = q2 := by
    intro p
    have s0 : ∀ (x : K) k Q V, shift 1 1 (seg a b P).U p x 1 k Q V = ⟨1, k, Q, V⟩ := by
      intro x k Q V; simp [shift]
    have s1 : ∀ (x : K) k Q V, x < b → shift 1 1 (seg a b P).U p x 2 k Q V =
        ⟨1, k - 1, Function.update Q (k - 1 - 1) (p (2 - 1 - 1)), Function.update V k ((seg a b P).U 2)⟩ := by
      intro x k Q V hx
      have : x ≤ (seg a b P).U 2 := by show x ≤ b; exact hx.le
      simp [shift, this]
    simp only [refineCol, start, List.length_cons, List.length_nil, List.reverse_cons, List.reverse_nil, List.nil_append, List.cons_append,
      List.foldl_cons, List.foldl_nil, insertOne]
    norm_num
    rw [s1 q2 _ _ _ (by linarith)]
    simp only [s0]
    constructor <;> simp
  refine ⟨_, by simp only [knotRefinement, hL, hX, refineWith]; rw [hspan1]; simp only [List.getLastD]; rw [show List.getLast [q1, q2, q3, q2] (by simp) = q2 from rfl, hspan2], rfl, ?_, ?_⟩
  · show (refineCol tol 1 1 2 (seg a b P).U _ [q1, q2, q3, q2]).V 5 < (refineCol tol 1 1 2 (seg a b P).U _ [q1, q2, q3, q2]).V 4
    rw [(hval _).1, (hval _).2]; exact h3
  · intro hm
    have := hm 4 5 (by omega) (by show 5 < 8; omega)
    have e4 : (refineCol tol 1 1 2 (seg a b P).U (fun l => (seg a b P).P l 0) [q1, q2, q3, q2]).V 4 ≤ (refineCol tol 1 1 2 (seg a b P).U (fun l => (seg a b P).P l 0) [q1, q2, q3, q2]).V 5 := this
    rw [(hval _).1, (hval _).2] at e4
    exact absurd h3 (not_lt.2 e4)

example : (knotRefinement 7 (fun _ => 1 / 100) (1 / 100) (seg (0 : ℚ) 1 (fun i _ => i)) none none 3).map (fun d => kl d.U d.m) =
    some [0, 0, 1 / 4, 1 / 2, 3 / 4, 1 / 2, 1, 1] := by decide +kernel

example (k : Nat) (hk : k ≤ 3) : Apart (fun _ => 1 / 100) (seg (0 : ℚ) 1 (fun i _ => i)) (0 + (1 - 0) * k / 4) := by
  intro i hi
  have hi' : i < 4 := hi
  interval_cases i <;> interval_cases k <;> norm_num [seg, abs_le]

/-- **C380, refuted: short domains.** On a line over an interval shorter than the tolerance `1e-8`, the point put in for a new knot is
the end of the line instead of the point at that parameter. -/
theorem C380_short_refuted (a b x : K) (hax : a < x) (hxb : x < b) (P : Nat → Nat → K) (fuel : Nat) (hf : 2 ≤ fuel) (eps : K → K) (tol : K)
    (hap : Apart eps (seg a b P) x) (hshort : b - a < tol) (col : Nat) (hne : P 0 col ≠ P 1 col) :
    ∃ d, knotRefinement fuel eps tol (seg a b P) (some [x]) none 1 = some d ∧ d.P 1 col = P 1 col ∧
      specVal (seg a b P) (fun l => P l col) x ≠ P 1 col ∧ specVal d (fun l => d.P l col) x ≠ specVal (seg a b P) (fun l => P l col) x := by
  have hL : refineList (seg a b P) (some [x]) none 1 = some [x] := rfl
  have hX : missing eps (seg a b P) [x] = [x] := by
    simp only [missing, List.flatMap_cons, List.flatMap_nil]
    rw [mult_count eps _ x hap, seg_count a b x P (ne_of_lt hax) (ne_of_gt hxb)]
    rfl
  have hspan := seg_span a b x P fuel hf hax.le hxb
  have hxu : x ≤ (seg a b P).U 2 := by show x ≤ b; exact hxb.le
  have habs : |(seg a b P).U 2 - x| < tol := by
    show |b - x| < tol
    rw [abs_of_pos (by linarith)]; linarith
  have hQ : ∀ p : Nat → K, (refineCol tol 1 1 2 (seg a b P).U p [x]).Q 0 = p 0 ∧ (refineCol tol 1 1 2 (seg a b P).U p [x]).Q 1 = p 1 ∧
      (refineCol tol 1 1 2 (seg a b P).U p [x]).Q 2 = p 1 ∧ (refineCol tol 1 1 2 (seg a b P).U p [x]).V 0 = a ∧
      (refineCol tol 1 1 2 (seg a b P).U p [x]).V 1 = a ∧
      (refineCol tol 1 1 2 (seg a b P).U p [x]).V 2 = x ∧ (refineCol tol 1 1 2 (seg a b P).U p [x]).V 3 = b ∧
      (refineCol tol 1 1 2 (seg a b P).U p [x]).V 4 = b := by
    intro p
    simp only [refineCol, start, List.length_cons, List.length_nil, List.reverse_cons, List.reverse_nil, List.nil_append,
      List.foldl_cons, List.foldl_nil, insertOne, shift]
    norm_num [hxu, blend, habs, Function.update]
    simp [seg]
  obtain ⟨d, hd⟩ : ∃ d, knotRefinement fuel eps tol (seg a b P) (some [x]) none 1 = some d ∧ d.n = 3 ∧ d.degree = 1 ∧ d.P 1 col = P 1 col ∧
      d.P 0 col = P 0 col ∧ d.P 2 col = P 1 col ∧ d.U 0 = a ∧ d.U 1 = a ∧ d.U 2 = x ∧ d.U 3 = b ∧ d.U 4 = b := by
    refine ⟨_, by simp only [knotRefinement, hL, hX, refineWith]; rw [show List.getLastD [x] 0 = x from rfl, hspan], rfl, rfl, ?_⟩
    obtain ⟨q0, q1, q2, -⟩ := hQ (fun l => (seg a b P).P l col)
    obtain ⟨-, -, -, v⟩ := hQ (fun l => (seg a b P).P l 0)
    exact ⟨q1, q0, q2, v⟩
  obtain ⟨e, hn, hp, p1, p0, p2, u0, u1, u2, u3, u4⟩ := hd
  have hab : a < b := lt_trans hax hxb
  have hba : b - a ≠ 0 := ne_of_gt (by linarith)
  have s1 : specVal (seg a b P) (fun l => P l col) x = P 0 col * ((b - x) / (b - a)) + P 1 col * ((x - a) / (b - a)) := by
    have h1 := hax.le
    have h2 : ¬ x < a := not_lt.2 h1
    have h3 : ¬ b ≤ x := not_le.2 hxb
    have h4 : x ≠ b := ne_of_lt hxb
    simp [specVal, seg, Finset.sum_range_succ, bspl, bspl0, h1, h2, hxb, h3]
  have s2 : specVal d (fun l => d.P l col) x = P 1 col := by
    have h1 := hax.le
    have h3 : ¬ b ≤ x := not_le.2 hxb
    have h2 : ¬ x < a := not_lt.2 h1
    have hbx : b - x ≠ 0 := ne_of_gt (by linarith)
    simp [specVal, hn, hp, Finset.sum_range_succ, bspl, bspl0, u0, u1, u2, u3, u4, p0, p1, p2, h1, h2, hxb, h3, hbx]
  have s3 : specVal (seg a b P) (fun l => P l col) x ≠ P 1 col := by
    rw [s1]
    intro hc
    have h5 : (b - x) / (b - a) * (P 0 col - P 1 col) = 0 := by
      have e1 : (b - x) / (b - a) + (x - a) / (b - a) = 1 := by
        rw [← add_div, show b - x + (x - a) = b - a by ring, div_self hba]
      linear_combination hc - P 1 col * e1
    rcases mul_eq_zero.1 h5 with h | h
    · rcases div_eq_zero_iff.1 h with h | h
      · linarith
      · exact hba h
    · exact hne (sub_eq_zero.1 h)
  exact ⟨d, e, p1, s3, by rw [s2]; exact s3.symm⟩

/-- Nothing is wrong on a longer interval; on one of length `1/1000` with the tolerance `1/100` the middle moves to the end. -/
example : (knotRefinement 7 (fun _ => 1 / 100000) (1 / 100) (seg (0 : ℚ) (1 / 1000) (fun i _ => i)) (some [1 / 2000]) none 1).map
    (fun d => (d.P 0 0, d.P 1 0, d.P 2 0)) = some (0, 1, 1) := by decide +kernel

end Verif.Rfn
