import Verif.Ccx.Model
import Verif.DnC.Props
import Verif.Cp.Props2

/-! # C228, C229: `curve_pix`, `test_all_roots` and `ccx` -/

set_option linter.unusedSectionVars false

namespace Verif.Ccx

variable {K : Type} [Field K] [LinearOrder K] [IsStrictOrderedRing K]

/-- The search for the minimum stays strictly inside the range and gives the value of the function. -/
theorem minIter_inside {f : K → K} {tol : K} (k : ℕ) : ∀ {a b : K} {r : K × K}, a < b → DnC.minIter f tol k a b = some r →
    a < r.1 ∧ r.1 < b ∧ r.2 = f r.1 := by
  induction k with
  | zero => intro a b r _ h; simp [DnC.minIter] at h
  | succ k ih =>
    intro a b r hab h
    rw [DnC.minIter] at h
    dsimp only at h
    by_cases h1 : |b - a| ≥ tol
    · rw [if_pos h1] at h
      by_cases h2 : f (a + (b - a) / 4) < f (b - (b - a) / 4)
      · rw [if_pos h2] at h
        obtain ⟨g1, g2, g3⟩ := ih (by linarith) h
        exact ⟨g1, by linarith, g3⟩
      · rw [if_neg h2] at h
        obtain ⟨g1, g2, g3⟩ := ih (by linarith) h
        exact ⟨by linarith, g2, g3⟩
    · rw [if_neg h1] at h
      cases h
      exact ⟨by dsimp only; linarith, by dsimp only; linarith, rfl⟩

theorem minIter_some (f : K → K) {tol w : K} (k : ℕ) (hw : w * (3 / 4) ^ k < tol) {a b : K} (hab : a ≤ b) (h : b - a ≤ w)
    (n : ℕ) (hn : k + 1 ≤ n) : ∃ r, DnC.minIter f tol n a b = some r := by
  have : (b - a) * (3 / 4) ^ k < tol := lt_of_le_of_lt (mul_le_mul_of_nonneg_right h (by positivity)) hw
  obtain ⟨r, hr⟩ := DnC.minRec_some f k this
  refine ⟨r, Cp.minIter_mono (k + 1) ?_ n hn⟩
  rw [DnC.C31_versions_agree f a b tol hab]
  exact hr

/-- One call of `test_all_roots` on a range longer than the tolerance, by its two extrema. -/
theorem allRoots_cases {f : K → K} {bis : K → K → K} {tol : K} (ht : 0 < tol) {inner k : ℕ} {t0 t1 : K} {l : List K}
    (h : allRoots f bis tol inner (k + 1) t0 t1 = some l) :
    (t1 - t0 ≤ tol ∧ l = []) ∨
    ∃ a b, t0 < a ∧ a ≤ b ∧ b < t1 ∧
      ((sgn (f a) ≠ sgn (f b) ∧ ((b - a ≤ tol ∧ l = [bis a b]) ∨
        ∃ l1 l2, allRoots f bis tol inner k t0 (a - tol) = some l1 ∧ allRoots f bis tol inner k (b + tol) t1 = some l2 ∧
          l = l1 ++ bis a b :: l2)) ∨
      (sgn (f a) = sgn (f b) ∧ (l = [] ∨ allRoots f bis tol inner k (b + tol) t1 = some l))) := by
  rw [allRoots] at h
  by_cases h0 : t1 - t0 ≤ tol
  · rw [if_pos h0] at h
    cases h
    exact Or.inl ⟨h0, rfl⟩
  · right
    rw [if_neg h0] at h
    have h01 : t0 < t1 := by linarith [not_le.1 h0]
    cases hmx : DnC.minIter (fun t => - f t) tol inner t0 t1 with
    | none => rw [hmx] at h; simp at h
    | some mx =>
      cases hmn : DnC.minIter f tol inner t0 t1 with
      | none => rw [hmx, hmn] at h; simp at h
      | some mn =>
        obtain ⟨x1, x2, x3⟩ := minIter_inside inner h01 hmx
        obtain ⟨n1, n2, n3⟩ := minIter_inside inner h01 hmn
        rw [hmx, hmn] at h
        obtain ⟨tmax, ymax⟩ := mx
        obtain ⟨tmin, ymin⟩ := mn
        dsimp only at h x1 x2 x3 n1 n2 n3
        have key : ∀ p q : K × K, t0 < p.1 → p.1 ≤ q.1 → q.1 < t1 → p.2 = f p.1 → q.2 = f q.1 →
            ((if sgn p.2 ≠ sgn q.2 then
              if q.1 - p.1 ≤ tol then some [bis p.1 q.1]
              else do
                let l ← allRoots f bis tol inner k t0 (p.1 - tol)
                let r ← allRoots f bis tol inner k (q.1 + tol) t1
                return l ++ bis p.1 q.1 :: r
            else if q.1 - p.1 ≤ tol then some []
            else allRoots f bis tol inner k (q.1 + tol) t1) = some l) → ∃ a b, t0 < a ∧ a ≤ b ∧ b < t1 ∧
            ((sgn (f a) ≠ sgn (f b) ∧ ((b - a ≤ tol ∧ l = [bis a b]) ∨
              ∃ l1 l2, allRoots f bis tol inner k t0 (a - tol) = some l1 ∧ allRoots f bis tol inner k (b + tol) t1 = some l2 ∧
                l = l1 ++ bis a b :: l2)) ∨
            (sgn (f a) = sgn (f b) ∧ (l = [] ∨ allRoots f bis tol inner k (b + tol) t1 = some l))) := by
          intro p q p1 pq q1 pe qe hh
          rw [pe, qe] at hh
          refine ⟨p.1, q.1, p1, pq, q1, ?_⟩
          by_cases hs : sgn (f p.1) ≠ sgn (f q.1)
          · rw [if_pos hs] at hh
            left
            refine ⟨hs, ?_⟩
            by_cases hw : q.1 - p.1 ≤ tol
            · rw [if_pos hw] at hh
              cases hh
              exact Or.inl ⟨hw, rfl⟩
            · rw [if_neg hw] at hh
              right
              cases ha : allRoots f bis tol inner k t0 (p.1 - tol) with
              | none => rw [ha] at hh; simp at hh
              | some l1 =>
                cases hb : allRoots f bis tol inner k (q.1 + tol) t1 with
                | none => rw [ha, hb] at hh; simp at hh
                | some l2 =>
                  rw [ha, hb] at hh
                  cases hh
                  exact ⟨l1, l2, rfl, rfl, rfl⟩
          · rw [if_neg hs] at hh
            right
            refine ⟨not_not.1 hs, ?_⟩
            by_cases hw : q.1 - p.1 ≤ tol
            · rw [if_pos hw] at hh
              cases hh
              exact Or.inl rfl
            · rw [if_neg hw] at hh
              exact Or.inr hh
        by_cases hlt : tmax < tmin
        · simp only [if_pos hlt] at h
          exact key (tmax, -ymax) (tmin, ymin) x1 hlt.le n2 (by dsimp only; rw [x3, neg_neg]) n3 h
        · simp only [if_neg hlt] at h
          exact key (tmin, ymin) (tmax, -ymax) n1 (not_lt.1 hlt) x2 n3 (by dsimp only; rw [x3, neg_neg]) h

/-- Brackets: a change of the sign between two parameters of the open range, in order and apart. -/
structure Brackets (f : K → K) (t0 t1 : K) (L : List (K × K)) : Prop where
  mem : ∀ p ∈ L, t0 < p.1 ∧ p.1 < p.2 ∧ p.2 < t1 ∧ sgn (f p.1) ≠ sgn (f p.2)
  apart : L.Pairwise fun p q => p.2 < q.1

theorem lt_of_sgn {f : K → K} {a b : K} (hab : a ≤ b) (h : sgn (f a) ≠ sgn (f b)) : a < b := by
  rcases hab.lt_or_eq with h' | h'
  · exact h'
  · rw [h'] at h; exact absurd rfl h

theorem allRoots_brackets {f : K → K} {bis : K → K → K} {tol : K} (ht : 0 < tol) {inner : ℕ} (k : ℕ) :
    ∀ {t0 t1 : K} {l : List K}, allRoots f bis tol inner k t0 t1 = some l →
      ∃ L, l = L.map (fun p => bis p.1 p.2) ∧ Brackets f t0 t1 L := by
  induction k with
  | zero => intro t0 t1 l h; simp [allRoots] at h
  | succ k ih =>
    intro t0 t1 l h
    rcases allRoots_cases ht h with ⟨-, rfl⟩ | ⟨a, b, h1, h2, h3, ⟨hs, ⟨-, rfl⟩ | ⟨l1, l2, e1, e2, rfl⟩⟩ | ⟨-, rfl | e⟩⟩
    · exact ⟨[], rfl, ⟨by simp, List.Pairwise.nil⟩⟩
    · refine ⟨[(a, b)], rfl, ⟨?_, List.pairwise_singleton _ _⟩⟩
      intro p hp
      rw [List.mem_singleton] at hp
      subst hp
      exact ⟨h1, lt_of_sgn h2 hs, h3, hs⟩
    · obtain ⟨L1, rfl, b1⟩ := ih e1
      obtain ⟨L2, rfl, b2⟩ := ih e2
      refine ⟨L1 ++ (a, b) :: L2, by simp, ⟨?_, ?_⟩⟩
      · intro p hp
        rcases List.mem_append.1 hp with hp | hp
        · obtain ⟨g1, g2, g3, g4⟩ := b1.mem p hp
          exact ⟨g1, g2, by linarith, g4⟩
        · rcases List.mem_cons.1 hp with rfl | hp
          · exact ⟨h1, lt_of_sgn h2 hs, h3, hs⟩
          · obtain ⟨g1, g2, g3, g4⟩ := b2.mem p hp
            exact ⟨by linarith, g2, g3, g4⟩
      · rw [List.pairwise_append, List.pairwise_cons]
        refine ⟨b1.apart, ⟨fun q hq => ?_, b2.apart⟩, fun p hp q hq => ?_⟩
        · have := (b2.mem q hq).1
          dsimp only
          linarith
        · have g := b1.mem p hp
          rcases List.mem_cons.1 hq with rfl | hq
          · dsimp only
            linarith [g.2.2.1]
          · have := (b2.mem q hq).1
            linarith [g.2.2.1]
    · exact ⟨[], rfl, ⟨by simp, List.Pairwise.nil⟩⟩
    · obtain ⟨L, rfl, b2⟩ := ih e
      refine ⟨L, rfl, ⟨fun p hp => ?_, b2.apart⟩⟩
      obtain ⟨g1, g2, g3, g4⟩ := b2.mem p hp
      exact ⟨by linarith, g2, g3, g4⟩

theorem allRoots_some (f : K → K) (bis : K → K → K) {tol w : K} (ht : 0 < tol) (j : ℕ) (hw : w * (3 / 4) ^ j < tol) {inner : ℕ}
    (hi : j + 1 ≤ inner) (n : ℕ) : ∀ {t0 t1 : K}, t1 - t0 ≤ w → t1 - t0 ≤ n * tol → ∀ fuel, n + 1 ≤ fuel →
      ∃ l, allRoots f bis tol inner fuel t0 t1 = some l := by
  induction n with
  | zero =>
    intro t0 t1 _ h fuel hf
    obtain ⟨fuel, rfl⟩ : ∃ m, fuel = m + 1 := ⟨fuel - 1, by omega⟩
    rw [Nat.cast_zero, zero_mul] at h
    exact ⟨[], by rw [allRoots, if_pos (by linarith)]⟩
  | succ n ih =>
    intro t0 t1 hw' h fuel hf
    obtain ⟨fuel, rfl⟩ : ∃ m, fuel = m + 1 := ⟨fuel - 1, by omega⟩
    rw [allRoots]
    by_cases h0 : t1 - t0 ≤ tol
    · exact ⟨[], if_pos h0⟩
    · rw [if_neg h0]
      have h01 : t0 < t1 := by linarith [not_le.1 h0]
      obtain ⟨mx, hmx⟩ := minIter_some (fun t => - f t) j hw h01.le hw' inner hi
      obtain ⟨mn, hmn⟩ := minIter_some f j hw h01.le hw' inner hi
      obtain ⟨x1, x2, -⟩ := minIter_inside inner h01 hmx
      obtain ⟨n1, n2, -⟩ := minIter_inside inner h01 hmn
      rw [hmx, hmn]
      push_cast at h
      have key : ∀ p q : K × K, t0 < p.1 → p.1 ≤ q.1 → q.1 < t1 → ∃ l,
          (if sgn p.2 ≠ sgn q.2 then
            if q.1 - p.1 ≤ tol then some [bis p.1 q.1]
            else do
              let l ← allRoots f bis tol inner fuel t0 (p.1 - tol)
              let r ← allRoots f bis tol inner fuel (q.1 + tol) t1
              return l ++ bis p.1 q.1 :: r
          else if q.1 - p.1 ≤ tol then some []
          else allRoots f bis tol inner fuel (q.1 + tol) t1) = some l := by
        intro p q p1 pq q1
        obtain ⟨l1, e1⟩ := ih (t0 := t0) (t1 := p.1 - tol) (by linarith) (by linarith) fuel (by omega)
        obtain ⟨l2, e2⟩ := ih (t0 := q.1 + tol) (t1 := t1) (by linarith) (by linarith) fuel (by omega)
        rw [e1, e2]
        split_ifs
        · exact ⟨_, rfl⟩
        · exact ⟨_, rfl⟩
        · exact ⟨_, rfl⟩
        · exact ⟨_, rfl⟩
      dsimp only
      by_cases hlt : mx.1 < mn.1
      · simp only [if_pos hlt]
        exact key (mx.1, -mx.2) mn x1 hlt.le n2
      · simp only [if_neg hlt]
        exact key mn (mx.1, -mx.2) n1 (not_lt.1 hlt) x2

section
variable [FloorRing K]

theorem divide_mem {a b step : K} (hs : 0 < step) : ∀ p ∈ Cp.divideInterval a b step, a ≤ p.1 ∧ p.1 < b ∧ p.2 = p.1 + step := by
  intro p hp
  obtain ⟨i, hi, rfl⟩ := List.mem_map.1 hp
  rw [List.mem_range] at hi
  dsimp only
  have h1 : (i : ℤ) < ⌈(b - a) / step⌉ := by omega
  have h2 : ((i : ℤ) : K) < (b - a) / step := Int.lt_ceil.1 h1
  rw [Int.cast_natCast, lt_div_iff₀ hs] at h2
  have h3 : (0 : K) ≤ i * step := mul_nonneg (Nat.cast_nonneg i) hs.le
  exact ⟨by linarith, by linarith, rfl⟩

theorem divide_sorted {a b step : K} (hs : 0 < step) : (Cp.divideInterval a b step).Pairwise fun p q => p.2 ≤ q.1 := by
  unfold Cp.divideInterval
  rw [List.pairwise_map]
  refine List.Pairwise.imp ?_ (List.pairwise_lt_range)
  intro i j hij
  dsimp only
  have : ((i + 1 : ℕ) : K) ≤ j := Nat.cast_le.2 hij
  push_cast at this
  have := mul_le_mul_of_nonneg_right this hs.le
  linarith

theorem fold_mem {f : K → K} {bis : K → K → K} {tol : K} {fuel : ℕ} (L : List (K × K)) : ∀ {res : List K},
    L.foldr (fun p acc => do
      let a ← allRoots f bis tol fuel fuel p.1 p.2
      let l ← acc
      return a ++ l) (some []) = some res →
    ∀ p ∈ L, ∃ a, allRoots f bis tol fuel fuel p.1 p.2 = some a ∧ ∀ x ∈ a, x ∈ res := by
  induction L with
  | nil => intro res _ p hp; cases hp
  | cons q L ih =>
    intro res h p hp
    rw [List.foldr_cons] at h
    cases ha : allRoots f bis tol fuel fuel q.1 q.2 with
    | none => rw [ha] at h; simp at h
    | some a =>
      cases hl : L.foldr (fun p acc => do
          let a ← allRoots f bis tol fuel fuel p.1 p.2
          let l ← acc
          return a ++ l) (some []) with
      | none => rw [ha, hl] at h; simp at h
      | some l =>
        rw [ha, hl] at h
        cases h
        rcases List.mem_cons.1 hp with rfl | hp
        · exact ⟨a, ha, fun x hx => List.mem_append_left _ hx⟩
        · obtain ⟨a', e, h'⟩ := ih hl p hp
          exact ⟨a', e, fun x hx => List.mem_append_right _ (h' x hx)⟩

theorem fold_brackets {f : K → K} {bis : K → K → K} {tol : K} (ht : 0 < tol) {fuel : ℕ} (t1 : K) (L : List (K × K)) :
    ∀ {t0 : K} {res : List K}, (∀ p ∈ L, t0 ≤ p.1 ∧ p.1 ≤ p.2 ∧ p.2 ≤ t1) → L.Pairwise (fun p q => p.2 ≤ q.1) →
    L.foldr (fun p acc => do
      let a ← allRoots f bis tol fuel fuel p.1 p.2
      let l ← acc
      return a ++ l) (some []) = some res →
    ∃ B, res = B.map (fun p => bis p.1 p.2) ∧ Brackets f t0 t1 B := by
  induction L with
  | nil =>
    intro t0 res _ _ h
    cases h
    exact ⟨[], rfl, ⟨by simp, List.Pairwise.nil⟩⟩
  | cons q L ih =>
    intro t0 res hm hp h
    rw [List.foldr_cons] at h
    rw [List.pairwise_cons] at hp
    cases ha : allRoots f bis tol fuel fuel q.1 q.2 with
    | none => rw [ha] at h; simp at h
    | some a =>
      cases hl : L.foldr (fun p acc => do
          let a ← allRoots f bis tol fuel fuel p.1 p.2
          let l ← acc
          return a ++ l) (some []) with
      | none => rw [ha, hl] at h; simp at h
      | some l =>
        rw [ha, hl] at h
        cases h
        obtain ⟨q1, q2, q3⟩ := hm q List.mem_cons_self
        obtain ⟨B1, rfl, b1⟩ := allRoots_brackets ht fuel ha
        obtain ⟨B2, rfl, b2⟩ := ih (t0 := q.2) (fun p hp' =>
          ⟨hp.1 p hp', (hm p (List.mem_cons_of_mem _ hp')).2⟩) hp.2 hl
        refine ⟨B1 ++ B2, by simp, ⟨?_, ?_⟩⟩
        · intro p hp'
          rcases List.mem_append.1 hp' with hp' | hp'
          · obtain ⟨g1, g2, g3, g4⟩ := b1.mem p hp'
            exact ⟨by linarith, g2, by linarith, g4⟩
          · obtain ⟨g1, g2, g3, g4⟩ := b2.mem p hp'
            exact ⟨by linarith, g2, g3, g4⟩
        · rw [List.pairwise_append]
          refine ⟨b1.apart, b2.apart, fun p hp' q' hq' => ?_⟩
          have g1 := (b1.mem p hp').2.2.1
          have g2 := (b2.mem q' hq').1
          linarith

/-- What `scipy.optimize.bisect` is trusted with: from a change of the sign it gives a value within `ε` of a root between the two
parameters. -/
def BisectSpec (f : K → K) (bis : K → K → K) (ε : K) : Prop :=
  ∀ a b, a < b → sgn (f a) ≠ sgn (f b) → ∃ z, a ≤ z ∧ z ≤ b ∧ f z = 0 ∧ |bis a b - z| ≤ ε

/-- **C228.**  With a positive step and tolerance `curve_pix` returns. -/
theorem C228_terminates (f : K → K) (bis : K → K → K) (t0 t1 step tol : K) (hs : 0 < step) (ht : 0 < tol) :
    ∃ N, ∀ fuel, N ≤ fuel → ∃ res, curvePix f bis t0 t1 step tol fuel = some res := by
  obtain ⟨j, hj⟩ := DnC.enough step ht (3 / 4) (by norm_num) (by norm_num)
  obtain ⟨n, hn⟩ := exists_nat_ge (step / tol)
  rw [div_le_iff₀ ht] at hn
  refine ⟨max (j + 1) (n + 1), fun fuel hf => ?_⟩
  unfold curvePix
  have hm := divide_mem (a := t0) (b := t1) hs
  generalize Cp.divideInterval t0 t1 step = L at hm
  induction L with
  | nil => exact ⟨[], rfl⟩
  | cons p L ih =>
    obtain ⟨l, hl⟩ := ih (fun q hq => hm q (List.mem_cons_of_mem _ hq))
    have hp := (hm p List.mem_cons_self).2.2
    obtain ⟨a, ha⟩ := allRoots_some f bis ht j hj (le_trans (le_max_left _ _) hf) n (t0 := p.1) (t1 := p.2) (by linarith)
      (by linarith) fuel (le_trans (le_max_right _ _) hf)
    exact ⟨a ++ l, by rw [List.foldr_cons, ha, hl]; rfl⟩

/-- **C228.**  Different values of the result belong to different roots: there are roots in increasing order, one for each value
and within the tolerance of `bisect` of it.  (The range is the interval with less than one step past its end.) -/
theorem C228_roots_partial (f : K → K) (bis : K → K → K) (ε t0 t1 step tol : K) (hs : 0 < step) (ht : 0 < tol)
    (hb : BisectSpec f bis ε) (fuel : ℕ) (res : List K) (h : curvePix f bis t0 t1 step tol fuel = some res) :
    ∃ zs : List K, zs.Pairwise (· < ·) ∧ (∀ z ∈ zs, t0 < z ∧ z < t1 + step ∧ f z = 0) ∧
      List.Forall₂ (fun x z => |x - z| ≤ ε) res zs := by
  obtain ⟨B, rfl, hB⟩ := fold_brackets ht (t1 + step) _ (t0 := t0) (fun p hp => by
    obtain ⟨g1, g2, g3⟩ := divide_mem hs p hp
    exact ⟨g1, by linarith, by linarith⟩) (divide_sorted hs) h
  clear h
  have gen : ∀ (B : List (K × K)), Brackets f t0 (t1 + step) B →
      ∃ zs : List K, zs.Pairwise (· < ·) ∧ (∀ z ∈ zs, t0 < z ∧ z < t1 + step ∧ f z = 0) ∧
        List.Forall₂ (fun x z => |x - z| ≤ ε) (B.map fun p => bis p.1 p.2) zs ∧
        ∀ z ∈ zs, ∃ p ∈ B, p.1 ≤ z := by
    intro B
    induction B with
    | nil => intro _; exact ⟨[], List.Pairwise.nil, by simp, List.Forall₂.nil, by simp⟩
    | cons p B ih =>
      intro hB
      have hap := List.pairwise_cons.1 hB.apart
      obtain ⟨zs, i1, i2, i3, i4⟩ := ih ⟨fun q hq => hB.mem q (List.mem_cons_of_mem _ hq), hap.2⟩
      obtain ⟨g1, g2, g3, g4⟩ := hB.mem p List.mem_cons_self
      obtain ⟨z, z1, z2, z3, z4⟩ := hb p.1 p.2 g2 g4
      refine ⟨z :: zs, List.pairwise_cons.2 ⟨fun y hy => ?_, i1⟩, ?_, List.Forall₂.cons z4 i3, ?_⟩
      · obtain ⟨q, hq, hqy⟩ := i4 y hy
        exact lt_of_le_of_lt z2 (lt_of_lt_of_le (hap.1 q hq) hqy)
      · intro y hy
        rcases List.mem_cons.1 hy with rfl | hy
        · exact ⟨by linarith, by linarith, z3⟩
        · exact i2 y hy
      · intro y hy
        rcases List.mem_cons.1 hy with rfl | hy
        · exact ⟨p, List.mem_cons_self, z1⟩
        · obtain ⟨q, hq, hqy⟩ := i4 y hy
          exact ⟨q, List.mem_cons_of_mem _ hq, hqy⟩
  obtain ⟨zs, i1, i2, i3, -⟩ := gen B hB
  exact ⟨zs, i1, i2, i3⟩

/-- A range on which the function rises (or falls) strictly, with a root away from its ends: the root is found. -/
theorem allRoots_mono (f : K → K) (bis : K → K → K) (ε tol : K) (ht : 0 < tol) (hb : BisectSpec f bis ε) (a b z : K)
    (hm : (∀ x y, a ≤ x → x < y → y ≤ b → f x < f y) ∨ (∀ x y, a ≤ x → x < y → y ≤ b → f y < f x)) (hz : f z = 0)
    (hz1 : a + tol / 2 ≤ z) (hz2 : z ≤ b - tol / 2) (hw : tol < b - a) (inner fuel : ℕ) (l : List K)
    (h : allRoots f bis tol inner fuel a b = some l) : ∃ x ∈ l, |x - z| ≤ ε := by
  cases fuel with
  | zero => simp [allRoots] at h
  | succ k =>
    have hab : a < b := by linarith
    rw [allRoots, if_neg (not_le.2 hw)] at h
    cases hmx : DnC.minIter (fun t => - f t) tol inner a b with
    | none => rw [hmx] at h; simp at h
    | some mx =>
      cases hmn : DnC.minIter f tol inner a b with
      | none => rw [hmx, hmn] at h; simp at h
      | some mn =>
        obtain ⟨x1, x2, x3⟩ := minIter_inside inner hab hmx
        obtain ⟨n1, n2, n3⟩ := minIter_inside inner hab hmn
        rw [hmx, hmn] at h
        dsimp only at h
        -- the two extrema are on the two sides of the root
        have fin : ∀ p q : K × K, a < p.1 → p.1 < z → z < q.1 → q.1 < b → p.2 = f p.1 → q.2 = f q.1 → sgn (f p.1) ≠ sgn (f q.1) →
            ((if sgn p.2 ≠ sgn q.2 then
              if q.1 - p.1 ≤ tol then some [bis p.1 q.1]
              else do
                let l ← allRoots f bis tol inner k a (p.1 - tol)
                let r ← allRoots f bis tol inner k (q.1 + tol) b
                return l ++ bis p.1 q.1 :: r
            else if q.1 - p.1 ≤ tol then some []
            else allRoots f bis tol inner k (q.1 + tol) b) = some l) → ∃ x ∈ l, |x - z| ≤ ε := by
          intro p q p1 p2 q1 q2 pe qe hs hh
          obtain ⟨z', w1, w2, w3, w4⟩ := hb p.1 q.1 (by linarith) hs
          have hzz : z' = z := by
            rcases lt_trichotomy z' z with hlt | heq | hlt
            · rcases hm with hm | hm
              · have := hm z' z (by linarith) hlt (by linarith)
                rw [w3, hz] at this
                exact absurd this (lt_irrefl _)
              · have := hm z' z (by linarith) hlt (by linarith)
                rw [w3, hz] at this
                exact absurd this (lt_irrefl _)
            · exact heq
            · rcases hm with hm | hm
              · have := hm z z' (by linarith) hlt (by linarith)
                rw [w3, hz] at this
                exact absurd this (lt_irrefl _)
              · have := hm z z' (by linarith) hlt (by linarith)
                rw [w3, hz] at this
                exact absurd this (lt_irrefl _)
          rw [hzz] at w4
          rw [pe, qe, if_pos hs] at hh
          by_cases hw' : q.1 - p.1 ≤ tol
          · rw [if_pos hw'] at hh
            cases hh
            exact ⟨_, List.mem_singleton.2 rfl, w4⟩
          · rw [if_neg hw'] at hh
            cases ha : allRoots f bis tol inner k a (p.1 - tol) with
            | none => rw [ha] at hh; simp at hh
            | some l1 =>
              cases hb' : allRoots f bis tol inner k (q.1 + tol) b with
              | none => rw [ha, hb'] at hh; simp at hh
              | some l2 =>
                rw [ha, hb'] at hh
                cases hh
                exact ⟨_, List.mem_append_right _ List.mem_cons_self, w4⟩
        have sg : ∀ u v, f u < 0 → 0 < f v → sgn (f u) ≠ sgn (f v) := by
          intro u v hu hv
          unfold sgn
          rw [decide_eq_false (not_le.2 hu), decide_eq_true hv.le]
          decide
        rcases hm with hinc | hdec
        · have u1 : DnC.Unimodal f a b a := ⟨le_rfl, hab.le, fun x y h1 h2 h3 => absurd h2 (by linarith), hinc⟩
          have u2 : DnC.Unimodal (fun t => - f t) a b b :=
            ⟨hab.le, le_rfl, fun x y h1 h2 h3 => neg_lt_neg (hinc x y h1 h2 h3), fun x y h1 h2 h3 => absurd h2 (by linarith)⟩
          have e1 := ((DnC.C31_iterative f a b a tol u1 ht).2 inner mn hmn).2.2.2
          have e2 := ((DnC.C31_iterative _ a b b tol u2 ht).2 inner mx hmx).2.2.2
          rw [abs_lt] at e1 e2
          have l1 : mn.1 < z := by linarith [e1.2]
          have l2 : z < mx.1 := by linarith [e2.1]
          have hn := hinc mn.1 z n1.le l1 (by linarith)
          have hx := hinc z mx.1 (by linarith) l2 x2.le
          rw [hz] at hn hx
          have hlt : ¬ mx.1 < mn.1 := by linarith
          simp only [if_neg hlt] at h
          exact fin mn (mx.1, -mx.2) n1 l1 l2 x2 n3 (by dsimp only; rw [x3, neg_neg]) (sg _ _ hn hx) h
        · have u1 : DnC.Unimodal f a b b := ⟨hab.le, le_rfl, hdec, fun x y h1 h2 h3 => absurd h2 (by linarith)⟩
          have u2 : DnC.Unimodal (fun t => - f t) a b a :=
            ⟨le_rfl, hab.le, fun x y h1 h2 h3 => absurd h2 (by linarith), fun x y h1 h2 h3 => neg_lt_neg (hdec x y h1 h2 h3)⟩
          have e1 := ((DnC.C31_iterative f a b b tol u1 ht).2 inner mn hmn).2.2.2
          have e2 := ((DnC.C31_iterative _ a b a tol u2 ht).2 inner mx hmx).2.2.2
          rw [abs_lt] at e1 e2
          have l1 : z < mn.1 := by linarith [e1.1]
          have l2 : mx.1 < z := by linarith [e2.2]
          have hn := hdec z mn.1 (by linarith) l1 n2.le
          have hx := hdec mx.1 z x1.le l2 (by linarith)
          rw [hz] at hn hx
          have hlt : mx.1 < mn.1 := by linarith
          simp only [if_pos hlt] at h
          exact fin (mx.1, -mx.2) mn x1 l2 l1 n2 (by dsimp only; rw [x3, neg_neg]) n3 (sg _ _ hn hx).symm h

/-- **C228.**  A root away from the ends of the piece it lies in is found, where the function rises or falls strictly on the
piece. -/
theorem C228_found_partial (f : K → K) (bis : K → K → K) (ε t0 t1 step tol : K) (ht : 0 < tol) (hst : tol < step)
    (hb : BisectSpec f bis ε) (p : K × K) (hp : p ∈ Cp.divideInterval t0 t1 step)
    (hm : (∀ x y, p.1 ≤ x → x < y → y ≤ p.2 → f x < f y) ∨ (∀ x y, p.1 ≤ x → x < y → y ≤ p.2 → f y < f x)) (z : K)
    (hz : f z = 0) (hz1 : p.1 + tol / 2 ≤ z) (hz2 : z ≤ p.2 - tol / 2) (fuel : ℕ) (res : List K)
    (h : curvePix f bis t0 t1 step tol fuel = some res) : ∃ x ∈ res, |x - z| ≤ ε := by
  obtain ⟨a, ha, hsub⟩ := fold_mem _ h p hp
  have := (divide_mem (ht.trans hst) p hp).2.2
  obtain ⟨x, hx, hxz⟩ := allRoots_mono f bis ε tol ht hb p.1 p.2 z hm hz hz1 hz2 (by linarith) fuel fuel a ha
  exact ⟨x, hsub x hx, hxz⟩

/-- **C228 fails** for every function whose sign does not change inside a piece: the result is empty, whatever roots there are. -/
theorem C228_sign_refuted (f : K → K) (bis : K → K → K) (t0 t1 step tol : K) (hs : 0 < step) (ht : 0 < tol)
    (hf : ∀ p ∈ Cp.divideInterval t0 t1 step, ∀ x y, p.1 < x → x < p.2 → p.1 < y → y < p.2 → sgn (f x) = sgn (f y)) :
    ∃ N, ∀ fuel, N ≤ fuel → curvePix f bis t0 t1 step tol fuel = some [] := by
  obtain ⟨N, hN⟩ := C228_terminates f bis t0 t1 step tol hs ht
  refine ⟨N, fun fuel hfu => ?_⟩
  obtain ⟨res, h⟩ := hN fuel hfu
  rw [h]
  congr 1
  unfold curvePix at h
  generalize Cp.divideInterval t0 t1 step = L at hf h
  clear hN
  induction L generalizing res with
  | nil => cases h; rfl
  | cons q L ih =>
    rw [List.foldr_cons] at h
    cases ha : allRoots f bis tol fuel fuel q.1 q.2 with
    | none => rw [ha] at h; simp at h
    | some a =>
      cases hl : L.foldr (fun p acc => do
          let a ← allRoots f bis tol fuel fuel p.1 p.2
          let l ← acc
          return a ++ l) (some []) with
      | none => rw [ha, hl] at h; simp at h
      | some l =>
        rw [ha, hl] at h
        cases h
        have h2 := ih l (fun p hp => hf p (List.mem_cons_of_mem _ hp)) hl
        obtain ⟨B, rfl, hB⟩ := allRoots_brackets ht fuel ha
        cases B with
        | nil => rw [h2]; rfl
        | cons p B =>
          obtain ⟨g1, g2, g3, g4⟩ := hB.mem p List.mem_cons_self
          exact absurd (hf q List.mem_cons_self p.1 p.2 g1 (by linarith) (by linarith) g3) g4

/-- **C228 fails** at the ends of the pieces: the line `t ↦ t - c` crosses zero at `c = t0 + i step`, and nothing is found. -/
theorem C228_boundary_refuted (bis : K → K → K) (t0 t1 step tol : K) (hs : 0 < step) (ht : 0 < tol) (i : ℕ) :
    ∃ N, ∀ fuel, N ≤ fuel → curvePix (fun t => t - (t0 + i * step)) bis t0 t1 step tol fuel = some [] := by
  apply C228_sign_refuted _ bis t0 t1 step tol hs ht
  intro p hp x y x1 x2 y1 y2
  obtain ⟨j, -, rfl⟩ := List.mem_map.1 hp
  dsimp only at x1 x2 y1 y2 ⊢
  unfold sgn
  rcases Nat.lt_or_ge j i with h | h
  · have : ((j + 1 : ℕ) : K) ≤ i := Nat.cast_le.2 h
    push_cast at this
    have := mul_le_mul_of_nonneg_right this hs.le
    rw [decide_eq_false (not_le.2 (by linarith)), decide_eq_false (not_le.2 (by linarith))]
  · have : (i : K) ≤ j := Nat.cast_le.2 h
    have := mul_le_mul_of_nonneg_right this hs.le
    rw [decide_eq_true (by linarith), decide_eq_true (by linarith)]

/-- **C228 fails** for a curve which touches the implicit curve from its outer side. -/
theorem C228_tangent_refuted (f : K → K) (hf : ∀ t, 0 ≤ f t) (bis : K → K → K) (t0 t1 step tol : K) (hs : 0 < step)
    (ht : 0 < tol) : ∃ N, ∀ fuel, N ≤ fuel → curvePix f bis t0 t1 step tol fuel = some [] := by
  apply C228_sign_refuted f bis t0 t1 step tol hs ht
  intro p _ x y _ _ _ _
  unfold sgn
  rw [decide_eq_true (hf x), decide_eq_true (hf y)]

/-- **C228 fails** for the interval: a root past the end of an interval shorter than the step is returned. -/
theorem C228_outside_refuted (bis : K → K → K) (ε t0 w step tol z : K) (ht : 0 < tol) (hst : tol < step) (hw : 0 < w)
    (hws : w < step) (hb : BisectSpec (fun t => t - z) bis ε) (hz : t0 + w + ε < z) (hz1 : t0 + tol / 2 ≤ z)
    (hz2 : z ≤ t0 + step - tol / 2) (fuel : ℕ) (res : List K)
    (h : curvePix (fun t => t - z) bis t0 (t0 + w) step tol fuel = some res) : ∃ x ∈ res, t0 + w < x := by
  have hs : 0 < step := by linarith
  have hp : (t0 + (0 : ℕ) * step, t0 + (0 : ℕ) * step + step) ∈ Cp.divideInterval t0 (t0 + w) step := by
    refine List.mem_map.2 ⟨0, ?_, rfl⟩
    rw [List.mem_range]
    have : 0 < ⌈(t0 + w - t0) / step⌉ := Int.ceil_pos.2 (by rw [add_sub_cancel_left]; positivity)
    omega
  rw [Nat.cast_zero, zero_mul, add_zero] at hp
  obtain ⟨x, hx, hxz⟩ := C228_found_partial _ bis ε t0 (t0 + w) step tol ht hst hb _ hp
    (Or.inl fun x y _ h _ => by linarith) z (sub_self z) hz1 hz2 fuel res h
  rw [abs_le] at hxz
  exact ⟨x, hx, by linarith [hxz.1]⟩

/-- The trusted `bisect` on a line: the exact root. -/
theorem line_bisect (z : K) : BisectSpec (fun t => t - z) (fun _ _ => z) 0 := by
  intro a b hab h
  unfold sgn at h
  refine ⟨z, ?_, ?_, sub_self z, by simp⟩
  · by_contra hc
    have hc := not_le.1 hc
    rw [decide_eq_true (by linarith), decide_eq_true (by linarith)] at h
    exact h rfl
  · by_contra hc
    have hc := not_le.1 hc
    rw [decide_eq_false (by simpa using by linarith), decide_eq_false (by simpa using hc)] at h
    exact h rfl

/-- The root `3/10` of a line on `[0, 1]` is found; the root `1/2` is not, and the root `13/10` past the end of `[0, 6/5]` is. -/
example : curvePix (fun t : ℚ => t - 3 / 10) (fun _ _ => 3 / 10) 0 1 (1 / 2) (1 / 100) 60 = some [3 / 10] ∧
    curvePix (fun t : ℚ => t - 1 / 2) (fun _ _ => 1 / 2) 0 1 (1 / 2) (1 / 100) 60 = some [] ∧
    curvePix (fun t : ℚ => t - 13 / 10) (fun _ _ => 13 / 10) 0 (6 / 5) (1 / 2) (1 / 100) 60 = some [13 / 10] := by
  refine ⟨by decide +kernel, by decide +kernel, by decide +kernel⟩

end

/-! ## `ccx` -/

/-- **C229.**  With a parametric form on one side there is a call, and it fits the forms of the curves: the curve taken as
parametric has `evaluate`, and the other the form the call needs. -/
theorem C229_dispatch_partial (c1 c2 : Forms) :
    (ccx c1 c2 = .pix21 ↔ c1.implicit = true ∧ c2.evaluate = true) ∧
    (ccx c1 c2 = .pix12 ↔ c2.implicit = true ∧ c1.evaluate = true ∧ ¬ (c1.implicit = true ∧ c2.evaluate = true)) ∧
    (ccx c1 c2 = .ppx ↔ c1.evaluate = true ∧ c2.evaluate = true ∧ c1.implicit = false ∧ c2.implicit = false) := by
  obtain ⟨i1, e1⟩ := c1
  obtain ⟨i2, e2⟩ := c2
  cases i1 <;> cases e1 <;> cases i2 <;> cases e2 <;> decide

/-- **C229 fails**: for two curves with implicit forms only (the documented use of `curve_iix`) the call always raises a
`TypeError`. -/
theorem C229_implicit_refuted (c1 c2 : Forms) (h1 : c1.implicit = true) (h2 : c2.implicit = true) (e1 : c1.evaluate = false)
    (e2 : c2.evaluate = false) : ccx c1 c2 = .typeError := by
  unfold ccx
  rw [h1, h2, e1, e2]
  rfl

/-- **C229 fails** for the order of the curves: with both forms on both sides the parameters are always those of the second
curve, so exchanging the curves gives parameters of the other one; and `curve_ppx` (with `tol`) is not used. -/
theorem C229_order_refuted (c1 c2 : Forms) (h1 : c1.implicit = true) (h2 : c2.implicit = true) (e1 : c1.evaluate = true)
    (e2 : c2.evaluate = true) : ccx c1 c2 = .pix21 ∧ ccx c2 c1 = .pix21 := by
  unfold ccx
  rw [h1, h2, e1, e2]
  exact ⟨rfl, rfl⟩

example : ccx ⟨true, false⟩ ⟨true, false⟩ = .typeError ∧ ccx ⟨false, true⟩ ⟨true, false⟩ = .pix12 ∧
    ccx ⟨false, true⟩ ⟨false, true⟩ = .ppx := by decide

end Verif.Ccx
