import Verif.Aabb.Model
import Mathlib.Tactic.Linarith
import Mathlib.Tactic.Ring
import Mathlib.Tactic.FieldSimp

namespace Verif.Aabb
variable {K : Type}

section order
variable [LinearOrder K]

theorem foldl_init (p0 : Pt K) (is : List Nat) : ∀ (b : Box K) (j : Nat),
    let r := is.foldl (fun (b : Box K) i => ⟨upd b.lo i (p0 i), upd b.hi i (p0 i)⟩) b
    r.lo j = (if j ∈ is then p0 j else b.lo j) ∧ r.hi j = (if j ∈ is then p0 j else b.hi j) := by
  induction is with
  | nil => intro b j; simp
  | cons i is ih =>
    intro b j
    obtain ⟨h1, h2⟩ := ih ⟨upd b.lo i (p0 i), upd b.hi i (p0 i)⟩ j
    simp only [List.foldl_cons]
    dsimp only at h1 h2
    rw [h1, h2]
    by_cases hj : j ∈ is
    · simp [hj]
    · by_cases hji : j = i
      · subst hji; simp [upd]
      · simp [hj, hji, upd]

theorem coordStep_at (p : Pt K) (b : Box K) (i j : Nat) :
    (coordStep p b i).lo j = (if j = i then min (b.lo j) (p j) else b.lo j) ∧
    (coordStep p b i).hi j = (if j = i then max (b.hi j) (p j) else b.hi j) := by
  unfold coordStep
  dsimp only
  by_cases hji : j = i
  · subst hji
    constructor
    · split
      · rename_i h; simp [upd, min_eq_right h.le]
      · rename_i h; simp [min_eq_left (not_lt.1 h)]
    · split
      · rename_i h; simp [upd, max_eq_right h.le]
      · rename_i h; simp [max_eq_left (not_lt.1 h)]
  · constructor <;> split <;> simp [upd, hji]

theorem foldl_coord (p : Pt K) (is : List Nat) : ∀ (b : Box K) (j : Nat),
    ((is.foldl (coordStep p) b).lo j = (if j ∈ is then min (b.lo j) (p j) else b.lo j)) ∧
    ((is.foldl (coordStep p) b).hi j = (if j ∈ is then max (b.hi j) (p j) else b.hi j)) := by
  induction is with
  | nil => intro b j; simp
  | cons i is ih =>
    intro b j
    obtain ⟨h1, h2⟩ := ih (coordStep p b i) j
    obtain ⟨h3, h4⟩ := coordStep_at p b i j
    rw [List.foldl_cons, h1, h2, h3, h4]
    by_cases hj : j ∈ is
    · by_cases hji : j = i
      · subst hji; simp [min_assoc, max_assoc]
      · simp [hj, hji]
    · by_cases hji : j = i
      · subst hji; simp [hj]
      · simp [hj, hji]

theorem foldl_pts (d : Nat) (ps : List (Pt K)) : ∀ (b : Box K) (j : Nat),
    let r := ps.foldl (fun b p => (List.range d).foldl (coordStep p) b) b
    (j < d → r.lo j ≤ b.lo j ∧ b.hi j ≤ r.hi j ∧ (∀ p ∈ ps, r.lo j ≤ p j ∧ p j ≤ r.hi j) ∧
      (∀ l, l ≤ b.lo j → (∀ p ∈ ps, l ≤ p j) → l ≤ r.lo j) ∧ (∀ h, b.hi j ≤ h → (∀ p ∈ ps, p j ≤ h) → r.hi j ≤ h)) ∧
    (¬ j < d → r.lo j = b.lo j ∧ r.hi j = b.hi j) := by
  induction ps with
  | nil => intro b j; simp
  | cons q qs ih =>
    intro b j
    obtain ⟨i1, i2⟩ := ih ((List.range d).foldl (coordStep q) b) j
    obtain ⟨f1, f2⟩ := foldl_coord q (List.range d) b j
    simp only [List.mem_range] at f1 f2
    simp only [List.foldl_cons]
    constructor
    · intro hj
      obtain ⟨a1, a2, a3, a4, a5⟩ := i1 hj
      rw [if_pos hj] at f1 f2
      rw [f1] at a1 a4
      rw [f2] at a2 a5
      refine ⟨a1.trans (min_le_left _ _), (le_max_left _ _).trans a2, ?_, ?_, ?_⟩
      · intro p hp
        rcases List.mem_cons.1 hp with rfl | hp
        · exact ⟨a1.trans (min_le_right _ _), (le_max_right _ _).trans a2⟩
        · exact a3 p hp
      · intro l hl h
        exact a4 l (le_min hl (h q List.mem_cons_self)) (fun p hp => h p (List.mem_cons_of_mem _ hp))
      · intro l hl h
        exact a5 l (max_le hl (h q List.mem_cons_self)) (fun p hp => h p (List.mem_cons_of_mem _ hp))
    · intro hj
      obtain ⟨a1, a2⟩ := i2 hj
      rw [if_neg hj] at f1 f2
      exact ⟨a1.trans f1, a2.trans f2⟩

theorem intersectLoop_iff (a b : Box K) (is : List Nat) : ∀ t, (is = [] → t ≠ none) →
    ∃ r, intersectLoop a b is t = some r ∧
      (r = true ↔ (∀ i ∈ is, a.lo i ≤ b.hi i ∧ b.lo i ≤ a.hi i) ∧ (is = [] → t = some true)) := by
  induction is with
  | nil =>
    intro t h
    cases t with
    | none => exact absurd rfl (h rfl)
    | some r => exact ⟨r, rfl, by simp⟩
  | cons i is ih =>
    intro t _
    simp only [intersectLoop]
    by_cases hi : a.lo i ≤ b.hi i ∧ b.lo i ≤ a.hi i
    · have : (decide (a.lo i ≤ b.hi i) && decide (a.hi i ≥ b.lo i)) = true := by simp [hi.1, hi.2]
      simp only [this, Bool.true_eq_false, if_false]
      obtain ⟨r, e, hr⟩ := ih (some true) (by simp)
      refine ⟨r, e, hr.trans ?_⟩
      simp [hi.1, hi.2]
    · have : (decide (a.lo i ≤ b.hi i) && decide (a.hi i ≥ b.lo i)) = false := by
        simp only [ge_iff_le, Bool.and_eq_false_iff, decide_eq_false_iff_not]
        tauto
      simp only [this, if_true]
      refine ⟨false, rfl, ?_⟩
      simp only [Bool.false_eq_true, false_iff, not_and]
      intro h
      exact absurd (h i List.mem_cons_self) hi

end order

variable [Field K] [LinearOrder K] [IsStrictOrderedRing K]

theorem slabStep_big (tol bmin bmax o d a b : K) (h0 : d ≠ 0) (hd : ¬ |d| < tol) (hb : bmin ≤ bmax) :
    (∀ a' b', slabStep tol bmin bmax o d a b = some (a', b') → a' ≤ b' ∧ a ≤ a' ∧ b' ≤ b ∧
      ∀ t, (a' ≤ t ∧ t ≤ b') ↔ ((a ≤ t ∧ t ≤ b) ∧ bmin ≤ o + d * t ∧ o + d * t ≤ bmax)) ∧
    (slabStep tol bmin bmax o d a b = none → ∀ t, ¬ ((a ≤ t ∧ t ≤ b) ∧ bmin ≤ o + d * t ∧ o + d * t ≤ bmax)) := by
  -- the sorted pair (u, v) describes the slab
  obtain ⟨u, v, huv, hslab⟩ : ∃ u v, (if (bmin - o) * (1 / d) > (bmax - o) * (1 / d)
        then ((bmax - o) * (1 / d), (bmin - o) * (1 / d)) else ((bmin - o) * (1 / d), (bmax - o) * (1 / d))) = (u, v) ∧
      ∀ t, (u ≤ t ∧ t ≤ v) ↔ (bmin ≤ o + d * t ∧ o + d * t ≤ bmax) := by
    rcases lt_or_gt_of_ne h0 with hneg | hpos
    · have hs : (bmax - o) * (1 / d) ≤ (bmin - o) * (1 / d) := by
        apply mul_le_mul_of_nonpos_right (by linarith)
        exact (one_div_neg.2 hneg).le
      refine ⟨(bmax - o) * (1 / d), (bmin - o) * (1 / d), ?_, ?_⟩
      · split
        · rfl
        · rename_i h
          have : (bmin - o) * (1 / d) = (bmax - o) * (1 / d) := le_antisymm (not_lt.1 h) hs
          rw [this]
      · intro t
        rw [mul_one_div, mul_one_div, div_le_iff_of_neg hneg, le_div_iff_of_neg hneg, mul_comm t d]
        constructor
        · rintro ⟨h1, h2⟩; exact ⟨by linarith, by linarith⟩
        · rintro ⟨h1, h2⟩; exact ⟨by linarith, by linarith⟩
    · have hs : (bmin - o) * (1 / d) ≤ (bmax - o) * (1 / d) := by
        apply mul_le_mul_of_nonneg_right (by linarith)
        exact (one_div_pos.2 hpos).le
      refine ⟨(bmin - o) * (1 / d), (bmax - o) * (1 / d), by rw [if_neg (not_lt.2 hs)], ?_⟩
      intro t
      rw [mul_one_div, mul_one_div, div_le_iff₀ hpos, le_div_iff₀ hpos, mul_comm t d]
      constructor
      · rintro ⟨h1, h2⟩; exact ⟨by linarith, by linarith⟩
      · rintro ⟨h1, h2⟩; exact ⟨by linarith, by linarith⟩
  have hmax : (if u > a then u else a) = max a u := by
    split
    · rename_i h; exact (max_eq_right h.le).symm
    · rename_i h; exact (max_eq_left (not_lt.1 h)).symm
  have hmin : (if v < b then v else b) = min b v := by
    split
    · rename_i h; exact (min_eq_right h.le).symm
    · rename_i h; exact (min_eq_left (not_lt.1 h)).symm
  have hval : slabStep tol bmin bmax o d a b = if min b v < max a u then none else some (max a u, min b v) := by
    unfold slabStep
    rw [if_neg hd]
    dsimp only
    rw [huv]
    dsimp only
    rw [hmax, hmin]
  have hset : ∀ t, (max a u ≤ t ∧ t ≤ min b v) ↔ ((a ≤ t ∧ t ≤ b) ∧ bmin ≤ o + d * t ∧ o + d * t ≤ bmax) := by
    intro t
    rw [← hslab t, max_le_iff, le_min_iff]
    tauto
  rw [hval]
  constructor
  · intro a' b' h
    split at h
    · cases h
    · rename_i hle
      cases h
      exact ⟨not_lt.1 hle, le_max_left _ _, min_le_left _ _, hset⟩
  · intro h t ht
    split at h
    · rename_i hlt
      have := (hset t).2 ht
      exact absurd (this.1.trans this.2) (not_le.2 hlt)
    · cases h

theorem slabStep_small (tol bmin bmax o d a b : K) (hd : |d| < tol) :
    (∀ a' b', slabStep tol bmin bmax o d a b = some (a', b') → a' = a ∧ b' = b ∧ bmin ≤ o ∧ o ≤ bmax) ∧
    (slabStep tol bmin bmax o d a b = none → ¬ (bmin ≤ o ∧ o ≤ bmax)) := by
  unfold slabStep
  rw [if_pos hd]
  constructor
  · intro a' b' h
    split at h
    · cases h
    · rename_i hn
      cases h
      rw [not_or, not_lt, not_lt] at hn
      exact ⟨rfl, rfl, hn⟩
  · intro h hn
    split at h
    · rename_i hor
      rcases hor with h1 | h1
      · exact absurd hn.1 (not_le.2 h1)
      · exact absurd hn.2 (not_le.2 h1)
    · cases h

/-- Exactness of the slab loop when no direction component lies strictly between 0 and the tolerance. -/
theorem slabLoop_exact (tol : K) (htol : 0 < tol) (bx : Box K) (o d : Pt K) (is : List Nat) :
    ∀ a b : K, (∀ i ∈ is, d i = 0 ∨ tol ≤ |d i|) → (∀ i ∈ is, bx.lo i ≤ bx.hi i) →
    (∀ a' b', slabLoop tol bx o d is a b = some (a', b') → (a ≤ b → a' ≤ b') ∧ a ≤ a' ∧ b' ≤ b ∧
      ∀ t, (a' ≤ t ∧ t ≤ b') ↔ ((a ≤ t ∧ t ≤ b) ∧ ∀ i ∈ is, bx.lo i ≤ o i + d i * t ∧ o i + d i * t ≤ bx.hi i)) ∧
    (slabLoop tol bx o d is a b = none →
      ∀ t, ¬ ((a ≤ t ∧ t ≤ b) ∧ ∀ i ∈ is, bx.lo i ≤ o i + d i * t ∧ o i + d i * t ≤ bx.hi i)) := by
  induction is with
  | nil =>
    intro a b _ _
    refine ⟨fun a' b' h => ?_, fun h => by simp [slabLoop] at h⟩
    simp only [slabLoop, Option.some.injEq, Prod.mk.injEq] at h
    obtain ⟨rfl, rfl⟩ := h
    simp
  | cons i is ih =>
    intro a b hd hb
    have hd' : ∀ j ∈ is, d j = 0 ∨ tol ≤ |d j| := fun j hj => hd j (List.mem_cons_of_mem _ hj)
    have hb' : ∀ j ∈ is, bx.lo j ≤ bx.hi j := fun j hj => hb j (List.mem_cons_of_mem _ hj)
    have step : (∀ x y, slabStep tol (bx.lo i) (bx.hi i) (o i) (d i) a b = some (x, y) → (a ≤ b → x ≤ y) ∧ a ≤ x ∧ y ≤ b ∧
          ∀ t, (x ≤ t ∧ t ≤ y) ↔ ((a ≤ t ∧ t ≤ b) ∧ bx.lo i ≤ o i + d i * t ∧ o i + d i * t ≤ bx.hi i)) ∧
        (slabStep tol (bx.lo i) (bx.hi i) (o i) (d i) a b = none →
          ∀ t, ¬ ((a ≤ t ∧ t ≤ b) ∧ bx.lo i ≤ o i + d i * t ∧ o i + d i * t ≤ bx.hi i)) := by
      rcases hd i List.mem_cons_self with h0 | hbig
      · have hs : |d i| < tol := by rw [h0, abs_zero]; exact htol
        obtain ⟨s1, s2⟩ := slabStep_small tol (bx.lo i) (bx.hi i) (o i) (d i) a b hs
        constructor
        · intro x y h
          obtain ⟨rfl, rfl, h1, h2⟩ := s1 x y h
          refine ⟨id, le_rfl, le_rfl, fun t => ?_⟩
          rw [h0, zero_mul, add_zero]
          tauto
        · intro h t ht
          rw [h0, zero_mul, add_zero] at ht
          exact s2 h ht.2
      · have h0 : d i ≠ 0 := by
          intro h; rw [h, abs_zero] at hbig; exact absurd hbig (not_le.2 htol)
        obtain ⟨s1, s2⟩ := slabStep_big tol (bx.lo i) (bx.hi i) (o i) (d i) a b h0 (not_lt.2 hbig)
          (hb i List.mem_cons_self)
        refine ⟨fun x y h => ?_, s2⟩
        obtain ⟨h1, h2, h3, h4⟩ := s1 x y h
        exact ⟨fun _ => h1, h2, h3, h4⟩
    obtain ⟨s1, s2⟩ := step
    simp only [slabLoop]
    cases hs : slabStep tol (bx.lo i) (bx.hi i) (o i) (d i) a b with
    | none =>
      refine ⟨fun a' b' h => (by cases h), fun _ t ht => ?_⟩
      exact s2 hs t ⟨ht.1, ht.2 i List.mem_cons_self⟩
    | some p =>
      obtain ⟨x, y⟩ := p
      obtain ⟨h1, h2, h3, h4⟩ := s1 x y hs
      obtain ⟨i1, i2⟩ := ih x y hd' hb'
      dsimp only
      refine ⟨fun a' b' h => ?_, fun h t ht => ?_⟩
      · obtain ⟨j1, j2, j3, j4⟩ := i1 a' b' h
        refine ⟨fun hab => j1 (h1 hab), h2.trans j2, j3.trans h3, fun t => ?_⟩
        rw [j4 t, h4 t, List.forall_mem_cons]
        tauto
      · rw [List.forall_mem_cons] at ht
        exact i2 h t ⟨(h4 t).2 ⟨ht.1, ht.2.1⟩, ht.2.2⟩

/-- What the loop guarantees without any assumption on the direction, for parameters in `[0,1]`: it is right up to the
tolerance. -/
theorem slabLoop_tol (tol : K) (htol : 0 < tol) (bx : Box K) (o d : Pt K) (is : List Nat) :
    ∀ a b : K, 0 ≤ a → b ≤ 1 → (∀ i ∈ is, bx.lo i ≤ bx.hi i) →
    (∀ a' b', slabLoop tol bx o d is a b = some (a', b') → (a ≤ b → a' ≤ b') ∧ a ≤ a' ∧ b' ≤ b ∧
      ∀ t, (a' ≤ t ∧ t ≤ b' →
          (a ≤ t ∧ t ≤ b) ∧ ∀ i ∈ is, bx.lo i - tol ≤ o i + d i * t ∧ o i + d i * t ≤ bx.hi i + tol) ∧
        ((a ≤ t ∧ t ≤ b) ∧ (∀ i ∈ is, bx.lo i + tol ≤ o i + d i * t ∧ o i + d i * t ≤ bx.hi i - tol) →
          a' ≤ t ∧ t ≤ b')) ∧
    (slabLoop tol bx o d is a b = none →
      ∀ t, ¬ ((a ≤ t ∧ t ≤ b) ∧ ∀ i ∈ is, bx.lo i + tol ≤ o i + d i * t ∧ o i + d i * t ≤ bx.hi i - tol)) := by
  induction is with
  | nil =>
    intro a b _ _ _
    refine ⟨fun a' b' h => ?_, fun h => by simp [slabLoop] at h⟩
    simp only [slabLoop, Option.some.injEq, Prod.mk.injEq] at h
    obtain ⟨rfl, rfl⟩ := h
    simp
  | cons i is ih =>
    intro a b ha0 hb1 hb
    have hb' : ∀ j ∈ is, bx.lo j ≤ bx.hi j := fun j hj => hb j (List.mem_cons_of_mem _ hj)
    have step : (∀ x y, slabStep tol (bx.lo i) (bx.hi i) (o i) (d i) a b = some (x, y) → (a ≤ b → x ≤ y) ∧ a ≤ x ∧ y ≤ b ∧
          ∀ t, (x ≤ t ∧ t ≤ y → (a ≤ t ∧ t ≤ b) ∧ bx.lo i - tol ≤ o i + d i * t ∧ o i + d i * t ≤ bx.hi i + tol) ∧
            ((a ≤ t ∧ t ≤ b) ∧ (bx.lo i + tol ≤ o i + d i * t ∧ o i + d i * t ≤ bx.hi i - tol) → x ≤ t ∧ t ≤ y)) ∧
        (slabStep tol (bx.lo i) (bx.hi i) (o i) (d i) a b = none →
          ∀ t, ¬ ((a ≤ t ∧ t ≤ b) ∧ bx.lo i + tol ≤ o i + d i * t ∧ o i + d i * t ≤ bx.hi i - tol)) := by
      by_cases hs : |d i| < tol
      · have hdt : ∀ t, a ≤ t → t ≤ b → -tol ≤ d i * t ∧ d i * t ≤ tol := by
          intro t h1 h2
          have hd := abs_lt.1 hs
          have ht0 : 0 ≤ t := ha0.trans h1
          have ht1 : t ≤ 1 := h2.trans hb1
          constructor
          · nlinarith [mul_le_mul_of_nonneg_right hd.1.le ht0, mul_le_mul_of_nonneg_left ht1 htol.le]
          · nlinarith [mul_le_mul_of_nonneg_right hd.2.le ht0, mul_le_mul_of_nonneg_left ht1 htol.le]
        obtain ⟨s1, s2⟩ := slabStep_small tol (bx.lo i) (bx.hi i) (o i) (d i) a b hs
        constructor
        · intro x y h
          obtain ⟨rfl, rfl, h1, h2⟩ := s1 x y h
          refine ⟨id, le_rfl, le_rfl, fun t => ⟨fun ht => ⟨ht, ?_⟩, fun ht => ht.1⟩⟩
          obtain ⟨k1, k2⟩ := hdt t ht.1 ht.2
          exact ⟨by linarith, by linarith⟩
        · rintro h t ⟨ht, h3, h4⟩
          obtain ⟨k1, k2⟩ := hdt t ht.1 ht.2
          exact s2 h ⟨by linarith, by linarith⟩
      · have h0 : d i ≠ 0 := by
          intro h; rw [h, abs_zero] at hs; exact hs htol
        obtain ⟨s1, s2⟩ := slabStep_big tol (bx.lo i) (bx.hi i) (o i) (d i) a b h0 hs (hb i List.mem_cons_self)
        refine ⟨fun x y h => ?_, fun h t ht => ?_⟩
        · obtain ⟨h1, h2, h3, h4⟩ := s1 x y h
          refine ⟨fun _ => h1, h2, h3, fun t => ⟨fun ht => ?_, fun ht => ?_⟩⟩
          · have := (h4 t).1 ht
            exact ⟨this.1, by linarith [this.2.1], by linarith [this.2.2]⟩
          · exact (h4 t).2 ⟨ht.1, by linarith [ht.2.1], by linarith [ht.2.2]⟩
        · exact s2 h t ⟨ht.1, by linarith [ht.2.1], by linarith [ht.2.2]⟩
    obtain ⟨s1, s2⟩ := step
    simp only [slabLoop]
    cases hs : slabStep tol (bx.lo i) (bx.hi i) (o i) (d i) a b with
    | none =>
      refine ⟨fun a' b' h => (by cases h), fun _ t ht => ?_⟩
      exact s2 hs t ⟨ht.1, ht.2 i List.mem_cons_self⟩
    | some p =>
      obtain ⟨x, y⟩ := p
      obtain ⟨h1, h2, h3, h4⟩ := s1 x y hs
      obtain ⟨i1, i2⟩ := ih x y (ha0.trans h2) (h3.trans hb1) hb'
      dsimp only
      refine ⟨fun a' b' h => ?_, fun h t ht => ?_⟩
      · obtain ⟨j1, j2, j3, j4⟩ := i1 a' b' h
        refine ⟨fun hab => j1 (h1 hab), h2.trans j2, j3.trans h3, fun t => ⟨fun ht => ?_, fun ht => ?_⟩⟩
        · have k := (j4 t).1 ht
          have k2 := (h4 t).1 k.1
          rw [List.forall_mem_cons]
          exact ⟨k2.1, k2.2, k.2⟩
        · rw [List.forall_mem_cons] at ht
          exact (j4 t).2 ⟨(h4 t).2 ⟨ht.1, ht.2.1⟩, ht.2.2⟩
      · rw [List.forall_mem_cons] at ht
        exact i2 h t ⟨(h4 t).2 ⟨ht.1, ht.2.1⟩, ht.2.2⟩

/-- After the loop on `[0,1]` the remaining checks and the clamping change nothing. -/
theorem segmentAabb_eq (tol : K) (b : Box K) (s e : Pt K) (H : ∀ x y, slabLoop tol b s (fun i => e i - s i) [0, 1, 2] 0 1 = some (x, y) →
    x ≤ y ∧ 0 ≤ x ∧ y ≤ 1) : segmentAabb tol b s e = slabLoop tol b s (fun i => e i - s i) [0, 1, 2] 0 1 ∧
    segmentClip tol b s e = (segmentAabb tol b s e).map (fun p => (fun i => s i + (e i - s i) * p.1, fun i => s i + (e i - s i) * p.2)) := by
  unfold segmentAabb segmentClip segRaw
  cases hs : slabLoop tol b s (fun i => e i - s i) [0, 1, 2] 0 1 with
  | none => simp
  | some p =>
    obtain ⟨x, y⟩ := p
    obtain ⟨h1, h2, h3⟩ := H x y hs
    have c1 : ¬ (y < 0 ∨ x > 1) := by
      rw [not_or, not_lt, not_lt]; exact ⟨h2.trans h1, h1.trans h3⟩
    have c2 : (if x > 0 then x else 0) = x := by
      split
      · rfl
      · rename_i h; exact le_antisymm h2 (not_lt.1 h)
    have c3 : (if y < 1 then y else 1) = y := by
      split
      · rfl
      · rename_i h; exact le_antisymm (not_lt.1 h) h3
    have c4 : (if x ≤ 0 then 0 else x) = x := by
      split
      · rename_i h; exact le_antisymm h2 h
      · rfl
    have c5 : (if y ≥ 1 then 1 else y) = y := by
      split
      · rename_i h; exact le_antisymm h h3
      · rfl
    dsimp only
    rw [if_neg c1, c2, c3, if_neg (not_lt.2 h1)]
    split <;> simp [c4, c5]

end Verif.Aabb
