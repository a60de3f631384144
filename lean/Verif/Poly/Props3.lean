import Verif.Poly.Props2
import Mathlib.Analysis.Convex.Hull
import Mathlib.Analysis.Convex.Segment
import Mathlib.Analysis.SpecialFunctions.Complex.Arg

/-! # C24: Graham scan -/

set_option linter.unusedSectionVars false

namespace Verif.Poly
variable {K : Type} [Field K] [LinearOrder K]

/-- Cross product of the two vectors from `o`. -/
def cross (o a b : K × K) : K := (a.1 - o.1) * (b.2 - o.2) - (a.2 - o.2) * (b.1 - o.1)

/-- Specification of a polar angle: on the upper half-plane with the positive axis it orders vectors by rotation sense, and
the zero vector comes first. -/
structure IsAngle (angle : K × K → K) : Prop where
  lt_iff : ∀ u w : K × K, u ≠ 0 → w ≠ 0 → (0 < u.2 ∨ (u.2 = 0 ∧ 0 ≤ u.1)) → (0 < w.2 ∨ (w.2 = 0 ∧ 0 ≤ w.1)) →
    (angle u < angle w ↔ 0 < u.1 * w.2 - u.2 * w.1)
  zero_le : ∀ w : K × K, (0 < w.2 ∨ (w.2 = 0 ∧ 0 ≤ w.1)) → angle 0 ≤ angle w

section ordered
variable [IsStrictOrderedRing K]

/-! ### Polar order -/

/-- `b` comes after `a` around `o`: not clockwise, and if collinear then farther. -/
def After (o a b : K × K) : Prop := 0 ≤ cross o a b ∧ (cross o a b = 0 → ∃ t, 0 ≤ t ∧ t ≤ 1 ∧ a = lerp o b t)

/-- The region of points not below `o`, and not to its left at the same height. -/
def Upper (o a : K × K) : Prop := o.2 < a.2 ∨ (a.2 = o.2 ∧ o.1 ≤ a.1)

theorem after_of_polar (angle : K × K → K) (ha : IsAngle angle) (o a b : K × K) (ua : Upper o a) (ub : Upper o b)
    (h : polarLe angle o a b) : After o a b := by
  have ua' : 0 < (a.1 - o.1, a.2 - o.2).2 ∨ ((a.1 - o.1, a.2 - o.2).2 = 0 ∧ 0 ≤ (a.1 - o.1, a.2 - o.2).1) := by
    rcases ua with h | ⟨h1, h2⟩
    · exact Or.inl (sub_pos.mpr h)
    · exact Or.inr ⟨sub_eq_zero.mpr h1, sub_nonneg.mpr h2⟩
  have ub' : 0 < (b.1 - o.1, b.2 - o.2).2 ∨ ((b.1 - o.1, b.2 - o.2).2 = 0 ∧ 0 ≤ (b.1 - o.1, b.2 - o.2).1) := by
    rcases ub with h | ⟨h1, h2⟩
    · exact Or.inl (sub_pos.mpr h)
    · exact Or.inr ⟨sub_eq_zero.mpr h1, sub_nonneg.mpr h2⟩
  have zero_iff : ∀ c : K × K, (c.1 - o.1, c.2 - o.2) = (0 : K × K) ↔ c = o := by
    intro c
    rw [Prod.ext_iff, Prod.ext_iff]
    simp [sub_eq_zero]
  by_cases hao : a = o
  · subst hao
    refine ⟨by simp [cross], fun _ => ⟨0, le_refl _, zero_le_one, by simp [lerp]⟩⟩
  by_cases hbo : b = o
  · exfalso
    subst hbo
    have hz := ha.zero_le _ ua'
    have e0 : (b.1 - b.1, b.2 - b.2) = (0 : K × K) := by simp
    rw [polarLe, e0] at h
    rcases h with h | ⟨_, h⟩
    · exact absurd h (not_lt.mpr hz)
    · have h0 : distSq b b = 0 := by simp [distSq]
      rw [h0, distSq] at h
      have h1 : b.1 - a.1 = 0 := by nlinarith [mul_self_nonneg (b.1 - a.1), mul_self_nonneg (b.2 - a.2)]
      have h2 : b.2 - a.2 = 0 := by nlinarith [mul_self_nonneg (b.1 - a.1), mul_self_nonneg (b.2 - a.2)]
      exact hao (Prod.ext (sub_eq_zero.mp h1).symm (sub_eq_zero.mp h2).symm)
  have na : (a.1 - o.1, a.2 - o.2) ≠ (0 : K × K) := fun h => hao ((zero_iff a).mp h)
  have nb : (b.1 - o.1, b.2 - o.2) ≠ (0 : K × K) := fun h => hbo ((zero_iff b).mp h)
  have hab := ha.lt_iff _ _ na nb ua' ub'
  have hba := ha.lt_iff _ _ nb na ub' ua'
  dsimp only at hab hba
  rcases h with h | ⟨h, hd⟩
  · have := hab.mp h
    exact ⟨le_of_lt this, fun h0 => absurd h0 (ne_of_gt this)⟩
  · have h1 : ¬ 0 < cross o a b := fun hc => absurd (hab.mpr hc) (by rw [h]; exact lt_irrefl _)
    have h2 : ¬ 0 < (b.1 - o.1) * (a.2 - o.2) - (b.2 - o.2) * (a.1 - o.1) := fun hc => absurd (hba.mpr hc) (by rw [h]; exact lt_irrefl _)
    have hc : cross o a b = 0 := by
      apply le_antisymm (not_lt.mp h1)
      have := not_lt.mp h2
      simp only [cross]; linarith
    refine ⟨le_of_eq hc.symm, fun _ => ?_⟩
    -- the common direction
    rw [distSq, distSq] at hd
    simp only [cross] at hc
    rcases ua with hy | ⟨hy, hx⟩
    · have hY : o.2 < b.2 := by
        rcases ub with hY | ⟨hY, hX⟩
        · exact hY
        · exfalso
          rw [hY] at hc
          have : (a.2 - o.2) * (b.1 - o.1) = 0 := by linarith
          rcases mul_eq_zero.mp this with h | h
          · linarith
          · exact hbo (Prod.ext (sub_eq_zero.mp h) hY)
      have hp : 0 < b.2 - o.2 := sub_pos.mpr hY
      refine ⟨(a.2 - o.2) / (b.2 - o.2), div_nonneg (by linarith) (le_of_lt hp), ?_, ?_⟩
      · by_contra hlt
        have hlt' := not_le.mp hlt
        rw [lt_div_iff₀ hp, one_mul] at hlt'
        -- then `a` is farther than `b`
        have h3 : (b.2 - o.2) * (b.2 - o.2) < (a.2 - o.2) * (a.2 - o.2) := by nlinarith
        have h4 : ((b.1 - o.1) * (b.1 - o.1)) * ((a.2 - o.2) * (a.2 - o.2)) =
            ((a.1 - o.1) * (a.1 - o.1)) * ((b.2 - o.2) * (b.2 - o.2)) := by
          have : (b.1 - o.1) * (a.2 - o.2) = (a.1 - o.1) * (b.2 - o.2) := by linarith
          calc _ = ((b.1 - o.1) * (a.2 - o.2)) * ((b.1 - o.1) * (a.2 - o.2)) := by ring
            _ = _ := by rw [this]; ring
        have h5 : (b.1 - o.1) * (b.1 - o.1) ≤ (a.1 - o.1) * (a.1 - o.1) := by
          have hpos : 0 < (a.2 - o.2) * (a.2 - o.2) := mul_pos (by linarith) (by linarith)
          by_contra hn
          have hn' := not_le.mp hn
          nlinarith [mul_self_nonneg (a.1 - o.1), mul_self_nonneg (b.2 - o.2)]
        nlinarith
      · refine Prod.ext ?_ ?_
        · simp only [lerp]; field_simp; linarith
        · simp only [lerp]; field_simp; ring
    · have hx' : 0 < a.1 - o.1 := by
        rcases eq_or_lt_of_le hx with h | h
        · exact absurd (Prod.ext h.symm hy) hao
        · linarith
      rw [hy] at hc
      have hY : b.2 = o.2 := by
        have : (a.1 - o.1) * (b.2 - o.2) = 0 := by linarith
        rcases mul_eq_zero.mp this with h | h
        · linarith
        · linarith
      have hX : 0 < b.1 - o.1 := by
        rcases ub with h | ⟨_, h⟩
        · rw [hY] at h; exact absurd h (lt_irrefl _)
        · rcases eq_or_lt_of_le h with h | h
          · exact absurd (Prod.ext h.symm hY) hbo
          · linarith
      refine ⟨(a.1 - o.1) / (b.1 - o.1), div_nonneg (le_of_lt hx') (le_of_lt hX), ?_, ?_⟩
      · rw [div_le_one hX]
        rw [hy, hY] at hd
        by_contra hn
        have hn' := not_le.mp hn
        nlinarith
      · refine Prod.ext ?_ ?_
        · simp only [lerp]; field_simp; ring
        · simp only [lerp, hy, hY]; ring

/-! ### Popping keeps the hull -/

/-- The hull of the points of a list. -/
abbrev hull (l : List (K × K)) : Set (K × K) := convexHull K {p | p ∈ l}

theorem mem_hull_of_mem (l : List (K × K)) (p : K × K) (h : p ∈ l) : p ∈ hull l := subset_convexHull K _ h

theorem hull_mono (l m : List (K × K)) (h : ∀ p ∈ l, p ∈ hull m) : hull l ⊆ hull m :=
  convexHull_min (fun p hp => h p hp) (convex_convexHull K _)

theorem comb3 (l : List (K × K)) (x y z : K × K) (hx : x ∈ hull l) (hy : y ∈ hull l) (hz : z ∈ hull l) (a b c : K)
    (ha : 0 ≤ a) (hb : 0 ≤ b) (hc : 0 ≤ c) (h : a + b + c = 1) :
    (a * x.1 + b * y.1 + c * z.1, a * x.2 + b * y.2 + c * z.2) ∈ hull l := by
  have hconv := convex_convexHull K {p | p ∈ l}
  rcases eq_or_lt_of_le (add_nonneg ha hb) with h0 | h0
  · have ea : a = 0 := by linarith
    have eb : b = 0 := by linarith
    have ec : c = 1 := by linarith
    rw [ea, eb, ec]; simpa using hz
  · have h1 : (a / (a + b)) • x + (b / (a + b)) • y ∈ hull l :=
      hconv hx hy (div_nonneg ha (le_of_lt h0)) (div_nonneg hb (le_of_lt h0)) (by rw [← add_div, div_self (ne_of_gt h0)])
    have h2 := hconv h1 hz (le_of_lt h0) hc h
    have hne : a + b ≠ 0 := ne_of_gt h0
    convert h2 using 1
    refine Prod.ext ?_ ?_
    · simp only [Prod.fst_add, Prod.smul_fst, smul_eq_mul]; field_simp
    · simp only [Prod.snd_add, Prod.smul_snd, smul_eq_mul]; field_simp

/-- The popped point lies in the triangle of `o`, the point below it and the new point. -/
theorem popped_mem (l : List (K × K)) (o p q r : K × K) (ho : o ∈ hull l) (hp : p ∈ hull l) (hr : r ∈ hull l)
    (h1 : After o p q) (h2 : After o q r) (h3 : cross p q r ≤ 0) : q ∈ hull l := by
  have hid : cross p q r = cross o p q + cross o q r - cross o p r := by simp only [cross]; ring
  rw [hid] at h3
  rcases lt_or_ge 0 (cross o p r) with hpos | hneg
  · have := comb3 l o p r ho hp hr (1 - cross o q r / cross o p r - cross o p q / cross o p r)
      (cross o q r / cross o p r) (cross o p q / cross o p r)
      (by
        have : cross o q r / cross o p r + cross o p q / cross o p r ≤ 1 := by
          rw [← add_div, div_le_one hpos]; linarith
        linarith) (div_nonneg h2.1 (le_of_lt hpos)) (div_nonneg h1.1 (le_of_lt hpos)) (by ring)
    have hne : cross o p r ≠ 0 := ne_of_gt hpos
    convert this using 1
    refine Prod.ext ?_ ?_
    · dsimp only
      field_simp
      simp only [cross]; ring
    · dsimp only
      field_simp
      simp only [cross]; ring
  · have h0 : cross o q r = 0 := by have := h1.1; have := h2.1; linarith
    obtain ⟨t, t0, t1, e⟩ := h2.2 h0
    have := comb3 l o o r ho ho hr 0 (1 - t) t (le_refl _) (by linarith) t0 (by ring)
    convert this using 1
    rw [e]
    refine Prod.ext ?_ ?_
    · simp only [lerp]; ring
    · simp only [lerp]; ring

/-- Exactness: near-collinear triples are collinear (integer points, for instance). -/
def Separated (eps : K) (pts : List (K × K)) : Prop :=
  ∀ p ∈ pts, ∀ q ∈ pts, ∀ r ∈ pts, |cross p q r| < eps → cross p q r = 0

theorem orientation_two (eps : K) (p q r : K × K) :
    orientation eps p q r = 2 ↔ eps ≤ |cross p q r| ∧ 0 ≤ cross p q r := by
  have e : (q.2 - p.2) * (r.1 - q.1) - (q.1 - p.1) * (r.2 - q.2) = - cross p q r := by simp only [cross]; ring
  rw [orientation]
  simp only [e, abs_neg]
  split
  · rename_i h; constructor
    · intro h'; simp at h'
    · rintro ⟨h', _⟩; exact absurd h (not_lt.mpr h')
  · rename_i h
    split
    · rename_i h2; constructor
      · intro h'; simp at h'
      · rintro ⟨_, h'⟩; linarith
    · rename_i h2; exact ⟨fun _ => ⟨not_lt.mp h, by linarith [not_lt.mp h2]⟩, fun _ => rfl⟩

theorem popped_cross (eps : K) (heps : 0 < eps) (pts : List (K × K)) (hs : Separated eps pts) (p q r : K × K) (hp : p ∈ pts)
    (hq : q ∈ pts) (hr : r ∈ pts) (h : orientation eps p q r ≠ 2) : cross p q r ≤ 0 := by
  rw [Ne, orientation_two, not_and_or] at h
  rcases h with h | h
  · exact le_of_eq (hs p hp q hq r hr (not_le.mp h))
  · exact le_of_lt (not_le.mp h)

/-- The `while` loop: what it keeps, and that the hull together with the new point does not shrink. -/
theorem popLoop_spec (eps : K) (heps : 0 < eps) (pts : List (K × K)) (hs : Separated eps pts) (o r : K × K) (hr : r ∈ pts) :
    ∀ st : List (K × K), st ≠ [] → st.getLast? = some o → (∀ p ∈ st, p ∈ pts) → st.Pairwise (fun a b => After o b a) →
    (∀ p ∈ st, After o p r) →
    (popLoop eps r st).Sublist st ∧ (popLoop eps r st) ≠ [] ∧ (popLoop eps r st).getLast? = some o ∧
    ∀ p ∈ st, p ∈ hull (r :: popLoop eps r st) := by
  intro st
  induction st with
  | nil => intro h; exact absurd rfl h
  | cons q st ih =>
    intro _ hl hp hord hr'
    cases st with
    | nil =>
      exact ⟨List.Sublist.refl _, by simp [popLoop], hl, fun p hp => mem_hull_of_mem _ _ (List.mem_cons_of_mem _ hp)⟩
    | cons p st =>
      rw [popLoop]
      by_cases h : orientation eps p q r ≠ 2
      · rw [if_pos h]
        obtain ⟨i1, i2, i3, i4⟩ := ih (by simp) (by rw [List.getLast?_cons_cons] at hl; exact hl)
          (fun x hx => hp x (List.mem_cons_of_mem _ hx)) (List.pairwise_cons.mp hord).2
          (fun x hx => hr' x (List.mem_cons_of_mem _ hx))
        refine ⟨i1.trans (List.sublist_cons_self _ _), i2, i3, fun x hx => ?_⟩
        rcases List.mem_cons.mp hx with hx | hx
        · subst hx
          have hc := popped_cross eps heps pts hs p x r (hp p (by simp)) (hp x (by simp)) hr h
          refine popped_mem _ o p x r ?_ (i4 p (by simp)) (mem_hull_of_mem _ _ (by simp))
            ((List.pairwise_cons.mp hord).1 p (by simp)) (hr' x (by simp)) hc
          exact i4 o (by rw [List.getLast?_cons_cons] at hl; exact List.mem_of_getLast? hl)
        · exact i4 x hx
      · rw [if_neg h]
        exact ⟨List.Sublist.refl _, by simp, hl, fun x hx => mem_hull_of_mem _ _ (List.mem_cons_of_mem _ hx)⟩

theorem scan_spec (eps : K) (heps : 0 < eps) (pts : List (K × K)) (hs : Separated eps pts) (o : K × K) :
    ∀ (l st : List (K × K)), st ≠ [] → st.getLast? = some o → (∀ p ∈ st, p ∈ pts) → (∀ p ∈ l, p ∈ pts) →
    st.Pairwise (fun a b => After o b a) → (∀ p ∈ st, ∀ r ∈ l, After o p r) → l.Pairwise (After o) →
    (∀ p ∈ scan eps st l, p ∈ st ∨ p ∈ l) ∧ (scan eps st l).getLast? = some o ∧
    (∀ p ∈ st, p ∈ hull (scan eps st l)) ∧ ∀ p ∈ l, p ∈ hull (scan eps st l) := by
  intro l
  induction l with
  | nil =>
    intro st _ hl _ _ _ _ _
    exact ⟨fun p hp => Or.inl hp, hl, fun p hp => mem_hull_of_mem _ _ hp, fun p hp => by simp at hp⟩
  | cons r l ih =>
    intro st hne hl hst hlp hord hafter hpair
    rw [scan]
    obtain ⟨s1, s2, s3, s4⟩ := popLoop_spec eps heps pts hs o r (hlp r (by simp)) st hne hl hst hord
      (fun p hp => hafter p hp r (by simp))
    have hsub : ∀ p ∈ popLoop eps r st, p ∈ st := fun p hp => s1.subset hp
    obtain ⟨j1, j2, j3, j4⟩ := ih (r :: popLoop eps r st) (by simp) (by
        obtain ⟨x, xs, e⟩ := List.exists_cons_of_ne_nil s2
        rw [e] at s3 ⊢
        rw [List.getLast?_cons_cons]; exact s3)
      (fun p hp => by
        rcases List.mem_cons.mp hp with h | h
        · rw [h]; exact hlp r (by simp)
        · exact hst p (hsub p h))
      (fun p hp => hlp p (List.mem_cons_of_mem _ hp))
      (List.pairwise_cons.mpr ⟨fun p hp => hafter p (hsub p hp) r (by simp), hord.sublist s1⟩)
      (fun p hp x hx => by
        rcases List.mem_cons.mp hp with h | h
        · rw [h]; exact (List.pairwise_cons.mp hpair).1 x hx
        · exact hafter p (hsub p h) x (List.mem_cons_of_mem _ hx))
      (List.pairwise_cons.mp hpair).2
    have hstep : ∀ p ∈ st, p ∈ hull (scan eps (r :: popLoop eps r st) l) := fun p hp =>
      hull_mono _ _ (fun x hx => j3 x hx) (s4 p hp)
    refine ⟨fun p hp => ?_, j2, hstep, fun p hp => ?_⟩
    · rcases j1 p hp with h | h
      · rcases List.mem_cons.mp h with h | h
        · right; rw [h]; simp
        · exact Or.inl (hsub p h)
      · exact Or.inr (List.mem_cons_of_mem _ h)
    · rcases List.mem_cons.mp hp with h | h
      · rw [h]; exact j3 r (by simp)
      · exact j4 p h

/-! ### Left turns -/

/-- Every three consecutive points turn left by at least `eps`. -/
def LeftTurns (eps : K) (l : List (K × K)) : Prop := ∀ i p q r, l[i]? = some p → l[i + 1]? = some q → l[i + 2]? = some r →
  0 ≤ cross p q r ∧ eps ≤ |cross p q r|

/-- The same for a stack with its top first. -/
def StackTurns (eps : K) (st : List (K × K)) : Prop := ∀ i p q r, st[i]? = some r → st[i + 1]? = some q → st[i + 2]? = some p →
  0 ≤ cross p q r ∧ eps ≤ |cross p q r|

theorem popLoop_turns (eps : K) (r : K × K) : ∀ st : List (K × K), StackTurns eps st → StackTurns eps (r :: popLoop eps r st) := by
  intro st
  induction st with
  | nil => intro _ i p q r _ h; simp [popLoop] at h
  | cons q st ih =>
    intro h
    cases st with
    | nil => intro i p q' r' _ _ h3; simp [popLoop] at h3
    | cons p st =>
      rw [popLoop]
      by_cases ho : orientation eps p q r ≠ 2
      · rw [if_pos ho]
        exact ih (fun i a b c h1 h2 h3 => h (i + 1) a b c (by simpa using h1) (by simpa using h2) (by simpa using h3))
      · rw [if_neg ho]
        intro i a b c h1 h2 h3
        cases i with
        | zero =>
          simp at h1 h2 h3
          subst h1 h2 h3
          exact ((orientation_two eps _ _ _).mp (not_not.mp ho)).symm
        | succ i => exact h i a b c (by simpa using h1) (by simpa using h2) (by simpa using h3)

theorem scan_turns (eps : K) : ∀ (l st : List (K × K)), StackTurns eps st → StackTurns eps (scan eps st l) := by
  intro l
  induction l with
  | nil => intro st h; exact h
  | cons r l ih => intro st h; exact ih _ (popLoop_turns eps r st h)

theorem turns_reverse (eps : K) (st : List (K × K)) (h : StackTurns eps st) : LeftTurns eps st.reverse := by
  intro i p q r h1 h2 h3
  have hi : i + 2 < st.length := by
    by_contra hc
    rw [List.getElem?_eq_none (by simp; omega)] at h3
    cases h3
  rw [List.getElem?_reverse (by omega)] at h1 h2 h3
  exact h (st.length - 1 - (i + 2)) p q r h3
    (by rw [show st.length - 1 - (i + 2) + 1 = st.length - 1 - (i + 1) by omega]; exact h2)
    (by rw [show st.length - 1 - (i + 2) + 2 = st.length - 1 - i by omega]; exact h1)

/-! ### The lowest point -/

theorem lower_iff (eps : K) (heps : 0 < eps) (a b : K × K) (h : |a.2 - b.2| < eps → a.2 = b.2) :
    lower eps a b = true ↔ a.2 < b.2 ∨ (a.2 = b.2 ∧ a.1 < b.1) := by
  rw [lower, decide_eq_true_iff]
  constructor
  · rintro (h1 | ⟨h1, h2⟩)
    · exact Or.inl h1
    · exact Or.inr ⟨h h1, h2⟩
  · rintro (h1 | ⟨h1, h2⟩)
    · exact Or.inl h1
    · exact Or.inr ⟨by rw [h1, sub_self, abs_zero]; exact heps, h2⟩

/-- Heights closer than `eps` are equal. -/
def SeparatedY (eps : K) (pts : List (K × K)) : Prop := ∀ p ∈ pts, ∀ q ∈ pts, |p.2 - q.2| < eps → p.2 = q.2

theorem lowest_spec (eps : K) (heps : 0 < eps) (p : K × K) (rest : List (K × K)) (hs : SeparatedY eps (p :: rest)) :
    lowest eps p rest < (p :: rest).length ∧ ∀ q ∈ p :: rest, Upper ((p :: rest).getD (lowest eps p rest) p) q := by
  have key : ∀ k, k ≤ rest.length → ∃ y, (List.range k).foldl (fun ymin i =>
      if lower eps ((p :: rest).getD (i + 1) p) ((p :: rest).getD ymin p) then i + 1 else ymin) 0 = y ∧ y ≤ k ∧
      ∀ j, j ≤ k → Upper ((p :: rest).getD y p) ((p :: rest).getD j p) := by
    intro k
    induction k with
    | zero =>
      intro _
      exact ⟨0, rfl, le_refl _, fun j hj => by
        obtain rfl : j = 0 := by omega
        exact Or.inr ⟨rfl, le_refl _⟩⟩
    | succ k ih =>
      intro hk
      obtain ⟨y, e, hy, hu⟩ := ih (by omega)
      have m1 : (p :: rest).getD (k + 1) p ∈ p :: rest := by
        rw [List.getD_eq_getElem _ _ (by simp; omega)]; exact List.getElem_mem _
      have m2 : (p :: rest).getD y p ∈ p :: rest := by
        rw [List.getD_eq_getElem _ _ (by simp; omega)]; exact List.getElem_mem _
      have hlow := lower_iff eps heps ((p :: rest).getD (k + 1) p) ((p :: rest).getD y p) (hs _ m1 _ m2)
      rw [List.range_succ, List.foldl_append, e]
      simp only [List.foldl_cons, List.foldl_nil]
      by_cases hl : lower eps ((p :: rest).getD (k + 1) p) ((p :: rest).getD y p) = true
      · rw [if_pos hl]
        refine ⟨k + 1, rfl, le_refl _, fun j hj => ?_⟩
        rcases Nat.lt_or_ge k j with h | h
        · obtain rfl : j = k + 1 := by omega
          exact Or.inr ⟨rfl, le_refl _⟩
        · have := hu j h
          rcases hlow.mp hl with a | ⟨a, b⟩
          · rcases this with c | ⟨c, d⟩
            · exact Or.inl (lt_trans a c)
            · exact Or.inl (by rw [c]; exact a)
          · rcases this with c | ⟨c, d⟩
            · exact Or.inl (by rw [a]; exact c)
            · exact Or.inr ⟨by rw [c, a], le_trans (le_of_lt b) d⟩
      · rw [if_neg hl]
        refine ⟨y, rfl, by omega, fun j hj => ?_⟩
        rcases Nat.lt_or_ge k j with h | h
        · obtain rfl : j = k + 1 := by omega
          rw [hlow, not_or, not_and] at hl
          rcases lt_or_eq_of_le (not_lt.mp hl.1) with a | a
          · exact Or.inl a
          · exact Or.inr ⟨a.symm, not_lt.mp (hl.2 a.symm)⟩
        · exact hu j h
  obtain ⟨y, e, hy, hu⟩ := key rest.length (le_refl _)
  rw [lowest, e]
  refine ⟨by simp; omega, fun q hq => ?_⟩
  obtain ⟨j, hj, rfl⟩ := List.getElem_of_mem hq
  have := hu j (by simp at hj; omega)
  rwa [List.getD_eq_getElem _ _ hj] at this

theorem set_perm (l : List (K × K)) (p : K × K) (k : Nat) (h : k < (p :: l).length) :
    ((p :: l).getD k p :: ((p :: l).set k p).drop 1).Perm (p :: l) := by
  cases k with
  | zero => simp
  | succ k =>
    have hk : k < l.length := by simpa using h
    rw [List.getD_cons_succ, List.set_cons_succ, List.drop_one, List.tail_cons, List.getD_eq_getElem _ _ hk]
    have := List.getElem_cons_eraseIdx_perm hk
    have h2 : (l.set k p).Perm (p :: l.eraseIdx k) := by
      rw [List.set_eq_take_append_cons_drop, if_pos hk, List.eraseIdx_eq_take_drop_succ]
      exact List.perm_middle
    calc (l[k] :: l.set k p).Perm (l[k] :: p :: l.eraseIdx k) := h2.cons _
      _ = l[k] :: p :: l.eraseIdx k := rfl
      List.Perm _ (p :: l[k] :: l.eraseIdx k) := List.Perm.swap _ _ _
      List.Perm _ (p :: l) := this.cons _

theorem polar_total (angle : K × K → K) (o a b : K × K) : polarLe angle o a b ∨ polarLe angle o b a := by
  rw [polarLe, polarLe]
  rcases lt_trichotomy (angle (a.1 - o.1, a.2 - o.2)) (angle (b.1 - o.1, b.2 - o.2)) with h | h | h
  · exact Or.inl (Or.inl h)
  · rcases le_total (distSq o a) (distSq o b) with h' | h'
    · exact Or.inl (Or.inr ⟨h, h'⟩)
    · exact Or.inr (Or.inr ⟨h.symm, h'⟩)
  · exact Or.inr (Or.inl h)

theorem polar_trans (angle : K × K → K) (o a b c : K × K) (h1 : polarLe angle o a b) (h2 : polarLe angle o b c) :
    polarLe angle o a c := by
  rw [polarLe] at *
  rcases h1 with h1 | ⟨h1, d1⟩ <;> rcases h2 with h2 | ⟨h2, d2⟩
  · exact Or.inl (lt_trans h1 h2)
  · exact Or.inl (by rw [← h2]; exact h1)
  · exact Or.inl (by rw [h1]; exact h2)
  · exact Or.inr ⟨h1.trans h2, le_trans d1 d2⟩

/-- **C24, chain.** Whatever the angles are, `convex_hull2d` returns input points only, and for at least three input points
every three consecutive points of the result turn left. -/
theorem C24_chain (eps : K) (angle : K × K → K) (points : List (K × K)) :
    (∀ p ∈ convexHull2d eps angle points, p ∈ points) ∧
    (3 ≤ points.length → LeftTurns eps (convexHull2d eps angle points)) := by
  rw [convexHull2d.eq_def]
  by_cases hlen : points.length < 3
  · rw [if_pos hlen]; exact ⟨fun p hp => hp, fun h => by omega⟩
  rw [if_neg hlen]
  cases points with
  | nil => simp at hlen
  | cons p rest =>
    dsimp only
    constructor
    · intro q hq
      rw [List.mem_reverse] at hq
      have hmem : ∀ (l st : List (K × K)) (q : K × K), q ∈ scan eps st l → q ∈ st ∨ q ∈ l := by
        intro l
        induction l with
        | nil => intro st q h; exact Or.inl h
        | cons r l ih =>
          intro st q h
          rw [scan] at h
          have hpop : ∀ st : List (K × K), ∀ q ∈ popLoop eps r st, q ∈ st := by
            intro st
            induction st with
            | nil => intro q h; simp [popLoop] at h
            | cons a st ih =>
              intro q h
              cases st with
              | nil => simpa [popLoop] using h
              | cons b st =>
                rw [popLoop] at h
                split at h
                · exact List.mem_cons_of_mem _ (ih q h)
                · exact h
          rcases ih _ q h with h | h
          · rcases List.mem_cons.mp h with h | h
            · right; rw [h]; simp
            · exact Or.inl (hpop st q h)
          · exact Or.inr (List.mem_cons_of_mem _ h)
      have hget : ∀ k, (p :: rest).getD k p ∈ p :: rest := by
        intro k
        rcases Nat.lt_or_ge k (p :: rest).length with h | h
        · rw [List.getD_eq_getElem _ _ h]; exact List.getElem_mem _
        · rw [List.getD_eq_default _ _ h]; simp
      rcases hmem _ _ q hq with h | h
      · rw [List.mem_singleton] at h
        rw [h]; exact hget _
      · rw [List.mem_insertionSort] at h
        have h2 := List.mem_of_mem_drop h
        rcases List.mem_or_eq_of_mem_set h2 with h3 | h3
        · exact h3
        · rw [h3]; simp
    · intro _
      exact turns_reverse eps _ (scan_turns eps _ _ (fun i a b c _ h => by simp at h))

/-- **C24, enclosure, partial.** If near-collinear triples of input points (within `eps`) are exactly collinear and nearly
equal heights are equal — for instance for integer coordinates and `eps = 1e-9` — the returned chain has the same convex hull
as the input, so no input point is left outside. Missing: other inputs, for which it is false (below). -/
theorem C24_hull_partial (eps : K) (heps : 0 < eps) (angle : K × K → K) (ha : IsAngle angle) (points : List (K × K))
    (hs : Separated eps points) (hy : SeparatedY eps points) :
    hull (convexHull2d eps angle points) = hull points := by
  have hsubset := (C24_chain eps angle points).1
  apply Set.Subset.antisymm
  · exact hull_mono _ _ (fun p hp => mem_hull_of_mem _ _ (hsubset p hp))
  apply hull_mono
  rw [convexHull2d.eq_def]
  by_cases hlen : points.length < 3
  · rw [if_pos hlen]; exact fun p hp => mem_hull_of_mem _ _ hp
  rw [if_neg hlen]
  cases points with
  | nil => simp at hlen
  | cons p rest =>
    dsimp only
    obtain ⟨hk, hup⟩ := lowest_spec eps heps p rest hy
    obtain ⟨k, hkd⟩ : ∃ k, lowest eps p rest = k := ⟨_, rfl⟩
    rw [hkd] at hk hup ⊢
    have hperm := set_perm rest p k hk
    obtain ⟨o, ho⟩ : ∃ o, (p :: rest).getD k p = o := ⟨_, rfl⟩
    obtain ⟨others, hot⟩ : ∃ m, ((p :: rest).set k p).drop 1 = m := ⟨_, rfl⟩
    rw [ho, hot] at hperm
    rw [ho] at hup ⊢
    rw [hot]
    obtain ⟨S, hS⟩ : ∃ S, others.insertionSort (polarLe angle o) = S := ⟨_, rfl⟩
    have hSp : S.Perm others := by rw [← hS]; exact List.perm_insertionSort _ _
    haveI : Std.Total (polarLe angle o) := ⟨polar_total angle o⟩
    haveI : IsTrans (K × K) (polarLe angle o) := ⟨polar_trans angle o⟩
    have hsorted : S.Pairwise (polarLe angle o) := by rw [← hS]; exact List.pairwise_insertionSort _ _
    have hmem : ∀ q ∈ S, q ∈ p :: rest := fun q hq => hperm.subset (List.mem_cons_of_mem _ (hSp.subset hq))
    have hafter : S.Pairwise (After o) := by
      refine List.Pairwise.imp_of_mem ?_ hsorted
      intro a b hma hmb h
      exact after_of_polar angle ha o a b (hup a (hmem a hma)) (hup b (hmem b hmb)) h
    have hself : ∀ r, After o o r := fun r => ⟨by simp [cross], fun _ => ⟨0, le_refl _, zero_le_one, by simp [lerp]⟩⟩
    obtain ⟨_, _, g3, g4⟩ := scan_spec eps heps (p :: rest) hs o S [o] (by simp) rfl
      (fun q hq => by rw [List.mem_singleton] at hq; rw [hq]; exact hperm.subset (by simp)) hmem (List.pairwise_singleton _ _)
      (fun q hq r _ => by rw [List.mem_singleton] at hq; rw [hq]; exact hself r) hafter
    intro q hq
    rw [hS]
    have hrev : hull (scan eps [o] S).reverse = hull (scan eps [o] S) := by
      simp only [hull, List.mem_reverse]
    rw [hrev]
    rcases List.mem_cons.mp (hperm.symm.subset hq) with h | h
    · rw [h]; exact g3 o (by simp)
    · exact g4 q (hSp.symm.subset h)


/-! ### Strict convexity -/

/-- Every three points of a stack (top first) turn strictly left. -/
def Conv : List (K × K) → Prop
  | [] => True
  | r :: st => st.Pairwise (fun q p => 0 < cross p q r) ∧ Conv st

theorem conv_tail (q : K × K) (st : List (K × K)) (h : Conv (q :: st)) : Conv st := h.2

theorem conv_base (o : K × K) : ∀ n : List (K × K), Conv (n ++ [o]) → n.Pairwise (fun b a => 0 < cross o a b) := by
  intro n
  induction n with
  | nil => intro _; exact List.Pairwise.nil
  | cons b n ih =>
    intro h
    refine List.pairwise_cons.mpr ⟨fun a ha => ?_, ih h.2⟩
    exact (List.pairwise_append.mp h.1).2.2 a ha o (by simp)

theorem strict_of_after (o b q r : K × K) (h1 : 0 < cross o b q) (h2 : 0 < cross o q r) (h : After o b r) : 0 < cross o b r := by
  rcases eq_or_lt_of_le h.1 with h0 | h0
  · exfalso
    obtain ⟨t, t0, _, e⟩ := h.2 h0.symm
    have : cross o b q = - (t * cross o q r) := by rw [e]; simp only [cross, lerp]; ring
    have := mul_nonneg t0 (le_of_lt h2)
    linarith
  · exact h0

theorem conv_push (o r : K × K) (q : K × K) (n : List (K × K)) (hc : Conv (q :: (n ++ [o])))
    (hr : ∀ p ∈ q :: (n ++ [o]), After o p r) (htop : ∀ p, (n ++ [o]).head? = some p → 0 < cross p q r) :
    Conv (r :: q :: (n ++ [o])) := by
  refine ⟨?_, hc⟩
  -- the new point is strictly after the top
  have hA : 0 < cross o q r := by
    rcases eq_or_lt_of_le (hr q (by simp)).1 with h0 | h0
    · exfalso
      obtain ⟨t, t0, t1, e⟩ := (hr q (by simp)).2 h0.symm
      obtain ⟨p, hp⟩ : ∃ p, (n ++ [o]).head? = some p := by cases n <;> simp
      have hlt := htop p hp
      have hpm : p ∈ q :: (n ++ [o]) := List.mem_cons_of_mem _ (List.mem_of_mem_head? hp)
      have : cross p q r = - ((1 - t) * cross o p r) := by rw [e]; simp only [cross, lerp]; ring
      have := mul_nonneg (sub_nonneg.mpr t1) (hr p hpm).1
      linarith
    · exact h0
  have hq := List.pairwise_append.mp hc.1
  have hoq : ∀ b ∈ n, 0 < cross o b q := fun b hb => hq.2.2 b hb o (by simp)
  have hB : ∀ b ∈ n, 0 < cross o b r := fun b hb => strict_of_after o b q r (hoq b hb) hA (hr b (by simp [hb]))
  have hbase := conv_base o n hc.2
  have hC : ∀ a ∈ n, 0 < cross a q r := by
    intro a ha
    cases n with
    | nil => simp at ha
    | cons p n =>
      have hp : 0 < cross p q r := htop p (by simp)
      rcases List.mem_cons.mp ha with h | h
      · rw [h]; exact hp
      · have h1 : 0 < cross a p q := (List.pairwise_cons.mp hq.1).1 a h
        have h2 : 0 < cross o a q := hoq a (by simp [h])
        have h3 : 0 < cross o p q := hoq p (by simp)
        have hid : cross a q r * cross o p q = cross o a q * cross p q r + cross a p q * cross o q r := by
          simp only [cross]; ring
        by_contra hn
        have := mul_nonneg_of_nonpos_of_nonpos (not_lt.mp hn) (neg_nonpos.mpr (le_of_lt h3))
        have := mul_pos h2 hp
        have := mul_pos h1 hA
        linarith
  refine List.pairwise_cons.mpr ⟨fun a ha => ?_, ?_⟩
  · rcases List.mem_append.mp ha with h | h
    · exact hC a h
    · rw [List.mem_singleton] at h; rw [h]; exact hA
  · refine List.pairwise_append.mpr ⟨?_, List.pairwise_singleton _ _, fun b hb a ha => ?_⟩
    · refine List.Pairwise.imp_of_mem ?_ (hq.1.and hbase)
      rintro b a hb ha ⟨h1, h2⟩
      have h3 := hC b hb
      have h4 := hoq b hb
      have h5 := hB b hb
      have hid : cross a b r * cross o b q = cross o a b * cross b q r + cross a b q * cross o b r := by
        simp only [cross]; ring
      by_contra hn
      have := mul_nonneg_of_nonpos_of_nonpos (not_lt.mp hn) (neg_nonpos.mpr (le_of_lt h4))
      have := mul_pos h2 h3
      have := mul_pos h1 h5
      linarith
    · rw [List.mem_singleton] at ha; rw [ha]; exact hB b hb

theorem conv_popLoop (eps : K) (heps : 0 < eps) (o r : K × K) : ∀ n : List (K × K), Conv (n ++ [o]) →
    (∀ p ∈ n ++ [o], After o p r) → Conv (r :: popLoop eps r (n ++ [o])) := by
  intro n
  induction n with
  | nil => intro _ _; exact ⟨by simp [popLoop], by simp [popLoop, Conv]⟩
  | cons q n ih =>
    intro hc hr
    obtain ⟨p, t, e⟩ : ∃ p t, n ++ [o] = p :: t := by cases n <;> simp
    rw [List.cons_append, e, popLoop]
    by_cases h : orientation eps p q r ≠ 2
    · rw [if_pos h, ← e]
      exact ih hc.2 (fun x hx => hr x (List.mem_cons_of_mem _ hx))
    · rw [if_neg h, ← e]
      refine conv_push o r q n hc hr (fun x hx => ?_)
      rw [e, List.head?_cons, Option.some_inj] at hx
      subst hx
      obtain ⟨h1, h2⟩ := (orientation_two eps _ _ _).mp (not_not.mp h)
      rw [abs_of_nonneg h2] at h1
      exact lt_of_lt_of_le heps h1

theorem popLoop_keeps (eps : K) (r o : K × K) : ∀ n : List (K × K), ∃ m, popLoop eps r (n ++ [o]) = m ++ [o] ∧ ∀ p ∈ m, p ∈ n := by
  intro n
  induction n with
  | nil => exact ⟨[], by simp [popLoop], by simp⟩
  | cons q n ih =>
    obtain ⟨p, t, e⟩ : ∃ p t, n ++ [o] = p :: t := by cases n <;> simp
    rw [List.cons_append, e, popLoop]
    by_cases h : orientation eps p q r ≠ 2
    · rw [if_pos h, ← e]
      obtain ⟨m, e1, e2⟩ := ih
      exact ⟨m, e1, fun x hx => List.mem_cons_of_mem _ (e2 x hx)⟩
    · rw [if_neg h, ← e]
      exact ⟨q :: n, rfl, fun x hx => hx⟩

theorem conv_scan (eps : K) (heps : 0 < eps) (o : K × K) : ∀ (l n : List (K × K)), Conv (n ++ [o]) →
    (∀ p ∈ n ++ [o], ∀ r ∈ l, After o p r) → l.Pairwise (After o) →
    Conv (scan eps (n ++ [o]) l) ∧ ∃ m, scan eps (n ++ [o]) l = m ++ [o] := by
  intro l
  induction l with
  | nil => intro n hc _ _; exact ⟨hc, n, rfl⟩
  | cons r l ih =>
    intro n hc hr hl
    rw [scan]
    have h1 := conv_popLoop eps heps o r n hc (fun p hp => hr p hp r (by simp))
    obtain ⟨m, e1, e2⟩ := popLoop_keeps eps r o n
    rw [e1] at h1 ⊢
    rw [show r :: (m ++ [o]) = (r :: m) ++ [o] from rfl] at h1 ⊢
    refine ih (r :: m) h1 (fun p hp x hx => ?_) (List.pairwise_cons.mp hl).2
    rw [List.cons_append] at hp
    rcases List.mem_cons.mp hp with h | h
    · rw [h]; exact (List.pairwise_cons.mp hl).1 x hx
    · refine hr p ?_ x (List.mem_cons_of_mem _ hx)
      rcases List.mem_append.mp h with h | h
      · exact List.mem_append_left _ (e2 p h)
      · exact List.mem_append_right _ h

theorem conv_get : ∀ st : List (K × K), Conv st → ∀ (i j k : Nat) (p q r : K × K), i < j → j < k → st[i]? = some r →
    st[j]? = some q → st[k]? = some p → 0 < cross p q r := by
  intro st
  induction st with
  | nil => intro _ i j k p q r _ _ h; simp at h
  | cons x st ih =>
    intro hc i j k p q r hij hjk hi hj hk
    obtain ⟨j, rfl⟩ : ∃ j', j = j' + 1 := ⟨j - 1, by omega⟩
    obtain ⟨k, rfl⟩ : ∃ k', k = k' + 1 := ⟨k - 1, by omega⟩
    rw [List.getElem?_cons_succ] at hj hk
    cases i with
    | zero =>
      rw [List.getElem?_cons_zero, Option.some_inj] at hi
      subst hi
      obtain ⟨hj1, rfl⟩ := List.getElem?_eq_some_iff.mp hj
      obtain ⟨hk1, rfl⟩ := List.getElem?_eq_some_iff.mp hk
      exact List.pairwise_iff_getElem.mp hc.1 j k hj1 hk1 (by omega)
    | succ i =>
      rw [List.getElem?_cons_succ] at hi
      exact ih hc.2 i j k p q r (by omega) (by omega) hi hj hk

/-- **C24, shape.** For at least three points whose nearly equal heights are equal, the result is a strictly convex
counter-clockwise polygon: any three of its points, taken in order, turn left. It starts at the lowest point, leftmost among
those. -/
theorem C24_convex (eps : K) (heps : 0 < eps) (angle : K × K → K) (ha : IsAngle angle) (points : List (K × K))
    (hlen : 3 ≤ points.length) (hy : SeparatedY eps points) :
    (∀ (i j k : Nat) (p q r : K × K), i < j → j < k → (convexHull2d eps angle points)[i]? = some p →
      (convexHull2d eps angle points)[j]? = some q → (convexHull2d eps angle points)[k]? = some r → 0 < cross p q r) ∧
    ∃ o, (convexHull2d eps angle points).head? = some o ∧ ∀ q ∈ points, o.2 < q.2 ∨ (q.2 = o.2 ∧ o.1 ≤ q.1) := by
  rw [convexHull2d.eq_def]
  rw [if_neg (by omega)]
  cases points with
  | nil => simp at hlen
  | cons p rest =>
    dsimp only
    obtain ⟨hk, hup⟩ := lowest_spec eps heps p rest hy
    obtain ⟨k, hkd⟩ : ∃ k, lowest eps p rest = k := ⟨_, rfl⟩
    rw [hkd] at hk hup ⊢
    have hperm := set_perm rest p k hk
    obtain ⟨o, ho⟩ : ∃ o, (p :: rest).getD k p = o := ⟨_, rfl⟩
    obtain ⟨others, hot⟩ : ∃ m, ((p :: rest).set k p).drop 1 = m := ⟨_, rfl⟩
    rw [ho, hot] at hperm
    rw [ho] at hup ⊢
    rw [hot]
    obtain ⟨S, hS⟩ : ∃ S, others.insertionSort (polarLe angle o) = S := ⟨_, rfl⟩
    have hSp : S.Perm others := by rw [← hS]; exact List.perm_insertionSort _ _
    haveI : Std.Total (polarLe angle o) := ⟨polar_total angle o⟩
    haveI : IsTrans (K × K) (polarLe angle o) := ⟨polar_trans angle o⟩
    have hsorted : S.Pairwise (polarLe angle o) := by rw [← hS]; exact List.pairwise_insertionSort _ _
    have hmem : ∀ q ∈ S, q ∈ p :: rest := fun q hq => hperm.subset (List.mem_cons_of_mem _ (hSp.subset hq))
    have hafter : S.Pairwise (After o) := by
      refine List.Pairwise.imp_of_mem ?_ hsorted
      intro a b hma hmb h
      exact after_of_polar angle ha o a b (hup a (hmem a hma)) (hup b (hmem b hmb)) h
    have hself : ∀ r, After o o r := fun r => ⟨by simp [cross], fun _ => ⟨0, le_refl _, zero_le_one, by simp [lerp]⟩⟩
    have hsc := conv_scan eps heps o S [] (by simp [Conv]) (fun q hq r _ => by
      rw [List.nil_append, List.mem_singleton] at hq; rw [hq]; exact hself r) hafter
    rw [List.nil_append] at hsc
    rw [hS]
    obtain ⟨hconv, m, hm⟩ := hsc
    constructor
    · intro i j k' a b c hij hjk hi hj hk'
      have hlt : k' < (scan eps [o] S).length := by
        have := (List.getElem?_eq_some_iff.mp hk').1
        simpa using this
      rw [List.getElem?_reverse (by omega)] at hi hj hk'
      exact conv_get _ hconv _ _ _ a b c (by omega) (by omega) hk' hj hi
    · refine ⟨o, ?_, hup⟩
      rw [hm, List.reverse_append]
      simp

/-- A polar angle without transcendental functions, for examples over any ordered field. -/
def diamond (u : K × K) : K := if u = 0 then 0 else 1 - u.1 / (|u.1| + |u.2|)

theorem diamond_isAngle : IsAngle (diamond : K × K → K) := by
  have hpos : ∀ u : K × K, u ≠ 0 → (0 < u.2 ∨ (u.2 = 0 ∧ 0 ≤ u.1)) → 0 < |u.1| + u.2 ∧ |u.2| = u.2 ∧ (u.2 = 0 → 0 < u.1) := by
    intro u hu h
    rcases h with h | ⟨h, h'⟩
    · exact ⟨by have := abs_nonneg u.1; linarith, abs_of_pos h, fun h0 => absurd h0 (ne_of_gt h)⟩
    · have : 0 < u.1 := lt_of_le_of_ne h' (fun e => hu (Prod.ext e.symm h))
      exact ⟨by rw [h, abs_of_pos this]; linarith, by rw [h, abs_zero], fun _ => this⟩
  constructor
  · intro u w hu hw uu uw
    obtain ⟨pu, eu, zu⟩ := hpos u hu uu
    obtain ⟨pw, ew, zw⟩ := hpos w hw uw
    have nu : 0 ≤ u.2 := by rcases uu with h | ⟨h, _⟩ <;> linarith
    have nw : 0 ≤ w.2 := by rcases uw with h | ⟨h, _⟩ <;> linarith
    rw [diamond, diamond, if_neg hu, if_neg hw, eu, ew, sub_lt_sub_iff_left, div_lt_div_iff₀ pw pu]
    rcases le_total 0 u.1 with s | s <;> rcases le_total 0 w.1 with s' | s'
    · rw [abs_of_nonneg s, abs_of_nonneg s']
      constructor <;> intro h <;> linarith [mul_comm u.1 w.1]
    · rw [abs_of_nonneg s, abs_of_nonpos s']
      constructor
      · intro h
        rcases eq_or_lt_of_le nw with e | e
        · exact absurd (zw e.symm) (not_lt.mpr s')
        rcases eq_or_lt_of_le s with e1 | e1
        · rcases eq_or_lt_of_le s' with e2 | e2
          · rw [← e1, e2] at h; simp at h
          · have : 0 < u.2 := by
              rcases eq_or_lt_of_le nu with e3 | e3
              · exact absurd (zu e3.symm) (by rw [← e1]; exact lt_irrefl _)
              · exact e3
            have := mul_pos this (neg_pos.mpr e2)
            have := mul_nonneg s nw
            linarith
        · have := mul_pos e1 e
          have := mul_nonneg nu (neg_nonneg.mpr s')
          linarith
      · intro h
        have h1 := mul_nonneg s (neg_nonneg.mpr s')
        have h2 : 0 < u.1 * w.2 - u.2 * w.1 := h
        nlinarith
    · rw [abs_of_nonpos s, abs_of_nonneg s']
      constructor
      · intro h
        nlinarith [mul_nonneg (neg_nonneg.mpr s) s']
      · intro h
        exfalso
        nlinarith [mul_nonneg (neg_nonneg.mpr s) nw, mul_nonneg nu s']
    · rw [abs_of_nonpos s, abs_of_nonpos s']
      constructor <;> intro h <;> linarith [mul_comm u.1 w.1]
  · intro w hw
    rw [diamond, if_pos rfl, diamond]
    split
    · exact le_refl _
    · rename_i h
      obtain ⟨pw, ew, _⟩ := hpos w h hw
      rw [ew, sub_nonneg, div_le_one pw]
      have nw : 0 ≤ w.2 := by rcases hw with h | ⟨h, _⟩ <;> linarith
      linarith [le_abs_self w.1]

/-- Integer points satisfy both separation hypotheses for any `eps ≤ 1`. -/
theorem separated_of_int (eps : K) (heps : eps ≤ 1) (pts : List (ℤ × ℤ)) :
    Separated eps (pts.map fun p => ((p.1 : K), (p.2 : K))) ∧ SeparatedY eps (pts.map fun p => ((p.1 : K), (p.2 : K))) := by
  have small : ∀ z : ℤ, |(z : K)| < eps → z = 0 := by
    intro z h
    rw [← Int.cast_abs] at h
    have : ((|z| : ℤ) : K) < ((1 : ℤ) : K) := by rw [Int.cast_one]; exact lt_of_lt_of_le h heps
    rw [Int.cast_lt] at this
    exact Int.abs_lt_one_iff.mp this
  constructor
  · intro p hp q hq r hr h
    obtain ⟨p, _, rfl⟩ := List.mem_map.mp hp
    obtain ⟨q, _, rfl⟩ := List.mem_map.mp hq
    obtain ⟨r, _, rfl⟩ := List.mem_map.mp hr
    have e : cross ((p.1 : K), (p.2 : K)) ((q.1 : K), (q.2 : K)) ((r.1 : K), (r.2 : K)) =
        (((q.1 - p.1) * (r.2 - p.2) - (q.2 - p.2) * (r.1 - p.1) : ℤ) : K) := by
      simp only [cross]; push_cast; ring
    rw [e] at h ⊢
    rw [small _ h, Int.cast_zero]
  · intro p hp q hq h
    obtain ⟨p, _, rfl⟩ := List.mem_map.mp hp
    obtain ⟨q, _, rfl⟩ := List.mem_map.mp hq
    dsimp only at h ⊢
    rw [← Int.cast_sub] at h
    rw [sub_eq_zero.mp (small _ h)]

end ordered

/-- The angle the code uses: `arctan2(dy, dx)` over the reals. -/
noncomputable def arctan2 (u : ℝ × ℝ) : ℝ := Complex.arg ⟨u.1, u.2⟩

/-- It satisfies the specification, so the theorems apply to the code's own angle. -/
theorem arctan2_isAngle : IsAngle arctan2 := by
  have range : ∀ u : ℝ × ℝ, u ≠ 0 → (0 < u.2 ∨ (u.2 = 0 ∧ 0 ≤ u.1)) → 0 ≤ arctan2 u ∧ arctan2 u < Real.pi := by
    intro u hu h
    refine ⟨Complex.arg_nonneg_iff.mpr (by rcases h with h | ⟨h, _⟩ <;> simp <;> linarith), ?_⟩
    rw [arctan2, Complex.arg_lt_pi_iff]
    rcases h with h | ⟨_, h⟩
    · exact Or.inr (ne_of_gt h)
    · exact Or.inl h
  have hne : ∀ u : ℝ × ℝ, u ≠ 0 → (⟨u.1, u.2⟩ : ℂ) ≠ 0 := by
    intro u hu e
    rw [Complex.ext_iff] at e
    exact hu (Prod.ext e.1 e.2)
  constructor
  · intro u w hu hw uu uw
    obtain ⟨a1, a2⟩ := range u hu uu
    obtain ⟨b1, b2⟩ := range w hw uw
    have nu := norm_pos_iff.mpr (hne u hu)
    have nw := norm_pos_iff.mpr (hne w hw)
    have hs : Real.sin (arctan2 w - arctan2 u) * (‖(⟨u.1, u.2⟩ : ℂ)‖ * ‖(⟨w.1, w.2⟩ : ℂ)‖) = u.1 * w.2 - u.2 * w.1 := by
      rw [Real.sin_sub, arctan2, arctan2, Complex.sin_arg, Complex.sin_arg, Complex.cos_arg (hne u hu), Complex.cos_arg (hne w hw)]
      field_simp
    rw [← hs]
    constructor
    · intro h
      exact mul_pos (Real.sin_pos_of_pos_of_lt_pi (by linarith) (by linarith)) (mul_pos nu nw)
    · intro h
      by_contra hn
      have : Real.sin (arctan2 w - arctan2 u) ≤ 0 := by
        rw [← neg_nonneg, ← Real.sin_neg]
        exact Real.sin_nonneg_of_nonneg_of_le_pi (by linarith) (by linarith)
      exact absurd h (not_lt.mpr (mul_nonpos_of_nonpos_of_nonneg this (le_of_lt (mul_pos nu nw))))
  · intro w hw
    have : arctan2 0 = 0 := by
      have : (⟨(0 : ℝ × ℝ).1, (0 : ℝ × ℝ).2⟩ : ℂ) = 0 := rfl
      rw [arctan2, this, Complex.arg_zero]
    rw [this]
    exact Complex.arg_nonneg_iff.mpr (by rcases hw with h | ⟨h, _⟩ <;> simp <;> linarith)

/-- Eight integer points with repeats and collinear ones: the hull is the four corners. -/
example : convexHull2d (1/1000000000 : ℚ) diamond [(1,1),(2,0),(0,0),(2,2),(1,0),(0,2),(0,1),(2,0)] =
    [(0,0),(2,0),(2,2),(0,2)] := by decide +kernel

example : Separated (1/1000000000 : ℚ) [(1,1),(2,0),(0,0),(2,2)] := by
  have := (separated_of_int (1/1000000000 : ℚ) (by norm_num) [(1,1),(2,0),(0,0),(2,2)]).1
  simpa using this

/-- **C24, refuted for small polygons.** The orientation tolerance is absolute, so a triangle with sides of 1e-5 loses a
corner: the result does not enclose the input. -/
theorem C24_encloses_refuted : ∃ points : List (ℚ × ℚ), ∃ q ∈ points,
    q ∉ hull (convexHull2d (1/1000000000) diamond points) := by
  refine ⟨[(0,0), (1/100000,0), (0,1/100000)], (1/100000,0), by simp, ?_⟩
  have e : convexHull2d (1/1000000000 : ℚ) diamond [(0,0), (1/100000,0), (0,1/100000)] = [(0,0), (0,1/100000)] := by decide +kernel
  rw [e]
  intro h
  have hconv : Convex ℚ {p : ℚ × ℚ | p.1 = 0} := by
    intro a ha b hb s t _ _ _
    simp only [Set.mem_setOf_eq] at *
    simp [ha, hb]
  have := convexHull_min (s := {p : ℚ × ℚ | p ∈ [((0:ℚ),(0:ℚ)), (0,1/100000)]}) (by
    intro p hp
    simp only [List.mem_cons, List.not_mem_nil, or_false, Set.mem_setOf_eq] at hp
    rcases hp with rfl | rfl <;> rfl) hconv h
  simp at this

end Verif.Poly
