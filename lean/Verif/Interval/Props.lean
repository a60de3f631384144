import Verif.Interval.Model
import Mathlib.Algebra.Order.Field.Rat
import Mathlib.Tactic.Linarith
import Mathlib.Tactic.Ring
import Mathlib.Tactic.NormNum
import Mathlib.Tactic.FieldSimp
import Mathlib.Tactic.Positivity
import Mathlib.Algebra.Order.Ring.Pow
import Mathlib.Algebra.Ring.Parity

/-! # C15, C16, C53: intervals -/

namespace Verif.Interval
variable {K : Type} [Field K] [LinearOrder K] [IsStrictOrderedRing K]

/-- Specification: the points of an interval. -/
def Pts (a : Interval K) : Set K := {x | a.low ≤ x ∧ x ≤ a.upp}

theorem minOf4 (a b c d : K) : minOf a [b, c, d] = min (min (min a b) c) d := rfl
theorem maxOf4 (a b c d : K) : maxOf a [b, c, d] = max (max (max a b) c) d := rfl

/-- **C15 (addition).** The sum interval encloses all sums and its ends are attained. -/
theorem C15_add (a b : Interval K) (x y : K) (hx : x ∈ Pts a) (hy : y ∈ Pts b) :
    x + y ∈ Pts (add a b) ∧ x + y ∈ Pts (addScalar a y) ∧ (add a b).low = a.low + b.low ∧ (add a b).upp = a.upp + b.upp := by
  refine ⟨⟨add_le_add hx.1 hy.1, add_le_add hx.2 hy.2⟩, ⟨?_, ?_⟩, rfl, rfl⟩
  · exact (add_le_add_iff_right y).2 hx.1
  · exact (add_le_add_iff_right y).2 hx.2

example : (3 : ℚ) ∈ Pts ⟨1, 4⟩ ∧ (-1 : ℚ) ∈ Pts ⟨-2, 5⟩ := by unfold Pts; norm_num

/-- A product of a point of an interval with a fixed number lies between the products of the ends. -/
theorem mul_between (l u x y : K) (h1 : l ≤ x) (h2 : x ≤ u) : min (l * y) (u * y) ≤ x * y ∧ x * y ≤ max (l * y) (u * y) := by
  rcases le_total 0 y with hy | hy
  · exact ⟨(min_le_left _ _).trans (mul_le_mul_of_nonneg_right h1 hy),
      (mul_le_mul_of_nonneg_right h2 hy).trans (le_max_right _ _)⟩
  · exact ⟨(min_le_right _ _).trans (mul_le_mul_of_nonpos_right h2 hy),
      (mul_le_mul_of_nonpos_right h1 hy).trans (le_max_left _ _)⟩

theorem mul_encloses (a b : Interval K) (x y : K) (hx : x ∈ Pts a) (hy : y ∈ Pts b) : x * y ∈ Pts (mul a b) := by
  obtain ⟨h1, h2⟩ := mul_between a.low a.upp x y hx.1 hx.2
  obtain ⟨h3, h4⟩ := mul_between b.low b.upp y a.low hy.1 hy.2
  obtain ⟨h5, h6⟩ := mul_between b.low b.upp y a.upp hy.1 hy.2
  simp only [mul_comm y, mul_comm b.low, mul_comm b.upp] at h3 h4 h5 h6
  constructor
  · simp only [mul, minOf4]
    refine le_trans ?_ h1
    refine le_min (le_trans ?_ h3) (le_trans ?_ h5)
    · exact (min_le_left _ _).trans (min_le_left _ _)
    · exact le_min ((min_le_left _ _).trans (min_le_right _ _)) (min_le_right _ _)
  · simp only [mul, maxOf4]
    refine le_trans h2 ?_
    refine max_le (le_trans h4 ?_) (le_trans h6 ?_)
    · exact (le_max_left _ _).trans (le_max_left _ _)
    · exact max_le ((le_max_right _ _).trans (le_max_left _ _)) (le_max_right _ _)

/-- **C15 (multiplication).** The product interval encloses all products, and both its ends are products of points, so
it is the smallest enclosure. -/
theorem C15_mul (a b : Interval K) (ha : a.low ≤ a.upp) (hb : b.low ≤ b.upp) :
    (∀ x ∈ Pts a, ∀ y ∈ Pts b, x * y ∈ Pts (mul a b)) ∧
    (∃ x ∈ Pts a, ∃ y ∈ Pts b, x * y = (mul a b).low) ∧ (∃ x ∈ Pts a, ∃ y ∈ Pts b, x * y = (mul a b).upp) := by
  refine ⟨fun x hx y hy => mul_encloses a b x y hx hy, ?_, ?_⟩
  · have : ∃ x ∈ ({a.low, a.upp} : Set K), ∃ y ∈ ({b.low, b.upp} : Set K), x * y = (mul a b).low := by
      simp only [mul, minOf4, Set.mem_insert_iff, Set.mem_singleton_iff, exists_eq_or_imp, exists_eq_left]
      rcases min_choice (min (min (a.low * b.low) (a.low * b.upp)) (a.upp * b.low)) (a.upp * b.upp) with h | h <;> rw [h]
      · rcases min_choice (min (a.low * b.low) (a.low * b.upp)) (a.upp * b.low) with h | h <;> rw [h]
        · rcases min_choice (a.low * b.low) (a.low * b.upp) with h | h <;> rw [h] <;> tauto
        · tauto
      · tauto
    obtain ⟨x, hx, y, hy, e⟩ := this
    refine ⟨x, ?_, y, ?_, e⟩
    · rcases hx with rfl | rfl
      · exact ⟨le_rfl, ha⟩
      · exact ⟨ha, le_rfl⟩
    · rcases hy with rfl | rfl
      · exact ⟨le_rfl, hb⟩
      · exact ⟨hb, le_rfl⟩
  · have : ∃ x ∈ ({a.low, a.upp} : Set K), ∃ y ∈ ({b.low, b.upp} : Set K), x * y = (mul a b).upp := by
      simp only [mul, maxOf4, Set.mem_insert_iff, Set.mem_singleton_iff, exists_eq_or_imp, exists_eq_left]
      rcases max_choice (max (max (a.low * b.low) (a.low * b.upp)) (a.upp * b.low)) (a.upp * b.upp) with h | h <;> rw [h]
      · rcases max_choice (max (a.low * b.low) (a.low * b.upp)) (a.upp * b.low) with h | h <;> rw [h]
        · rcases max_choice (a.low * b.low) (a.low * b.upp) with h | h <;> rw [h] <;> tauto
        · tauto
      · tauto
    obtain ⟨x, hx, y, hy, e⟩ := this
    refine ⟨x, ?_, y, ?_, e⟩
    · rcases hx with rfl | rfl
      · exact ⟨le_rfl, ha⟩
      · exact ⟨ha, le_rfl⟩
    · rcases hy with rfl | rfl
      · exact ⟨le_rfl, hb⟩
      · exact ⟨hb, le_rfl⟩

example : mul ⟨-2, 3⟩ ⟨-5, (4 : ℚ)⟩ = ⟨-15, 12⟩ := by decide +kernel

/-- **C15 (division).** When 0 is not in the divisor, the quotient exists and encloses all quotients. -/
theorem C15_div (a b : Interval K) (h0 : (0 : K) ∉ Pts b) (x y : K) (hx : x ∈ Pts a) (hy : y ∈ Pts b) :
    ∃ c, div a b = some c ∧ x / y ∈ Pts c := by
  have hb : b.low ≤ b.upp := hy.1.trans hy.2
  have hsign : 0 < b.low ∨ b.upp < 0 := by
    by_contra h
    rw [not_or, not_lt, not_lt] at h
    exact h0 h
  have hl : b.low ≠ 0 := by
    rintro h
    rcases hsign with h1 | h1
    · exact h1.ne' h
    · rw [← h] at h1; exact absurd hb (not_le.2 h1)
  have hu : b.upp ≠ 0 := by
    rintro h
    rcases hsign with h1 | h1
    · rw [← h] at h1; exact absurd hb (not_le.2 h1)
    · exact h1.ne h
  refine ⟨_, by simp only [div]; rw [if_neg (by tauto)], ?_⟩
  rw [div_eq_mul_one_div x y]
  refine mul_encloses _ _ _ _ hx ?_
  rcases hsign with h | h
  · have hy0 : 0 < y := h.trans_le hy.1
    exact ⟨(min_le_right _ _).trans (one_div_le_one_div_of_le hy0 hy.2),
      (one_div_le_one_div_of_le h hy.1).trans (le_max_left _ _)⟩
  · have hy0 : y < 0 := hy.2.trans_lt h
    exact ⟨(min_le_right _ _).trans ((one_div_le_one_div_of_neg h hy0).2 hy.2),
      ((one_div_le_one_div_of_neg hy0 (hb.trans_lt h)).2 hy.1).trans (le_max_left _ _)⟩

example : (0 : ℚ) ∉ Pts ⟨-4, -2⟩ ∧ (1 : ℚ) ∈ Pts ⟨-1, 2⟩ ∧ (-3 : ℚ) ∈ Pts ⟨-4, -2⟩ := by unfold Pts; norm_num

/-- The full subtraction claim. -/
def SubClaim (a b : Interval ℚ) : Prop := ∀ x ∈ Pts a, ∀ y ∈ Pts b, x - y ∈ Pts (sub a b)

/-- **C15 (refuted, subtraction).** `[0,1] - [0,1]` is computed as `[0,0]`, but `1 - 0 = 1`. -/
theorem C15_sub_refuted : ¬ SubClaim ⟨0, 1⟩ ⟨0, 1⟩ := by
  intro h
  have := h 1 (by unfold Pts; norm_num) 0 (by unfold Pts; norm_num)
  unfold Pts sub at this
  norm_num at this

omit [IsStrictOrderedRing K] in
/-- **C15 (partial, subtraction).** The interval version is exact only for a subtrahend without width; the version with
a plain number is right.  Missing: every other subtrahend (refuted above). -/
theorem C15_sub_partial [IsOrderedAddMonoid K] (a b : Interval K) (x y : K) (hx : x ∈ Pts a) (hy : y ∈ Pts b) :
    (b.low = b.upp → x - y ∈ Pts (sub a b)) ∧ x - y ∈ Pts (subScalar a y) := by
  constructor
  · intro h
    have : y = b.low := le_antisymm (h ▸ hy.2) hy.1
    subst this
    exact ⟨sub_le_sub_right hx.1 _, by simpa [sub, h] using hx.2⟩
  · exact ⟨sub_le_sub_right hx.1 _, sub_le_sub_right hx.2 _⟩

example : sub ⟨1, 5⟩ ⟨2, (2 : ℚ)⟩ = ⟨-1, 3⟩ := by decide +kernel

/-- **C15 (refuted, sign).** Multiplying or dividing by a negative number swaps the ends and leaves an interval without
points. -/
theorem C15_negative_scalar_refuted :
    ¬ (∀ (a : Interval ℚ) (s x : ℚ), x ∈ Pts a → x * s ∈ Pts (mulScalar a s)) ∧
    ¬ (∀ (a : Interval ℚ) (s x : ℚ), s ≠ 0 → x ∈ Pts a → ∀ c, divScalar a s = some c → x / s ∈ Pts c) := by
  constructor
  · intro h
    have := h ⟨1, 2⟩ (-1) 1 (by unfold Pts; norm_num)
    unfold Pts mulScalar at this
    norm_num at this
  · intro h
    have := h ⟨1, 2⟩ (-1) 1 (by norm_num) (by unfold Pts; norm_num) ⟨-1, -2⟩ (by decide +kernel)
    unfold Pts at this
    norm_num at this

/-- **C15 (partial, scalars).** For a nonnegative factor or positive divisor the scalar versions enclose. -/
theorem C15_scalar_partial (a : Interval K) (s x : K) (hx : x ∈ Pts a) :
    (0 ≤ s → x * s ∈ Pts (mulScalar a s)) ∧ (0 < s → ∃ c, divScalar a s = some c ∧ x / s ∈ Pts c) := by
  constructor
  · intro h
    exact ⟨mul_le_mul_of_nonneg_right hx.1 h, mul_le_mul_of_nonneg_right hx.2 h⟩
  · intro h
    refine ⟨_, by simp only [divScalar]; rw [if_neg h.ne'], ?_⟩
    exact ⟨div_le_div_of_nonneg_right hx.1 h.le, div_le_div_of_nonneg_right hx.2 h.le⟩

example : mulScalar ⟨-1, 2⟩ (3 : ℚ) = ⟨-3, 6⟩ := by decide +kernel

/-- **C15 (refuted, powers).** `[-1,1]**2` is computed as `[1,1]`, but `0**2 = 0`. -/
theorem C15_pow_refuted : ¬ (∀ (a : Interval ℚ) (n : Nat) (x : ℚ), x ∈ Pts a → x ^ n ∈ Pts (pow a n)) := by
  intro h
  have := h ⟨-1, 1⟩ 2 0 (by unfold Pts; norm_num)
  unfold Pts pow at this
  norm_num at this

/-- **C15 (partial, powers).** Odd powers, and even powers of intervals that do not have 0 strictly inside, enclose. -/
theorem C15_pow_partial (a : Interval K) (n : Nat) (x : K) (hx : x ∈ Pts a) (h : n % 2 = 1 ∨ 0 ≤ a.low ∨ a.upp ≤ 0) :
    x ^ n ∈ Pts (pow a n) := by
  unfold pow
  by_cases hn : n % 2 = 0
  · rw [if_pos hn]
    have hev : Even n := Nat.even_iff.2 hn
    rcases h with h | h | h
    · omega
    · exact ⟨(min_le_left _ _).trans (pow_le_pow_left₀ h hx.1 n),
        (pow_le_pow_left₀ (h.trans hx.1) hx.2 n).trans (le_max_right _ _)⟩
    · have e : ∀ z : K, z ^ n = (-z) ^ n := fun z => (hev.neg_pow z).symm
      have h1 : x ^ n ≤ a.low ^ n := by
        rw [e x, e a.low]
        exact pow_le_pow_left₀ (neg_nonneg.2 (hx.2.trans h)) (neg_le_neg hx.1) n
      have h2 : a.upp ^ n ≤ x ^ n := by
        rw [e x, e a.upp]
        exact pow_le_pow_left₀ (neg_nonneg.2 h) (neg_le_neg hx.2) n
      exact ⟨(min_le_right _ _).trans h2, h1.trans (le_max_left _ _)⟩
  · rw [if_neg hn]
    have hodd : Odd n := Nat.odd_iff.2 (by omega)
    exact ⟨hodd.pow_le_pow.2 hx.1, hodd.pow_le_pow.2 hx.2⟩

example : pow ⟨-3, (-2 : ℚ)⟩ 2 = ⟨4, 9⟩ ∧ pow ⟨-3, (2 : ℚ)⟩ 3 = ⟨-27, 8⟩ := by decide +kernel

/-- **C15 (reciprocal).** `~a` fails only for a zero end; otherwise it is everything, or encloses all reciprocals. -/
theorem C15_invert (a : Interval K) (x : K) (hx : x ∈ Pts a) :
    (invert a = none ↔ a.low = 0 ∨ a.upp = 0) ∧
      ∀ c, invert a = some (.inl c) → 1 / x ∈ Pts c ∧ (0 : K) ∉ Pts a := by
  unfold invert
  constructor
  · constructor
    · intro h
      by_contra hn
      rw [if_neg hn] at h
      split at h <;> cases h
    · intro h; rw [if_pos h]
  · intro c hc
    by_cases h0 : a.low = 0 ∨ a.upp = 0
    · rw [if_pos h0] at hc; cases hc
    · rw [if_neg h0] at hc
      rw [not_or] at h0
      split at hc
      · cases hc
      · rename_i hs
        cases hc
        have hle := hx.1.trans hx.2
        have hsign : 0 < a.low ∨ a.upp < 0 := by
          by_contra h
          rw [not_or, not_lt, not_lt] at h
          exact hs ⟨lt_of_le_of_ne h.1 h0.1, lt_of_le_of_ne h.2 (Ne.symm h0.2)⟩
        rcases hsign with h | h
        · exact ⟨⟨one_div_le_one_div_of_le (h.trans_le hx.1) hx.2, one_div_le_one_div_of_le h hx.1⟩,
            fun hz => absurd hz.1 (not_le.2 h)⟩
        · have hxn : x < 0 := hx.2.trans_lt h
          exact ⟨⟨(one_div_le_one_div_of_neg h hxn).2 hx.2, (one_div_le_one_div_of_neg hxn (hle.trans_lt h)).2 hx.1⟩,
            fun hz => absurd hz.2 (not_le.2 h)⟩

example : invert ⟨2, (4 : ℚ)⟩ = some (.inl ⟨1 / 4, 1 / 2⟩) := by decide +kernel

/-! ## C16 -/

/-- Consecutive pieces share an end: `l` is where the list starts, `u` where it ends. -/
def Tiles (l u : K) : List (Interval K) → Prop
  | [] => l = u
  | p :: ps => p.low = l ∧ p.low ≤ p.upp ∧ Tiles p.upp u ps

omit [IsStrictOrderedRing K] in
theorem tiles_append (l m u : K) (xs ys : List (Interval K)) (h1 : Tiles l m xs) (h2 : Tiles m u ys) : Tiles l u (xs ++ ys) := by
  induction xs generalizing l with
  | nil => simp only [Tiles] at h1; subst h1; exact h2
  | cons p ps ih => exact ⟨h1.1, h1.2.1, ih _ h1.2.2⟩

theorem mid_bounds (l u : K) (h : l ≤ u) : l ≤ (l + u) * (1 / 2) ∧ (l + u) * (1 / 2) ≤ u := by
  constructor <;> linarith

theorem tiles_step (l u : K) (xs : List (Interval K)) (h : Tiles l u xs) : Tiles l u (xs.flatMap subdivideStep) := by
  induction xs generalizing l with
  | nil => exact h
  | cons p ps ih =>
    rw [List.flatMap_cons]
    obtain ⟨h1, h2, h3⟩ := h
    subst h1
    have := mid_bounds p.low p.upp h2
    exact tiles_append _ p.upp _ _ _ ⟨rfl, this.1, rfl, this.2, rfl⟩ (ih _ h3)

theorem width_step (w : K) (xs : List (Interval K)) (h : ∀ p ∈ xs, p.upp - p.low = w) :
    ∀ p ∈ xs.flatMap subdivideStep, p.upp - p.low = w / 2 := by
  intro p hp
  obtain ⟨q, hq, hp⟩ := List.mem_flatMap.1 hp
  simp only [subdivideStep, List.mem_cons, List.not_mem_nil, or_false] at hp
  rw [← h q hq]
  rcases hp with rfl | rfl <;> dsimp only <;> ring

theorem subdivideFrom_spec (l u : K) (n : Nat) : ∀ (w : K) (xs : List (Interval K)), Tiles l u xs →
    (∀ p ∈ xs, p.upp - p.low = w) →
    Tiles l u (subdivideFrom xs n) ∧ (subdivideFrom xs n).length = xs.length * 2 ^ n ∧
      ∀ p ∈ subdivideFrom xs n, p.upp - p.low = w / 2 ^ n := by
  induction n with
  | zero => intro w xs h hw; simpa [subdivideFrom] using ⟨h, hw⟩
  | succ n ih =>
    intro w xs h hw
    obtain ⟨h1, h2, h3⟩ := ih (w / 2) _ (tiles_step l u xs h) (width_step w xs hw)
    refine ⟨h1, ?_, ?_⟩
    · rw [subdivideFrom, h2]
      have : (xs.flatMap subdivideStep).length = xs.length * 2 := by
        clear h h1 h2 h3 hw
        induction xs with
        | nil => rfl
        | cons p ps ih => rw [List.flatMap_cons, List.length_append, ih, List.length_cons]; simp [subdivideStep]; ring
      rw [this]; ring
    · intro p hp
      rw [h3 p hp]
      rw [div_div, pow_succ']

omit [IsStrictOrderedRing K] in
theorem tiles_le (l u : K) (xs : List (Interval K)) (h : Tiles l u xs) : l ≤ u := by
  induction xs generalizing l with
  | nil => exact h.le
  | cons p ps ih => exact h.1 ▸ h.2.1.trans (ih _ h.2.2)

omit [IsStrictOrderedRing K] in
theorem tiles_mem (l u x : K) (xs : List (Interval K)) (hne : xs ≠ []) (h : Tiles l u xs) :
    (l ≤ x ∧ x ≤ u) ↔ ∃ p ∈ xs, x ∈ Pts p := by
  induction xs generalizing l with
  | nil => exact absurd rfl hne
  | cons p ps ih =>
    obtain ⟨rfl, h2, h3⟩ := h
    have hle := tiles_le _ _ _ h3
    simp only [List.exists_mem_cons_iff]
    by_cases hx : x ≤ p.upp
    · constructor
      · intro h; exact .inl ⟨h.1, hx⟩
      · rintro (h | ⟨q, hq, hxq⟩)
        · exact ⟨h.1, hx.trans hle⟩
        · by_cases hps : ps = []
          · subst hps; simp at hq
          · have := (ih _ hps h3).2 ⟨q, hq, hxq⟩
            exact ⟨h2.trans this.1, this.2⟩
    · have hx' : p.upp < x := not_le.1 hx
      by_cases hps : ps = []
      · subst hps
        simp only [Tiles] at h3
        constructor
        · intro h; exact absurd (h3 ▸ h.2) hx
        · rintro (h | ⟨q, hq, _⟩)
          · exact absurd h.2 hx
          · simp at hq
      · rw [show (p.low ≤ x ∧ x ≤ u) ↔ (p.upp ≤ x ∧ x ≤ u) from
          ⟨fun h => ⟨hx'.le, h.2⟩, fun h => ⟨h2.trans hx'.le, h.2⟩⟩, ih _ hps h3]
        constructor
        · exact .inr
        · rintro (h | h)
          · exact absurd h.2 hx
          · exact h

omit [IsStrictOrderedRing K] in
theorem tiles_pairwise (l u : K) (xs : List (Interval K)) (h : Tiles l u xs) :
    xs.Pairwise (fun p q => p.upp ≤ q.low) := by
  have low : ∀ (ys : List (Interval K)) (l : K), Tiles l u ys → ∀ p ∈ ys, l ≤ p.low := by
    intro ys
    induction ys with
    | nil => intro l _ p hp; simp at hp
    | cons q qs ih =>
      intro l h p hp
      rcases List.mem_cons.1 hp with rfl | hp
      · exact h.1.ge
      · exact h.1 ▸ h.2.1.trans (ih _ h.2.2 p hp)
  induction xs generalizing l with
  | nil => exact List.Pairwise.nil
  | cons p ps ih => exact List.pairwise_cons.2 ⟨low ps _ h.2.2, ih _ h.2.2⟩

theorem two_pow_pos' (n : Nat) : 0 < 2 ^ n := Nat.pow_pos (by decide)

/-- **C16 (subdivision).** For every well-formed interval and step count: `2^steps` pieces of equal width, a point is in
the interval exactly when it is in some piece, and two pieces meet at most in an end point. -/
theorem C16_subdivide (a : Interval K) (ha : a.low ≤ a.upp) (steps : Nat) :
    (subdivide a steps).length = 2 ^ steps ∧
    (∀ p ∈ subdivide a steps, p.upp - p.low = (a.upp - a.low) / 2 ^ steps) ∧
    (∀ x, x ∈ Pts a ↔ ∃ p ∈ subdivide a steps, x ∈ Pts p) ∧
    (subdivide a steps).Pairwise (fun p q => ∀ x, x ∈ Pts p → x ∈ Pts q → x = p.upp ∧ x = q.low) := by
  obtain ⟨h1, h2, h3⟩ := subdivideFrom_spec a.low a.upp steps (a.upp - a.low) [a] ⟨rfl, ha, rfl⟩ (by simp)
  have hlen : (subdivide a steps).length = 2 ^ steps := by simpa [subdivide] using h2
  have hne : subdivide a steps ≠ [] := by
    intro h; rw [h] at hlen; have := two_pow_pos' steps; simp at hlen; omega
  refine ⟨hlen, h3, fun x => tiles_mem _ _ x _ hne h1, ?_⟩
  refine (tiles_pairwise _ _ _ h1).imp ?_
  intro p q hpq x hp hq
  exact ⟨le_antisymm hp.2 (hpq.trans hq.1), le_antisymm (hp.2.trans hpq) hq.1⟩

example : subdivide ⟨0, (8 : ℚ)⟩ 2 = [⟨0, 2⟩, ⟨2, 4⟩, ⟨4, 6⟩, ⟨6, 8⟩] := by decide +kernel

omit [IsStrictOrderedRing K] in
/-- **C16 (and/or).** `a & b` has exactly the common points; `a | b` holds both and lies in every interval that does. -/
theorem C16_and_or (a b : Interval K) :
    (∀ x, x ∈ Pts (inter a b) ↔ x ∈ Pts a ∧ x ∈ Pts b) ∧
    (∀ x, x ∈ Pts a ∨ x ∈ Pts b → x ∈ Pts (hull a b)) ∧
    (a.low ≤ a.upp → b.low ≤ b.upp → ∀ c : Interval K, (∀ x, x ∈ Pts a ∨ x ∈ Pts b → x ∈ Pts c) →
      ∀ x ∈ Pts (hull a b), x ∈ Pts c) := by
  refine ⟨fun x => ?_, fun x h => ?_, fun ha hb c hc x hx => ?_⟩
  · simp only [Pts, inter, Set.mem_setOf_eq, max_le_iff, le_min_iff]; tauto
  · rcases h with h | h
    · exact ⟨(min_le_left _ _).trans h.1, h.2.trans (le_max_left _ _)⟩
    · exact ⟨(min_le_right _ _).trans h.1, h.2.trans (le_max_right _ _)⟩
  · have h1 := hc a.low (.inl ⟨le_rfl, ha⟩)
    have h2 := hc a.upp (.inl ⟨ha, le_rfl⟩)
    have h3 := hc b.low (.inr ⟨le_rfl, hb⟩)
    have h4 := hc b.upp (.inr ⟨hb, le_rfl⟩)
    exact ⟨(le_min h1.1 h3.1).trans hx.1, hx.2.trans (max_le h2.2 h4.2)⟩

example : inter ⟨0, 5⟩ ⟨3, (9 : ℚ)⟩ = ⟨3, 5⟩ ∧ hull ⟨0, 2⟩ ⟨7, (9 : ℚ)⟩ = ⟨0, 9⟩ := by decide +kernel

/-- **C16 (evaluate).** Parameters in `[0,1]` reach exactly the points of the interval. -/
theorem C16_evaluate (a : Interval K) (ha : a.low ≤ a.upp) (x : K) :
    x ∈ Pts a ↔ ∃ t, 0 ≤ t ∧ t ≤ 1 ∧ evaluate a t = x := by
  unfold evaluate
  constructor
  · rintro ⟨h1, h2⟩
    rcases ha.lt_or_eq with h | h
    · have hpos : 0 < a.upp - a.low := sub_pos.2 h
      refine ⟨(x - a.low) / (a.upp - a.low), div_nonneg (sub_nonneg.2 h1) hpos.le, ?_, ?_⟩
      · rw [div_le_one hpos]; linarith
      · field_simp; ring
    · exact ⟨0, le_rfl, zero_le_one, by rw [mul_zero, add_zero]; exact le_antisymm h1 (h ▸ h2)⟩
  · rintro ⟨t, h0, h1, rfl⟩
    have hpos : 0 ≤ a.upp - a.low := sub_nonneg.2 ha
    constructor
    · have := mul_nonneg hpos h0; linarith
    · have := mul_le_mul_of_nonneg_left h1 hpos; linarith

example : evaluate ⟨2, (10 : ℚ)⟩ (1 / 4) = 4 := by decide +kernel

/-! ## C53: comparisons -/

omit [IsStrictOrderedRing K] in
/-- **C53 (intervals).** `a < b` is answered exactly when every point of `a` is below every point of `b`, `a > b`
exactly when every point is above, and `<=`/`>=` are the negations of `>`/`<`. -/
theorem C53_compare_intervals (a b : Interval K) (ha : a.low ≤ a.upp) (hb : b.low ≤ b.upp) :
    (isLt (compare a b) = true ↔ ∀ x ∈ Pts a, ∀ y ∈ Pts b, x < y) ∧
    (isGt (compare a b) = true ↔ ∀ x ∈ Pts a, ∀ y ∈ Pts b, y < x) ∧
    isLe (compare a b) = !isGt (compare a b) ∧ isGe (compare a b) = !isLt (compare a b) := by
  have hA : a.upp ∈ Pts a := ⟨ha, le_rfl⟩
  have hA' : a.low ∈ Pts a := ⟨le_rfl, ha⟩
  have hB : b.upp ∈ Pts b := ⟨hb, le_rfl⟩
  have hB' : b.low ∈ Pts b := ⟨le_rfl, hb⟩
  unfold compare
  refine ⟨?_, ?_, ?_⟩
  · constructor
    · intro h x hx y hy
      split at h
      · rename_i hlt; exact hx.2.trans_lt (hlt.trans_le hy.1)
      · split at h <;> cases h
    · intro h; rw [if_pos (h _ hA _ hB')]; rfl
  · constructor
    · intro h x hx y hy
      split at h
      · cases h
      · split at h
        · rename_i hlt; exact hy.2.trans_lt (hlt.trans_le hx.1)
        · cases h
    · intro h
      have h1 := h _ hA' _ hB
      rw [if_neg (not_lt.2 (hb.trans (h1.le.trans ha))), if_pos h1]; rfl
  · split
    · exact ⟨rfl, rfl⟩
    · split <;> exact ⟨rfl, rfl⟩

example : isLt (compare ⟨0, 1⟩ ⟨2, (3 : ℚ)⟩) = true ∧ isLt (compare ⟨0, 2⟩ ⟨2, (3 : ℚ)⟩) = false := by decide +kernel

/-- **C53 (refuted, numbers).** Against a plain number, "not below" is reported as "above": `Interval(0,2) > 1` is true
although 0 is in the interval. -/
theorem C53_compare_number_refuted :
    ¬ (∀ (a : Interval ℚ) (s : ℚ), a.low ≤ a.upp → isGt (compareScalar a s) = true → ∀ x ∈ Pts a, s < x) := by
  intro h
  have := h ⟨0, 2⟩ 1 (by norm_num) (by decide +kernel) 0 (by unfold Pts; norm_num)
  norm_num at this

omit [IsStrictOrderedRing K] in
/-- **C53 (partial, numbers).** `a < s` is exact; missing: `>`, refuted above. -/
theorem C53_less_number_partial (a : Interval K) (s : K) (ha : a.low ≤ a.upp) :
    isLt (compareScalar a s) = true ↔ ∀ x ∈ Pts a, x < s := by
  unfold compareScalar
  constructor
  · intro h x hx
    split at h
    · rename_i hlt; exact hx.2.trans_lt hlt
    · cases h
  · intro h; rw [if_pos (h _ ⟨ha, le_rfl⟩)]; rfl

example : isLt (compareScalar ⟨0, 2⟩ (3 : ℚ)) = true := by decide +kernel

end Verif.Interval
