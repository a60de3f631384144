import Verif.Pip.Props
import Mathlib.Data.Finset.Max
import Mathlib.Order.Interval.Finset.Nat
import Mathlib.Algebra.BigOperators.Intervals
import Mathlib.Data.Finset.Card

/-! Crossings of a segment with the boundary of a convex polygon. -/

set_option linter.unusedSectionVars false

namespace Verif.Pip
variable {K : Type} [Field K] [LinearOrder K] [IsStrictOrderedRing K]

/-- A strictly convex polygon with `n` vertices; `σ` is `1` (counter-clockwise) or `-1` (clockwise). -/
structure Convex (n : Nat) (v : Nat → K × K) (σ : K) : Prop where
  three : 3 ≤ n
  sign : σ = 1 ∨ σ = -1
  side : ∀ i j, i < n → j < n → j ≠ i → j ≠ (i + 1) % n → 0 < σ * orient (v i) (v ((i + 1) % n)) (v j)

/-- Strictly on the inner side of every edge. -/
def Inside (n : Nat) (v : Nat → K × K) (σ : K) (p : K × K) : Prop := ∀ i, i < n → 0 < σ * orient (v i) (v ((i + 1) % n)) p

/-- Strictly on the outer side of some edge. -/
def Outside (n : Nat) (v : Nat → K × K) (σ : K) (p : K × K) : Prop := ∃ i, i < n ∧ σ * orient (v i) (v ((i + 1) % n)) p < 0

section convex
variable {n : Nat} {v : Nat → K × K} {σ : K} (C : Convex n v σ)
include C

theorem Convex.weak (i j : Nat) (hi : i < n) (hj : j < n) : 0 ≤ σ * orient (v i) (v ((i + 1) % n)) (v j) := by
  by_cases h1 : j = i
  · rw [h1, show orient (v i) (v ((i + 1) % n)) (v i) = 0 by unfold orient; ring, mul_zero]
  by_cases h2 : j = (i + 1) % n
  · rw [h2, show orient (v i) (v ((i + 1) % n)) (v ((i + 1) % n)) = 0 by unfold orient; ring, mul_zero]
  exact (C.side i j hi hj h1 h2).le

theorem Convex.lt (i : Nat) : (i + 1) % n < n := Nat.mod_lt _ (by have := C.three; omega)

/-- No linear function is negative at all vertices seen from a point of the closed polygon. -/
theorem Convex.functional (x : K × K) (hx : ∀ i, i < n → 0 ≤ σ * orient (v i) (v ((i + 1) % n)) x) (α β : K) :
    ¬ ∀ j, j < n → α * ((v j).1 - x.1) + β * ((v j).2 - x.2) < 0 := by
  intro h
  have hn := C.three
  obtain ⟨k, hk, hmax⟩ := Finset.exists_max_image (Finset.range n) (fun j => α * ((v j).1 - x.1) + β * ((v j).2 - x.2))
    ⟨0, by simp; omega⟩
  have hk := Finset.mem_range.mp hk
  -- the neighbours of k
  obtain ⟨l, hl, hlk⟩ : ∃ l, l < n ∧ (l + 1) % n = k := by
    rcases Nat.eq_zero_or_pos k with e | e
    · exact ⟨n - 1, by omega, by rw [e, show n - 1 + 1 = n by omega, Nat.mod_self]⟩
    · exact ⟨k - 1, by omega, by rw [show k - 1 + 1 = k by omega, Nat.mod_eq_of_lt hk]⟩
  have hm := C.lt k
  have hlm : (k + 1) % n ≠ l := by
    intro e
    rcases Nat.lt_or_ge (k + 1) n with g | g
    · rw [Nat.mod_eq_of_lt g] at e
      rcases Nat.lt_or_ge (l + 1) n with g' | g'
      · rw [Nat.mod_eq_of_lt g'] at hlk; omega
      · rw [show l + 1 = n by omega, Nat.mod_self] at hlk; omega
    · rw [show k + 1 = n by omega, Nat.mod_self] at e
      rw [← e, Nat.mod_eq_of_lt (by omega)] at hlk; omega
  have hmk : (k + 1) % n ≠ k := by
    intro e
    rcases Nat.lt_or_ge (k + 1) n with g | g
    · rw [Nat.mod_eq_of_lt g] at e; omega
    · rw [show k + 1 = n by omega, Nat.mod_self] at e; omega
  have pos := C.side l ((k + 1) % n) hl hm hlm (by rw [hlk]; exact hmk)
  have A := hx k hk
  have B := hx l hl
  rw [hlk] at pos B
  have ga := h k hk
  have gb := hmax _ (Finset.mem_range.mpr hm)
  have gc := hmax _ (Finset.mem_range.mpr hl)
  generalize (k + 1) % n = m at *
  -- Pluecker identity
  have id : orient (v k) (v m) x * (α * ((v l).1 - x.1) + β * ((v l).2 - x.2)) +
      orient (v l) (v k) x * (α * ((v m).1 - x.1) + β * ((v m).2 - x.2)) +
      (orient (v l) (v k) (v m) - orient (v k) (v m) x - orient (v l) (v k) x) *
      (α * ((v k).1 - x.1) + β * ((v k).2 - x.2)) = 0 := by
    unfold orient; ring
  generalize α * ((v l).1 - x.1) + β * ((v l).2 - x.2) = c at *
  generalize α * ((v m).1 - x.1) + β * ((v m).2 - x.2) = b at *
  generalize α * ((v k).1 - x.1) + β * ((v k).2 - x.2) = a at *
  have h1 := mul_nonneg A (sub_nonneg.mpr gc)
  have h2 := mul_nonneg B (sub_nonneg.mpr gb)
  have h3 := mul_pos pos (neg_pos.mpr ga)
  have id' : σ * (orient (v k) (v m) x * c + orient (v l) (v k) x * b +
      (orient (v l) (v k) (v m) - orient (v k) (v m) x - orient (v l) (v k) x) * a) = 0 := by rw [id, mul_zero]
  linarith

/-- A line through an inner point has vertices strictly on its right or on it, and strictly on its left. -/
theorem Convex.both_sides (p q : K × K) (hp : Inside n v σ p) (hpq : p ≠ q) :
    (∃ j, j < n ∧ 0 < orient p q (v j)) ∧ ∃ j, j < n ∧ orient p q (v j) ≤ 0 := by
  have hn := C.three
  have weak : ∀ i, i < n → 0 ≤ σ * orient (v i) (v ((i + 1) % n)) p := fun i hi => (hp i hi).le
  constructor
  · by_contra hcon
    push Not at hcon
    -- all ≤ 0; some neighbouring pair is strictly negative somewhere, shift slightly is not needed: use a vertex with value 0
    by_cases hz : ∃ k, k < n ∧ orient p q (v k) = 0
    · obtain ⟨k, hk, hk0⟩ := hz
      obtain ⟨l, hl, hlk⟩ : ∃ l, l < n ∧ (l + 1) % n = k := by
        rcases Nat.eq_zero_or_pos k with e | e
        · exact ⟨n - 1, by omega, by rw [e, show n - 1 + 1 = n by omega, Nat.mod_self]⟩
        · exact ⟨k - 1, by omega, by rw [show k - 1 + 1 = k by omega, Nat.mod_eq_of_lt hk]⟩
      have A := hp k hk
      have B := hp l hl
      rw [hlk] at B
      have fm := hcon _ (C.lt k)
      have fl := hcon _ hl
      generalize (k + 1) % n = m at *
      have id : orient (v k) (v m) p * orient p q (v l) + orient (v l) (v k) p * orient p q (v m) +
          (orient (v l) (v k) (v m) - orient (v k) (v m) p - orient (v l) (v k) p) * orient p q (v k) = 0 := by
        unfold orient; ring
      rw [hk0, mul_zero, add_zero] at id
      have id' : σ * (orient (v k) (v m) p * orient p q (v l) + orient (v l) (v k) p * orient p q (v m)) = 0 := by
        rw [id, mul_zero]
      have h1 := mul_nonneg A.le (neg_nonneg.mpr fl)
      have h2 := mul_nonneg B.le (neg_nonneg.mpr fm)
      have e2 : (σ * orient (v l) (v k) p) * -orient p q (v m) = 0 := by linarith
      have fm0 : orient p q (v m) = 0 := by
        have := (mul_eq_zero.mp e2).resolve_left B.ne'; linarith
      -- p, v k, v m are on one line
      have par1 : (q.1 - p.1) * orient (v k) (v m) p = 0 := by
        have : (q.1 - p.1) * orient (v k) (v m) p =
            ((v k).1 - p.1) * orient p q (v m) - ((v m).1 - p.1) * orient p q (v k) := by unfold orient; ring
        rw [this, fm0, hk0]; ring
      have par2 : (q.2 - p.2) * orient (v k) (v m) p = 0 := by
        have : (q.2 - p.2) * orient (v k) (v m) p =
            ((v k).2 - p.2) * orient p q (v m) - ((v m).2 - p.2) * orient p q (v k) := by unfold orient; ring
        rw [this, fm0, hk0]; ring
      have ne : orient (v k) (v m) p ≠ 0 := by
        intro e; rw [e, mul_zero] at A; exact lt_irrefl _ A
      apply hpq
      have x1 := (mul_eq_zero.mp par1).resolve_right ne
      have x2 := (mul_eq_zero.mp par2).resolve_right ne
      exact Prod.ext (by linarith) (by linarith)
    · push Not at hz
      apply C.functional p weak (-(q.2 - p.2)) (q.1 - p.1)
      intro j hj
      have := lt_of_le_of_ne (hcon j hj) (hz j hj)
      unfold orient at this
      linarith
  · by_contra hcon
    push Not at hcon
    apply C.functional p weak (q.2 - p.2) (-(q.1 - p.1))
    intro j hj
    have := hcon j hj
    unfold orient at this
    linarith

/-- A point on the closed polygon's edge line as seen along `p q`. -/
theorem Convex.edge_point (p q : K × K) (i : Nat) (hi : i < n)
    (hF : (0 < orient p q (v i)) ≠ (0 < orient p q (v ((i + 1) % n)))) :
    ∃ t s : K, 0 ≤ s ∧ s ≤ 1 ∧
      lerp p q t = lerp (v i) (v ((i + 1) % n)) s ∧
      s * (orient p q (v ((i + 1) % n)) - orient p q (v i)) = -orient p q (v i) ∧
      orient (v i) (v ((i + 1) % n)) p = t * (orient p q (v ((i + 1) % n)) - orient p q (v i)) ∧
      orient (v i) (v ((i + 1) % n)) q = (t - 1) * (orient p q (v ((i + 1) % n)) - orient p q (v i)) ∧
      ∀ k, k < n → 0 ≤ σ * orient (v k) (v ((k + 1) % n)) (lerp p q t) := by
  have hm := C.lt i
  have four := orient_four (v i) (v ((i + 1) % n)) p q
  have hne : orient p q (v ((i + 1) % n)) - orient p q (v i) ≠ 0 := by
    intro h; apply hF; rw [sub_eq_zero.mp h]
  have hW := fun k hk => And.intro (C.weak k i hk hi) (C.weak k ((i + 1) % n) hk hm)
  generalize (i + 1) % n = m at *
  have hs : 0 ≤ -orient p q (v i) / (orient p q (v m) - orient p q (v i)) ∧
      -orient p q (v i) / (orient p q (v m) - orient p q (v i)) ≤ 1 := by
    by_cases hu : 0 < orient p q (v i)
    · have hv : orient p q (v m) ≤ 0 := by
        by_contra hv; apply hF; simp [hu, not_le.mp hv]
      have hneg : orient p q (v m) - orient p q (v i) < 0 := by linarith
      exact ⟨div_nonneg_of_nonpos (by linarith) hneg.le, by rw [div_le_one_of_neg hneg]; linarith⟩
    · have hv : 0 < orient p q (v m) := by
        by_contra hv; apply hF; simp [hu, hv]
      have hpos : 0 < orient p q (v m) - orient p q (v i) := by linarith [not_lt.mp hu]
      exact ⟨div_nonneg (by linarith [not_lt.mp hu]) hpos.le, by rw [div_le_one hpos]; linarith⟩
  have hpt : lerp p q (orient (v i) (v m) p / (orient p q (v m) - orient p q (v i))) =
      lerp (v i) (v m) (-orient p q (v i) / (orient p q (v m) - orient p q (v i))) := by
    unfold lerp
    have hF' := hne
    unfold orient at hF' ⊢
    rw [Prod.mk.injEq]
    constructor
    · field_simp; ring
    · field_simp; ring
  refine ⟨_, _, hs.1, hs.2, hpt, div_mul_cancel₀ _ hne, (div_mul_cancel₀ _ hne).symm, ?_, fun k hk => ?_⟩
  · rw [sub_mul, div_mul_cancel₀ _ hne]; linarith
  · rw [hpt, orient_lerp]
    have a := mul_nonneg (sub_nonneg.mpr hs.2) (hW k hk).1
    have b := mul_nonneg hs.1 (hW k hk).2
    linarith

/-- Not two edges can be crossed in the same direction. -/
theorem Convex.unique (p q : K × K) (i j : Nat) (hi : i < n) (hj : j < n)
    (h : (0 < orient p q (v i)) ≠ (0 < orient p q (v ((i + 1) % n))))
    (h' : (0 < orient p q (v j)) ≠ (0 < orient p q (v ((j + 1) % n))))
    (hs : (0 < orient p q (v i)) = (0 < orient p q (v j))) : i = j := by
  by_contra hij
  obtain ⟨t, a, a0, a1, ept, ea, eP, eQ, eW⟩ := C.edge_point p q i hi h
  obtain ⟨t', b, b0, b1, ept', eb, eP', eQ', eW'⟩ := C.edge_point p q j hj h'
  have w1 := eW' i hi
  have w2 := eW j hj
  rw [orient_lerp, eP, eQ] at w1
  rw [orient_lerp, eP', eQ'] at w2
  -- σ (t - t') F_i ≥ 0 and σ (t' - t) F_j ≥ 0
  have z1 : (1 - t') * (t * (orient p q (v ((i + 1) % n)) - orient p q (v i))) +
      t' * ((t - 1) * (orient p q (v ((i + 1) % n)) - orient p q (v i))) =
      (t - t') * (orient p q (v ((i + 1) % n)) - orient p q (v i)) := by ring
  have z2 : (1 - t) * (t' * (orient p q (v ((j + 1) % n)) - orient p q (v j))) +
      t * ((t' - 1) * (orient p q (v ((j + 1) % n)) - orient p q (v j))) =
      (t' - t) * (orient p q (v ((j + 1) % n)) - orient p q (v j)) := by ring
  rw [z1] at w1
  rw [z2] at w2
  have hmi := C.lt i
  have hmj := C.lt j
  -- the crossing point of j is on the line of i
  have hline : orient (v i) (v ((i + 1) % n)) (lerp p q t') =
      (t - t') * (orient p q (v ((i + 1) % n)) - orient p q (v i)) := by rw [orient_lerp, eP, eQ, z1]
  rw [ept', orient_lerp] at hline
  have hσ : σ ≠ 0 := by rcases C.sign with e | e <;> rw [e] <;> norm_num
  have g1 := C.weak i j hi hj
  have g2 := C.weak i ((j + 1) % n) hi hmj
  by_cases hu : 0 < orient p q (v i)
  · -- downwards
    have huj : 0 < orient p q (v j) := by rw [← hs]; exact hu
    have hvi : orient p q (v ((i + 1) % n)) ≤ 0 := by
      by_contra hv; apply h; simp [hu, not_le.mp hv]
    have hvj : orient p q (v ((j + 1) % n)) ≤ 0 := by
      by_contra hv; apply h'; simp [huj, not_le.mp hv]
    have Fi : orient p q (v ((i + 1) % n)) - orient p q (v i) < 0 := by linarith
    have Fj : orient p q (v ((j + 1) % n)) - orient p q (v j) < 0 := by linarith
    have s1 : σ * (t - t') ≤ 0 := by
      by_contra hc; have := mul_neg_of_pos_of_neg (not_le.mp hc) Fi; linarith
    have s2 : σ * (t' - t) ≤ 0 := by
      by_contra hc; have := mul_neg_of_pos_of_neg (not_le.mp hc) Fj; linarith
    have s3 : σ * (t - t') = 0 := by linarith
    have s4 : t - t' = 0 := (mul_eq_zero.mp s3).resolve_left hσ
    rw [s4, zero_mul] at hline
    -- b > 0
    have hb : 0 < b := by
      rcases lt_or_eq_of_le b0 with g | g
      · exact g
      · rw [← g, zero_mul] at eb; linarith
    have hz : b * (σ * orient (v i) (v ((i + 1) % n)) (v ((j + 1) % n))) = 0 := by
      have k1 := mul_nonneg (sub_nonneg.mpr b1) g1
      have k2 := mul_nonneg hb.le g2
      have k3 : σ * ((1 - b) * orient (v i) (v ((i + 1) % n)) (v j) +
        b * orient (v i) (v ((i + 1) % n)) (v ((j + 1) % n))) = 0 := by rw [hline, mul_zero]
      linarith
    have hz' := (mul_eq_zero.mp hz).resolve_left hb.ne'
    by_cases c1 : (j + 1) % n = i
    · rw [c1] at hvj; linarith
    by_cases c2 : (j + 1) % n = (i + 1) % n
    · apply hij
      have e1 : (i + 1) % n = if i + 1 = n then 0 else i + 1 := by
        split_ifs with g
        · rw [g, Nat.mod_self]
        · exact Nat.mod_eq_of_lt (by omega)
      have e2 : (j + 1) % n = if j + 1 = n then 0 else j + 1 := by
        split_ifs with g
        · rw [g, Nat.mod_self]
        · exact Nat.mod_eq_of_lt (by omega)
      rw [e1, e2] at c2
      split_ifs at c2 <;> omega
    · have := C.side i ((j + 1) % n) hi hmj c1 c2
      linarith
  · -- upwards
    have huj : ¬ 0 < orient p q (v j) := by rw [← hs]; exact hu
    have hvi : 0 < orient p q (v ((i + 1) % n)) := by
      by_contra hv; apply h; simp [hu, hv]
    have hvj : 0 < orient p q (v ((j + 1) % n)) := by
      by_contra hv; apply h'; simp [huj, hv]
    have hu' := not_lt.mp hu
    have huj' := not_lt.mp huj
    have Fi : 0 < orient p q (v ((i + 1) % n)) - orient p q (v i) := by linarith
    have Fj : 0 < orient p q (v ((j + 1) % n)) - orient p q (v j) := by linarith
    have s1 : 0 ≤ σ * (t - t') := by
      by_contra hc; have := mul_neg_of_neg_of_pos (not_le.mp hc) Fi; linarith
    have s2 : 0 ≤ σ * (t' - t) := by
      by_contra hc; have := mul_neg_of_neg_of_pos (not_le.mp hc) Fj; linarith
    have s3 : σ * (t - t') = 0 := by linarith
    have s4 : t - t' = 0 := (mul_eq_zero.mp s3).resolve_left hσ
    rw [s4, zero_mul] at hline
    -- b < 1
    have hb : 0 < 1 - b := by
      rcases lt_or_eq_of_le b1 with g | g
      · linarith
      · rw [g, one_mul] at eb; linarith
    have hz : (1 - b) * (σ * orient (v i) (v ((i + 1) % n)) (v j)) = 0 := by
      have k1 := mul_nonneg hb.le g1
      have k2 := mul_nonneg b0 g2
      have k3 : σ * ((1 - b) * orient (v i) (v ((i + 1) % n)) (v j) +
        b * orient (v i) (v ((i + 1) % n)) (v ((j + 1) % n))) = 0 := by rw [hline, mul_zero]
      linarith
    have hz' := (mul_eq_zero.mp hz).resolve_left hb.ne'
    by_cases c1 : j = (i + 1) % n
    · rw [← c1] at hvi; linarith
    · have := C.side i j hi hj (Ne.symm hij) c1
      linarith

end convex

/-- Walking round a cycle from a place where `P` fails to one where it holds passes a change. -/
theorem cycle_change (n : Nat) (P : Nat → Prop) (a b : Nat) (ha : a < n) (hb : b < n) (hPa : ¬ P a) (hPb : P b) :
    ∃ i, i < n ∧ ¬ P i ∧ P ((i + 1) % n) := by
  by_contra hcon
  push Not at hcon
  have : ∀ d, ¬ P ((a + d) % n) := by
    intro d
    induction d with
    | zero => rw [Nat.add_zero, Nat.mod_eq_of_lt ha]; exact hPa
    | succ d ih =>
      have := hcon _ (Nat.mod_lt (a + d) (by omega)) ih
      rwa [Nat.mod_add_mod, Nat.add_assoc] at this
  have h := this (n - a + b)
  rw [show a + (n - a + b) = b + n by omega, Nat.add_mod_right, Nat.mod_eq_of_lt hb] at h
  exact h hPb

end Verif.Pip
