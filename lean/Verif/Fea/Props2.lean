import Verif.Fea.Model2
import Verif.Clm.Props
import Mathlib.Algebra.Order.Floor.Semiring
import Mathlib.Tactic.Ring
import Mathlib.Tactic.Linarith
import Mathlib.Tactic.FieldSimp
import Mathlib.Tactic.NormNum
import Mathlib.Tactic.Positivity

set_option linter.unusedSectionVars false

/-! # Guesses for the intersection of a curve and a surface (C481) -/

namespace Verif.Fea

open Verif.Vec

variable {K P : Type} [Field K] [LinearOrder K] [IsStrictOrderedRing K]

theorem mem_grid (dist : P → P → K) (crv : K → P) (srf : K × K → P) (tr ur vr : K × K) (n : ℕ) (hn : 2 ≤ n) (thr : K) (g : K × (K × K)) :
    g ∈ gridSearch dist crv srf tr ur vr n thr ↔ ∃ i j k, i < n ∧ j < n ∧ k < n ∧ dist (crv g.1) (srf g.2) ≤ thr ∧
      g = (Clm.linspace tr.1 tr.2 n i, Clm.linspace ur.1 ur.2 n j, Clm.linspace vr.1 vr.2 n k) := by
  have e : ∀ (r : K × K) j, j < n → Clm.linspace 0 1 n j * (r.2 - r.1) + r.1 = Clm.linspace r.1 r.2 n j := by
    intro r j hj
    rw [Clm.linspace_eq 0 1 n j hn hj, Clm.linspace_eq r.1 r.2 n j hn hj]; ring
  unfold gridSearch
  simp only [List.mem_flatMap, List.mem_range, List.mem_filterMap]
  constructor
  · rintro ⟨i, hi, j, hj, k, hk, h⟩
    rw [e ur j hj, e vr k hk] at h
    split_ifs at h with hd
    cases h
    exact ⟨i, j, k, hi, hj, hk, hd, rfl⟩
  · rintro ⟨i, j, k, hi, hj, hk, hd, rfl⟩
    refine ⟨i, hi, j, hj, k, hk, ?_⟩
    rw [e ur j hj, e vr k hk, if_pos hd]

/-- **C481, guesses are near**: for two steps or more every guess has parameters in the ranges and belongs to points within the threshold. -/
theorem C481_sound (dist : P → P → K) (crv : K → P) (srf : K × K → P) (tr ur vr : K × K) (ht : tr.1 ≤ tr.2) (hu : ur.1 ≤ ur.2) (hv : vr.1 ≤ vr.2)
    (n : ℕ) (hn : 2 ≤ n) (thr : K) : ∀ g ∈ gridSearch dist crv srf tr ur vr n thr, dist (crv g.1) (srf g.2) ≤ thr ∧
      (tr.1 ≤ g.1 ∧ g.1 ≤ tr.2) ∧ (ur.1 ≤ g.2.1 ∧ g.2.1 ≤ ur.2) ∧ vr.1 ≤ g.2.2 ∧ g.2.2 ≤ vr.2 := by
  intro g hg
  obtain ⟨i, j, k, hi, hj, hk, hd, rfl⟩ := (mem_grid dist crv srf tr ur vr n hn thr g).1 hg
  exact ⟨hd, Clm.linspace_mem _ _ ht _ _ hi, Clm.linspace_mem _ _ hu _ _ hj, Clm.linspace_mem _ _ hv _ _ hk⟩

theorem near [FloorRing K] (a b x : K) (n : ℕ) (hn : 2 ≤ n) (h1 : a ≤ x) (h2 : x ≤ b) :
    ∃ i, i < n ∧ |Clm.linspace a b n i - x| ≤ (b - a) / (2 * ((n - 1 : ℕ) : K)) := by
  have hm : (0 : K) < ((n - 1 : ℕ) : K) := Nat.cast_pos.2 (by omega)
  rcases h1.trans h2 |>.lt_or_eq with hab | hab
  · obtain ⟨m, hmd⟩ : ∃ m : K, m = ((n - 1 : ℕ) : K) := ⟨_, rfl⟩
    obtain ⟨s, hs⟩ : ∃ s, s = (x - a) / (b - a) * m := ⟨_, rfl⟩
    have hba : 0 < b - a := sub_pos.2 hab
    rw [← hmd] at hm ⊢
    have hs0 : 0 ≤ s := by rw [hs]; exact mul_nonneg (div_nonneg (by linarith) hba.le) hm.le
    have hs1 : s ≤ m := by
      rw [hs]
      have : (x - a) / (b - a) ≤ 1 := by rw [div_le_one hba]; linarith
      nlinarith
    have f0 : 0 ≤ ⌊s + 1 / 2⌋ := Int.floor_nonneg.2 (by linarith)
    obtain ⟨i, hi⟩ : ∃ i : ℕ, ⌊s + 1 / 2⌋ = i := ⟨_, (Int.toNat_of_nonneg f0).symm⟩
    have g1 := Int.floor_le (s + 1 / 2)
    have g2 := (Int.lt_floor_add_one (s + 1 / 2)).le
    rw [hi, Int.cast_natCast] at g1 g2
    have hin : i < n := by
      have : (i : K) < ((n : ℕ) : K) := by
        have e : ((n : ℕ) : K) = m + 1 := by
          rw [hmd, ← Nat.cast_succ]; congr 1; omega
        rw [e]; linarith
      exact Nat.cast_lt.1 this
    refine ⟨i, hin, ?_⟩
    rw [Clm.linspace_eq a b n i hn hin, ← hmd]
    have ex : x = a + s * ((b - a) / m) := by rw [hs]; field_simp; ring
    have hh : 0 < (b - a) / m := div_pos hba hm
    have e2 : (b - a) / (2 * m) = 1 / 2 * ((b - a) / m) := by field_simp
    have e3 : a + (i : K) * ((b - a) / m) - x = ((i : K) - s) * ((b - a) / m) := by
      conv_lhs => rw [ex]
      ring
    rw [e3, e2, abs_mul, abs_of_pos hh]
    exact mul_le_mul_of_nonneg_right (abs_le.2 ⟨by linarith, by linarith⟩) hh.le
  · have hx : x = a := le_antisymm (by rw [hab]; exact h2) h1
    refine ⟨0, by omega, ?_⟩
    rw [Clm.linspace_eq a b n 0 hn (by omega), hx, ← hab]
    simp

/-- **C481, every intersection has a guess**, if the threshold is at least the change of the two objects over half a step: for a curve and a surface with
bounded speed each common point has a guess within half a step in every parameter.  Missing: smaller thresholds; the counts below do not give this. -/
theorem C481_complete_partial [FloorRing K] (dist : P → P → K) (hsym : ∀ p q, dist p q = dist q p) (htri : ∀ p q r, dist p r ≤ dist p q + dist q r)
    (crv : K → P) (srf : K × K → P) (tr ur vr : K × K) (n : ℕ) (hn : 2 ≤ n) (thr lt lu lv : K) (h0 : 0 ≤ lt) (h1 : 0 ≤ lu) (h2 : 0 ≤ lv)
    (hc : ∀ t t', dist (crv t) (crv t') ≤ lt * |t - t'|)
    (hs : ∀ p q : K × K, dist (srf p) (srf q) ≤ lu * |p.1 - q.1| + lv * |p.2 - q.2|)
    (hthr : (lt * (tr.2 - tr.1) + lu * (ur.2 - ur.1) + lv * (vr.2 - vr.1)) / (2 * ((n - 1 : ℕ) : K)) ≤ thr)
    (t u v : K) (ht : tr.1 ≤ t ∧ t ≤ tr.2) (hu : ur.1 ≤ u ∧ u ≤ ur.2) (hv : vr.1 ≤ v ∧ v ≤ vr.2) (hx : crv t = srf (u, v)) :
    ∃ g ∈ gridSearch dist crv srf tr ur vr n thr, |g.1 - t| ≤ (tr.2 - tr.1) / (2 * ((n - 1 : ℕ) : K)) ∧
      |g.2.1 - u| ≤ (ur.2 - ur.1) / (2 * ((n - 1 : ℕ) : K)) ∧ |g.2.2 - v| ≤ (vr.2 - vr.1) / (2 * ((n - 1 : ℕ) : K)) := by
  obtain ⟨i, hi, ei⟩ := near tr.1 tr.2 t n hn ht.1 ht.2
  obtain ⟨j, hj, ej⟩ := near ur.1 ur.2 u n hn hu.1 hu.2
  obtain ⟨k, hk, ek⟩ := near vr.1 vr.2 v n hn hv.1 hv.2
  refine ⟨(Clm.linspace tr.1 tr.2 n i, Clm.linspace ur.1 ur.2 n j, Clm.linspace vr.1 vr.2 n k),
    (mem_grid dist crv srf tr ur vr n hn thr _).2 ⟨i, j, k, hi, hj, hk, ?_, rfl⟩, ei, ej, ek⟩
  refine le_trans ?_ hthr
  have a1 := htri (crv (Clm.linspace tr.1 tr.2 n i)) (crv t) (srf (Clm.linspace ur.1 ur.2 n j, Clm.linspace vr.1 vr.2 n k))
  have a2 := hc (Clm.linspace tr.1 tr.2 n i) t
  have a3 := hs (Clm.linspace ur.1 ur.2 n j, Clm.linspace vr.1 vr.2 n k) (u, v)
  rw [hsym, ← hx] at a3
  dsimp only at a3
  have b1 := mul_le_mul_of_nonneg_left ei h0
  have b2 := mul_le_mul_of_nonneg_left ej h1
  have b3 := mul_le_mul_of_nonneg_left ek h2
  have e : (lt * (tr.2 - tr.1) + lu * (ur.2 - ur.1) + lv * (vr.2 - vr.1)) / (2 * ((n - 1 : ℕ) : K)) =
      lt * ((tr.2 - tr.1) / (2 * ((n - 1 : ℕ) : K))) + lu * ((ur.2 - ur.1) / (2 * ((n - 1 : ℕ) : K))) + lv * ((vr.2 - vr.1) / (2 * ((n - 1 : ℕ) : K))) := by ring
  rw [e]
  linarith

/-- **C481, spacing, refuted.** A curve longer than the threshold gets two samples or more, and the samples are always farther apart than the threshold, if they
are evenly spaced. -/
theorem C481_gap_refuted [FloorRing K] (len : (K → P) → K × K → K) (crv : K → P) (srf : K × K → P) (thr : K) (hthr : 0 < thr) (tr ur vr : K × K)
    (hl : thr < len crv tr) : ∃ n : ℕ, (counts len crv srf thr tr ur vr).1 = n ∧ 2 ≤ n ∧ thr < len crv tr / ((n - 1 : ℕ) : K) := by
  have h1 : 1 < len crv tr / thr := by rwa [one_lt_div hthr]
  have h2 : (1 : ℤ) < ⌈len crv tr / thr⌉ := by rw [Int.lt_ceil]; exact_mod_cast h1
  obtain ⟨n, hn⟩ : ∃ n : ℕ, ⌈len crv tr / thr⌉ = n := ⟨_, (Int.toNat_of_nonneg (by omega)).symm⟩
  refine ⟨n, hn, by omega, ?_⟩
  have h3 : ((n - 1 : ℕ) : K) < len crv tr / thr := by
    have : ((n - 1 : ℕ) : ℤ) < ⌈len crv tr / thr⌉ := by rw [hn]; omega
    have := Int.lt_ceil.1 this
    rwa [Int.cast_natCast] at this
  have hp : (0 : K) < ((n - 1 : ℕ) : K) := Nat.cast_pos.2 (by omega)
  rw [lt_div_iff₀ hthr] at h3
  rw [lt_div_iff₀ hp]
  linarith

/-- **C481, counts, refuted.** For a rectangle with sides `a` and `b` the count for `u` is that of the side `b` and the count for `v` that of the side `a`; along
`u` the samples are farther apart than the threshold times `a / b`. -/
theorem C481_exchanged_refuted [FloorRing K] (nrm : V3 K → K) (hnx : ∀ a : K, 0 ≤ a → nrm ⟨a, 0, 0⟩ = a) (hny : ∀ b : K, 0 ≤ b → nrm ⟨0, b, 0⟩ = b)
    (len : (K → V3 K) → K × K → K) (hlen : ∀ (o d : V3 K) (r : K × K), len (fun x => V3.add o (V3.smul x d)) r = |r.2 - r.1| * nrm d)
    (crv : K → V3 K) (a b thr : K) (ha : 0 < a) (hb : thr < b) (hthr : 0 < thr) (tr : K × K) :
    ∃ nu nv : ℕ, (counts len crv (fun uv => (⟨a * uv.1, b * uv.2, 0⟩ : V3 K)) thr tr (0, 1) (0, 1)).2 = (⌈b / thr⌉, ⌈a / thr⌉) ∧ ⌈b / thr⌉ = nu ∧ ⌈a / thr⌉ = nv ∧
      2 ≤ nu ∧ thr * (a / b) < a / ((nu - 1 : ℕ) : K) := by
  have hb0 : 0 < b := hthr.trans hb
  have eu : ∀ u : K, len (fun t => (⟨a * (Srf.isolineU u t).1, b * (Srf.isolineU u t).2, 0⟩ : V3 K)) (0, 1) = b := by
    intro u
    have := hlen ⟨a * u, 0, 0⟩ ⟨0, b, 0⟩ (0, 1)
    rw [hny b hb0.le] at this
    have e : (fun t => (⟨a * (Srf.isolineU u t).1, b * (Srf.isolineU u t).2, 0⟩ : V3 K)) = fun x => V3.add ⟨a * u, 0, 0⟩ (V3.smul x ⟨0, b, 0⟩) := by
      funext x
      simp only [Srf.isolineU, V3.add, V3.smul]
      congr 1 <;> ring
    rw [e, this]; simp
  have ev : ∀ v : K, len (fun t => (⟨a * (Srf.isolineV v t).1, b * (Srf.isolineV v t).2, 0⟩ : V3 K)) (0, 1) = a := by
    intro v
    have := hlen ⟨0, b * v, 0⟩ ⟨a, 0, 0⟩ (0, 1)
    rw [hnx a ha.le] at this
    have e : (fun t => (⟨a * (Srf.isolineV v t).1, b * (Srf.isolineV v t).2, 0⟩ : V3 K)) = fun x => V3.add ⟨0, b * v, 0⟩ (V3.smul x ⟨a, 0, 0⟩) := by
      funext x
      simp only [Srf.isolineV, V3.add, V3.smul]
      congr 1 <;> ring
    rw [e, this]; simp
  have h1 : 1 < b / thr := by rwa [one_lt_div hthr]
  have h2 : (1 : ℤ) < ⌈b / thr⌉ := by rw [Int.lt_ceil]; exact_mod_cast h1
  obtain ⟨n, hn⟩ : ∃ n : ℕ, ⌈b / thr⌉ = n := ⟨_, (Int.toNat_of_nonneg (by omega)).symm⟩
  obtain ⟨m, hm⟩ : ∃ m : ℕ, ⌈a / thr⌉ = m := ⟨_, (Int.toNat_of_nonneg (Int.ceil_nonneg (div_pos ha hthr).le)).symm⟩
  refine ⟨n, m, ?_, hn, hm, by omega, ?_⟩
  · unfold counts
    dsimp only
    rw [eu, eu, ev, ev, max_self, max_self]
  · have h3 : ((n - 1 : ℕ) : K) < b / thr := by
      have : ((n - 1 : ℕ) : ℤ) < ⌈b / thr⌉ := by rw [hn]; omega
      have := Int.lt_ceil.1 this
      rwa [Int.cast_natCast] at this
    have hp : (0 : K) < ((n - 1 : ℕ) : K) := Nat.cast_pos.2 (by omega)
    have e : thr * (a / b) = a / (b / thr) := by field_simp
    rw [e]
    exact div_lt_div_of_pos_left ha hp h3

/-- A line crossing a square; five steps, threshold one: the distance is the sum of the differences. -/
example : ((1 / 2 : ℚ), ((1 / 2 : ℚ), (1 / 2 : ℚ))) ∈ gridSearch (fun p q : V3 ℚ => |p.x - q.x| + |p.y - q.y| + |p.z - q.z|)
    (fun t => ⟨1 / 2, 1 / 2, t - 1 / 2⟩) (fun uv => ⟨uv.1, uv.2, 0⟩) (0, 1) (0, 1) (0, 1) 5 (3 / 8) := by decide +kernel

/-- The bound of the theorem for that case: `3 / 8`. -/
example : ((1 : ℚ) * (1 - 0) + 1 * (1 - 0) + 1 * (1 - 0)) / (2 * ((5 - 1 : ℕ) : ℚ)) ≤ 3 / 8 := by norm_num

/-- A norm and a length that meet the hypotheses on lines. -/
example : let nrm : V3 ℚ → ℚ := fun v => |v.x| + |v.y| + |v.z|
    let len : (ℚ → V3 ℚ) → ℚ × ℚ → ℚ := fun c r => |r.2 - r.1| * nrm (V3.sub (c 1) (c 0))
    (∀ a : ℚ, 0 ≤ a → nrm ⟨a, 0, 0⟩ = a) ∧ (∀ b : ℚ, 0 ≤ b → nrm ⟨0, b, 0⟩ = b) ∧
      ∀ (o d : V3 ℚ) (r : ℚ × ℚ), len (fun x => V3.add o (V3.smul x d)) r = |r.2 - r.1| * nrm d := by
  refine ⟨fun a h => by simp [abs_of_nonneg h], fun b h => by simp [abs_of_nonneg h], fun o d r => ?_⟩
  simp [V3.sub, V3.add, V3.smul]

end Verif.Fea
