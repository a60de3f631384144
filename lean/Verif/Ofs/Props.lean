import Verif.Ofs.Model
import Mathlib.Algebra.Order.Field.Rat
import Mathlib.Data.List.Range
import Mathlib.Tactic.Ring
import Mathlib.Tactic.Linarith
import Mathlib.Tactic.FieldSimp
import Mathlib.Tactic.LinearCombination
import Mathlib.Tactic.Positivity
import Mathlib.Tactic.NormNum

/-!
# C473: offsets of curves on a surface
-/

set_option linter.unusedSectionVars false

namespace Verif.Ofs

variable {K : Type} [Field K] [LinearOrder K] [IsStrictOrderedRing K]

/-- Neighbouring nodes. -/
def Next (δ : K) (x y : K × K) : Prop := x.1 < y.1 ∧ y.2 = x.2 + δ

theorem interpFrom_spec (δ t : K) (hδ : 0 ≤ δ) : ∀ (l : List (K × K)) (a : K × K), a.1 ≤ t → (a :: l).IsChain (Next δ) →
    (interpFrom t a l = none ↔ ∀ q ∈ l, q.1 < t) ∧
    ∀ r, interpFrom t a l = some r → ∃ lo ∈ a :: l, ∃ hi ∈ l, Next δ lo hi ∧ lo.1 ≤ t ∧ t ≤ hi.1 ∧
      r = lo.2 + (t - lo.1) * ((hi.2 - lo.2) / (hi.1 - lo.1)) ∧ lo.2 ≤ r ∧ r ≤ hi.2 := by
  intro l
  induction l with
  | nil => intro a _ _; exact ⟨by simp [interpFrom], by intro r h; cases h⟩
  | cons c rest ih =>
    intro a ha hch
    rw [List.isChain_cons_cons] at hch
    obtain ⟨hac, hch⟩ := hch
    unfold interpFrom
    split_ifs with h
    · refine ⟨⟨fun h' => (by cases h'), fun h' => absurd (h' c (List.mem_cons_self ..)) (not_lt.2 h)⟩, ?_⟩
      intro r hr
      cases hr
      have hpos : 0 < c.1 - a.1 := sub_pos.2 hac.1
      have hd : c.2 - a.2 = δ := by rw [hac.2]; ring
      refine ⟨a, List.mem_cons_self .., c, List.mem_cons_self .., hac, ha, h, rfl, ?_, ?_⟩
      · rw [hd]
        have : 0 ≤ (t - a.1) * (δ / (c.1 - a.1)) := mul_nonneg (sub_nonneg.2 ha) (div_nonneg hδ hpos.le)
        linarith
      · rw [hd]
        have : (t - a.1) * (δ / (c.1 - a.1)) ≤ δ := by
          rw [← mul_div_assoc, div_le_iff₀ hpos]
          nlinarith
        rw [hac.2]; linarith
    · have h' := not_le.1 h
      obtain ⟨h1, h2⟩ := ih c h'.le hch
      refine ⟨?_, ?_⟩
      · rw [h1]
        simp [h']
      · intro r hr
        obtain ⟨lo, hlo, hi, hhi, rest'⟩ := h2 r hr
        exact ⟨lo, List.mem_cons_of_mem _ hlo, hi, List.mem_cons_of_mem _ hhi, rest'⟩

theorem nodes_chain (L : K → K) (hL : StrictMono L) (n : Nat) (d : K) (hd : 0 < d) :
    ((linspace (-d) d n).map fun p => (L p, p)).IsChain (Next (2 * d / ((n : K) + 1))) := by
  have hn : (0 : K) < (n : K) + 1 := by positivity
  unfold linspace
  rw [List.map_map, List.isChain_map, List.isChain_range_succ]
  intro m _
  have e : -d + (d - -d) * ((m.succ : Nat) : K) / ((n : K) + 1) = -d + (d - -d) * (m : K) / ((n : K) + 1) + 2 * d / ((n : K) + 1) := by
    rw [Nat.cast_succ]
    field_simp
    ring
  refine ⟨hL ?_, e⟩
  dsimp only
  rw [e]
  have : 0 < 2 * d / ((n : K) + 1) := by positivity
  linarith

theorem nodes_sorted (L : K → K) (hL : StrictMono L) (n : Nat) (d : K) (hd : 0 < d) :
    (((linspace (-d) d n).map fun p => (L p, p)).insertionSort fun a b => a.1 ≤ b.1) = (linspace (-d) d n).map fun p => (L p, p) := by
  apply List.Pairwise.insertionSort_eq
  have h := nodes_chain L hL n d hd
  have : IsTrans (K × K) (fun a b => a.1 ≤ b.1) := ⟨fun a b c h1 h2 => le_trans h1 h2⟩
  exact (h.imp fun a b hab => hab.1.le).pairwise

theorem linspace_cons (d : K) (n : Nat) : ∃ l, linspace (-d) d n = -d :: l ∧ d ∈ l ∧ ∀ q ∈ l, 0 ≤ d → q ≤ d := by
  have hn : (n : K) + 1 ≠ 0 := by positivity
  refine ⟨(List.range (n + 1)).map fun (i : Nat) => -d + (d - -d) * ((i + 1 : Nat) : K) / ((n : K) + 1), ?_, ?_, ?_⟩
  · unfold linspace
    rw [List.range_succ_eq_map, List.map_cons, List.map_map]
    congr 1
    simp
  · refine List.mem_map.2 ⟨n, List.mem_range.2 (by omega), ?_⟩
    push_cast
    field_simp
    ring
  · intro q hq hd
    obtain ⟨i, hi, rfl⟩ := List.mem_map.1 hq
    have hi' : ((i + 1 : Nat) : K) ≤ (n : K) + 1 := by exact_mod_cast (List.mem_range.1 hi)
    have hp : (0 : K) < (n : K) + 1 := by positivity
    have : (d - -d) * ((i + 1 : Nat) : K) / ((n : K) + 1) ≤ d - -d := by
      rw [div_le_iff₀ hp]
      exact mul_le_mul_of_nonneg_left hi' (by linarith)
    linarith

/-- **C473**: for every length that grows strictly, every number of nodes and every `dist > 0`: the inverse exists exactly for lengths
between those of the two ends, and it lies, like the exact one, between two neighbouring nodes. -/
theorem C473_inverse (L : K → K) (hL : StrictMono L) (n : Nat) (d : K) (hd : 0 < d) (t : K) :
    (geoParam L n d t = none ↔ t < L (-d) ∨ L d < t) ∧
    ∀ r, geoParam L n d t = some r → ∃ p, L p ≤ t ∧ t ≤ L (p + 2 * d / ((n : K) + 1)) ∧ p ≤ r ∧ r ≤ p + 2 * d / ((n : K) + 1) ∧
      r = p + (t - L p) * ((2 * d / ((n : K) + 1)) / (L (p + 2 * d / ((n : K) + 1)) - L p)) := by
  have hn : (0 : K) < (n : K) + 1 := by positivity
  have hδ : 0 ≤ 2 * d / ((n : K) + 1) := by positivity
  unfold geoParam
  rw [nodes_sorted L hL n d hd]
  have hch := nodes_chain L hL n d hd
  obtain ⟨l, hl, hdl, hlast⟩ := linspace_cons d n
  rw [hl] at hch ⊢
  rw [List.map_cons] at hch ⊢
  unfold interp
  dsimp only
  split_ifs with h
  · exact ⟨by simp [h], by intro r hr; cases hr⟩
  · have hs := interpFrom_spec _ t hδ _ _ (not_lt.1 h) hch
    refine ⟨hs.1.trans ⟨fun hq => Or.inr ?_, fun hq => ?_⟩, ?_⟩
    · exact hq (L d, d) (List.mem_map.2 ⟨d, hdl, rfl⟩)
    · intro q hq'
      obtain ⟨p, hp, rfl⟩ := List.mem_map.1 hq'
      rcases hq with h' | h'
      · exact absurd h' h
      · exact lt_of_le_of_lt (hL.monotone (hlast p hp hd.le)) h'
    · intro r hr
      obtain ⟨lo, hlo, hi, hhi, hnx, h1, h2, h3, h4, h5⟩ := hs.2 r hr
      have hlo' : lo.1 = L lo.2 := by
        rcases List.mem_cons.1 hlo with rfl | hlo
        · rfl
        · obtain ⟨p, _, rfl⟩ := List.mem_map.1 hlo; rfl
      have hhi' : hi.1 = L hi.2 := by obtain ⟨p, _, rfl⟩ := List.mem_map.1 hhi; rfl
      have hh := hnx.2
      refine ⟨lo.2, hlo' ▸ h1, by rw [← hh, ← hhi']; exact h2, h4, hh ▸ h5, ?_⟩
      rw [← hh, ← hhi', ← hlo', h3]
      congr 3
      rw [hh]; ring

/-- **C473** (partial): where the length of the line grows by at most `M` per parameter, the point is at the length asked for up to
`M · 2·dist/(n + 1)`; the full claim, equality, holds for constant speed (`C473_flat`). -/
theorem C473_error_partial (L : K → K) (hL : StrictMono L) (M : K) (hM : ∀ p q, p ≤ q → L q - L p ≤ M * (q - p)) (n : Nat) (d : K)
    (hd : 0 < d) (t r : K) (h : geoParam L n d t = some r) : |L r - t| ≤ M * (2 * d / ((n : K) + 1)) := by
  obtain ⟨p, h1, h2, h3, h4, _⟩ := (C473_inverse L hL n d hd t).2 r h
  have hn : (0 : K) < (n : K) + 1 := by positivity
  have hδ : 0 ≤ 2 * d / ((n : K) + 1) := by positivity
  have h5 := hM p (p + 2 * d / ((n : K) + 1)) (by linarith)
  have h6 := hL.monotone h3
  have h7 := hL.monotone h4
  rw [add_sub_cancel_left] at h5
  rw [abs_le]
  constructor <;> linarith

/-- **C473**: a line with the constant speed `σ ≥ 1/2`, as in a plane with equal units: the offset point is at the distance asked
for, exactly `offset/σ` along the normal of the parameters. -/
theorem C473_flat (σ : K) (hσ : 1 / 2 ≤ σ) (n : Nat) (o nrm : K × K) (offset : K) (ho : 0 < offset) :
    offsetUV (fun p => σ * p) n o nrm offset = some (o.1 + nrm.1 * (offset / σ), o.2 + nrm.2 * (offset / σ)) := by
  have hσ0 : 0 < σ := lt_of_lt_of_le (by norm_num) hσ
  have hL : StrictMono fun p : K => σ * p := fun a b hab => mul_lt_mul_of_pos_left hab hσ0
  obtain ⟨h1, h2⟩ := C473_inverse (fun p : K => σ * p) hL n (offset * 2) (by linarith) offset
  unfold offsetUV geodesicLength
  cases hg : geoParam (fun p : K => σ * p) n (offset * 2) offset with
  | none =>
    have := h1.1 hg
    rcases this with h | h
    · nlinarith
    · nlinarith
  | some r =>
    obtain ⟨p, _, _, _, _, h3⟩ := h2 r hg
    have hn : (0 : K) < (n : K) + 1 := by positivity
    have hδ : 2 * (offset * 2) / ((n : K) + 1) ≠ 0 := by positivity
    have hr : r = offset / σ := by
      rw [h3]
      generalize 2 * (offset * 2) / ((n : K) + 1) = δ at hδ
      have : σ * (p + δ) - σ * p = σ * δ := by ring
      rw [this, eq_div_iff hσ0.ne']
      field_simp
      ring
    simp only [Option.map_some, hr, Option.some.injEq, Prod.mk.injEq]
    constructor <;> ring

example : offsetUV (fun p : ℚ => 2 * p) 3 (1, 1) (0, 1) 4 = some (1, 3) := by decide +kernel

/-- **C473** (refuted): `dist` is measured in parameters, not in lengths.  Whenever the line of parameters up to `2·offset` is shorter
than the offset, as for every constant speed below one half, the evaluation raises, though the surface goes on. -/
theorem C473_slow_refuted (n : Nat) (o nrm : K × K) (offset : K) (ho : 0 < offset) :
    (∀ L : K → K, StrictMono L → L (offset * 2) < offset → offsetUV L n o nrm offset = none) ∧
    ∀ σ, 0 < σ → σ < 1 / 2 → offsetUV (fun p => σ * p) n o nrm offset = none ∧ ∃ p, σ * p = offset := by
  have key : ∀ L : K → K, StrictMono L → L (offset * 2) < offset → offsetUV L n o nrm offset = none := by
    intro L hL h
    unfold offsetUV geodesicLength
    rw [(C473_inverse L hL n (offset * 2) (by linarith) offset).1.2 (Or.inr h)]
    rfl
  refine ⟨key, fun σ h0 h1 => ⟨key _ (fun a b hab => mul_lt_mul_of_pos_left hab h0) ?_, offset / σ, mul_div_cancel₀ _ h0.ne'⟩⟩
  nlinarith

example : offsetUV (fun p : ℚ => p / 4) 3 (1, 1) (0, 1) 4 = none := by decide +kernel

end Verif.Ofs
