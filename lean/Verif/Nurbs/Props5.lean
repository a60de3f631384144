import Verif.Nurbs.Props4

/-! # C66, C67: knot normalisation and default knots -/

set_option linter.unusedSectionVars false

namespace Verif.Nurbs
open Finset
variable {K : Type} [Field K] [LinearOrder K]

/-! ## C66 -/

section ordered
variable [IsStrictOrderedRing K]

theorem aff_le (a d x y : K) (hd : 0 < d) : (x - a) / d ≤ (y - a) / d ↔ x ≤ y := by
  rw [div_le_div_iff_of_pos_right hd]; exact sub_le_sub_iff_right a

theorem aff_lt (a d x y : K) (hd : 0 < d) : (x - a) / d < (y - a) / d ↔ x < y := by
  rw [div_lt_div_iff_of_pos_right hd]; exact sub_lt_sub_iff_right a

theorem aff_eq (a d x y : K) (hd : 0 < d) : (x - a) / d = (y - a) / d ↔ x = y := by
  constructor
  · intro h
    have h1 := (aff_le a d x y hd).mp (le_of_eq h)
    have h2 := (aff_le a d y x hd).mp (le_of_eq h.symm)
    exact le_antisymm h1 h2
  · intro h; rw [h]

theorem aff_ratio (a d x y z w : K) (hd : 0 < d) :
    ((x - a) / d - (y - a) / d) / ((z - a) / d - (w - a) / d) = (x - y) / (z - w) := by
  have h1 : (x - a) / d - (y - a) / d = (x - y) / d := by ring
  have h2 : (z - a) / d - (w - a) / d = (z - w) / d := by ring
  rw [h1, h2, div_div_div_cancel_right₀ (ne_of_gt hd)]

/-- Basis functions are invariant under an affine change of the parameter. -/
theorem bspl_affine (U V : Nat → K) (m n : Nat) (a d x : K) (hd : 0 < d) (hV : ∀ i, i < m → V i = (U i - a) / d)
    (hn : n < m) : ∀ (p l : Nat), l + p + 1 < m → bspl V n ((x - a) / d) p l = bspl U n x p l := by
  intro p
  induction p with
  | zero =>
    intro l hl
    rw [bspl, bspl, bspl0, bspl0, hV l (by omega), hV (l + 1) (by omega), hV n hn]
    simp only [aff_le a d _ _ hd, aff_lt a d _ _ hd, aff_eq a d _ _ hd]
  | succ p ih =>
    intro l hl
    rw [bspl, bspl, ih l (by omega), ih (l + 1) (by omega), hV l (by omega), hV (l + p + 1) (by omega),
      hV (l + p + 2) (by omega), hV (l + 1) (by omega), aff_ratio a d _ _ _ _ hd, aff_ratio a d _ _ _ _ hd]

theorem norm_valid (c c' : Curve K) (hc : Valid c) (hd : c'.degree = c.degree) (hn : c'.n = c.n) (hm : c'.m = c.m)
    (hU : ∀ i, i < c.m → c'.U i = normKnot c.U c.m i) : 0 < c.U (c.m - 1) - c.U 0 ∧ Valid c' := by
  have hk := hc.knots
  have hnp := hc.npos
  have hpos : 0 < c.U (c.m - 1) - c.U 0 := by
    have h1 := hc.mono 0 (c.n - 1) (by omega) (by omega)
    have h2 := hc.mono c.n (c.m - 1) (by omega) (by omega)
    have h3 := hc.last
    linarith
  refine ⟨hpos, by rw [hd, hn]; exact hnp, by rw [hm, hn, hd]; exact hk, fun x y hxy hy => ?_, ?_⟩
  · rw [hm] at hy
    rw [hU x (by omega), hU y hy, normKnot, normKnot, aff_le _ _ _ _ hpos]
    exact hc.mono x y hxy hy
  · rw [hn, hU _ (by omega), hU _ (by omega), normKnot, normKnot, aff_lt _ _ _ _ hpos]
    exact hc.last

/-- **C66.** `normalize_knots` maps both knot vectors to `[0, 1]` (first knot 0, last knot 1) and only reparametrises the
surface: the new surface is well formed and its value at the affinely mapped parameter is the old value. -/
theorem C66_normalize_knots (S : Surf K) (hS : SValid S) (fuel : Nat) (hfu : S.nu ≤ fuel) (hfv : S.nv ≤ fuel) :
    SValid S.normalizeKnots ∧ S.normalizeKnots.U 0 = 0 ∧ S.normalizeKnots.U (S.mu - 1) = 1 ∧
    S.normalizeKnots.V 0 = 0 ∧ S.normalizeKnots.V (S.mv - 1) = 1 ∧
    ∀ u v, InDom S u v →
      InDom S.normalizeKnots ((u - S.U 0) / (S.U (S.mu - 1) - S.U 0)) ((v - S.V 0) / (S.V (S.mv - 1) - S.V 0)) ∧
      ∀ col, S.normalizeKnots.evaluate fuel ((u - S.U 0) / (S.U (S.mu - 1) - S.U 0))
        ((v - S.V 0) / (S.V (S.mv - 1) - S.V 0)) col = S.evaluate fuel u v col := by
  have hku : S.mu = S.nu + S.pu + 1 := hS.u.knots
  have hkv : S.mv = S.nv + S.pv + 1 := hS.v.knots
  have hnu : S.pu < S.nu := hS.u.npos
  have hnv : S.pv < S.nv := hS.v.npos
  have eU : ∀ i, i < S.mu → S.normalizeKnots.U i = normKnot S.U S.mu i := fun i hi => if_pos hi
  have eV : ∀ i, i < S.mv → S.normalizeKnots.V i = normKnot S.V S.mv i := fun i hi => if_pos hi
  obtain ⟨pu, vu⟩ := norm_valid S.uCurve S.normalizeKnots.uCurve hS.u rfl rfl rfl eU
  obtain ⟨pv, vv⟩ := norm_valid S.vCurve S.normalizeKnots.vCurve hS.v rfl rfl rfl eV
  have pu' : 0 < S.U (S.mu - 1) - S.U 0 := pu
  have pv' : 0 < S.V (S.mv - 1) - S.V 0 := pv
  refine ⟨⟨vu, vv⟩, ?_, ?_, ?_, ?_, fun u v hd => ?_⟩
  · rw [eU 0 (by omega), normKnot, sub_self, zero_div]
  · rw [eU _ (by omega), normKnot, div_self (ne_of_gt pu')]
  · rw [eV 0 (by omega), normKnot, sub_self, zero_div]
  · rw [eV _ (by omega), normKnot, div_self (ne_of_gt pv')]
  · have hdom : InDom S.normalizeKnots ((u - S.U 0) / (S.U (S.mu - 1) - S.U 0)) ((v - S.V 0) / (S.V (S.mv - 1) - S.V 0)) := by
      show S.normalizeKnots.U S.pu ≤ _ ∧ _ ≤ S.normalizeKnots.U S.nu ∧ S.normalizeKnots.V S.pv ≤ _ ∧
        _ ≤ S.normalizeKnots.V S.nv
      rw [eU _ (by omega), eU _ (by omega), eV _ (by omega), eV _ (by omega), normKnot, normKnot, normKnot, normKnot,
        aff_le _ _ _ _ pu', aff_le _ _ _ _ pu', aff_le _ _ _ _ pv', aff_le _ _ _ _ pv']
      exact hd
    refine ⟨hdom, fun col => ?_⟩
    obtain ⟨a1, a2, a3, a4⟩ := hd
    obtain ⟨b1, b2, b3, b4⟩ := hdom
    rw [surf_evaluate S hS fuel hfu hfv u v a1 a2 a3 a4,
      surf_evaluate S.normalizeKnots ⟨vu, vv⟩ fuel hfu hfv _ _ b1 b2 b3 b4]
    have hval : ∀ c, surfVal S.normalizeKnots c ((u - S.U 0) / (S.U (S.mu - 1) - S.U 0))
        ((v - S.V 0) / (S.V (S.mv - 1) - S.V 0)) = surfVal S c u v := by
      intro c
      rw [surfVal, surfVal]
      refine sum_congr rfl fun i hi => sum_congr rfl fun j hj => ?_
      have hi' : i < S.nu := mem_range.mp hi
      have hj' : j < S.nv := mem_range.mp hj
      have e1 := bspl_affine S.U S.normalizeKnots.U S.mu S.nu (S.U 0) _ u pu' eU (by omega) S.pu i (by omega)
      have e2 := bspl_affine S.V S.normalizeKnots.V S.mv S.nv (S.V 0) _ v pv' eV (by omega) S.pv j (by omega)
      show bspl S.normalizeKnots.U S.nu _ S.pu i * bspl S.normalizeKnots.V S.nv _ S.pv j * S.P i j c = _
      rw [e1, e2]
    rw [hval, hval]

end ordered

example : SValid exSurf ∧ InDom exSurf (1 / 2) 2 ∧
    ((List.range 7).map exSurf.normalizeKnots.U, (List.range 5).map exSurf.normalizeKnots.V) =
      ([0, 0, 0, 1 / 2, 1, 1, 1], [0, 0, 1 / 3, 1, 1]) ∧
    exSurf.normalizeKnots.evaluate 4 (1 / 4) (2 / 3) 0 = some (241 / 54) :=
  ⟨exSurf_valid, by norm_num [InDom, exSurf, kvec], by decide +kernel, by decide +kernel⟩

/-! ## C67 -/

section ordered
variable [IsStrictOrderedRing K]

theorem generate_mono (n p : Nat) (hp : p < n) (m : Nat) : MonoUpTo (generateKnots n p : Nat → K) m := by
  intro a b hab _
  rw [generateKnots, generateKnots]
  by_cases h1 : a < p + 1
  · rw [if_pos h1]
    split
    · exact le_refl _
    · split <;> exact Nat.cast_nonneg _
  · rw [if_neg h1, if_neg (by omega : ¬ b < p + 1)]
    by_cases h2 : b < n
    · rw [if_pos h2, if_pos (by omega : a < n)]
      exact Nat.cast_le.mpr (by omega)
    · rw [if_neg h2]
      split
      · exact Nat.cast_le.mpr (by omega)
      · exact le_refl _

/-- **C67.** A surface built without knots gets knot vectors of the right length, nondecreasing, clamped at both ends
(`p+1` equal knots), with simple inner knots, and with domain `[0, n-p]`: it is well formed whenever the degrees are less
than the numbers of control points, whatever the control points. -/
theorem C67_default_knots (pu pv nu nv : Nat) (hu : pu < nu) (hv : pv < nv) (P : Nat → Nat → Nat → K) :
    let S : Surf K := { pu := pu, pv := pv, nu := nu, nv := nv, mu := nu + pu + 1, mv := nv + pv + 1,
                        U := generateKnots nu pu, V := generateKnots nv pv, P := P }
    SValid S ∧ S.U 0 = 0 ∧ S.U pu = 0 ∧ S.U nu = ((nu - pu : Nat) : K) ∧ S.U (nu + pu) = ((nu - pu : Nat) : K) ∧
      S.V 0 = 0 ∧ S.V pv = 0 ∧ S.V nv = ((nv - pv : Nat) : K) ∧ S.V (nv + pv) = ((nv - pv : Nat) : K) ∧
      (∀ k, pu ≤ k → k < nu → S.U k < S.U (k + 1)) ∧ ∀ k, pv ≤ k → k < nv → S.V k < S.V (k + 1) := by
  have strict : ∀ n p k : Nat, p ≤ k → k < n → (generateKnots n p k : K) < generateKnots n p (k + 1) := by
    intro n p k h1 h2
    rw [generateKnots, generateKnots, if_neg (by omega : ¬ k + 1 < p + 1)]
    have hpos : ∀ a : Nat, 0 < a → (0 : K) < (a : K) := fun a ha => Nat.cast_pos.mpr ha
    by_cases h3 : k < p + 1
    · rw [if_pos h3]
      split <;> exact hpos _ (by omega)
    · rw [if_neg h3, if_pos h2]
      split <;> exact Nat.cast_lt.mpr (by omega)
  have lo : ∀ n p k : Nat, k < p + 1 → (generateKnots n p k : K) = 0 := fun n p k h => by rw [generateKnots, if_pos h]
  have hi : ∀ n p k : Nat, p < n → n ≤ k → (generateKnots n p k : K) = ((n - p : Nat) : K) := fun n p k h h' => by
    rw [generateKnots, if_neg (by omega), if_neg (by omega)]
  have val : ∀ n p : Nat, p < n → (generateKnots n p (n - 1) : K) < generateKnots n p n := fun n p h => by
    have := strict n p (n - 1) (by omega) (by omega)
    rwa [show n - 1 + 1 = n by omega] at this
  refine ⟨⟨⟨hu, rfl, generate_mono nu pu hu _, val nu pu hu⟩, ⟨hv, rfl, generate_mono nv pv hv _, val nv pv hv⟩⟩,
    lo nu pu 0 (by omega), lo nu pu pu (by omega), hi nu pu nu hu (by omega), hi nu pu (nu + pu) hu (by omega),
    lo nv pv 0 (by omega), lo nv pv pv (by omega), hi nv pv nv hv (by omega), hi nv pv (nv + pv) hv (by omega), ?_, ?_⟩
  · exact strict nu pu
  · exact strict nv pv

end ordered

example : (List.range 8).map (generateKnots 5 2 : Nat → ℚ) = [0, 0, 0, 1, 2, 3, 3, 3] := by decide +kernel

end Verif.Nurbs
