import Verif.Gm.Model2
import Verif.Gm.Props2

/-! # Intersections of two surfaces over their Bezier patches (C461) -/

set_option linter.unusedSectionVars false

namespace Verif.Gm

open Verif.Mol (V)
open Verif.Ccx (Box aabbOverlap In)

variable {K : Type} [Field K] [LinearOrder K] [IsStrictOrderedRing K]
variable {G : Type} (M : Maps K G) (nrm : V K → K) (lp : List (Row K) → Option (Row K)) (tol : K)

/-- **C461, soundness.** Every pair of the result comes by subdivision from a patch of the first and a patch of the second surface, in this order, and
the boxes of the pair have a common point. -/
theorem C461_sound (k : ℕ) (pairs r : List (G × G)) (h : detect M nrm lp tol k pairs = some r) :
    ∀ x ∈ r, ∃ p ∈ pairs, M.gjk p.1 p.2 = true ∧ Desc M p.1 x.1 ∧ Desc M p.2 x.2 ∧ aabbOverlap (M.box x.1) (M.box x.2) = true := by
  intro x hx
  rw [collect_mem _ _ _ h] at hx
  obtain ⟨p, hp, s, hs, hx⟩ := hx
  split_ifs at hs with h1 h2
  · cases hs; cases hx
  · exact ⟨p, hp, h1, C233_sound M nrm lp tol k p.1 p.2 s hs x hx⟩
  · cases hs; cases hx

/-- **C461, end.** When after `k` subdivisions all boxes of the first surface are small the search ends. -/
theorem C461_ends (k : ℕ) (pairs : List (G × G)) (lv : ℕ → G → Prop) (h0 : ∀ p ∈ pairs, lv k p.1) (hst : ∀ n g, lv (n + 1) g → ∀ c ∈ M.sub g, lv n c)
    (ht : 0 < tol) (hs : ∀ g, lv 0 g → Ccx.dist2 (M.box g).hi (M.box g).lo < tol ^ 2) : ∃ r, detect M nrm lp tol (k + 1) pairs = some r := by
  apply collect_some
  intro p hp
  split_ifs
  · exact ⟨_, rfl⟩
  · exact C233_terminates M nrm lp tol k p.1 p.2 lv (h0 p hp) hst ht hs
  · exact ⟨_, rfl⟩

/-- **C461, completeness, part.** A common point of the two surfaces is in a returned pair when the pairs of patches whose boxes meet are given, the
boxes enclose the patches, children cover their parent, `gjk` finds all collisions and no pair with the point is rejected as flat. -/
theorem C461_complete_partial (on : G → V K → Prop) (q : V K) (s1 s2 : List G) (pairs : List (G × G))
    (hpairs : ∀ a ∈ s1, ∀ b ∈ s2, aabbOverlap (M.box a) (M.box b) = true → (a, b) ∈ pairs) (hbox : ∀ g, on g q → In (M.box g) q)
    (hsub : ∀ g, on g q → ∃ c ∈ M.sub g, on c q) (hgjk : ∀ a b, on a q → on b q → M.gjk a b = true) (hlp : EqSpec lp) (k : ℕ)
    (h1 : ∃ a ∈ s1, on a q) (h2 : ∃ b ∈ s2, on b q)
    (ht : ∀ a b, on a q → on b q → ¬ small (M.box a) tol → ¬ thin (M.box a) (M.box b) tol) (r : List (G × G))
    (h : detect M nrm lp tol k pairs = some r) : ∃ x ∈ r, on x.1 q ∧ on x.2 q := by
  obtain ⟨a, ha, oa⟩ := h1
  obtain ⟨b, hb, ob⟩ := h2
  have hp := hpairs a ha b hb (Ccx.overlap_of_common (hbox a oa) (hbox b ob))
  obtain ⟨s, hs⟩ := collect_all _ _ _ h _ hp
  have hs' := hs
  dsimp only at hs'
  rw [if_neg (not_not.2 (hgjk a b oa ob)), C232_separate_refuted nrm lp hlp, if_neg (by simp)] at hs'
  obtain ⟨x, hx, ox⟩ := C233_complete_partial M nrm lp tol on q hbox hsub hgjk hlp k a b oa ob (fun a b _ _ => ht a b) s hs'
  exact ⟨x, (collect_mem _ _ _ h x).2 ⟨_, hp, s, hs, hx⟩, ox⟩

/-- **C461, refuted.** When every patch of one of the surfaces lies in a horizontal plane and the patches of the first are not small, no pair is
returned, wherever the surfaces cross. -/
theorem C461_flat_refuted (ht : 0 < tol) (k : ℕ) (pairs : List (G × G)) (hz : ∀ p ∈ pairs, (M.box p.1).lo.z = (M.box p.1).hi.z ∨ (M.box p.2).lo.z = (M.box p.2).hi.z)
    (hs : ∀ p ∈ pairs, tol ^ 2 ≤ Ccx.dist2 (M.box p.1).hi (M.box p.1).lo) : detect M nrm lp tol (k + 1) pairs = some [] := by
  unfold detect
  induction pairs with
  | nil => rfl
  | cons p l ih =>
    unfold collect
    rw [ih (fun q hq => hz q (List.mem_cons_of_mem _ hq)) (fun q hq => hs q (List.mem_cons_of_mem _ hq))]
    have hp : deep M nrm lp tol (k + 1) p.1 p.2 = some [] := by
      rcases hz p List.mem_cons_self with h | h
      · exact C233_flat_refuted M nrm lp tol ht k p.1 p.2 h (hs p List.mem_cons_self)
      · exact C233_flat_refuted' M nrm lp tol ht k p.1 p.2 h (hs p List.mem_cons_self)
    rw [hp]
    split_ifs <;> rfl

/-- Cases: the cubes `exM` give a pair; two crossing squares give none. -/
example : detect exM (fun _ => 1) (fun _ => none) 1 2 [(0, 0)] = some [(1, 1)] ∧
    detect (G := Bool) (K := ℚ) ⟨fun b => if b then ⟨⟨0, 0, 0⟩, ⟨1, 1, 0⟩⟩ else ⟨⟨1 / 2, 0, -1⟩, ⟨1 / 2, 1, 1⟩⟩, fun _ => [],
      fun _ => ⟨⟨0, 0, 1⟩, ⟨0, 0, 1⟩⟩, fun b => [b, b, b, b], fun _ _ => true⟩ (fun _ => 1) (fun _ => none) (1 / 100) 1 [(true, false)] = some [] :=
  ⟨by decide +kernel, by decide +kernel⟩

end Verif.Gm
