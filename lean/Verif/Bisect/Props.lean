import Verif.Bisect.Model
import Mathlib.Algebra.Order.Field.Basic
import Mathlib.Algebra.Order.Archimedean.Basic
import Mathlib.Topology.Order.IntermediateValue
import Mathlib.Topology.Instances.Real.Lemmas
import Mathlib.Algebra.Order.Ring.Rat
import Mathlib.Tactic.Ring
import Mathlib.Tactic.Linarith
import Mathlib.Tactic.SplitIfs
import Mathlib.Tactic.Positivity

/-!
# `bisection1d` (C148)
-/

set_option linter.unusedSectionVars false

namespace Verif.Bisect

section
variable {F : Type} [Field F] [LinearOrder F] [IsStrictOrderedRing F]

/-- Whether the grid point `k` is reported: a zero, or a sign other than at the point before. -/
def Hit (f : F → F) (step start : F) (k : Nat) : Prop :=
  f (start + k * step) = 0 ∨
    f (start + k * step) ≠ 0 ∧ ¬ (0 < f (start + k * step) ↔ 0 < f (start + ((k - 1 : Nat) : F) * step))

/-- What holds after `k` rounds. -/
structure Scan (f : F → F) (step start : F) (k : Nat) (x : F) (sign : Bool) (roots : List (F × F)) (mn : Option F) : Prop where
  at_ : x = start + k * step
  sign_ : sign = decide (0 < f (start + ((k - 1 : Nat) : F) * step))
  roots_ : ∀ p, p ∈ roots ↔ ∃ l, l < k ∧ Hit f step start l ∧ p = (start + l * step, f (start + l * step))
  none_ : mn = none ↔ k = 0
  min_ : ∀ m, mn = some m → (∃ l, l < k ∧ m = f (start + l * step)) ∧ ∀ l, l < k → m ≤ f (start + l * step)

theorem scan_step (f : F → F) (step start : F) (k : Nat) (x : F) (sign : Bool) (roots : List (F × F)) (mn : Option F)
    (h : Scan f step start k x sign roots mn) :
    Scan f step start (k + 1) (x + step) (decide (0 < f x))
      (if f x = 0 then roots ++ [(x, f x)] else if decide (0 < f x) ≠ sign then roots ++ [(x, f x)] else roots)
      (lower mn (f x)) := by
  have hx := h.at_
  refine ⟨?_, ?_, ?_, ?_, ?_⟩
  · rw [hx]; push_cast; ring
  · rw [Nat.add_sub_cancel, hx]
  · intro p
    have key : p ∈ (if f x = 0 then roots ++ [(x, f x)] else if decide (0 < f x) ≠ sign then roots ++ [(x, f x)] else roots) ↔
        p ∈ roots ∨ (Hit f step start k ∧ p = (x, f x)) := by
      unfold Hit
      rw [← hx]
      by_cases h0 : f x = 0
      · rw [if_pos h0, List.mem_append, List.mem_singleton]
        simp [h0]
      · rw [if_neg h0]
        by_cases hs : decide (0 < f x) ≠ sign
        · rw [if_pos hs, List.mem_append, List.mem_singleton]
          have : ¬ (0 < f x ↔ 0 < f (start + ((k - 1 : Nat) : F) * step)) := by
            intro hc
            apply hs
            rw [h.sign_]
            exact decide_eq_decide.2 hc
          simp [h0, this]
        · rw [if_neg hs]
          have hs' : decide (0 < f x) = sign := by
            by_contra hc; exact hs hc
          rw [h.sign_, decide_eq_decide] at hs'
          simp [h0, hs']
    rw [key, h.roots_ p]
    constructor
    · rintro (⟨l, a, b, c⟩ | ⟨a, b⟩)
      · exact ⟨l, by omega, b, c⟩
      · exact ⟨k, by omega, a, by rw [b, hx]⟩
    · rintro ⟨l, a, b, c⟩
      rcases Nat.lt_or_ge l k with hl | hl
      · exact Or.inl ⟨l, hl, b, c⟩
      · obtain rfl : l = k := by omega
        exact Or.inr ⟨b, by rw [c, hx]⟩
  · cases mn with
    | none => simp [lower]
    | some m => unfold lower; dsimp only; split_ifs <;> simp
  · intro m hm
    cases hmn : mn with
    | none =>
      rw [hmn] at hm
      have hk : k = 0 := h.none_.1 hmn
      unfold lower at hm; dsimp only at hm
      obtain rfl : f x = m := Option.some.inj hm
      refine ⟨⟨k, by omega, by rw [hx]⟩, fun l hl => ?_⟩
      obtain rfl : l = k := by omega
      rw [hx]
    | some m0 =>
      rw [hmn] at hm
      obtain ⟨⟨l0, hl0, e0⟩, hmin⟩ := h.min_ m0 hmn
      unfold lower at hm; dsimp only at hm
      by_cases hlt : f x < m0
      · rw [if_pos hlt] at hm
        obtain rfl : f x = m := Option.some.inj hm
        refine ⟨⟨k, by omega, by rw [hx]⟩, fun l hl => ?_⟩
        rcases Nat.lt_or_ge l k with h1 | h1
        · exact le_trans (le_of_lt hlt) (hmin l h1)
        · obtain rfl : l = k := by omega
          rw [hx]
      · rw [if_neg hlt] at hm
        obtain rfl : m0 = m := Option.some.inj hm
        refine ⟨⟨l0, by omega, e0⟩, fun l hl => ?_⟩
        rcases Nat.lt_or_ge l k with h1 | h1
        · exact hmin l h1
        · obtain rfl : l = k := by omega
          rw [← hx]; exact not_lt.1 hlt

theorem scan_loop (f : F → F) (step start stop : F) (hs : 0 < step) (N : Nat) (hN : ∀ k : Nat, start + k * step ≤ stop ↔ k < N) (j : Nat) :
    ∀ (k : Nat) (x : F) (sign : Bool) (roots : List (F × F)) (mn : Option F), Scan f step start k x sign roots mn → k + j = N →
      ∀ fuel, j < fuel → ∃ x' sign' roots' mn', scanLoop f step stop fuel x sign roots mn = some (roots', mn') ∧
        Scan f step start N x' sign' roots' mn' := by
  induction j with
  | zero =>
    intro k x sign roots mn h hk fuel hf
    obtain ⟨g, rfl⟩ := Nat.exists_eq_succ_of_ne_zero (by omega : fuel ≠ 0)
    obtain rfl : k = N := by omega
    refine ⟨x, sign, roots, mn, ?_, h⟩
    rw [Nat.succ_eq_add_one, scanLoop, if_neg]
    rw [h.at_, hN]; omega
  | succ j ih =>
    intro k x sign roots mn h hk fuel hf
    obtain ⟨g, rfl⟩ := Nat.exists_eq_succ_of_ne_zero (by omega : fuel ≠ 0)
    obtain ⟨x', s', r', m', e, hS⟩ := ih (k + 1) _ _ _ _ (scan_step f step start k x sign roots mn h) (by omega) g (by omega)
    refine ⟨x', s', r', m', ?_, hS⟩
    rw [Nat.succ_eq_add_one, scanLoop, if_pos (by rw [h.at_, hN]; omega)]
    exact e

theorem grid_count [Archimedean F] (start stop step : F) (hs : 0 < step) : ∃ N : Nat, ∀ k : Nat, start + k * step ≤ stop ↔ k < N := by
  classical
  obtain ⟨M, hM⟩ := Archimedean.arch (stop - start + 1) hs
  have hM' : stop < start + M * step := by rw [nsmul_eq_mul] at hM; linarith
  have hex : ∃ k : Nat, stop < start + k * step := ⟨M, hM'⟩
  refine ⟨Nat.find hex, fun k => ⟨fun h => ?_, fun h => ?_⟩⟩
  · by_contra hc
    have hc := not_lt.1 hc
    have h1 := Nat.find_spec hex
    have h2 : ((Nat.find hex : Nat) : F) * step ≤ (k : F) * step := mul_le_mul_of_nonneg_right (by exact_mod_cast hc) (le_of_lt hs)
    linarith
  · exact not_lt.1 (Nat.find_min hex h)

/-- **C148.** `bisection1d` ends for every function and every positive step; with the grid `start + k step` up to `stop` it reports
exactly the grid points that are zeros or have another sign than their predecessor, with their values, and the least value on the
grid. -/
theorem C148_result [Archimedean F] (f : F → F) (step start stop : F) (hs : 0 < step) :
    ∃ N : Nat, (∀ k : Nat, start + k * step ≤ stop ↔ k < N) ∧ ∀ fuel, N < fuel → ∃ roots mn,
      bisection1d f step start stop fuel = some (roots, mn) ∧
      (∀ p, p ∈ roots ↔ ∃ k, k < N ∧ Hit f step start k ∧ p = (start + k * step, f (start + k * step))) ∧
      (mn = none ↔ stop < start) ∧
      ∀ m, mn = some m → (∃ k, k < N ∧ m = f (start + k * step)) ∧ ∀ k, k < N → m ≤ f (start + k * step) := by
  obtain ⟨N, hN⟩ := grid_count start stop step hs
  refine ⟨N, hN, fun fuel hf => ?_⟩
  have h0 : Scan f step start 0 start (decide (0 < f start)) [] none := by
    refine ⟨by simp, ?_, ?_, ?_, ?_⟩
    · simp
    · intro p; simp
    · simp
    · intro m h; cases h
  obtain ⟨x', s', r', m', e, hS⟩ := scan_loop f step start stop hs N hN N 0 _ _ _ _ h0 (by omega) fuel hf
  refine ⟨r', m', e, hS.roots_, ?_, hS.min_⟩
  rw [hS.none_]
  have := hN 0
  rw [Nat.cast_zero, zero_mul, add_zero] at this
  constructor
  · intro h; rw [h] at this; exact not_le.1 (fun hc => absurd (this.1 hc) (by omega))
  · intro h; by_contra hc; exact absurd (this.2 (by omega)) (not_le.2 h)

/-- **C148.** No change of sign between neighbouring grid points is missed. -/
theorem C148_complete [Archimedean F] (f : F → F) (step start stop : F) (hs : 0 < step) (k : Nat)
    (hk : start + ((k + 1 : Nat) : F) * step ≤ stop)
    (hsign : f (start + k * step) * f (start + ((k + 1 : Nat) : F) * step) < 0) :
    ∃ fuel roots mn, bisection1d f step start stop fuel = some (roots, mn) ∧
      (start + ((k + 1 : Nat) : F) * step, f (start + ((k + 1 : Nat) : F) * step)) ∈ roots := by
  obtain ⟨N, hN, H⟩ := C148_result f step start stop hs
  obtain ⟨roots, mn, e, hr, _⟩ := H (N + 1) (by omega)
  refine ⟨N + 1, roots, mn, e, ?_⟩
  rw [hr]
  refine ⟨k + 1, (hN _).1 hk, Or.inr ⟨?_, ?_⟩, rfl⟩
  · intro h0; rw [h0, mul_zero] at hsign; exact absurd hsign (lt_irrefl _)
  · rw [Nat.add_sub_cancel]
    intro hc
    rcases lt_trichotomy (f (start + k * step)) 0 with h | h | h
    · have h2 : 0 < f (start + ((k + 1 : Nat) : F) * step) := by
        by_contra hn
        exact absurd hsign (not_lt.2 (mul_nonneg_of_nonpos_of_nonpos (le_of_lt h) (not_lt.1 hn)))
      exact absurd (hc.1 h2) (not_lt.2 (le_of_lt h))
    · rw [h, zero_mul] at hsign; exact absurd hsign (lt_irrefl _)
    · have h2 := hc.2 h
      exact absurd hsign (not_lt.2 (le_of_lt (mul_pos h h2)))

/-- **C148, refuted.** Roots are not reported once: a zero on the grid that is followed by a positive value is reported twice. -/
theorem C148_twice_refuted [Archimedean F] (f : F → F) (step start stop : F) (hs : 0 < step) (k : Nat)
    (hk : start + ((k + 1 : Nat) : F) * step ≤ stop) (h0 : f (start + k * step) = 0) (h1 : 0 < f (start + ((k + 1 : Nat) : F) * step)) :
    ∃ fuel roots mn, bisection1d f step start stop fuel = some (roots, mn) ∧
      (start + k * step, 0) ∈ roots ∧
      (start + ((k + 1 : Nat) : F) * step, f (start + ((k + 1 : Nat) : F) * step)) ∈ roots := by
  obtain ⟨N, hN, H⟩ := C148_result f step start stop hs
  obtain ⟨roots, mn, e, hr, _⟩ := H (N + 1) (by omega)
  have hk1 := (hN _).1 hk
  refine ⟨N + 1, roots, mn, e, ?_, ?_⟩
  · rw [hr]
    exact ⟨k, by omega, Or.inl h0, by rw [h0]⟩
  · rw [hr]
    refine ⟨k + 1, hk1, Or.inr ⟨ne_of_gt h1, ?_⟩, rfl⟩
    rw [Nat.add_sub_cancel, h0]
    intro hc
    exact absurd (hc.1 h1) (lt_irrefl _)

/-- **C148, refuted.** Roots can be missed: for every grid of at least two points there is a polynomial with a root between them that is
reported nowhere. -/
theorem C148_missed_refuted [Archimedean F] (step start stop : F) (hs : 0 < step) (h1 : start + step ≤ stop) :
    ∃ c : F, start < c ∧ c < stop ∧ ∃ fuel mn, bisection1d (fun x => (x - c) ^ 2) step start stop fuel = some ([], mn) := by
  refine ⟨start + step / 2, by linarith, by linarith, ?_⟩
  obtain ⟨N, hN, H⟩ := C148_result (fun x => (x - (start + step / 2)) ^ 2) step start stop hs
  obtain ⟨roots, mn, e, hr, _⟩ := H (N + 1) (by omega)
  have pos : ∀ k : Nat, 0 < (start + k * step - (start + step / 2)) ^ 2 := by
    intro k
    have hne : start + k * step - (start + step / 2) ≠ 0 := by
      rcases Nat.eq_zero_or_pos k with rfl | hk
      · intro hc; rw [Nat.cast_zero] at hc; linarith
      · have : (1 : F) ≤ k := by exact_mod_cast hk
        intro hc
        nlinarith
    positivity
  have : roots = [] := by
    rw [List.eq_nil_iff_forall_not_mem]
    intro p hp
    obtain ⟨k, _, hh, _⟩ := (hr p).1 hp
    rcases hh with h | ⟨_, h⟩
    · exact absurd h (ne_of_gt (pos k))
    · exact h ⟨fun _ => pos _, fun _ => pos _⟩
  exact ⟨N + 1, mn, by rw [← this]; exact e⟩

/-- `x - 1` on the grid 0, 1/2, ..., 2: the root is reported at 1 and at 3/2. -/
example : bisection1d (fun x : ℚ => x - 1) (1 / 2) 0 2 10 = some ([(1, 0), (3 / 2, 1 / 2)], some (-1)) := by decide +kernel

end

/-- **C148.** For a continuous function there is a root within one step before every reported point. -/
theorem C148_sound (f : ℝ → ℝ) (hf : Continuous f) (step start stop : ℝ) (hs : 0 < step) (fuel : Nat) (roots : List (ℝ × ℝ)) (mn : Option ℝ)
    (hfuel : stop < start + fuel * step - step)
    (e : bisection1d f step start stop fuel = some (roots, mn)) (p : ℝ × ℝ) (hp : p ∈ roots) :
    p.2 = f p.1 ∧ ∃ r, p.1 - step ≤ r ∧ r ≤ p.1 ∧ f r = 0 := by
  obtain ⟨N, hN, H⟩ := C148_result f step start stop hs
  have hNf : N < fuel := by
    rcases fuel with _ | g
    · simp only [bisection1d, scanLoop] at e
      cases e
    · have : ¬ start + (g : ℝ) * step ≤ stop := by push_cast at hfuel; intro hc; linarith
      rw [hN] at this
      omega
  obtain ⟨roots', mn', e', hr, _⟩ := H fuel hNf
  rw [e] at e'
  obtain ⟨rfl, rfl⟩ := Prod.mk.inj (Option.some.inj e')
  obtain ⟨k, _, hh, rfl⟩ := (hr p).1 hp
  refine ⟨rfl, ?_⟩
  dsimp only
  rcases hh with h | ⟨hne, h⟩
  · exact ⟨_, by linarith, le_refl _, h⟩
  · have hk : k ≠ 0 := by
      rintro rfl
      apply h
      simp
    obtain ⟨l, rfl⟩ := Nat.exists_eq_succ_of_ne_zero hk
    rw [Nat.succ_eq_add_one, Nat.add_sub_cancel] at h
    rw [Nat.succ_eq_add_one] at hne ⊢
    have ep : start + ((l + 1 : Nat) : ℝ) * step - step = start + l * step := by push_cast; ring
    have hle : start + (l : ℝ) * step ≤ start + ((l + 1 : Nat) : ℝ) * step := by linarith
    rw [ep]
    by_cases h1 : 0 < f (start + ((l + 1 : Nat) : ℝ) * step)
    · have h2 : f (start + (l : ℝ) * step) ≤ 0 := not_lt.1 (fun hc => h ⟨fun _ => hc, fun _ => h1⟩)
      obtain ⟨r, hr, e0⟩ := intermediate_value_Icc hle hf.continuousOn ⟨h2, le_of_lt h1⟩
      exact ⟨r, hr.1, hr.2, e0⟩
    · have h2 : 0 < f (start + (l : ℝ) * step) := by
        by_contra hc
        exact h ⟨fun a => absurd a h1, fun a => absurd a hc⟩
      obtain ⟨r, hr, e0⟩ := intermediate_value_Icc' hle hf.continuousOn ⟨not_lt.1 h1, le_of_lt h2⟩
      exact ⟨r, hr.1, hr.2, e0⟩

end Verif.Bisect
