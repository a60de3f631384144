import Verif.Integ.Model
import Mathlib.Algebra.Order.Field.Basic
import Mathlib.Algebra.Order.Archimedean.Basic
import Mathlib.Algebra.Module.LinearMap.End
import Mathlib.Tactic.Module
import Mathlib.Tactic.Ring
import Mathlib.Tactic.FieldSimp
import Mathlib.Tactic.Linarith
import Mathlib.Tactic.Positivity
import Mathlib.Tactic.SplitIfs
import Mathlib.Algebra.Order.Ring.Rat
import Mathlib.Algebra.Field.Rat

/-!
# Properties of `rk45_vector` (C138, C139)
-/

set_option linter.unusedSectionVars false

namespace Verif.Integ
variable {F : Type} [Field F] [LinearOrder F] [IsStrictOrderedRing F]
variable {V : Type} [AddCommGroup V] [Module F V]

/-- **C138.** For every linear system `y' = A y` one step gives the Taylor polynomial of the exponential: to order four in the
first value and to order five in the second. -/
theorem C138_linear (A : V →ₗ[F] V) (t : F) (y : V) (h : F) :
    rkStep (fun _ y => A y) t y h =
      (y + h • A y + (h ^ 2 / 2) • A (A y) + (h ^ 3 / 6) • A (A (A y)) + (h ^ 4 / 24) • A (A (A (A y))) +
        (h ^ 5 / 104) • A (A (A (A (A y)))),
       y + h • A y + (h ^ 2 / 2) • A (A y) + (h ^ 3 / 6) • A (A (A y)) + (h ^ 4 / 24) • A (A (A (A y))) +
        (h ^ 5 / 120) • A (A (A (A (A y)))) + (h ^ 6 / 2080) • A (A (A (A (A (A y)))))) := by
  unfold rkStep
  dsimp only
  simp only [map_add, map_sub, map_smul]
  refine Prod.ext ?_ ?_
  · dsimp only; match_scalars <;> ring
  · dsimp only; match_scalars <;> ring

/-- **C138.** For a right-hand side that is a polynomial in `t` the first value is exact up to degree three, the second up to degree
four; the difference of the two is what the step size control sees. -/
theorem C138_quadrature (v0 v1 v2 v3 v4 : V) (t : F) (y : V) (h : F) :
    (rkStep (fun s _ => v0 + s • v1 + (s ^ 2) • v2 + (s ^ 3) • v3) t y h).1 =
      y + ((t + h) - t) • v0 + (((t + h) ^ 2 - t ^ 2) / 2) • v1 + (((t + h) ^ 3 - t ^ 3) / 3) • v2 +
        (((t + h) ^ 4 - t ^ 4) / 4) • v3 ∧
    (rkStep (fun s _ => v0 + s • v1 + (s ^ 2) • v2 + (s ^ 3) • v3 + (s ^ 4) • v4) t y h).2 =
      y + ((t + h) - t) • v0 + (((t + h) ^ 2 - t ^ 2) / 2) • v1 + (((t + h) ^ 3 - t ^ 3) / 3) • v2 +
        (((t + h) ^ 4 - t ^ 4) / 4) • v3 + (((t + h) ^ 5 - t ^ 5) / 5) • v4 := by
  unfold rkStep
  dsimp only
  constructor
  · match_scalars <;> ring
  · match_scalars <;> ring

/-- **C138.** A step in a uniformly moving frame: for every (non-linear) `g` and velocity `s` the values for `y' = s + g (y - t s)` are those
for `z' = g z` moved by `(t + h) s`.  So the times at which `f` is called fit the weights of the slopes. -/
theorem C138_moving_frame (g : V → V) (s : V) (t t' : F) (y : V) (h : F) :
    rkStep (fun u y => s + g (y - u • s)) t y h =
      ((rkStep (fun _ z => g z) t' (y - t • s) h).1 + (t + h) • s, (rkStep (fun _ z => g z) t' (y - t • s) h).2 + (t + h) • s) := by
  unfold rkStep
  dsimp only
  generalize hg1 : g (y - t • s) = g1
  have a2 : y + (1 / 4 : F) • h • (s + g1) - (t + 1 / 4 * h) • s = y - t • s + (1 / 4 : F) • h • g1 := by module
  rw [a2]
  generalize hg2 : g (y - t • s + (1 / 4 : F) • h • g1) = g2
  have a3 : y + (3 / 32 : F) • h • (s + g1) + (9 / 32 : F) • h • (s + g2) - (t + 3 / 8 * h) • s =
      y - t • s + (3 / 32 : F) • h • g1 + (9 / 32 : F) • h • g2 := by match_scalars <;> ring
  rw [a3]
  generalize hg3 : g (y - t • s + (3 / 32 : F) • h • g1 + (9 / 32 : F) • h • g2) = g3
  have a4 : y + (1932 / 2197 : F) • h • (s + g1) - (7200 / 2197 : F) • h • (s + g2) + (7296 / 2197 : F) • h • (s + g3) - (t + 12 / 13 * h) • s =
      y - t • s + (1932 / 2197 : F) • h • g1 - (7200 / 2197 : F) • h • g2 + (7296 / 2197 : F) • h • g3 := by match_scalars <;> ring
  rw [a4]
  generalize hg4 : g (y - t • s + (1932 / 2197 : F) • h • g1 - (7200 / 2197 : F) • h • g2 + (7296 / 2197 : F) • h • g3) = g4
  have a5 : y + (439 / 216 : F) • h • (s + g1) - (8 : F) • h • (s + g2) + (3680 / 513 : F) • h • (s + g3) - (845 / 4104 : F) • h • (s + g4) -
      (t + h) • s = y - t • s + (439 / 216 : F) • h • g1 - (8 : F) • h • g2 + (3680 / 513 : F) • h • g3 - (845 / 4104 : F) • h • g4 := by
    match_scalars <;> ring
  rw [a5]
  generalize hg5 : g (y - t • s + (439 / 216 : F) • h • g1 - (8 : F) • h • g2 + (3680 / 513 : F) • h • g3 - (845 / 4104 : F) • h • g4) = g5
  have a6 : y - (8 / 27 : F) • h • (s + g1) + (2 : F) • h • (s + g2) - (3544 / 2565 : F) • h • (s + g3) + (1859 / 4104 : F) • h • (s + g4) -
      (11 / 40 : F) • h • (s + g5) - (t + 1 / 2 * h) • s =
      y - t • s - (8 / 27 : F) • h • g1 + (2 : F) • h • g2 - (3544 / 2565 : F) • h • g3 + (1859 / 4104 : F) • h • g4 - (11 / 40 : F) • h • g5 := by
    match_scalars <;> ring
  rw [a6]
  refine Prod.ext ?_ ?_
  · dsimp only; match_scalars <;> ring
  · dsimp only; match_scalars <;> ring

/-- The oscillator of the module's own example: `x' = y, y' = -x`. -/
example : rkStep (fun (_ : ℚ) (y : ℚ × ℚ) => (y.2, -y.1)) 0 (1, 0) 1 =
    ((13 / 24, -(5 / 6 + 1 / 104)), (13 / 24 - 1 / 2080, -(5 / 6 + 1 / 120))) := by decide +kernel

/-- The relation of two consecutive pairs: time goes on by at most `hmax` and not beyond `t1`, the value is the value of order five
of one step, and the two values of that step differ by at most `tol`. -/
def Follows (norm : V → F) (f : F → V → V) (t1 tol hmax : F) (p q : F × V) : Prop :=
  p.1 < q.1 ∧ q.1 ≤ t1 ∧ q.1 - p.1 ≤ hmax ∧ q.2 = (rkStep f p.1 p.2 (q.1 - p.1)).2 ∧
    norm ((rkStep f p.1 p.2 (q.1 - p.1)).2 - (rkStep f p.1 p.2 (q.1 - p.1)).1) ≤ tol

theorem nextH_pos (pw : F → F) (tol hmax hmin h err : F) (h1 : 0 < hmax) (h2 : 0 < hmin) : 0 < nextH pw tol hmax hmin h err := by
  unfold nextH
  split_ifs
  · exact lt_min h1 h2
  · exact h1
  · exact lt_min h1 (lt_of_lt_of_le h2 (le_max_left _ _))

theorem nextH_le (pw : F → F) (tol hmax hmin h err : F) : nextH pw tol hmax hmin h err ≤ hmax := by
  unfold nextH
  split_ifs
  · exact min_le_left _ _
  · exact le_refl _
  · exact min_le_left _ _

theorem rkLoop_spec (norm : V → F) (pw : F → F) (f : F → V → V) (t1 tol hmax hmin : F) (h1 : 0 < hmax) (h2 : 0 < hmin) (fuel : Nat) :
    ∀ t y h l, 0 < h → h ≤ hmax → t ≤ t1 → rkLoop norm pw f t1 tol hmax hmin fuel t y h = some l →
      List.IsChain (Follows norm f t1 tol hmax) ((t, y) :: l) ∧ (((t, y) :: l).getLast (by simp)).1 = t1 := by
  induction fuel with
  | zero => intro t y h l _ _ _ e; cases e
  | succ fuel ih =>
    intro t y h l hp hm ht e
    rw [rkLoop] at e
    by_cases hlt : t < t1
    · rw [if_pos hlt] at e
      dsimp only at e
      obtain ⟨h', hh'⟩ : ∃ h', (if t1 < t + h then t1 - t else h) = h' := ⟨_, rfl⟩
      rw [hh'] at e
      have p' : 0 < h' ∧ h' ≤ hmax ∧ t + h' ≤ t1 := by
        rw [← hh']
        split_ifs with hc
        · exact ⟨by linarith, by linarith, by linarith⟩
        · exact ⟨hp, hm, not_lt.1 hc⟩
      by_cases he : norm ((rkStep f t y h').2 - (rkStep f t y h').1) ≤ tol
      · rw [if_pos he] at e
        cases hr : rkLoop norm pw f t1 tol hmax hmin fuel (t + h') (rkStep f t y h').2
            (nextH pw tol hmax hmin h' (norm ((rkStep f t y h').2 - (rkStep f t y h').1))) with
        | none => rw [hr] at e; cases e
        | some l' =>
          rw [hr] at e
          injection e with e
          subst e
          obtain ⟨c, g⟩ := ih _ _ _ _ (nextH_pos pw tol hmax hmin _ _ h1 h2) (nextH_le pw tol hmax hmin _ _) p'.2.2 hr
          refine ⟨List.isChain_cons_cons.2 ⟨?_, c⟩, ?_⟩
          · have e1 : t + h' - t = h' := by ring
            refine ⟨by dsimp only; linarith [p'.1], p'.2.2, ?_, ?_, ?_⟩ <;> dsimp only <;> rw [e1]
            · exact p'.2.1
            · exact he
          · rw [List.getLast_cons (by simp)]; exact g
      · rw [if_neg he] at e
        exact ih _ _ _ _ (nextH_pos pw tol hmax hmin _ _ h1 h2) (nextH_le pw tol hmax hmin _ _) ht e
    · rw [if_neg hlt] at e
      injection e with e
      subst e
      exact ⟨List.isChain_singleton _, le_antisymm ht (not_lt.1 hlt)⟩

/-- **C139.** When `rk45_vector` returns, the times increase strictly from `t0` in steps of at most `hmax`, end exactly at `t1`, and each
value follows from the one before by an accepted step. -/
theorem C139_result (norm : V → F) (pw : F → F) (f : F → V → V) (t0 : F) (y0 : V) (t1 tol hmax hmin : F) (h1 : 0 < hmax) (h2 : 0 < hmin)
    (ht : t0 ≤ t1) (fuel : Nat) (l : List (F × V)) (e : rk45 norm pw f t0 y0 t1 tol hmax hmin fuel = some l) :
    List.IsChain (Follows norm f t1 tol hmax) ((t0, y0) :: l) ∧ (((t0, y0) :: l).getLast (by simp)).1 = t1 :=
  rkLoop_spec norm pw f t1 tol hmax hmin h1 h2 fuel t0 y0 hmax l h1 (le_refl _) ht e

/-- **C139.** Nothing is returned for an empty span; the initial pair itself is never part of the result. -/
theorem C139_empty (norm : V → F) (pw : F → F) (f : F → V → V) (t0 : F) (y0 : V) (t1 tol hmax hmin : F) (ht : t1 ≤ t0) (fuel : Nat) :
    rk45 norm pw f t0 y0 t1 tol hmax hmin (fuel + 1) = some [] := by
  unfold rk45 rkLoop; rw [if_neg (not_lt.2 ht)]

/-- `y' = t` from 0 to 1 in steps of at most 2/5. -/
example : rk45 (fun x : ℚ => |x|) (fun _ => 1) (fun t _ => t) 0 1 1 (1 / 10) (2 / 5) (1 / 10) 5 =
    some [(2 / 5, 1 + 2 / 25), (4 / 5, 1 + 8 / 25), (1, 3 / 2)] := by decide +kernel

theorem terminates_aux [Archimedean F] (norm : V → F) (pw : F → F) (f : F → V → V) (t1 tol hmax hmin : F) (h2 : 0 < hmin)
    (hmm : hmin ≤ hmax) (htol : 0 ≤ tol) (hpw : ∀ x, 0 ≤ x → x ≤ 1 → pw x ≤ 1) (hn : ∀ v, 0 ≤ norm v)
    (hacc : ∀ t y h, 0 < h → h ≤ hmin → norm ((rkStep f t y h).2 - (rkStep f t y h).1) ≤ tol) (M : Nat) :
    ∀ t y, t1 - t ≤ M * hmin → ∀ K : Nat, ∀ h, hmin ≤ h → h ≤ hmax → h * (9 / 10) ^ K ≤ hmin →
      ∃ fuel l, rkLoop norm pw f t1 tol hmax hmin fuel t y h = some l := by
  have hpos : 0 < hmax := lt_of_lt_of_le h2 hmm
  have big : ∃ K : Nat, hmax * (9 / 10 : F) ^ K ≤ hmin := by
    obtain ⟨K, hK⟩ := exists_pow_lt_of_lt_one (div_pos h2 hpos) (by norm_num : (9 / 10 : F) < 1)
    refine ⟨K, ?_⟩
    have := (lt_div_iff₀ hpos).1 hK
    linarith
  induction M with
  | zero =>
    intro t y hM K h _ _ _
    refine ⟨1, [], ?_⟩
    rw [rkLoop, if_neg (not_lt.2 (by simpa using hM))]
  | succ M ihM =>
    intro t y hM K
    induction K with
    | zero =>
      intro h a1 a2 a3
      rw [pow_zero, mul_one] at a3
      by_cases hlt : t < t1
      · obtain ⟨h', hh'⟩ : ∃ h', (if t1 < t + h then t1 - t else h) = h' := ⟨_, rfl⟩
        have p' : 0 < h' ∧ h' ≤ hmin ∧ (t + h' = t1 ∨ h' = h) := by
          rw [← hh']
          split_ifs with hc
          · exact ⟨by linarith, by linarith, Or.inl (by ring)⟩
          · exact ⟨by linarith, a3, Or.inr rfl⟩
        have he := hacc t y h' p'.1 p'.2.1
        have next : ∃ fuel l, rkLoop norm pw f t1 tol hmax hmin fuel (t + h') (rkStep f t y h').2
            (nextH pw tol hmax hmin h' (norm ((rkStep f t y h').2 - (rkStep f t y h').1))) = some l := by
          rcases p'.2.2 with e | e
          · refine ⟨1, [], ?_⟩
            rw [rkLoop, if_neg (not_lt.2 (le_of_eq e.symm))]
          · obtain ⟨K', hK'⟩ := big
            have n1 := nextH_le pw tol hmax hmin h' (norm ((rkStep f t y h').2 - (rkStep f t y h').1))
            have n2 : hmin ≤ nextH pw tol hmax hmin h' (norm ((rkStep f t y h').2 - (rkStep f t y h').1)) := by
              unfold nextH
              split_ifs
              · exact le_min hmm (le_refl _)
              · exact hmm
              · exact le_min hmm (le_max_left _ _)
            refine ihM _ _ ?_ K' _ n2 n1 ?_
            · push_cast at hM; rw [e]; linarith
            · exact le_trans (mul_le_mul_of_nonneg_right n1 (by positivity)) hK'
        obtain ⟨fuel, l, e⟩ := next
        refine ⟨fuel + 1, (t + h', (rkStep f t y h').2) :: l, ?_⟩
        rw [rkLoop, if_pos hlt]
        dsimp only
        rw [hh', if_pos he, e]
      · exact ⟨1, [], by rw [rkLoop, if_neg hlt]⟩
    | succ K ihK =>
      intro h a1 a2 a3
      by_cases hlt : t < t1
      · obtain ⟨h', hh'⟩ : ∃ h', (if t1 < t + h then t1 - t else h) = h' := ⟨_, rfl⟩
        have p' : 0 < h' ∧ h' ≤ h ∧ (t + h' = t1 ∨ h' = h) := by
          rw [← hh']
          split_ifs with hc
          · exact ⟨by linarith, by linarith, Or.inl (by ring)⟩
          · exact ⟨by linarith, le_refl _, Or.inr rfl⟩
        have n1 := nextH_le pw tol hmax hmin h' (norm ((rkStep f t y h').2 - (rkStep f t y h').1))
        have n2 : hmin ≤ nextH pw tol hmax hmin h' (norm ((rkStep f t y h').2 - (rkStep f t y h').1)) := by
          unfold nextH
          split_ifs
          · exact le_min hmm (le_refl _)
          · exact hmm
          · exact le_min hmm (le_max_left _ _)
        by_cases he : norm ((rkStep f t y h').2 - (rkStep f t y h').1) ≤ tol
        · have next : ∃ fuel l, rkLoop norm pw f t1 tol hmax hmin fuel (t + h') (rkStep f t y h').2
              (nextH pw tol hmax hmin h' (norm ((rkStep f t y h').2 - (rkStep f t y h').1))) = some l := by
            rcases p'.2.2 with e | e
            · refine ⟨1, [], ?_⟩
              rw [rkLoop, if_neg (not_lt.2 (le_of_eq e.symm))]
            · obtain ⟨K', hK'⟩ := big
              refine ihM _ _ ?_ K' _ n2 n1 ?_
              · push_cast at hM; rw [e]; linarith
              · exact le_trans (mul_le_mul_of_nonneg_right n1 (by positivity)) hK'
          obtain ⟨fuel, l, e⟩ := next
          refine ⟨fuel + 1, (t + h', (rkStep f t y h').2) :: l, ?_⟩
          rw [rkLoop, if_pos hlt]
          dsimp only
          rw [hh', if_pos he, e]
        · obtain ⟨err, herr⟩ : ∃ err, norm ((rkStep f t y h').2 - (rkStep f t y h').1) = err := ⟨_, rfl⟩
          rw [herr] at he n1 n2
          have hlarge : tol < err := not_le.1 he
          have epos : 0 < err := lt_of_le_of_lt htol hlarge
          have n3 : nextH pw tol hmax hmin h' err ≤ max hmin (9 / 10 * h') := by
            unfold nextH
            rw [if_neg (ne_of_gt epos)]
            refine le_trans (min_le_right _ _) (max_le_max (le_refl _) ?_)
            have := hpw (tol / err) (div_nonneg htol (le_of_lt epos)) ((div_le_one epos).2 (le_of_lt hlarge))
            have hh : 0 ≤ 9 / 10 * h' := by linarith [p'.1]
            calc 9 / 10 * h' * pw (tol / err) ≤ 9 / 10 * h' * 1 := mul_le_mul_of_nonneg_left this hh
              _ = 9 / 10 * h' := by ring
          obtain ⟨fuel, l, e⟩ := ihK _ n2 n1 (by
            have pk : (0 : F) < (9 / 10) ^ K := by positivity
            refine le_trans (mul_le_mul_of_nonneg_right n3 (le_of_lt pk)) ?_
            rw [max_mul_of_nonneg _ _ (le_of_lt pk)]
            refine max_le ?_ ?_
            · have : (9 / 10 : F) ^ K ≤ 1 := pow_le_one₀ (by norm_num) (by norm_num)
              calc hmin * (9 / 10) ^ K ≤ hmin * 1 := mul_le_mul_of_nonneg_left this (le_of_lt h2)
                _ = hmin := by ring
            · calc 9 / 10 * h' * (9 / 10) ^ K ≤ 9 / 10 * h * (9 / 10) ^ K :=
                    mul_le_mul_of_nonneg_right (by linarith [p'.2.1]) (le_of_lt pk)
                _ = h * (9 / 10) ^ (K + 1) := by rw [pow_succ]; ring
                _ ≤ hmin := a3)
          refine ⟨fuel + 1, l, ?_⟩
          rw [rkLoop, if_pos hlt]
          dsimp only
          rw [hh', herr, if_neg he, e]
      · exact ⟨1, [], by rw [rkLoop, if_neg hlt]⟩

/-- **C139, what holds of termination.** If steps of at most `hmin` are always accepted, the loop ends.  Missing: right-hand sides that
need smaller steps. -/
theorem C139_terminates_partial [Archimedean F] (norm : V → F) (pw : F → F) (f : F → V → V) (t0 : F) (y0 : V) (t1 tol hmax hmin : F)
    (h2 : 0 < hmin) (hmm : hmin ≤ hmax) (htol : 0 ≤ tol) (hpw : ∀ x, 0 ≤ x → x ≤ 1 → pw x ≤ 1) (hn : ∀ v, 0 ≤ norm v)
    (hacc : ∀ t y h, 0 < h → h ≤ hmin → norm ((rkStep f t y h).2 - (rkStep f t y h).1) ≤ tol) :
    ∃ fuel l, rk45 norm pw f t0 y0 t1 tol hmax hmin fuel = some l := by
  obtain ⟨M, hM⟩ := exists_nat_ge ((t1 - t0) / hmin)
  have hM' : t1 - t0 ≤ M * hmin := (div_le_iff₀ h2).1 hM
  have hpos : 0 < hmax := lt_of_lt_of_le h2 hmm
  obtain ⟨K, hK⟩ := exists_pow_lt_of_lt_one (div_pos h2 hpos) (by norm_num : (9 / 10 : F) < 1)
  have hK' := (lt_div_iff₀ hpos).1 hK
  exact terminates_aux norm pw f t1 tol hmax hmin h2 hmm htol hpw hn hacc M t0 y0 hM' K hmax hmm (le_refl _) (by linarith)

/-- The right-hand side `t` is always accepted. -/
example : ∀ t y h : ℚ, 0 < h → h ≤ 1 → |(rkStep (fun s (_ : ℚ) => s) t y h).2 - (rkStep (fun s (_ : ℚ) => s) t y h).1| ≤ 0 := by
  intro t y h _ _
  have e : (rkStep (fun s (_ : ℚ) => s) t y h).2 - (rkStep (fun s (_ : ℚ) => s) t y h).1 = 0 := by
    unfold rkStep; simp only [smul_eq_mul]; ring
  rw [e, abs_zero]

/-- **C139, refuted.** The loop never ends when steps of every size that it can try are rejected: the step is never made smaller than
`hmin`. -/
theorem C139_never_refuted (norm : V → F) (pw : F → F) (f : F → V → V) (t0 : F) (y0 : V) (t1 tol hmax hmin : F)
    (h2 : 0 < hmin) (hmm : hmin ≤ hmax) (ht : t0 + hmin ≤ t1)
    (hrej : ∀ h, hmin ≤ h → h ≤ hmax → tol < norm ((rkStep f t0 y0 h).2 - (rkStep f t0 y0 h).1)) (fuel : Nat) :
    rk45 norm pw f t0 y0 t1 tol hmax hmin fuel = none := by
  unfold rk45
  have key : ∀ fuel h, hmin ≤ h → h ≤ hmax → rkLoop norm pw f t1 tol hmax hmin fuel t0 y0 h = none := by
    intro fuel
    induction fuel with
    | zero => intro h _ _; rfl
    | succ fuel ih =>
      intro h a1 a2
      rw [rkLoop, if_pos (by linarith)]
      dsimp only
      obtain ⟨h', hh'⟩ : ∃ h', (if t1 < t0 + h then t1 - t0 else h) = h' := ⟨_, rfl⟩
      rw [hh']
      have p' : hmin ≤ h' ∧ h' ≤ hmax := by
        rw [← hh']
        split_ifs with hc
        · exact ⟨by linarith, by linarith⟩
        · exact ⟨a1, a2⟩
      rw [if_neg (not_le.2 (hrej h' p'.1 p'.2))]
      apply ih
      · unfold nextH
        split_ifs
        · exact le_min hmm (le_refl _)
        · exact hmm
        · exact le_min hmm (le_max_left _ _)
      · exact nextH_le _ _ _ _ _ _
  exact key fuel hmax hmm (le_refl _)

/-- The two values for `y' = K t⁴` differ by a multiple of `h⁵`. -/
theorem quartic_gap (K t y h : F) :
    (rkStep (fun s _ => K * s ^ 4) t y h).2 - (rkStep (fun s _ => K * s ^ 4) t y h).1 = K * h ^ 5 * (1 / 2080) := by
  unfold rkStep
  simp only [smul_eq_mul]
  ring

/-- **C139, refuted.** For all settings there is a polynomial right-hand side on which `rk45_vector` never returns. -/
theorem C139_quartic_refuted (pw : F → F) (t0 y0 t1 tol hmax hmin : F) (h2 : 0 < hmin) (hmm : hmin ≤ hmax) (ht : t0 + hmin ≤ t1)
    (htol : 0 ≤ tol) : ∃ K : F, ∀ fuel, rk45 (fun x : F => |x|) pw (fun s _ => K * s ^ 4) t0 y0 t1 tol hmax hmin fuel = none := by
  refine ⟨(tol + 1) * 2080 / hmin ^ 5, fun fuel => C139_never_refuted _ pw _ t0 y0 t1 tol hmax hmin h2 hmm ht ?_ fuel⟩
  intro h a1 a2
  have hp : 0 < hmin ^ 5 := by positivity
  have hpow : hmin ^ 5 ≤ h ^ 5 := pow_le_pow_left₀ (le_of_lt h2) a1 5
  show tol < |_|
  rw [quartic_gap, abs_mul, abs_mul, abs_of_nonneg (by positivity : 0 ≤ (tol + 1) * 2080 / hmin ^ 5),
    abs_of_nonneg (by linarith : 0 ≤ h ^ 5), abs_of_pos (by norm_num : (0 : F) < 1 / 2080)]
  have e : (tol + 1) * 2080 / hmin ^ 5 * hmin ^ 5 = (tol + 1) * 2080 := div_mul_cancel₀ _ (ne_of_gt hp)
  have : (tol + 1) * 2080 ≤ (tol + 1) * 2080 / hmin ^ 5 * h ^ 5 := by
    rw [← e]
    refine le_trans (mul_le_mul_of_nonneg_left hpow (by positivity)) (le_of_eq ?_)
    rw [e]
  nlinarith

end Verif.Integ
