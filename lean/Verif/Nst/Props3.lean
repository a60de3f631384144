import Verif.Nst.Props2
import Mathlib.Tactic.FieldSimp

/-! # C410, C412: what `make_periodic` and `normalize_knots` leave behind -/

set_option linter.unusedSectionVars false

namespace Verif.Nst

section
variable {K : Type} [Field K] [LinearOrder K] [IsStrictOrderedRing K] {P : Type}

/-- **C410**, `make_periodic` of a curve that `is_periodic` rejects: the flag is set, the points are continued with the first `degree` ones, the
knots are a new array, and interval and abscissae belong to it.  Other curves and arrays are as before. -/
theorem C410_make_periodic (e : Env K P) (s : St K P) (o : Nat) (h : e.isPer (s.obj o).degree (s.obj o).cp = false) :
    let s' := step e s (.makePeriodic o)
    (s'.obj o).periodic = true ∧ (s'.obj o).cp = (s.obj o).cp ++ (s.obj o).cp.take (s.obj o).degree ∧
      s'.heap (s'.obj o).kn = periodicKnots (s'.obj o).cp.length (s.obj o).degree ∧ (s'.obj o).kn = s.nk ∧
      (s'.obj o).iv = ends (s'.heap (s'.obj o).kn) ∧ (∀ i, i ≠ o → s'.obj i = s.obj i) ∧ ∀ l, l < s.nk → s'.heap l = s.heap l := by
  have hne : ∀ l, l < s.nk → l ≠ s.nk := fun l hl => by omega
  refine ⟨?_, ?_, ?_, ?_, ?_, ?_, ?_⟩
  · simp [step, mkPeriodic, h, St.put, St.alloc, upd, hook]
  · simp [step, mkPeriodic, h, St.put, St.alloc, upd, hook]
  · simp [step, mkPeriodic, h, St.put, St.alloc, upd, hook]
  · simp [step, mkPeriodic, h, St.put, St.alloc, upd, hook]
  · simp [step, mkPeriodic, h, St.put, St.alloc, upd, hook]
  · intro i hi; simp [step, mkPeriodic, h, St.put, St.alloc, upd, hi]
  · intro l hl; simp [step, mkPeriodic, h, St.put, St.alloc, upd, hne l hl]

/-- **C410** refuted for `make_periodic`: a curve whose points are wrapped already stays as it is, the flag and the knots included; so after
`make_periodic()` it need not be periodic. -/
theorem C410_make_periodic_refuted (e : Env K P) (s : St K P) (o : Nat) (h : e.isPer (s.obj o).degree (s.obj o).cp = true) :
    step e s (.makePeriodic o) = s := by
  simp [step, mkPeriodic, h]

/-- A curve of degree one whose last point is its first: after `make_periodic` the flag is not set. -/
example : let e : Env ℚ Nat := ⟨fun d cp => decide (cp.take d = cp.drop (cp.length - d)), fun _ _ _ _ => 0, fun cp _ _ _ _ => cp⟩
    ((run e empty [.create [1, 2, 3, 1] 1 none false, .makePeriodic 0]).obj 0).periodic = false ∧
    ((run e empty [.create [1, 2, 3] 1 none false, .makePeriodic 0]).obj 0).periodic = true := by
  decide +kernel

end

section
variable {K : Type} [Field K] [LinearOrder K] [IsStrictOrderedRing K]

theorem at_map (f : K → K) (k : List K) (i : Nat) (hi : i < k.length) : at' (k.map f) i = f (at' k i) := by
  simp [at', hi]

theorem normSurf_ends (k : List K) (h : at' k 0 ≠ at' k (k.length - 1)) : ends (normSurf k) = (0, 1) := by
  have hk : 0 < k.length := by
    rcases k with _ | ⟨a, k⟩
    · simp at h
    · simp
  have hd : at' k (k.length - 1) - at' k 0 ≠ 0 := sub_ne_zero.2 (Ne.symm h)
  have hl : (normSurf k).length = k.length := by simp [normSurf]
  have h0 : at' (normSurf k) 0 = 0 := by
    unfold normSurf
    rw [at_map _ _ _ hk]; simp
  have h1 : at' (normSurf k) (k.length - 1) = 1 := by
    unfold normSurf
    rw [at_map _ _ _ (by omega)]; exact div_self hd
  unfold ends
  rw [hl, h0, h1]

theorem normSurf_twice (k : List K) (h : at' k 0 ≠ at' k (k.length - 1)) : normSurf (normSurf k) = normSurf k := by
  have e := normSurf_ends k h
  unfold ends at e
  have e0 := congrArg Prod.fst e
  have e1 := congrArg Prod.snd e
  simp only at e0 e1
  generalize normSurf k = l at e0 e1 ⊢
  unfold normSurf
  simp only
  rw [e0, e1]
  simp

/-- **C412**, `normalize_knots`: the knots of both directions, each mapped from its own ends to 0 and 1, also if one array serves both
directions; the interval is `[0, 1]` in both. -/
theorem C412_normalize (span : Nat → Nat → List K → K → Nat) (s : SSt K) (o : Nat)
    (hu : at' (s.heap (s.obj o).ku) 0 ≠ at' (s.heap (s.obj o).ku) ((s.heap (s.obj o).ku).length - 1))
    (hv : at' (s.heap (s.obj o).kv) 0 ≠ at' (s.heap (s.obj o).kv) ((s.heap (s.obj o).kv).length - 1)) :
    let s' := sstep span s (.normalize o)
    s'.heap (s'.obj o).ku = normSurf (s.heap (s.obj o).ku) ∧ s'.heap (s'.obj o).kv = normSurf (s.heap (s.obj o).kv) ∧
      (s'.obj o).iu = (0, 1) ∧ (s'.obj o).iv = (0, 1) ∧ (∀ i, i ≠ o → s'.obj i = s.obj i) := by
  have key : (sstep span s (.normalize o)).heap (s.obj o).ku = normSurf (s.heap (s.obj o).ku) ∧
      (sstep span s (.normalize o)).heap (s.obj o).kv = normSurf (s.heap (s.obj o).kv) := by
    by_cases hk : (s.obj o).kv = (s.obj o).ku
    · simp [sstep, upd, hk, normSurf_twice _ hu]
    · simp [sstep, upd, hk, Ne.symm hk]
  have ho : (sstep span s (.normalize o)).obj o = upInterval (sstep span s (.normalize o)).heap (s.obj o) := by simp [sstep, upd]
  refine ⟨?_, ?_, ?_, ?_, fun i hi => by simp [sstep, upd, hi]⟩
  · rw [ho]; exact key.1
  · rw [ho]; exact key.2
  · rw [ho]; show ends _ = _; rw [key.1]; exact normSurf_ends _ hu
  · rw [ho]; show ends _ = _; rw [key.2]; exact normSurf_ends _ hv

/-- A surface with the knots `0, 0, 2, 2` and `1, 1, 2, 4, 4`. -/
example : let s : SSt ℚ := srun (fun _ _ _ _ => 0) sempty [.array [0, 0, 2, 2], .array [1, 1, 2, 4, 4], .create (2, 3) (1, 1) (some 0) (some 1),
      .normalize 0]
    s.heap 0 = [0, 0, 1, 1] ∧ s.heap 1 = [0, 0, 1 / 3, 1, 1] := by
  decide +kernel

end

end Verif.Nst
