import Mathlib.Algebra.Order.Field.Rat
import Mathlib.Algebra.Order.Archimedean.Basic
import Mathlib.Tactic.Linarith
import Mathlib.Tactic.NormNum
import Mathlib.Tactic.Ring
import Verif.Ppx.Model2

/-!
# C482: marching along an intersection

Claim: `marching_method` returns at most `max_iter + 1` pairs of points, each the correction of the one before with no negative parameter; it stops
when the curve closes or leaves the surfaces, and the two points of a pair are close.
The first half holds.  The second does not: `stop_check` is never called, and a pair is kept from a correction that was not close.
-/

set_option linter.unusedSectionVars false

namespace Verif.Ppx

variable {K : Type} [Field K] [LinearOrder K]
variable {S A : Type} {better : S → S} {neg close : S → Bool} {a1 a2 : S → A} {step : S → K}

/-- What one call of `marching_step` contributes. -/
theorem heads_marching {d : ℕ} {s : S} {r : MRes A K} (h : marching better neg close a1 a2 step d s = some r) :
    heads r = if neg (better s) then none else some (a1 (better s), a2 (better s)) := by
  cases d with
  | zero => simp [marching] at h
  | succ k =>
    unfold marching at h
    dsimp only at h
    by_cases hn : neg (better s) = true
    · rw [if_pos hn] at h ⊢
      cases h; rfl
    · rw [if_neg hn] at h ⊢
      by_cases hc : close (better s) = true
      · rw [if_pos hc] at h; cases h; rfl
      · rw [if_neg hc] at h
        obtain ⟨x, _, rfl⟩ := Option.map_eq_some_iff.1 h
        rfl

theorem methodLoop_spec {d : ℕ} : ∀ (n : ℕ) (s : S) (l : List (A × A)), methodLoop better neg close a1 a2 step d n s = some l →
    l.length ≤ n ∧ (l.length < n → neg (better^[l.length + 1] s) = true) ∧
    ∀ i (h : i < l.length), neg (better^[i + 1] s) = false ∧ l[i] = (a1 (better^[i + 1] s), a2 (better^[i + 1] s))
  | 0, s, l, h => by
    simp only [methodLoop, Option.some.injEq] at h
    subst h
    simp
  | n + 1, s, l, h => by
    unfold methodLoop at h
    cases hm : marching better neg close a1 a2 step d s with
    | none => rw [hm] at h; simp at h
    | some r =>
      rw [hm] at h
      dsimp only at h
      have hh := heads_marching hm
      by_cases hn : neg (better s) = true
      · rw [if_pos hn] at hh
        rw [hh] at h
        simp only [Option.some.injEq] at h
        subst h
        simp [hn]
      · rw [if_neg hn] at hh
        rw [hh] at h
        dsimp only at h
        obtain ⟨l', h', rfl⟩ := Option.map_eq_some_iff.1 h
        obtain ⟨p1, p2, p3⟩ := methodLoop_spec n (better s) l' h'
        refine ⟨by simpa using p1, ?_, ?_⟩
        · intro hl
          have := p2 (by simpa using hl)
          simpa [Function.iterate_succ_apply] using this
        · intro i hi
          cases i with
          | zero => simpa using hn
          | succ i =>
            have := p3 i (by simpa using hi)
            simpa [Function.iterate_succ_apply] using this

/-- **C482** (the part that holds).  Between one and `max_iter + 1` pairs come back; the pair with index `i` is what the surfaces give after `i + 1`
corrections, none of whose parameters is negative; and if fewer pairs come back, the next correction has a negative parameter. -/
theorem C482_orbit_partial {d maxIter : ℕ} {s : S} {l : List (A × A)} (h : method better neg close a1 a2 step d maxIter s = some l) :
    1 ≤ l.length ∧ l.length ≤ maxIter + 1 ∧ (l.length < maxIter + 1 → neg (better^[l.length + 1] s) = true) ∧
    ∀ i (hi : i < l.length), neg (better^[i + 1] s) = false ∧ l[i] = (a1 (better^[i + 1] s), a2 (better^[i + 1] s)) := by
  unfold method at h
  cases hm : marching better neg close a1 a2 step d s with
  | none => rw [hm] at h; simp at h
  | some r =>
    rw [hm] at h
    dsimp only at h
    have hh := heads_marching hm
    by_cases hn : neg (better s) = true
    · rw [if_pos hn] at hh
      rw [hh] at h
      simp at h
    · rw [if_neg hn] at hh
      rw [hh] at h
      dsimp only at h
      obtain ⟨l', h', rfl⟩ := Option.map_eq_some_iff.1 h
      obtain ⟨p1, p2, p3⟩ := methodLoop_spec maxIter (better s) l' h'
      refine ⟨by simp, by simpa using p1, ?_, ?_⟩
      · intro hl
        have := p2 (by simpa using hl)
        simpa [Function.iterate_succ_apply] using this
      · intro i hi
        cases i with
        | zero => simpa using hn
        | succ i =>
          have := p3 i (by simpa using hi)
          simpa [Function.iterate_succ_apply] using this

/-- One call of `marching_step` ends if some later correction is close or has a negative parameter. -/
theorem marching_ends : ∀ (d k : ℕ) (s : S), k < d → (neg (better^[k + 1] s) = true ∨ close (better^[k + 1] s) = true) →
    ∃ r, marching better neg close a1 a2 step d s = some r
  | 0, _, _, h, _ => absurd h (Nat.not_lt_zero _)
  | d + 1, k, s, h, hc => by
    unfold marching
    dsimp only
    by_cases hn : neg (better s) = true
    · exact ⟨_, if_pos hn⟩
    · rw [if_neg hn]
      by_cases hcl : close (better s) = true
      · exact ⟨_, if_pos hcl⟩
      · rw [if_neg hcl]
        cases k with
        | zero => simp [hn, hcl] at hc
        | succ k =>
          obtain ⟨r, hr⟩ := marching_ends d k (better s) (by omega) (by simpa [Function.iterate_succ_apply] using hc)
          exact ⟨_, by rw [hr]; rfl⟩

theorem methodLoop_full {d : ℕ} : ∀ (n : ℕ) (s : S), (∀ i, neg (better^[i + 1] s) = false) →
    (∀ i, ∃ k < d, close (better^[i + k + 1] s) = true) → ∃ l, methodLoop better neg close a1 a2 step d n s = some l
  | 0, _, _, _ => ⟨[], rfl⟩
  | n + 1, s, hn, hc => by
    obtain ⟨k, hk, hcl⟩ := hc 0
    obtain ⟨r, hr⟩ := marching_ends (a1 := a1) (a2 := a2) (step := step) (neg := neg) d k s hk (Or.inr (by simpa using hcl))
    obtain ⟨l, hl⟩ := methodLoop_full n (better s)
      (fun i => by simpa [Function.iterate_succ_apply] using hn (i + 1))
      (fun i => by
        obtain ⟨k, hk, h⟩ := hc (i + 1)
        refine ⟨k, hk, ?_⟩
        rw [← h, ← Function.iterate_succ_apply]
        congr 2; omega)
    unfold methodLoop
    rw [hr]
    dsimp only
    rw [heads_marching hr, if_neg (by simpa using hn 0)]
    exact ⟨_, by rw [hl]; rfl⟩

/-- A march whose parameters stay non-negative always takes `max_iter + 1` pairs. -/
theorem method_full {d : ℕ} (maxIter : ℕ) (s : S) (hn : ∀ i, neg (better^[i + 1] s) = false)
    (hc : ∀ i, ∃ k < d, close (better^[i + k + 1] s) = true) :
    ∃ l, method better neg close a1 a2 step d maxIter s = some l ∧ l.length = maxIter + 1 := by
  have hl : ∃ l, method better neg close a1 a2 step d maxIter s = some l := by
    obtain ⟨k, hk, hcl⟩ := hc 0
    obtain ⟨r, hr⟩ := marching_ends (a1 := a1) (a2 := a2) (step := step) (neg := neg) d k s hk (Or.inr (by simpa using hcl))
    obtain ⟨l, hl⟩ := methodLoop_full (d := d) (neg := neg) (close := close) (a1 := a1) (a2 := a2) (step := step) maxIter (better s)
      (fun i => by simpa [Function.iterate_succ_apply] using hn (i + 1))
      (fun i => by
        obtain ⟨k, hk, h⟩ := hc (i + 1)
        refine ⟨k, hk, ?_⟩
        rw [← h, ← Function.iterate_succ_apply]
        congr 2; omega)
    unfold method
    rw [hr]
    dsimp only
    rw [heads_marching hr, if_neg (by simpa using hn 0)]
    exact ⟨_, by rw [hl]; rfl⟩
  obtain ⟨l, hl⟩ := hl
  refine ⟨l, hl, ?_⟩
  obtain ⟨_, p2, p3, _⟩ := C482_orbit_partial hl
  by_contra hne
  have := p3 (by omega)
  rw [hn] at this
  cases this

/-- **C482** (refuted for closed curves).  On every closed march, one that is back at a state after `p` corrections, with close points and no
negative parameter, all `max_iter + 1` pairs are taken and every pair is repeated after `p` pairs: it goes round and round. -/
theorem C482_closed_refuted {d p : ℕ} (hd : 0 < d) (maxIter : ℕ) (s : S) (hp : better^[p] s = s) (hn : ∀ i, neg (better^[i + 1] s) = false)
    (hc : ∀ i, close (better^[i + 1] s) = true) :
    ∃ l, method better neg close a1 a2 step d maxIter s = some l ∧ l.length = maxIter + 1 ∧
      ∀ i, i + p < maxIter + 1 → l[i + p]? = l[i]? := by
  obtain ⟨l, hl, hlen⟩ := method_full (a1 := a1) (a2 := a2) (step := step) maxIter s hn (fun i => ⟨0, hd, hc i⟩)
  refine ⟨l, hl, hlen, fun i hi => ?_⟩
  obtain ⟨_, _, _, h⟩ := C482_orbit_partial hl
  rw [List.getElem?_eq_getElem (by omega), List.getElem?_eq_getElem (by omega), (h (i + p) (by omega)).2, (h i (by omega)).2]
  have : better^[i + p + 1] s = better^[i + 1] s := by
    rw [show i + p + 1 = (i + 1) + p by omega, Function.iterate_add_apply, hp]
  rw [this]

/-- **C482** (refuted for the edge).  A march that moves by a fixed positive amount in the first parameter of the first surface, over a surface
that can be evaluated everywhere, does not stop at the edge: for every bound there is a number of iterations for which a parameter beyond it
is returned, although `stop_check` holds there. -/
theorem C482_edge_refuted [IsStrictOrderedRing K] [Archimedean K] {P : Type} (dist : P → P → K) (TOL : K) (i1 i2 : (K × K) × (K × K)) (X1 X2 : K × K → P)
    (hX : ∀ uv, dist (X1 uv) (X2 uv) < TOL) (δ u v : K) (hδ : 0 < δ) (hu : 0 ≤ u) (hv : 0 ≤ v) (b : K) (hb : 1 ≤ b) :
    ∃ maxIter l e, method (S := K × K) (A := P × (K × K)) (fun s => (s.1 + δ, s.2)) (fun s => decide (s.1 < 0) || decide (s.2 < 0))
        (fun s => decide (dist (X1 s) (X2 s) < TOL)) (fun s => (X1 s, s)) (fun s => (X2 s, s)) (fun _ => δ) 1 maxIter (u, v) = some l ∧
      e ∈ l ∧ b < e.1.2.1 ∧ ∀ x0 it mi, stopCheck dist TOL i1 i2 e.1.1 e.2.1 e.1.2 e.2.2 x0 δ it mi = true := by
  have hit : ∀ n : ℕ, (fun s : K × K => (s.1 + δ, s.2))^[n] (u, v) = (u + n * δ, v) := by
    intro n
    induction n with
    | zero => simp
    | succ n ih =>
      rw [Function.iterate_succ_apply', ih]
      push_cast
      congr 1; ring
  obtain ⟨n, hn⟩ := Archimedean.arch b hδ
  rw [nsmul_eq_mul] at hn
  obtain ⟨l, hl, hlen⟩ := method_full (better := fun s : K × K => (s.1 + δ, s.2)) (neg := fun s => decide (s.1 < 0) || decide (s.2 < 0))
    (close := fun s => decide (dist (X1 s) (X2 s) < TOL)) (a1 := fun s => (X1 s, s)) (a2 := fun s => (X2 s, s)) (step := fun _ => δ)
    (d := 1) n (u, v)
    (fun i => by
      rw [hit]
      have : (0 : K) ≤ ((i + 1 : ℕ) : K) * δ := mul_nonneg (Nat.cast_nonneg _) hδ.le
      simp only [Bool.or_eq_false_iff, decide_eq_false_iff_not, not_lt]
      exact ⟨by linarith, hv⟩)
    (fun i => ⟨0, Nat.one_pos, by simpa using hX _⟩)
  have h := (C482_orbit_partial hl).2.2.2 n (by omega)
  have h2 := h.2
  rw [hit] at h2
  have hbig : b < u + ((n + 1 : ℕ) : K) * δ := by push_cast; nlinarith
  refine ⟨n, l, l[n], hl, List.getElem_mem _, by rw [h2]; exact hbig, fun x0 it mi => ?_⟩
  rw [h2]
  have hedge : surfaceEdge (u + ((n + 1 : ℕ) : K) * δ, v) i1 = true := by
    unfold surfaceEdge
    have : ¬ (u + ((n + 1 : ℕ) : K) * δ < 1) := by linarith
    rw [decide_eq_false this, Bool.and_false, Bool.false_and]; rfl
  simp only [stopCheck, hedge, Bool.or_true, Bool.true_or]

/-- **C482** (refuted for the closeness).  Whenever the first correction is not close, no parameter is negative and some later correction is close,
the first pair returned is nevertheless that of the first correction. -/
theorem C482_apart_refuted {d maxIter : ℕ} {s : S} (hfar : close (better s) = false) (hn : ∀ i, neg (better^[i + 1] s) = false)
    (hc : ∀ i, ∃ k < d, close (better^[i + k + 1] s) = true) :
    ∃ l, method better neg close a1 a2 step d maxIter s = some l ∧ l[0]? = some (a1 (better s), a2 (better s)) ∧
      ∃ t, close t = false ∧ (a1 t, a2 t) ∈ l := by
  obtain ⟨l, hl, hlen⟩ := method_full (a1 := a1) (a2 := a2) (step := step) maxIter s hn hc
  have h := ((C482_orbit_partial hl).2.2.2 0 (by omega)).2
  have h0 : l[0]? = some (a1 (better s), a2 (better s)) := by
    rw [List.getElem?_eq_getElem (by omega), h]; rfl
  exact ⟨l, hl, h0, better s, hfar, List.mem_of_getElem? h0⟩

/-- **C482** (the test that is not called).  `stop_check` lets a march go on exactly if there are iterations left, the points are close, both parameters are
inside the unit squares and both points are at least half a step away from the start. -/
theorem C482_goes_on_iff {P : Type} (dist : P → P → K) (TOL : K) (i1 i2 : (K × K) × (K × K)) (x1 x2 : P) (uv1 uv2 : K × K) (x0 : P) (st : K) (it mi : ℕ) :
    stopCheck dist TOL i1 i2 x1 x2 uv1 uv2 x0 st it mi = false ↔
      it < mi ∧ dist x1 x2 < TOL ∧ (∀ uv ∈ [uv1, uv2], (0 < uv.1 ∧ uv.1 < 1) ∧ 0 < uv.2 ∧ uv.2 < 1) ∧ ∀ x ∈ [x1, x2], st / 2 ≤ dist x x0 := by
  simp only [stopCheck, wrapBack, surfaceEdge, Bool.or_eq_false_iff, decide_eq_false_iff_not, not_le, not_lt, Bool.not_eq_false', Bool.and_eq_true,
    decide_eq_true_eq, List.forall_mem_cons, List.not_mem_nil, false_imp_iff, implies_true, and_true]
  tauto

/-- **C482** refuted, the start.  On a closed march the start is met again after `p` corrections; `stop_check` holds there, if the step is positive,
and yet the march goes on: there are more pairs after that one. -/
theorem C482_wrap_refuted {P : Type} (dist : P → P → K) (h0 : ∀ x, dist x x = 0) [IsStrictOrderedRing K] (TOL : K) (i1 i2 : (K × K) × (K × K))
    (X1 X2 : S → P) (uv1 uv2 : S → K × K) {d p maxIter : ℕ} (hd : 0 < d) (hp0 : 0 < p) (hpm : p ≤ maxIter) (s : S) (hp : better^[p] s = s)
    (hn : ∀ i, neg (better^[i + 1] s) = false) (hc : ∀ i, close (better^[i + 1] s) = true) (hst : 0 < step s) :
    ∃ l e, method better neg close (fun t => (X1 t, uv1 t)) (fun t => (X2 t, uv2 t)) step d maxIter s = some l ∧ l[p - 1]? = some e ∧ p < l.length ∧
      ∀ it mi, stopCheck dist TOL i1 i2 e.1.1 e.2.1 e.1.2 e.2.2 (X1 s) (step s) it mi = true := by
  obtain ⟨l, hl, hlen⟩ := method_full (a1 := fun t => (X1 t, uv1 t)) (a2 := fun t => (X2 t, uv2 t)) (step := step) maxIter s hn (fun i => ⟨0, hd, hc i⟩)
  have h := ((C482_orbit_partial hl).2.2.2 (p - 1) (by omega)).2
  rw [show p - 1 + 1 = p by omega, hp] at h
  refine ⟨l, _, hl, by rw [List.getElem?_eq_getElem (by omega), h], by omega, fun it mi => ?_⟩
  by_contra hcon
  rw [Bool.not_eq_true, C482_goes_on_iff] at hcon
  have := hcon.2.2.2 (X1 s) (by simp)
  rw [h0] at this
  have := half_pos hst
  linarith

example : stopCheck (fun x y : ℚ => |x - y|) (1 / 1000) ((0, 1), (0, 1)) ((0, 1), (0, 1)) 3 3 (1 / 2, 1 / 2) (1 / 3, 2 / 3) 1 1 7 100 = false ∧
    stopCheck (fun x y : ℚ => |x - y|) (1 / 1000) ((0, 1), (0, 1)) ((0, 1), (0, 1)) (4 / 3) (4 / 3) (1 / 2, 1 / 2) (1 / 3, 2 / 3) 1 1 7 100 = true := by
  decide +kernel

/- A march that stops at a negative parameter, one round a closed curve of three states, and one whose first correction is not close. -/
example : method (K := ℚ) (S := ℤ) (fun s => s - 1) (fun s => decide (s < 0)) (fun _ => true) id id (fun _ => 1) 1 10 3 =
    some [(2, 2), (1, 1), (0, 0)] := by decide +kernel
example : method (K := ℚ) (S := ℕ) (fun s => (s + 1) % 3) (fun _ => false) (fun _ => true) id id (fun _ => 1) 1 5 0 =
    some [(1, 1), (2, 2), (0, 0), (1, 1), (2, 2), (0, 0)] := by decide +kernel
example : method (K := ℚ) (S := ℕ) (fun s => (s + 1) % 3) (fun _ => false) (fun s => decide (s = 2)) id id (fun _ => 1) 3 1 0 =
    some [(1, 1), (2, 2)] := by decide +kernel

end Verif.Ppx
