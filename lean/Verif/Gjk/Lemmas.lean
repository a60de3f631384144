import Mathlib.Algebra.Order.Field.Basic
import Mathlib.Tactic.Ring
import Mathlib.Tactic.Linarith
import Mathlib.Tactic.LinearCombination
import Mathlib.Tactic.Positivity
import Mathlib.Tactic.SplitIfs
import Verif.Gjk.Model

set_option linter.unusedSectionVars false

namespace Verif.Gjk

section ring
variable {K : Type} [CommRing K] [LinearOrder K] [IsStrictOrderedRing K]

/-! ## Support points -/

theorem supportLoop_spec (d : V K) : ∀ (vs : List (V K)) (i : Nat) (best : Option (K × Nat))
    (h : K) (k : Nat), supportLoop d vs i best = some (h, k) →
    (best = some (h, k) ∧ (∀ v ∈ vs, dot v d ≤ h)) ∨
    (∃ j : Nat, k = i + j ∧ ∃ hj : j < vs.length, h = dot vs[j] d ∧
      (∀ v ∈ vs, dot v d ≤ h) ∧ (∀ h' k', best = some (h', k') → h' < h) ∧
      (∀ m (hm : m < j), dot (vs[m]'(Nat.lt_trans hm hj)) d < h))
  | [], i, best, h, k, e => by
    left; exact ⟨e, by simp⟩
  | v :: vs, i, best, h, k, e => by
    rw [supportLoop.eq_def] at e
    dsimp only at e
    rcases supportLoop_spec d vs (i + 1) _ h k e with ⟨h1, h2⟩ | ⟨j, h1, hj, h2, h3, h4, h5⟩
    · split_ifs at h1 with hb
      · right
        have hv : h = dot v d := by simpa using (congrArg (fun o => (o.map Prod.fst)) h1).symm
        have hk : k = i := by simpa using (congrArg (fun o => (o.map Prod.snd)) h1).symm
        refine ⟨0, by omega, by simp, by simpa using hv, ?_, ?_, by intro m hm; omega⟩
        · intro w hw
          rcases List.mem_cons.mp hw with rfl | hw
          · exact hv.ge
          · exact h2 w hw
        · intro h' k' hb'
          subst hb'
          simp only [decide_eq_true_eq] at hb
          rw [hv]; exact hb
      · left
        refine ⟨h1, ?_⟩
        intro w hw
        rcases List.mem_cons.mp hw with rfl | hw
        · subst h1
          simp only [decide_eq_true_eq, not_lt] at hb
          exact hb
        · exact h2 w hw
    · right
      have hlt : dot v d < h ∧ ∀ h' k', best = some (h', k') → h' < h := by
        split_ifs at h4 with hb
        · have h6 := h4 _ _ rfl
          refine ⟨h6, ?_⟩
          intro h' k' hb'
          subst hb'
          simp only [decide_eq_true_eq] at hb
          exact lt_trans hb h6
        · refine ⟨?_, h4⟩
          rcases best with _ | ⟨h0, k0⟩
          · simp at hb
          · simp only [decide_eq_true_eq, not_lt] at hb
            exact lt_of_le_of_lt hb (h4 _ _ rfl)
      refine ⟨j + 1, by omega, by simpa using hj, by simpa using h2, ?_, hlt.2, ?_⟩
      · intro w hw
        rcases List.mem_cons.mp hw with rfl | hw
        · exact hlt.1.le
        · exact h3 w hw
      · intro m hm
        rcases m with _ | m
        · exact hlt.1
        · simpa using h5 m (by omega)

theorem supportLoop_some (d : V K) : ∀ (vs : List (V K)) (i : Nat) (best : Option (K × Nat)),
    (best ≠ none ∨ vs ≠ []) → supportLoop d vs i best ≠ none
  | [], i, best, h => by simpa [supportLoop] using h
  | v :: vs, i, best, _ => by
    rw [supportLoop.eq_def]
    dsimp only
    apply supportLoop_some
    left
    rcases best with _ | ⟨a, b⟩
    · simp
    · split_ifs <;> simp

/-- The index found by `supportVector`. -/
theorem supportVector_spec (vs : List (V K)) (d : V K) (k : Nat) (e : supportVector vs d = some k) :
    ∃ hk : k < vs.length, (∀ v ∈ vs, dot v d ≤ dot vs[k] d) ∧
      ∀ m (hm : m < k), dot (vs[m]'(Nat.lt_trans hm hk)) d < dot vs[k] d := by
  unfold supportVector at e
  rcases h : supportLoop d vs 0 none with _ | ⟨a, b⟩
  · simp [h] at e
  · rw [h] at e
    simp only [Option.map_some, Option.some.injEq] at e
    subst e
    rcases supportLoop_spec d vs 0 none a b h with ⟨h1, _⟩ | ⟨j, h1, hj, h2, h3, _, h5⟩
    · cases h1
    · have : b = j := by omega
      subst this
      refine ⟨hj, ?_, ?_⟩
      · intro v hv; rw [← h2]; exact h3 v hv
      · intro m hm; rw [← h2]; exact h5 m hm

theorem supportVector_some (vs : List (V K)) (d : V K) (h : vs ≠ []) :
    ∃ k, supportVector vs d = some k := by
  have := supportLoop_some d vs 0 none (Or.inr h)
  unfold supportVector
  rcases h1 : supportLoop d vs 0 none with _ | ⟨a, b⟩
  · exact absurd h1 this
  · exact ⟨b, rfl⟩

theorem supportVector_nil (d : V K) : supportVector ([] : List (V K)) d = none := rfl

theorem dot_sub (a b d : V K) : dot (sub a b) d = dot a d - dot b d := by
  simp only [dot, sub]; ring

theorem dot_neg (a d : V K) : dot a (neg d) = -dot a d := by
  simp only [dot, neg]; ring

/-- The point found by `support` is a difference of vertices, reaches furthest, and its index
determines it. -/
theorem support_spec (vs ws : List (V K)) (d p : V K) (k : Nat)
    (e : support vs ws d = some (p, k)) :
    ∃ (i j : Nat) (hi : i < vs.length) (hj : j < ws.length), p = sub vs[i] ws[j] ∧
      k = i * ws.length + j ∧ ∀ v ∈ vs, ∀ w ∈ ws, dot (sub v w) d ≤ dot p d := by
  unfold support at e
  rcases h1 : supportVector vs d with _ | i
  · simp [h1] at e
  rcases h2 : supportVector ws (neg d) with _ | j
  · simp [h1, h2] at e
  obtain ⟨hi, hvi, -⟩ := supportVector_spec vs d i h1
  obtain ⟨hj, hwj, -⟩ := supportVector_spec ws (neg d) j h2
  rw [h1, h2] at e
  simp only [Option.bind_eq_bind, Option.bind_some, List.getElem?_eq_getElem hi,
    List.getElem?_eq_getElem hj, Option.pure_def, Option.some.injEq, Prod.mk.injEq] at e
  refine ⟨i, j, hi, hj, e.1.symm, e.2.symm, ?_⟩
  intro v hv w hw
  rw [← e.1, dot_sub, dot_sub]
  have a1 := hvi v hv
  have a2 := hwj w hw
  rw [dot_neg, dot_neg] at a2
  linarith

theorem support_some (vs ws : List (V K)) (d : V K) (h1 : vs ≠ []) (h2 : ws ≠ []) :
    ∃ pk, support vs ws d = some pk := by
  obtain ⟨i, hi⟩ := supportVector_some vs d h1
  obtain ⟨j, hj⟩ := supportVector_some ws (neg d) h2
  obtain ⟨hi', -⟩ := supportVector_spec vs d i hi
  obtain ⟨hj', -⟩ := supportVector_spec ws (neg d) j hj
  unfold support
  rw [hi, hj]
  simp only [Option.bind_eq_bind, Option.bind_some, List.getElem?_eq_getElem hi',
    List.getElem?_eq_getElem hj', Option.pure_def]
  exact ⟨_, rfl⟩

/-! ## The bookkeeping of visited pairs -/

/-- Every remembered point is the difference its index stands for. -/
def CacheInv (vs ws : List (V K)) (cache : Nat → Option (V K)) : Prop :=
  ∀ k p, cache k = some p → ∃ (i j : Nat) (hi : i < vs.length) (hj : j < ws.length),
    k = i * ws.length + j ∧ p = sub vs[i] ws[j]

theorem cacheInv_empty (vs ws : List (V K)) : CacheInv vs ws (fun _ => none) := by
  intro k p h; cases h

theorem index_inj {n i j i' j' : Nat} (hj : j < n) (hj' : j' < n) (h : i * n + j = i' * n + j') :
    i = i' ∧ j = j' := by
  have hn : 0 < n := by omega
  have e1 : (i * n + j) / n = i := by
    rw [Nat.add_comm, Nat.add_mul_div_right _ _ hn, Nat.div_eq_of_lt hj, Nat.zero_add]
  have e2 : (i' * n + j') / n = i' := by
    rw [Nat.add_comm, Nat.add_mul_div_right _ _ hn, Nat.div_eq_of_lt hj', Nat.zero_add]
  have : i = i' := by rw [← e1, ← e2, h]
  subst this
  exact ⟨rfl, by omega⟩

theorem cacheInv_remember {vs ws : List (V K)} {cache : Nat → Option (V K)}
    (hc : CacheInv vs ws cache) {d p : V K} {k : Nat} (e : support vs ws d = some (p, k)) :
    CacheInv vs ws (remember cache k p) := by
  intro m q hq
  unfold remember at hq
  split_ifs at hq with h
  · subst h
    rcases h1 : cache m with _ | q'
    · rw [h1] at hq
      obtain ⟨i, j, hi, hj, h2, h3, -⟩ := support_spec vs ws d p m e
      simp only [Option.some.injEq] at hq
      exact ⟨i, j, hi, hj, h3, hq ▸ h2⟩
    · rw [h1] at hq
      exact hc m q (h1.trans hq)
  · exact hc m q hq

theorem cacheOk_true {vs ws : List (V K)} {cache : Nat → Option (V K)}
    (hc : CacheInv vs ws cache) {tol : K} (ht : 0 ≤ tol) {d p : V K} {k : Nat}
    (e : support vs ws d = some (p, k)) : cacheOk tol cache k p = true := by
  unfold cacheOk
  rcases h1 : cache k with _ | q
  · rfl
  · obtain ⟨i, j, hi, hj, h2, h3, -⟩ := support_spec vs ws d p k e
    obtain ⟨i', j', hi', hj', h4, h5⟩ := hc k q h1
    obtain ⟨rfl, rfl⟩ := index_inj hj hj' (h3.symm.trans h4)
    have : q = p := h5.trans h2.symm
    subst this
    have h0 : dot (sub q q) (sub q q) = 0 := by simp [dot, sub]
    simp [h0, ht, mul_nonneg ht ht]

/-- The loop without the bookkeeping. -/
def plainLoop (vs ws : List (V K)) (tol : K) : Nat → List (V K) → V K → Verdict
  | 0, _, _ => .exhausted
  | n + 1, simplex, d =>
    match support vs ws d with
    | none => .invalid
    | some pk =>
      if dot pk.1 d < 0 then .apart
      else
        match handleSimplex tol (simplex ++ [pk.1]) d with
        | none => .collide
        | some sd => plainLoop vs ws tol n sd.1 sd.2

theorem loop_eq_plain (vs ws : List (V K)) (tol : K) (ht : 0 ≤ tol) :
    ∀ (n : Nat) (s : List (V K)) (d : V K) (cache : Nat → Option (V K)), CacheInv vs ws cache →
      loop vs ws tol n s d cache = plainLoop vs ws tol n s d
  | 0, _, _, _, _ => rfl
  | n + 1, s, d, cache, hc => by
    rw [loop.eq_def, plainLoop.eq_def]
    dsimp only
    rcases h : support vs ws d with _ | ⟨p, k⟩
    · rfl
    · dsimp only
      rw [if_neg (by rw [cacheOk_true hc ht h]; simp)]
      by_cases hd : dot p d < 0
      · rw [if_pos hd, if_pos hd]
      · rw [if_neg hd, if_neg hd]
        rcases h2 : handleSimplex tol (s ++ [p]) d with _ | ⟨s', d'⟩
        · rfl
        · exact loop_eq_plain vs ws tol ht n s' d' _ (cacheInv_remember hc h)

/-- The verdict without the bookkeeping. -/
theorem verdict_eq (vs ws : List (V K)) (tol : K) (ht : 0 ≤ tol) (m : Nat) (h1 : vs ≠ [])
    (h2 : ws ≠ []) : ∃ p k, support vs ws ⟨1, 0, 0⟩ = some (p, k) ∧
      verdict vs ws tol m = some (plainLoop vs ws tol
        (if m = 0 then vs.length * ws.length else m) [p] (neg p)) := by
  obtain ⟨⟨p, k⟩, h⟩ := support_some vs ws ⟨1, 0, 0⟩ h1 h2
  refine ⟨p, k, h, ?_⟩
  unfold verdict
  have e1 : vs.isEmpty = false := by simpa using h1
  have e2 : ws.isEmpty = false := by simpa using h2
  rw [e1, e2, h]
  dsimp only
  rw [if_neg (by simp), loop_eq_plain vs ws tol ht _ _ _ _
    (cacheInv_remember (cacheInv_empty vs ws) h)]

end ring

end Verif.Gjk
