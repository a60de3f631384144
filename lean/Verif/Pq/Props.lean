import Verif.Pq.Lemmas
import Verif.Swl.Model
import Mathlib.Algebra.Order.Field.Rat
import Mathlib.Data.Nat.Log
import Mathlib.Tactic.Linarith
import Mathlib.Tactic.Ring
import Mathlib.Tactic.NormNum

/-!
# C404, C405: the priority queue
-/

set_option linter.unusedSectionVars false

namespace Verif.Pq

section Weak

variable {α : Type} {lt : α → α → Bool} (d : α)

theorem Weak.irr (W : Weak lt) (a : α) : lt a a = false := by
  cases h : lt a a with
  | false => rfl
  | true => exact absurd h (by simp [W.asymm a a h])

/-- The nodes inserted by a sequence of calls, the latest first. -/
def inserted : List (Op α) → List α
  | [] => []
  | .ins x :: ops => inserted ops ++ [x]
  | .del :: ops => inserted ops

theorem run_inv (W : Weak lt) (ops : List (Op α)) : ∀ s : List α × List α, IsHeap lt d s.1 →
    IsHeap lt d (ops.foldl (step lt d) s).1 ∧
    ((ops.foldl (step lt d) s).1 ++ (ops.foldl (step lt d) s).2).Perm (inserted ops ++ (s.1 ++ s.2)) := by
  induction ops with
  | nil => intro s h; exact ⟨h, by simp [inserted]⟩
  | cons o ops ih =>
    intro s h
    simp only [List.foldl_cons]
    cases o with
    | ins x =>
      obtain ⟨a, b⟩ := ih (step lt d s (.ins x)) (heappush_heap d W s.1 x h)
      refine ⟨a, b.trans ?_⟩
      simp only [step, insertNode, inserted, List.append_assoc, List.singleton_append]
      refine List.Perm.append_left _ ?_
      exact ((heappush_perm d s.1 x).append_right s.2)
    | del =>
      have hp := heappop_spec d W s.1 h
      have : step lt d s .del = match heappop lt d s.1 with
        | none => s
        | some (x, q) => (q, x :: s.2) := rfl
      rw [this]
      cases hh : heappop lt d s.1 with
      | none => exact ih s h
      | some r =>
        obtain ⟨x, q⟩ := r
        rw [hh] at hp
        obtain ⟨a, b⟩ := ih (q, x :: s.2) hp.2.2
        refine ⟨a, b.trans ?_⟩
        simp only [inserted]
        refine List.Perm.append_left _ ?_
        refine List.Perm.trans List.perm_middle ?_
        exact (hp.2.1.symm.append_right s.2)

theorem drain_spec (W : Weak lt) : ∀ (n : Nat) (q : List α), q.length ≤ n → IsHeap lt d q →
    (drain lt d n q).Perm q ∧ (drain lt d n q).Pairwise (fun a b => lt b a = false) := by
  intro n
  induction n with
  | zero => intro q h _; have : q = [] := by simpa using h
            subst this; simp [drain]
  | succ n ih =>
    intro q hl h
    have hp := heappop_spec d W q h
    have : drain lt d (n + 1) q = match heappop lt d q with
      | none => []
      | some (x, q') => x :: drain lt d n q' := rfl
    rw [this]
    cases hh : heappop lt d q with
    | none => rw [hh] at hp; simp at hp; subst hp; simp
    | some r =>
      obtain ⟨x, q'⟩ := r
      rw [hh] at hp
      obtain ⟨p1, p2, p3⟩ := hp
      have hlen := p2.length_eq
      simp only [List.length_cons] at hlen
      obtain ⟨a, b⟩ := ih q' (by omega) p3
      refine ⟨(a.cons x).trans p2.symm, List.pairwise_cons.2 ⟨?_, b⟩⟩
      intro y hy
      have hy' : y ∈ q := p2.symm.subset (List.mem_cons_of_mem _ (a.subset hy))
      obtain ⟨i, hi, rfl⟩ := List.getElem_of_mem hy'
      have := head_least d W (Weak.irr W) q h i hi
      rw [List.getD_eq_getElem?_getD, List.getElem?_eq_getElem hi] at this
      rw [List.getD_eq_getElem?_getD, ← List.head?_eq_getElem?, p1] at this
      exact this

/-- Everything a caller relies on, for a comparison that is a strict weak order. -/
theorem queue_spec (W : Weak lt) (ops : List (Op α)) :
    ((run lt d ops).1 ++ (run lt d ops).2).Perm (inserted ops) ∧
    (minNode (run lt d ops).1 = none ↔ (run lt d ops).1 = []) ∧
    (∀ x, minNode (run lt d ops).1 = some x → x ∈ (run lt d ops).1 ∧ ∀ y ∈ (run lt d ops).1, lt y x = false) ∧
    (∀ x q, delMin lt d (run lt d ops).1 = some (x, q) → minNode (run lt d ops).1 = some x ∧ (run lt d ops).1.Perm (x :: q)) ∧
    (delMin lt d (run lt d ops).1 = none ↔ (run lt d ops).1 = []) ∧
    (drain lt d (run lt d ops).1.length (run lt d ops).1).Perm (run lt d ops).1 ∧
    (drain lt d (run lt d ops).1.length (run lt d ops).1).Pairwise (fun a b => lt b a = false) := by
  obtain ⟨h, p⟩ := run_inv d W ops ([], []) (fun i _ hl => by simp at hl)
  change IsHeap lt d (run lt d ops).1 at h
  change ((run lt d ops).1 ++ (run lt d ops).2).Perm _ at p
  obtain ⟨d1, d2⟩ := drain_spec d W _ (run lt d ops).1 (le_refl _) h
  refine ⟨by simpa using p, by simp [minNode], ?_, ?_, ?_, d1, d2⟩
  · intro x hx
    have hx' : (run lt d ops).1.head? = some x := hx
    refine ⟨List.mem_of_mem_head? hx', fun y hy => ?_⟩
    obtain ⟨i, hi, rfl⟩ := List.getElem_of_mem hy
    have := head_least d W (Weak.irr W) _ h i hi
    rw [List.getD_eq_getElem?_getD, List.getElem?_eq_getElem hi] at this
    rw [List.getD_eq_getElem?_getD, ← List.head?_eq_getElem?, hx'] at this
    exact this
  · intro x q hx
    have hp := heappop_spec d W _ h
    have hx' : heappop lt d (run lt d ops).1 = some (x, q) := hx
    rw [hx'] at hp
    exact ⟨hp.1, hp.2.1⟩
  · have hp := heappop_spec d W _ h
    change heappop lt d (run lt d ops).1 = none ↔ _
    cases hh : heappop lt d (run lt d ops).1 with
    | none => rw [hh] at hp; simpa using hp
    | some r => rw [hh] at hp
                obtain ⟨x, q⟩ := r
                simp only [reduceCtorEq, false_iff]
                intro he
                rw [he] at hp
                simp at hp

end Weak

section Keys

variable {K β : Type} [LinearOrder K]

/-- `QueueNode.__lt__` (priority_queue.py:12-13) for a node made of its key and its value. -/
def nodeLt (a b : K × β) : Bool := decide (a.1 < b.1)

theorem nodeLt_weak : Weak (nodeLt (K := K) (β := β)) :=
  ⟨fun a b h => by simp only [nodeLt, decide_eq_true_eq, decide_eq_false_iff_not] at *; exact not_lt.2 (le_of_lt h),
   fun a b c h1 h2 => by
     simp only [nodeLt, decide_eq_false_iff_not, not_lt] at *; exact h1.trans h2⟩

/-- C404.  After any sequence of calls of `insert` and `delMin` with keys of a linear order: nothing is lost or made up; `min` and
`delMin` answer with a node of least key, and fail only on the empty queue; taking everything out gives the nodes of the queue in
the order of their keys. -/
theorem C404_queue (d : K × β) (ops : List (Op (K × β))) :
    ((run nodeLt d ops).1 ++ (run nodeLt d ops).2).Perm (inserted ops) ∧
    (minNode (run nodeLt d ops).1 = none ↔ (run nodeLt d ops).1 = []) ∧
    (∀ x, minNode (run nodeLt d ops).1 = some x → x ∈ (run nodeLt d ops).1 ∧ ∀ y ∈ (run nodeLt d ops).1, x.1 ≤ y.1) ∧
    (∀ x q, delMin nodeLt d (run nodeLt d ops).1 = some (x, q) →
      minNode (run nodeLt d ops).1 = some x ∧ (run nodeLt d ops).1.Perm (x :: q)) ∧
    (delMin nodeLt d (run nodeLt d ops).1 = none ↔ (run nodeLt d ops).1 = []) ∧
    (drain nodeLt d (run nodeLt d ops).1.length (run nodeLt d ops).1).Perm (run nodeLt d ops).1 ∧
    (drain nodeLt d (run nodeLt d ops).1.length (run nodeLt d ops).1).Pairwise (fun a b => a.1 ≤ b.1) := by
  have h := queue_spec d (nodeLt_weak (K := K) (β := β)) ops
  simpa only [nodeLt, decide_eq_false_iff_not, not_lt] using h

-- eight calls on numbers with names
example : run nodeLt (0, "") [.ins ((5 : ℚ), "a"), .ins (2, "b"), .ins (7, "c"), .ins (1, "d"), .del, .ins (3, "e"), .ins (2, "f"),
    .del] = ([(2, "f"), (3, "e"), (7, "c"), (5, "a")], [(2, "b"), (1, "d")]) := by decide +kernel
example : drain nodeLt (0, "") 4 [((2 : ℚ), "f"), (3, "e"), (7, "c"), (5, "a")] =
    [(2, "f"), (3, "e"), (5, "a"), (7, "c")] := by decide +kernel

/-- C404: nodes with the same key do not come out in the order they were put in: of four nodes with the same key the third comes
before the second, whatever the key and the values are. -/
theorem C404_order_refuted (d : K × β) (k : K) (a b c e : β) :
    drain nodeLt d 4 (run nodeLt d [.ins (k, a), .ins (k, b), .ins (k, c), .ins (k, e)]).1 = [(k, a), (k, c), (k, b), (k, e)] := by
  simp [run, step, insertNode, heappush, siftdown, nodeLt, drain, delMin, heappop, siftup, siftupLoop]

end Keys

section Points

variable {K β : Type} [Field K] [LinearOrder K] [IsStrictOrderedRing K]

open Verif.Swl (Pt)

/-- The comparison of the nodes of the queue `segQueue` (sweep_intersector.py:20, 234, 249): the keys are points, which are compared
with a tolerance. -/
def ptLt (e : K) (a b : Pt K × β) : Bool := decide (Pt.compare e a.1 b.1 < 0)

omit [Field K] [LinearOrder K] [IsStrictOrderedRing K] in
theorem heappush_stays {α : Type} (lt : α → α → Bool) (d : α) (q : List α) (x : α)
    (h : q ≠ [] → lt x (q.getD ((q.length - 1) / 2) d) = false) : heappush lt d q x = q ++ [x] := by
  unfold heappush
  simp only [siftdown]
  have hs : (q ++ [x]).set q.length x = q ++ [x] := by
    rw [List.set_append_right _ _ (Nat.le_refl _)]; simp
  by_cases h0 : 0 < q.length
  · have hq : q ≠ [] := by rintro rfl; simp at h0
    have hg : (q ++ [x]).getD ((q.length - 1) / 2) d = q.getD ((q.length - 1) / 2) d := by
      rw [List.getD_eq_getElem?_getD, List.getD_eq_getElem?_getD, List.getElem?_append_left (by omega)]
    rw [if_pos h0, hg, h hq, hs]
    simp
  · rw [if_neg h0, hs]

/-- Points each of which is at the tolerance from its parent in the heap. -/
def stair (e : K) (v : ℕ → β) (i : ℕ) : Pt K × β := (⟨-((Nat.log 2 (i + 1) : ℕ) : K) * e, 0, i⟩, v i)

theorem run_stair (e : K) (he : 0 < e) (v : ℕ → β) (d : Pt K × β) (m : ℕ) :
    run (ptLt e) d ((List.range m).map fun i => .ins (stair e v i)) = ((List.range m).map (stair e v), []) := by
  induction m with
  | zero => rfl
  | succ m ih =>
    unfold run at ih ⊢
    rw [List.range_succ, List.map_append, List.foldl_append, ih]
    simp only [List.map_cons, List.map_nil, List.foldl_cons, List.foldl_nil, step, insertNode, List.map_append]
    rw [heappush_stays]
    intro hq
    have hm : 0 < m := by
      rcases Nat.eq_zero_or_pos m with rfl | h
      · simp at hq
      · exact h
    simp only [List.length_map, List.length_range]
    rw [List.getD_eq_getElem?_getD, List.getElem?_map, List.getElem?_range (by omega)]
    simp only [Option.map_some, Option.getD_some]
    have hl : Nat.log 2 (m + 1) = Nat.log 2 ((m - 1) / 2 + 1) + 1 := by
      have h1 : (m - 1) / 2 + 1 = (m + 1) / 2 := by omega
      rw [h1, Nat.log_div_base]
      have : 0 < Nat.log 2 (m + 1) := Nat.log_pos (by norm_num) (by omega)
      omega
    have hc : Pt.compare e (stair e v m).1 (stair e v ((m - 1) / 2)).1 = 0 := by
      have e1 : (stair e v m).1.x - (stair e v ((m - 1) / 2)).1.x = -e := by
        simp only [stair]
        rw [hl]
        push_cast
        ring
      have e2 : (stair e v m).1.y - (stair e v ((m - 1) / 2)).1.y = 0 := by simp [stair]
      unfold Pt.compare
      rw [e1, e2, if_neg (c := -e > e) (by linarith), if_neg (c := -e < -e) (by linarith), if_neg (c := 0 > e) (by linarith),
        if_neg (c := 0 < -e) (by linarith)]
      simp
    simp [ptLt, hc]

/-- C405: with the points of the sweep line as keys the answer of `min` need not be least, because the comparison with a tolerance is
not transitive: for every tolerance and every number `n` there are points with which `min` answers with a point that lies more than
`n` tolerances to the right of another one in the queue. -/
theorem C405_points_refuted (e : K) (he : 0 < e) (n : ℕ) (v : ℕ → β) (d : Pt K × β) :
    ∃ ops : List (Op (Pt K × β)), ∃ x y, minNode (run (ptLt e) d ops).1 = some x ∧ y ∈ (run (ptLt e) d ops).1 ∧
      y.1.x < x.1.x - n * e ∧ y.1.y = x.1.y := by
  refine ⟨(List.range (2 ^ (n + 1))).map fun i => .ins (stair e v i), stair e v 0, stair e v (2 ^ (n + 1) - 1), ?_, ?_, ?_, rfl⟩
  · rw [run_stair e he]
    simp [minNode, List.head?_eq_getElem?]
  · rw [run_stair e he]
    have : 0 < 2 ^ (n + 1) := by positivity
    exact List.mem_map.2 ⟨_, List.mem_range.2 (by omega), rfl⟩
  · have h2 : 2 ^ (n + 1) - 1 + 1 = 2 ^ (n + 1) := by
      have : 0 < 2 ^ (n + 1) := by positivity
      omega
    simp only [stair]
    rw [h2, Nat.log_pow (by norm_num)]
    simp
    nlinarith

-- seven points, the tolerance 1: the fourth lies two tolerances to the left of the answer, and the comparison says so
example : minNode (run (ptLt (1 : ℚ)) (⟨0, 0, 9⟩, ()) [.ins (⟨0, 0, 0⟩, ()), .ins (⟨-1, 0, 1⟩, ()), .ins (⟨-1, 0, 2⟩, ()),
    .ins (⟨-2, 0, 3⟩, ())]).1 = some (⟨0, 0, 0⟩, ()) := by decide +kernel
example : ptLt (1 : ℚ) (⟨-2, 0, 3⟩, ()) (⟨0, 0, 0⟩, ()) = true := by decide +kernel

/-- The order of the points without a tolerance: from left to right, and from below on the same vertical. -/
def lexLt (a b : Pt K × β) : Bool := decide (a.1.x < b.1.x ∨ a.1.x = b.1.x ∧ a.1.y < b.1.y)

omit [IsStrictOrderedRing K] in
theorem lexLt_weak : Weak (lexLt (K := K) (β := β)) := by
  constructor
  · intro a b h
    simp only [lexLt, decide_eq_true_eq, decide_eq_false_iff_not, not_or, not_and, not_lt] at *
    rcases h with h | ⟨h, h'⟩
    · exact ⟨h.le, fun e => absurd h (by rw [e]; exact lt_irrefl _)⟩
    · exact ⟨h.le, fun _ => h'.le⟩
  · intro a b c h1 h2
    simp only [lexLt, decide_eq_false_iff_not, not_or, not_and, not_lt] at *
    refine ⟨h1.1.trans h2.1, fun e => ?_⟩
    have e1 : a.1.x = b.1.x := le_antisymm h1.1 (e ▸ h2.1)
    have e2 : c.1.x = b.1.x := e.trans e1
    exact (h1.2 e1.symm).trans (h2.2 e2)

section Congr

variable {α : Type} {lt lt' : α → α → Bool} (d : α) {S : α → Prop}

omit [Field K] [LinearOrder K] [IsStrictOrderedRing K] in
theorem getD_mem {q : List α} (hq : ∀ y ∈ q, S y) {i : ℕ} (hi : i < q.length) : S (q.getD i d) := by
  rw [List.getD_eq_getElem?_getD, List.getElem?_eq_getElem hi]
  exact hq _ (List.getElem_mem hi)

omit [Field K] [LinearOrder K] [IsStrictOrderedRing K] in
theorem set_mem {q : List α} (hq : ∀ y ∈ q, S y) {i : ℕ} {x : α} (hx : S x) : ∀ y ∈ q.set i x, S y := by
  intro y hy
  rcases List.mem_or_eq_of_mem_set hy with h | rfl
  · exact hq y h
  · exact hx

theorem siftdown_congr (C : ∀ a b, S a → S b → lt a b = lt' a b) (x : α) (hx : S x) : ∀ (fuel : ℕ) (q : List α) (pos : ℕ),
    (∀ y ∈ q, S y) → pos < q.length → siftdown lt d 0 x fuel q pos = siftdown lt' d 0 x fuel q pos := by
  intro fuel
  induction fuel with
  | zero => intros; rfl
  | succ fuel ih =>
    intro q pos hq hp
    simp only [siftdown]
    have hpar : S (q.getD ((pos - 1) / 2) d) := getD_mem d hq (by omega)
    rw [C _ _ hx hpar]
    rw [ih _ _ (set_mem hq hpar) (by simp; omega)]

theorem siftupLoop_congr (C : ∀ a b, S a → S b → lt a b = lt' a b) : ∀ (fuel : ℕ) (q : List α) (pos : ℕ),
    (∀ y ∈ q, S y) → siftupLoop lt d fuel q pos = siftupLoop lt' d fuel q pos ∧
      (pos < q.length → (siftupLoop lt d fuel q pos).2 < (siftupLoop lt d fuel q pos).1.length) ∧
      ∀ y ∈ (siftupLoop lt d fuel q pos).1, S y := by
  intro fuel
  induction fuel with
  | zero => intro q pos hq; exact ⟨rfl, fun h => h, hq⟩
  | succ fuel ih =>
    intro q pos hq
    simp only [siftupLoop]
    by_cases h0 : 2 * pos + 1 < q.length
    · rw [if_pos h0, if_pos h0]
      have e : (if 2 * pos + 1 + 1 < q.length ∧ lt (q.getD (2 * pos + 1) d) (q.getD (2 * pos + 1 + 1) d) = false
          then 2 * pos + 1 + 1 else 2 * pos + 1) = (if 2 * pos + 1 + 1 < q.length ∧
            lt' (q.getD (2 * pos + 1) d) (q.getD (2 * pos + 1 + 1) d) = false then 2 * pos + 1 + 1 else 2 * pos + 1) := by
        by_cases h1 : 2 * pos + 1 + 1 < q.length
        · rw [C _ _ (getD_mem d hq h0) (getD_mem d hq h1)]
        · simp [h1]
      rw [← e]
      generalize hc : (if 2 * pos + 1 + 1 < q.length ∧ lt (q.getD (2 * pos + 1) d) (q.getD (2 * pos + 1 + 1) d) = false
          then 2 * pos + 1 + 1 else 2 * pos + 1) = c
      have hcl : c < q.length := by rw [← hc]; split_ifs <;> omega
      obtain ⟨a, b, f⟩ := ih (q.set pos (q.getD c d)) c (set_mem hq (getD_mem d hq hcl))
      exact ⟨a, fun _ => b (by simpa using hcl), f⟩
    · rw [if_neg h0, if_neg h0]
      exact ⟨rfl, fun h => h, hq⟩

theorem heappop_congr (C : ∀ a b, S a → S b → lt a b = lt' a b) (q : List α) (hq : ∀ y ∈ q, S y) :
    heappop lt d q = heappop lt' d q := by
  unfold heappop
  rcases List.eq_nil_or_concat q with rfl | ⟨init, last, rfl⟩
  · simp
  · simp only [List.concat_eq_append, List.getLast?_append, List.getLast?_singleton, Option.some_or, List.dropLast_concat]
    simp only [List.concat_eq_append] at hq
    cases init with
    | nil => rfl
    | cons r rest =>
      have hi : ∀ y ∈ r :: rest, S y := fun y hy => hq y (List.mem_append_left _ hy)
      have hl : S last := hq last (by simp)
      obtain ⟨a, b, f⟩ := siftupLoop_congr d C (r :: rest).length (r :: rest) 0 hi
      simp only [siftup]
      rw [← a, siftdown_congr d C last hl _ _ _ f (b (by simp))]

theorem run_congr (C : ∀ a b, S a → S b → lt a b = lt' a b) (W : Weak lt') (ops : List (Op α)) (ho : ∀ x ∈ inserted ops, S x) :
    ∀ s : List α × List α, IsHeap lt' d s.1 → (∀ y ∈ s.1, S y) → ops.foldl (step lt d) s = ops.foldl (step lt' d) s := by
  induction ops with
  | nil => intros; rfl
  | cons o ops ih =>
    intro s h hs
    simp only [List.foldl_cons]
    cases o with
    | ins x =>
      have hx : S x := ho x (by simp [inserted])
      have e : step lt d s (.ins x) = step lt' d s (.ins x) := by
        simp only [step, insertNode, heappush]
        rw [siftdown_congr d C x hx _ _ _ (by
          intro y hy
          rcases List.mem_append.1 hy with h | h
          · exact hs y h
          · rw [List.mem_singleton] at h; rw [h]; exact hx) (by simp)]
      rw [e]
      refine ih (fun y hy => ho y (by simp [inserted, hy])) _ (heappush_heap d W s.1 x h) ?_
      intro y hy
      rcases List.mem_cons.1 ((heappush_perm d s.1 x).subset hy) with rfl | h
      · exact hx
      · exact hs y h
    | del =>
      have e : step lt d s .del = step lt' d s .del := by
        simp only [step, delMin]
        rw [heappop_congr d C s.1 hs]
      rw [e]
      have hp := heappop_spec d W s.1 h
      have : step lt' d s .del = match heappop lt' d s.1 with
        | none => s
        | some (x, q) => (q, x :: s.2) := rfl
      rw [this]
      have ho' : ∀ x ∈ inserted ops, S x := fun y hy => ho y (by simpa [inserted] using hy)
      cases hh : heappop lt' d s.1 with
      | none => exact ih ho' s h hs
      | some r =>
        obtain ⟨x, q⟩ := r
        rw [hh] at hp
        exact ih ho' _ hp.2.2 (fun y hy => hs y (hp.2.1.symm.subset (List.mem_cons_of_mem _ hy)))

end Congr

/-- C405: when the coordinates of the points inserted are equal or further apart than the tolerance, `min` answers with the leftmost
point of the queue, and the lowest one of these, after any sequence of calls. -/
theorem C405_points_partial (e : K) (he : 0 ≤ e) (d : Pt K × β) (ops : List (Op (Pt K × β)))
    (hsep : ∀ a ∈ inserted ops, ∀ b ∈ inserted ops, (a.1.id = b.1.id → a.1 = b.1) ∧
      (|a.1.x - b.1.x| ≤ e → a.1.x = b.1.x) ∧ (|a.1.y - b.1.y| ≤ e → a.1.y = b.1.y))
    (x : Pt K × β) (hx : minNode (run (ptLt e) d ops).1 = some x) :
    x ∈ (run (ptLt e) d ops).1 ∧ ∀ y ∈ (run (ptLt e) d ops).1, x.1.x < y.1.x ∨ x.1.x = y.1.x ∧ x.1.y ≤ y.1.y := by
  have C : ∀ a b : Pt K × β, a ∈ inserted ops → b ∈ inserted ops → ptLt e a b = lexLt a b := by
    intro a b ha hb
    obtain ⟨h1, h2, h3⟩ := hsep a ha b hb
    rw [abs_le] at h2 h3
    unfold ptLt lexLt
    refine decide_eq_decide.2 ?_
    unfold Pt.compare
    by_cases hid : a.1.id = b.1.id
    · rw [if_pos hid, h1 hid]; simp
    · rw [if_neg hid]
      by_cases c1 : a.1.x - b.1.x > e
      · rw [if_pos c1]
        have : ¬ (a.1.x < b.1.x ∨ a.1.x = b.1.x ∧ a.1.y < b.1.y) := by
          rintro (h | ⟨h, _⟩) <;> linarith
        simp [this]
      · rw [if_neg c1]
        by_cases c2 : a.1.x - b.1.x < -e
        · rw [if_pos c2]
          have : a.1.x < b.1.x := by linarith
          simp [this]
        · rw [if_neg c2]
          have hxe := h2 ⟨by linarith, by linarith⟩
          by_cases c3 : a.1.y - b.1.y > e
          · rw [if_pos c3]
            have : ¬ (a.1.x < b.1.x ∨ a.1.x = b.1.x ∧ a.1.y < b.1.y) := by
              rintro (h | ⟨_, h⟩) <;> linarith
            simp [this]
          · rw [if_neg c3]
            by_cases c4 : a.1.y - b.1.y < -e
            · rw [if_pos c4]
              have : a.1.x = b.1.x ∧ a.1.y < b.1.y := ⟨hxe, by linarith⟩
              simp [this]
            · rw [if_neg c4]
              have hye := h3 ⟨by linarith, by linarith⟩
              simp [hxe, hye]
  have hr : run (ptLt e) d ops = run lexLt d ops :=
    run_congr d C lexLt_weak ops (fun x hx => hx) ([], []) (fun i _ hl => by simp at hl) (fun y hy => by simp at hy)
  rw [hr] at hx ⊢
  obtain ⟨h1, h2⟩ := (queue_spec d lexLt_weak ops).2.2.1 x hx
  refine ⟨h1, fun y hy => ?_⟩
  have := h2 y hy
  simp only [lexLt, decide_eq_false_iff_not, not_or, not_and, not_lt] at this
  rcases lt_or_eq_of_le this.1 with h | h
  · exact Or.inl h
  · exact Or.inr ⟨h, this.2 h.symm⟩

-- four points with coordinates 2 apart, the tolerance 1
example : ∀ a ∈ inserted ([.ins (⟨4, 0, 0⟩, ()), .ins (⟨2, 2, 1⟩, ()), .ins (⟨2, 0, 2⟩, ()), .del, .ins (⟨6, 2, 3⟩, ())] :
    List (Op (Pt ℚ × Unit))), ∀ b ∈ inserted ([.ins (⟨4, 0, 0⟩, ()), .ins (⟨2, 2, 1⟩, ()), .ins (⟨2, 0, 2⟩, ()), .del,
      .ins (⟨6, 2, 3⟩, ())] : List (Op (Pt ℚ × Unit))), (a.1.id = b.1.id → a.1 = b.1) ∧
    (|a.1.x - b.1.x| ≤ 1 → a.1.x = b.1.x) ∧ (|a.1.y - b.1.y| ≤ 1 → a.1.y = b.1.y) := by decide +kernel
example : minNode (run (ptLt (1 : ℚ)) (⟨0, 0, 9⟩, ()) [.ins (⟨4, 0, 0⟩, ()), .ins (⟨2, 2, 1⟩, ()), .ins (⟨2, 0, 2⟩, ()), .del,
    .ins (⟨6, 2, 3⟩, ())]).1 = some (⟨2, 2, 1⟩, ()) := by decide +kernel

end Points

end Verif.Pq
