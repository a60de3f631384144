import Verif.Mol.Props
import Mathlib.Tactic.SplitIfs

/-! # Many triangles, one thread or several (C214, C215) -/

set_option linter.unusedSectionVars false

namespace Verif.Mol

variable {K : Type} [Field K] [LinearOrder K] [IsStrictOrderedRing K]

/-! ### Specification -/

/-- The flag triangle `i` must get: 0 for no intersection, else the class of the point. -/
def wanted (eps : K) (ts : Nat → Tri K) (s e : V K) (i : Nat) : Nat :=
  match (ts i).hit eps s e with
  | some p => (ts i).flag eps p
  | none => 0

/-! ### The serial loop -/

theorem set_same {α : Type} (f : Nat → α) (i : Nat) (a : α) : set f i a i = a := by simp [set]

theorem set_other {α : Type} (f : Nat → α) (i j : Nat) (a : α) (h : j ≠ i) : set f i a j = f j := by simp [set, h]

theorem pass_same (eps : K) (ts : Nat → Tri K) (s e : V K) (r : Arr K) (i : Nat) :
    (pass eps ts s e r i).flags i = wanted eps ts s e i ∧
      (pass eps ts s e r i).outs i = ((ts i).hit eps s e).getD (r.outs i) := by
  unfold pass wanted
  cases (ts i).hit eps s e <;> simp [set_same]

theorem pass_other (eps : K) (ts : Nat → Tri K) (s e : V K) (r : Arr K) (i j : Nat) (h : j ≠ i) :
    (pass eps ts s e r i).flags j = r.flags j ∧ (pass eps ts s e r i).outs j = r.outs j := by
  unfold pass
  cases (ts i).hit eps s e <;> simp [set_other _ _ _ _ h]

/-- **C214.** After the loop each of the `n` triangles has its own flag, the row of a hit triangle is the point, and the rows
of the others and everything behind are as the caller left them. -/
theorem C214_serial (eps : K) (ts : Nat → Tri K) (n : Nat) (s e : V K) (r : Arr K) (i : Nat) :
    (i < n → (serial eps ts n s e r).flags i = wanted eps ts s e i ∧
      (serial eps ts n s e r).outs i = ((ts i).hit eps s e).getD (r.outs i)) ∧
    (n ≤ i → (serial eps ts n s e r).flags i = r.flags i ∧ (serial eps ts n s e r).outs i = r.outs i) := by
  unfold serial
  induction n with
  | zero => exact ⟨fun h => absurd h (Nat.not_lt_zero _), fun _ => ⟨rfl, rfl⟩⟩
  | succ n ih =>
    rw [List.range_succ, List.foldl_append]
    simp only [List.foldl_cons, List.foldl_nil]
    generalize List.foldl (pass eps ts s e) r (List.range n) = q at *
    constructor
    · intro h
      rcases Nat.lt_succ_iff_lt_or_eq.mp h with g | g
      · rw [(pass_other eps ts s e q n i g.ne).1, (pass_other eps ts s e q n i g.ne).2]
        exact ih.1 g
      · have := pass_same eps ts s e q n
        have ho : q.outs n = r.outs n := by rw [← g]; exact (ih.2 g.ge).2
        rw [g, this.1, this.2, ho]
        exact ⟨rfl, rfl⟩
    · intro h
      have g : i ≠ n := by omega
      rw [(pass_other eps ts s e q n i g).1, (pass_other eps ts s e q n i g).2]
      exact ih.2 (by omega)

/-- **C214.** `intersect_triangles_segment_one` gives the point of the first triangle in the list which is hit. -/
theorem C214_first (eps : K) (ts : List (Tri K)) (s e : V K) :
    (∀ p, (firstHit eps ts s e).1 = some p ↔
      ∃ pre t post, ts = pre ++ t :: post ∧ (∀ q ∈ pre, q.hit eps s e = none) ∧ t.hit eps s e = some p) ∧
    ((firstHit eps ts s e).1 = none ↔ ∀ t ∈ ts, t.hit eps s e = none) ∧
    ((firstHit eps ts s e).2 = 0 ↔ ∀ t ∈ ts, t.hit eps s e = none) := by
  induction ts with
  | nil => simp [firstHit]
  | cons t ts ih =>
    unfold firstHit
    cases h : t.hit eps s e with
    | some i =>
      refine ⟨fun p => ⟨fun hp => ⟨[], t, ts, rfl, by simp, ?_⟩, ?_⟩, by simp [h], by simp [h]⟩
      · dsimp only at hp; rw [h, hp]
      · rintro ⟨pre, t', post, e1, e2, e3⟩
        cases pre with
        | nil =>
          simp only [List.nil_append, List.cons.injEq] at e1
          rw [← e1.1, h] at e3
          exact e3
        | cons a pre =>
          simp only [List.cons_append, List.cons.injEq] at e1
          have := e2 a (by simp)
          rw [← e1.1, h] at this
          cases this
    | none =>
      dsimp only
      refine ⟨fun p => ?_, by simp [h, ih.2.1], by simp [h, ih.2.2]⟩
      rw [ih.1 p]
      constructor
      · rintro ⟨pre, t', post, e1, e2, e3⟩
        refine ⟨t :: pre, t', post, by rw [e1]; rfl, ?_, e3⟩
        intro q hq
        rcases List.mem_cons.mp hq with g | g
        · rw [g]; exact h
        · exact e2 q g
      · rintro ⟨pre, t', post, e1, e2, e3⟩
        cases pre with
        | nil =>
          simp only [List.nil_append, List.cons.injEq] at e1
          rw [← e1.1, h] at e3
          cases e3
        | cons a pre =>
          simp only [List.cons_append, List.cons.injEq] at e1
          exact ⟨pre, t', post, e1.2, fun q hq => e2 q (by simp [hq]), e3⟩

/-- **C214, refuted.** The documented flags of this function are 1 for a vertex, 2 for an edge and 4 for the interior; the
flag returned with a point is 1 wherever the point is. -/
theorem C214_flag_refuted (eps : K) (ts : List (Tri K)) (s e p : V K) (h : (firstHit eps ts s e).1 = some p) :
    (firstHit eps ts s e).2 = 1 := by
  induction ts with
  | nil => simp [firstHit] at h
  | cons t ts ih =>
    unfold firstHit at h ⊢
    cases g : t.hit eps s e with
    | some i => rfl
    | none => rw [g] at h; exact ih h

/-! ### The parallel loop -/

section Par
variable (eps : K) (ts : Nat → Tri K) (s e : V K)

theorem exec_append (st : State K) (l l' : List Nat) : exec eps ts s e st (l ++ l') = exec eps ts s e (exec eps ts s e st l) l' := by
  unfold exec; rw [List.foldl_append]

theorem exec_cons (st : State K) (k : Nat) (l : List Nat) : exec eps ts s e st (k :: l) = exec eps ts s e (tick eps ts s e st k) l := rfl

/-- Alone, four steps of a thread are one pass of the serial loop. -/
theorem four (m : Shared K) (i : Nat) (rest : List Nat) (b : Bool) :
    ∃ m' b', m'.arr = pass eps ts s e m.arr i ∧
      (let r1 := step eps ts s e m ⟨i :: rest, .load, b⟩
       let r2 := step eps ts s e r1.1 r1.2
       let r3 := step eps ts s e r2.1 r2.2
       step eps ts s e r3.1 r3.2) = (m', ⟨rest, .load, b'⟩) := by
  unfold pass
  cases h : (ts i).hit eps s e with
  | none =>
    exact ⟨⟨ts i, m.ci, { m.arr with flags := set m.arr.flags i 0 }⟩, false, rfl, by simp only [step, h]; rfl⟩
  | some p =>
    exact ⟨⟨ts i, p, ⟨set m.arr.outs i p, set m.arr.flags i ((ts i).flag eps p)⟩⟩, true, rfl, by simp only [step, h]; rfl⟩

theorem tick_at (m : Shared K) (pre post : List Thread) (t : Thread) :
    tick eps ts s e ⟨m, pre ++ t :: post⟩ pre.length = ⟨(step eps ts s e m t).1, pre ++ (step eps ts s e m t).2 :: post⟩ := by
  unfold tick
  simp

theorem run_thread (m : Shared K) (pre post : List Thread) (is : List Nat) (b : Bool) :
    ∃ m' b', m'.arr = is.foldl (pass eps ts s e) m.arr ∧
      exec eps ts s e ⟨m, pre ++ ⟨is, .load, b⟩ :: post⟩ (List.replicate (4 * is.length) pre.length) =
        ⟨m', pre ++ ⟨[], .load, b'⟩ :: post⟩ := by
  induction is generalizing m b with
  | nil => exact ⟨m, b, rfl, rfl⟩
  | cons i rest ih =>
    obtain ⟨m1, b1, e1, e2⟩ := four eps ts s e m i rest b
    obtain ⟨m2, b2, e3, e4⟩ := ih m1 b1
    refine ⟨m2, b2, by rw [e3, e1]; rfl, ?_⟩
    have hl : 4 * (i :: rest).length = 4 * rest.length + 1 + 1 + 1 + 1 := by simp only [List.length_cons]; ring
    rw [hl]
    simp only [List.replicate_succ, exec_cons, tick_at]
    dsimp only at e2
    rw [e2]
    exact e4

/-- The threads one after the other. -/
def oneByOne : Nat → List (List Nat) → List Nat
  | _, [] => []
  | k, p :: ps => List.replicate (4 * p.length) k ++ oneByOne (k + 1) ps

theorem run_all (parts : List (List Nat)) : ∀ (m : Shared K) (pre : List Thread), (∀ t ∈ pre, t.todo = []) →
    (exec eps ts s e ⟨m, pre ++ parts.map fun is => ⟨is, .load, false⟩⟩ (oneByOne pre.length parts)).done ∧
    (exec eps ts s e ⟨m, pre ++ parts.map fun is => ⟨is, .load, false⟩⟩ (oneByOne pre.length parts)).mem.arr =
      parts.flatten.foldl (pass eps ts s e) m.arr := by
  induction parts with
  | nil =>
    intro m pre h
    refine ⟨?_, rfl⟩
    intro t ht
    simp only [List.map_nil, List.append_nil] at ht
    exact h t ht
  | cons p ps ih =>
    intro m pre h
    obtain ⟨m', b', e1, e2⟩ := run_thread eps ts s e m pre (ps.map fun is => ⟨is, .load, false⟩) p false
    simp only [List.map_cons, oneByOne, exec_append, e2]
    have := ih m' (pre ++ [⟨[], .load, b'⟩]) (by
      intro t ht
      rcases List.mem_append.mp ht with g | g
      · exact h t g
      · rw [List.mem_singleton.mp g])
    rw [List.length_append, List.append_assoc] at this
    simp only [List.singleton_append, List.length_singleton] at this
    refine ⟨this.1, ?_⟩
    rw [this.2, e1, List.flatten_cons, List.foldl_append]

/-- **C215, the part that holds.** If the threads happen to run one after the other (in particular with a single thread) the
result is that of the serial function, whatever the division of the indices into contiguous parts. -/
theorem C215_one_by_one_partial (parts : List (List Nat)) (n : Nat) (hp : parts.flatten = List.range n) (m : Shared K) :
    (exec eps ts s e (start m parts) (oneByOne 0 parts)).done ∧
    (exec eps ts s e (start m parts) (oneByOne 0 parts)).mem.arr = serial eps ts n s e m.arr := by
  have := run_all eps ts s e parts m [] (by simp)
  rw [hp] at this
  exact this

/-! ### Interleaving -/

/-- A step of a thread which does not have index `i` leaves the flag of `i` alone. -/
theorem step_flags (m : Shared K) (t : Thread) (i : Nat) (h : i ∉ t.todo) :
    (step eps ts s e m t).1.arr.flags i = m.arr.flags i ∧ i ∉ (step eps ts s e m t).2.todo := by
  obtain ⟨todo, pc, b⟩ := t
  cases todo with
  | nil => exact ⟨rfl, h⟩
  | cons j rest =>
    have hj : i ≠ j := fun c => h (by simp [c])
    have hr : i ∉ rest := fun c => h (by simp [c])
    cases pc with
    | load => exact ⟨rfl, h⟩
    | test =>
      unfold step
      dsimp only
      cases m.tri.hit eps s e <;> exact ⟨rfl, h⟩
    | classify =>
      unfold step
      dsimp only
      cases b
      · simp only [Bool.false_eq_true, if_false]; exact ⟨set_other _ _ _ _ hj, h⟩
      · simp only [if_true]; exact ⟨set_other _ _ _ _ hj, h⟩
    | store =>
      unfold step
      dsimp only
      cases b
      · exact ⟨rfl, hr⟩
      · exact ⟨rfl, hr⟩

theorem tick_flags (st : State K) (k i : Nat) (h : ∀ t ∈ st.threads, i ∉ t.todo) :
    (tick eps ts s e st k).mem.arr.flags i = st.mem.arr.flags i ∧ ∀ t ∈ (tick eps ts s e st k).threads, i ∉ t.todo := by
  unfold tick
  cases g : st.threads[k]? with
  | none => exact ⟨rfl, h⟩
  | some t =>
    have ht := h t (List.mem_of_getElem? g)
    obtain ⟨a, b⟩ := step_flags eps ts s e st.mem t i ht
    refine ⟨a, fun t' ht' => ?_⟩
    rcases List.mem_or_eq_of_mem_set ht' with c | c
    · exact h t' c
    · rw [c]; exact b

theorem exec_flags (sched : List Nat) (i : Nat) : ∀ st : State K, (∀ t ∈ st.threads, i ∉ t.todo) →
    (exec eps ts s e st sched).mem.arr.flags i = st.mem.arr.flags i := by
  induction sched with
  | nil => intro st _; rfl
  | cons k l ih =>
    intro st h
    obtain ⟨a, b⟩ := tick_flags eps ts s e st k i h
    rw [exec_cons, ih _ b, a]

/-- What a thread has left to do. -/
def left (t : Thread) : Nat := 4 * t.todo.length - (match t.pc with | .load => 0 | .test => 1 | .classify => 2 | .store => 3)

theorem left_step (m : Shared K) (t : Thread) (h : t.todo ≠ []) : left (step eps ts s e m t).2 < left t := by
  obtain ⟨todo, pc, b⟩ := t
  cases todo with
  | nil => exact absurd rfl h
  | cons j rest =>
    cases pc
    · simp [step, left]
    · unfold step
      dsimp only
      cases m.tri.hit eps s e <;> simp [left] <;> omega
    · cases b <;> simp [step, left] <;> omega
    · cases b <;> simp [step, left] <;> omega

/-- A thread can run to its end. -/
theorem finish_one (n : Nat) : ∀ (m : Shared K) (pre post : List Thread) (t : Thread), left t ≤ n →
    ∃ m' t' sched, t'.todo = [] ∧ exec eps ts s e ⟨m, pre ++ t :: post⟩ sched = ⟨m', pre ++ t' :: post⟩ := by
  induction n with
  | zero =>
    intro m pre post t h
    refine ⟨m, t, [], ?_, rfl⟩
    by_contra hne
    have := left_step eps ts s e m t hne
    omega
  | succ n ih =>
    intro m pre post t h
    by_cases hne : t.todo = []
    · exact ⟨m, t, [], hne, rfl⟩
    · have hl := left_step eps ts s e m t hne
      obtain ⟨m', t', sched, e1, e2⟩ := ih (step eps ts s e m t).1 pre post (step eps ts s e m t).2 (by omega)
      refine ⟨m', t', pre.length :: sched, e1, ?_⟩
      rw [exec_cons, tick_at, e2]

/-- All threads can run to their ends. -/
theorem finish (post : List Thread) : ∀ (m : Shared K) (pre : List Thread), (∀ t ∈ pre, t.todo = []) →
    ∃ sched, (exec eps ts s e ⟨m, pre ++ post⟩ sched).done := by
  induction post with
  | nil => intro m pre h; exact ⟨[], fun t ht => h t (by simpa [exec] using ht)⟩
  | cons t post ih =>
    intro m pre h
    obtain ⟨m', t', sched, e1, e2⟩ := finish_one eps ts s e (left t) m pre post t le_rfl
    obtain ⟨sched', h'⟩ := ih m' (pre ++ [t']) (by
      intro q hq
      rcases List.mem_append.mp hq with g | g
      · exact h q g
      · rw [List.mem_singleton.mp g]; exact e1)
    refine ⟨sched ++ sched', ?_⟩
    rw [exec_append, e2]
    simpa using h'

/-- **C215, refuted.** With two threads or more there is an execution, run to the end of all threads, in which the first
triangle of the first thread gets the flag of the first triangle of the second: the two share the memory the triangle is
copied to. -/
theorem C215_race_refuted (m : Shared K) (i j : Nat) (is js : List Nat) (parts : List (List Nat))
    (hi : i ∉ is) (hj : i ∉ j :: js) (hp : i ∉ parts.flatten) :
    ∃ sched, (exec eps ts s e (start m ((i :: is) :: (j :: js) :: parts)) sched).done ∧
      (exec eps ts s e (start m ((i :: is) :: (j :: js) :: parts)) sched).mem.arr.flags i = wanted eps ts s e j := by
  have key : ∃ m' b, m'.arr.flags i = wanted eps ts s e j ∧
      exec eps ts s e (start m ((i :: is) :: (j :: js) :: parts)) [0, 1, 0, 0, 0] =
        ⟨m', ⟨is, .load, b⟩ :: ⟨j :: js, .test, false⟩ :: parts.map fun is => ⟨is, .load, false⟩⟩ := by
    unfold wanted
    cases h : (ts j).hit eps s e with
    | none =>
      refine ⟨⟨ts j, m.ci, { m.arr with flags := set m.arr.flags i 0 }⟩, false, ?_, ?_⟩
      · exact set_same _ _ _
      · simp only [start, exec, tick, List.foldl_cons, List.foldl_nil, List.map_cons, List.getElem?_cons_zero,
          List.getElem?_cons_succ, step, List.set_cons_zero, List.set_cons_succ, h]
        rfl
    | some p =>
      refine ⟨⟨ts j, p, ⟨set m.arr.outs i p, set m.arr.flags i ((ts j).flag eps p)⟩⟩, true, ?_, ?_⟩
      · exact set_same _ _ _
      · simp only [start, exec, tick, List.foldl_cons, List.foldl_nil, List.map_cons, List.getElem?_cons_zero,
          List.getElem?_cons_succ, step, List.set_cons_zero, List.set_cons_succ, h]
        rfl
  obtain ⟨m', b, e1, e2⟩ := key
  obtain ⟨sched, hd⟩ := finish eps ts s e (⟨is, .load, b⟩ :: ⟨j :: js, .test, false⟩ :: parts.map fun is => ⟨is, .load, false⟩) m' []
    (by simp)
  refine ⟨[0, 1, 0, 0, 0] ++ sched, ?_, ?_⟩
  · rw [exec_append, e2]; exact hd
  · rw [exec_append, e2, exec_flags, e1]
    intro t ht
    simp only [List.mem_cons, List.mem_map] at ht
    rcases ht with g | g | ⟨q, hq, g⟩
    · rw [g]; exact hi
    · rw [g]; exact hj
    · rw [← g]
      exact fun c => hp (List.mem_flatten.mpr ⟨q, hq, c⟩)

/-- **C215, refuted.** So whenever the first triangles of two parts have different flags, there is an execution whose result
is not that of the serial function. -/
theorem C215_serial_refuted (m : Shared K) (n k : Nat) (hk : 0 < k) (hn : k < n) (hw : wanted eps ts s e 0 ≠ wanted eps ts s e k) :
    ∃ sched, (exec eps ts s e (start m [List.range' 0 k, List.range' k (n - k)]) sched).done ∧
      (exec eps ts s e (start m [List.range' 0 k, List.range' k (n - k)]) sched).mem.arr ≠ serial eps ts n s e m.arr := by
  obtain ⟨k', rfl⟩ : ∃ k', k = k' + 1 := ⟨k - 1, by omega⟩
  obtain ⟨d, hd⟩ : ∃ d, n - (k' + 1) = d + 1 := ⟨n - (k' + 1) - 1, by omega⟩
  rw [hd, List.range'_succ, List.range'_succ]
  obtain ⟨sched, h1, h2⟩ := C215_race_refuted eps ts s e m 0 (k' + 1) (List.range' (0 + 1) k') (List.range' (k' + 1 + 1) d) []
    (by simp [List.mem_range']; omega) (by simp [List.mem_range']; omega) (by simp)
  refine ⟨sched, h1, fun c => hw ?_⟩
  rw [c] at h2
  rw [← h2]
  exact (((C214_serial eps ts n s e m.arr 0).1 (by omega)).1).symm

end Par

/-! ### Examples -/

/-- Two triangles: the first is hit in the interior, the second is not hit. -/
def two : Nat → Tri ℚ := fun i =>
  if i = 0 then ⟨⟨0, 0, 0⟩, ⟨4, 0, 0⟩, ⟨0, 4, 0⟩⟩ else ⟨⟨10, 0, 0⟩, ⟨14, 0, 0⟩, ⟨10, 4, 0⟩⟩

example : wanted (1/100000000) two ⟨1, 1, -1⟩ ⟨1, 1, 3⟩ 0 = 1 ∧ wanted (1/100000000) two ⟨1, 1, -1⟩ ⟨1, 1, 3⟩ 1 = 0 := by
  decide +kernel

example (m : Shared ℚ) : ∃ sched, (exec (1/100000000) two ⟨1, 1, -1⟩ ⟨1, 1, 3⟩ (start m [[0], [1]]) sched).done ∧
    (exec (1/100000000) two ⟨1, 1, -1⟩ ⟨1, 1, 3⟩ (start m [[0], [1]]) sched).mem.arr ≠
      serial (1/100000000) two 2 ⟨1, 1, -1⟩ ⟨1, 1, 3⟩ m.arr :=
  C215_serial_refuted _ two _ _ m 2 1 (by decide) (by decide) (by decide +kernel)

example : (firstHit (1/100000000 : ℚ) [two 1, two 0] ⟨1, 1, -1⟩ ⟨1, 1, 3⟩) = (some ⟨1, 1, 0⟩, 1) := by decide +kernel

end Verif.Mol
