import Verif.Swl.Model2
import Verif.Swl.Props2
import Verif.Pq.Props
import Mathlib.Algebra.Order.Field.Rat
import Mathlib.Tactic.LinearCombination
import Mathlib.Tactic.Linarith
import Mathlib.Tactic.NormNum
import Mathlib.Tactic.Positivity

/-! # What the sweep reports (C423) -/

set_option linter.unusedSectionVars false
set_option linter.unusedVariables false

namespace Verif.Swl

variable {K : Type} [Field K] [LinearOrder K] [IsStrictOrderedRing K]

/-! ## The heap hands out what it was given -/

theorem siftdown_mem {α : Type} {lt : α → α → Bool} {d : α} {S : α → Prop} {x : α} (hx : S x) : ∀ (fuel : ℕ) (q : List α) (pos : ℕ),
    (∀ y ∈ q, S y) → pos < q.length → ∀ y ∈ Pq.siftdown lt d 0 x fuel q pos, S y := by
  intro fuel
  induction fuel with
  | zero => intro q pos hq _; exact Pq.set_mem hq hx
  | succ fuel ih =>
    intro q pos hq hp
    simp only [Pq.siftdown]
    split
    · split
      · exact ih _ _ (Pq.set_mem hq (Pq.getD_mem d hq (by omega))) (by simp; omega)
      · exact Pq.set_mem hq hx
    · exact Pq.set_mem hq hx

theorem delMin_mem {α : Type} {lt : α → α → Bool} {d : α} {S : α → Prop} {q : List α} (hq : ∀ y ∈ q, S y) {r : α × List α}
    (h : Pq.delMin lt d q = some r) : ∀ y ∈ r.2, S y := by
  unfold Pq.delMin Pq.heappop at h
  rcases List.eq_nil_or_concat q with rfl | ⟨init, last, rfl⟩
  · simp at h
  · simp only [List.concat_eq_append, List.getLast?_append, List.getLast?_singleton, Option.some_or, List.dropLast_concat] at h
    simp only [List.concat_eq_append] at hq
    have hl : S last := hq last (by simp)
    cases init with
    | nil => simp only [Option.some.injEq] at h; subst h; simp
    | cons r' rest =>
      simp only [Option.some.injEq] at h; subst h
      have hi : ∀ y ∈ r' :: rest, S y := fun y hy => hq y (List.mem_append_left _ hy)
      obtain ⟨-, b, f⟩ := Pq.siftupLoop_congr (lt := lt) (lt' := lt) d (S := S) (fun _ _ _ _ => rfl) (r' :: rest).length (r' :: rest) 0 hi
      exact siftdown_mem hl _ _ _ f (b (by simp))

theorem heappush_mem {α : Type} {lt : α → α → Bool} {d : α} {S : α → Prop} {q : List α} (hq : ∀ y ∈ q, S y) {x : α} (hx : S x) :
    ∀ y ∈ Pq.insertNode lt d q x, S y := by
  intro y hy
  have := (Pq.heappush_perm (lt := lt) (d := d) q x).mem_iff.1 hy
  rcases List.mem_cons.1 this with rfl | h
  · exact hx
  · exact hq _ h

/-! ## The invariant of the sweep -/

/-- What stays the same during a sweep: the segments of the input as they are in the queue, the sentinels, the stopper, the indices of
the inputs, and what may be reported. -/
structure Data (K : Type) where
  T : Seg K → Prop
  lower : Seg K
  upper : Seg K
  stop : Seg K
  O : List (ℕ × ℕ)
  R : ℕ × (K × K) → Prop

/-- The end points of the input. -/
def Data.End (D : Data K) (p : Pt K) : Prop := ∃ s, D.T s ∧ (p = s.p1 ∨ p = s.p2)

/-- What is known about them. -/
structure Adm (D : Data K) : Prop where
  ids : ∀ p, D.End p → p.id < D.stop.p1.id
  coh : ∀ p q, D.End p → D.End q → p.id = q.id → p = q
  uniq : ∀ a b, D.T a → D.T b → a.id = b.id → a = b
  proper : ∀ s, D.T s → s.isTrivial = false
  lproper : D.lower.isTrivial = false
  uproper : D.upper.isTrivial = false
  lid : ∀ s, D.T s → s.id ≠ D.lower.id
  uid : ∀ s, D.T s → s.id ≠ D.upper.id
  lorig : D.O.lookup D.lower.id = none
  uorig : D.O.lookup D.upper.id = none
  above : ∀ p, D.End p → orientation D.lower p = 1
  below : ∀ p, D.End p → orientation D.upper p = -1
  ends : orientation D.lower D.upper.p2 = 1
  rep : ∀ a b q i, D.T a → D.T b → a.slope ≠ b.slope → side a q = 0 → side b q = 0 →
    D.O.lookup a.id = some i ∨ D.O.lookup b.id = some i → D.R (i, (q.x, q.y))

/-- The Y-structure is the lower sentinel, segments of the input, the upper sentinel. -/
def Shape (D : Data K) (Y : List (YN K)) (nid : ℕ) : Prop :=
  ∃ lo mid up, Y = lo :: (mid ++ [up]) ∧ lo.key = D.lower ∧ up.key = D.upper ∧
    (∀ y ∈ mid, D.T y.key ∧ y.id ≠ lo.id ∧ y.id ≠ up.id) ∧ lo.id ≠ up.id ∧ lo.id < nid ∧ up.id < nid

structure Inv (D : Data K) (w : Sw K) : Prop where
  y : Shape D w.Y w.nid
  q : ∀ s ∈ w.queue, D.T s ∨ s = D.stop
  n : D.T w.next ∨ w.next = D.stop
  x : ∀ x ∈ w.X, x.key.id ≠ D.stop.p1.id ∧ ∀ p, D.End p → x.key.id = p.id → x.key = p
  p : D.stop.p1.id < w.pid
  o : w.orig = D.O
  r : ∀ r ∈ w.isect, D.R r

theorem eqv_self (e : K) (p : Pt K) : p.eqv e p = true := by simp [Pt.eqv, Pt.compare]

theorem eqv_comm {e : K} (he : 0 ≤ e) (p q : Pt K) : p.eqv e q = q.eqv e p := by
  unfold Pt.eqv
  rw [C289_antisymm he q p]
  simp

/-- A point of intersection is on both lines, unless it is an end of the first segment that counts as an end of the second. -/
theorem meet_cases {e : K} {fresh : ℕ} {a s : Seg K} {q : Pt K} (h : intersectionOfLines e fresh a s = some q) :
    a.slope ≠ s.slope ∧ ((side a q = 0 ∧ side s q = 0 ∧ q.id = fresh) ∨ ((q = a.p1 ∨ q = a.p2) ∧ (q.eqv e s.p1 = true ∨ q.eqv e s.p2 = true))) := by
  unfold intersectionOfLines at h
  split_ifs at h with h0 h1 h2
  · simp only [Option.some.injEq] at h; subst h
    exact ⟨h0, Or.inr ⟨Or.inl rfl, Bool.or_eq_true_iff.mp h1⟩⟩
  · simp only [Option.some.injEq] at h; subst h
    exact ⟨h0, Or.inr ⟨Or.inr rfl, Bool.or_eq_true_iff.mp h2⟩⟩
  · refine ⟨h0, Or.inl ?_⟩
    rcases slope_cases a with ⟨ax, q1, q2⟩ | ⟨ax, m, k, q1, q2, qa⟩ <;>
    rcases slope_cases s with ⟨sx, r1, r2⟩ | ⟨sx, m', k', r1, r2, qs⟩
    · exact absurd (q1.trans r1.symm) h0
    · rw [q1, q2, r1, r2] at h
      simp only [Option.some.injEq] at h; subst h
      refine ⟨?_, qs _ rfl, rfl⟩
      unfold side; rw [← ax]; ring
    · rw [q1, q2, r1, r2] at h
      simp only [Option.some.injEq] at h; subst h
      refine ⟨qa _ rfl, ?_, rfl⟩
      unfold side; rw [← sx]; ring
    · rw [q1, q2, r1, r2] at h
      simp only [Option.some.injEq] at h; subst h
      refine ⟨qa _ rfl, qs _ ?_, rfl⟩
      have hm : m - m' ≠ 0 := by
        intro hc; apply h0; rw [q1, r1, sub_eq_zero.mp hc]
      dsimp only
      field_simp; ring

variable {D : Data K} {w : Sw K} {e : K}

theorem Shape.mono {Y : List (YN K)} {m n : ℕ} (h : Shape D Y m) (hmn : m ≤ n) : Shape D Y n := by
  obtain ⟨lo, mid, up, h1, h2, h3, h4, h5, h6, h7⟩ := h
  exact ⟨lo, mid, up, h1, h2, h3, h4, h5, by omega, by omega⟩

/-- Each node is one of three kinds. -/
theorem Shape.kinds {Y : List (YN K)} {n : ℕ} (h : Shape D Y n) {y : YN K} (hy : y ∈ Y) : y.key = D.lower ∨ D.T y.key ∨ y.key = D.upper := by
  obtain ⟨lo, mid, up, rfl, h2, h3, h4, -⟩ := h
  simp only [List.mem_cons, List.mem_append, List.not_mem_nil, or_false] at hy
  rcases hy with rfl | h | rfl
  · exact Or.inl h2
  · exact Or.inr (Or.inl (h4 y h).1)
  · exact Or.inr (Or.inr h3)

theorem inv_changeInf (I : Inv D w) (i : ℕ) (f : Option ℕ) : Inv D (w.changeInf i f) := by
  refine ⟨?_, I.q, I.n, I.x, I.p, I.o, I.r⟩
  obtain ⟨lo, mid, up, h1, h2, h3, h4, h5, h6, h7⟩ := I.y
  let g : YN K → YN K := fun y => if y.id = i then { y with inf := f } else y
  have gk : ∀ y, (g y).key = y.key := by intro y; simp only [g]; split <;> rfl
  have gi : ∀ y, (g y).id = y.id := by intro y; simp only [g]; split <;> rfl
  refine ⟨g lo, mid.map g, g up, ?_, by rw [gk, h2], by rw [gk, h3], ?_, by rw [gi, gi]; exact h5, by rw [gi]; exact h6, by rw [gi]; exact h7⟩
  · show w.Y.map g = _
    rw [h1]; simp
  · intro y hy
    obtain ⟨z, hz, rfl⟩ := List.mem_map.1 hy
    rw [gk, gi, gi, gi]
    exact h4 z hz

theorem node_mem {i : ℕ} {y : YN K} (h : w.node i = some y) : y ∈ w.Y := List.mem_of_find?_eq_some h

theorem node_id {i : ℕ} {y : YN K} (h : w.node i = some y) : y.id = i := by
  have := List.find?_some h
  simpa using this

/-- Taking out a node whose segment is of the input. -/
theorem inv_delItem (A : Adm D) (I : Inv D w) {i : ℕ} {y : YN K} (hn : w.node i = some y) {k : ℕ} (ho : w.orig.lookup y.key.id = some k) :
    Inv D (w.delItem i) := by
  refine ⟨?_, I.q, I.n, I.x, I.p, I.o, I.r⟩
  obtain ⟨lo, mid, up, h1, h2, h3, h4, h5, h6, h7⟩ := I.y
  rw [I.o] at ho
  have hm : y ∈ mid := by
    have := node_mem hn
    rw [h1] at this
    simp only [List.mem_cons, List.mem_append, List.not_mem_nil, or_false] at this
    rcases this with rfl | h | rfl
    · rw [h2, A.lorig] at ho; simp at ho
    · exact h
    · rw [h3, A.uorig] at ho; simp at ho
  have hi := node_id hn
  have hl : lo.id ≠ i := by rw [← hi]; exact (h4 y hm).2.1.symm
  have hu : up.id ≠ i := by rw [← hi]; exact (h4 y hm).2.2.symm
  refine ⟨lo, mid.filter (fun y => y.id ≠ i), up, ?_, h2, h3, fun y hy => h4 y (List.mem_of_mem_filter hy), h5, h6, h7⟩
  show w.Y.filter _ = _
  rw [h1]
  simp [List.filter_cons, List.filter_append, hl, hu]

theorem inv_setInter (I : Inv D w) (i j x : ℕ) : Inv D (w.setInter i j x) := ⟨I.y, I.q, I.n, I.x, I.p, I.o, I.r⟩

theorem place_spec {a i : ℕ} (h : w.place a = some i) : ∃ hi : i < w.Y.length, w.Y[i].id = a := by
  unfold Sw.place at h
  rw [List.findIdx?_eq_some_iff_getElem] at h
  obtain ⟨hi, hp, -⟩ := h
  exact ⟨hi, by simpa using hp⟩

theorem node_place {a i : ℕ} (h : w.place a = some i) : w.node a = w.Y[i]? := by
  unfold Sw.place at h
  unfold Sw.node
  rw [List.findIdx?_eq_some_iff_getElem] at h
  obtain ⟨hi, hp, hf⟩ := h
  rw [List.getElem?_eq_getElem hi, List.find?_eq_some_iff_getElem]
  exact ⟨hp, i, hi, rfl, fun j hj => by simpa using hf j hj⟩

/-- A node that is after another is not the first one. -/
theorem succ_pos (I : Inv D w) {a i : ℕ} {y : YN K} (h : w.succ a = some y) (hp : w.place y.id = some i) : 0 < i := by
  obtain ⟨lo, mid, up, h1, h2, h3, h4, h5, h6, h7⟩ := I.y
  simp only [Sw.succ, Option.bind_eq_some_iff] at h
  obtain ⟨n, -, h⟩ := h
  rw [h1] at h
  simp only [List.getElem?_cons_succ] at h
  have hy := List.mem_of_getElem? h
  have hne : y.id ≠ lo.id := by
    simp only [List.mem_append, List.mem_singleton] at hy
    rcases hy with h | rfl
    · exact (h4 y h).2.1
    · exact h5.symm
  rcases Nat.eq_zero_or_pos i with rfl | h0
  · obtain ⟨hi, hid⟩ := place_spec hp
    simp only [h1, List.getElem_cons_zero] at hid
    exact absurd hid.symm hne
  · exact h0

/-- A node that is before another is not the last one. -/
theorem pred_lt (I : Inv D w) {a j : ℕ} {y : YN K} (h : w.pred a = some y) (hp : w.place y.id = some j) : j + 1 < w.Y.length := by
  obtain ⟨lo, mid, up, h1, h2, h3, h4, h5, h6, h7⟩ := I.y
  simp only [Sw.pred, Option.bind_eq_some_iff] at h
  obtain ⟨n, hn, h⟩ := h
  obtain ⟨hlt, -⟩ := place_spec hn
  split at h
  · simp at h
  · rename_i hn0
    obtain ⟨n, rfl⟩ := Nat.exists_eq_succ_of_ne_zero hn0
    simp only [Nat.succ_eq_add_one, Nat.add_sub_cancel] at h
    have hlen : w.Y.length = mid.length + 2 := by rw [h1]; simp
    have hy : y ∈ lo :: mid := by
      rw [h1, ← List.cons_append, List.getElem?_append_left (by simp; omega)] at h
      exact List.mem_of_getElem? h
    have hne : y.id ≠ up.id := by
      rcases List.mem_cons.1 hy with rfl | h
      · exact h5
      · exact (h4 y h).2.2
    obtain ⟨hj, hid⟩ := place_spec hp
    by_contra hc
    have hjm : j = mid.length + 1 := by omega
    subst hjm
    apply hne
    rw [← hid]
    simp [h1]

theorem inv_reverse (I : Inv D w) {a b i j : ℕ} {w' : Sw K} (h : w.reverseItems a b = some w') (hi : w.place a = some i)
    (hj : w.place b = some j) (h0 : 0 < i) (hl : j + 1 < w.Y.length) : Inv D w' := by
  simp only [Sw.reverseItems, Option.bind_eq_bind, hi, hj, Option.bind_some, Option.pure_def, Option.some.injEq] at h
  subst h
  refine ⟨?_, I.q, I.n, I.x, I.p, I.o, I.r⟩
  obtain ⟨lo, mid, up, h1, h2, h3, h4, h5, h6, h7⟩ := I.y
  have hlen : w.Y.length = mid.length + 2 := by rw [h1]; simp
  rcases Nat.eq_zero_or_pos (j + 1 - i) with hc | hc
  · refine ⟨lo, mid, up, ?_, h2, h3, h4, h5, h6, h7⟩
    simp only [hc, List.take_zero, List.reverse_nil, List.append_nil, List.drop_zero, List.take_append_drop]
    exact h1
  · obtain ⟨i, rfl⟩ := Nat.exists_eq_succ_of_ne_zero (by omega : i ≠ 0)
    simp only [Nat.succ_eq_add_one] at *
    have e1 : (mid ++ [up]).drop i = mid.drop i ++ [up] := List.drop_append_of_le_length (by omega)
    have e2 : (mid.drop i ++ [up]).take (j + 1 - (i + 1)) = (mid.drop i).take (j + 1 - (i + 1)) :=
      List.take_append_of_le_length (by simp; omega)
    have e3 : (mid.drop i ++ [up]).drop (j + 1 - (i + 1)) = (mid.drop i).drop (j + 1 - (i + 1)) ++ [up] :=
      List.drop_append_of_le_length (by simp; omega)
    have e4 : (mid ++ [up]).take i = mid.take i := List.take_append_of_le_length (by omega)
    refine ⟨lo, mid.take i ++ ((mid.drop i).take (j + 1 - (i + 1))).reverse ++ (mid.drop i).drop (j + 1 - (i + 1)), up, ?_, h2, h3, ?_,
      h5, h6, h7⟩
    · show w.Y.take (i + 1) ++ _ ++ _ = _
      rw [h1, List.take_succ_cons, List.drop_succ_cons, e1, e2, e3, e4]
      simp
    · intro y hy
      apply h4
      simp only [List.mem_append, List.mem_reverse] at hy
      rcases hy with (h | h) | h
      · exact List.mem_of_mem_take h
      · exact List.mem_of_mem_drop (List.mem_of_mem_take h)
      · exact List.mem_of_mem_drop (List.mem_of_mem_drop h)

theorem inv_insertX (I : Inv D w) {p : Pt K} (hp : p.id ≠ D.stop.p1.id ∧ ∀ q, D.End q → p.id = q.id → p = q) (f : Option ℕ) :
    Inv D (insertX e w p f).1 := by
  unfold insertX
  split
  · refine ⟨I.y, I.q, I.n, ?_, I.p, I.o, I.r⟩
    intro x hx
    simp only [List.mem_map] at hx
    obtain ⟨z, hz, rfl⟩ := hx
    split
    · exact I.x z hz
    · exact I.x z hz
  · refine ⟨I.y.mono (Nat.le_succ _), I.q, I.n, ?_, I.p, I.o, I.r⟩
    intro x hx
    simp only [List.mem_append, List.mem_cons] at hx
    rcases hx with h | rfl | h
    · exact I.x x (List.mem_of_mem_take h)
    · exact hp
    · exact I.x x (List.mem_of_mem_drop h)

theorem inv_record (I : Inv D w) {s : Seg K} {q : Pt K} {w' : Sw K} (h : w.record e s q = some w')
    (hr : s.p1.eqv e q = false → s.p2.eqv e q = false → ∀ i, D.O.lookup s.id = some i → D.R (i, (q.x, q.y))) : Inv D w' := by
  unfold Sw.record at h
  split at h
  · rename_i hc
    simp only [Bool.and_eq_true, Bool.not_eq_true'] at hc
    simp only [Option.map_eq_some_iff] at h
    obtain ⟨i, hi, rfl⟩ := h
    refine ⟨I.y, I.q, I.n, I.x, I.p, I.o, ?_⟩
    intro r hrm
    simp only [List.mem_append, List.mem_singleton] at hrm
    rcases hrm with h | rfl
    · exact I.r r h
    · exact hr hc.1 hc.2 i (I.o ▸ hi)
  · simp only [Option.some.injEq] at h; exact h ▸ I

/-- Two neighbours that may meet are of the input: the sentinels are too far. -/
theorem meet_input (A : Adm D) (I : Inv D w) {i : ℕ} {y0 y1 : YN K} (h1 : w.succ i = some y1) (h0 : w.node i = some y0)
    (hm : mayMeet y0.key y1.key = true) : D.T y0.key ∧ D.T y1.key := by
  obtain ⟨lo, mid, up, hY, h2, h3, h4, -⟩ := I.y
  simp only [Sw.succ, Option.bind_eq_some_iff] at h1
  obtain ⟨n, hn, h1⟩ := h1
  rw [node_place hn] at h0
  rw [hY] at h0 h1
  simp only [mayMeet, Bool.and_eq_true, decide_eq_true_eq] at hm
  have k0 : y0.key = D.lower ∨ D.T y0.key := by
    have hn1 : n + 1 < (lo :: (mid ++ [up])).length := List.getElem?_eq_some_iff.1 h1 |>.1
    rw [← List.cons_append, List.getElem?_append_left (by simp at hn1 ⊢; omega)] at h0
    rcases List.mem_cons.1 (List.mem_of_getElem? h0) with rfl | h
    · exact Or.inl h2
    · exact Or.inr (h4 _ h).1
  have k1 : D.T y1.key ∨ y1.key = D.upper := by
    simp only [List.getElem?_cons_succ] at h1
    have := List.mem_of_getElem? h1
    simp only [List.mem_append, List.mem_singleton] at this
    rcases this with h | rfl
    · exact Or.inl (h4 _ h).1
    · exact Or.inr h3
  rcases k0 with k0 | k0
  · exfalso
    rw [k0] at hm
    rcases k1 with k1 | k1
    · rw [A.above _ ⟨_, k1, Or.inr rfl⟩] at hm; omega
    · rw [k1, A.ends] at hm; omega
  · refine ⟨k0, ?_⟩
    rcases k1 with k1 | k1
    · exact k1
    · exfalso
      rw [k1, A.below _ ⟨_, k0, Or.inr rfl⟩] at hm; omega

theorem end_ok (A : Adm D) {p : Pt K} (hp : D.End p) : p.id ≠ D.stop.p1.id ∧ ∀ q, D.End q → p.id = q.id → p = q :=
  ⟨(A.ids p hp).ne, fun q hq h => A.coh p q hp hq h⟩

theorem inv_compute (he : 0 ≤ e) (A : Adm D) (I : Inv D w) {i : ℕ} {w' : Sw K} (h : w.computeIntersection e i = some w') : Inv D w' := by
  simp only [Sw.computeIntersection, Option.bind_eq_bind, Option.bind_eq_some_iff] at h
  obtain ⟨y1, h1, y0, h0, h⟩ := h
  split at h
  · rename_i hmm
    obtain ⟨s0, s1⟩ := meet_input A I h1 h0 hmm
    split at h
    · simp only [Option.pure_def, Option.some.injEq] at h
      subst h
      have := inv_changeInf I i (some ‹ℕ›)
      exact ⟨this.y, this.q, this.n, this.x, this.p, this.o, this.r⟩
    · split at h
      · simp only [Option.pure_def, Option.some.injEq] at h; exact h ▸ I
      · rename_i q hq
        obtain ⟨hs, hc⟩ := meet_cases hq
        have hid : q.id ≠ D.stop.p1.id ∧ ∀ p, D.End p → q.id = p.id → q = p := by
          rcases hc with ⟨-, -, hf⟩ | ⟨rfl | rfl, -⟩
          · rw [hf]
            refine ⟨(I.p).ne', fun p hp hh => ?_⟩
            have := A.ids p hp
            have := I.p
            omega
          · exact end_ok A ⟨_, s0, Or.inl rfl⟩
          · exact end_ok A ⟨_, s0, Or.inr rfl⟩
        have I1 : Inv D { w with pid := w.pid + 1 } := ⟨I.y, I.q, I.n, I.x, Nat.lt_succ_of_lt I.p, I.o, I.r⟩
        have I2 := inv_changeInf (inv_insertX (e := e) I1 hid (some i)) i
          (some (insertX e { w with pid := w.pid + 1 } q (some i)).2)
        simp only [Option.bind_eq_some_iff] at h
        obtain ⟨w3, h3, h4⟩ := h
        have I3 := inv_record I2 h3 (by
          intro n1 n2 j hj
          rcases hc with ⟨c1, c2, -⟩ | ⟨rfl | rfl, -⟩
          · exact A.rep _ _ q j s0 s1 hs c1 c2 (Or.inl hj)
          · rw [eqv_self] at n1; exact absurd n1 (by simp)
          · rw [eqv_self] at n2; exact absurd n2 (by simp))
        exact inv_record I3 h4 (by
          intro n1 n2 j hj
          rcases hc with ⟨c1, c2, -⟩ | ⟨-, c | c⟩
          · exact A.rep _ _ q j s0 s1 hs c1 c2 (Or.inr hj)
          · rw [eqv_comm he, c] at n1; exact absurd n1 (by simp)
          · rw [eqv_comm he, c] at n2; exact absurd n2 (by simp))
  · simp only [Option.pure_def, Option.some.injEq] at h; exact h ▸ I

theorem inv_walkDown (A : Adm D) {pS : Pt K} {ev : ℕ} : ∀ (n : ℕ) (w : Sw K) (sit : ℕ) (r : Sw K × ℕ), Inv D w →
    walkDown pS ev n w sit = some r → Inv D r.1 := by
  intro n
  induction n with
  | zero => intro w sit r _ h; simp [walkDown] at h
  | succ n ih =>
    intro w sit r I h
    simp only [walkDown, Option.bind_eq_bind, Option.bind_eq_some_iff] at h
    obtain ⟨y, hy, k, hk, z, -, h⟩ := h
    have I' : Inv D (if pS.id = y.key.p2.id then w.delItem sit else w.changeInf sit none) := by
      split
      · exact inv_delItem A I hy hk
      · exact inv_changeInf I _ _
    split at h
    · exact ih _ _ _ I' h
    · simp only [Option.some.injEq] at h; subst h; exact I'

theorem inv_bundle (A : Adm D) {pS : Pt K} {ev : ℕ} (I : Inv D w) {sit : ℕ} {r : Sw K × ℕ × ℕ × ℕ} (h : bundle pS ev w sit = some r) :
    Inv D r.1 := by
  simp only [bundle, Option.bind_eq_bind, Option.bind_eq_some_iff] at h
  obtain ⟨top, -, y, -, z, -, h⟩ := h
  have I1 : Inv D (match y.inf with
    | some xit => w.setInter y.key.id z.key.id xit
    | none => w) := by
    split
    · exact inv_setInter I _ _ _
    · exact I
  obtain ⟨⟨w2, pr⟩, h2, h⟩ := h
  have I2 := inv_walkDown A _ _ _ _ I1 h2
  simp only at h I2
  obtain ⟨first, hf, h⟩ := h
  split at h
  · simp only [Option.bind_eq_some_iff, Option.pure_def, Option.some.injEq] at h
    obtain ⟨last, hl, w3, h3, rfl⟩ := h
    have h3' := h3
    simp only [Sw.reverseItems, Option.bind_eq_bind, Option.bind_eq_some_iff] at h3'
    obtain ⟨i, hi, j, hj, -⟩ := h3'
    exact inv_reverse I2 h3 hi hj (succ_pos I2 hf hi) (pred_lt I2 hl hj)
  · simp only [Option.pure_def, Option.some.injEq] at h; subst h; exact I2

theorem inv_advance (I : Inv D w) {w' : Sw K} (h : w.advance e = some w') : Inv D w' := by
  simp only [Sw.advance, Option.bind_eq_bind, Option.bind_eq_some_iff, Option.pure_def, Option.some.injEq] at h
  obtain ⟨r, hr, s, hs, rfl⟩ := h
  have hq := delMin_mem (S := fun s => D.T s ∨ s = D.stop) I.q hr
  exact ⟨I.y, hq, hq s (List.mem_of_head? hs), I.x, I.p, I.o, I.r⟩

theorem compare_zero {pS : Pt K} {a b : Seg K} (h : Seg.compare pS a b = some 0) (ha : a.isTrivial = false) (hb : b.isTrivial = false) :
    a.id = b.id := by
  unfold Seg.compare at h
  split at h
  · assumption
  · split at h
    · simp at h
    · split at h
      · rename_i hid _ _ _ hc
        simp only [Option.some.injEq] at h
        subst h
        simp [ha, hb] at hc
      · simp only at h
        split at h
        · rename_i hn
          simp only [Option.some.injEq] at h
          exact absurd h hn
        · simp only [Option.some.injEq] at h
          omega

theorem compare_start {pS : Pt K} {a b : Seg K} {c : Int} (h : Seg.compare pS a b = some c) (hab : a.id ≠ b.id) (hp : pS.id = a.p1.id)
    (ho : orientation b pS ≠ 0) : c = orientation b pS := by
  unfold Seg.compare compareStart at h
  simp only [hab, if_false, hp, if_true] at h
  split at h
  · simp only [Option.some.injEq] at h; exact h.symm
  · rename_i hc
    simp [ho] at hc

/-- The node found by its number is the first one only if it is the lower sentinel. -/
theorem place_zero (I : Inv D w) {y : YN K} (hy : y ∈ w.Y) (h : w.place y.id = some 0) : y.key = D.lower := by
  obtain ⟨lo, mid, up, h1, h2, h3, h4, h5, h6, h7⟩ := I.y
  obtain ⟨hi, hid⟩ := place_spec h
  simp only [h1, List.getElem_cons_zero] at hid
  rw [h1] at hy
  simp only [List.mem_cons, List.mem_append, List.not_mem_nil, or_false] at hy
  rcases hy with rfl | h | rfl
  · exact h2
  · exact absurd hid.symm (h4 y h).2.1
  · exact absurd hid h5

theorem place_last (I : Inv D w) {y : YN K} (hy : y ∈ w.Y) {i : ℕ} (h : w.place y.id = some i) (hl : i + 1 = w.Y.length) :
    y.key = D.upper := by
  obtain ⟨lo, mid, up, h1, h2, h3, h4, h5, h6, h7⟩ := I.y
  obtain ⟨hi, hid⟩ := place_spec h
  have hlen : w.Y.length = mid.length + 2 := by rw [h1]; simp
  have hjm : i = mid.length + 1 := by omega
  subst hjm
  have hid' : up.id = y.id := by rw [← hid]; simp [h1]
  rw [h1] at hy
  simp only [List.mem_cons, List.mem_append, List.not_mem_nil, or_false] at hy
  rcases hy with rfl | h | rfl
  · exact absurd hid'.symm h5
  · exact absurd hid'.symm (h4 y h).2.2
  · exact h3

theorem inv_insertY (I : Inv D w) {s : Seg K} (hs : D.T s) {i : ℕ} (h0 : 0 < i) (hl : i < w.Y.length) :
    Inv D { w with Y := w.Y.take i ++ ⟨w.nid, s, none⟩ :: w.Y.drop i, nid := w.nid + 1 } := by
  refine ⟨?_, I.q, I.n, I.x, I.p, I.o, I.r⟩
  obtain ⟨lo, mid, up, h1, h2, h3, h4, h5, h6, h7⟩ := I.y
  have hlen : w.Y.length = mid.length + 2 := by rw [h1]; simp
  obtain ⟨i, rfl⟩ := Nat.exists_eq_succ_of_ne_zero (by omega : i ≠ 0)
  simp only [Nat.succ_eq_add_one] at *
  refine ⟨lo, mid.take i ++ ⟨w.nid, s, none⟩ :: mid.drop i, up, ?_, h2, h3, ?_, h5, by show lo.id < w.nid + 1; omega,
    by show up.id < w.nid + 1; omega⟩
  · show w.Y.take (i + 1) ++ ⟨w.nid, s, none⟩ :: w.Y.drop (i + 1) = _
    rw [h1, List.take_succ_cons, List.drop_succ_cons, List.drop_append_of_le_length (by omega), List.take_append_of_le_length (by omega)]
    simp
  · intro y hy
    simp only [List.mem_append, List.mem_cons] at hy
    rcases hy with h | rfl | h
    · exact h4 y (List.mem_of_mem_take h)
    · exact ⟨hs, by show w.nid ≠ lo.id; omega, by show w.nid ≠ up.id; omega⟩
    · exact h4 y (List.mem_of_mem_drop h)

theorem inv_insertAll (A : Adm D) {pS : Pt K} (hp : pS.id ≠ D.stop.p1.id ∧ ∀ q, D.End q → pS.id = q.id → pS = q) :
    ∀ (n : ℕ) (w : Sw K) (m : Marks) (r : Sw K × Marks), Inv D w → insertAll e pS n w m = some r → Inv D r.1 := by
  intro n
  induction n with
  | zero => intro w m r _ h; simp [insertAll] at h
  | succ n ih =>
    intro w m r I h
    rw [insertAll] at h
    split at h
    · rename_i hst
      have hn : D.T w.next := by
        rcases I.n with h | h
        · exact h
        · rw [h] at hst; exact absurd hst hp.1
      have hE : D.End w.next.p1 := ⟨_, hn, Or.inl rfl⟩
      have hpS : pS = w.next.p1 := hp.2 _ hE hst
      simp only [Option.bind_eq_bind, Option.bind_eq_some_iff] at h
      obtain ⟨k, -, f, -, seg0, h0, c, hc, h⟩ := h
      have hy0 : seg0 ∈ w.Y := by
        split at h0
        · exact List.mem_of_head? h0
        · exact List.mem_of_getElem? h0
      split at h
      · simp only [Option.bind_eq_some_iff] at h
        obtain ⟨i, hi, m', -, w3, h3, h4⟩ := h
        have hlt := (place_spec hi).1
        have b1 : 0 < (if c > 0 then i + 1 else i) := by
          split
          · omega
          · rename_i hc1
            rcases Nat.eq_zero_or_pos i with rfl | h0
            · have hk := place_zero I hy0 hi
              rw [hk] at hc
              have ho : orientation D.lower pS = 1 := by rw [hpS]; exact A.above _ hE
              have := compare_start hc (A.lid _ hn) hst (by rw [ho]; omega)
              omega
            · exact h0
        have b2 : (if c > 0 then i + 1 else i) < w.Y.length := by
          split
          · rename_i hc1
            by_contra hcon
            have hk := place_last I hy0 hi (by omega)
            rw [hk] at hc
            have ho : orientation D.upper pS = -1 := by rw [hpS]; exact A.below _ hE
            have := compare_start hc (A.uid _ hn) hst (by rw [ho]; omega)
            omega
          · exact hlt
        exact ih _ _ _ (inv_advance (inv_insertX (inv_insertY I hn b1 b2) (end_ok A ⟨_, hn, Or.inr rfl⟩) _) h3) h4
      · rename_i hc0
        simp only [ne_eq, not_not] at hc0
        subst hc0
        have heq : seg0.key = w.next := by
          rcases I.y.kinds hy0 with hs | hs | hs
          · exact absurd (compare_zero hc (A.proper _ hn) (by rw [hs]; exact A.lproper)) (by rw [hs]; exact A.lid _ hn)
          · exact (A.uniq _ _ hn hs (compare_zero hc (A.proper _ hn) (A.proper _ hs))).symm
          · exact absurd (compare_zero hc (A.proper _ hn) (by rw [hs]; exact A.uproper)) (by rw [hs]; exact A.uid _ hn)
        simp only [Option.bind_eq_some_iff] at h
        obtain ⟨w1, h1, w2, h2, h3⟩ := h
        rw [heq] at h1
        have : ¬ Pt.compare e w.next.p2 w.next.p2 < 0 := by simp [Pt.compare]
        rw [if_neg this] at h1
        simp only [Option.some.injEq] at h1
        subst h1
        exact ih _ _ _ (inv_advance I h2) h3
    · simp only [Option.some.injEq] at h; subst h; exact I

theorem inv_close (he : 0 ≤ e) (A : Adm D) (I : Inv D w) {m : Marks} {w' : Sw K} (h : w.close e m = some w') : Inv D w' := by
  unfold Sw.close at h
  split at h
  · simp only [Option.some.injEq] at h; exact h ▸ I
  · simp only [Option.bind_eq_bind, Option.bind_eq_some_iff] at h
    obtain ⟨y, -, w1, h1, w2, h2, sit, -, h3⟩ := h
    have I1 : Inv D w1 := by
      split at h1
      · simp only [Option.map_eq_some_iff] at h1
        obtain ⟨z, -, rfl⟩ := h1
        exact inv_changeInf (inv_setInter I _ _ _) _ _
      · simp only [Option.some.injEq] at h1; exact h1 ▸ I
    have I2 := inv_compute he A I1 h2
    split at h3
    · exact inv_compute he A I2 h3
    · simp only [Option.some.injEq] at h3; exact h3 ▸ I2

theorem inv_round (he : 0 ≤ e) (A : Adm D) (I : Inv D w) {ev : XN K} (hev : ev ∈ w.X) {w' : Sw K} (h : w.round e ev = some w') : Inv D w' := by
  simp only [Sw.round, Option.bind_eq_bind, Option.bind_eq_some_iff, Option.pure_def, Option.some.injEq] at h
  obtain ⟨⟨w1, sit⟩, h1, ⟨w2, m⟩, h2, ⟨w3, m3⟩, h3, w4, h4, rfl⟩ := h
  have I1 : Inv D w1 := by
    split at h1
    · simp only [Option.some.injEq, Prod.mk.injEq] at h1; exact h1.1 ▸ I
    · simp only [Option.map_eq_some_iff, Prod.mk.injEq] at h1
      obtain ⟨f, -, rfl, -⟩ := h1
      exact ⟨I.y, I.q, I.n, I.x, I.p, I.o, I.r⟩
  have I2 : Inv D w2 := by
    simp only at h2
    split at h2
    · simp only [Option.map_eq_some_iff, Prod.mk.injEq] at h2
      obtain ⟨r, hr, rfl, -⟩ := h2
      exact inv_bundle A I1 hr
    · simp only [Option.some.injEq, Prod.mk.injEq] at h2; exact h2.1 ▸ I1
  have I3 := inv_insertAll A (I.x ev hev) _ _ _ _ I2 h3
  have I4 := inv_close he A I3 h4
  exact ⟨I4.y, I4.q, I4.n, fun x hx => I4.x x (List.mem_of_mem_filter hx), I4.p, I4.o, I4.r⟩

theorem inv_sweep (he : 0 ≤ e) (A : Adm D) : ∀ (n : ℕ) (w w' : Sw K), Inv D w → sweep e n w = some w' → Inv D w' := by
  intro n
  induction n with
  | zero => intro w w' _ h; simp [sweep] at h
  | succ n ih =>
    intro w w' I h
    rw [sweep] at h
    split at h
    · simp only [Option.some.injEq] at h; exact h ▸ I
    · rename_i ev l hX
      simp only [Option.bind_eq_some_iff] at h
      obtain ⟨w1, h1, h2⟩ := h
      exact ih _ _ (inv_round he A I (by rw [hX]; simp) h1) h2

/-! ## The start -/

/-- `p` is an end point of a segment of the input. -/
def IsEnd (segs : List ((K × K) × (K × K))) (p : K × K) : Prop := ∃ s ∈ segs, p = s.1 ∨ p = s.2

/-- No two different end points are closer than the tolerance. -/
def Separated (e : K) (segs : List ((K × K) × (K × K))) : Prop :=
  ∀ p q, IsEnd segs p → IsEnd segs q → |p.1 - q.1| ≤ e → |p.2 - q.2| ≤ e → p = q

/-- The X-structure during `initializeStructures`. -/
structure XInv (segs : List ((K × K) × (K × K))) (w : Sw K) : Prop where
  k : ∀ x ∈ w.X, IsEnd segs (x.key.x, x.key.y) ∧ x.key.id < w.pid ∧ x.id < w.nid
  i : ∀ x ∈ w.X, ∀ y ∈ w.X, x.id = y.id → x.key = y.key
  p : ∀ x ∈ w.X, ∀ y ∈ w.X, x.key.id = y.key.id → x.key = y.key

theorem insertX_spec {segs : List ((K × K) × (K × K))} (he : 0 ≤ e) (hsep : Separated e segs) (I : XInv segs w) {v : K × K} (hv : IsEnd segs v) {r : Sw K × ℕ}
    (hr : insertX e { w with pid := w.pid + 1 } ⟨v.1, v.2, w.pid⟩ none = r) :
    XInv segs r.1 ∧ (∀ x ∈ w.X, ∃ y ∈ r.1.X, y.id = x.id ∧ y.key = x.key) ∧ (∃ y ∈ r.1.X, y.id = r.2 ∧ (y.key.x, y.key.y) = v) ∧
    r.1.queue = w.queue ∧ r.1.orig = w.orig ∧ r.1.sid = w.sid ∧ r.1.isect = w.isect := by
  unfold insertX at hr
  split at hr
  · rename_i x hx
    subst hr
    have hmem : x ∈ w.X ∧ x.key.eqv e ⟨v.1, v.2, w.pid⟩ = true := by
      unfold foundX at hx
      split at hx
      · simp at hx
      · rw [Option.filter_eq_some_iff] at hx
        exact ⟨List.mem_of_getElem? hx.1, hx.2⟩
    have hk := I.k x hmem.1
    have hn := eqv_near he (fun h => absurd h (by show x.key.id ≠ w.pid; omega)) hmem.2
    have hv' : (x.key.x, x.key.y) = v := hsep _ _ hk.1 hv hn.1 hn.2
    let g : XN K → XN K := fun y => if y.id = x.id then { y with inf := none } else y
    have gk : ∀ y, (g y).key = y.key := by intro y; simp only [g]; split <;> rfl
    have gi : ∀ y, (g y).id = y.id := by intro y; simp only [g]; split <;> rfl
    refine ⟨⟨?_, ?_, ?_⟩, ?_, ?_, rfl, rfl, rfl, rfl⟩
    · intro y hy
      obtain ⟨z, hz, rfl⟩ := List.mem_map.1 hy
      show IsEnd segs ((g z).key.x, (g z).key.y) ∧ (g z).key.id < w.pid + 1 ∧ (g z).id < w.nid
      rw [gk, gi]
      have := I.k z hz
      exact ⟨this.1, by omega, this.2.2⟩
    · intro y hy y' hy'
      obtain ⟨z, hz, rfl⟩ := List.mem_map.1 hy
      obtain ⟨z', hz', rfl⟩ := List.mem_map.1 hy'
      show (g z).id = (g z').id → (g z).key = (g z').key
      rw [gk, gi, gk, gi]
      exact I.i z hz z' hz'
    · intro y hy y' hy'
      obtain ⟨z, hz, rfl⟩ := List.mem_map.1 hy
      obtain ⟨z', hz', rfl⟩ := List.mem_map.1 hy'
      show (g z).key.id = (g z').key.id → (g z).key = (g z').key
      rw [gk, gk]
      exact I.p z hz z' hz'
    · intro y hy
      exact ⟨g y, List.mem_map.2 ⟨y, hy, rfl⟩, gi y, gk y⟩
    · exact ⟨g x, List.mem_map.2 ⟨x, hmem.1, rfl⟩, gi x, by rw [gk]; exact hv'⟩
  · subst hr
    have hmem : ∀ y, y ∈ w.X.take (scanX e ⟨v.1, v.2, w.pid⟩ w.X) ++ (⟨w.nid, ⟨v.1, v.2, w.pid⟩, none⟩ : XN K) ::
        w.X.drop (scanX e ⟨v.1, v.2, w.pid⟩ w.X) ↔ y ∈ w.X ∨ y = ⟨w.nid, ⟨v.1, v.2, w.pid⟩, none⟩ := by
      intro y
      simp only [List.mem_append, List.mem_cons]
      conv_rhs => rw [← List.take_append_drop (scanX e ⟨v.1, v.2, w.pid⟩ w.X) w.X]
      simp only [List.mem_append]
      tauto
    refine ⟨⟨?_, ?_, ?_⟩, ?_, ?_, rfl, rfl, rfl, rfl⟩
    · intro y hy
      rcases (hmem y).1 hy with h | rfl
      · have := I.k y h
        exact ⟨this.1, by show _ < w.pid + 1; omega, by show _ < w.nid + 1; omega⟩
      · exact ⟨hv, Nat.lt_succ_self _, Nat.lt_succ_self _⟩
    · intro y hy y' hy' hid
      rcases (hmem y).1 hy with h | rfl <;> rcases (hmem y').1 hy' with h' | rfl
      · exact I.i y h y' h' hid
      · have := (I.k y h).2.2; simp only at hid; omega
      · have := (I.k y' h').2.2; simp only at hid; omega
      · rfl
    · intro y hy y' hy' hid
      rcases (hmem y).1 hy with h | rfl <;> rcases (hmem y').1 hy' with h' | rfl
      · exact I.p y h y' h' hid
      · have := (I.k y h).2.1; simp only at hid; omega
      · have := (I.k y' h').2.1; simp only at hid; omega
      · rfl
    · intro y hy
      exact ⟨y, (hmem y).2 (Or.inl hy), rfl, rfl⟩
    · exact ⟨_, (hmem _).2 (Or.inr rfl), rfl, rfl⟩

/-- The segment stands for the input with an index. -/
def Stands (segs : List ((K × K) × (K × K))) (s : Seg K) (i : ℕ) : Prop :=
  segs[i]? = some ((s.p1.x, s.p1.y), (s.p2.x, s.p2.y)) ∨ segs[i]? = some ((s.p2.x, s.p2.y), (s.p1.x, s.p1.y))

structure SInv (segs : List ((K × K) × (K × K))) (w : Sw K) : Prop where
  x : XInv segs w
  e : ∀ s ∈ w.queue, (∃ x ∈ w.X, x.key = s.p1) ∧ (∃ x ∈ w.X, x.key = s.p2)
  s : ∀ s ∈ w.queue, s.id < w.sid ∧ ∃ i, w.orig.lookup s.id = some i ∧ Stands segs s i
  u : ∀ a ∈ w.queue, ∀ b ∈ w.queue, a.id = b.id → a = b
  o : ∀ k, w.sid ≤ k → w.orig.lookup k = none
  r : w.isect = []

theorem addSeg_inv {segs : List ((K × K) × (K × K))} (he : 0 ≤ e) (hsep : Separated e segs) (I : SInv segs w) {t : (K × K) × (K × K)}
    {i : ℕ} (ht : segs[i]? = some t) : SInv segs (addSeg e w (t, i)) := by
  have hm := List.mem_of_getElem? ht
  obtain ⟨a, ha⟩ : ∃ a, insertX e { w with pid := w.pid + 1 } ⟨t.1.1, t.1.2, w.pid⟩ none = a := ⟨_, rfl⟩
  obtain ⟨b, hb⟩ : ∃ b, insertX e { a.1 with pid := a.1.pid + 1 } ⟨t.2.1, t.2.2, a.1.pid⟩ none = b := ⟨_, rfl⟩
  obtain ⟨X1, m1, ⟨y1, hy1, hi1, hc1⟩, q1, o1, s1, r1⟩ := insertX_spec he hsep I.x ⟨t, hm, Or.inl rfl⟩ ha
  obtain ⟨X2, m2, ⟨y2, hy2, hi2, hc2⟩, q2, o2, s2, r2⟩ := insertX_spec he hsep X1 ⟨t, hm, Or.inr rfl⟩ hb
  obtain ⟨z1, hz1, hzi, hzk⟩ := m2 y1 hy1
  have base : SInv segs b.1 := by
    refine ⟨X2, ?_, ?_, ?_, ?_, by rw [r2, r1]; exact I.r⟩
    · intro s hs
      rw [q2, q1] at hs
      obtain ⟨⟨x, hx, hxk⟩, ⟨x', hx', hxk'⟩⟩ := I.e s hs
      obtain ⟨x1, hx1, -, k1⟩ := m1 x hx
      obtain ⟨x2, hx2, -, k2⟩ := m2 x1 hx1
      obtain ⟨x1', hx1', -, k1'⟩ := m1 x' hx'
      obtain ⟨x2', hx2', -, k2'⟩ := m2 x1' hx1'
      exact ⟨⟨x2, hx2, by rw [k2, k1, hxk]⟩, ⟨x2', hx2', by rw [k2', k1', hxk']⟩⟩
    · intro s hs
      rw [q2, q1] at hs
      rw [o2, o1, s2, s1]
      exact I.s s hs
    · rw [q2, q1]; exact I.u
    · rw [o2, o1, s2, s1]; exact I.o
  have hadd : addSeg e w (t, i) = (if a.2 = b.2 then b.1 else
    match b.1.X.find? (fun x => x.id = a.2), b.1.X.find? (fun x => x.id = b.2) with
    | some x, some y =>
      { b.1 with orig := (b.1.sid, i) :: b.1.orig, queue := Pq.insertNode (segLt e) (mkSeg e x.key y.key b.1.sid) b.1.queue (mkSeg e x.key y.key b.1.sid), sid := b.1.sid + 1 }
    | _, _ => b.1) := by
    subst hb; subst ha
    rfl
  rw [hadd]
  split
  · exact base
  · split
    · rename_i x y hfx hfy
      have hx := List.mem_of_find?_eq_some hfx
      have hxi : x.id = a.2 := by simpa using List.find?_some hfx
      have hy := List.mem_of_find?_eq_some hfy
      have hyi : y.id = b.2 := by simpa using List.find?_some hfy
      have kx : (x.key.x, x.key.y) = t.1 := by
        rw [X2.i x hx z1 hz1 (by rw [hxi, hzi, hi1]), hzk]; exact hc1
      have ky : (y.key.x, y.key.y) = t.2 := by
        rw [X2.i y hy y2 hy2 (by rw [hyi, hi2])]; exact hc2
      generalize hs : mkSeg e x.key y.key b.1.sid = s
      have hsid : s.id = b.1.sid := by rw [← hs]; unfold mkSeg; split <;> rfl
      have hse : (s.p1 = x.key ∧ s.p2 = y.key) ∨ (s.p1 = y.key ∧ s.p2 = x.key) := by
        rw [← hs]; unfold mkSeg; split
        · exact Or.inl ⟨rfl, rfl⟩
        · exact Or.inr ⟨rfl, rfl⟩
      have hst : Stands segs s i := by
        rcases hse with ⟨h1, h2⟩ | ⟨h1, h2⟩
        · left; rw [h1, h2, kx, ky]; exact ht
        · right; rw [h1, h2, kx, ky]; exact ht
      have hq : ∀ r, r ∈ Pq.insertNode (segLt e) s b.1.queue s ↔ r = s ∨ r ∈ b.1.queue := by
        intro r
        exact ((Pq.heappush_perm (lt := segLt e) (d := s) b.1.queue s).mem_iff).trans List.mem_cons
      refine ⟨⟨base.x.k, base.x.i, base.x.p⟩, ?_, ?_, ?_, ?_, base.r⟩
      · intro r hr
        rcases (hq r).1 hr with rfl | h
        · rcases hse with ⟨h1, h2⟩ | ⟨h1, h2⟩
          · exact ⟨⟨x, hx, h1.symm⟩, ⟨y, hy, h2.symm⟩⟩
          · exact ⟨⟨y, hy, h1.symm⟩, ⟨x, hx, h2.symm⟩⟩
        · exact base.e r h
      · intro r hr
        show r.id < b.1.sid + 1 ∧ ∃ k, ((b.1.sid, i) :: b.1.orig).lookup r.id = some k ∧ Stands segs r k
        rcases (hq r).1 hr with rfl | h
        · refine ⟨by omega, i, ?_, hst⟩
          rw [List.lookup_cons, hsid]; simp
        · obtain ⟨hlt, k, hk, hst'⟩ := base.s r h
          refine ⟨by omega, k, ?_, hst'⟩
          have : (r.id == b.1.sid) = false := by simp; omega
          rw [List.lookup_cons, this]; exact hk
      · intro r hr r' hr' hid
        rcases (hq r).1 hr with rfl | h <;> rcases (hq r').1 hr' with rfl | h'
        · rfl
        · have := (base.s r' h').1; omega
        · have := (base.s r h).1; omega
        · exact base.u r h r' h' hid
      · intro k hk
        change b.1.sid + 1 ≤ k at hk
        show ((b.1.sid, i) :: b.1.orig).lookup k = none
        have : (k == b.1.sid) = false := by simp; omega
        rw [List.lookup_cons, this]
        exact base.o k (by omega)
    · exact base

theorem fold_inv {segs : List ((K × K) × (K × K))} (he : 0 ≤ e) (hsep : Separated e segs) : ∀ (l : List (((K × K) × (K × K)) × ℕ)) (w : Sw K),
    (∀ r ∈ l, segs[r.2]? = some r.1) → SInv segs w → SInv segs (l.foldl (addSeg e) w) := by
  intro l
  induction l with
  | nil => intro w _ I; exact I
  | cons r l ih =>
    intro w hl I
    exact ih _ (fun s hs => hl s (List.mem_cons_of_mem _ hs)) (addSeg_inv he hsep I (t := r.1) (i := r.2) (hl r (by simp)))

/-- `p` is on the line through the ends of `s`. -/
def OnLine (s : (K × K) × (K × K)) (p : K × K) : Prop := (s.2.1 - s.1.1) * (p.2 - s.1.2) - (s.2.2 - s.1.2) * (p.1 - s.1.1) = 0

/-- The directions are parallel. -/
def Par (s t : (K × K) × (K × K)) : Prop := (s.2.1 - s.1.1) * (t.2.2 - t.1.2) = (s.2.2 - s.1.2) * (t.2.1 - t.1.1)

theorem stands_line {segs : List ((K × K) × (K × K))} {s : Seg K} {i : ℕ} (h : Stands segs s i) {q : Pt K} (hq : side s q = 0) :
    ∃ t, segs[i]? = some t ∧ OnLine t (q.x, q.y) := by
  rcases h with h | h
  · exact ⟨_, h, hq⟩
  · refine ⟨_, h, ?_⟩
    unfold OnLine
    unfold side at hq
    linear_combination (-1 : K) * hq

theorem stands_par {segs : List ((K × K) × (K × K))} {s s' : Seg K} {i i' : ℕ} (h : Stands segs s i) (h' : Stands segs s' i')
    {t t' : (K × K) × (K × K)} (ht : segs[i]? = some t) (ht' : segs[i']? = some t') (hp : Par t t') : Parallel s s' := by
  unfold Par at hp
  unfold Parallel
  rcases h with h | h <;> rcases h' with h' | h' <;> rw [ht] at h <;> rw [ht'] at h' <;> simp only [Option.some.injEq] at h h' <;>
    rw [h, h'] at hp
  · linear_combination hp
  · linear_combination (-1 : K) * hp
  · linear_combination (-1 : K) * hp
  · linear_combination hp

theorem stands_proper {segs : List ((K × K) × (K × K))} (hz : ∀ s ∈ segs, s.1 ≠ s.2) {s : Seg K} {i : ℕ} (h : Stands segs s i) : Proper s := by
  unfold Proper
  by_contra hc
  simp only [ne_eq, not_or, not_not] at hc
  rcases h with h | h
  · exact hz _ (List.mem_of_getElem? h) (by simp [hc.1, hc.2])
  · exact hz _ (List.mem_of_getElem? h) (by simp [hc.1, hc.2])

/-- **C423** (part).  What a search that ends reports is an intersection of lines: a point reported for the input with index `i` is on
the line of this input and on the line of another input with another direction; nothing is reported for an index that is not one of
the input, and the two sentinels never add a point.  For inputs that have length and whose end points are apart by more than the
tolerance or equal. -/
theorem C423_lines_partial (he : 0 ≤ e) {n : ℕ} {segs : List ((K × K) × (K × K))} (hz : ∀ s ∈ segs, s.1 ≠ s.2) (hsep : Separated e segs)
    {res : List (ℕ × (K × K))} (h : findIntersections e n segs = some res) {i : ℕ} {q : K × K} (hq : (i, q) ∈ res) :
    ∃ s, segs[i]? = some s ∧ OnLine s q ∧ ∃ j t, j ≠ i ∧ segs[j]? = some t ∧ OnLine t q ∧ ¬ Par s t := by
  simp only [findIntersections, Option.bind_eq_bind, Option.bind_eq_some_iff, Option.pure_def, Option.some.injEq] at h
  obtain ⟨inf, hinf, w1, h1, w2, h2, rfl⟩ := h
  obtain ⟨⟨k, hk⟩, hb⟩ := growAll_spec zero_lt_one hinf
  have hpos : 0 < inf := by rw [hk, one_mul]; positivity
  simp only [initSweep, Option.bind_eq_bind, Option.bind_eq_some_iff, Option.pure_def, Option.some.injEq] at h1
  obtain ⟨nxt, hn, h1⟩ := h1
  generalize hw : segs.zipIdx.foldl (addSeg e) ⟨[], [], [], ⟨⟨0, 0, 0⟩, ⟨0, 0, 0⟩, 0⟩, [], [], [], 0, 0, 0⟩ = w at hn h1
  have I : SInv segs w := by
    rw [← hw]
    refine fold_inv he hsep _ _ ?_ ⟨⟨by simp, by simp, by simp⟩, by simp, by simp, by simp, by simp, rfl⟩
    intro r hr
    exact List.mk_mem_zipIdx_iff_getElem?.1 hr
  let D : Data K :=
    { T := fun s => s ∈ w.queue
      lower := ⟨⟨-inf, -inf, w.pid⟩, ⟨inf, -inf, w.pid + 1⟩, w.sid⟩
      upper := ⟨⟨-inf, inf, w.pid + 2⟩, ⟨inf, inf, w.pid + 3⟩, w.sid + 1⟩
      stop := ⟨⟨inf, inf, w.pid + 4⟩, ⟨inf, inf, w.pid + 4⟩, w.sid + 2⟩
      O := w.orig
      R := fun r => ∃ s, segs[r.1]? = some s ∧ OnLine s r.2 ∧ ∃ j t, j ≠ r.1 ∧ segs[j]? = some t ∧ OnLine t r.2 ∧ ¬ Par s t }
  have hend : ∀ p, D.End p → ∃ x ∈ w.X, x.key = p := by
    rintro p ⟨s, hs, rfl | rfl⟩
    · exact (I.e s hs).1
    · exact (I.e s hs).2
  have hin : ∀ p, D.End p → -inf < p.y ∧ p.y < inf := by
    intro p hp
    obtain ⟨x, hx, rfl⟩ := hend p hp
    obtain ⟨s, hs, h | h⟩ := (I.x.k x hx).1
    · have := (hb s hs).2.1
      rw [← h] at this
      exact abs_lt.1 this
    · have := (hb s hs).2.2.2
      rw [← h] at this
      exact abs_lt.1 this
  have hL : ∀ p : Pt K, side D.lower p = 2 * inf * (p.y + inf) := by intro p; simp only [side, D]; ring
  have hU : ∀ p : Pt K, side D.upper p = 2 * inf * (p.y - inf) := by intro p; simp only [side, D]; ring
  have hpar : ∀ a b : Seg K, a ∈ w.queue → b ∈ w.queue → a.slope ≠ b.slope → ∀ q : Pt K, side a q = 0 → side b q = 0 → ∀ i,
      w.orig.lookup a.id = some i → D.R (i, (q.x, q.y)) := by
    intro a b ha hb' hs q qa qb i hi
    obtain ⟨-, ia, la, sa⟩ := I.s a ha
    obtain ⟨-, ib, lb, sb⟩ := I.s b hb'
    rw [la] at hi
    simp only [Option.some.injEq] at hi
    subst hi
    obtain ⟨s, hs1, hs2⟩ := stands_line sa qa
    obtain ⟨t, ht1, ht2⟩ := stands_line sb qb
    have hnp : ¬ Par s t := fun hp => hs ((slope_eq_iff (stands_proper hz sa) (stands_proper hz sb)).2 (stands_par sa sb hs1 ht1 hp))
    refine ⟨s, hs1, hs2, ib, t, ?_, ht1, ht2, hnp⟩
    rintro rfl
    rw [hs1] at ht1
    simp only [Option.some.injEq] at ht1
    subst ht1
    exact hnp (by unfold Par; ring)
  have htriv : ∀ s : Seg K, Proper s → s.isTrivial = false := by
    intro s hs
    unfold Seg.isTrivial Seg.dx Seg.dy
    simp only [Bool.and_eq_false_iff, decide_eq_false_iff_not, sub_eq_zero]
    rcases hs with h | h
    · exact Or.inl fun h' => h h'.symm
    · exact Or.inr fun h' => h h'.symm
  have A : Adm D :=
    { ids := by
        intro p hp
        obtain ⟨x, hx, rfl⟩ := hend p hp
        have := (I.x.k x hx).2.1
        show _ < w.pid + 4
        omega
      coh := by
        intro p q hp hq' hid
        obtain ⟨x, hx, rfl⟩ := hend p hp
        obtain ⟨y, hy, rfl⟩ := hend q hq'
        exact I.x.p x hx y hy hid
      uniq := fun a b ha hb' => I.u a ha b hb'
      proper := by
        intro s hs
        obtain ⟨-, i, -, st⟩ := I.s s hs
        exact htriv s (stands_proper hz st)
      lproper := htriv _ (Or.inl (by show -inf ≠ inf; intro h; linarith))
      uproper := htriv _ (Or.inl (by show -inf ≠ inf; intro h; linarith))
      lid := by
        intro s hs
        have := (I.s s hs).1
        show s.id ≠ w.sid
        omega
      uid := by
        intro s hs
        have := (I.s s hs).1
        show s.id ≠ w.sid + 1
        omega
      lorig := I.o _ (Nat.le_refl _)
      uorig := I.o _ (Nat.le_succ _)
      above := by
        intro p hp
        have h3 : 0 < side D.lower p := by rw [hL]; have := (hin p hp).1; apply mul_pos <;> linarith
        rw [orientation_eq, if_pos h3]
      below := by
        intro p hp
        have h3 : side D.upper p < 0 := by rw [hU]; have := (hin p hp).2; apply mul_neg_of_pos_of_neg <;> linarith
        rw [orientation_eq, if_neg (not_lt.2 h3.le), if_pos h3]
      ends := by
        have h3 : 0 < side D.lower D.upper.p2 := by rw [hL]; show 0 < 2 * inf * (inf + inf); positivity
        rw [orientation_eq, if_pos h3]
      rep := by
        intro a b q i ha hb' hs qa qb hi
        rcases hi with hi | hi
        · exact hpar a b ha hb' hs q qa qb i hi
        · exact hpar b a hb' ha (Ne.symm hs) q qb qa i hi }
  have hqm : ∀ s ∈ Pq.insertNode (segLt e) D.stop w.queue D.stop, D.T s ∨ s = D.stop :=
    heappush_mem (S := fun s => D.T s ∨ s = D.stop) (fun y hy => Or.inl hy) (Or.inr rfl)
  have I1 : Inv D w1 := by
    rw [← h1]
    refine ⟨⟨⟨w.nid, D.lower, none⟩, [], ⟨w.nid + 1, D.upper, none⟩, rfl, rfl, rfl, by simp, by simp, ?_, ?_⟩, hqm, ?_, ?_, ?_, rfl, ?_⟩
    · show w.nid < w.nid + 2; omega
    · show w.nid + 1 < w.nid + 2; omega
    · exact hqm _ (List.mem_of_head? hn)
    · intro x hx
      refine ⟨?_, fun p hp hid => ?_⟩
      · have := (I.x.k x hx).2.1
        show x.key.id ≠ w.pid + 4
        omega
      · obtain ⟨y, hy, rfl⟩ := hend p hp
        exact I.x.p x hx y hy hid
    · show w.pid + 4 < w.pid + 5; omega
    · show ∀ r ∈ w.isect, D.R r
      rw [I.r]; simp
  exact (inv_sweep he A n w1 w2 I1 h2).r _ hq

/-- A segment made from two points starts at the left one, at the lower one if both are above each other within the tolerance. -/
theorem C423_order {p q : Pt K} (hid : p.id ≠ q.id) (he : 0 ≤ e) (k : ℕ) :
    ((mkSeg e p q k).p1 = p ∧ (mkSeg e p q k).p2 = q ∨ (mkSeg e p q k).p1 = q ∧ (mkSeg e p q k).p2 = p) ∧
    (mkSeg e p q k).p1.x ≤ (mkSeg e p q k).p2.x + e ∧
    ((mkSeg e p q k).p2.x ≤ (mkSeg e p q k).p1.x + e → (mkSeg e p q k).p1.y ≤ (mkSeg e p q k).p2.y + e) := by
  by_cases h : Pt.compare e p q < 0
  · have hm : mkSeg e p q k = ⟨p, q, k⟩ := by unfold mkSeg; rw [if_pos h]
    rw [hm]
    refine ⟨Or.inl ⟨rfl, rfl⟩, ?_⟩
    unfold Pt.compare at h
    rw [if_neg hid] at h
    dsimp only
    split_ifs at h with h1 h2 h3 h4
    · exact absurd h (by decide)
    · exact ⟨by linarith, fun _ => by linarith⟩
    · exact absurd h (by decide)
    · exact ⟨by linarith, fun _ => by linarith⟩
    · exact absurd h (by decide)
  · have hm : mkSeg e p q k = ⟨q, p, k⟩ := by unfold mkSeg; rw [if_neg h]
    rw [hm]
    refine ⟨Or.inr ⟨rfl, rfl⟩, ?_⟩
    unfold Pt.compare at h
    rw [if_neg hid] at h
    dsimp only
    split_ifs at h with h1 h2 h3 h4
    · exact ⟨by linarith, fun _ => by linarith⟩
    · exact absurd (by decide) h
    · exact ⟨by linarith, fun _ => by linarith⟩
    · exact absurd (by decide) h
    · exact ⟨by linarith, fun _ => by linarith⟩

/-! ## What is missed, and what is reported and is none -/

/-- The ends in a list. -/
def endsOf (segs : List ((K × K) × (K × K))) : List (K × K) := segs.flatMap fun s => [s.1, s.2]

theorem separated_of {segs : List ((K × K) × (K × K))}
    (h : ∀ p ∈ endsOf segs, ∀ q ∈ endsOf segs, |p.1 - q.1| ≤ e → |p.2 - q.2| ≤ e → p = q) : Separated e segs := by
  have hm : ∀ p, IsEnd segs p → p ∈ endsOf segs := by
    rintro p ⟨s, hs, hp⟩
    exact List.mem_flatMap.2 ⟨s, hs, by rcases hp with rfl | rfl <;> simp⟩
  exact fun p q hp hq => h p (hm p hp) q (hm q hq)

/-- `p` is a point of the segment. -/
def OnSegm (s : (K × K) × (K × K)) (p : K × K) : Prop :=
  ∃ t : K, 0 ≤ t ∧ t ≤ 1 ∧ p.1 = s.1.1 + t * (s.2.1 - s.1.1) ∧ p.2 = s.1.2 + t * (s.2.2 - s.1.2)

/-- `p` is a point where the input `i`, not at its ends, meets another input. -/
def Meets (segs : List ((K × K) × (K × K))) (i : ℕ) (p : K × K) : Prop :=
  ∃ s, segs[i]? = some s ∧ OnSegm s p ∧ p ≠ s.1 ∧ p ≠ s.2 ∧ ∃ j t, j ≠ i ∧ segs[j]? = some t ∧ OnSegm t p

/-- The tolerance of the examples. -/
def eps : ℚ := 1 / 10000000000

/-- Two segments that cross, and one that ends on another: what is reported is right. -/
example : findIntersections eps 40 [((0, 0), (4, 0)), ((1, -1), (2, 2))] = some [(1, (4 / 3, 0)), (0, (4 / 3, 0))] := by decide +kernel
example : findIntersections eps 40 [((0, 0), (4, 0)), ((1, 1), (2, 0))] = some [(0, (2, 0))] := by decide +kernel
/-- Two segments apart. -/
example : findIntersections eps 40 [((0, 0), (4, 0)), ((1, 1), (2, 3))] = some [] := by decide +kernel
/-- Three segments through a point, two of them listed from right to left. -/
example : findIntersections eps 40 [((0, 0), (4, 4)), ((4, 0), (0, 4)), ((5, 2), (0, 2))] =
    some [(0, (2, 2)), (2, (2, 2)), (2, (2, 2)), (1, (2, 2))] := by decide +kernel
/-- The hypotheses of `C423_lines_partial` hold in such a case. -/
example : (∀ s ∈ ([((0, 0), (4, 4)), ((4, 0), (0, 4)), ((5, 2), (0, 2))] : List ((ℚ × ℚ) × (ℚ × ℚ))), s.1 ≠ s.2) ∧
    Separated eps [((0, 0), (4, 4)), ((4, 0), (0, 4)), ((5, 2), (0, 2))] :=
  ⟨by decide +kernel, separated_of (by decide +kernel)⟩

/-- **C423** refuted: a segment that starts on another one is not found.  A segment that ends on another one is. -/
theorem C423_touch_refuted : ∃ segs : List ((ℚ × ℚ) × (ℚ × ℚ)), (∀ s ∈ segs, s.1 ≠ s.2) ∧ Separated eps segs ∧
    Meets segs 0 (2, 0) ∧ findIntersections eps 40 segs = some [] := by
  refine ⟨[((0, 0), (4, 0)), ((2, 0), (3, 1))], by decide +kernel, separated_of (by decide +kernel), ?_, by decide +kernel⟩
  exact ⟨_, rfl, ⟨1 / 2, by norm_num, by norm_num, by norm_num, by norm_num⟩, by decide +kernel, by decide +kernel, 1, _, by decide, rfl,
    0, by norm_num, by norm_num, by norm_num, by norm_num⟩

/-- **C423** refuted: when two other segments overlap, a crossing in the interior of two segments with different directions is not
reported for one of the two. -/
theorem C423_overlap_refuted : ∃ segs : List ((ℚ × ℚ) × (ℚ × ℚ)), (∀ s ∈ segs, s.1 ≠ s.2) ∧ Separated eps segs ∧
    Meets segs 1 (5 / 3, 5 / 3) ∧ Meets segs 2 (5 / 3, 5 / 3) ∧
    ∃ res, findIntersections eps 40 segs = some res ∧ (1, ((5 / 3 : ℚ), (5 / 3 : ℚ))) ∉ res ∧ (2, ((5 / 3 : ℚ), (5 / 3 : ℚ))) ∈ res := by
  refine ⟨[((0, 3), (2, 1)), ((3, 3), (1, 1)), ((1, 2), (3, 1)), ((0, 0), (2, 2))], by decide +kernel, separated_of (by decide +kernel), ?_, ?_,
    [(3, (3 / 2, 3 / 2)), (0, (3 / 2, 3 / 2)), (1, (3 / 2, 3 / 2)), (0, (3 / 2, 3 / 2)), (3, (5 / 3, 5 / 3)), (2, (5 / 3, 5 / 3))],
    by decide +kernel, by decide +kernel, by decide +kernel⟩
  · exact ⟨_, rfl, ⟨2 / 3, by norm_num, by norm_num, by norm_num, by norm_num⟩, by decide +kernel, by decide +kernel, 2, _, by decide, rfl,
      1 / 3, by norm_num, by norm_num, by norm_num, by norm_num⟩
  · exact ⟨_, rfl, ⟨1 / 3, by norm_num, by norm_num, by norm_num, by norm_num⟩, by decide +kernel, by decide +kernel, 1, _, by decide, rfl,
      2 / 3, by norm_num, by norm_num, by norm_num, by norm_num⟩

/-- **C423** refuted: a point is reported for a segment that does not contain it. -/
theorem C423_outside_refuted : ∃ segs : List ((ℚ × ℚ) × (ℚ × ℚ)), (∀ s ∈ segs, s.1 ≠ s.2) ∧ Separated eps segs ∧
    ∃ res i p, findIntersections eps 40 segs = some res ∧ (i, p) ∈ res ∧ ∀ s, segs[i]? = some s → ¬ OnSegm s p := by
  refine ⟨[((4, 0), (1, 3)), ((2, 3), (4, 4)), ((1, 3), (4, 0)), ((2, 4), (1, 2))], by decide +kernel, separated_of (by decide +kernel),
    [(3, (4 / 3, 8 / 3)), (0, (4 / 3, 8 / 3)), (3, (4 / 3, 8 / 3)), (2, (4 / 3, 8 / 3)), (1, (4 / 3, 8 / 3)), (2, (4 / 3, 8 / 3))],
    1, (4 / 3, 8 / 3), by decide +kernel, by decide +kernel, ?_⟩
  intro s hs
  simp only [List.getElem?_cons_succ, List.getElem?_cons_zero, Option.some.injEq] at hs
  subst hs
  rintro ⟨t, h0, -, h1, -⟩
  simp only at h1
  linarith

/-- The search in the Y-structure counts the keys up to the segment: when the keys before some place compare as at most the segment, and the key at
that place as above it, the result is that place. -/
theorem C423_scan {pS : Pt K} {s : Seg K} : ∀ (l l' : List (YN K)), (∀ y ∈ l, ∃ c, Seg.compare pS y.key s = some c ∧ c ≤ 0) →
    (∀ y ∈ l'.head?, ∃ c, Seg.compare pS y.key s = some c ∧ 0 < c) → scanY pS s (l ++ l') = some l.length
  | [], [], _, _ => rfl
  | [], y :: l', _, h => by
    obtain ⟨c, e, hc⟩ := h y rfl
    show scanY pS s (y :: l') = some 0
    rw [scanY, e, Option.bind_some, if_neg (by omega)]
  | y :: l, l', h, h' => by
    obtain ⟨c, e, hc⟩ := h y List.mem_cons_self
    rw [List.cons_append, scanY, e, Option.bind_some, if_pos hc, C423_scan l l' (fun z hz => h z (List.mem_cons_of_mem _ hz)) h']
    rfl

/-- The last key that compares as equal is found; when the last key not above the segment is below it, none is. -/
theorem C423_found {pS : Pt K} {s : Seg K} (l l' : List (YN K)) (y : YN K) (c : Int) (hl : ∀ z ∈ l, ∃ c, Seg.compare pS z.key s = some c ∧ c ≤ 0)
    (hy : Seg.compare pS y.key s = some c) (hc : c ≤ 0) (hl' : ∀ z ∈ l'.head?, ∃ c, Seg.compare pS z.key s = some c ∧ 0 < c) :
    foundY pS s (l ++ y :: l') = some (if c = 0 then some y else none) := by
  have e := C423_scan (pS := pS) (s := s) (l ++ [y]) l' (by
    intro z hz
    rcases List.mem_append.1 hz with h | h
    · exact hl z h
    · rw [List.mem_singleton.1 h]; exact ⟨c, hy, hc⟩) hl'
  rw [List.append_assoc, List.singleton_append] at e
  unfold foundY
  rw [e]
  simp [hy]

end Verif.Swl
