import Verif.Tes.Model
import Verif.Rtn.Props
import Mathlib.Tactic.Ring
import Mathlib.Tactic.Linarith
import Mathlib.Tactic.NormNum
import Mathlib.Tactic.LinearCombination
import Mathlib.Tactic.FieldSimp
import Mathlib.Tactic.Positivity
import Mathlib.Tactic.SplitIfs
import Mathlib.Algebra.Order.Ring.Rat
import Mathlib.Algebra.Field.Rat

/-! # C312, C313: loops and holes -/

set_option linter.unusedSectionVars false

namespace Verif.Tes

open Verif.Rtn (linspace uvs)

variable {α K : Type}

/-- The edges of a closed polygon. -/
def ring (l : List α) : List (α × α) := l.zip (l.tail ++ l.take 1)

/-- The points that pairs of indices refer to. -/
def look (vs : List α) (es : List (ℕ × ℕ)) : List (Option α × Option α) := es.map fun e => (vs[e.1]?, vs[e.2]?)

/-- Both ends present. -/
def present (e : α × α) : Option α × Option α := (some e.1, some e.2)

theorem length_seg (n s : ℕ) : (segmentsByLoop n s).length = n := by simp [segmentsByLoop]

theorem length_ring (l : List α) : (ring l).length = l.length := by
  unfold ring
  rw [List.length_zip]
  rcases l with _ | ⟨a, l⟩ <;> simp

theorem ring_get (l : List α) (i : ℕ) (hi : i < l.length) :
    (ring l)[i]? = some (l[i], l[(i + 1) % l.length]'(Nat.mod_lt _ (by omega))) := by
  have hl : i < (ring l).length := by rw [length_ring]; exact hi
  rw [List.getElem?_eq_getElem hl]
  congr 1
  unfold ring at *
  rw [List.getElem_zip]
  congr 1
  by_cases h : i + 1 < l.length
  · rw [List.getElem_append_left (by rw [List.length_tail]; omega), List.getElem_tail]
    congr 1
    rw [Nat.mod_eq_of_lt h]
  · have he : i + 1 = l.length := by omega
    rw [List.getElem_append_right (by rw [List.length_tail]; omega)]
    simp only [he, Nat.mod_self, List.length_tail]
    rw [List.getElem_take]
    congr 1
    omega

theorem look_seg (pre l post : List α) : look (pre ++ l ++ post) (segmentsByLoop l.length pre.length) = (ring l).map present := by
  apply List.ext_getElem?
  intro i
  unfold look segmentsByLoop
  rw [List.map_map, List.getElem?_map, List.getElem?_map]
  by_cases hi : i < l.length
  · rw [List.getElem?_range hi, ring_get l i hi]
    have hj := Nat.mod_lt (i + 1) (show 0 < l.length by omega)
    simp only [Option.map_some, Function.comp, present]
    have g : ∀ j, j < l.length → (pre ++ l ++ post)[j + pre.length]? = l[j]? := by
      intro j hj
      rw [List.append_assoc, List.getElem?_append_right (by omega), Nat.add_sub_cancel, List.getElem?_append_left hj]
    rw [g i hi, g _ hj, List.getElem?_eq_getElem hi, List.getElem?_eq_getElem hj]
  · rw [List.getElem?_eq_none (by rw [List.length_range]; omega), List.getElem?_eq_none (by rw [length_ring]; omega)]
    rfl

/-! ## C312 -/

/-- The edges of a loop of points that begins anywhere in a list of vertices are the edges of the closed polygon of its points. -/
theorem C312_ring (pre l post : List α) :
    (segmentsByLoop l.length pre.length).length = l.length ∧
      look (pre ++ l ++ post) (segmentsByLoop l.length pre.length) = (ring l).map present :=
  ⟨length_seg _ _, look_seg pre l post⟩

/-- Every point of the loop is the start of one edge and the end of one edge. -/
theorem C312_degrees (n start k : ℕ) (h1 : start ≤ k) (h2 : k < start + n) :
    ((segmentsByLoop n start).countP fun e => e.1 = k) = 1 ∧ ((segmentsByLoop n start).countP fun e => e.2 = k) = 1 := by
  have one : ∀ (m j : ℕ) (f : ℕ → ℕ), j < m → f j = k → (∀ i, i < m → f i = k → i = j) → (List.range m).countP (fun i => f i = k) = 1 := by
    intro m j f hj hf hu
    have : (List.range m).countP (fun i => decide (f i = k)) = (List.range m).count j := by
      unfold List.count
      apply List.countP_congr
      intro i hi
      rw [List.mem_range] at hi
      constructor
      · intro h; simpa using hu i hi (by simpa using h)
      · intro h
        have : i = j := by simpa using h
        simpa [this] using hf
    rw [this]
    exact List.count_eq_one_of_mem List.nodup_range (List.mem_range.2 hj)
  unfold segmentsByLoop
  rw [List.countP_map, List.countP_map]
  constructor
  · exact one n (k - start) (fun i => i + start) (by omega) (by omega) (by intro i _ h; omega)
  · rcases Nat.eq_or_lt_of_le h1 with h | h
    · refine one n (n - 1) (fun i => (i + 1) % n + start) (by omega) ?_ ?_
      · show (n - 1 + 1) % n + start = k
        rw [Nat.sub_add_cancel (by omega), Nat.mod_self]; omega
      · intro i hi he
        have he' : (i + 1) % n + start = k := he
        by_cases hc : i + 1 < n
        · rw [Nat.mod_eq_of_lt hc] at he'; omega
        · omega
    · refine one n (k - start - 1) (fun i => (i + 1) % n + start) (by omega) ?_ ?_
      · show (k - start - 1 + 1) % n + start = k
        rw [Nat.mod_eq_of_lt (by omega)]; omega
      · intro i hi he
        have he' : (i + 1) % n + start = k := he
        by_cases hc : i + 1 < n
        · rw [Nat.mod_eq_of_lt hc] at he'; omega
        · have : i + 1 = n := by omega
          rw [this, Nat.mod_self] at he'; omega

example : segmentsByLoop 4 10 = [(10, 11), (11, 12), (12, 13), (13, 10)] := by decide
example : ring [1, 5, 7] = [(1, 5), (5, 7), (7, 1)] := by decide

/-! ## C313 -/

/-- A loop whose ends do not coincide. -/
def Opn (cl : α → α → Bool) (l : List α) : Prop := ∃ a b, l.head? = some a ∧ l.getLast? = some b ∧ cl a b = false ∧ cl b a = false

/-- A loop that ends where it begins. -/
def Cls (cl : α → α → Bool) (l : List α) : Prop := ∃ a b, l.head? = some a ∧ l.getLast? = some b ∧ cl a b = true ∧ cl b a = true

/-- The edges of several loops one after the other. -/
def edgesFrom : List ℕ → ℕ → List (ℕ × ℕ)
  | [], _ => []
  | n :: ns, m => segmentsByLoop n m ++ edgesFrom ns (m + n)

theorem edgesFrom_append (a b : List ℕ) (m : ℕ) : edgesFrom (a ++ b) m = edgesFrom a m ++ edgesFrom b (m + a.sum) := by
  induction a generalizing m with
  | nil => simp [edgesFrom]
  | cons n a ih => simp [edgesFrom, ih, List.append_assoc, Nat.add_assoc]

theorem length_edgesFrom (a : List ℕ) (m : ℕ) : (edgesFrom a m).length = a.sum := by
  induction a generalizing m with
  | nil => rfl
  | cons n a ih => simp [edgesFrom, ih, length_seg]

theorem look_edgesFrom (loops : List (List α)) (pre post : List α) :
    look (pre ++ loops.flatten ++ post) (edgesFrom (loops.map List.length) pre.length) = (loops.flatMap ring).map present := by
  induction loops generalizing pre with
  | nil => rfl
  | cons l loops ih =>
    have h1 := look_seg pre l (loops.flatten ++ post)
    have h2 := ih (pre ++ l)
    rw [List.length_append] at h2
    simp only [List.map_cons, edgesFrom, List.flatten_cons, List.flatMap_cons, List.map_append]
    rw [← h1, ← h2]
    simp only [look, List.map_append, List.append_assoc]

/-- The points of a loop, the closing one counted once. -/
def eff (cl : α → α → Bool) (l : List α) : List α :=
  match l.head?, l.getLast? with
  | some a, some b => if cl a b then l.dropLast else l
  | _, _ => l

theorem eff_opn {cl : α → α → Bool} {l : List α} (h : Opn cl l) : eff cl l = l := by
  obtain ⟨a, b, h1, h2, h3, _⟩ := h
  simp [eff, h1, h2, h3]

theorem eff_cls {cl : α → α → Bool} {l : List α} (h : Cls cl l) : eff cl l = l.dropLast := by
  obtain ⟨a, b, h1, h2, h3, _⟩ := h
  simp [eff, h1, h2, h3]

theorem drop_len {cl : α → α → Bool} {l : List α} (h : Opn cl l ∨ Cls cl l) :
    (∃ r, dropClosing cl l = some r ∧ r.length = (eff cl l).length) ∧ ∃ r, dropClosing cl l.reverse = some r ∧ r.length = (eff cl l).length := by
  rcases h with h | h
  · rw [eff_opn h]
    obtain ⟨a, b, h1, h2, h3, h4⟩ := h
    exact ⟨⟨l, by simp [dropClosing, h1, h2, h3], rfl⟩, ⟨l.reverse, by simp [dropClosing, h1, h2, h4], by simp⟩⟩
  · rw [eff_cls h]
    obtain ⟨a, b, h1, h2, h3, h4⟩ := h
    exact ⟨⟨l.dropLast, by simp [dropClosing, h1, h2, h3], rfl⟩, ⟨l.reverse.dropLast, by simp [dropClosing, h1, h2, h4], by simp⟩⟩

theorem boundaryEdges_eq (cl : α → α → Bool) (bs : List (List α)) (hb : ∀ b ∈ bs, Opn cl b ∨ Cls cl b) (m : ℕ) (es : List (ℕ × ℕ)) :
    boundaryEdges cl bs m es = some (m + (bs.map fun b => (eff cl b).length).sum, es ++ edgesFrom (bs.map fun b => (eff cl b).length) m) := by
  induction bs generalizing m es with
  | nil => simp [boundaryEdges, edgesFrom]
  | cons b bs ih =>
    obtain ⟨⟨r, hr, hl⟩, _⟩ := drop_len (hb b List.mem_cons_self)
    rw [boundaryEdges, hr]
    simp only
    rw [ih (fun c hc => hb c (List.mem_cons_of_mem _ hc)), hl]
    simp [edgesFrom, List.append_assoc, Nat.add_assoc]

variable [Field K]

theorem holeEdges_eq (cl : K × K → K × K → Bool) (hs : List (List (K × K))) (hb : ∀ b ∈ hs, Opn cl b ∨ Cls cl b) (m : ℕ) (es : List (ℕ × ℕ))
    (ps : List (K × K)) :
    ∃ qs, holeEdges cl hs m es ps = some (es ++ edgesFrom (hs.map fun b => (eff cl b).length) m, ps ++ qs) ∧ qs.length = hs.length ∧
      ∀ (i : ℕ) (h : List (K × K)), hs[i]? = some h → ∃ r, dropClosing cl h.reverse = some r ∧ qs[i]? = some (average r) := by
  induction hs generalizing m es ps with
  | nil => exact ⟨[], by simp [holeEdges, edgesFrom], rfl, by simp⟩
  | cons b hs ih =>
    obtain ⟨_, r, hr, hl⟩ := drop_len (hb b List.mem_cons_self)
    obtain ⟨qs, hq, hlen, hall⟩ := ih (fun c hc => hb c (List.mem_cons_of_mem _ hc)) (m + r.length) (es ++ segmentsByLoop r.length m) (ps ++ [average r])
    refine ⟨average r :: qs, ?_, by simp [hlen], ?_⟩
    · rw [holeEdges, hr]
      simp only
      rw [hq, hl]
      simp [edgesFrom, List.append_assoc]
    · intro i h hi
      cases i with
      | zero =>
        simp only [List.getElem?_cons_zero, Option.some.injEq] at hi
        exact ⟨r, by rw [← hi]; exact hr, by simp⟩
      | succ i =>
        simp only [List.getElem?_cons_succ] at hi ⊢
        exact hall i h hi

theorem prepareArgs_eq (cl : K × K → K × K → Bool) (bs hs : List (List (K × K))) (hb : ∀ b ∈ bs ++ hs, Opn cl b ∨ Cls cl b) :
    ∃ d, prepareArgs cl bs hs = some d ∧ d.vertices = (bs ++ hs).flatten ∧ d.segments = edgesFrom ((bs ++ hs).map fun b => (eff cl b).length) 0 ∧
      d.holes.length = hs.length ∧
      ∀ (i : ℕ) (h : List (K × K)), hs[i]? = some h → ∃ r, dropClosing cl h.reverse = some r ∧ d.holes[i]? = some (average r) := by
  obtain ⟨qs, hq, hlen, hall⟩ := holeEdges_eq cl hs (fun b h => hb b (List.mem_append_right _ h)) (0 + (bs.map fun b => (eff cl b).length).sum)
    ([] ++ edgesFrom (bs.map fun b => (eff cl b).length) 0) []
  refine ⟨⟨(bs ++ hs).flatten, [] ++ qs, edgesFrom ((bs ++ hs).map fun b => (eff cl b).length) 0⟩, ?_, rfl, rfl, by simpa using hlen, by simpa using hall⟩
  · rw [prepareArgs, boundaryEdges_eq cl bs (fun b h => hb b (List.mem_append_left _ h))]
    simp only
    rw [hq]
    simp only [List.map_append, edgesFrom_append, List.nil_append, Nat.zero_add]

/-- If no loop but the last repeats its first point at the end, the segments are the edges of the closed polygons given, boundaries first. -/
theorem C313_edges_partial (cl : K × K → K × K → Bool) (bs hs init : List (List (K × K))) (last : List (K × K)) (he : bs ++ hs = init ++ [last])
    (hi : ∀ b ∈ init, Opn cl b) (hl : Opn cl last ∨ Cls cl last) :
    ∃ d, prepareArgs cl bs hs = some d ∧
      look d.vertices d.segments = (init.flatMap ring).map present ++ (ring (eff cl last)).map present := by
  have hb : ∀ b ∈ bs ++ hs, Opn cl b ∨ Cls cl b := by
    intro b hb
    rw [he, List.mem_append] at hb
    rcases hb with h | h
    · exact Or.inl (hi b h)
    · rw [List.mem_singleton.1 h]; exact hl
  obtain ⟨d, h1, h2, h3, _⟩ := prepareArgs_eq cl bs hs hb
  refine ⟨d, h1, ?_⟩
  rw [h2, h3, he]
  have e1 : (init ++ [last]).map (fun b => (eff cl b).length) = (init ++ [eff cl last]).map List.length := by
    rw [List.map_append, List.map_append]
    congr 1
    apply List.map_congr_left
    intro b hb
    rw [eff_opn (hi b hb)]
  have e2 : ∃ post, (init ++ [last]).flatten = [] ++ (init ++ [eff cl last]).flatten ++ post := by
    rcases hl with h | h
    · exact ⟨[], by rw [eff_opn h]; simp⟩
    · rw [eff_cls h]
      obtain ⟨a, b, _, h2, _⟩ := h
      refine ⟨[b], ?_⟩
      have hne : last ≠ [] := by rintro rfl; simp at h2
      have : last.dropLast ++ [b] = last := by
        have := List.dropLast_append_getLast hne
        rw [List.getLast?_eq_some_getLast hne, Option.some.injEq] at h2
        rw [← h2]; exact this
      simp [this]
  obtain ⟨post, e2⟩ := e2
  rw [e1, e2]
  have := look_edgesFrom (init ++ [eff cl last]) [] post
  rw [List.length_nil] at this
  rw [this]
  simp

/-- After a loop that repeats its first point, all indices are too small: the first edge of the next loop begins in the repeated point of the
loop before. -/
theorem C313_closed_refuted (cl : K × K → K × K → Bool) (bs hs pre post : List (List (K × K))) (c e : List (K × K))
    (he : bs ++ hs = pre ++ c :: e :: post) (hp : ∀ b ∈ pre, Opn cl b) (hc : Cls cl c) (hd : ∀ b ∈ e :: post, Opn cl b ∨ Cls cl b)
    (hn : 2 ≤ e.length) :
    ∃ d a b, prepareArgs cl bs hs = some d ∧ d.segments[pre.flatten.length + (c.length - 1)]? = some (a, b) ∧ d.vertices[a]? = c.getLast? := by
  have hb : ∀ b ∈ bs ++ hs, Opn cl b ∨ Cls cl b := by
    intro b hb
    rw [he, List.mem_append, List.mem_cons] at hb
    rcases hb with h | rfl | h
    · exact Or.inl (hp b h)
    · exact Or.inr hc
    · exact hd b h
  obtain ⟨d, h1, h2, h3, _⟩ := prepareArgs_eq cl bs hs hb
  have hpos : 1 ≤ (eff cl e).length := by
    rcases hd e List.mem_cons_self with h | h
    · rw [eff_opn h]; omega
    · rw [eff_cls h, List.length_dropLast]; omega
  have hcl : 1 ≤ c.length := by
    obtain ⟨a, b, h, _⟩ := hc
    cases c with
    | nil => simp at h
    | cons x l => simp
  have hs1 : (pre.map fun b => (eff cl b).length).sum = pre.flatten.length := by
    rw [List.length_flatten]
    congr 1
    apply List.map_congr_left
    intro b hb
    rw [eff_opn (hp b hb)]
  have hs2 : (eff cl c).length = c.length - 1 := by rw [eff_cls hc, List.length_dropLast]
  refine ⟨d, pre.flatten.length + (c.length - 1), (0 + 1) % (eff cl e).length + (pre.flatten.length + (c.length - 1)), h1, ?_, ?_⟩
  · rw [h3, he, List.map_append, edgesFrom_append, hs1, List.map_cons, List.map_cons, edgesFrom, edgesFrom, hs2]
    rw [List.getElem?_append_right (by rw [length_edgesFrom, hs1]; omega), length_edgesFrom, hs1, Nat.add_sub_cancel_left]
    rw [List.getElem?_append_right (by rw [length_seg]), length_seg, Nat.sub_self]
    rw [List.getElem?_append_left (by rw [length_seg]; omega)]
    unfold segmentsByLoop
    rw [List.getElem?_map, List.getElem?_range (by omega)]
    simp
  · rw [h2, he, List.flatten_append, List.flatten_cons, List.getElem?_append_right (by omega), Nat.add_sub_cancel_left,
      List.getElem?_append_left (by omega), List.getLast?_eq_getElem?]

variable [LinearOrder K] [IsStrictOrderedRing K]

theorem sum_le (l : List (K × K)) (a b c : K) (h : ∀ p ∈ l, a * p.1 + b * p.2 ≤ c) :
    a * (l.map Prod.fst).sum + b * (l.map Prod.snd).sum ≤ (l.length : K) * c := by
  induction l with
  | nil => simp
  | cons p l ih =>
    have h1 := h p List.mem_cons_self
    have h2 := ih (fun q hq => h q (List.mem_cons_of_mem _ hq))
    simp only [List.map_cons, List.sum_cons, List.length_cons, Nat.cast_add, Nat.cast_one]
    linarith

theorem mem_eff {cl : α → α → Bool} {l r : List α} (h : dropClosing cl l = some r) : ∀ x ∈ r, x ∈ l := by
  intro x hx
  unfold dropClosing at h
  split at h
  · simp only [Option.some.injEq] at h
    rw [← h] at hx
    split_ifs at hx
    · exact List.mem_of_mem_dropLast hx
    · exact hx
  · simp at h

/-- There is one point for each hole, and it lies in every half plane in which all points of the hole lie; for a convex hole it is in the
hole. -/
theorem C313_hole_partial (cl : K × K → K × K → Bool) (bs hs : List (List (K × K))) (hb : ∀ b ∈ bs ++ hs, Opn cl b ∨ Cls cl b)
    (h2 : ∀ h ∈ hs, 2 ≤ h.length) :
    ∃ d, prepareArgs cl bs hs = some d ∧ d.holes.length = hs.length ∧
      ∀ (i : ℕ) (h : List (K × K)), hs[i]? = some h → ∃ p, d.holes[i]? = some p ∧
        ∀ a b c : K, (∀ q ∈ h, a * q.1 + b * q.2 ≤ c) → a * p.1 + b * p.2 ≤ c := by
  obtain ⟨d, h1, _, _, h4, h5⟩ := prepareArgs_eq cl bs hs hb
  refine ⟨d, h1, h4, ?_⟩
  intro i h hi
  obtain ⟨r, hr, hp⟩ := h5 i h hi
  refine ⟨_, hp, ?_⟩
  intro a b c hq
  have hm := List.mem_of_getElem? hi
  obtain ⟨_, r', hr', hl⟩ := drop_len (hb h (List.mem_append_right _ hm))
  rw [hr, Option.some.injEq] at hr'
  have hpos : 0 < r.length := by
    have h3 := h2 h hm
    rw [hr', hl]
    rcases hb h (List.mem_append_right _ hm) with g | g
    · rw [eff_opn g]; omega
    · rw [eff_cls g, List.length_dropLast]; omega
  have hs := sum_le r a b c (fun q h' => hq q (List.mem_reverse.1 (mem_eff hr q h')))
  have hk : (0 : K) < (r.length : K) := by exact_mod_cast hpos
  unfold average
  have e : a * ((r.map Prod.fst).sum / (r.length : K)) + b * ((r.map Prod.snd).sum / (r.length : K)) =
    (a * (r.map Prod.fst).sum + b * (r.map Prod.snd).sum) / (r.length : K) := by ring
  show a * ((r.map Prod.fst).sum / (r.length : K)) + b * ((r.map Prod.snd).sum / (r.length : K)) ≤ c
  rw [e, div_le_iff₀ hk]
  linarith

/-- A hole of the shape of a U, of any size at any place. -/
def uShape (x y k : K) : List (K × K) :=
  [(x, y), (x + 6 * k, y), (x + 6 * k, y + 6 * k), (x + 5 * k, y + 6 * k), (x + 5 * k, y + k), (x + k, y + k), (x + k, y + 6 * k), (x, y + 6 * k)]

/-- The point for a hole that is not convex may be outside it: for a U the ray upwards from the point meets no edge. -/
theorem C313_hole_refuted (cl : K × K → K × K → Bool) (x y k : K) (hk : 0 < k) (ho : Opn cl (uShape x y k)) :
    ∃ d p, prepareArgs cl [] [uShape x y k] = some d ∧ d.holes = [p] ∧
      ∀ e ∈ ring (uShape x y k), ∀ t : K, 0 ≤ t → t ≤ 1 → e.1.1 + t * (e.2.1 - e.1.1) = p.1 → e.1.2 + t * (e.2.2 - e.1.2) < p.2 := by
  obtain ⟨d, h1, _, _, h4, h5⟩ := prepareArgs_eq cl [] [uShape x y k] (by intro b hb; simp at hb; rw [hb]; exact Or.inl ho)
  obtain ⟨r, hr, hp⟩ := h5 0 (uShape x y k) rfl
  have hrr : r = (uShape x y k).reverse := by
    obtain ⟨a, b, g1, g2, g3, g4⟩ := ho
    unfold dropClosing at hr
    rw [List.head?_reverse, List.getLast?_reverse, g1, g2] at hr
    simpa [g4] using hr.symm
  have hpe : average r = (x + 3 * k, y + 13 / 4 * k) := by
    rw [hrr]
    simp only [average, uShape, List.reverse_cons, List.reverse_nil, List.nil_append, List.cons_append, List.map_cons, List.map_nil, List.sum_cons,
      List.sum_nil, List.length_cons, List.length_nil]
    ext
    · show _ / _ = _
      push_cast; field_simp; ring
    · show _ / _ = _
      push_cast; field_simp; ring
  refine ⟨d, average r, h1, ?_, ?_⟩
  · obtain ⟨q, hq⟩ := List.length_eq_one_iff.1 h4
    rw [hq] at hp ⊢
    simpa using hp
  rw [hpe]
  intro e he t h0 h1 hx
  simp only [ring, uShape, List.tail_cons, List.take_succ_cons, List.take_zero, List.cons_append, List.nil_append, List.zip_cons_cons, List.zip_nil_right,
    List.mem_cons, List.not_mem_nil, or_false] at he
  have hkt := mul_nonneg h0 hk.le
  have hkt1 : t * k ≤ k := by nlinarith
  rcases he with rfl | rfl | rfl | rfl | rfl | rfl | rfl | rfl <;> simp only at hx ⊢ <;> nlinarith

/-- An open square with a closed triangle as hole: the edges of both. -/
example : prepareArgs (K := ℚ) (fun a b => decide (a = b)) [[(0, 0), (9, 0), (9, 9), (0, 9)]] [[(1, 1), (4, 1), (1, 4), (1, 1)]] =
    some ⟨[(0, 0), (9, 0), (9, 9), (0, 9), (1, 1), (4, 1), (1, 4), (1, 1)], [(2, 2)],
      [(0, 1), (1, 2), (2, 3), (3, 0), (4, 5), (5, 6), (6, 4)]⟩ := by decide +kernel
/-- The square closed: the edge from vertex 4 begins in the repeated corner `(0, 0)`. -/
example : prepareArgs (K := ℚ) (fun a b => decide (a = b)) [[(0, 0), (9, 0), (9, 9), (0, 9), (0, 0)]] [[(1, 1), (4, 1), (1, 4)]] =
    some ⟨[(0, 0), (9, 0), (9, 9), (0, 9), (0, 0), (1, 1), (4, 1), (1, 4)], [(2, 2)],
      [(0, 1), (1, 2), (2, 3), (3, 0), (4, 5), (5, 6), (6, 4)]⟩ := by decide +kernel
example : Opn (fun a b : ℚ × ℚ => decide (a = b)) [(0, 0), (9, 0), (9, 9), (0, 9)] := ⟨(0, 0), (0, 9), rfl, rfl, by decide, by decide⟩
example : Cls (fun a b : ℚ × ℚ => decide (a = b)) [(1, 1), (4, 1), (1, 4), (1, 1)] := ⟨(1, 1), (1, 1), rfl, rfl, by decide, by decide⟩
example : Opn (fun a b : ℚ × ℚ => decide (a = b)) (uShape 0 0 1) := ⟨(0, 0), (0, 6), by norm_num [uShape], by norm_num [uShape], by decide, by decide⟩

end Verif.Tes
