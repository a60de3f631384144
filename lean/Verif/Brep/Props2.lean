import Verif.Brep.Model
import Mathlib.Data.List.Basic
import Mathlib.Data.List.Nodup
import Mathlib.Data.List.Induction
import Mathlib.Tactic.Tauto

/-! # C49 (adjacency table), C111: `nurbs_surf_to_brep` -/

set_option linter.unusedSectionVars false

namespace Verif.Brep

variable {κ V : Type} [DecidableEq κ]

theorem get_put (k k' : κ) (v : V) : ∀ l : List (κ × V),
    get k' (put k v l) = if k' = k then some v else get k' l
  | [] => by simp [put, get, eq_comm]
  | e :: l => by
    rw [put]
    by_cases h : e.1 = k
    · rw [if_pos h, get, get, h]
      by_cases h' : k = k'
      · rw [if_pos h', if_pos h'.symm]
      · rw [if_neg h', if_neg h', if_neg (Ne.symm h')]
    · rw [if_neg h, get, get, get_put k k' v l]
      by_cases h' : e.1 = k'
      · rw [if_pos h', if_pos h', if_neg (by rintro rfl; exact h h')]
      · rw [if_neg h', if_neg h']

theorem get_none_iff (k : κ) : ∀ l : List (κ × V), get k l = none ↔ k ∉ l.map Prod.fst
  | [] => by simp [get]
  | e :: l => by
    rw [get]
    by_cases h : e.1 = k
    · simp [h]
    · simp [h, get_none_iff k l, Ne.symm h]

theorem keys_put (k : κ) (v : V) : ∀ l : List (κ × V),
    (put k v l).map Prod.fst = if k ∈ l.map Prod.fst then l.map Prod.fst else l.map Prod.fst ++ [k]
  | [] => by simp [put]
  | e :: l => by
    rw [put]
    by_cases h : e.1 = k
    · simp [h]
    · rw [if_neg h, List.map_cons, keys_put k v l]
      by_cases c : k ∈ l.map Prod.fst
      · rw [if_pos c, if_pos (by simp [c])]; rfl
      · rw [if_neg c, if_neg (by simp only [List.map_cons, List.mem_cons, not_or]; exact ⟨Ne.symm h, c⟩)]
        rfl

theorem nodup_put {k : κ} {v : V} {l : List (κ × V)} (h : (l.map Prod.fst).Nodup) :
    ((put k v l).map Prod.fst).Nodup := by
  rw [keys_put]
  split_ifs with c
  · exact h
  · rw [List.nodup_append]
    refine ⟨h, List.nodup_singleton _, ?_⟩
    intro a ha b hb e
    rw [List.mem_singleton] at hb
    subst hb
    subst e
    exact c ha

theorem get_ensure (a x : κ) (rc : List (κ × List κ)) :
    get x (ensure a rc) = if x = a then some ((get a rc).getD []) else get x rc := by
  unfold ensure
  cases h : get a rc with
  | none => dsimp only; rw [get_put]; rfl
  | some l =>
    dsimp only
    split_ifs with c
    · rw [c, h]; rfl
    · rfl

theorem get_link (a b x : κ) (rc : List (κ × List κ)) :
    get x (link a b rc) =
      if x = a then (get a rc).map (fun l => if b ∈ l then l else l ++ [b]) else get x rc := by
  unfold link
  cases h : get a rc with
  | none =>
    dsimp only
    split_ifs with c
    · rw [c, h]; rfl
    · rfl
  | some l =>
    dsimp only
    by_cases hb : b ∈ l
    · rw [if_pos hb]
      split_ifs with c
      · rw [c, h]; simp [hb]
      · rfl
    · rw [if_neg hb, get_put]
      simp [hb]

theorem nodup_ensure {a : κ} {rc : List (κ × List κ)} (h : (rc.map Prod.fst).Nodup) :
    ((ensure a rc).map Prod.fst).Nodup := by
  unfold ensure
  cases get a rc with
  | none => exact nodup_put h
  | some l => exact h

theorem nodup_link {a b : κ} {rc : List (κ × List κ)} (h : (rc.map Prod.fst).Nodup) :
    ((link a b rc).map Prod.fst).Nodup := by
  unfold link
  cases get a rc with
  | none => exact h
  | some l =>
    dsimp only
    split_ifs
    · exact h
    · exact nodup_put h

/-- The neighbours of a key. -/
def Sparce.nb (s : Sparce κ V) (a : κ) : List κ := (get a s.rc).getD []

theorem pair_set (s : Sparce κ V) (a b x y : κ) (v : V) :
    (s.set a b v).pair x y =
      if (x = a ∧ y = b) ∨ (x = b ∧ y = a) then some v else s.pair x y := by
  unfold Sparce.pair Sparce.set
  dsimp only
  rw [get_put, get_put]
  by_cases h1 : (x, y) = (b, a)
  · rw [if_pos h1, if_pos (Or.inr (Prod.mk.injEq .. ▸ h1))]
  · by_cases h2 : (x, y) = (a, b)
    · rw [if_neg h1, if_pos h2, if_pos (Or.inl (Prod.mk.injEq .. ▸ h2))]
    · rw [if_neg h1, if_neg h2, if_neg]
      rintro (⟨rfl, rfl⟩ | ⟨rfl, rfl⟩)
      · exact h2 rfl
      · exact h1 rfl

theorem key_set (s : Sparce κ V) (a b x : κ) (v : V) :
    get x (s.set a b v).rc = none ↔ (x ≠ a ∧ x ≠ b ∧ get x s.rc = none) := by
  unfold Sparce.set
  dsimp only
  rw [get_link, get_link, get_link, get_ensure, get_ensure, get_ensure]
  by_cases h1 : x = a
  · subst h1
    by_cases h2 : x = b
    · simp [h2]
    · simp [h2]
  · by_cases h2 : x = b
    · subst h2; simp [h1, get_ensure]
    · simp [h1, h2, get_ensure]

/-- Add at the end unless present. -/
def addEnd (b : κ) (l : List κ) : List κ := if b ∈ l then l else l ++ [b]

theorem mem_addEnd (b y : κ) (l : List κ) : y ∈ addEnd b l ↔ y ∈ l ∨ y = b := by
  unfold addEnd
  split_ifs with h
  · constructor
    · exact Or.inl
    · rintro (h' | rfl)
      · exact h'
      · exact h
  · simp

theorem nodup_addEnd {b : κ} {l : List κ} (h : l.Nodup) : (addEnd b l).Nodup := by
  unfold addEnd
  split_ifs with c
  · exact h
  · rw [List.nodup_append]
    refine ⟨h, List.nodup_singleton _, ?_⟩
    intro x hx y hy e
    rw [List.mem_singleton] at hy
    subst hy; subst e
    exact c hx

theorem nb_set (s : Sparce κ V) (a b x : κ) (v : V) :
    (s.set a b v).nb x = if x = a then (if x = b then addEnd a (addEnd b (s.nb x)) else addEnd b (s.nb x))
      else if x = b then addEnd a (s.nb x) else s.nb x := by
  unfold Sparce.nb Sparce.set addEnd
  dsimp only
  rw [get_link, get_link, get_link, get_ensure, get_ensure, get_ensure]
  by_cases h1 : x = a
  · subst h1
    by_cases h2 : x = b
    · subst h2; simp
    · simp [h2]
  · by_cases h2 : x = b
    · subst h2; simp [h1, get_ensure]
    · simp [h1, h2, get_ensure]

/-- A history of assignments `s[a, b] = v`. -/
def Sparce.runSet (s : Sparce κ V) (h : List (κ × κ × V)) : Sparce κ V :=
  h.foldl (fun s e => s.set e.1 e.2.1 e.2.2) s

/-- The last value assigned to a pair, in either order. -/
def lastValue (h : List (κ × κ × V)) (a b : κ) : Option V :=
  (h.reverse.find? (fun e => decide ((a = e.1 ∧ b = e.2.1) ∨ (a = e.2.1 ∧ b = e.1)))).map (·.2.2)

theorem runSet_snoc (s : Sparce κ V) (h : List (κ × κ × V)) (e : κ × κ × V) :
    s.runSet (h ++ [e]) = (s.runSet h).set e.1 e.2.1 e.2.2 := by
  simp [Sparce.runSet]

theorem lastValue_snoc (h : List (κ × κ × V)) (e : κ × κ × V) (a b : κ) :
    lastValue (h ++ [e]) a b = if (a = e.1 ∧ b = e.2.1) ∨ (a = e.2.1 ∧ b = e.1) then some e.2.2
      else lastValue h a b := by
  unfold lastValue
  rw [List.reverse_append, List.reverse_singleton, List.singleton_append, List.find?_cons]
  by_cases c : (a = e.1 ∧ b = e.2.1) ∨ (a = e.2.1 ∧ b = e.1)
  · simp [c]
  · simp [c]

/-- After every history the table holds for a pair the value assigned last, in either order. -/
theorem C49_table (h : List (κ × κ × V)) (a b : κ) :
    (Sparce.runSet ({} : Sparce κ V) h).pair a b = lastValue h a b := by
  induction h using List.reverseRecOn with
  | nil => rfl
  | append_singleton h e ih => rw [runSet_snoc, pair_set, lastValue_snoc, ih]

/-- The table is symmetric. -/
theorem C49_symmetric (h : List (κ × κ × V)) (a b : κ) :
    (Sparce.runSet ({} : Sparce κ V) h).pair a b = (Sparce.runSet ({} : Sparce κ V) h).pair b a := by
  rw [C49_table, C49_table]
  unfold lastValue
  congr 2
  funext e
  rw [decide_eq_decide]
  tauto

/-- The neighbours of a key are the keys it has a value with, each once. -/
theorem C49_neighbours (h : List (κ × κ × V)) (a b : κ) :
    (b ∈ (Sparce.runSet ({} : Sparce κ V) h).nb a ↔ lastValue h a b ≠ none) ∧
    ((Sparce.runSet ({} : Sparce κ V) h).nb a).Nodup := by
  rw [← C49_table]
  induction h using List.reverseRecOn generalizing a b with
  | nil => exact ⟨by simp [Sparce.nb, Sparce.runSet, get, Sparce.pair], List.nodup_nil⟩
  | append_singleton h e ih =>
    rw [runSet_snoc, nb_set, pair_set]
    constructor
    · have := (ih a b).1
      by_cases h1 : a = e.1
      · by_cases h2 : a = e.2.1
        · rw [if_pos h1, if_pos h2, mem_addEnd, mem_addEnd, this]
          by_cases c : (a = e.1 ∧ b = e.2.1) ∨ (a = e.2.1 ∧ b = e.1)
          · rw [if_pos c]; simp; tauto
          · rw [if_neg c]; tauto
        · rw [if_pos h1, if_neg h2, mem_addEnd, this]
          by_cases c : (a = e.1 ∧ b = e.2.1) ∨ (a = e.2.1 ∧ b = e.1)
          · rw [if_pos c]; simp; tauto
          · rw [if_neg c]; tauto
      · by_cases h2 : a = e.2.1
        · rw [if_neg h1, if_pos h2, mem_addEnd, this]
          by_cases c : (a = e.1 ∧ b = e.2.1) ∨ (a = e.2.1 ∧ b = e.1)
          · rw [if_pos c]; simp; tauto
          · rw [if_neg c]; tauto
        · rw [if_neg h1, if_neg h2, this, if_neg (by tauto)]
    · have := (ih a b).2
      split_ifs
      · exact nodup_addEnd (nodup_addEnd this)
      · exact nodup_addEnd this
      · exact nodup_addEnd this
      · exact this

/-- One key gives all keys ever used, each once, with the value of the pair (or nothing). -/
theorem C49_row (h : List (κ × κ × V)) (a : κ) :
    (((Sparce.runSet ({} : Sparce κ V) h).row a).map Prod.fst).Nodup ∧
    ∀ b v, (b, v) ∈ (Sparce.runSet ({} : Sparce κ V) h).row a ↔
      (∃ e ∈ h, b = e.1 ∨ b = e.2.1) ∧ v = lastValue h a b := by
  have keys : ((Sparce.runSet ({} : Sparce κ V) h).rc.map Prod.fst).Nodup ∧
      ∀ b, b ∈ (Sparce.runSet ({} : Sparce κ V) h).rc.map Prod.fst ↔ ∃ e ∈ h, b = e.1 ∨ b = e.2.1 := by
    induction h using List.reverseRecOn with
    | nil => exact ⟨List.nodup_nil, by simp [Sparce.runSet]⟩
    | append_singleton h e ih =>
      rw [runSet_snoc]
      constructor
      · exact nodup_link (nodup_link (nodup_ensure (nodup_ensure ih.1)))
      · intro b
        have k := key_set (Sparce.runSet ({} : Sparce κ V) h) e.1 e.2.1 b e.2.2
        rw [get_none_iff, get_none_iff] at k
        have := ih.2 b
        constructor
        · intro hb
          by_contra hc
          refine absurd hb (k.2 ⟨?_, ?_, ?_⟩)
          · rintro rfl; exact hc ⟨e, by simp, Or.inl rfl⟩
          · rintro rfl; exact hc ⟨e, by simp, Or.inr rfl⟩
          · rw [this]
            rintro ⟨x, hx, h⟩
            exact hc ⟨x, by simp [hx], h⟩
        · rintro ⟨x, hx, h⟩
          by_contra hc
          obtain ⟨k1, k2, k3⟩ := k.1 hc
          rw [List.mem_append, List.mem_singleton] at hx
          rcases hx with hx | rfl
          · exact k3 (this.2 ⟨x, hx, h⟩)
          · rcases h with h | h
            · exact k1 h
            · exact k2 h
  have hk : ((Sparce.runSet ({} : Sparce κ V) h).row a).map Prod.fst =
      (Sparce.runSet ({} : Sparce κ V) h).rc.map Prod.fst := by
    simp [Sparce.row]
  refine ⟨by rw [hk]; exact keys.1, ?_⟩
  intro b v
  rw [← keys.2 b, ← C49_table]
  unfold Sparce.row
  simp only [List.mem_map, Prod.mk.injEq]
  constructor
  · rintro ⟨e, he, rfl, rfl⟩
    exact ⟨⟨e, he, rfl⟩, rfl⟩
  · rintro ⟨⟨e, he, rfl⟩, rfl⟩
    exact ⟨e, he, rfl, rfl⟩

/-- A triangle with one edge assigned twice, the second time in the other direction. -/
example : let s := Sparce.runSet ({} : Sparce Nat Nat) [(0, 1, 10), (1, 2, 11), (2, 0, 12), (1, 0, 13)]
    s.pair 0 1 = some 13 ∧ s.nb 0 = [1, 2] ∧ s.row 1 = [(0, some 13), (1, none), (2, some 11)] := by
  decide

/-! ## C111 -/

variable {P : Type} [DecidableEq P]

/-- The point has the index, and the points before keep theirs. -/
theorem pointIndex_spec (pts : List P) (p : P) (h : pts.Nodup) :
    (pointIndex pts p).2.Nodup ∧ (pointIndex pts p).2[(pointIndex pts p).1]? = some p ∧
      pts <+: (pointIndex pts p).2 ∧ ∀ q, q ∈ (pointIndex pts p).2 ↔ q ∈ pts ∨ q = p := by
  unfold pointIndex
  split_ifs with h0 hm
  · have : pts = [] := List.length_eq_zero_iff.1 h0
    subst this
    simp
  · refine ⟨h, ?_, List.prefix_rfl, ?_⟩
    · dsimp only
      rw [List.getElem?_eq_getElem (List.idxOf_lt_length_of_mem hm), List.getElem_idxOf]
    · intro q
      constructor
      · exact Or.inl
      · rintro (hq | rfl)
        · exact hq
        · exact hm
  · refine ⟨?_, by simp, List.prefix_append _ _, by simp⟩
    rw [List.nodup_append]
    refine ⟨h, List.nodup_singleton _, ?_⟩
    intro a ha b hb e
    rw [List.mem_singleton] at hb
    subst hb; subst e
    exact hm ha

theorem prefix_get' {l m : List P} (h : l <+: m) {i : Nat} {x : P} (hx : l[i]? = some x) :
    m[i]? = some x := by
  obtain ⟨t, rfl⟩ := h
  rw [List.getElem?_append_left (List.getElem?_eq_some_iff.1 hx).1, hx]

theorem edgeLoop_spec : ∀ (bs : List (P × P)) (i : Nat) (pts : List P), pts.Nodup →
    (edgeLoop i pts bs).2.Nodup ∧ pts <+: (edgeLoop i pts bs).2 ∧
    (∀ q, q ∈ (edgeLoop i pts bs).2 ↔ q ∈ pts ∨ ∃ b ∈ bs, q = b.1 ∨ q = b.2) ∧
    (edgeLoop i pts bs).1.length = bs.length ∧
    ∀ (j : Nat) (b : P × P), bs[j]? = some b → ∃ x y, (edgeLoop i pts bs).1[j]? = some (i + j, x, y) ∧
      (edgeLoop i pts bs).2[x]? = some b.1 ∧ (edgeLoop i pts bs).2[y]? = some b.2
  | [], i, pts, h => by simp [edgeLoop, h]
  | (s, e) :: bs, i, pts, h => by
    obtain ⟨a1, a2, a3, a4⟩ := pointIndex_spec pts s h
    obtain ⟨b1, b2, b3, b4⟩ := pointIndex_spec (pointIndex pts s).2 e a1
    obtain ⟨c1, c2, c3, c4, c5⟩ := edgeLoop_spec bs (i + 1) _ b1
    rw [edgeLoop]
    dsimp only
    refine ⟨c1, a3.trans (b3.trans c2), ?_, by simp [c4], ?_⟩
    · intro q
      rw [c3, b4, a4]
      constructor
      · rintro (((h | h) | h) | ⟨b, hb, h⟩)
        · exact Or.inl h
        · exact Or.inr ⟨(s, e), by simp, Or.inl h⟩
        · exact Or.inr ⟨(s, e), by simp, Or.inr h⟩
        · exact Or.inr ⟨b, by simp [hb], h⟩
      · rintro (h | ⟨b, hb, h⟩)
        · exact Or.inl (Or.inl (Or.inl h))
        · rw [List.mem_cons] at hb
          rcases hb with rfl | hb
          · rcases h with h | h
            · exact Or.inl (Or.inl (Or.inr h))
            · exact Or.inl (Or.inr h)
          · exact Or.inr ⟨b, hb, h⟩
    · intro j b hj
      cases j with
      | zero =>
        simp only [List.getElem?_cons_zero, Option.some.injEq] at hj
        subst hj
        exact ⟨_, _, rfl, prefix_get' (b3.trans c2) a2, prefix_get' c2 b2⟩
      | succ j =>
        obtain ⟨x, y, d1, d2, d3⟩ := c5 j b (by simpa using hj)
        exact ⟨x, y, by rw [List.getElem?_cons_succ, d1]; congr 2; omega, d2, d3⟩

/-- The points are the different end points of the boundaries, each once; edge `j` is on curve `j`
and its vertices are at the ends of that curve. -/
theorem C111_vertices (bounds : List (P × P)) :
    (surfToBrep bounds).2.Nodup ∧
    (∀ q, q ∈ (surfToBrep bounds).2 ↔ ∃ b ∈ bounds, q = b.1 ∨ q = b.2) ∧
    (surfToBrep bounds).1.length = bounds.length ∧
    ∀ (j : Nat) (b : P × P), bounds[j]? = some b → ∃ x y, (surfToBrep bounds).1[j]? = some (j, x, y) ∧
      (surfToBrep bounds).2[x]? = some b.1 ∧ (surfToBrep bounds).2[y]? = some b.2 := by
  obtain ⟨h1, -, h2, h3, h4⟩ := edgeLoop_spec bounds 0 [] List.nodup_nil
  refine ⟨h1, fun q => by rw [surfToBrep, h2]; simp, h3, ?_⟩
  intro j b hj
  obtain ⟨x, y, e1, e2, e3⟩ := h4 j b hj
  exact ⟨x, y, by rw [surfToBrep, e1, Nat.zero_add], e2, e3⟩

/-- Two ends of boundaries get the same vertex exactly when they are the same point. -/
theorem C111_shared (bounds : List (P × P)) (j k : Nat) (b c : P × P) (x y x' y' : Nat)
    (hb : bounds[j]? = some b) (hc : bounds[k]? = some c)
    (e : (surfToBrep bounds).1[j]? = some (j, x, y)) (f : (surfToBrep bounds).1[k]? = some (k, x', y')) :
    (x = x' ↔ b.1 = c.1) ∧ (y = x' ↔ b.2 = c.1) ∧ (y = y' ↔ b.2 = c.2) := by
  obtain ⟨nd, -, -, h⟩ := C111_vertices bounds
  obtain ⟨u, v, p1, p2, p3⟩ := h j b hb
  obtain ⟨u', v', q1, q2, q3⟩ := h k c hc
  rw [e] at p1; cases p1
  rw [f] at q1; cases q1
  have key : ∀ (m n : Nat) (p q : P), (surfToBrep bounds).2[m]? = some p →
      (surfToBrep bounds).2[n]? = some q → (m = n ↔ p = q) := by
    intro m n p q hm hn
    constructor
    · rintro rfl
      rw [hm] at hn
      exact Option.some.inj hn
    · rintro rfl
      have hl := (List.getElem?_eq_some_iff.1 hm).1
      exact (List.getElem?_inj hl nd).1 (hm.trans hn.symm)
  exact ⟨key _ _ _ _ p2 q2, key _ _ _ _ p3 q2, key _ _ _ _ p3 q3⟩

/-- The boundaries of a surface with corners `a, b, c, d` at `(0,0), (0,1), (1,0), (1,1)` in the order
of `extract_surface_boundaries` (boundary_intersection.py:34-39). -/
def boundaries (a b c d : P) : List (P × P) := [(a, b), (c, d), (a, c), (b, d)]

/-- For every surface with four different corners the loop is not a chain: the first and the second
edge have no vertex in common. -/
theorem C111_loop_refuted (a b c d : P) (h1 : a ≠ b) (h2 : a ≠ c) (h3 : a ≠ d) (h4 : b ≠ c)
    (h5 : b ≠ d) (h6 : c ≠ d) :
    (surfToBrep (boundaries a b c d)).1 = [(0, 0, 1), (1, 2, 3), (2, 0, 2), (3, 1, 3)] := by
  simp [surfToBrep, boundaries, edgeLoop, pointIndex, h1.symm, h2.symm, h3.symm, h4.symm, h5.symm,
    h6.symm, List.idxOf_cons, h1, h2, h3, h4, h5, h6]

example : surfToBrep (boundaries (0 : Nat) 1 2 3) =
    ([(0, 0, 1), (1, 2, 3), (2, 0, 2), (3, 1, 3)], [0, 1, 2, 3]) := by decide

/-- A surface with two corners at one point. -/
example : surfToBrep (boundaries (0 : Nat) 0 2 3) =
    ([(0, 0, 0), (1, 1, 2), (2, 0, 1), (3, 0, 2)], [0, 2, 3]) := by decide

end Verif.Brep
