import Verif.Poly.Model2
import Mathlib.Algebra.Order.Field.Rat
import Mathlib.Data.List.Basic
import Mathlib.Tactic.Ring
import Mathlib.Tactic.LinearCombination
import Mathlib.Tactic.Linarith
import Mathlib.Tactic.SplitIfs
import Mathlib.Tactic.NormNum

/-!
# C408, C409: removal of flat vertices, unions of collections
-/

set_option linter.unusedSectionVars false

namespace Verif.Poly

section Loop

variable {P : Type} (fl : P → P → P → Bool) (d : P)

theorem head_eraseIdx (r : List P) (k : Nat) : (r.eraseIdx (k + 1)).head? = r.head? := by
  cases r <;> rfl

/-- Anything kept by the removal of a flat vertex holds at the end, and the loop ends. -/
theorem refineLoop_inv (I : List P → Prop)
    (hI : ∀ r k, k + 1 < r.length → fl (r.getD k d) (r.getD (k + 1) d) (r.getD ((k + 2) % r.length) d) = true → I r →
      I (r.eraseIdx (k + 1))) :
    ∀ (fuel : Nat) (r : List P) (k : Nat), k < r.length → r.length * r.length + (r.length - k) < fuel → I r →
      ∃ r', refineLoop fl d fuel r k = some r' ∧ I r' := by
  intro fuel
  induction fuel with
  | zero => intro r k _ h; omega
  | succ fuel ih =>
    intro r k hk hf h
    simp only [refineLoop]
    by_cases h0 : k + 1 = r.length
    · rw [if_pos h0]; exact ⟨r, rfl, h⟩
    · rw [if_neg h0]
      by_cases h1 : fl (r.getD k d) (r.getD (k + 1) d) (r.getD ((k + 2) % r.length) d) = true
      · rw [if_pos h1]
        have hl : (r.eraseIdx (k + 1)).length = r.length - 1 := List.length_eraseIdx_of_lt (by omega)
        refine ih _ _ ?_ ?_ (hI r k (by omega) h1 h)
        · rw [hl]; split_ifs <;> omega
        · rw [hl]
          obtain ⟨m, hm⟩ : ∃ m, r.length = m + 1 := ⟨r.length - 1, by omega⟩
          rw [hm] at hf ⊢
          simp only [Nat.add_sub_cancel]
          have : (m + 1) * (m + 1) = m * m + 2 * m + 1 := by ring
          split_ifs <;> omega
      · rw [if_neg h1]
        exact ih _ _ (by omega) (by omega) h

theorem refine_inv (I : List P → Prop)
    (hI : ∀ r k, k + 1 < r.length → fl (r.getD k d) (r.getD (k + 1) d) (r.getD ((k + 2) % r.length) d) = true → I r →
      I (r.eraseIdx (k + 1))) (r : List P) (hr : r ≠ []) (h : I r) : ∃ r', refine fl d r = some r' ∧ I r' := by
  unfold refine
  rw [if_neg hr]
  have : 0 < r.length := List.length_pos_iff.2 hr
  exact refineLoop_inv fl d I hI _ r 0 this (by omega) h

/-- C408: `refine` ends for every polygon with a vertex, whatever the test is; the vertices left are vertices of the polygon in the same
order, and the first vertex is kept. -/
theorem C408_ends (r : List P) (hr : r ≠ []) :
    ∃ r', refine fl d r = some r' ∧ r'.Sublist r ∧ r'.head? = r.head? := by
  refine refine_inv fl d (fun q => q.Sublist r ∧ q.head? = r.head?) ?_ r hr ⟨List.Sublist.refl _, rfl⟩
  intro q k _ _ h
  exact ⟨(List.eraseIdx_sublist _ _).trans h.1, (head_eraseIdx q k).trans h.2⟩

theorem refineLoop_none : ∀ (fuel : Nat) (r : List P) (k : Nat), k < r.length → r.length - k ≤ fuel →
    (∀ j, k ≤ j → j + 1 < r.length → fl (r.getD j d) (r.getD (j + 1) d) (r.getD ((j + 2) % r.length) d) = false) →
    refineLoop fl d fuel r k = some r := by
  intro fuel
  induction fuel with
  | zero => intro r k _ h; omega
  | succ fuel ih =>
    intro r k hk hf h
    simp only [refineLoop]
    by_cases h0 : k + 1 = r.length
    · rw [if_pos h0]
    · rw [if_neg h0, h k (le_refl _) (by omega)]
      simp only [Bool.false_eq_true, if_false]
      exact ih r (k + 1) (by omega) (by omega) fun j hj => h j (by omega)

/-- C408: the first vertex is never looked at: when no other vertex is flat the polygon stays as it is, also when the first one is. -/
theorem C408_head_refuted (r : List P) (hr : r ≠ [])
    (h : ∀ j, j + 1 < r.length → fl (r.getD j d) (r.getD (j + 1) d) (r.getD ((j + 2) % r.length) d) = false) :
    refine fl d r = some r := by
  unfold refine
  rw [if_neg hr]
  have : 0 < r.length := List.length_pos_iff.2 hr
  exact refineLoop_none fl d _ r 0 this (by omega) fun j _ => h j

/-- C408: the vertex after a removed one is not looked at: of two flat vertices in a row the second one stays. -/
theorem C408_second_refuted (a p q b c : P) (hp : fl a p q = true) (hb : fl q b c = false) (hc : fl b c a = false) :
    refine fl d [a, p, q, b, c] = some [a, q, b, c] := by
  simp [refine, refineLoop, hp, hb, hc]

end Loop

section Area

variable {K : Type} [Field K] [LinearOrder K]

/-- The sum of the cross products of neighbours. -/
def chain : List (K × K) → K
  | a :: b :: t => (a.2 * b.1 - a.1 * b.2) + chain (b :: t)
  | _ => 0

theorem foldl_add (l : List K) : ∀ s : K, l.foldl (· + ·) s = s + l.foldl (· + ·) 0 := by
  induction l with
  | nil => intro s; simp
  | cons a l ih => intro s; rw [List.foldl_cons, List.foldl_cons, ih (s + a), ih (0 + a)]; ring

theorem dot_cons (a b : K) (l m : List K) : dot (a :: l) (b :: m) = a * b + dot l m := by
  unfold dot
  rw [List.zipWith_cons_cons, List.foldl_cons, foldl_add]
  ring

theorem refine_dots_chain : ∀ l : List (K × K),
    dot ((l.take (l.length - 1)).map (·.2)) ((l.drop 1).map (·.1)) - dot ((l.take (l.length - 1)).map (·.1)) ((l.drop 1).map (·.2)) = chain l := by
  intro l
  induction l with
  | nil => simp [dot, chain]
  | cons a t ih =>
    cases t with
    | nil => simp [dot, chain]
    | cons b t =>
      simp only [List.length_cons, Nat.add_sub_cancel, List.take_succ_cons, List.map_cons, List.drop_succ_cons, List.drop_zero] at ih ⊢
      rw [dot_cons, dot_cons]
      simp only [chain]
      linear_combination ih

theorem chain_erase : ∀ (l : List (K × K)) (k : Nat) (d : K × K), k + 2 < l.length → flat (l.getD k d) (l.getD (k + 1) d) (l.getD (k + 2) d) = true →
    chain (l.eraseIdx (k + 1)) = chain l := by
  intro l
  induction l with
  | nil => intro k d h; simp at h
  | cons a t ih =>
    intro k d h hf
    cases k with
    | zero =>
      match t, h, hf with
      | b :: c :: t, _, hf =>
        simp only [List.getD_cons_zero, List.getD_cons_succ, Nat.zero_add, flat, decide_eq_true_eq] at hf
        simp only [Nat.zero_add, List.eraseIdx_cons_succ, List.eraseIdx_cons_zero, chain]
        linear_combination -hf.2.2
    | succ k =>
      have e := ih k d (by simp only [List.length_cons] at h; omega) (by simpa using hf)
      match t, h, e with
      | b :: t, h, e =>
        cases t with
        | nil => simp at h
        | cons c t =>
          simp only [List.eraseIdx_cons_succ] at e ⊢
          simp only [chain] at e ⊢
          rw [e]

/-- C408: the area of the polygon (`Polygon.area`) is not changed by the removal of flat vertices. -/
theorem C408_area (r : List (K × K)) (d : K × K) (hr : r ≠ []) :
    ∃ r', refine flat d r = some r' ∧ areaOf r' = areaOf r := by
  obtain ⟨h, t, rfl⟩ := List.exists_cons_of_ne_nil hr
  have key : ∀ q : List (K × K), q.head? = some h → areaOf q = some (|chain (q ++ [h])| / 2) := by
    intro q hq
    cases q with
    | nil => simp at hq
    | cons a s =>
      simp only [List.head?_cons, Option.some.injEq] at hq
      subst hq
      simp only [areaOf, toPolygonArea, polygonArea, Option.map_some]
      rw [refine_dots_chain]
  obtain ⟨r', e, h1, h2⟩ := refine_inv flat d (fun q => q.head? = some h ∧ chain (q ++ [h]) = chain (h :: t ++ [h])) (by
    intro q k hk hfl hq
    refine ⟨(head_eraseIdx q k).trans hq.1, ?_⟩
    rw [← hq.2, ← List.eraseIdx_append_of_lt_length (by omega)]
    refine chain_erase _ k d (by simp only [List.length_append, List.length_singleton]; omega) ?_
    have g1 : ∀ i, i < q.length → (q ++ [h]).getD i d = q.getD i d := by
      intro i hi
      rw [List.getD_eq_getElem?_getD, List.getD_eq_getElem?_getD, List.getElem?_append_left hi]
    have g2 : (q ++ [h]).getD (k + 2) d = q.getD ((k + 2) % q.length) d := by
      by_cases hl : k + 2 = q.length
      · rw [hl, Nat.mod_self, List.getD_eq_getElem?_getD, List.getD_eq_getElem?_getD, List.getElem?_append_right (le_refl _),
          ← List.head?_eq_getElem?, hq.1]
        simp
      · rw [Nat.mod_eq_of_lt (by omega), g1 _ (by omega)]
    rw [g1 k (by omega), g1 (k + 1) hk, g2]
    exact hfl) (h :: t) hr ⟨rfl, rfl⟩
  exact ⟨r', e, by rw [key r' h1, key (h :: t) rfl, h2]⟩

/-- C408: a vertex anywhere on the line through its neighbours is flat, also beyond them, so that the tip of a spike is removed. -/
theorem C408_spike_refuted [IsStrictOrderedRing K] (a b c e : K × K) (t : K) (hab : a ≠ b) (h0 : t ≠ 0) (h1 : t ≠ 1)
    (hc : flat b c e = false) (he : flat c e a = false) :
    refine flat a [a, (a.1 + t * (b.1 - a.1), a.2 + t * (b.2 - a.2)), b, c, e] = some [a, b, c, e] := by
  have hab' : b.1 - a.1 ≠ 0 ∨ b.2 - a.2 ≠ 0 := by
    by_contra hcon
    push Not at hcon
    exact hab (Prod.ext (by linarith [hcon.1]) (by linarith [hcon.2]))
  refine C408_second_refuted flat a a _ b c e ?_ hc he
  simp only [flat, decide_eq_true_eq]
  refine ⟨?_, ?_, by ring⟩
  · intro h
    rw [Prod.ext_iff] at h
    simp only [left_eq_add, mul_eq_zero] at h
    rcases hab' with h' | h'
    · rcases h.1 with h | h
      · exact h0 h
      · exact h' h
    · rcases h.2 with h | h
      · exact h0 h
      · exact h' h
  · intro h
    rw [Prod.ext_iff] at h
    simp only at h
    have e1 : (t - 1) * (b.1 - a.1) = 0 := by linear_combination h.1
    have e2 : (t - 1) * (b.2 - a.2) = 0 := by linear_combination h.2
    have ht : t - 1 ≠ 0 := fun h => h1 (by linear_combination h)
    rcases hab' with h' | h'
    · exact h' ((mul_eq_zero.1 e1).resolve_left ht)
    · exact h' ((mul_eq_zero.1 e2).resolve_left ht)

-- a square with a flat vertex on two sides; one with two flat vertices in a row; one whose first vertex is flat; one with a spike
example : refine flat (0, 0) [((0 : ℚ), (0 : ℚ)), (1, 0), (4, 0), (4, 4), (2, 4), (0, 4)] = some [(0, 0), (4, 0), (4, 4), (0, 4)] := by
  decide +kernel
example : refine flat (0, 0) [((0 : ℚ), (0 : ℚ)), (1, 0), (2, 0), (4, 0), (4, 4), (0, 4)] =
    some [(0, 0), (2, 0), (4, 0), (4, 4), (0, 4)] := by decide +kernel
example : refine flat (0, 0) [((2 : ℚ), (0 : ℚ)), (4, 0), (4, 4), (0, 4), (0, 0)] = some [(2, 0), (4, 0), (4, 4), (0, 4), (0, 0)] := by
  decide +kernel
example : flat ((0 : ℚ), (0 : ℚ)) (2, 0) (4, 0) = true := by decide +kernel
example : refine flat (0, 0) [((0 : ℚ), (0 : ℚ)), (9, 0), (4, 0), (4, 4), (0, 4)] = some [(0, 0), (4, 0), (4, 4), (0, 4)] := by decide +kernel

end Area

section Union

variable {P : Type} (un : P → P → List P)

theorem firstUnion_none (p : P) (rest : List P) (h : ∀ q ∈ rest, (un q p).length ≠ 1) : ∀ i, firstUnion un p i rest = none := by
  induction rest with
  | nil => intro i; rfl
  | cons q rest ih =>
    intro i
    have hq := h q (by simp)
    simp only [firstUnion]
    split
    · rename_i u hu
      rw [hu] at hq
      simp at hq
    · exact ih (fun x hx => h x (by simp [hx])) _

/-- C409: `_union` only tries the first polygon: when that has no union with another one, all polygons are given back as they are, also
when two of the others overlap. -/
theorem C409_others_refuted (p : P) (rest : List P) (h : ∀ q ∈ rest, (un q p).length ≠ 1) : unionAll un (p :: rest) = some (rest, [p]) := by
  simp only [unionAll, firstUnion_none un p rest h]

/-- C409: what is left after `_union` are at most one polygon less than before. -/
theorem C409_one_refuted (ps : List P) (a b : List P) (h : unionAll un ps = some (a, b)) :
    ps.length ≤ a.length + b.length + 1 ∧ a.length + b.length ≤ ps.length := by
  cases ps with
  | nil => simp [unionAll] at h
  | cons p rest =>
    simp only [unionAll] at h
    split at h <;> · simp only [Option.some.injEq, Prod.mk.injEq] at h
                     obtain ⟨rfl, rfl⟩ := h
                     simp

theorem firstUnion_some (p : P) (rest : List P) : ∀ i j u, firstUnion un p i rest = some (j, u) →
    i ≤ j ∧ j - i < rest.length ∧ ∃ q, rest[j - i]? = some q ∧ un q p = [u] ∧ ∀ k, k < j - i → ∀ q', rest[k]? = some q' → (un q' p).length ≠ 1 := by
  induction rest with
  | nil => intro i j u h; simp [firstUnion] at h
  | cons q rest ih =>
    intro i j u h
    simp only [firstUnion] at h
    split at h
    · rename_i v hv
      simp only [Option.some.injEq, Prod.mk.injEq] at h
      obtain ⟨rfl, rfl⟩ := h
      exact ⟨le_refl _, by simp, q, by simp, hv, fun k hk => by omega⟩
    · rename_i hne
      obtain ⟨h1, h2, q', h3, h4, h5⟩ := ih (i + 1) j u h
      obtain ⟨m, hm⟩ : ∃ m, j - i = m + 1 := ⟨j - i - 1, by omega⟩
      have hm' : j - (i + 1) = m := by omega
      rw [hm'] at h2 h3 h5
      rw [hm]
      refine ⟨by omega, by simpa using h2, q', by simpa using h3, h4, ?_⟩
      intro k hk q'' hq''
      cases k with
      | zero =>
        simp only [List.getElem?_cons_zero, Option.some.injEq] at hq''
        subst hq''
        intro hl
        obtain ⟨w, hw⟩ := List.length_eq_one_iff.1 hl
        exact hne w hw
      | succ k => exact h5 k (by omega) q'' (by simpa using hq'')

/-- C409: the first polygon is united with the first one of the others with which it makes one polygon. -/
theorem C409_first_partial (p : P) (rest : List P) (q u : P) (i : Nat) (hq : rest[i]? = some q) (hu : un q p = [u])
    (hb : ∀ k, k < i → ∀ q', rest[k]? = some q' → (un q' p).length ≠ 1) : unionAll un (p :: rest) = some (rest.set i u, []) := by
  simp only [unionAll]
  cases hf : firstUnion un p 0 rest with
  | none =>
    exfalso
    have : ∀ (l : List P) (m : Nat), q ∈ l → firstUnion un p m l ≠ none := by
      intro l
      induction l with
      | nil => intro m h; simp at h
      | cons x l ih =>
        intro m h
        simp only [firstUnion]
        rcases List.mem_cons.1 h with rfl | h
        · rw [hu]; simp
        · split
          · simp
          · exact ih _ h
    exact this rest 0 (List.mem_of_getElem? hq) hf
  | some r =>
    obtain ⟨j, v⟩ := r
    obtain ⟨_, h2, q', h3, h4, h5⟩ := firstUnion_some un p rest 0 j v hf
    simp only [Nat.sub_zero] at h2 h3 h5
    have hji : j = i := by
      rcases Nat.lt_trichotomy j i with h | h | h
      · exact absurd (by rw [h4]; rfl) (hb j h q' h3)
      · exact h
      · exact absurd (by rw [hu]; rfl) (h5 i h q hq)
    subst hji
    rw [hq] at h3
    simp only [Option.some.injEq] at h3
    subst h3
    rw [hu] at h4
    simp only [List.cons.injEq, and_true] at h4
    subst h4
    rfl

-- intervals as polygons: the first one apart from the others, which overlap; and the first one overlapping the second of the others
example : unionAll (fun a b : ℕ × ℕ => if a.1 ≤ b.2 ∧ b.1 ≤ a.2 then [(min a.1 b.1, max a.2 b.2)] else [a, b])
    [(0, 1), (5, 8), (6, 9)] = some ([(5, 8), (6, 9)], [(0, 1)]) := by decide
example : unionAll (fun a b : ℕ × ℕ => if a.1 ≤ b.2 ∧ b.1 ≤ a.2 then [(min a.1 b.1, max a.2 b.2)] else [a, b])
    [(0, 4), (5, 8), (3, 4)] = some ([(5, 8), (0, 4)], []) := by decide

end Union

end Verif.Poly
