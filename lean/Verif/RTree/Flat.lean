import Verif.RTree.Lemmas
import Mathlib.Tactic.Ring
import Mathlib.Algebra.Order.Ring.Nat

/-! Trees whose root is a leaf or has only leaves below it: there the cached rectangles are exact. -/

namespace Verif.RTree
variable {K : Type} [CommRing K] [LinearOrder K]

/-- A leaf node below the root: its cached rectangle is the union of its entries and it has at least `m` of them. -/
def TightLeaf (m : Nat) (c : Tree K) : Prop :=
  ∃ b es, c = .leaf (some b) es ∧ unionAll some es = some b ∧ m ≤ es.length

def Flat (m : Nat) : Tree K → Prop
  | .leaf _ _ => True
  | .inner _ cs => ∀ c ∈ cs, TightLeaf m c

theorem tight_of_unionAll (m : Nat) (hm : 0 < m) (es : List (Rect K)) (h : m ≤ es.length) :
    TightLeaf m (.leaf (unionAll some es) es) := by
  obtain ⟨c, hc, _⟩ := unionAll_spec (some : Rect K → Option (Rect K)) es (by rintro rfl; simp at h; omega) (by simp)
  exact ⟨c, es, by rw [hc], hc, h⟩

theorem flat_count (m : Nat) (cs : List (Tree K)) (h : ∀ c ∈ cs, TightLeaf m c) :
    m * cs.length ≤ (entriesL cs).length := by
  induction cs with
  | nil => simp
  | cons c cs ih =>
    obtain ⟨b, es, rfl, _, hl⟩ := h c List.mem_cons_self
    have := ih (fun x hx => h x (List.mem_cons_of_mem _ hx))
    simp only [entriesL, entries, List.length_append, List.length_cons, Nat.mul_add]
    omega

/-- Inserting into a leaf gives one or two tight leaves. -/
theorem insert_leaf_tight (M m : Nat) (hm : 0 < m) (hM : 2 * m ≤ M + 1) (r : Rect K) (f : Nat) (mb : Option (Rect K))
    (es : List (Rect K)) (t' : Tree K) (sib : Option (Tree K))
    (h : insertTree M m r (f + 1) (.leaf mb es) = some (t', sib)) :
    (m ≤ es.length → TightLeaf m t') ∧ (∀ s, sib = some s → TightLeaf m t' ∧ TightLeaf m s) := by
  simp only [insertTree] at h
  split at h
  · rename_i hlen
    obtain ⟨a, b, e, hp, ha, hb⟩ := split_spec (some : Rect K → Option (Rect K)) m hm (es ++ [r]) (by omega) (by simp)
    simp only [e, Option.bind_eq_bind, Option.bind_some, Option.some.injEq, Prod.mk.injEq] at h
    obtain ⟨rfl, rfl⟩ := h
    refine ⟨fun _ => tight_of_unionAll m hm a ha, ?_⟩
    rintro s ⟨⟩
    exact ⟨tight_of_unionAll m hm a ha, tight_of_unionAll m hm b hb⟩
  · simp only [Option.some.injEq, Prod.mk.injEq] at h
    obtain ⟨rfl, rfl⟩ := h
    exact ⟨fun hl => tight_of_unionAll m hm _ (by simp; omega), by simp⟩

theorem insert_flat (M m : Nat) (hm : 0 < m) (hM : 2 * m ≤ M + 1) (t t2 : Tree K) (hf : Flat m t) (hr : Root t)
    (r : Rect K) (hn : (entries t).length + 1 < m * (M + 1)) (h : insert M m t r = some t2) : Flat m t2 := by
  obtain ⟨t3, e3, _, hperm⟩ := insert_spec M m hm hM t hr r
  rw [h] at e3
  cases e3
  have hcount : (entries t2).length = (entries t).length + 1 := by simpa using hperm.length_eq
  unfold insert at h
  simp only [Option.bind_eq_bind, Option.bind_eq_some_iff] at h
  obtain ⟨⟨t', sib⟩, e, h⟩ := h
  cases t with
  | leaf mb es =>
    obtain ⟨h1, h2⟩ := insert_leaf_tight M m hm hM r 0 mb es t' sib e
    cases sib with
    | none =>
      simp only [Option.some.injEq] at h
      subst h
      simp only [depth, insertTree] at e
      split at e
      · rw [Option.bind_eq_bind, Option.bind_eq_some_iff] at e
        obtain ⟨_, _, e⟩ := e
        simp at e
      · simp only [Option.some.injEq, Prod.mk.injEq] at e
        obtain ⟨rfl, _⟩ := e
        trivial
    | some s =>
      obtain ⟨h3, h4⟩ := h2 s rfl
      obtain ⟨b, es', rfl, hb⟩ := h3
      simp only [attach, Option.some.injEq] at h
      subst h
      intro c hc
      simp only [List.mem_cons, List.not_mem_nil, or_false] at hc
      rcases hc with rfl | rfl
      · exact ⟨b, es', rfl, hb⟩
      · exact h4
  | inner mb cs =>
    simp only [depth, insertTree, Option.bind_eq_bind, Option.bind_eq_some_iff] at e
    obtain ⟨best, _, ⟨j, v⟩, _, c, hc, ⟨c', sib'⟩, e', he⟩ := e
    simp only [Option.some.injEq, Prod.mk.injEq] at he
    obtain ⟨rfl, rfl⟩ := he
    have hcm : c ∈ cs := List.mem_of_getElem? hc
    obtain ⟨b, es, rfl, hbs, hl⟩ := hf c hcm
    have hd : ∃ f, depthL cs = f + 1 := by
      have := depth_mem hcm
      simp only [depth] at this
      exact ⟨depthL cs - 1, by omega⟩
    obtain ⟨f, hd⟩ := hd
    rw [hd] at e'
    obtain ⟨h1, h2⟩ := insert_leaf_tight M m hm hM r f (some b) es c' sib' e'
    have hset : ∀ x ∈ cs.set j c', TightLeaf m x := by
      intro x hx
      rcases List.mem_or_eq_of_mem_set hx with hx | rfl
      · exact hf x hx
      · exact h1 hl
    cases sib' with
    | none =>
      simp only [Option.some.injEq] at h
      subst h
      exact hset
    | some s =>
      have hall : ∀ x ∈ cs.set j c' ++ [s], TightLeaf m x := by
        intro x hx
        rcases List.mem_append.1 hx with hx | hx
        · exact hset x hx
        · rw [List.mem_singleton.1 hx]; exact (h2 s rfl).2
      simp only [attach, Option.bind_eq_bind, Option.bind_eq_some_iff] at h
      obtain ⟨mb', _, h⟩ := h
      split at h
      · exfalso
        rename_i hlen
        rw [Option.bind_eq_some_iff] at h
        obtain ⟨⟨a, b'⟩, hsp, h⟩ := h
        simp only [Option.some.injEq] at h
        obtain ⟨a', b'', e2, hp, _, _⟩ := split_spec Tree.mbr m hm (cs.set j c' ++ [s]) (by omega) (fun x hx => by
          obtain ⟨b, es, rfl, _⟩ := hall x hx
          simp [Tree.mbr])
        rw [e2] at hsp
        simp only [Option.some.injEq, Prod.mk.injEq] at hsp
        obtain ⟨rfl, rfl⟩ := hsp
        have hc1 := flat_count m _ hall
        have hc2 := (entriesL_perm hp).length_eq
        rw [← h] at hcount
        simp only [entries, entriesL, List.append_nil] at hcount
        rw [← entriesL_append, hc2] at hcount
        have : m * (M + 1) ≤ m * (cs.set j c' ++ [s]).length := Nat.mul_le_mul_left m hlen
        simp only [entries] at hn
        omega
      · simp only [Option.some.injEq] at h
        subst h
        exact hall

theorem run_flat (M m : Nat) (hm : 0 < m) (hM : 2 * m ≤ M + 1) (rs : List (Rect K)) : ∀ (t t2 : Tree K), Flat m t → Root t →
    (entries t).length + rs.length < m * (M + 1) → run M m t rs = some t2 → Flat m t2 := by
  induction rs with
  | nil => intro t t2 hf _ _ h; simp only [run, Option.some.injEq] at h; exact h ▸ hf
  | cons r rs ih =>
    intro t t2 hf hr hn h
    obtain ⟨t1, e1, h1, p1⟩ := insert_spec M m hm hM t hr r
    simp only [run, e1, Option.bind_some] at h
    have hl := p1.length_eq
    simp only [List.length_append, List.length_cons, List.length_nil] at hl hn
    exact ih t1 t2 (insert_flat M m hm hM t t1 hf hr r (by omega) e1) h1 (by omega) h

theorem searchL_flat (m : Nat) (q : Rect K) (cs : List (Tree K)) (h : ∀ c ∈ cs, TightLeaf m c) :
    searchL q cs = some ((entriesL cs).filter (fun e => e.intersect q)) := by
  induction cs with
  | nil => simp [searchL, entriesL]
  | cons c cs ih =>
    obtain ⟨b, es, rfl, hb, hl⟩ := h c List.mem_cons_self
    have ih := ih (fun x hx => h x (List.mem_cons_of_mem _ hx))
    simp only [searchL, Tree.mbr, entriesL, entries, List.filter_append, search, ih]
    split
    · rfl
    · rename_i hq
      cases es with
      | nil => simp
      | cons e0 es0 =>
        obtain ⟨c', hc', hcov⟩ := unionAll_spec (some : Rect K → Option (Rect K)) (e0 :: es0) (by simp) (by simp)
        rw [hb] at hc'
        cases hc'
        have : (e0 :: es0).filter (fun e => e.intersect q) = [] := by
          rw [List.filter_eq_nil_iff]
          intro x hx hi
          exact hq ((hcov x hx x rfl).intersect hi)
        rw [this, List.nil_append]

theorem search_flat (m : Nat) (q : Rect K) (t : Tree K) (h : Flat m t) :
    search q t = some ((entries t).filter (fun e => e.intersect q)) := by
  cases t with
  | leaf mb es => rfl
  | inner mb cs => simp only [search, entries]; exact searchL_flat m q cs h

end Verif.RTree
