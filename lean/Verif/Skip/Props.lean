import Verif.Skip.Lemmas2

/-! # Properties of the skip list and of the sorted sequence (C236–C239) -/

set_option linter.unusedSectionVars false
set_option linter.unusedVariables false

namespace Verif.Skip

variable {K V : Type} [LinearOrder K]

/-! ## Executions -/

/-- The operations which keep the order: `insert(key, inf)` with any height of the new node, and `delItem(lookup(key))`. -/
inductive Op (K V : Type) where
  | insert (k : K) (v : V) (r : ℕ)
  | delete (k : K)

/-- One operation; `none` is an exception. -/
def step (s : S K V) : Op K V → Option (S K V)
  | .insert k v r => (seqInsert s k v r).map Prod.fst
  | .delete k =>
    match lookup s k with
    | none => none
    | some none => some s
    | some (some n) => delItem s n

/-- A sequence of operations. -/
def run (s : S K V) : List (Op K V) → Option (S K V)
  | [] => some s
  | o :: os => (step s o).bind fun s' => run s' os

/-- The map the operations describe. -/
def spec (m : K → Option V) : List (Op K V) → K → Option V
  | [] => m
  | .insert k v _ :: os => spec (fun x => if x = k then some v else m x) os
  | .delete k :: os => spec (fun x => if x = k then none else m x) os

/-- The list of pairs represents the map. -/
def Rep (l : List (K × V)) (m : K → Option V) : Prop := ∀ k v, (k, v) ∈ l ↔ m k = some v

/-! ## The representation -/

theorem assoc_mem {s : S K V} {xs : List ℕ} {k : K} {v : V} : (k, v) ∈ assoc s xs ↔ ∃ n ∈ xs, s.key n = k ∧ s.data n = v := by
  unfold assoc
  simp only [List.mem_map, Prod.mk.injEq]

/-- State of the simulation. -/
structure Sim (s : S K V) (xs : List ℕ) (m : K → Option V) : Prop where
  inv : Inv s xs
  sorted : Sorted s xs
  rep : Rep (assoc s xs) m

theorem Sim.get {s : S K V} {xs : List ℕ} {m : K → Option V} (h : Sim s xs m) {n : ℕ} (hn : n ∈ xs) : m (s.key n) = some (s.data n) :=
  (h.rep _ _).1 (assoc_mem.2 ⟨n, hn, rfl, rfl⟩)

theorem Sim.absent {s : S K V} {xs : List ℕ} {m : K → Option V} (h : Sim s xs m) {k : K} (hk : m k = none) : ∀ x ∈ xs, s.key x ≠ k := by
  intro x hx he
  have := h.get hx
  rw [he, hk] at this
  exact absurd this (by simp)

theorem Sim.present {s : S K V} {xs : List ℕ} {m : K → Option V} (h : Sim s xs m) {k : K} {v : V} (hk : m k = some v) :
    ∃ n ∈ xs, s.key n = k ∧ s.data n = v := assoc_mem.1 ((h.rep k v).2 hk)

theorem sorted_inj {s : S K V} {xs : List ℕ} (hs : Sorted s xs) {a b : ℕ} (ha : a ∈ xs) (hb : b ∈ xs) (e : s.key a = s.key b) : a = b := by
  unfold Sorted at hs
  induction xs with
  | nil => exact absurd ha (by simp)
  | cons x xs ih =>
    obtain ⟨h1, h2⟩ := List.pairwise_cons.1 hs
    rcases List.mem_cons.1 ha with e1 | ha' <;> rcases List.mem_cons.1 hb with e2 | hb'
    · rw [e1, e2]
    · rw [e1] at e
      exact absurd e (h1 b hb').ne
    · rw [e2] at e
      exact absurd e.symm (h1 a ha').ne
    · exact ih h2 ha' hb'

theorem Sim.empty (k : K) (v : V) : Sim (Skip.empty k v) [] (fun _ => none : K → Option V) :=
  ⟨inv_empty k v, List.Pairwise.nil, by intro k v; simp [assoc]⟩

theorem sorted_split {s : S K V} {xs lo hi : List ℕ} {k : K} (hs : Sorted s xs) (sp : Split s xs lo hi k) (hk : ∀ x ∈ xs, s.key x ≠ k)
    {s' : S K V} {n : ℕ} (hn : n ∉ xs) (e : ∀ a, s'.key a = if a = n then k else s.key a) : Sorted s' (lo ++ n :: hi) := by
  have ne : ∀ x ∈ xs, s'.key x = s.key x := by
    intro x hx
    rw [e, if_neg (fun hh : x = n => hn (hh ▸ hx))]
  have en : s'.key n = k := by rw [e, if_pos rfl]
  have hlo : ∀ x ∈ lo, x ∈ xs := fun x hx => sp.eq ▸ List.mem_append_left _ hx
  have hhi : ∀ x ∈ hi, x ∈ xs := fun x hx => sp.eq ▸ List.mem_append_right _ hx
  unfold Sorted at hs ⊢
  have hs2 := hs
  rw [sp.eq, List.pairwise_append] at hs2
  obtain ⟨h1, h2, h3⟩ := hs2
  rw [List.pairwise_append, List.pairwise_cons]
  refine ⟨h1.imp_of_mem ?_, ⟨?_, h2.imp_of_mem ?_⟩, ?_⟩
  · intro a b ha hb hab
    rw [ne a (hlo a ha), ne b (hlo b hb)]
    exact hab
  · intro b hb
    rw [en, ne b (hhi b hb)]
    exact sp.hi b hb
  · intro a b ha hb hab
    rw [ne a (hhi a ha), ne b (hhi b hb)]
    exact hab
  · intro a ha b hb
    rcases List.mem_cons.1 hb with rfl | hb
    · rw [en, ne a (hlo a ha)]
      exact lt_of_le_of_ne (sp.lo a ha) (hk a (hlo a ha))
    · rw [ne a (hlo a ha), ne b (hhi b hb)]
      exact h3 a ha b hb

theorem sim_insert {s : S K V} {xs : List ℕ} {m : K → Option V} (h : Sim s xs m) (k : K) (v : V) (r : ℕ) :
    ∃ s' xs', step s (.insert k v r) = some s' ∧ Sim s' xs' (fun x => if x = k then some v else m x) := by
  simp only [step, seqInsert_eq]
  by_cases hk : ∃ n ∈ xs, s.key n = k
  · obtain ⟨n, hn, rfl⟩ := hk
    rw [insert_present h.inv h.sorted hn v r]
    refine ⟨_, xs, rfl, h.inv.data _, h.sorted, ?_⟩
    intro k' v'
    rw [assoc_mem]
    dsimp only
    by_cases hkk : k' = s.key n
    · rw [if_pos hkk]
      constructor
      · rintro ⟨x, hx, e1, e2⟩
        have : x = n := sorted_inj h.sorted hx hn (e1.trans hkk)
        rw [if_pos this] at e2
        rw [e2]
      · intro e
        injection e with e
        exact ⟨n, hn, hkk.symm, by rw [if_pos rfl, e]⟩
    · rw [if_neg hkk, ← h.rep k' v', assoc_mem]
      constructor
      · rintro ⟨x, hx, e1, e2⟩
        rw [if_neg (fun hh : x = n => hkk (by rw [← e1, hh]))] at e2
        exact ⟨x, hx, e1, e2⟩
      · rintro ⟨x, hx, e1, e2⟩
        exact ⟨x, hx, e1, by rw [if_neg (fun hh : x = n => hkk (by rw [← e1, hh]))]; exact e2⟩
  · push Not at hk
    obtain ⟨lo, hi, sp⟩ := split_exists h.sorted k
    obtain ⟨s', e1, i, ek, ed⟩ := insert_absent h.inv sp hk v r
    rw [e1]
    have hn := next_not_mem h.inv
    refine ⟨s', _, rfl, i, sorted_split h.sorted sp hk hn ek, ?_⟩
    have ne : ∀ x ∈ xs, x ≠ s.next := fun x hx hh => hn (hh ▸ hx)
    have mem : ∀ x, x ∈ lo ++ s.next :: hi ↔ x = s.next ∨ x ∈ xs := by
      intro x
      rw [sp.eq]
      simp only [List.mem_append, List.mem_cons]
      tauto
    intro k' v'
    rw [assoc_mem]
    dsimp only
    by_cases hkk : k' = k
    · rw [if_pos hkk]
      constructor
      · rintro ⟨x, hx, f1, f2⟩
        rcases (mem x).1 hx with hx | hx
        · rw [ed, if_pos hx] at f2
          rw [f2]
        · rw [ek, if_neg (ne x hx)] at f1
          exact absurd (f1.trans hkk) (hk x hx)
      · intro e
        injection e with e
        exact ⟨s.next, (mem _).2 (Or.inl rfl), by rw [ek, if_pos rfl, hkk], by rw [ed, if_pos rfl, e]⟩
    · rw [if_neg hkk, ← h.rep k' v', assoc_mem]
      constructor
      · rintro ⟨x, hx, f1, f2⟩
        rcases (mem x).1 hx with hx | hx
        · rw [ek, if_pos hx] at f1
          exact absurd f1.symm hkk
        · rw [ek, if_neg (ne x hx)] at f1
          rw [ed, if_neg (ne x hx)] at f2
          exact ⟨x, hx, f1, f2⟩
      · rintro ⟨x, hx, f1, f2⟩
        exact ⟨x, (mem x).2 (Or.inr hx), by rw [ek, if_neg (ne x hx), f1], by rw [ed, if_neg (ne x hx), f2]⟩

theorem lookup_present {s : S K V} {xs : List ℕ} (h : Inv s xs) (hs : Sorted s xs) {n : ℕ} (hn : n ∈ xs) : lookup s (s.key n) = some (some n) := by
  obtain ⟨lo, hi, e⟩ := List.append_of_mem hn
  obtain ⟨upd, e1, -⟩ := scan_present h hs e
  unfold lookup
  rw [e1]
  rfl

theorem lookup_absent {s : S K V} {xs : List ℕ} (h : Inv s xs) (hs : Sorted s xs) {k : K} (hk : ∀ x ∈ xs, s.key x ≠ k) :
    lookup s k = some none := by
  obtain ⟨lo, hi, sp⟩ := split_exists hs k
  obtain ⟨upd, e1, -⟩ := scan_absent h sp hk
  unfold lookup
  rw [e1]
  rfl

theorem sim_delete {s : S K V} {xs : List ℕ} {m : K → Option V} (h : Sim s xs m) (k : K) :
    ∃ s' xs', step s (.delete k) = some s' ∧ Sim s' xs' (fun x => if x = k then none else m x) := by
  simp only [step]
  by_cases hk : ∃ n ∈ xs, s.key n = k
  · obtain ⟨n, hn, rfl⟩ := hk
    rw [lookup_present h.inv h.sorted hn]
    dsimp only
    obtain ⟨lo, hi, e⟩ := List.append_of_mem hn
    have hi' := h.inv
    rw [e] at hi'
    obtain ⟨s', e1, i, ek, ed, -⟩ := delItem_spec hi'
    have hsub : ∀ x, x ∈ lo ++ hi ↔ x ∈ xs ∧ x ≠ n := by
      have hnd := List.nodup_middle.1 hi'.nodup
      intro x
      rw [e]
      have h1 := (List.nodup_cons.1 hnd).1
      constructor
      · intro hx
        refine ⟨?_, fun hh => h1 (hh ▸ hx)⟩
        simp only [List.mem_append, List.mem_cons] at hx ⊢
        tauto
      · rintro ⟨hx, hne⟩
        simp only [List.mem_append, List.mem_cons] at hx ⊢
        tauto
    refine ⟨s', lo ++ hi, e1, i, ?_, ?_⟩
    · have := h.sorted
      unfold Sorted at this ⊢
      rw [ek]
      refine this.sublist ?_
      rw [e]
      exact List.Sublist.append_left (List.sublist_cons_self _ _) _
    · intro k' v'
      rw [assoc_mem, ek, ed]
      beta_reduce
      by_cases hkk : k' = s.key n
      · rw [if_pos hkk]
        constructor
        · rintro ⟨x, hx, f1, f2⟩
          obtain ⟨g1, g2⟩ := (hsub x).1 hx
          exact absurd (sorted_inj h.sorted g1 hn (f1.trans hkk)) g2
        · intro hc
          exact absurd hc (by simp)
      · rw [if_neg hkk, ← h.rep k' v', assoc_mem]
        constructor
        · rintro ⟨x, hx, f1, f2⟩
          exact ⟨x, ((hsub x).1 hx).1, f1, f2⟩
        · rintro ⟨x, hx, f1, f2⟩
          exact ⟨x, (hsub x).2 ⟨hx, fun hh => hkk (by rw [← f1, hh])⟩, f1, f2⟩
  · push Not at hk
    rw [lookup_absent h.inv h.sorted hk]
    refine ⟨s, xs, rfl, h.inv, h.sorted, ?_⟩
    intro k' v'
    rw [h.rep]
    beta_reduce
    by_cases hkk : k' = k
    · rw [if_pos hkk, hkk]
      constructor
      · intro e
        obtain ⟨n, hn, e1, -⟩ := h.present e
        exact absurd e1 (hk n hn)
      · intro hc
        exact absurd hc (by simp)
    · rw [if_neg hkk]

theorem sim_run (ops : List (Op K V)) : ∀ (s : S K V) (xs : List ℕ) (m : K → Option V), Sim s xs m →
    ∃ s' xs', run s ops = some s' ∧ Sim s' xs' (spec m ops) := by
  induction ops with
  | nil => exact fun s xs m h => ⟨s, xs, rfl, h⟩
  | cons o ops ih =>
    intro s xs m h
    cases o with
    | insert k v r =>
      obtain ⟨s', xs', e, h'⟩ := sim_insert h k v r
      obtain ⟨s2, xs2, e2, h2⟩ := ih s' xs' _ h'
      refine ⟨s2, xs2, ?_, h2⟩
      unfold run
      rw [e]
      exact e2
    | delete k =>
      obtain ⟨s', xs', e, h'⟩ := sim_delete h k
      obtain ⟨s2, xs2, e2, h2⟩ := ih s' xs' _ h'
      refine ⟨s2, xs2, ?_, h2⟩
      unfold run
      rw [e]
      exact e2

theorem sim_of_run {ops : List (Op K V)} {k0 : K} {v0 : V} {s : S K V} (hr : run (empty k0 v0) ops = some s) :
    ∃ xs, Sim s xs (spec (fun _ => none) ops) := by
  obtain ⟨s', xs', e, h⟩ := sim_run ops _ _ _ (Sim.empty k0 v0)
  rw [hr] at e
  injection e with e
  exact ⟨xs', e ▸ h⟩

theorem eq_of_sorted : ∀ l l' : List (K × V), l.Pairwise (fun p q => p.1 < q.1) → l'.Pairwise (fun p q => p.1 < q.1) →
    (∀ p, p ∈ l ↔ p ∈ l') → l = l'
  | [], [], _, _, _ => rfl
  | [], q :: l', _, _, h => absurd ((h q).2 List.mem_cons_self) (by simp)
  | p :: l, [], _, _, h => absurd ((h p).1 List.mem_cons_self) (by simp)
  | p :: l, q :: l', h1, h2, h => by
    obtain ⟨a1, a2⟩ := List.pairwise_cons.1 h1
    obtain ⟨b1, b2⟩ := List.pairwise_cons.1 h2
    have hpq : p = q := by
      rcases List.mem_cons.1 ((h p).1 List.mem_cons_self) with e | e
      · exact e
      · rcases List.mem_cons.1 ((h q).2 List.mem_cons_self) with e' | e'
        · exact e'.symm
        · exact absurd (lt_trans (b1 p e) (a1 q e')) (lt_irrefl _)
    subst hpq
    congr 1
    refine eq_of_sorted l l' a2 b2 fun r => ⟨fun hr => ?_, fun hr => ?_⟩
    · rcases List.mem_cons.1 ((h r).1 (List.mem_cons_of_mem _ hr)) with e | e
      · exact absurd (e ▸ a1 r hr) (lt_irrefl _)
      · exact e
    · rcases List.mem_cons.1 ((h r).2 (List.mem_cons_of_mem _ hr)) with e | e
      · exact absurd (e ▸ b1 r hr) (lt_irrefl _)
      · exact e

/-! ## C236: a sorted map -/

/-- C236: whatever heights the new nodes get, a sequence of insertions and deletions raises nothing; iteration then gives
the pairs of the described map in increasing order of keys, and the length is the number of them. -/
theorem C236_items (ops : List (Op K V)) (k0 : K) (v0 : V) : ∃ s l, run (empty k0 v0) ops = some s ∧ items s = some l ∧
    l.Pairwise (fun p q => p.1 < q.1) ∧ (∀ k v, (k, v) ∈ l ↔ spec (fun _ => none) ops k = some v) ∧ s.size = l.length := by
  obtain ⟨s, xs, e, h⟩ := sim_run ops _ _ _ (Sim.empty k0 v0)
  refine ⟨s, assoc s xs, e, h.inv.items, ?_, h.rep, ?_⟩
  · unfold assoc
    rw [List.pairwise_map]
    exact h.sorted
  · rw [h.inv.size]
    simp [assoc]

/-- C236: indexing by a key gives the value of the described map, or `None`. -/
theorem C236_getitem (ops : List (Op K V)) (k0 : K) (v0 : V) (s : S K V) (hr : run (empty k0 v0) ops = some s) (k : K) :
    getItem s k = some (spec (fun _ => none) ops k) := by
  obtain ⟨xs, h⟩ := sim_of_run hr
  unfold getItem
  cases e : spec (fun _ => none) ops k with
  | some v =>
    obtain ⟨n, hn, f1, f2⟩ := h.present e
    obtain ⟨lo, hi, e⟩ := List.append_of_mem hn
    obtain ⟨upd, e1, -⟩ := scan_present h.inv h.sorted e
    rw [← f1, e1, ← f2]
    rfl
  | none =>
    obtain ⟨lo, hi, sp⟩ := split_exists h.sorted k
    obtain ⟨upd, e1, -⟩ := scan_absent h.inv sp (h.absent e)
    rw [e1]
    rfl

/-- C236: the heights do not matter. -/
theorem C236_heights (ops ops' : List (Op K V)) (k0 : K) (v0 : V)
    (he : List.Forall₂ (fun o o' => (∃ k v r r', o = .insert k v r ∧ o' = .insert k v r') ∨ ∃ k, o = .delete k ∧ o' = .delete k) ops ops')
    (s s' : S K V) (hr : run (empty k0 v0) ops = some s) (hr' : run (empty k0 v0) ops' = some s') : items s = items s' := by
  obtain ⟨xs, h⟩ := sim_of_run hr
  obtain ⟨xs', h'⟩ := sim_of_run hr'
  have hspec : ∀ m : K → Option V, spec m ops = spec m ops' := by
    clear hr hr' h h'
    induction he with
    | nil => intro m; rfl
    | cons ho _ ih =>
      intro m
      rcases ho with ⟨k, v, r, r', rfl, rfl⟩ | ⟨k, rfl, rfl⟩
      · exact ih _
      · exact ih _
  rw [h.inv.items, h'.inv.items]
  congr 1
  have hp : ∀ {s : S K V} {xs : List ℕ}, Sorted s xs → (assoc s xs).Pairwise (fun p q => p.1 < q.1) := by
    intro s xs h
    unfold assoc
    rw [List.pairwise_map]
    exact h
  refine eq_of_sorted _ _ (hp h.sorted) (hp h'.sorted) ?_
  rintro ⟨k, v⟩
  rw [h.rep, h'.rep, hspec]

end Verif.Skip
