import Verif.Avl.Lemmas

namespace Verif.Avl
variable {K D : Type} [LinearOrder K]
namespace Tree

/-- Keys strictly increase along a list of entries. -/
def SortedL (l : List (K × D)) : Prop := l.Pairwise (fun a b => a.1 < b.1)

theorem sortedL_mid (A B : List (K × D)) (k : K) (d : D) :
    SortedL (A ++ (k, d) :: B) ↔
      SortedL A ∧ SortedL B ∧ (∀ a ∈ A, a.1 < k) ∧ (∀ b ∈ B, k < b.1) := by
  simp only [SortedL, List.pairwise_append, List.pairwise_cons, List.mem_cons]
  constructor
  · rintro ⟨h1, ⟨h2, h3⟩, h4⟩
    exact ⟨h1, h3, fun a ha => h4 a ha _ (.inl rfl), h2⟩
  · rintro ⟨h1, h2, h3, h4⟩
    refine ⟨h1, ⟨h4, h2⟩, ?_⟩
    rintro a ha b (rfl | hb)
    · exact h3 a ha
    · exact (h3 a ha).trans (h4 b hb)

theorem insert_spec (fuel : Nat) (key : K) (data : D) (t : Tree K D) (hw : WF t) (hs : SortedL t.inorder) :
    ∃ t', t.insert (fuel + 2) key data = some t' ∧ WF t' ∧ SortedL t'.inorder ∧
      t.height ≤ t'.height ∧ t'.height ≤ t.height + 1 ∧
      ∀ p, p ∈ t'.inorder ↔ p ∈ t.inorder ∨ (p = (key, data) ∧ ∀ d', (key, d') ∉ t.inorder) := by
  induction t with
  | nil h b =>
    obtain ⟨rfl, rfl⟩ := hw
    obtain ⟨t', e, hw', hin, _, _, hh⟩ := rebalance_spec fuel (-1) 0 (empty : Tree K D) key data empty
      ⟨rfl, rfl⟩ ⟨rfl, rfl⟩ (by simp [empty]) (by simp [empty])
    have hin' : t'.inorder = [(key, data)] := by rw [hin]; simp [empty, inorder]
    have hh' := hh (by simp [empty]) (by simp [empty])
    refine ⟨t', e, hw', ?_, ?_, ?_, ?_⟩
    · rw [hin']; simp [SortedL]
    · rw [hh']; simp [empty]
    · rw [hh']; simp [empty]
    · intro p; rw [hin']; simp [inorder]
  | node h b l k d r ihl ihr =>
    have hs' := hs
    rw [inorder, sortedL_mid] at hs
    obtain ⟨s1, s2, s3, s4⟩ := hs
    obtain ⟨w1, w2, w3, w4, wl, wr⟩ := hw
    simp only [insert, height_node]
    by_cases hlt : key < k
    · obtain ⟨l', e, hl', sl', g1, g2, hm⟩ := ihl wl s1
      obtain ⟨t', e', hw', hin, g3, g4, g5⟩ := rebalance_spec fuel h b l' k d r hl' wr (by omega) (by omega)
      refine ⟨t', ?_, hw', ?_, ?_, ?_, ?_⟩
      · simp [hlt, e, e']
      · rw [hin, sortedL_mid]
        refine ⟨sl', s2, ?_, s4⟩
        intro a ha
        rcases (hm a).1 ha with h | ⟨rfl, _⟩
        · exact s3 a h
        · exact hlt
      · omega
      · by_cases hx : l'.height - r.height ≤ 1
        · have := g5 hx (by omega); omega
        · omega
      · intro p
        rw [hin, inorder]
        simp only [List.mem_append, List.mem_cons, hm]
        have hn : ∀ d', (key, d') ≠ (k, d) := fun d' he => by
          simp only [Prod.mk.injEq] at he; exact absurd he.1 (ne_of_lt hlt)
        have hn' : ∀ d', (key, d') ∉ r.inorder := fun d' he => absurd (s4 _ he) (not_lt.2 hlt.le)
        constructor
        · rintro ((h | ⟨h1, h2⟩) | h | h)
          · exact .inl (.inl h)
          · exact .inr ⟨h1, fun d' => by simp [h2 d', hn d', hn' d']⟩
          · exact .inl (.inr (.inl h))
          · exact .inl (.inr (.inr h))
        · rintro ((h | h | h) | ⟨h1, h2⟩)
          · exact .inl (.inl h)
          · exact .inr (.inl h)
          · exact .inr (.inr h)
          · exact .inl (.inr ⟨h1, fun d' hd => h2 d' (.inl hd)⟩)
    · by_cases hgt : key > k
      · obtain ⟨r', e, hr', sr', g1, g2, hm⟩ := ihr wr s2
        obtain ⟨t', e', hw', hin, g3, g4, g5⟩ := rebalance_spec fuel h b l k d r' wl hr' (by omega) (by omega)
        refine ⟨t', ?_, hw', ?_, ?_, ?_, ?_⟩
        · simp [hlt, hgt, e, e']
        · rw [hin, sortedL_mid]
          refine ⟨s1, sr', s3, ?_⟩
          intro a ha
          rcases (hm a).1 ha with h | ⟨rfl, _⟩
          · exact s4 a h
          · exact hgt
        · omega
        · by_cases hx : -1 ≤ l.height - r'.height
          · have := g5 (by omega) hx; omega
          · omega
        · intro p
          rw [hin, inorder]
          simp only [List.mem_append, List.mem_cons, hm]
          have hn : ∀ d', (key, d') ≠ (k, d) := fun d' he => by
            simp only [Prod.mk.injEq] at he; exact absurd he.1 (ne_of_gt hgt)
          have hn' : ∀ d', (key, d') ∉ l.inorder := fun d' he => absurd (s3 _ he) (not_lt.2 (le_of_lt hgt))
          constructor
          · rintro (h | h | h | ⟨h1, h2⟩)
            · exact .inl (.inl h)
            · exact .inl (.inr (.inl h))
            · exact .inl (.inr (.inr h))
            · exact .inr ⟨h1, fun d' => by simp [h2 d', hn d', hn' d']⟩
          · rintro ((h | h | h) | ⟨h1, h2⟩)
            · exact .inl h
            · exact .inr (.inl h)
            · exact .inr (.inr (.inl h))
            · exact .inr (.inr (.inr ⟨h1, fun d' hd => h2 d' (.inr (.inr hd))⟩))
      · have hk : key = k := le_antisymm (not_lt.1 hgt) (not_lt.1 hlt)
        subst hk
        obtain ⟨t', e', hw', hin, g3, g4, g5⟩ := rebalance_spec fuel h b l key d r wl wr (by omega) (by omega)
        have := g5 (by omega) (by omega)
        refine ⟨t', ?_, hw', ?_, ?_, ?_, ?_⟩
        · simp [e']
        · rw [hin]; exact hs'
        · omega
        · omega
        · intro p
          rw [hin, inorder]
          constructor
          · exact .inl
          · rintro (h | ⟨_, h⟩)
            · exact h
            · exact absurd (by simp) (h d)

theorem leftmost_spec (r : Tree K D) (hr : r.isNil = false) (hs : SortedL r.inorder) (k0 : K) :
    leftmost k0 r ∈ r.inorder.map Prod.fst ∧ ∀ p ∈ r.inorder, leftmost k0 r ≤ p.1 := by
  induction r generalizing k0 with
  | nil => simp [isNil] at hr
  | node h b l k d r ihl _ =>
    rw [inorder, sortedL_mid] at hs
    obtain ⟨s1, s2, s3, s4⟩ := hs
    cases l with
    | nil h0 b0 =>
      simp only [leftmost, inorder]
      refine ⟨by simp, ?_⟩
      intro p hp
      simp only [List.nil_append, List.mem_cons] at hp
      rcases hp with rfl | hp
      · exact le_rfl
      · exact (s4 p hp).le
    | node hl bl ll kl dl rl =>
      have := ihl rfl s1 k
      rw [leftmost]
      obtain ⟨h1, h2⟩ := this
      refine ⟨by rw [inorder, List.map_append, List.mem_append]; exact .inl h1, ?_⟩
      intro p hp
      rw [inorder, List.mem_append, List.mem_cons] at hp
      have hlt : leftmost k (node hl bl ll kl dl rl) < k := by
        obtain ⟨q, hq, he⟩ := List.mem_map.1 h1
        rw [← he]; exact s3 q hq
      rcases hp with hp | rfl | hp
      · exact h2 p hp
      · exact hlt.le
      · exact (hlt.trans (s4 p hp)).le

theorem isNil_eq {t : Tree K D} (h : t.isNil = true) (hw : WF t) : t = nil (-1) 0 := by
  cases t with
  | nil h b => obtain ⟨rfl, rfl⟩ := hw; rfl
  | node => simp [isNil] at h

theorem rebalance_rewrap (fuel : Nat) (h b : Int) (t : Tree K D) (hw : WF t) (hn : t.isNil = false) :
    rebalance (fuel + 2) (rewrap h b t) = some t := by
  cases t with
  | nil => simp [isNil] at hn
  | node h' b' l k d r =>
    obtain ⟨w1, w2, w3, w4, wl, wr⟩ := hw
    rw [rewrap, rebalance, updateBH_node]
    have : mk l k d r = node h' b' l k d r := by rw [mk, w1, w2]
    rw [this]
    exact loop_done (by simpa using w3) (by simpa using w4) _

theorem delete_spec (fuel : Nat) (t : Tree K D) : ∀ (key : K), WF t → SortedL t.inorder →
    ∃ t', t.delete (fuel + 2) key = some t' ∧ WF t' ∧ SortedL t'.inorder ∧
      t'.height ≤ t.height ∧ t.height ≤ t'.height + 1 ∧
      ∀ x, x ∈ t'.inorder.map Prod.fst ↔ x ∈ t.inorder.map Prod.fst ∧ x ≠ key := by
  induction t with
  | nil h b =>
    intro key hw hs
    exact ⟨nil h b, rfl, hw, hs, by simp, by simp, by simp [inorder]⟩
  | node h b l k d r ihl ihr =>
    intro key hw hs
    have hs' := hs
    rw [inorder, sortedL_mid] at hs
    obtain ⟨s1, s2, s3, s4⟩ := hs
    obtain ⟨w1, w2, w3, w4, wl, wr⟩ := hw
    have nl : ∀ x, x ∈ l.inorder.map Prod.fst → x < k := by
      intro x hx; obtain ⟨p, hp, rfl⟩ := List.mem_map.1 hx; exact s3 p hp
    have nr : ∀ x, x ∈ r.inorder.map Prod.fst → k < x := by
      intro x hx; obtain ⟨p, hp, rfl⟩ := List.mem_map.1 hx; exact s4 p hp
    simp only [delete, height_node]
    by_cases hk : k = key
    · subst hk
      rw [if_pos rfl]
      cases hln : l.isNil with
      | true =>
        have hl := isNil_eq hln wl
        subst hl
        cases hrn : r.isNil with
        | true =>
          have hr := isNil_eq hrn wr
          subst hr
          refine ⟨nil (-1) 0, ?_, ⟨rfl, rfl⟩, by simp [inorder, SortedL], ?_, ?_, ?_⟩
          · simp only [Bool.and_self, if_true, rebalance, updateHeight, updateBalance]
            exact loop_done (by simp [balance]) (by simp [balance]) _
          · simp at w1 ⊢; omega
          · simp at w1 ⊢; omega
          · simp [inorder]
        | false =>
          have hge := height_ge wr
          refine ⟨r, ?_, wr, s2, ?_, ?_, ?_⟩
          · simpa using rebalance_rewrap fuel h b r wr hrn
          · simp at w1; omega
          · simp at w1; omega
          · intro x
            simp only [inorder, List.nil_append, List.map_cons, List.mem_cons]
            constructor
            · exact fun hx => ⟨.inr hx, ne_of_gt (nr x hx)⟩
            · rintro ⟨rfl | hx, hne⟩
              · exact absurd rfl hne
              · exact hx
      | false =>
        cases hrn : r.isNil with
        | true =>
          have hr := isNil_eq hrn wr
          subst hr
          have hge := height_ge wl
          refine ⟨l, ?_, wl, s1, ?_, ?_, ?_⟩
          · simpa using rebalance_rewrap fuel h b l wl hln
          · simp at w1; omega
          · simp at w1; omega
          · intro x
            simp only [inorder, List.map_append, List.map_cons, List.map_nil, List.mem_append, List.mem_singleton]
            constructor
            · exact fun hx => ⟨.inl hx, ne_of_lt (nl x hx)⟩
            · rintro ⟨hx | rfl, hne⟩
              · exact hx
              · exact absurd rfl hne
        | false =>
          obtain ⟨m1, m2⟩ := leftmost_spec r hrn s2 k
          set sc := leftmost k r with hsc
          obtain ⟨r', e, hr', sr', g1, g2, hm⟩ := ihr sc wr s2
          obtain ⟨t', e', hw', hin, g3, g4, g5⟩ := rebalance_spec fuel h b l sc d r' wl hr' (by omega) (by omega)
          refine ⟨t', ?_, hw', ?_, ?_, ?_, ?_⟩
          · simp [e, e']
          · rw [hin, sortedL_mid]
            refine ⟨s1, sr', fun a ha => (s3 a ha).trans (nr _ m1), ?_⟩
            intro p hp
            have := (hm p.1).1 (List.mem_map.2 ⟨p, hp, rfl⟩)
            obtain ⟨q, hq, he⟩ := List.mem_map.1 this.1
            exact lt_of_le_of_ne (he ▸ m2 q hq) (Ne.symm this.2)
          · by_cases hx : l.height - r'.height ≤ 1
            · have := g5 hx (by omega); omega
            · omega
          · by_cases hx : l.height - r'.height ≤ 1
            · have := g5 hx (by omega); omega
            · omega
          · intro x
            rw [hin, inorder]
            simp only [List.map_append, List.map_cons, List.mem_append, List.mem_cons, hm]
            constructor
            · rintro (hx | rfl | ⟨hx, hne⟩)
              · exact ⟨.inl hx, ne_of_lt (nl x hx)⟩
              · exact ⟨.inr (.inr m1), ne_of_gt (nr _ m1)⟩
              · exact ⟨.inr (.inr hx), ne_of_gt (nr _ hx)⟩
            · rintro ⟨hx | rfl | hx, hne⟩
              · exact .inl hx
              · exact absurd rfl hne
              · by_cases hxs : x = sc
                · exact .inr (.inl hxs)
                · exact .inr (.inr ⟨hx, hxs⟩)
    · rw [if_neg hk]
      by_cases hlt : key < k
      · obtain ⟨l', e, hl', sl', g1, g2, hm⟩ := ihl key wl s1
        obtain ⟨t', e', hw', hin, g3, g4, g5⟩ := rebalance_spec fuel h b l' k d r hl' wr (by omega) (by omega)
        refine ⟨t', ?_, hw', ?_, ?_, ?_, ?_⟩
        · simp [hlt, e, e']
        · rw [hin, sortedL_mid]
          refine ⟨sl', s2, ?_, s4⟩
          intro a ha
          exact nl _ ((hm a.1).1 (List.mem_map.2 ⟨a, ha, rfl⟩)).1
        · by_cases hx : -1 ≤ l'.height - r.height
          · have := g5 (by omega) hx; omega
          · omega
        · by_cases hx : -1 ≤ l'.height - r.height
          · have := g5 (by omega) hx; omega
          · omega
        · intro x
          rw [hin, inorder]
          simp only [List.map_append, List.map_cons, List.mem_append, List.mem_cons, hm]
          constructor
          · rintro (⟨hx, hne⟩ | rfl | hx)
            · exact ⟨.inl hx, hne⟩
            · exact ⟨.inr (.inl rfl), hk⟩
            · exact ⟨.inr (.inr hx), ne_of_gt (hlt.trans (nr _ hx))⟩
          · rintro ⟨hx | hx | hx, hne⟩
            · exact .inl ⟨hx, hne⟩
            · exact .inr (.inl hx)
            · exact .inr (.inr hx)
      · have hgt : k < key := lt_of_le_of_ne (not_lt.1 hlt) hk
        obtain ⟨r', e, hr', sr', g1, g2, hm⟩ := ihr key wr s2
        obtain ⟨t', e', hw', hin, g3, g4, g5⟩ := rebalance_spec fuel h b l k d r' wl hr' (by omega) (by omega)
        refine ⟨t', ?_, hw', ?_, ?_, ?_, ?_⟩
        · simp [hlt, e, e']
        · rw [hin, sortedL_mid]
          refine ⟨s1, sr', s3, ?_⟩
          intro a ha
          exact nr _ ((hm a.1).1 (List.mem_map.2 ⟨a, ha, rfl⟩)).1
        · by_cases hx : l.height - r'.height ≤ 1
          · have := g5 hx (by omega); omega
          · omega
        · by_cases hx : l.height - r'.height ≤ 1
          · have := g5 hx (by omega); omega
          · omega
        · intro x
          rw [hin, inorder]
          simp only [List.map_append, List.map_cons, List.mem_append, List.mem_cons, hm]
          constructor
          · rintro (hx | rfl | ⟨hx, hne⟩)
            · exact ⟨.inl hx, ne_of_lt ((nl _ hx).trans hgt)⟩
            · exact ⟨.inr (.inl rfl), hk⟩
            · exact ⟨.inr (.inr hx), hne⟩
          · rintro ⟨hx | hx | hx, hne⟩
            · exact .inl hx
            · exact .inr (.inl hx)
            · exact .inr (.inr ⟨hx, hne⟩)

theorem search_spec (key : K) (t : Tree K D) (hs : SortedL t.inorder) (v : D) :
    t.search key = some v ↔ (key, v) ∈ t.inorder := by
  induction t with
  | nil => simp [search, inorder]
  | node h b l k d r ihl ihr =>
    rw [inorder, sortedL_mid] at hs
    obtain ⟨s1, s2, s3, s4⟩ := hs
    simp only [search, inorder, List.mem_append, List.mem_cons, Prod.mk.injEq]
    by_cases hlt : key < k
    · rw [if_pos hlt, ihl s1]
      constructor
      · exact .inl
      · rintro (h | ⟨rfl, _⟩ | h)
        · exact h
        · exact absurd hlt (lt_irrefl _)
        · exact absurd (hlt.trans (s4 _ h)) (lt_irrefl _)
    · rw [if_neg hlt]
      by_cases hgt : key > k
      · rw [if_pos hgt, ihr s2]
        constructor
        · exact fun h => .inr (.inr h)
        · rintro (h | ⟨rfl, _⟩ | h)
          · exact absurd (hgt.trans (s3 _ h)) (lt_irrefl _)
          · exact absurd hgt (lt_irrefl _)
          · exact h
      · rw [if_neg hgt]
        have hk : key = k := le_antisymm (not_lt.1 hgt) (not_lt.1 hlt)
        subst hk
        simp only [Option.some.injEq]
        constructor
        · rintro rfl; exact .inr (.inl ⟨trivial, rfl⟩)
        · rintro (h | ⟨_, rfl⟩ | h)
          · exact absurd (s3 _ h) (lt_irrefl _)
          · rfl
          · exact absurd (s4 _ h) (lt_irrefl _)

end Tree
end Verif.Avl
