import Verif.Avl.Ops
import Mathlib.Data.Set.Insert
import Mathlib.Algebra.Order.Ring.Nat

/-! # C04-C06: the AVL tree -/

namespace Verif.Avl
variable {K D : Type} [LinearOrder K]
open Tree

/-- Specification: the key set after a history, computed on a plain set. -/
def specKeys (S : Set K) : List (Op K D) → Set K
  | [] => S
  | .insert k _ :: os => specKeys (insert k S) os
  | .delete k :: os => specKeys (S \ {k}) os

theorem run_spec (fuel : Nat) (ops : List (Op K D)) : ∀ (t : Tree K D), WF t → SortedL t.inorder →
    ∃ t', run (fuel + 2) t ops = some t' ∧ WF t' ∧ SortedL t'.inorder ∧
      {x | x ∈ t'.inorder.map Prod.fst} = specKeys {x | x ∈ t.inorder.map Prod.fst} ops := by
  induction ops with
  | nil => intro t hw hs; exact ⟨t, rfl, hw, hs, rfl⟩
  | cons o os ih =>
    intro t hw hs
    cases o with
    | insert k d =>
      obtain ⟨t1, e, hw1, hs1, _, _, hm⟩ := insert_spec fuel k d t hw hs
      obtain ⟨t', e', hw', hs', hk⟩ := ih t1 hw1 hs1
      refine ⟨t', by simp [run, step, e, e'], hw', hs', ?_⟩
      rw [hk, specKeys]
      congr 1
      ext x
      simp only [Set.mem_setOf_eq, Set.mem_insert_iff, List.mem_map, hm]
      constructor
      · rintro ⟨p, h | ⟨rfl, _⟩, rfl⟩
        · exact .inr ⟨p, h, rfl⟩
        · exact .inl rfl
      · rintro (rfl | ⟨p, h, rfl⟩)
        · by_cases hx : ∃ d', (x, d') ∈ t.inorder
          · obtain ⟨d', hd'⟩ := hx; exact ⟨(x, d'), .inl hd', rfl⟩
          · push Not at hx; exact ⟨(x, d), .inr ⟨rfl, hx⟩, rfl⟩
        · exact ⟨p, .inl h, rfl⟩
    | delete k =>
      obtain ⟨t1, e, hw1, hs1, _, _, hm⟩ := delete_spec fuel t k hw hs
      obtain ⟨t', e', hw', hs', hk⟩ := ih t1 hw1 hs1
      refine ⟨t', by simp [run, step, e, e'], hw', hs', ?_⟩
      rw [hk, specKeys]
      congr 1
      ext x
      simp only [Set.mem_setOf_eq, Set.mem_diff, Set.mem_singleton_iff, hm]

/-- **C04.** After every history of inserts and deletes from the empty tree (with at least two turns allowed to the
`while` loop, which is all it ever needs) no call fails, the in-order listing has strictly increasing keys, the stored
keys are exactly those given by the set specification, and `search k` succeeds exactly on them. -/
theorem C04_keys_refine_set (fuel : Nat) (hf : 2 ≤ fuel) (ops : List (Op K D)) :
    ∃ t, run fuel (empty : Tree K D) ops = some t ∧
      (t.inorder.map Prod.fst).Pairwise (· < ·) ∧
      (∀ k, k ∈ t.inorder.map Prod.fst ↔ k ∈ specKeys (∅ : Set K) ops) ∧
      (∀ k, (t.search k).isSome ↔ k ∈ specKeys (∅ : Set K) ops) := by
  obtain ⟨f, rfl⟩ : ∃ f, fuel = f + 2 := ⟨fuel - 2, by omega⟩
  obtain ⟨t, e, _, hs, hk⟩ := run_spec f ops (empty : Tree K D) ⟨rfl, rfl⟩ (by simp [empty, inorder, SortedL])
  have hmem : ∀ k, k ∈ t.inorder.map Prod.fst ↔ k ∈ specKeys (∅ : Set K) ops := fun k => by
    have h0 : {x | x ∈ (empty : Tree K D).inorder.map Prod.fst} = (∅ : Set K) := by
      ext x; simp [empty, inorder]
    rw [h0] at hk
    rw [← hk]
    exact Iff.rfl
  refine ⟨t, e, ?_, hmem, fun k => ?_⟩
  · rw [List.pairwise_map]; exact hs
  · rw [← hmem k, Option.isSome_iff_exists]
    simp only [search_spec k t hs, List.mem_map]
    constructor
    · rintro ⟨v, hv⟩; exact ⟨_, hv, rfl⟩
    · rintro ⟨⟨k', v⟩, hv, rfl⟩; exact ⟨v, hv⟩

/-- Non-trivial run exercising a double rotation and a two-child delete. -/
example : (run 2 (empty : Tree Int Unit)
    [.insert 5 (), .insert 1 (), .insert 3 (), .insert 7 (), .insert 6 (), .delete 3]).map
      (fun t => t.inorder.map Prod.fst) = some [1, 5, 6, 7] := by decide

/-- Real depth of the pointer structure (number of nodes on a longest path). -/
def depth : Tree K D → Nat
  | nil _ _ => 0
  | node _ _ l _ _ r => 1 + max (depth l) (depth r)

/-- Every node's two subtrees differ in real depth by at most one. -/
def Balanced : Tree K D → Prop
  | nil _ _ => True
  | node _ _ l _ _ r => depth l ≤ depth r + 1 ∧ depth r ≤ depth l + 1 ∧ Balanced l ∧ Balanced r

omit [LinearOrder K] in
theorem depth_height {t : Tree K D} (h : WF t) : (depth t : Int) = t.height + 1 := by
  induction t with
  | nil h b => obtain ⟨rfl, rfl⟩ := h; simp [depth]
  | node h b l k d r ihl ihr =>
    obtain ⟨h1, _, _, _, hl, hr⟩ := h
    have := ihl hl; have := ihr hr
    simp only [depth, height_node]
    omega

omit [LinearOrder K] in
theorem wf_balanced {t : Tree K D} (h : WF t) : Balanced t := by
  induction t with
  | nil => trivial
  | node h b l k d r ihl ihr =>
    obtain ⟨h1, h2, h3, h4, hl, hr⟩ := h
    have := depth_height hl; have := depth_height hr
    exact ⟨by omega, by omega, ihl hl, ihr hr⟩

omit [LinearOrder K] in
theorem balanced_size {t : Tree K D} (h : Balanced t) : 2 ^ depth t ≤ (t.inorder.length + 1) ^ 2 := by
  induction t with
  | nil => simp [depth, inorder]
  | node hh bb l k d r ihl ihr =>
    obtain ⟨h1, h2, hl, hr⟩ := h
    have il := ihl hl; have ir := ihr hr
    simp only [depth, inorder, List.length_append, List.length_cons]
    generalize l.inorder.length = a at *
    generalize r.inorder.length = b at *
    -- the smaller depth m satisfies max ≤ m + 1
    obtain ⟨m, hm1, hm2, hm3⟩ : ∃ m, m ≤ depth l ∧ m ≤ depth r ∧ max (depth l) (depth r) ≤ m + 1 :=
      ⟨min (depth l) (depth r), by omega, by omega, by omega⟩
    have e1 : 2 ^ m ≤ (a + 1) ^ 2 := (Nat.pow_le_pow_right (by decide) hm1).trans il
    have e2 : 2 ^ m ≤ (b + 1) ^ 2 := (Nat.pow_le_pow_right (by decide) hm2).trans ir
    have e3 : 2 ^ (1 + max (depth l) (depth r)) ≤ 2 ^ (m + 2) := Nat.pow_le_pow_right (by decide) (by omega)
    have e4 : 2 ^ (m + 2) = 4 * 2 ^ m := by rw [pow_add]; ring
    have e5 : 2 ^ m ≤ (a + 1) * (b + 1) := by
      rcases le_total a b with h | h
      · calc 2 ^ m ≤ (a + 1) ^ 2 := e1
          _ = (a + 1) * (a + 1) := by ring
          _ ≤ (a + 1) * (b + 1) := Nat.mul_le_mul_left _ (by omega)
      · calc 2 ^ m ≤ (b + 1) ^ 2 := e2
          _ = (b + 1) * (b + 1) := by ring
          _ ≤ (a + 1) * (b + 1) := Nat.mul_le_mul_right _ (by omega)
    have e6 : (a + (b + 1) + 1) ^ 2 = (a + 1) ^ 2 + 2 * ((a + 1) * (b + 1)) + (b + 1) ^ 2 := by ring
    omega

theorem searchSteps_le (key : K) (t : Tree K D) : t.searchSteps key ≤ depth t := by
  induction t with
  | nil => simp [searchSteps]
  | node h b l k d r ihl ihr =>
    simp only [searchSteps, depth]
    split_ifs <;> omega

/-- **C05.** After every history the pointer tree is height balanced at every node, the cached height of the root is
the real one, and a search among `n` keys visits at most `2*log2(n+1)` nodes (written `2^steps ≤ (n+1)^2`). -/
theorem C05_balanced (fuel : Nat) (hf : 2 ≤ fuel) (ops : List (Op K D)) :
    ∃ t, run fuel (empty : Tree K D) ops = some t ∧ Balanced t ∧ t.height = (depth t : Int) - 1 ∧
      2 ^ depth t ≤ (t.inorder.length + 1) ^ 2 ∧
      ∀ k, 2 ^ t.searchSteps k ≤ (t.inorder.length + 1) ^ 2 := by
  obtain ⟨f, rfl⟩ : ∃ f, fuel = f + 2 := ⟨fuel - 2, by omega⟩
  obtain ⟨t, e, hw, hs, _⟩ := run_spec f ops (empty : Tree K D) ⟨rfl, rfl⟩ (by simp [empty, inorder, SortedL])
  have hb := wf_balanced hw
  have := depth_height hw
  exact ⟨t, e, hb, by omega, balanced_size hb,
    fun k => (Nat.pow_le_pow_right (by decide) (searchSteps_le k t)).trans (balanced_size hb)⟩

/-- Instance: seven increasing inserts give a perfect tree of depth three. -/
example : (run 2 (empty : Tree Int Unit)
    [.insert 1 (), .insert 2 (), .insert 3 (), .insert 4 (), .insert 5 (), .insert 6 (), .insert 7 ()]).map
      depth = some 3 := by decide

/-- The mapping semantics users expect of `t[k] = v` / `del t[k]`. -/
def specMap (m : K → Option D) : List (Op K D) → K → Option D
  | [] => m
  | .insert k v :: os => specMap (fun x => if x = k then some v else m x) os
  | .delete k :: os => specMap (fun x => if x = k then none else m x) os

/-- The full C06 claim for a history: lookups agree with the mapping semantics. -/
def MappingClaim (ops : List (Op Int Int)) : Prop :=
  ∃ t, run 2 (empty : Tree Int Int) ops = some t ∧ ∀ k, t.search k = specMap (fun _ => none) ops k

/-- **C06 (refuted, overwrite).** `t[1] = 10; t[1] = 20; t[1]` gives `10`. -/
theorem C06_overwrite_refuted : ¬ MappingClaim [.insert 1 10, .insert 1 20] := by
  rintro ⟨t, e, h⟩
  have h1 : (run 2 (empty : Tree Int Int) [.insert 1 10, .insert 1 20]).map (fun t => t.search 1) =
    some (some 10) := by decide
  rw [e] at h1
  have h2 := h 1
  simp only [Option.map_some, Option.some.injEq] at h1
  rw [h1] at h2
  exact absurd h2 (by decide)

/-- **C06 (refuted, delete).** Deleting a key with two children gives the successor key the deleted key's data. -/
theorem C06_delete_refuted : ¬ MappingClaim [.insert 2 20, .insert 1 10, .insert 3 30, .delete 2] := by
  rintro ⟨t, e, h⟩
  have h1 : (run 2 (empty : Tree Int Int) [.insert 2 20, .insert 1 10, .insert 3 30, .delete 2]).map
    (fun t => t.search 3) = some (some 20) := by decide
  rw [e] at h1
  have h2 := h 3
  simp only [Option.map_some, Option.some.injEq] at h1
  rw [h1] at h2
  exact absurd h2 (by decide)

/-- **C06 (refuted, append).** Of four appended values only three are kept. -/
theorem C06_append_refuted : ((((append 2 10 (empty : Tree Int Int)).bind (append 2 20)).bind
    (append 2 30)).bind (append 2 40)).map (fun t => t.inorder.map Prod.snd) = some [10, 20, 30] := by decide

/-- A history without deletes that never stores a key twice. -/
def FreshInserts : List (Op K D) → Prop
  | [] => True
  | .insert k _ :: os => (∀ v, .insert k v ∉ os) ∧ FreshInserts os
  | .delete _ :: _ => False

theorem fresh_run (fuel : Nat) (ops : List (Op K D)) : ∀ (t : Tree K D) (m : K → Option D), WF t → SortedL t.inorder →
    (∀ k, t.search k = m k) → FreshInserts ops → (∀ k v, .insert k v ∈ ops → m k = none) →
    ∃ t', run (fuel + 2) t ops = some t' ∧ ∀ k, t'.search k = specMap m ops k := by
  induction ops with
  | nil => intro t m _ _ h _ _; exact ⟨t, rfl, h⟩
  | cons o os ih =>
    intro t m hw hs hm hfr hno
    cases o with
    | delete k => exact absurd hfr id
    | insert k v =>
      obtain ⟨t1, e, hw1, hs1, _, _, hmem⟩ := insert_spec fuel k v t hw hs
      have hk : m k = none := hno k v List.mem_cons_self
      have hnone : ∀ d', (k, d') ∉ t.inorder := fun d' hd => by
        have := (search_spec k t hs d').2 hd
        rw [hm, hk] at this; simp at this
      obtain ⟨t', e', h'⟩ := ih t1 (fun x => if x = k then some v else m x) hw1 hs1 (fun x => by
          by_cases hx : x = k
          · subst hx
            rw [if_pos rfl, search_spec x t1 hs1, hmem]
            exact .inr ⟨rfl, hnone⟩
          · rw [if_neg hx, ← hm x]
            apply Option.ext
            intro d'
            rw [search_spec x t1 hs1, search_spec x t hs, hmem]
            simp [hx]) hfr.2 (fun x w hxw => by
          have hxk : x ≠ k := by rintro rfl; exact hfr.1 w hxw
          simp only [if_neg hxk]
          exact hno x w (List.mem_cons_of_mem _ hxw))
      exact ⟨t', by simp [run, step, e, e'], h'⟩

/-- **C06 (partial).** The mapping semantics hold for every history of inserts of pairwise distinct keys.  Missing
compared with the full claim: overwriting a key, deleting a two-child node and `append` (all refuted above). -/
theorem C06_mapping_fresh_inserts_partial (fuel : Nat) (hf : 2 ≤ fuel) (ops : List (Op K D)) (hfr : FreshInserts ops) :
    ∃ t, run fuel (empty : Tree K D) ops = some t ∧ ∀ k, t.search k = specMap (fun _ => none) ops k := by
  obtain ⟨f, rfl⟩ : ∃ f, fuel = f + 2 := ⟨fuel - 2, by omega⟩
  exact fresh_run f ops (empty : Tree K D) (fun _ => none) ⟨rfl, rfl⟩ (by simp [empty, inorder, SortedL])
    (fun _ => rfl) hfr (fun _ _ _ => rfl)

/-- Instance of the hypothesis. -/
example : FreshInserts [Op.insert (3 : Int) 'a', .insert 1 'b', .insert 2 'c'] := by
  simp [FreshInserts]

/-- **C06 (partial, one step).** In every reachable tree, inserting a key makes it present, never removes or changes
any other stored pair, and changes nothing at all when the key was already there. -/
theorem C06_insert_keeps_others_partial (fuel : Nat) (hf : 2 ≤ fuel) (ops : List (Op K D)) (k : K) (v : D) :
    ∃ t t', run fuel (empty : Tree K D) ops = some t ∧ t.insert fuel k v = some t' ∧
      ∀ x, t'.search x = if x = k ∧ t.search k = none then some v else t.search x := by
  obtain ⟨f, rfl⟩ : ∃ f, fuel = f + 2 := ⟨fuel - 2, by omega⟩
  obtain ⟨t, e, hw, hs, _⟩ := run_spec f ops (empty : Tree K D) ⟨rfl, rfl⟩ (by simp [empty, inorder, SortedL])
  obtain ⟨t', e', hw', hs', _, _, hm⟩ := insert_spec f k v t hw hs
  refine ⟨t, t', e, e', fun x => ?_⟩
  apply Option.ext
  intro w
  rw [search_spec x t' hs', hm]
  have hnone : t.search k = none ↔ ∀ d', (k, d') ∉ t.inorder := by
    rw [Option.eq_none_iff_forall_ne_some]
    exact forall_congr' fun d' => not_congr (search_spec k t hs d')
  by_cases hx : x = k ∧ t.search k = none
  · obtain ⟨rfl, hn⟩ := hx
    rw [if_pos ⟨rfl, hn⟩]
    have h' := hnone.1 hn
    simp only [Prod.mk.injEq, true_and, Option.some.injEq]
    constructor
    · rintro (h | ⟨rfl, _⟩)
      · exact absurd h (h' w)
      · rfl
    · rintro rfl; exact .inr ⟨rfl, h'⟩
  · rw [if_neg hx, search_spec x t hs]
    constructor
    · rintro (h | ⟨h1, h2⟩)
      · exact h
      · simp only [Prod.mk.injEq] at h1
        exact absurd ⟨h1.1, hnone.2 h2⟩ hx
    · exact .inl

end Verif.Avl
