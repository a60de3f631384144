import Verif.UnionFind.Group

/-!
# C01-C03: union-find and `group_tuples`

Specification vocabulary: `Relation.EqvGen R a b` is the least equivalence relation containing `R`.
-/

namespace Verif.UnionFind
open Relation

/-- **C01.** After every history of calls with arguments in range, `find a == find b` exactly when `a` and `b`
are linked by a chain of united pairs.  (`depth` is any interpreter recursion limit that leaves
`log2 n + 1` frames.)  The two `find` calls are made one after the other on the evolving object, so the
theorem also says that interleaved `find`s do not change answers. -/
theorem C01_find_eq_iff_connected (n depth : Nat) (hd : Nat.log 2 n + 1 ≤ depth) (ops : List Op)
    (hops : ∀ o ∈ ops, o.inRange n) (a b : Nat) (ha : a < n) (hb : b < n) :
    ∃ s, run depth (UF.init n) ops = some s ∧
      ∃ ra s1 rb s2, s.find depth a = some (ra, s1) ∧ s1.find depth b = some (rb, s2) ∧
        (ra = rb ↔ EqvGen (fun x y => Op.union x y ∈ ops) a b) := by
  obtain ⟨s, h1, hi, hS⟩ := run_init hd ops hops
  obtain ⟨ra, s1, e1, hra, _, hi1, _, hr1⟩ := find_ok hi ha hd
  obtain ⟨rb, s2, e2, hrb, _, _, _, _⟩ := find_ok hi1 hb hd
  refine ⟨s, h1, ra, s1, rb, s2, e1, e2, ?_⟩
  rw [← hS a b ha hb]
  have hrb' := (hr1 _ _).1 hrb
  constructor
  · rintro rfl; exact ⟨ra, hra, hrb'⟩
  · rintro ⟨r, h3, h4⟩
    rw [hra.unique h3, hrb'.unique h4]

/-- A non-trivial instance of the hypotheses of C01: five elements, four calls, depth 4. -/
example : (∀ o ∈ [Op.union 0 1, .find 1, .union 3 4, .union 1 3], o.inRange 5) ∧ Nat.log 2 5 + 1 ≤ 4 := by
  refine ⟨by simp [Op.inRange], ?_⟩
  have : Nat.log 2 5 < 3 := Nat.log_lt_of_lt_pow (by decide) (by decide)
  omega

/-- The model is executable: after these calls 0 and 4 have the same representative, 2 is alone. -/
example : ((run 4 (UF.init 5) [Op.union 0 1, .find 1, .union 3 4, .union 1 3]).bind
    (fun s => s.find 4 4)).map Prod.fst = some 0 := by decide

/-- **C02.** In every reachable state `find` succeeds within `log2 n + 1` nested calls (no infinite loop, no stack
exhaustion, no index error), its answer is an index in range, is its own representative, and asking again gives the
same answer. -/
theorem C02_find_terminates_log_depth (n depth : Nat) (hd : Nat.log 2 n + 1 ≤ depth) (ops : List Op)
    (hops : ∀ o ∈ ops, o.inRange n) :
    ∃ s, run depth (UF.init n) ops = some s ∧
      ∀ x, x < n → ∃ r s', s.find (Nat.log 2 n + 1) x = some (r, s') ∧ r < n ∧ s'.parent r = r ∧
        s'.n = n ∧ ∃ s'', s'.find (Nat.log 2 n + 1) x = some (r, s'') := by
  obtain ⟨s, h1, hi, _⟩ := run_init hd ops hops
  refine ⟨s, h1, fun x hx => ?_⟩
  obtain ⟨r, s', e, hr, hrn, hi', _, hr'⟩ := find_ok hi hx le_rfl
  have hrr := (hr' _ _).2 hr
  obtain ⟨r2, s2, e2, hr2, _⟩ := find_ok hi' hx le_rfl
  have : r2 = r := hr2.unique hrr
  subst this
  exact ⟨r2, s', e, hrn, hrr.isRoot, hi'.size, s2, e2⟩

/-- Instance of the hypotheses of C02. -/
example : ∀ o ∈ [Op.union 0 1, .union 2 3, .union 3 1, .find 0], o.inRange 4 := by simp [Op.inRange]

/-- Out-of-range arguments raise: `find` fails on an index `≥ n` in every state (Python `IndexError`). -/
theorem C02_find_out_of_range (depth : Nat) (s : UF) (x : Nat) (hx : s.n ≤ x) : s.find depth x = none := by
  cases depth with
  | zero => rfl
  | succ d => simp [UF.find, Nat.not_lt.2 hx]

/-- Two positions of the input are adjacent when their tuples share a digit. -/
def ShareDigit (L : List (List Int)) (i j : Nat) : Prop :=
  ∃ s t, L[i]? = some s ∧ L[j]? = some t ∧ ∃ d, d ∈ s ∧ d ∈ t

/-- **C03.** `group_tuples L` succeeds, and its groups are `L` read through a partition of the positions
`0..len L - 1` into non-empty, order-preserving classes; two positions are in one class exactly when they are linked by
a chain of tuples in which neighbours share a digit. -/
theorem C03_group_tuples_components (L : List (List Int)) (depth : Nat)
    (hd : Nat.log 2 L.length + 1 ≤ depth) :
    ∃ gs, groupTuples depth L = some gs ∧
      ∃ cls : List (List Nat),
        gs = cls.map (fun c => c.map (fun i => L.getD i [])) ∧
        cls.flatten.Perm (List.range L.length) ∧
        (∀ c ∈ cls, c ≠ [] ∧ c.Pairwise (· < ·)) ∧
        (∀ i j, i < L.length → j < L.length →
          ((∃ c ∈ cls, i ∈ c ∧ j ∈ c) ↔ EqvGen (ShareDigit L) i j)) := by
  classical
  set n := L.length with hn
  have hmap : buildMap [] 0 L = groupPairs (digitPairs 0 L) := by rw [buildMap_eq]; rfl
  obtain ⟨hnd, hkeys, hvals⟩ := groupPairs_spec (digitPairs 0 L)
  have hmem : ∀ num j, (num, j) ∈ digitPairs 0 L ↔ ∃ t, L[j]? = some t ∧ num ∈ t := fun num j => by
    rw [mem_digitPairs]; simp
  have hval : ∀ num vs, (num, vs) ∈ groupPairs (digitPairs 0 L) → ∀ j, j ∈ vs ↔ ∃ t, L[j]? = some t ∧ num ∈ t := by
    intro num vs h j
    rw [hvals num vs h, ← hmem]
    simp [valuesAt]
  have hlt : ∀ j t, L[j]? = some t → j < n := fun j t h => by
    by_contra hc
    rw [List.getElem?_eq_none (by omega)] at h
    simp at h
  have hne : ∀ p ∈ groupPairs (digitPairs 0 L), p.2 ≠ [] := by
    rintro ⟨num, vs⟩ hp rfl
    have : num ∈ (digitPairs 0 L).map Prod.fst := (hkeys num).1 (List.mem_map.2 ⟨_, hp, rfl⟩)
    obtain ⟨⟨num', j⟩, hj, rfl⟩ := List.mem_map.1 this
    have := (hval _ _ hp j).2 ((hmem _ _).1 hj)
    simp at this
  set ops := digitOps (groupPairs (digitPairs 0 L)) with hops_def
  have hops : ∀ o ∈ ops, o.inRange n := by
    intro o ho
    rw [hops_def, mem_digitOps] at ho
    obtain ⟨num, f, os, j, h1, h2, rfl⟩ := ho
    obtain ⟨t, ht, _⟩ := (hval _ _ h1 f).1 List.mem_cons_self
    obtain ⟨t', ht', _⟩ := (hval _ _ h1 j).1 (List.mem_cons_of_mem _ h2)
    exact ⟨hlt _ _ ht, hlt _ _ ht'⟩
  obtain ⟨s, e1, hi, hS⟩ := run_init hd ops hops
  -- the unions generate the same equivalence as sharing a digit
  have hgen : ∀ i j, EqvGen (fun x y => Op.union x y ∈ ops) i j ↔ EqvGen (ShareDigit L) i j := by
    intro i j
    constructor
    · refine fun h => h.mono ?_
      intro a b hab
      rw [hops_def, mem_digitOps] at hab
      obtain ⟨num, f, os, j, h1, h2, heq⟩ := hab
      simp only [Op.union.injEq] at heq
      obtain ⟨rfl, rfl⟩ := heq
      obtain ⟨t, ht, hm⟩ := (hval _ _ h1 a).1 List.mem_cons_self
      obtain ⟨t', ht', hm'⟩ := (hval _ _ h1 b).1 (List.mem_cons_of_mem _ h2)
      exact ⟨t, t', ht, ht', num, hm, hm'⟩
    · intro h
      induction h with
      | rel a b hab =>
        obtain ⟨t, t', ht, ht', num, hm, hm'⟩ := hab
        have hk : num ∈ (groupPairs (digitPairs 0 L)).map Prod.fst :=
          (hkeys num).2 (List.mem_map.2 ⟨(num, a), (hmem _ _).2 ⟨t, ht, hm⟩, rfl⟩)
        obtain ⟨⟨num', vs⟩, hp, rfl⟩ := List.mem_map.1 hk
        cases vs with
        | nil => exact absurd rfl (hne _ hp)
        | cons f os =>
          have key : ∀ c t, L[c]? = some t → num' ∈ t → EqvGen (fun x y => Op.union x y ∈ ops) f c := by
            intro c t hc hmc
            have := (hval _ _ hp c).2 ⟨t, hc, hmc⟩
            rcases List.mem_cons.1 this with rfl | h
            · exact .refl _
            · refine .rel _ _ ?_
              rw [hops_def, mem_digitOps]
              exact ⟨num', f, os, c, hp, h, rfl⟩
          exact ((key a t ht hm).symm _ _).trans _ _ _ (key b t' ht' hm')
      | refl a => exact .refl _
      | symm a b _ ih => exact ih.symm _ _
      | trans a b c _ _ ih1 ih2 => exact ih1.trans _ _ _ ih2
  -- roots
  have hroot : ∃ root : Nat → Nat, ∀ x, x < n → Root s.parent x (root x) := by
    refine ⟨fun x => if h : x < n then (hi.root h).choose else 0, fun x hx => ?_⟩
    simp only [hx, dif_pos]
    exact (hi.root hx).choose_spec
  obtain ⟨root, hroot⟩ := hroot
  have hg := gather_spec hd root L s [] 0 hi hroot (by omega)
  -- index-level groups
  set ipairs : List (Nat × Nat) := (List.range n).map (fun i => (root i, i)) with hip
  obtain ⟨_, hikeys, hivals⟩ := groupPairs_spec ipairs
  have hgi : ((List.range' 0 L.length).zip L).foldl (fun d p => dictAppend d (root p.1) p.2) [] =
      (groupPairs ipairs).map (fun p => (p.1, p.2.map (fun i => L.getD i []))) := by
    rw [← groupPairs_map, hip, List.map_map]
    have hz : (List.range' 0 L.length).zip L = (List.range n).map (fun i => (i, L.getD i [])) := by
      apply List.ext_getElem
      · simp [hn]
      · intro i h1 h2
        simp at h1
        simp [List.getD_eq_getElem?_getD, List.getElem?_eq_getElem h1]
    rw [hz, groupPairs, List.foldl_map, List.foldl_map]
    rfl
  refine ⟨(groupPairs ipairs).map (fun p => p.2.map (fun i => L.getD i [])), ?_,
    (groupPairs ipairs).map Prod.snd, ?_, ?_, ?_, ?_⟩
  · rw [groupTuples, hmap, unionDigits_eq _ _ hne, e1]
    simp only [hg, hgi]
    simp
  · simp
  · refine (groupPairs_perm ipairs).trans ?_
    rw [hip, List.map_map]
    exact .of_eq (List.map_id _)
  · intro c hc
    obtain ⟨⟨k, vs⟩, hp, rfl⟩ := List.mem_map.1 hc
    have hv := hivals k vs hp
    constructor
    · have : k ∈ ipairs.map Prod.fst := (hikeys k).1 (List.mem_map.2 ⟨_, hp, rfl⟩)
      obtain ⟨⟨k', j⟩, hj, rfl⟩ := List.mem_map.1 this
      show vs ≠ []
      rw [hv]
      intro hnil
      have : j ∈ valuesAt ipairs k' := by simp [valuesAt, hj]
      rw [hnil] at this; simp at this
    · show vs.Pairwise (· < ·)
      rw [hv, valuesAt]
      have h0 : (ipairs.map Prod.snd).Pairwise (· < ·) := by
        rw [hip, List.map_map]
        show ((List.range n).map id).Pairwise _
        rw [List.map_id]; exact List.pairwise_lt_range
      exact h0.sublist (List.Sublist.map _ List.filter_sublist)
  · intro i j hi' hj'
    rw [← hgen, ← hS i j hi' hj']
    have hin : ∀ k vs, (k, vs) ∈ groupPairs ipairs → ∀ x, x ∈ vs ↔ x < n ∧ root x = k := by
      intro k vs h x
      rw [hivals k vs h, valuesAt, hip]
      simp
    constructor
    · rintro ⟨c, hc, hic, hjc⟩
      obtain ⟨⟨k, vs⟩, hp, rfl⟩ := List.mem_map.1 hc
      have h1 := (hin _ _ hp i).1 hic
      have h2 := (hin _ _ hp j).1 hjc
      exact ⟨k, h1.2 ▸ hroot i hi', h2.2 ▸ hroot j hj'⟩
    · rintro ⟨r, h1, h2⟩
      have e1 := h1.unique (hroot i hi')
      have e2 := h2.unique (hroot j hj')
      have : root i ∈ (groupPairs ipairs).map Prod.fst := (hikeys _).2 (by
        rw [hip]; simp only [List.map_map, List.mem_map, List.mem_range]
        exact ⟨i, hi', rfl⟩)
      obtain ⟨⟨k, vs⟩, hp, hk⟩ := List.mem_map.1 this
      refine ⟨vs, List.mem_map.2 ⟨_, hp, rfl⟩, (hin _ _ hp i).2 ⟨hi', hk.symm⟩, (hin _ _ hp j).2 ⟨hj', ?_⟩⟩
      rw [← e2, e1]; exact hk.symm

/-- Concrete run (the example in the source file): two groups. -/
example : groupTuples 4 [[0, 1], [1, 2], [3, 4, 5], [3, 6], [2, 7]] =
    some [[[0, 1], [1, 2], [2, 7]], [[3, 4, 5], [3, 6]]] := by decide

end Verif.UnionFind
