import Verif.KdTree.KExact
import Verif.KdTree.Delete
import Mathlib.Algebra.Order.Ring.Int

/-! # C08-C10, C51: the balanced k-d tree -/

namespace Verif.KdTree
variable {K : Type} [CommRing K] [LinearOrder K] [IsStrictOrderedRing K]

omit [IsStrictOrderedRing K] in
theorem run_inserts (unb : Nat → Nat → Nat → Bool) (dim : Nat) (hdim : 0 < dim) (qs : List (Point K)) :
    ∀ t : Tree K, Inv dim t → (∀ q ∈ qs, q.length = dim) →
      (collect (run unb t (qs.map Op.insert))).Perm (collect t ++ qs) ∧ Inv dim (run unb t (qs.map Op.insert)) := by
  induction qs with
  | nil => intro t h _; exact ⟨by simp [run], h⟩
  | cons q qs ih =>
    intro t h hq
    obtain ⟨t', e, hp, hi⟩ := insert_spec unb dim hdim q (hq q List.mem_cons_self) t h
    obtain ⟨h1, h2⟩ := ih t' hi (fun x hx => hq x (List.mem_cons_of_mem _ hx))
    have : run unb t ((q :: qs).map Op.insert) = run unb t' (qs.map Op.insert) := by
      simp [run, step, e]
    rw [this]
    refine ⟨h1.trans ((hp.append_right qs).trans ?_), h2⟩
    exact List.perm_middle.symm

omit [IsStrictOrderedRing K] in
theorem ofPoints_spec (dim : Nat) (hdim : 0 < dim) (pts : List (Point K)) (h : ∀ p ∈ pts, p.length = dim) :
    ∃ t, ofPoints pts = some t ∧ (collect t).Perm pts ∧ Inv dim t := by
  cases pts with
  | nil => exact ⟨.nil, rfl, List.Perm.refl _, trivial⟩
  | cons p0 ps =>
    have : (p0 :: ps).all (fun p => p.length == p0.length) = true := by
      rw [List.all_eq_true]
      intro p hp
      simp [h p hp, h p0 List.mem_cons_self]
    exact ⟨build 0 (p0 :: ps), by simp only [ofPoints, this, if_true], build_spec dim hdim 0 _ h⟩

/-- **C08.** For every rebalancing policy `unb` (hence any rounding of the threshold), every list of points of a common
dimension given to the constructor and every sequence of inserts, `nearest_neighbor(q)` returns one of the points given,
and no point given is closer. -/
theorem C08_nearest_is_minimal (unb : Nat → Nat → Nat → Bool) (dim : Nat) (hdim : 0 < dim) (pts qs : List (Point K))
    (hp : ∀ p ∈ pts, p.length = dim) (hq : ∀ q ∈ qs, q.length = dim) (hne : pts ++ qs ≠ []) (target : Point K)
    (ht : target.length = dim) :
    ∃ t p, ofPoints pts = some t ∧ nearest (run unb t (qs.map Op.insert)) target = some p ∧ p ∈ pts ++ qs ∧
      ∀ q ∈ pts ++ qs, distSq target p ≤ distSq target q := by
  obtain ⟨t, e, h1, h2⟩ := ofPoints_spec dim hdim pts hp
  obtain ⟨h3, h4⟩ := run_inserts unb dim hdim qs t h2 hq
  have hperm := h3.trans (h1.append_right qs)
  have hne' : collect (run unb t (qs.map Op.insert)) ≠ [] := by
    intro he; rw [he] at hperm; exact hne hperm.symm.eq_nil
  obtain ⟨p, e1, e2, e3⟩ := nearest_spec dim target ht _ h4 hne'
  exact ⟨t, p, e, e1, hperm.mem_iff.1 e2, fun q hq => e3 q (hperm.mem_iff.2 hq)⟩

/-- An instance that prunes a subtree and rebuilds after the inserts. -/
example : (ofPoints [[2, 3], [5, 4], [9, 6], [4, 7], [8, 1], [7, 2]]).bind
    (fun t => nearest (run unb07 t ([[9, 2], [9, 3], [9, 1], [9, 4]].map Op.insert)) [9, (5 : Int)]) = some [9, 6] := by
  decide

omit [IsStrictOrderedRing K] in
/-- A point of another dimension is rejected by the constructor and by `insert`. -/
theorem C08_wrong_dimension_rejected (unb : Nat → Nat → Nat → Bool) (p0 p q : Point K) (ps : List (Point K)) (a : Nat)
    (l r : Tree K) (s : Nat) (hp : p ∈ ps) (hl : p.length ≠ p0.length) (hq : q.length ≠ p0.length) :
    ofPoints (p0 :: ps) = none ∧ insert unb (.node p0 a l r s) q = none := by
  constructor
  · have : (p0 :: ps).all (fun p => p.length == p0.length) = false := by
      rw [List.all_eq_false]
      exact ⟨p, List.mem_cons_of_mem _ hp, by simpa using hl⟩
    simp [ofPoints] at this ⊢
    exact this
  · simp [insert, hq]

example : ofPoints [[1, 2], [(3 : Int)]] = none := by decide

/-- The full C09 claim for a history: contents follow the multiset specification. -/
def specStep {K : Type} [DecidableEq K] (m : List (Point K)) : Op K → List (Point K)
  | .insert p => p :: m
  | .delete p => m.erase p

def ContentsClaim (pts : List (Point Int)) (ops : List (Op Int)) : Prop :=
  ∃ t, ofPoints pts = some t ∧ (collect (run unb07 t ops)).Perm (ops.foldl specStep pts)

/-- **C09 (refuted).** A point equal in the splitting coordinate can sit in the right subtree, where `delete` does not
look: deleting `(1,3)` from `[(1,1),(1,2),(1,3)]` leaves it stored. -/
theorem C09_delete_misses_refuted : ¬ ContentsClaim [[1, 1], [1, 2], [1, 3]] [.delete [1, 3]] := by
  rintro ⟨t, e, h⟩
  have h1 := h.length_eq
  have h2 : (ofPoints [[1, 1], [1, 2], [1, (3 : Int)]]).map
    (fun t => (collect (run unb07 t [.delete [1, 3]])).length) = some 3 := by decide
  rw [e] at h2
  simp only [Option.map_some, Option.some.injEq] at h2
  rw [h2] at h1
  exact absurd h1 (by decide)

omit [IsStrictOrderedRing K] in
/-- **C09 (partial).** Under constructor and inserts (with any rebuilds) the stored multiset is exactly the points
given.  Missing compared with the full claim: deletes, refuted above. -/
theorem C09_contents_inserts_partial (unb : Nat → Nat → Nat → Bool) (dim : Nat) (hdim : 0 < dim) (pts qs : List (Point K))
    (hp : ∀ p ∈ pts, p.length = dim) (hq : ∀ q ∈ qs, q.length = dim) :
    ∃ t, ofPoints pts = some t ∧ (collect (run unb t (qs.map Op.insert))).Perm (pts ++ qs) := by
  obtain ⟨t, e, h1, h2⟩ := ofPoints_spec dim hdim pts hp
  obtain ⟨h3, _⟩ := run_inserts unb dim hdim qs t h2 hq
  exact ⟨t, e, h3.trans (h1.append_right qs)⟩

/-! ### C09: deletes -/

/-- The points inserted by a history, in order. -/
def inserted {K : Type} : List (Op K) → List (Point K)
  | [] => []
  | .insert p :: os => p :: inserted os
  | .delete _ :: os => inserted os

omit [IsStrictOrderedRing K] in
theorem step_mem (unb : Nat → Nat → Nat → Bool) (dim : Nat) (hdim : 0 < dim) (t : Tree K) (ht : AllLen dim t) (o : Op K)
    (ho : match o with | .insert p => p.length = dim | .delete p => p.length = dim) :
    AllLen dim (step unb t o) ∧
    (∀ x, x ∈ collect (step unb t o) → x ∈ collect t ∨ o = .insert x) ∧
    (∀ x, o ≠ .delete x → (collect t ++ inserted [o]).count x ≤ (collect (step unb t o)).count x) := by
  cases o with
  | insert p =>
    dsimp only at ho
    -- insertion keeps the multiset even where the split invariant is broken
    have key : ∀ (u : Tree K) (depth : Nat), AllLen dim u → (collect (insertRec unb p depth u)).Perm (p :: collect u) := by
      intro u
      induction u with
      | nil => intro depth _; simp [insertRec, collect]
      | node q a l r s ihl ihr =>
        intro depth hu
        obtain ⟨hq, hl, hr⟩ := AllLen.node.1 hu
        simp only [insertRec]
        split
        · have h1 := ihl (depth + 1) hl
          refine (finish_perm unb dim hdim depth q a _ r hq (fun x hx => ?_) hr).trans ?_
          · rcases List.mem_cons.1 (h1.mem_iff.1 hx) with rfl | hx
            · exact ho
            · exact hl x hx
          · refine ((h1.append_right _).cons q).trans ?_
            simpa [collect] using List.Perm.swap p q (collect l ++ collect r)
        · have h1 := ihr (depth + 1) hr
          refine (finish_perm unb dim hdim depth q a l _ hq hl (fun x hx => ?_)).trans ?_
          · rcases List.mem_cons.1 (h1.mem_iff.1 hx) with rfl | hx
            · exact ho
            · exact hr x hx
          · refine ((h1.append_left _).cons q).trans ?_
            refine (List.perm_middle.cons q).trans ?_
            simpa [collect] using List.Perm.swap p q (collect l ++ collect r)
    have hp : (collect (step unb t (.insert p))).Perm (p :: collect t) := by
      cases t with
      | nil => simp [step, insert, collect]
      | node q a l r s =>
        have hq := (AllLen.node.1 ht).1
        simp only [step, insert]
        rw [if_neg (by rw [ho, hq]; simp)]
        exact key _ 0 ht
    refine ⟨fun x hx => ?_, fun x hx => ?_, fun x _ => ?_⟩
    · rcases List.mem_cons.1 (hp.mem_iff.1 hx) with rfl | hx
      · exact ho
      · exact ht x hx
    · rcases List.mem_cons.1 (hp.mem_iff.1 hx) with rfl | hx
      · exact .inr rfl
      · exact .inl hx
    · rw [hp.count_eq]
      exact (List.perm_append_singleton p (collect t)).count_eq x |>.le
  | delete p =>
    dsimp only at ho
    have hp : DelRel p (collect t) (collect (step unb t (.delete p))) := by
      cases t with
      | nil => exact .inr ⟨p, .inl rfl, by simp [step, delete]⟩
      | node q a l r s =>
        have hq := (AllLen.node.1 ht).1
        simp only [step, delete]
        rw [if_neg (by rw [ho, hq]; simp)]
        exact deleteRec_rel unb dim hdim _ 0 p ht
    refine ⟨fun x hx => ht x (hp.mem hx), fun x hx => .inl (hp.mem hx), fun x hx => ?_⟩
    have : x ≠ p := fun h => hx (by rw [h])
    simpa [inserted] using hp.count this

omit [IsStrictOrderedRing K] in
/-- **C09 (partial, every history).** After any history of inserts and deletes, every stored point was given to the
constructor or inserted, and a point that no delete names is stored at least as often as it was given.  Missing compared
with the full claim: that a delete removes its point and leaves no stale copy (refuted above). -/
theorem C09_history_partial (unb : Nat → Nat → Nat → Bool) (dim : Nat) (hdim : 0 < dim) (pts : List (Point K))
    (hp : ∀ p ∈ pts, p.length = dim) (ops : List (Op K))
    (ho : ∀ o ∈ ops, match o with | .insert p => p.length = dim | .delete p => p.length = dim) :
    ∃ t, ofPoints pts = some t ∧ (∀ x ∈ collect (run unb t ops), x ∈ pts ++ inserted ops) ∧
      ∀ x, (Op.delete x) ∉ ops → (pts ++ inserted ops).count x ≤ (collect (run unb t ops)).count x := by
  obtain ⟨t, e, h1, h2⟩ := ofPoints_spec dim hdim pts hp
  refine ⟨t, e, ?_⟩
  have main : ∀ (ops : List (Op K)) (t : Tree K) (base : List (Point K)), AllLen dim t →
      (∀ o ∈ ops, match o with | .insert p => p.length = dim | .delete p => p.length = dim) →
      (∀ x ∈ collect t, x ∈ base) →
      (∀ x ∈ collect (run unb t ops), x ∈ base ++ inserted ops) ∧
      ∀ x, (Op.delete x) ∉ ops → base.count x ≤ (collect t).count x →
        (base ++ inserted ops).count x ≤ (collect (run unb t ops)).count x := by
    intro ops
    induction ops with
    | nil =>
      intro t base _ _ hb
      exact ⟨by simpa [run, inserted] using hb, fun x _ h => by simpa [run, inserted] using h⟩
    | cons o os ih =>
      intro t base ht hos hb
      obtain ⟨s1, s2, s3⟩ := step_mem unb dim hdim t ht o (hos o List.mem_cons_self)
      have hrun : run unb t (o :: os) = run unb (step unb t o) os := rfl
      cases o with
      | insert p =>
        obtain ⟨i1, i2⟩ := ih (step unb t (.insert p)) (base ++ [p]) s1 (fun o h => hos o (List.mem_cons_of_mem _ h)) (by
          intro x hx
          rcases s2 x hx with h | h
          · exact List.mem_append_left _ (hb x h)
          · cases h; exact List.mem_append_right _ (List.mem_singleton_self _))
        refine ⟨fun x hx => by simpa [inserted] using i1 x hx, fun x hx hc => ?_⟩
        have := i2 x (fun h => hx (List.mem_cons_of_mem _ h)) (by
          have := s3 x (by simp)
          simp only [inserted, List.count_append] at this ⊢
          omega)
        rw [hrun]
        simpa [inserted] using this
      | delete p =>
        obtain ⟨i1, i2⟩ := ih (step unb t (.delete p)) base s1 (fun o h => hos o (List.mem_cons_of_mem _ h)) (by
          intro x hx
          rcases s2 x hx with h | h
          · exact hb x h
          · cases h)
        refine ⟨fun x hx => by simpa [inserted] using i1 x hx, fun x hx hc => ?_⟩
        have := i2 x (fun h => hx (List.mem_cons_of_mem _ h)) (by
          have := s3 x (by rintro ⟨⟩; exact hx List.mem_cons_self)
          simp [inserted] at this; omega)
        rw [hrun]
        simpa [inserted] using this
  obtain ⟨m1, m2⟩ := main ops t pts h2.length ho (fun x hx => h1.mem_iff.1 hx)
  exact ⟨m1, fun x hx => m2 x hx (by rw [h1.count_eq])⟩

/-- The history of the refutation, continued: the partial claim applies to the points not deleted. -/
example : (ofPoints [[1, 1], [1, 2], [1, (3 : Int)]]).map (fun t => (collect (run unb07 t [.delete [1, 3], .insert [4, 4]])).count [1, 2]) =
    some 1 := by decide

omit [IsStrictOrderedRing K] in
/-- **C09 (partial, first delete).** If the stored points differ pairwise in every coordinate, the first delete after any
constructor call and inserts removes exactly the point named (one copy, nothing else), and changes nothing when the point
is not stored. -/
theorem C09_first_delete_partial (unb : Nat → Nat → Nat → Bool) (dim : Nat) (hdim : 0 < dim) (pts qs : List (Point K))
    (hp : ∀ p ∈ pts, p.length = dim) (hq : ∀ q ∈ qs, q.length = dim) (hg : General dim (pts ++ qs)) (x : Point K)
    (hx : x.length = dim) :
    ∃ t, ofPoints pts = some t ∧
      (collect (run unb t (qs.map Op.insert ++ [.delete x]))).Perm ((pts ++ qs).erase x) := by
  obtain ⟨t, e, h1, h2⟩ := ofPoints_spec dim hdim pts hp
  obtain ⟨h3, h4⟩ := run_inserts unb dim hdim qs t h2 hq
  have hperm := h3.trans (h1.append_right qs)
  refine ⟨t, e, ?_⟩
  have hrun : run unb t (qs.map Op.insert ++ [.delete x]) = step unb (run unb t (qs.map Op.insert)) (.delete x) := by
    simp [run, List.foldl_append]
  rw [hrun]
  generalize run unb t (qs.map Op.insert) = T at *
  have hs := invS_of_inv dim T h4 (hg.perm hperm.symm)
  have key : (x ∈ collect T → (x :: collect (step unb T (.delete x))).Perm (collect T)) ∧
      (x ∉ collect T → (collect (step unb T (.delete x))).Perm (collect T)) := by
    cases T with
    | nil => exact ⟨fun h => by simp [collect] at h, fun _ => by simp [step, delete]⟩
    | node q a l r s =>
      have hq := hs.2.1
      simp only [step, delete]
      rw [if_neg (by rw [hx, hq]; simp)]
      exact deleteRec_exact unb dim hdim _ 0 x hs
  by_cases hm : x ∈ collect T
  · have h5 := (key.1 hm).trans hperm
    have h6 := (List.perm_cons_erase (hperm.mem_iff.1 hm) : (pts ++ qs).Perm (x :: (pts ++ qs).erase x))
    exact (h5.trans h6).cons_inv
  · rw [List.erase_of_not_mem (fun h => hm (hperm.mem_iff.2 h))]
    exact (key.2 hm).trans hperm

example : General 2 ([[2, 3], [5, 4], [9, 6], [4, 7]] ++ [[8, 1], [7, (2 : Int)]]) ∧
    (ofPoints [[2, 3], [5, 4], [9, 6], [4, (7 : Int)]]).map
      (fun t => collect (run unb07 t ([[8, 1], [7, 2]].map Op.insert ++ [.delete [5, 4]]))) =
      some [[7, 2], [4, 7], [2, 3], [9, 6], [8, 1]] := by
  constructor
  · unfold General; decide
  · decide

/-! ### C10 -/

/-- The full C10 claim: exactly `min(k, n)` points come back. -/
def KnnCountClaim (pts : List (Point Int)) (q : Point Int) (k : Nat) : Prop :=
  ∃ t res, ofPoints pts = some t ∧ kNearest t q k = some res ∧ res.length = min k pts.length

/-- **C10 (refuted).** Pruning starts before `k` points were found: two nearest of `[(0),(10)]` from `(11)` gives one. -/
theorem C10_too_few_refuted : ¬ KnnCountClaim [[0], [10]] [11] 2 := by
  rintro ⟨t, res, e, h, hl⟩
  have h2 : (ofPoints [[0], [(10 : Int)]]).bind (fun t => (kNearest t [11] 2).map List.length) = some 1 := by decide
  rw [e] at h2
  rw [show ((2 : Nat) : Int) = 2 from rfl] at h
  simp only [Option.bind_some, h, Option.map_some, Option.some.injEq] at h2
  rw [h2] at hl
  exact absurd hl (by decide)

omit [IsStrictOrderedRing K] in
theorem kNearest_eq (T : Tree K) (target : Point K) (k : Nat) (hk : 0 < k) :
    kNearest T target k = some ((kRec target k T []).map Prod.snd).reverse := by
  cases T with
  | nil => simp [kNearest, kRec]
  | node p a l r s =>
    simp only [kNearest]
    rw [if_neg (by omega), Int.toNat_natCast, kNearestRec_eq target k hk]
    rfl

omit [IsStrictOrderedRing K] in
/-- **C10 (no neighbours asked).** For `k ≤ 0` the answer is the empty list, in every tree. -/
theorem C10_nonpositive (t : Tree K) (target : Point K) (k : Int) (hk : k ≤ 0) : kNearest t target k = some [] := by
  cases t with
  | nil => rfl
  | node p a l r s => simp only [kNearest, if_pos hk]

/-- **C10 (partial).** For every `k ≥ 1` and every tree made by constructor and inserts, the query raises nothing, the
result has at most `k` points, is a sub-multiset of the stored points, is sorted nearest first, and its first entry is a
true nearest neighbour.  Missing compared with the full claim: that `min(k,n)` points come back and that none left out is
nearer (refuted above; true under the condition of the next theorem). -/
theorem C10_knn_partial (unb : Nat → Nat → Nat → Bool) (dim : Nat) (hdim : 0 < dim) (pts qs : List (Point K))
    (hp : ∀ p ∈ pts, p.length = dim) (hq : ∀ q ∈ qs, q.length = dim) (hne : pts ++ qs ≠ []) (target : Point K)
    (ht : target.length = dim) (k : Nat) (hk : 0 < k) :
    ∃ t p rest, ofPoints pts = some t ∧ kNearest (run unb t (qs.map Op.insert)) target k = some (p :: rest) ∧
      (p :: rest).length ≤ k ∧ (p :: rest).Subperm (pts ++ qs) ∧
      (p :: rest).Pairwise (fun x y => distSq target x ≤ distSq target y) ∧
      ∀ q ∈ pts ++ qs, distSq target p ≤ distSq target q := by
  obtain ⟨t, e, h1, h2⟩ := ofPoints_spec dim hdim pts hp
  obtain ⟨h3, h4⟩ := run_inserts unb dim hdim qs t h2 hq
  have hperm := h3.trans (h1.append_right qs)
  obtain ⟨T, hT⟩ : ∃ T, run unb t (qs.map Op.insert) = T := ⟨_, rfl⟩
  rw [hT] at hperm h3 h4
  have g := kRec_good dim target ht k hk T [] h4 (by simp [Desc]) (by simp) (by simp)
  obtain ⟨res, hres'⟩ : ∃ res, ((kRec target k T []).map Prod.snd).reverse = res := ⟨_, rfl⟩
  have hkn : kNearest T target k = some res := by rw [kNearest_eq T target k hk, hres']
  have hsub : res.Subperm (pts ++ qs) := by
    rw [← hres']
    exact (List.reverse_perm _).subperm.trans ((by simpa using g.sub : List.Subperm _ (collect T)).trans hperm.subperm)
  have hsorted : res.Pairwise (fun x y => distSq target x ≤ distSq target y) := by
    rw [← hres', List.pairwise_reverse, List.pairwise_map]
    refine List.Pairwise.imp_of_mem ?_ g.desc
    intro x y hx hy hxy
    rw [distSq_comm target y.2, distSq_comm target x.2, ← g.honest x hx, ← g.honest y hy]
    exact hxy
  have hlen : res.length ≤ k := by rw [← hres']; simpa using g.len
  have hcov : ∀ q ∈ pts ++ qs, ∃ y ∈ res, distSq target y ≤ distSq target q := by
    intro q hq
    obtain ⟨y, hy, hle⟩ := g.cover q (hperm.mem_iff.2 hq)
    refine ⟨y.2, by rw [← hres']; simpa using ⟨y.1, hy⟩, ?_⟩
    rw [distSq_comm target y.2, distSq_comm target q, ← g.honest y hy]
    exact hle
  cases res with
  | nil =>
    obtain ⟨q, hq⟩ := List.exists_mem_of_ne_nil _ hne
    obtain ⟨y, hy, _⟩ := hcov q hq
    simp at hy
  | cons p rest =>
    refine ⟨t, p, rest, e, by rw [hT]; exact hkn, hlen, hsub, hsorted, ?_⟩
    intro q hq
    obtain ⟨y, hy, hle⟩ := hcov q hq
    rcases List.mem_cons.1 hy with rfl | hy
    · exact hle
    · exact ((List.pairwise_cons.1 hsorted).1 y hy).trans hle

/-- **C10 (full claim in general position).** If every stored point differs from the target in at least two coordinates,
the query returns exactly the `min(k,n)` nearest points: together with the points left out they are the stored multiset,
they are sorted, and no point left out is nearer than a returned one. -/
theorem C10_knn_exact_partial (unb : Nat → Nat → Nat → Bool) (dim : Nat) (hdim : 0 < dim) (pts qs : List (Point K))
    (hp : ∀ p ∈ pts, p.length = dim) (hq : ∀ q ∈ qs, q.length = dim) (target : Point K)
    (ht : target.length = dim) (k : Nat) (hk : 0 < k)
    (hgen : ∀ q ∈ pts ++ qs, ∀ a, a < dim → ∃ b, b < dim ∧ b ≠ a ∧ coord target b ≠ coord q b) :
    ∃ t res left, ofPoints pts = some t ∧ kNearest (run unb t (qs.map Op.insert)) target k = some res ∧
      (res ++ left).Perm (pts ++ qs) ∧ res.length = min k (pts ++ qs).length ∧
      res.Pairwise (fun x y => distSq target x ≤ distSq target y) ∧
      ∀ x ∈ res, ∀ y ∈ left, distSq target x ≤ distSq target y := by
  obtain ⟨t, e, h1, h2⟩ := ofPoints_spec dim hdim pts hp
  obtain ⟨h3, h4⟩ := run_inserts unb dim hdim qs t h2 hq
  have hperm := h3.trans (h1.append_right qs)
  obtain ⟨T, hT⟩ : ∃ T, run unb t (qs.map Op.insert) = T := ⟨_, rfl⟩
  rw [hT] at hperm h3 h4
  have g := kRec_good dim target ht k hk T [] h4 (by simp [Desc]) (by simp) (by simp)
  have hlenT := h4.length
  obtain ⟨o, x⟩ := kRec_exact dim target ht k hk T [] h4 (by simp [Desc]) (by simp) (by simp) (by
    intro q hqm a ha
    obtain ⟨b, hb, hba, hne⟩ := hgen q (hperm.mem_iff.1 hqm) a ha
    have := coord_lt_distSq target q a b (by omega) (by omega) (by rw [ht, hlenT q hqm]) hba hne
    rw [distSq_comm, ← pow_two]
    exact this)
  have hP : (((kRec target k T []).map Prod.snd).reverse ++ o).Perm (pts ++ qs) :=
    ((List.reverse_perm _).append_right o).trans (x.perm.trans (by simpa using hperm))
  refine ⟨t, _, o, e, by rw [hT]; exact kNearest_eq T target k hk, hP, ?_, ?_, ?_⟩
  · have hl := hP.length_eq
    rw [List.length_append] at hl
    have hk' := g.len
    simp only [List.length_reverse, List.length_map] at hl ⊢
    by_cases ho : o = []
    · rw [ho] at hl; simp only [List.length_nil] at hl; omega
    · have := x.full ho; omega
  · rw [List.pairwise_reverse, List.pairwise_map]
    refine List.Pairwise.imp_of_mem ?_ g.desc
    intro x y hx hy hxy
    rw [distSq_comm target y.2, distSq_comm target x.2, ← g.honest x hx, ← g.honest y hy]
    exact hxy
  · intro z hz y hy
    simp only [List.mem_reverse, List.mem_map] at hz
    obtain ⟨w, hw, rfl⟩ := hz
    rw [distSq_comm target w.2, distSq_comm target y, ← g.honest w hw]
    exact x.far y hy w hw

example : (ofPoints [[2, 3], [5, 4], [9, 6], [4, 7], [8, 1], [7, (2 : Int)]]).bind (fun t => kNearest t [6, 5] 4) =
    some [[5, 4], [4, 7], [9, 6], [7, 2]] ∧
    ∀ q ∈ [[2, 3], [5, 4], [9, 6], [4, 7], [8, 1], [7, (2 : Int)]], ∀ a, a < 2 →
      ∃ b, b < 2 ∧ b ≠ a ∧ coord [6, 5] b ≠ coord q b := by decide

/-- **C51 (refuted).** The nearest-neighbour guarantee does not survive `delete`: after inserting `(4,0)`, `(2,0)`,
`(3,0)` and deleting `(4,0)`, the nearest stored point to `(5,0)` is `(3,0)` but `(2,0)` is returned. -/
theorem C51_nearest_after_delete_refuted :
    let t := run unb07 (.nil : Tree Int) [.insert [4, 0], .insert [2, 0], .insert [3, 0], .delete [4, 0]]
    collect t = [[2, 0], [3, 0]] ∧ nearest t [5, 0] = some [2, 0] ∧
      distSq [5, 0] [3, (0 : Int)] < distSq [5, 0] [2, 0] := by decide

omit [IsStrictOrderedRing K] in
/-- **C51 (partial, any history).** After any history of inserts and deletes the query on a non-empty tree returns a stored
point (never a deleted leftover outside the tree, never `None`).  Missing: that it is a nearest one (refuted above). -/
theorem C51_returns_stored_partial (t : Tree K) (target : Point K) :
    (nearest t target = none ↔ collect t = []) ∧ ∀ p, nearest t target = some p → p ∈ collect t := by
  have key : ∀ (t : Tree K) (best : Best K), (∀ p d, nearestRec target t best = some (p, d) → best = some (p, d) ∨ p ∈ collect t) ∧
      (best ≠ none ∨ t ≠ .nil → nearestRec target t best ≠ none) := by
    intro t
    induction t with
    | nil =>
      intro best
      refine ⟨fun p d h => .inl h, fun h => ?_⟩
      rcases h with h | h
      · exact h
      · exact absurd rfl h
    | node p a l r s ihl ihr =>
      intro best
      simp only [nearestRec]
      obtain ⟨b1, hb1⟩ : ∃ b1, (if ltBest (distSq target p) best = true then some (p, distSq target p) else best) = b1 := ⟨_, rfl⟩
      rw [hb1]
      have h1 : (∀ p' d, b1 = some (p', d) → best = some (p', d) ∨ p' = p) ∧ b1 ≠ none := by
        rw [← hb1]
        split
        · exact ⟨fun p' d h => by cases h; exact .inr rfl, by simp⟩
        · rename_i hc
          refine ⟨fun p' d h => .inl h, ?_⟩
          intro hn; rw [hn] at hc; exact hc rfl
      have two : ∀ (x y : Tree K), (∀ q, q ∈ collect x → q ∈ collect (.node p a l r s)) → (∀ q, q ∈ collect y → q ∈ collect (.node p a l r s)) →
          (∀ best, (∀ p d, nearestRec target x best = some (p, d) → best = some (p, d) ∨ p ∈ collect x) ∧
            (best ≠ none ∨ x ≠ .nil → nearestRec target x best ≠ none)) →
          (∀ best, (∀ p d, nearestRec target y best = some (p, d) → best = some (p, d) ∨ p ∈ collect y) ∧
            (best ≠ none ∨ y ≠ .nil → nearestRec target y best ≠ none)) → ∀ c : Bool,
          (∀ p' d, (if c = true then nearestRec target y (nearestRec target x b1) else nearestRec target x b1) = some (p', d) →
            best = some (p', d) ∨ p' ∈ collect (.node p a l r s)) ∧
          ((if c = true then nearestRec target y (nearestRec target x b1) else nearestRec target x b1) ≠ none) := by
        intro x y hx hy ihx ihy c
        have f1 : ∀ p' d, nearestRec target x b1 = some (p', d) → best = some (p', d) ∨ p' ∈ collect (.node p a l r s) := by
          intro p' d h
          rcases (ihx b1).1 p' d h with h | h
          · rcases h1.1 p' d h with h | h
            · exact .inl h
            · right; rw [h]; simp [collect]
          · exact .inr (hx p' h)
        have f2 := (ihx b1).2 (.inl h1.2)
        cases c with
        | false => exact ⟨f1, f2⟩
        | true =>
          refine ⟨fun p' d h => ?_, (ihy _).2 (.inl f2)⟩
          rcases (ihy _).1 p' d h with h | h
          · exact f1 p' d h
          · exact .inr (hy p' h)
      have hl : ∀ q, q ∈ collect l → q ∈ collect (.node p a l r s) := fun q h => by simp [collect, h]
      have hr : ∀ q, q ∈ collect r → q ∈ collect (.node p a l r s) := fun q h => by simp [collect, h]
      split
      · obtain ⟨a1, a2⟩ := two l r hl hr ihl ihr
          (ltBest ((coord target a - coord p a) * (coord target a - coord p a)) (nearestRec target l b1))
        exact ⟨a1, fun _ => a2⟩
      · obtain ⟨a1, a2⟩ := two r l hr hl ihr ihl
          (ltBest ((coord target a - coord p a) * (coord target a - coord p a)) (nearestRec target r b1))
        exact ⟨a1, fun _ => a2⟩
  cases t with
  | nil => exact ⟨⟨fun _ => rfl, fun _ => rfl⟩, fun p h => by cases h⟩
  | node p a l r s =>
    obtain ⟨k1, k2⟩ := key (.node p a l r s) none
    have hn := k2 (.inr (by simp))
    refine ⟨⟨fun h => ?_, fun h => by simp [collect] at h⟩, fun q h => ?_⟩
    · simp only [nearest, Option.map_eq_none_iff] at h
      exact absurd h hn
    · simp only [nearest, Option.map_eq_some_iff] at h
      obtain ⟨⟨q', d⟩, h, rfl⟩ := h
      rcases k1 q' d h with h | h
      · cases h
      · exact h

/-- **C51 (partial, first delete from a perfect tree).** For `2^h - 1` points that differ pairwise in every coordinate
(so that the constructor builds a perfect tree), after deleting any one point the nearest-neighbour query is still right
for every target. -/
theorem C51_first_delete_partial (unb : Nat → Nat → Nat → Bool) (dim : Nat) (hdim : 0 < dim) (h : Nat) (pts : List (Point K))
    (hn : pts.length = 2 ^ h - 1) (hp : ∀ p ∈ pts, p.length = dim) (hg : General dim pts) (x target : Point K)
    (hx : x.length = dim) (ht : target.length = dim) (hne : pts.erase x ≠ []) :
    ∃ t p, ofPoints pts = some t ∧ nearest (run unb t [.delete x]) target = some p ∧ p ∈ pts.erase x ∧
      ∀ q ∈ pts.erase x, distSq target p ≤ distSq target q := by
  obtain ⟨t, e, h1, h2⟩ := ofPoints_spec dim hdim pts hp
  obtain ⟨t', e', h3⟩ := C09_first_delete_partial unb dim hdim pts [] hp (by simp) (by simpa using hg) x hx
  rw [e] at e'
  cases e'
  simp only [List.map_nil, List.nil_append, List.append_nil] at h3
  have hs := invS_of_inv dim t h2 (hg.perm h1.symm)
  have hf : RightFull t := by
    cases pts with
    | nil => simp only [ofPoints, Option.some.injEq] at e; subst e; trivial
    | cons p0 ps =>
      simp only [ofPoints] at e
      split at e
      · cases e; exact (buildF_full h _ 0 _ hn).1
      · cases e
  have hi : Inv dim (run unb t [.delete x]) := by
    show Inv dim (step unb t (.delete x))
    cases t with
    | nil => exact h2
    | node q a l r s =>
      have hq := hs.2.1
      simp only [step, delete]
      rw [if_neg (by rw [hx, hq]; simp)]
      exact deleteRec_inv unb dim hdim _ 0 x hs hf
  have hne' : collect (run unb t [.delete x]) ≠ [] := by
    intro he; rw [he] at h3; exact hne h3.symm.eq_nil
  obtain ⟨p, f1, f2, f3⟩ := nearest_spec dim target ht _ hi hne'
  exact ⟨t, p, e, f1, h3.mem_iff.1 f2, fun q hq => f3 q (h3.mem_iff.2 hq)⟩

example : General 2 [[2, 3], [5, 4], [9, 6], [4, 7], [8, 1], [7, 2], [(1 : Int), 9]] ∧
    (ofPoints [[2, 3], [5, 4], [9, 6], [4, 7], [8, 1], [7, 2], [(1 : Int), 9]]).bind
      (fun t => nearest (run unb07 t [.delete [5, 4]]) [5, 4]) = some [7, 2] := by
  constructor
  · unfold General; decide
  · decide +kernel

end Verif.KdTree
