import Verif.KdTree.Model
import Mathlib.Algebra.Order.Ring.Defs
import Mathlib.Algebra.Order.BigOperators.Group.List
import Mathlib.Tactic.Linarith
import Mathlib.Tactic.Ring

namespace Verif.KdTree
variable {K : Type} [CommRing K] [LinearOrder K]

theorem insertBy_perm (a : Nat) (p : Point K) (qs : List (Point K)) : (insertBy a p qs).Perm (p :: qs) := by
  induction qs with
  | nil => exact List.Perm.refl _
  | cons q qs ih =>
    simp only [insertBy]
    split
    · exact List.Perm.refl _
    · exact (ih.cons q).trans (List.Perm.swap p q qs)

theorem sortBy_perm (a : Nat) (ps : List (Point K)) : (sortBy a ps).Perm ps := by
  induction ps with
  | nil => exact List.Perm.refl _
  | cons p ps ih => exact (insertBy_perm a p _).trans (ih.cons p)

theorem insertBy_sorted (a : Nat) (p : Point K) (qs : List (Point K))
    (h : qs.Pairwise (fun x y => coord x a ≤ coord y a)) :
    (insertBy a p qs).Pairwise (fun x y => coord x a ≤ coord y a) := by
  induction qs with
  | nil => simp [insertBy]
  | cons q qs ih =>
    rw [List.pairwise_cons] at h
    simp only [insertBy]
    split
    · rename_i hle
      rw [List.pairwise_cons]
      refine ⟨?_, List.pairwise_cons.2 h⟩
      intro x hx
      rcases List.mem_cons.1 hx with rfl | hx
      · exact hle
      · exact hle.trans (h.1 x hx)
    · rename_i hle
      rw [List.pairwise_cons]
      refine ⟨?_, ih h.2⟩
      intro x hx
      rcases List.mem_cons.1 ((insertBy_perm a p qs).mem_iff.1 hx) with rfl | hx
      · exact (not_le.1 hle).le
      · exact h.1 x hx

theorem sortBy_sorted (a : Nat) (ps : List (Point K)) :
    (sortBy a ps).Pairwise (fun x y => coord x a ≤ coord y a) := by
  induction ps with
  | nil => simp [sortBy]
  | cons p ps ih => exact insertBy_sorted a p _ ih

/-- The split invariant at every node, with `dim` coordinates everywhere. -/
def Inv (dim : Nat) : Tree K → Prop
  | .nil => True
  | .node p a l r _ => a < dim ∧ p.length = dim ∧ (∀ q ∈ collect l, coord q a ≤ coord p a) ∧
      (∀ q ∈ collect r, coord p a ≤ coord q a) ∧ Inv dim l ∧ Inv dim r

/-- Cached sizes are right. -/
def Sized : Tree K → Prop
  | .nil => True
  | .node _ _ l r s => s = (collect l).length + (collect r).length + 1 ∧ Sized l ∧ Sized r

theorem Inv.length {dim : Nat} {t : Tree K} (h : Inv dim t) : ∀ q ∈ collect t, q.length = dim := by
  induction t with
  | nil => intro q hq; simp [collect] at hq
  | node p a l r s ihl ihr =>
    obtain ⟨_, hp, _, _, hl, hr⟩ := h
    intro q hq
    simp only [collect, List.mem_cons, List.mem_append] at hq
    rcases hq with rfl | hq | hq
    · exact hp
    · exact ihl hl q hq
    · exact ihr hr q hq

theorem split_at {s : List (Point K)} {m : Nat} {p : Point K} (h : s[m]? = some p) :
    s = s.take m ++ p :: s.drop (m + 1) := by
  obtain ⟨hm, rfl⟩ := List.getElem?_eq_some_iff.1 h
  rw [← List.drop_eq_getElem_cons hm, List.take_append_drop]

theorem buildF_spec (dim : Nat) (hdim : 0 < dim) : ∀ (fuel depth : Nat) (pts : List (Point K)),
    pts.length ≤ fuel → (∀ p ∈ pts, p.length = dim) →
    (collect (buildF fuel depth pts)).Perm pts ∧ Inv dim (buildF fuel depth pts) := by
  intro fuel
  induction fuel with
  | zero =>
    intro depth pts hf _
    obtain rfl : pts = [] := List.eq_nil_of_length_eq_zero (by omega)
    exact ⟨by simp [buildF, collect], trivial⟩
  | succ fuel ih =>
    intro depth pts hf hlen
    cases pts with
    | nil => exact ⟨by simp [buildF, collect], trivial⟩
    | cons p0 ps =>
      have hp0 : p0.length = dim := hlen p0 List.mem_cons_self
      have hperm := sortBy_perm (depth % p0.length) (p0 :: ps)
      have hsort := sortBy_sorted (depth % p0.length) (p0 :: ps)
      have hl : (sortBy (depth % p0.length) (p0 :: ps)).length = (p0 :: ps).length := hperm.length_eq
      simp only [buildF]
      generalize hs : sortBy (depth % p0.length) (p0 :: ps) = s at *
      generalize hm : (p0 :: ps).length / 2 = m at *
      have hmlt : m < s.length := by rw [hl, ← hm]; simp only [List.length_cons]; omega
      have hget : s[m]? = some s[m] := List.getElem?_eq_getElem hmlt
      rw [hget]
      dsimp only
      have hsp := split_at hget
      generalize s[m] = p at *
      have hmem : ∀ q ∈ s, q.length = dim := fun q hq => hlen q (hperm.mem_iff.1 hq)
      have ht := ih (depth + 1) (s.take m) (by rw [List.length_take]; simp at hl hf hmlt ⊢; omega)
        (fun q hq => hmem q (List.mem_of_mem_take hq))
      have hd := ih (depth + 1) (s.drop (m + 1)) (by rw [List.length_drop]; simp at hl hf hmlt ⊢; omega)
        (fun q hq => hmem q (List.mem_of_mem_drop hq))
      have hsort' := hsort
      rw [hsp, List.pairwise_append, List.pairwise_cons] at hsort'
      refine ⟨?_, ?_, ?_, ?_, ?_, ht.2, hd.2⟩
      · simp only [collect]
        refine List.Perm.trans ?_ hperm
        refine ((ht.1.append hd.1).cons p).trans ?_
        conv_rhs => rw [hsp]
        exact List.perm_middle.symm
      · rw [hp0]; exact Nat.mod_lt _ hdim
      · exact hmem p (by rw [hsp]; simp)
      · intro q hq; exact hsort'.2.2 q (ht.1.mem_iff.1 hq) p List.mem_cons_self
      · intro q hq; exact hsort'.2.1.1 q (hd.1.mem_iff.1 hq)

theorem build_spec (dim : Nat) (hdim : 0 < dim) (depth : Nat) (pts : List (Point K)) (h : ∀ p ∈ pts, p.length = dim) :
    (collect (build depth pts)).Perm pts ∧ Inv dim (build depth pts) :=
  buildF_spec dim hdim _ depth pts le_rfl h

theorem finish_spec (unb : Nat → Nat → Nat → Bool) (dim : Nat) (hdim : 0 < dim) (depth : Nat) (p : Point K) (a : Nat)
    (l r : Tree K) (h : Inv dim (.node p a l r (size l + size r + 1))) :
    (collect (finish unb depth p a l r)).Perm (p :: (collect l ++ collect r)) ∧
      Inv dim (finish unb depth p a l r) := by
  unfold finish
  dsimp only
  split
  · exact build_spec dim hdim depth _ h.length
  · exact ⟨List.Perm.refl _, h⟩

theorem insertRec_spec (unb : Nat → Nat → Nat → Bool) (dim : Nat) (hdim : 0 < dim) (q : Point K) (hq : q.length = dim) :
    ∀ (t : Tree K) (depth : Nat), Inv dim t →
      (collect (insertRec unb q depth t)).Perm (q :: collect t) ∧ Inv dim (insertRec unb q depth t) := by
  intro t
  induction t with
  | nil =>
    intro depth _
    refine ⟨by simp [insertRec, collect], ?_⟩
    simp only [insertRec, Inv, collect]
    exact ⟨by rw [hq]; exact Nat.mod_lt _ hdim, hq, by simp, by simp, trivial, trivial⟩
  | node p a l r s ihl ihr =>
    intro depth h
    obtain ⟨ha, hp, hl, hr, il, ir⟩ := h
    simp only [insertRec]
    split
    · rename_i hle
      obtain ⟨p1, i1⟩ := ihl (depth + 1) il
      obtain ⟨p2, i2⟩ := finish_spec unb dim hdim depth p a (insertRec unb q (depth + 1) l) r
        ⟨ha, hp, fun x hx => by
          rcases List.mem_cons.1 (p1.mem_iff.1 hx) with rfl | hx
          · exact hle
          · exact hl x hx, hr, i1, ir⟩
      refine ⟨p2.trans ?_, i2⟩
      refine ((p1.append_right _).cons p).trans ?_
      simpa [collect] using List.Perm.swap q p (collect l ++ collect r)
    · rename_i hle
      obtain ⟨p1, i1⟩ := ihr (depth + 1) ir
      obtain ⟨p2, i2⟩ := finish_spec unb dim hdim depth p a l (insertRec unb q (depth + 1) r)
        ⟨ha, hp, hl, fun x hx => by
          rcases List.mem_cons.1 (p1.mem_iff.1 hx) with rfl | hx
          · exact (not_le.1 hle).le
          · exact hr x hx, il, i1⟩
      refine ⟨p2.trans ?_, i2⟩
      refine ((p1.append_left _).cons p).trans ?_
      refine (List.perm_middle.cons p).trans ?_
      simpa [collect] using List.Perm.swap q p (collect l ++ collect r)

theorem insert_spec (unb : Nat → Nat → Nat → Bool) (dim : Nat) (hdim : 0 < dim) (q : Point K) (hq : q.length = dim)
    (t : Tree K) (h : Inv dim t) :
    ∃ t', insert unb t q = some t' ∧ (collect t').Perm (q :: collect t) ∧ Inv dim t' := by
  cases t with
  | nil =>
    exact ⟨_, rfl, by simp [collect], ⟨hdim, hq, by simp [collect], by simp [collect], trivial, trivial⟩⟩
  | node p a l r s =>
    have hp := h.2.1
    simp only [insert]
    rw [if_neg (by rw [hq, hp]; simp)]
    exact ⟨_, rfl, insertRec_spec unb dim hdim q hq _ 0 h⟩

/-! ### Distances -/

variable [IsStrictOrderedRing K]

theorem distSq_nonneg (p q : Point K) : 0 ≤ distSq p q := by
  unfold distSq
  apply List.sum_nonneg
  intro x hx
  obtain ⟨c, _, rfl⟩ := List.mem_map.1 hx
  exact sq_nonneg _

theorem coord_le_distSq : ∀ (p q : Point K) (a : Nat), a < p.length → p.length = q.length →
    (coord p a - coord q a) ^ 2 ≤ distSq p q := by
  intro p
  induction p with
  | nil => intro q a h; simp at h
  | cons x xs ih =>
    intro q a ha hlen
    cases q with
    | nil => simp at hlen
    | cons y ys =>
      simp only [List.length_cons, Nat.add_right_cancel_iff] at hlen
      have hd : distSq (x :: xs) (y :: ys) = (x - y) ^ 2 + distSq xs ys := by simp [distSq]
      rw [hd]
      cases a with
      | zero =>
        have := distSq_nonneg xs ys
        simp only [coord, List.getD_cons_zero]
        linarith
      | succ a =>
        have h1 := ih ys a (by simpa using ha) hlen
        have : (0 : K) ≤ (x - y) ^ 2 := sq_nonneg _
        simp only [coord, List.getD_cons_succ] at h1 ⊢
        linarith

theorem distSq_comm (p q : Point K) : distSq p q = distSq q p := by
  induction p generalizing q with
  | nil => simp [distSq]
  | cons x xs ih =>
    cases q with
    | nil => simp [distSq]
    | cons y ys =>
      have h1 : distSq (x :: xs) (y :: ys) = (x - y) ^ 2 + distSq xs ys := by simp [distSq]
      have h2 : distSq (y :: ys) (x :: xs) = (y - x) ^ 2 + distSq ys xs := by simp [distSq]
      rw [h1, h2, ih ys]
      ring

/-- Points behind the splitting plane are at least as far as the plane. -/
theorem prune {dim : Nat} {target p q : Point K} {a : Nat} (ha : a < dim) (ht : target.length = dim)
    (hq : q.length = dim) (h : (coord target a ≤ coord p a ∧ coord p a ≤ coord q a) ∨
      (coord p a ≤ coord target a ∧ coord q a ≤ coord p a)) :
    (coord target a - coord p a) * (coord target a - coord p a) ≤ distSq target q := by
  refine le_trans ?_ (coord_le_distSq target q a (by omega) (by omega))
  rcases h with ⟨h1, h2⟩ | ⟨h1, h2⟩
  · nlinarith
  · nlinarith

/-- `best` is no worse than every point of `S`, and comes from `S ∪ B`. -/
def BestOf (target : Point K) (best : Best K) (q : Point K) : Prop :=
  ∃ p d, best = some (p, d) ∧ d ≤ distSq target q

theorem not_ltBest {x : K} {best : Best K} (h : ¬ ltBest x best = true) : ∃ p d, best = some (p, d) ∧ d ≤ x := by
  cases best with
  | none => simp [ltBest] at h
  | some b => obtain ⟨p, d⟩ := b; exact ⟨p, d, rfl, by simpa [ltBest] using h⟩

/-- Improvement order on `best`. -/
def Better (target : Point K) (new old : Best K) : Prop := ∀ q, BestOf target old q → BestOf target new q

/-- The stored distance is the real one. -/
def Honest (target : Point K) (best : Best K) : Prop := ∀ p d, best = some (p, d) → d = distSq target p

theorem nearestRec_spec (dim : Nat) (target : Point K) (ht : target.length = dim) :
    ∀ (t : Tree K) (best : Best K), Inv dim t → Honest target best →
      Better target (nearestRec target t best) best ∧ (∀ q ∈ collect t, BestOf target (nearestRec target t best) q) ∧
      Honest target (nearestRec target t best) ∧
      (∀ p d, nearestRec target t best = some (p, d) → best = some (p, d) ∨ p ∈ collect t) := by
  intro t
  induction t with
  | nil =>
    intro best _ hh
    exact ⟨fun q h => h, fun q h => by simp [collect] at h, hh, fun p d h => .inl h⟩
  | node p a l r s ihl ihr =>
    intro best hi hh
    obtain ⟨ha, hp, hl, hr, il, ir⟩ := hi
    -- state after looking at the node's own point
    have key : ∀ best1 : Best K, best1 = (if ltBest (distSq target p) best = true then some (p, distSq target p) else best) →
        Better target best1 best ∧ BestOf target best1 p ∧ Honest target best1 ∧
        (∀ p' d, best1 = some (p', d) → best = some (p', d) ∨ p' = p) := by
      intro best1 e
      split at e
      · rename_i hc
        subst e
        refine ⟨?_, ⟨p, _, rfl, le_rfl⟩, ?_, ?_⟩
        · rintro q ⟨p', d', rfl, hd'⟩
          exact ⟨p, _, rfl, (by simpa [ltBest] using hc : distSq target p < d').le.trans hd'⟩
        · rintro p' d' ⟨⟩; rfl
        · rintro p' d' ⟨⟩; exact .inr rfl
      · rename_i hc
        subst e
        obtain ⟨p', d', he, hd'⟩ := not_ltBest hc
        exact ⟨fun q h => h, ⟨p', d', he, hd'⟩, hh, fun p' d h => .inl h⟩
    simp only [nearestRec]
    generalize hb1 : (if ltBest (distSq target p) best = true then some (p, distSq target p) else best) = best1
    obtain ⟨b1, b2, b3, b4⟩ := key best1 hb1.symm
    by_cases hdiff : coord target a - coord p a ≤ 0
    · rw [if_pos hdiff]
      obtain ⟨l1, l2, l3, l4⟩ := ihl best1 il b3
      generalize nearestRec target l best1 = best2 at *
      split
      · obtain ⟨r1, r2, r3, r4⟩ := ihr best2 ir l3
        refine ⟨fun q h => r1 q (l1 q (b1 q h)), ?_, r3, ?_⟩
        · intro q hq
          simp only [collect, List.mem_cons, List.mem_append] at hq
          rcases hq with rfl | hq | hq
          · exact r1 _ (l1 _ b2)
          · exact r1 _ (l2 q hq)
          · exact r2 q hq
        · intro p' d' he
          simp only [collect, List.mem_cons, List.mem_append]
          rcases r4 p' d' he with he | hm
          · rcases l4 p' d' he with he | hm
            · rcases b4 p' d' he with he | hm
              · exact .inl he
              · exact .inr (.inl hm)
            · exact .inr (.inr (.inl hm))
          · exact .inr (.inr (.inr hm))
      · rename_i hc
        obtain ⟨p', d', he, hd'⟩ := not_ltBest hc
        refine ⟨fun q h => l1 q (b1 q h), ?_, l3, ?_⟩
        · intro q hq
          simp only [collect, List.mem_cons, List.mem_append] at hq
          rcases hq with rfl | hq | hq
          · exact l1 _ b2
          · exact l2 q hq
          · exact ⟨p', d', he, hd'.trans (prune ha ht (ir.length q hq) (.inl ⟨by linarith, hr q hq⟩))⟩
        · intro p' d' he
          simp only [collect, List.mem_cons, List.mem_append]
          rcases l4 p' d' he with he | hm
          · rcases b4 p' d' he with he | hm
            · exact .inl he
            · exact .inr (.inl hm)
          · exact .inr (.inr (.inl hm))
    · rw [if_neg hdiff]
      obtain ⟨l1, l2, l3, l4⟩ := ihr best1 ir b3
      generalize nearestRec target r best1 = best2 at *
      split
      · obtain ⟨r1, r2, r3, r4⟩ := ihl best2 il l3
        refine ⟨fun q h => r1 q (l1 q (b1 q h)), ?_, r3, ?_⟩
        · intro q hq
          simp only [collect, List.mem_cons, List.mem_append] at hq
          rcases hq with rfl | hq | hq
          · exact r1 _ (l1 _ b2)
          · exact r2 q hq
          · exact r1 _ (l2 q hq)
        · intro p' d' he
          simp only [collect, List.mem_cons, List.mem_append]
          rcases r4 p' d' he with he | hm
          · rcases l4 p' d' he with he | hm
            · rcases b4 p' d' he with he | hm
              · exact .inl he
              · exact .inr (.inl hm)
            · exact .inr (.inr (.inr hm))
          · exact .inr (.inr (.inl hm))
      · rename_i hc
        obtain ⟨p', d', he, hd'⟩ := not_ltBest hc
        refine ⟨fun q h => l1 q (b1 q h), ?_, l3, ?_⟩
        · intro q hq
          simp only [collect, List.mem_cons, List.mem_append] at hq
          rcases hq with rfl | hq | hq
          · exact l1 _ b2
          · exact ⟨p', d', he, hd'.trans (prune ha ht (il.length q hq) (.inr ⟨by linarith, hl q hq⟩))⟩
          · exact l2 q hq
        · intro p' d' he
          simp only [collect, List.mem_cons, List.mem_append]
          rcases l4 p' d' he with he | hm
          · rcases b4 p' d' he with he | hm
            · exact .inl he
            · exact .inr (.inl hm)
          · exact .inr (.inr (.inr hm))

theorem nearest_spec (dim : Nat) (target : Point K) (ht : target.length = dim) (t : Tree K) (hi : Inv dim t)
    (hne : collect t ≠ []) :
    ∃ p, nearest t target = some p ∧ p ∈ collect t ∧ ∀ q ∈ collect t, distSq target p ≤ distSq target q := by
  cases t with
  | nil => simp [collect] at hne
  | node p a l r s =>
    obtain ⟨_, h2, h3, h4⟩ := nearestRec_spec dim target ht (.node p a l r s) none hi (by intro p d h; cases h)
    obtain ⟨p', d', he, _⟩ := h2 p (by simp [collect])
    refine ⟨p', by simp [nearest, he], ?_, ?_⟩
    · rcases h4 p' d' he with h | h
      · cases h
      · exact h
    · intro q hq
      obtain ⟨p2, d2, he2, hd2⟩ := h2 q hq
      rw [he] at he2
      cases he2
      rw [← h3 p' d' he]
      exact hd2

end Verif.KdTree
