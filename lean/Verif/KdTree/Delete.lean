import Verif.KdTree.Lemmas
import Mathlib.Data.List.Perm.Subperm
import Mathlib.Data.List.Count

/-! What `delete` does to the contents and to the split invariant. -/

namespace Verif.KdTree
variable {K : Type} [CommRing K] [LinearOrder K]

/-- All stored points have `dim` coordinates. -/
def AllLen (dim : Nat) (t : Tree K) : Prop := ∀ p ∈ collect t, p.length = dim

theorem AllLen.node {dim : Nat} {p : Point K} {a : Nat} {l r : Tree K} {s : Nat} :
    AllLen dim (.node p a l r s) ↔ p.length = dim ∧ AllLen dim l ∧ AllLen dim r := by
  unfold AllLen
  simp only [collect, List.mem_cons, List.mem_append]
  constructor
  · intro h; exact ⟨h p (.inl rfl), fun x hx => h x (.inr (.inl hx)), fun x hx => h x (.inr (.inr hx))⟩
  · rintro ⟨h1, h2, h3⟩ x (rfl | hx | hx)
    · exact h1
    · exact h2 x hx
    · exact h3 x hx

theorem finish_perm (unb : Nat → Nat → Nat → Bool) (dim : Nat) (hdim : 0 < dim) (depth : Nat) (p : Point K) (a : Nat)
    (l r : Tree K) (hp : p.length = dim) (hl : AllLen dim l) (hr : AllLen dim r) :
    (collect (finish unb depth p a l r)).Perm (p :: (collect l ++ collect r)) := by
  unfold finish
  dsimp only
  split
  · exact (build_spec dim hdim depth _ (AllLen.node.2 ⟨hp, hl, hr⟩ : AllLen dim (.node p a l r _))).1
  · exact List.Perm.refl _

theorem minBy_mem (a : Nat) (p : Point K) (qs : List (Point K)) : minBy a p qs ∈ p :: qs := by
  induction qs generalizing p with
  | nil => simp [minBy]
  | cons q qs ih =>
    simp only [minBy]
    split
    · exact List.mem_cons_of_mem _ (ih q)
    · rcases List.mem_cons.1 (ih p) with h | h
      · rw [h]; exact List.mem_cons_self
      · exact List.mem_cons_of_mem _ (List.mem_cons_of_mem _ h)

theorem minBy_le (a : Nat) (p : Point K) (qs : List (Point K)) : ∀ x ∈ p :: qs, coord (minBy a p qs) a ≤ coord x a := by
  induction qs generalizing p with
  | nil => intro x hx; simp only [List.mem_singleton] at hx; subst hx; exact le_rfl
  | cons q qs ih =>
    intro x hx
    simp only [minBy]
    split
    · rename_i h
      rcases List.mem_cons.1 hx with rfl | hx
      · exact (ih q q List.mem_cons_self).trans h.le
      · exact ih q x hx
    · rename_i h
      rcases List.mem_cons.1 hx with rfl | hx
      · exact ih x x List.mem_cons_self
      · rcases List.mem_cons.1 hx with rfl | hx
        · exact (ih p p List.mem_cons_self).trans (not_lt.1 h)
        · exact ih p x (List.mem_cons_of_mem _ hx)

theorem findMin_mem (axis : Nat) : ∀ (t : Tree K) (m : Point K), findMin axis t = some m → m ∈ collect t := by
  intro t
  induction t with
  | nil => intro m h; cases h
  | node p a l r s ihl ihr =>
    intro m h
    simp only [findMin] at h
    split at h
    · cases l with
      | nil => cases h; simp [collect]
      | node lp la ll lr ls =>
        have := ihl m h
        simp only [collect] at this ⊢
        exact List.mem_cons_of_mem _ (List.mem_append_left _ this)
    · simp only [Option.some.injEq] at h
      have hm := minBy_mem axis p ((findMin axis l).toList ++ (findMin axis r).toList)
      rw [h] at hm
      simp only [List.mem_cons, List.mem_append, Option.mem_toList, Option.mem_def] at hm
      simp only [collect, List.mem_cons, List.mem_append]
      rcases hm with h | h | h
      · exact .inl h
      · exact .inr (.inl (ihl m h))
      · exact .inr (.inr (ihr m h))

theorem findMin_some (axis : Nat) : ∀ (p : Point K) (a : Nat) (l r : Tree K) (s : Nat),
    ∃ m, findMin axis (.node p a l r s) = some m := by
  suffices h : ∀ t : Tree K, t ≠ .nil → ∃ m, findMin axis t = some m from fun p a l r s => h _ (by simp)
  intro t
  induction t with
  | nil => intro h; exact absurd rfl h
  | node p a l r s ihl ihr =>
    intro _
    simp only [findMin]
    split
    · cases l with
      | nil => exact ⟨p, rfl⟩
      | node lp la ll lr ls => exact ihl (by simp)
    · exact ⟨_, rfl⟩

theorem findMin_le (dim axis : Nat) : ∀ (t : Tree K) (m : Point K), Inv dim t → findMin axis t = some m →
    ∀ x ∈ collect t, coord m axis ≤ coord x axis := by
  intro t
  induction t with
  | nil => intro m _ h; cases h
  | node p a l r s ihl ihr =>
    intro m hi h x hx
    obtain ⟨ha, hp, hL, hR, il, ir⟩ := hi
    simp only [findMin] at h
    simp only [collect, List.mem_cons, List.mem_append] at hx
    split at h
    · rename_i hax
      subst hax
      cases l with
      | nil =>
        cases h
        rcases hx with rfl | hx | hx
        · exact le_rfl
        · simp [collect] at hx
        · exact hR x hx
      | node lp la ll lr ls =>
        have h1 : coord m a ≤ coord p a :=
          (ihl m il h lp (by simp [collect])).trans (hL lp (by simp [collect]))
        rcases hx with rfl | hx | hx
        · exact h1
        · exact ihl m il h x hx
        · exact h1.trans (hR x hx)
    · simp only [Option.some.injEq] at h
      have hle := minBy_le axis p ((findMin axis l).toList ++ (findMin axis r).toList)
      rw [h] at hle
      rcases hx with rfl | hx | hx
      · exact hle x List.mem_cons_self
      · cases l with
        | nil => simp [collect] at hx
        | node lp la ll lr ls =>
          obtain ⟨m', e⟩ := findMin_some axis lp la ll lr ls
          exact (hle m' (by simp [e])).trans (ihl m' il e x hx)
      · cases r with
        | nil => simp [collect] at hx
        | node lp la ll lr ls =>
          obtain ⟨m', e⟩ := findMin_some axis lp la ll lr ls
          exact (hle m' (by simp [e])).trans (ihr m' ir e x hx)

/-- What a delete does to the stored points in *every* tree: either the point goes, or some stored point takes its
place (a stale copy), or nothing changes. -/
def DelRel (q : Point K) (old new : List (Point K)) : Prop :=
  (q :: new).Perm old ∨ ∃ m, (m = q ∨ m ∈ old) ∧ (q :: new).Perm (m :: old)

theorem DelRel.mem {q x : Point K} {old new : List (Point K)} (h : DelRel q old new) (hx : x ∈ new) : x ∈ old := by
  rcases h with h | ⟨m, hm, h⟩
  · exact h.mem_iff.1 (List.mem_cons_of_mem _ hx)
  · rcases hm with rfl | hm
    · exact (h.cons_inv).mem_iff.1 hx
    · rcases List.mem_cons.1 (h.mem_iff.1 (List.mem_cons_of_mem _ hx)) with rfl | hx
      · exact hm
      · exact hx

theorem DelRel.count {q x : Point K} {old new : List (Point K)} (h : DelRel q old new) (hx : x ≠ q) :
    old.count x ≤ new.count x := by
  have e : (q :: new).count x = new.count x := by
    rw [List.count_cons]; simp [hx.symm]
  rcases h with h | ⟨m, _, h⟩
  · rw [← e, h.count_eq]
  · rw [← e, h.count_eq]
    exact List.count_le_count_cons

theorem DelRel.left {q p : Point K} {l l' R : List (Point K)} (h : DelRel q l l') : DelRel q (p :: (l ++ R)) (p :: (l' ++ R)) := by
  have step : ∀ X, (q :: l').Perm X → (q :: p :: (l' ++ R)).Perm (p :: (X ++ R)) := fun X hX =>
    (List.Perm.swap p q _).trans ((hX.append_right R).cons p)
  rcases h with h | ⟨m, hm, h⟩
  · exact .inl (step _ h)
  · refine .inr ⟨m, ?_, (step _ h).trans (List.Perm.swap m p _)⟩
    rcases hm with rfl | hm
    · exact .inl rfl
    · exact .inr (by simp [hm])

theorem DelRel.perm {q : Point K} {old new old' new' : List (Point K)} (h : DelRel q old new) (h1 : old.Perm old')
    (h2 : new.Perm new') : DelRel q old' new' := by
  rcases h with h | ⟨m, hm, h⟩
  · exact .inl ((h2.symm.cons q).trans (h.trans h1))
  · exact .inr ⟨m, hm.imp_right h1.mem_iff.1, (h2.symm.cons q).trans (h.trans (h1.cons m))⟩

/-- Replacing the deleted root by a point `m` removed from one side. -/
theorem DelRel.root {q m : Point K} {l l' R : List (Point K)} (hm : m ∈ l) (h : DelRel m l l') :
    DelRel q (q :: (l ++ R)) (m :: (l' ++ R)) := by
  rcases h with h | ⟨m2, hm2, h⟩
  · exact .inl ((h.append_right R).cons q)
  · refine .inr ⟨m2, .inr ?_, ((h.append_right R).cons q).trans (List.Perm.swap m2 q _)⟩
    rcases hm2 with rfl | hm2 <;> simp [*]

theorem deleteRec_rel (unb : Nat → Nat → Nat → Bool) (dim : Nat) (hdim : 0 < dim) : ∀ (t : Tree K) (depth : Nat) (q : Point K),
    AllLen dim t → DelRel q (collect t) (collect (deleteRec unb depth t q)) := by
  intro t
  induction t with
  | nil => intro depth q _; exact .inr ⟨q, .inl rfl, by simp [deleteRec]⟩
  | node p a l r s ihl ihr =>
    intro depth q hlen
    obtain ⟨hp, hl, hr⟩ := AllLen.node.1 hlen
    have comm : ∀ (x : Point K) (A B : List (Point K)), (x :: (A ++ B)).Perm (x :: (B ++ A)) := fun x A B =>
      List.perm_append_comm.cons x
    have lenOf : ∀ {x : Tree K} {y : Point K} (d : Nat), AllLen dim x → DelRel y (collect x) (collect (deleteRec unb d x y)) →
        AllLen dim (deleteRec unb d x y) := fun d hx h z hz => hx z (h.mem hz)
    rw [deleteRec.eq_def]
    simp only
    split
    · rename_i hpq
      subst hpq
      cases r with
      | node rp ra rl rr rs =>
        simp only
        obtain ⟨m, e⟩ := findMin_some a rp ra rl rr rs
        rw [e, Option.getD_some]
        have hm := findMin_mem a _ m e
        have ih := ihr (depth + 1) m hr
        have hf := finish_perm unb dim hdim depth m a l _ (hr m hm) hl (lenOf _ hr ih)
        exact ((DelRel.root hm ih : DelRel p (p :: (_ ++ collect l)) _).perm (comm _ _ _) (comm _ _ _)).perm
          (List.Perm.refl _) hf.symm
      | nil =>
        cases l with
        | node lp la ll lr ls =>
          simp only
          obtain ⟨m, e⟩ := findMin_some a lp la ll lr ls
          rw [e, Option.getD_some]
          have hm := findMin_mem a _ m e
          have ih := ihl (depth + 1) m hl
          have hf := finish_perm unb dim hdim depth m a _ .nil (hl m hm) (lenOf _ hl ih) hr
          exact (DelRel.root hm ih : DelRel p (p :: (_ ++ collect .nil)) _).perm (List.Perm.refl _) hf.symm
        | nil =>
          simp only
          exact .inl (by simp [collect])
    · split
      · have ih := ihl (depth + 1) q hl
        have hf := finish_perm unb dim hdim depth p a _ r hp (lenOf _ hl ih) hr
        exact (DelRel.left ih).perm (List.Perm.refl _) hf.symm
      · have ih := ihr (depth + 1) q hr
        have hf := finish_perm unb dim hdim depth p a l _ hp hl (lenOf _ hr ih)
        exact ((DelRel.left ih : DelRel q (p :: (_ ++ collect l)) _).perm (comm _ _ _) (comm _ _ _)).perm
          (List.Perm.refl _) hf.symm

/-- The split invariant with a strict right side. -/
def InvS (dim : Nat) : Tree K → Prop
  | .nil => True
  | .node p a l r _ => a < dim ∧ p.length = dim ∧ (∀ q ∈ collect l, coord q a ≤ coord p a) ∧
      (∀ q ∈ collect r, coord p a < coord q a) ∧ InvS dim l ∧ InvS dim r

/-- Any two of the points differ in every coordinate. -/
def General (dim : Nat) (pts : List (Point K)) : Prop := pts.Pairwise (fun x y => ∀ a, a < dim → coord x a ≠ coord y a)

theorem General.perm {dim : Nat} {A B : List (Point K)} (h : General dim A) (hp : A.Perm B) : General dim B :=
  (hp.pairwise_iff (fun h a ha e => h a ha e.symm)).1 h

theorem invS_of_inv (dim : Nat) : ∀ t : Tree K, Inv dim t → General dim (collect t) → InvS dim t := by
  intro t
  induction t with
  | nil => intro _ _; trivial
  | node p a l r s ihl ihr =>
    rintro ⟨ha, hp, hL, hR, il, ir⟩ hg
    simp only [General, collect, List.pairwise_cons, List.pairwise_append] at hg
    refine ⟨ha, hp, hL, fun q hq => lt_of_le_of_ne (hR q hq) (hg.1 q (List.mem_append_right _ hq) a ha),
      ihl il hg.2.1, ihr ir hg.2.2.1⟩

theorem InvS.allLen {dim : Nat} : ∀ {t : Tree K}, InvS dim t → AllLen dim t := by
  intro t
  induction t with
  | nil => intro _ p hp; simp [collect] at hp
  | node p a l r s ihl ihr =>
    rintro ⟨_, hp, _, _, hl, hr⟩
    exact AllLen.node.2 ⟨hp, ihl hl, ihr hr⟩

theorem InvS.inv {dim : Nat} : ∀ {t : Tree K}, InvS dim t → Inv dim t := by
  intro t
  induction t with
  | nil => intro _; trivial
  | node p a l r s ihl ihr =>
    rintro ⟨ha, hp, hL, hR, hl, hr⟩
    exact ⟨ha, hp, hL, fun q hq => (hR q hq).le, ihl hl, ihr hr⟩

/-- With a strict split invariant a stored point is found and exactly it goes. -/
theorem deleteRec_exact (unb : Nat → Nat → Nat → Bool) (dim : Nat) (hdim : 0 < dim) :
    ∀ (t : Tree K) (depth : Nat) (q : Point K), InvS dim t →
      (q ∈ collect t → (q :: collect (deleteRec unb depth t q)).Perm (collect t)) ∧
      (q ∉ collect t → (collect (deleteRec unb depth t q)).Perm (collect t)) := by
  intro t
  induction t with
  | nil => intro depth q _; exact ⟨fun h => by simp [collect] at h, fun _ => by simp [deleteRec]⟩
  | node p a l r s ihl ihr =>
    intro depth q hi
    have hlen := hi.allLen
    obtain ⟨ha, hp, hL, hR, il, ir⟩ := hi
    obtain ⟨_, hl, hr⟩ := AllLen.node.1 hlen
    have lenOf : ∀ {x : Tree K} {y : Point K} (d : Nat), AllLen dim x → AllLen dim (deleteRec unb d x y) := fun d hx z hz =>
      hx z ((deleteRec_rel unb dim hdim _ d _ hx).mem hz)
    rw [deleteRec.eq_def]
    simp only
    split
    · rename_i hpq
      subst hpq
      refine ⟨fun _ => ?_, fun h => absurd (by simp [collect]) h⟩
      cases r with
      | node rp ra rl rr rs =>
        simp only
        obtain ⟨m, e⟩ := findMin_some a rp ra rl rr rs
        rw [e, Option.getD_some]
        have hm := findMin_mem a _ m e
        have ih := (ihr (depth + 1) m ir).1 hm
        have hf := finish_perm unb dim hdim depth m a l _ (hr m hm) hl (lenOf (depth + 1) hr (y := m))
        refine (hf.cons p).trans ?_
        show (p :: m :: (collect l ++ _)).Perm (p :: (collect l ++ _))
        exact (List.perm_middle.symm.trans (ih.append_left _)).cons p
      | nil =>
        cases l with
        | node lp la ll lr ls =>
          simp only
          obtain ⟨m, e⟩ := findMin_some a lp la ll lr ls
          rw [e, Option.getD_some]
          have hm := findMin_mem a _ m e
          have ih := (ihl (depth + 1) m il).1 hm
          have hf := finish_perm unb dim hdim depth m a _ .nil (hl m hm) (lenOf (depth + 1) hl (y := m)) hr
          refine (hf.cons p).trans ?_
          exact (ih.append_right _).cons p
        | nil => simp [collect]
    · rename_i hpq
      split
      · rename_i hc
        have hf := finish_perm unb dim hdim depth p a _ r hp (lenOf (depth + 1) hl (y := q)) hr
        obtain ⟨i1, i2⟩ := ihl (depth + 1) q il
        constructor
        · intro hq
          have hq' : q ∈ collect l := by
            simp only [collect, List.mem_cons, List.mem_append] at hq
            rcases hq with h | h | h
            · exact absurd h.symm hpq
            · exact h
            · exact absurd (hR q h) (not_lt.2 hc)
          refine (hf.cons q).trans ((List.Perm.swap p q _).trans ?_)
          exact ((i1 hq').append_right _).cons p
        · intro hq
          have hq' : q ∉ collect l := fun h => hq (by simp [collect, h])
          exact hf.trans (((i2 hq').append_right _).cons p)
      · rename_i hc
        have hf := finish_perm unb dim hdim depth p a l _ hp hl (lenOf (depth + 1) hr (y := q))
        obtain ⟨i1, i2⟩ := ihr (depth + 1) q ir
        constructor
        · intro hq
          have hq' : q ∈ collect r := by
            simp only [collect, List.mem_cons, List.mem_append] at hq
            rcases hq with h | h | h
            · exact absurd h.symm hpq
            · exact absurd (hL q h) hc
            · exact h
          refine (hf.cons q).trans ((List.Perm.swap p q _).trans ?_)
          exact (List.perm_middle.symm.trans ((i1 hq').append_left _)).cons p
        · intro hq
          have hq' : q ∉ collect r := fun h => hq (by simp [collect, h])
          exact hf.trans (((i2 hq').append_left _).cons p)

/-- Every node with a left child has a right child. -/
def RightFull : Tree K → Prop
  | .nil => True
  | .node _ _ l r _ => (r = .nil → l = .nil) ∧ RightFull l ∧ RightFull r

/-- If the left-subtree replacement case is never used, delete keeps the split invariant. -/
theorem deleteRec_inv (unb : Nat → Nat → Nat → Bool) (dim : Nat) (hdim : 0 < dim) :
    ∀ (t : Tree K) (depth : Nat) (q : Point K), InvS dim t → RightFull t → Inv dim (deleteRec unb depth t q) := by
  intro t
  induction t with
  | nil => intro depth q _ _; trivial
  | node p a l r s ihl ihr =>
    intro depth q hi hf
    have hlen := hi.allLen
    obtain ⟨ha, hp, hL, hR, il, ir⟩ := hi
    obtain ⟨_, hl, hr⟩ := AllLen.node.1 hlen
    obtain ⟨f0, fl, fr⟩ := hf
    rw [deleteRec.eq_def]
    simp only
    split
    · rename_i hpq
      subst hpq
      cases r with
      | node rp ra rl rr rs =>
        simp only
        obtain ⟨m, e⟩ := findMin_some a rp ra rl rr rs
        rw [e, Option.getD_some]
        have hm := findMin_mem a _ m e
        have hle := findMin_le dim a _ m ir.inv e
        refine (finish_spec unb dim hdim depth m a l _ ⟨ha, hr m hm, fun x hx => (hL x hx).trans (hR m hm).le,
          fun x hx => hle x ((deleteRec_rel unb dim hdim _ _ _ hr).mem hx), il.inv, ihr _ _ ir fr⟩).2
      | nil =>
        rw [f0 rfl]
        trivial
    · split
      · exact (finish_spec unb dim hdim depth p a _ r ⟨ha, hp,
          fun x hx => hL x ((deleteRec_rel unb dim hdim _ _ _ hl).mem hx), fun x hx => (hR x hx).le, ihl _ _ il fl, ir.inv⟩).2
      · exact (finish_spec unb dim hdim depth p a l _ ⟨ha, hp, hL,
          fun x hx => (hR x ((deleteRec_rel unb dim hdim _ _ _ hr).mem hx)).le, il.inv, ihr _ _ ir fr⟩).2

/-- The tree built from `2^h - 1` points is perfect. -/
theorem buildF_full : ∀ (h fuel depth : Nat) (pts : List (Point K)), pts.length = 2 ^ h - 1 →
    RightFull (buildF fuel depth pts) ∧ (pts ≠ [] → pts.length ≤ fuel → buildF fuel depth pts ≠ .nil) := by
  intro h
  induction h with
  | zero =>
    intro fuel depth pts hl
    obtain rfl : pts = [] := List.eq_nil_of_length_eq_zero (by simpa using hl)
    cases fuel <;> simp [buildF, RightFull]
  | succ h ih =>
    intro fuel depth pts hl
    cases fuel with
    | zero =>
      refine ⟨by simp [buildF, RightFull], fun h1 h2 => ?_⟩
      exact absurd (List.eq_nil_of_length_eq_zero (by omega)) h1
    | succ fuel =>
      cases pts with
      | nil => simp [buildF, RightFull]
      | cons p0 ps =>
        have hsl := (sortBy_perm (depth % p0.length) (p0 :: ps)).length_eq
        simp only [buildF]
        generalize sortBy (depth % p0.length) (p0 :: ps) = s at *
        have hpow : 2 ^ (h + 1) = 2 * 2 ^ h := by rw [pow_succ]; ring
        have hpos : 0 < 2 ^ h := Nat.pos_of_ne_zero (by positivity)
        generalize 2 ^ h = P at *
        have hm : (p0 :: ps).length / 2 = P - 1 := by omega
        rw [hm]
        have hget : s[P - 1]? = some s[P - 1] := List.getElem?_eq_getElem (by omega)
        rw [hget]
        dsimp only
        have h1 := ih fuel (depth + 1) (s.take (P - 1)) (by rw [List.length_take]; omega)
        have h2 := ih fuel (depth + 1) (s.drop (P - 1 + 1)) (by rw [List.length_drop]; omega)
        refine ⟨⟨?_, h1.1, h2.1⟩, fun _ _ => by simp⟩
        intro hr
        by_cases hd : s.drop (P - 1 + 1) = []
        · have : P - 1 = 0 := by
            have := congrArg List.length hd
            rw [List.length_drop] at this; simp only [List.length_nil] at this; omega
          rw [this]
          cases fuel <;> simp [buildF]
        · by_cases hfu : (s.drop (P - 1 + 1)).length ≤ fuel
          · exact absurd hr (h2.2 hd hfu)
          · cases fuel with
            | zero => simp [buildF]
            | succ f =>
              exfalso
              revert hr
              cases hdd : s.drop (P - 1 + 1) with
              | nil => exact absurd hdd hd
              | cons y ys =>
                have hyl := (sortBy_perm ((depth + 1) % y.length) (y :: ys)).length_eq
                simp only [buildF]
                generalize sortBy ((depth + 1) % y.length) (y :: ys) = s2 at *
                have hg2 : s2[(y :: ys).length / 2]? = some (s2[(y :: ys).length / 2]'(by simp only [List.length_cons] at *; omega)) :=
                  List.getElem?_eq_getElem _
                rw [hg2]
                simp

end Verif.KdTree
