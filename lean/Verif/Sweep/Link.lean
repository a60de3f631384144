import Verif.Sweep.Model
import Mathlib.Data.List.Basic
import Mathlib.Data.List.Nodup
import Mathlib.Data.List.Induction
import Mathlib.Order.Nat
import Mathlib.Tactic.SplitIfs
import Mathlib.Tactic.Push
import Mathlib.Tactic.ByCases

/-!
# The shape of the skip list

The nodes of level `0` form a list; level `l` is the sublist of the nodes with more than `l` pointers.  At every cut of the
list the last node before the cut and the first node behind it (at that level) point at each other.
-/

namespace Verif.Sweep
variable {K D : Type} [LinearOrder K]
set_option linter.unusedSectionVars false

/-- The last node of `X` at level `l`, or the head. -/
def pl (h : Id → Nat) (l : Nat) (X : List Id) : Id := (X.reverse.find? fun x => decide (l < h x)).getD hd
/-- The first node of `Y` at level `l`, or the tail. -/
def ql (h : Id → Nat) (l : Nat) (Y : List Id) : Id := (Y.find? fun x => decide (l < h x)).getD tl

theorem ql_nil (h : Id → Nat) (l : Nat) : ql h l [] = tl := rfl
theorem pl_nil (h : Id → Nat) (l : Nat) : pl h l [] = hd := rfl

theorem ql_cons (h : Id → Nat) (l : Nat) (y : Id) (Y : List Id) : ql h l (y :: Y) = if l < h y then y else ql h l Y := by
  unfold ql; rw [List.find?_cons]; by_cases hy : l < h y <;> simp [hy]

theorem pl_snoc (h : Id → Nat) (l : Nat) (x : Id) (X : List Id) : pl h l (X ++ [x]) = if l < h x then x else pl h l X := by
  unfold pl; rw [List.reverse_append, List.reverse_singleton, List.singleton_append, List.find?_cons]
  by_cases hy : l < h x <;> simp [hy]

theorem ql_append (h : Id → Nat) (l : Nat) (Z Y : List Id) :
    ((∀ z ∈ Z, h z ≤ l) ∧ ql h l (Z ++ Y) = ql h l Y) ∨ (ql h l (Z ++ Y) ∈ Z ∧ ∀ Y', ql h l (Z ++ Y') = ql h l (Z ++ Y)) := by
  induction Z with
  | nil => left; simp
  | cons z Z ih =>
    simp only [List.cons_append, ql_cons]
    by_cases hz : l < h z
    · right; simp [hz]
    · simp only [hz, if_false]
      rcases ih with ⟨a, b⟩ | ⟨a, b⟩
      · left; refine ⟨?_, b⟩
        intro x hx; rcases List.mem_cons.1 hx with rfl | hx
        · omega
        · exact a x hx
      · right; exact ⟨List.mem_cons_of_mem _ a, b⟩

theorem pl_append (h : Id → Nat) (l : Nat) (X Z : List Id) :
    ((∀ z ∈ Z, h z ≤ l) ∧ pl h l (X ++ Z) = pl h l X) ∨ (pl h l (X ++ Z) ∈ Z ∧ ∀ X', pl h l (X' ++ Z) = pl h l (X ++ Z)) := by
  induction Z using List.reverseRecOn with
  | nil => left; simp
  | append_singleton Z z ih =>
    simp only [← List.append_assoc, pl_snoc]
    by_cases hz : l < h z
    · right; simp [hz]
    · simp only [hz, if_false]
      rcases ih with ⟨a, b⟩ | ⟨a, b⟩
      · left; refine ⟨?_, b⟩
        intro x hx; rcases List.mem_append.1 hx with hx | hx
        · exact a x hx
        · rw [List.mem_singleton.1 hx]; omega
      · right; exact ⟨List.mem_append_left _ a, b⟩

theorem ql_mem (h : Id → Nat) (l : Nat) (Y : List Id) : ql h l Y = tl ∨ (ql h l Y ∈ Y ∧ l < h (ql h l Y)) := by
  induction Y with
  | nil => left; rfl
  | cons y Y ih =>
    rw [ql_cons]; by_cases hy : l < h y
    · right; simp [hy]
    · simp only [hy, if_false]; rcases ih with h1 | ⟨h1, h2⟩
      · exact Or.inl h1
      · exact Or.inr ⟨List.mem_cons_of_mem _ h1, h2⟩

theorem pl_mem (h : Id → Nat) (l : Nat) (X : List Id) : pl h l X = hd ∨ (pl h l X ∈ X ∧ l < h (pl h l X)) := by
  induction X using List.reverseRecOn with
  | nil => left; rfl
  | append_singleton X y ih =>
    rw [pl_snoc]; by_cases hy : l < h y
    · right; simp [hy]
    · simp only [hy, if_false]; rcases ih with h1 | ⟨h1, h2⟩
      · exact Or.inl h1
      · exact Or.inr ⟨List.mem_append_left _ h1, h2⟩

theorem ql_none (h : Id → Nat) (l : Nat) (Y : List Id) (hY : ∀ y ∈ Y, h y ≤ l) : ql h l Y = tl := by
  rcases ql_mem h l Y with h1 | ⟨h1, h2⟩
  · exact h1
  · have := hY _ h1; omega

theorem pl_none (h : Id → Nat) (l : Nat) (Y : List Id) (hY : ∀ y ∈ Y, h y ≤ l) : pl h l Y = hd := by
  rcases pl_mem h l Y with h1 | ⟨h1, h2⟩
  · exact h1
  · have := hY _ h1; omega

theorem ql_congr {h h' : Id → Nat} (l : Nat) (Y : List Id) (hh : ∀ y ∈ Y, h y = h' y) : ql h l Y = ql h' l Y := by
  induction Y with
  | nil => rfl
  | cons y Y ih =>
    rw [ql_cons, ql_cons, hh y (List.mem_cons_self), ih fun z hz => hh z (List.mem_cons_of_mem _ hz)]

theorem pl_congr {h h' : Id → Nat} (l : Nat) (Y : List Id) (hh : ∀ y ∈ Y, h y = h' y) : pl h l Y = pl h' l Y := by
  induction Y using List.reverseRecOn with
  | nil => rfl
  | append_singleton Y y ih =>
    rw [pl_snoc, pl_snoc, hh y (by simp), ih fun z hz => hh z (List.mem_append_left _ hz)]

/-- Number of levels of a node. -/
def ht (s : SL K D) (a : Id) : Nat := (s.succ a).length

/-- The invariant of the structure: `xs` are the nodes in their order. -/
structure Inv (s : SL K D) (xs : List Id) : Prop where
  nodup : xs.Nodup
  nhd : hd ∉ xs
  ntl : tl ∉ xs
  lt : ∀ x ∈ xs, x < s.alloc
  al : 2 ≤ s.alloc
  hpos : ∀ x ∈ xs, 0 < ht s x
  plen : ∀ x ∈ xs, (s.prev x).length = ht s x
  hle : ∀ x ∈ xs, ht s x ≤ ht s hd
  Hpos : 0 < ht s hd
  tlen : ht s hd ≤ (s.prev tl).length
  stale : ∀ l p, ht s hd ≤ l → (s.prev tl)[l]? = some p → p = hd
  adjS : ∀ X Y, xs = X ++ Y → ∀ l < ht s hd, (s.succ (pl (ht s) l X))[l]? = some (ql (ht s) l Y)
  adjP : ∀ X Y, xs = X ++ Y → ∀ l < ht s hd, (s.prev (ql (ht s) l Y))[l]? = some (pl (ht s) l X)
  vals : ∀ x ∈ xs, ∃ k, s.key x = .val k
  kh : s.key hd = .none
  kt : s.key tl = .nil
  size : s.size = xs.length

theorem inv_empty : Inv (empty : SL K D) [] := by
  refine ⟨by simp, by simp, by simp, by simp, Nat.le_refl 2, by simp, by simp, by simp, ?_, ?_, ?_, ?_, ?_, by simp, rfl, rfl, rfl⟩
  · exact Nat.one_pos
  · exact le_refl 1
  · intro l p hl hp
    have h1 : 1 ≤ l := hl
    have : (([0] : List Nat))[l]? = none := List.getElem?_eq_none (by simpa using h1)
    have hp' : (([0] : List Nat))[l]? = some p := hp
    rw [this] at hp'; cases hp'
  · intro X Y h l hl
    have hl' : l < 1 := hl
    obtain ⟨rfl, rfl⟩ := List.append_eq_nil_iff.1 h.symm
    obtain rfl : l = 0 := by omega
    rfl
  · intro X Y h l hl
    have hl' : l < 1 := hl
    obtain ⟨rfl, rfl⟩ := List.append_eq_nil_iff.1 h.symm
    obtain rfl : l = 0 := by omega
    rfl

/-- Two assignments of one round. -/
def two (s : SL K D) (p q l a b : Nat) : Option (SL K D) := (setSucc s p l a).bind fun s1 => setPrev s1 q l b

theorem two_spec (s : SL K D) (p q l a b : Nat) (h1 : l < (s.succ p).length) (h2 : l < (s.prev q).length) :
    ∃ s', two s p q l a b = some s' ∧ s'.key = s.key ∧ s'.data = s.data ∧ s'.alloc = s.alloc ∧ s'.size = s.size ∧
      (∀ x, (s'.succ x).length = (s.succ x).length) ∧ (∀ x, (s'.prev x).length = (s.prev x).length) ∧
      (∀ x j, (s'.succ x)[j]? = if j = l ∧ p = x then some a else (s.succ x)[j]?) ∧
      (∀ x j, (s'.prev x)[j]? = if j = l ∧ q = x then some b else (s.prev x)[j]?) := by
  unfold two setSucc
  rw [if_pos h1]
  simp only [Option.bind_some]
  unfold setPrev
  dsimp only
  rw [if_pos h2]
  refine ⟨_, rfl, rfl, rfl, rfl, rfl, ?_, ?_, ?_, ?_⟩
  · intro x; dsimp only; by_cases hx : x = p
    · subst hx; simp
    · rw [Function.update_of_ne hx]
  · intro x; dsimp only; by_cases hx : x = q
    · subst hx; simp
    · rw [Function.update_of_ne hx]
  · intro x j; dsimp only; by_cases hx : x = p
    · subst hx; rw [Function.update_self, List.getElem?_set]
      by_cases hj : j = l
      · subst hj; simp [h1]
      · rw [if_neg (fun h => hj h.symm), if_neg (fun h => hj h.1)]
    · rw [Function.update_of_ne hx, if_neg (fun h => hx h.2.symm)]
  · intro x j; dsimp only; by_cases hx : x = q
    · subst hx; rw [Function.update_self, List.getElem?_set]
      by_cases hj : j = l
      · subst hj; simp [h2]
      · rw [if_neg (fun h => hj h.symm), if_neg (fun h => hj h.1)]
    · rw [Function.update_of_ne hx, if_neg (fun h => hx h.2.symm)]

/-- The state after a loop over the levels `0 .. m-1`. -/
structure After (s s' : SL K D) (m : Nat) (P Q A B : Nat → Id) : Prop where
  key : s'.key = s.key
  data : s'.data = s.data
  alloc : s'.alloc = s.alloc
  size : s'.size = s.size
  lenS : ∀ x, (s'.succ x).length = (s.succ x).length
  lenP : ∀ x, (s'.prev x).length = (s.prev x).length
  succ : ∀ x j, (s'.succ x)[j]? = if j < m ∧ P j = x then some (A j) else (s.succ x)[j]?
  prev : ∀ x j, (s'.prev x)[j]? = if j < m ∧ Q j = x then some (B j) else (s.prev x)[j]?

theorem loop_spec (G : SL K D → Nat → Option (SL K D)) (c : Id) (s : SL K D) (P Q A B : Nat → Id) (m : Nat)
    (hG : ∀ s1 l, l < m → (s1.prev c)[l]? = some (P l) → (s1.succ c)[l]? = some (Q l) →
      G s1 l = two s1 (P l) (Q l) l (A l) (B l))
    (hp : ∀ l < m, (s.prev c)[l]? = some (P l)) (hq : ∀ l < m, (s.succ c)[l]? = some (Q l))
    (hP : ∀ l < m, l < (s.succ (P l)).length) (hQ : ∀ l < m, l < (s.prev (Q l)).length)
    (nP : ∀ l < m, P l ≠ c) (nQ : ∀ l < m, Q l ≠ c) :
    ∃ s', (List.range m).foldlM G s = some s' ∧ After s s' m P Q A B := by
  have key : ∀ j, j ≤ m → ∃ s', (List.range j).foldlM G s = some s' ∧ After s s' j P Q A B := by
    intro j
    induction j with
    | zero =>
      intro _; exact ⟨s, rfl, rfl, rfl, rfl, rfl, fun _ => rfl, fun _ => rfl, fun x j => by simp, fun x j => by simp⟩
    | succ j ih =>
      intro hj
      obtain ⟨s1, e1, a1⟩ := ih (by omega)
      have g := hG s1 j (by omega)
        (by rw [a1.prev, if_neg (fun h => absurd h.1 (by omega)), hp j (by omega)])
        (by rw [a1.succ, if_neg (fun h => absurd h.1 (by omega)), hq j (by omega)])
      obtain ⟨s2, e2, k2, d2, l2, z2, ls, lp, ss, pp⟩ := two_spec s1 (P j) (Q j) j (A j) (B j)
        (by rw [a1.lenS]; exact hP j (by omega)) (by rw [a1.lenP]; exact hQ j (by omega))
      refine ⟨s2, ?_, k2.trans a1.key, d2.trans a1.data, l2.trans a1.alloc, z2.trans a1.size,
        fun x => (ls x).trans (a1.lenS x), fun x => (lp x).trans (a1.lenP x), ?_, ?_⟩
      · rw [List.range_succ, List.foldlM_append, e1]
        show (List.foldlM G s1 [j]) = some s2
        simp only [List.foldlM_cons, List.foldlM_nil]
        rw [g, e2]; rfl
      · intro x i
        rw [ss, a1.succ]
        by_cases hi : i = j
        · subst hi
          by_cases hx : P i = x
          · simp [hx]
          · simp [hx]
        · rw [if_neg (fun h => hi h.1)]
          by_cases h1 : i < j
          · have : i < j + 1 := by omega
            simp [h1, this]
          · have : ¬ i < j + 1 := by omega
            simp [h1, this]
      · intro x i
        rw [pp, a1.prev]
        by_cases hi : i = j
        · subst hi
          by_cases hx : Q i = x
          · simp [hx]
          · simp [hx]
        · rw [if_neg (fun h => hi h.1)]
          by_cases h1 : i < j
          · have : i < j + 1 := by omega
            simp [h1, this]
          · have : ¬ i < j + 1 := by omega
            simp [h1, this]
  exact key m (le_refl m)

theorem After.succ_ne {s s' : SL K D} {m P Q A B} (h : After s s' m P Q A B) (x : Id) (hx : ∀ l < m, P l ≠ x) :
    s'.succ x = s.succ x := by
  apply List.ext_getElem?
  intro i; rw [h.succ]; rw [if_neg]; rintro ⟨h1, h2⟩; exact hx i h1 h2

theorem After.prev_ne {s s' : SL K D} {m P Q A B} (h : After s s' m P Q A B) (x : Id) (hx : ∀ l < m, Q l ≠ x) :
    s'.prev x = s.prev x := by
  apply List.ext_getElem?
  intro i; rw [h.prev]; rw [if_neg]; rintro ⟨h1, h2⟩; exact hx i h1 h2

end Verif.Sweep
