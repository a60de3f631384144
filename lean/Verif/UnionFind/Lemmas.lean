import Verif.UnionFind.Model
import Mathlib.Logic.Relation
import Mathlib.Data.Finset.Card
import Mathlib.Data.Finset.Range
import Mathlib.Data.Finset.Filter
import Mathlib.Data.Finset.Max
import Mathlib.Data.Nat.Log
import Mathlib.Algebra.Order.Group.Nat
import Mathlib.Tactic.Linarith

namespace Verif.UnionFind

/-- `r` is the end of the parent chain of `x`. -/
inductive Root (p : Nat → Nat) : Nat → Nat → Prop
  | base {r} : p r = r → Root p r r
  | step {x r} : p x ≠ x → Root p (p x) r → Root p x r

theorem Root.isRoot {p x r} (h : Root p x r) : p r = r := by
  induction h with
  | base h => exact h
  | step _ _ ih => exact ih

theorem Root.unique {p x r q} (h : Root p x r) (h' : Root p x q) : r = q := by
  induction h with
  | base hr =>
    cases h' with
    | base _ => rfl
    | step hne _ => exact absurd hr hne
  | step hne _ ih =>
    cases h' with
    | base hr => exact absurd hr hne
    | step _ h2 => exact ih h2

/-- Pointing a non-root at its own root keeps all roots. -/
theorem Root.compress {p : Nat → Nat} {x r : Nat} (hx : Root p x r) (hne : p x ≠ x) (y q : Nat) :
    Root (Function.update p x r) y q ↔ Root p y q := by
  have hr := hx.isRoot
  have hrx : r ≠ x := by rintro rfl; exact hne hr
  constructor
  · intro h
    induction h with
    | @base q hq =>
      by_cases hqx : q = x
      · subst hqx; simp at hq; exact absurd hq hrx
      · rw [Function.update_of_ne hqx] at hq; exact .base hq
    | @step y q hy _ ih =>
      by_cases hyx : y = x
      · subst hyx
        rw [Function.update_self] at ih
        have : r = q := by
          cases ih with
          | base _ => rfl
          | step h _ => exact absurd hr h
        rw [← this]; exact hx
      · rw [Function.update_of_ne hyx] at hy ih
        exact .step hy ih
  · intro h
    induction h with
    | @base q hq =>
      refine .base ?_
      have hqx : q ≠ x := by rintro rfl; exact hne hq
      rw [Function.update_of_ne hqx]; exact hq
    | @step y q hy hrest ih =>
      by_cases hyx : y = x
      · subst hyx
        have : q = r := Root.unique (.step hy hrest) hx
        subst this
        refine .step (by rw [Function.update_self]; exact hrx) ?_
        rw [Function.update_self]
        refine .base ?_
        rw [Function.update_of_ne hrx]; exact hr
      · refine .step (by rw [Function.update_of_ne hyx]; exact hy) ?_
        rw [Function.update_of_ne hyx]; exact ih

theorem Root.trans_aux {p : Nat → Nat} {a q : Nat} (hstep : Root (Function.update p a q) a q) (ha : p a = a)
    (hab : q ≠ a) {y : Nat} (h : Root p y a) : Root (Function.update p a q) y q := by
  induction h with
  | base _ => exact hstep
  | @step y r hy _ ih =>
    have hya : y ≠ r := by rintro rfl; exact hy ha
    exact .step (by rw [Function.update_of_ne hya]; exact hy)
      (by rw [Function.update_of_ne hya]; exact ih hstep ha hab)

/-- Hanging root `a` under root `b`. -/
theorem Root.link {p : Nat → Nat} {a b : Nat} (ha : p a = a) (hb : p b = b) (hab : a ≠ b) (y q : Nat) :
    Root (Function.update p a b) y q ↔ (Root p y q ∧ q ≠ a) ∨ (Root p y a ∧ q = b) := by
  constructor
  · intro h
    induction h with
    | @base q hq =>
      by_cases hqa : q = a
      · subst hqa; simp at hq; exact absurd hq.symm hab
      · rw [Function.update_of_ne hqa] at hq; exact .inl ⟨.base hq, hqa⟩
    | @step y q hy _ ih =>
      by_cases hya : y = a
      · subst hya
        rw [Function.update_self] at ih
        rcases ih with ⟨h1, _⟩ | ⟨h1, _⟩
        · have : b = q := by
            cases h1 with
            | base _ => rfl
            | step h _ => exact absurd hb h
          exact .inr ⟨.base ha, this.symm⟩
        · exact .inr ⟨.base ha, by assumption⟩
      · rw [Function.update_of_ne hya] at hy ih
        rcases ih with ⟨h1, h2⟩ | ⟨h1, h2⟩
        · exact .inl ⟨.step hy h1, h2⟩
        · exact .inr ⟨.step hy h1, h2⟩
  · rintro (⟨h, hqa⟩ | ⟨h, rfl⟩)
    · induction h with
      | base hq => exact .base (by rw [Function.update_of_ne hqa]; exact hq)
      | @step y q hy _ ih =>
        have hya : y ≠ a := by rintro rfl; exact hy ha
        exact .step (by rw [Function.update_of_ne hya]; exact hy)
          (by rw [Function.update_of_ne hya]; exact ih hqa)
    · have hbb : Root (Function.update p a q) q q := .base (by rw [Function.update_of_ne hab.symm]; exact hb)
      have hstep : Root (Function.update p a q) a q :=
        .step (by rw [Function.update_self]; exact hab.symm) (by rw [Function.update_self]; exact hbb)
      exact Root.trans_aux hstep ha hab.symm h

/-- The class of `r` inside `0..n-1`. -/
noncomputable def cls (s : UF) (r : Nat) : Finset Nat := by
  classical exact (Finset.range s.n).filter (fun x => Root s.parent x r)

theorem mem_cls {s : UF} {r x : Nat} : x ∈ cls s r ↔ x < s.n ∧ Root s.parent x r := by
  classical simp [cls]

/-- Structural invariant of a reachable union-find object of size `n`. -/
structure Inv (n : Nat) (s : UF) : Prop where
  size : s.n = n
  lt : ∀ x, x < n → s.parent x < n
  up : ∀ x, x < n → s.parent x ≠ x → s.rank x < s.rank (s.parent x)
  big : ∀ r, r < n → s.parent r = r → 2 ^ s.rank r ≤ (cls s r).card

theorem Inv.rank_le {n s} (h : Inv n s) {x r} (hx : x < n) (hr : Root s.parent x r) :
    r < n ∧ s.rank x ≤ s.rank r := by
  induction hr with
  | base _ => exact ⟨hx, le_rfl⟩
  | @step y q hy _ ih =>
    have h1 := ih (h.lt _ hx)
    have h2 := h.up _ hx hy
    exact ⟨h1.1, by omega⟩

theorem Inv.rank_log {n s} (h : Inv n s) {r} (hr : r < n) (hroot : s.parent r = r) :
    s.rank r ≤ Nat.log 2 n := by
  have h1 := h.big r hr hroot
  have h2 : (cls s r).card ≤ n := by
    have := Finset.card_le_card (s := cls s r) (t := Finset.range n) (by
      intro x hx; rw [mem_cls, h.size] at hx; simpa using hx.1)
    simpa using this
  exact Nat.le_log_of_pow_le (by omega) (by omega)

/-- Every index has a root. -/
theorem Inv.exists_root {n s} (h : Inv n s) : ∀ (k x : Nat), x < n →
    Nat.log 2 n + 1 ≤ s.rank x + k ∨ (∀ y, y < n → s.rank y < s.rank x + k) → ∃ r, Root s.parent x r := by
  intro k
  induction k with
  | zero =>
    intro x hx hk
    by_cases hp : s.parent x = x
    · exact ⟨x, .base hp⟩
    · rcases hk with hk | hk
      · have h1 := h.up x hx hp
        -- ranks of non-roots are dominated by some maximal rank; use the finite maximum
        exfalso
        -- take an element of maximal rank: it is a root with rank ≤ log
        have hn : (Finset.range n).Nonempty := ⟨x, by simpa using hx⟩
        obtain ⟨m, hm, hmax⟩ := Finset.exists_max_image (Finset.range n) s.rank hn
        have hm' : m < n := by simpa using hm
        have hroot : s.parent m = m := by
          by_contra hne
          have := h.up m hm' hne
          have := hmax (s.parent m) (by simpa using h.lt m hm')
          omega
        have := h.rank_log hm' hroot
        have := hmax x (by simpa using hx)
        omega
      · have := hk x hx
        omega
  | succ k ih =>
    intro x hx hk
    by_cases hp : s.parent x = x
    · exact ⟨x, .base hp⟩
    · have h1 := h.up x hx hp
      obtain ⟨r, hr⟩ := ih (s.parent x) (h.lt x hx) (by
        rcases hk with hk | hk
        · left; omega
        · right; intro y hy; have := hk y hy; omega)
      exact ⟨r, .step hp hr⟩

theorem Inv.root {n s} (h : Inv n s) {x} (hx : x < n) : ∃ r, Root s.parent x r :=
  h.exists_root (Nat.log 2 n + 1) x hx (.inl (by omega))

theorem cls_congr {s t : UF} (hn : s.n = t.n) (h : ∀ y q, Root s.parent y q ↔ Root t.parent y q) (r : Nat) :
    cls s r = cls t r := by
  ext x; rw [mem_cls, mem_cls, h, hn]

/-- What a call of `find` does: it returns the root and changes neither ranks nor roots. -/
theorem find_spec {n : Nat} {s : UF} {x r : Nat} (h : Inv n s) (hx : x < n) (hr : Root s.parent x r) :
    ∀ depth, s.rank r + 1 ≤ s.rank x + depth →
    ∃ s', s.find depth x = some (r, s') ∧ Inv n s' ∧ s'.rank = s.rank ∧
      (∀ y q, Root s'.parent y q ↔ Root s.parent y q) := by
  induction hr with
  | @base r hb =>
    intro depth hd
    obtain ⟨d, rfl⟩ : ∃ d, depth = d + 1 := ⟨depth - 1, by omega⟩
    refine ⟨s, ?_, h, rfl, fun _ _ => Iff.rfl⟩
    simp [UF.find, h.size, hx, hb]
  | @step x r hne hrest ih =>
    intro depth hd
    have hup := h.up x hx hne
    obtain ⟨d, rfl⟩ : ∃ d, depth = d + 1 := ⟨depth - 1, by
      have := (h.rank_le (h.lt x hx) hrest).2; omega⟩
    obtain ⟨s1, he, hi, hrk, hroots⟩ := ih (h.lt x hx) d (by omega)
    have hxr : Root s.parent x r := .step hne hrest
    have hxr1 : Root s1.parent x r := (hroots _ _).2 hxr
    have hrn := (h.rank_le hx hxr)
    have hrroot : s1.parent r = r := hxr1.isRoot
    have hne1 : s1.parent x ≠ x := by
      intro hp
      have hx1 : Root s1.parent x x := .base hp
      have := ((hroots _ _).1 hx1).isRoot
      exact hne this
    have hrx : r ≠ x := by rintro rfl; exact hne1 hrroot
    refine ⟨s1.setParent x r, ?_, ?_, ?_, ?_⟩
    · simp [UF.find, h.size, hx, hne, he, UF.setParent]
    · have hroots' : ∀ y q, Root (s1.setParent x r).parent y q ↔ Root s1.parent y q :=
        fun y q => Root.compress hxr1 hne1 y q
      refine ⟨hi.size, ?_, ?_, ?_⟩
      · intro y hy
        simp only [UF.setParent]
        by_cases hyx : y = x
        · subst hyx; simpa using hrn.1
        · rw [Function.update_of_ne hyx]; exact hi.lt y hy
      · intro y hy hyne
        simp only [UF.setParent] at hyne ⊢
        by_cases hyx : y = x
        · subst hyx
          rw [Function.update_self]
          have := (hi.rank_le (hi.lt y hy) (by
            cases hxr1 with
            | base h => exact absurd h hne1
            | step _ h => exact h)).2
          have := hi.up y hy hne1
          omega
        · rw [Function.update_of_ne hyx] at hyne ⊢; exact hi.up y hy hyne
      · intro q hq hqr
        have : s1.parent q = q := ((hroots' q q).1 (.base hqr)).isRoot
        rw [cls_congr (s := s1.setParent x r) (t := s1) rfl hroots']
        exact hi.big q hq this
    · simpa [UF.setParent] using hrk
    · intro y q
      rw [← hroots y q]
      exact Root.compress hxr1 hne1 y q

theorem find_ok {n : Nat} {s : UF} {x : Nat} (h : Inv n s) (hx : x < n) {depth : Nat}
    (hd : Nat.log 2 n + 1 ≤ depth) :
    ∃ r s', s.find depth x = some (r, s') ∧ Root s.parent x r ∧ r < n ∧ Inv n s' ∧ s'.rank = s.rank ∧
      (∀ y q, Root s'.parent y q ↔ Root s.parent y q) := by
  obtain ⟨r, hr⟩ := h.root hx
  have hrn := (h.rank_le hx hr).1
  have := h.rank_log hrn hr.isRoot
  obtain ⟨s', h1, h2, h3, h4⟩ := find_spec h hx hr depth (by omega)
  exact ⟨r, s', h1, hr, hrn, h2, h3, h4⟩

/-- Linking two distinct roots `a → b` keeps the invariant provided the ranks are right. -/
theorem link_inv {n : Nat} {s : UF} {a b : Nat} (h : Inv n s) (han : a < n) (hbn : b < n)
    (ha : s.parent a = a) (hb : s.parent b = b) (hab : a ≠ b) (rk : Nat → Nat)
    (hrk : ∀ x, x ≠ b → rk x = s.rank x) (hlt : s.rank a < rk b) (hge : s.rank b ≤ rk b)
    (hbig : 2 ^ rk b ≤ 2 ^ s.rank a + 2 ^ s.rank b) :
    Inv n { s with parent := Function.update s.parent a b, rank := rk } := by
  have hl := Root.link ha hb hab
  refine ⟨h.size, ?_, ?_, ?_⟩
  · intro x hx
    by_cases hxa : x = a
    · subst hxa; simpa using hbn
    · simp only [Function.update_of_ne hxa]; exact h.lt x hx
  · intro x hx hne
    by_cases hxa : x = a
    · subst hxa
      simp only [Function.update_self]
      rw [hrk x hab]; exact hlt
    · simp only [Function.update_of_ne hxa] at hne ⊢
      have := h.up x hx hne
      have hxb : x ≠ b := by rintro rfl; exact hne hb
      rw [hrk x hxb]
      by_cases hpb : s.parent x = b
      · rw [hpb] at this ⊢; omega
      · rw [hrk _ hpb]; exact this
  · intro r hr hroot
    have hra : r ≠ a := by
      rintro rfl
      simp at hroot; exact hab hroot.symm
    have hrr : s.parent r = r := by
      simpa only [Function.update_of_ne hra] using hroot
    by_cases hrb : r = b
    · subst hrb
      have hsub : cls s a ∪ cls s r ⊆ cls { s with parent := Function.update s.parent a r, rank := rk } r := by
        intro x hx
        rw [Finset.mem_union, mem_cls, mem_cls] at hx
        rw [mem_cls]
        rcases hx with hx | hx
        · exact ⟨hx.1, (hl x r).2 (.inr ⟨hx.2, rfl⟩)⟩
        · exact ⟨hx.1, (hl x r).2 (.inl ⟨hx.2, hra⟩)⟩
      have hdisj : Disjoint (cls s a) (cls s r) := by
        rw [Finset.disjoint_left]
        intro x hx hx'
        rw [mem_cls] at hx hx'
        exact hab (hx.2.unique hx'.2)
      have h1 := Finset.card_le_card hsub
      rw [Finset.card_union_of_disjoint hdisj] at h1
      have h2 := h.big a han ha
      have h3 := h.big r hr hrr
      show 2 ^ rk r ≤ _
      omega
    · show 2 ^ rk r ≤ _
      rw [hrk r hrb]
      refine (h.big r hr hrr).trans (Finset.card_le_card ?_)
      intro x hx
      rw [mem_cls] at hx ⊢
      exact ⟨hx.1, (hl x r).2 (.inl ⟨hx.2, hra⟩)⟩

/-- Same class. -/
def Same (s : UF) (a b : Nat) : Prop := ∃ r, Root s.parent a r ∧ Root s.parent b r

theorem same_congr {s t : UF} (h : ∀ y q, Root s.parent y q ↔ Root t.parent y q) (a b : Nat) :
    Same s a b ↔ Same t a b := by
  simp [Same, h]

theorem same_link {p : Nat → Nat} {a b : Nat} (ha : p a = a) (hb : p b = b) (hab : a ≠ b) (u v : Nat) :
    (∃ r, Root (Function.update p a b) u r ∧ Root (Function.update p a b) v r) ↔
      (∃ r, Root p u r ∧ Root p v r) ∨ (Root p u a ∧ Root p v b) ∨ (Root p u b ∧ Root p v a) := by
  have hl := Root.link ha hb hab
  constructor
  · rintro ⟨r, h1, h2⟩
    rw [hl] at h1 h2
    rcases h1 with ⟨h1, h1'⟩ | ⟨h1, rfl⟩ <;> rcases h2 with ⟨h2, h2'⟩ | ⟨h2, h2'⟩
    · exact .inl ⟨r, h1, h2⟩
    · subst h2'; exact .inr (.inr ⟨h1, h2⟩)
    · exact .inr (.inl ⟨h1, h2⟩)
    · exact .inl ⟨a, h1, h2⟩
  · rintro (⟨r, h1, h2⟩ | ⟨h1, h2⟩ | ⟨h1, h2⟩)
    · by_cases hra : r = a
      · subst hra
        exact ⟨b, (hl _ _).2 (.inr ⟨h1, rfl⟩), (hl _ _).2 (.inr ⟨h2, rfl⟩)⟩
      · exact ⟨r, (hl _ _).2 (.inl ⟨h1, hra⟩), (hl _ _).2 (.inl ⟨h2, hra⟩)⟩
    · exact ⟨b, (hl _ _).2 (.inr ⟨h1, rfl⟩), (hl _ _).2 (.inl ⟨h2, hab.symm⟩)⟩
    · exact ⟨b, (hl _ _).2 (.inl ⟨h1, hab.symm⟩), (hl _ _).2 (.inr ⟨h2, rfl⟩)⟩

/-- What a call of `union` does. -/
theorem union_spec {n : Nat} {s : UF} {x y : Nat} (h : Inv n s) (hx : x < n) (hy : y < n) {depth : Nat}
    (hd : Nat.log 2 n + 1 ≤ depth) :
    ∃ s', s.union depth x y = some s' ∧ Inv n s' ∧
      ∀ u v, Same s' u v ↔ Same s u v ∨ (Same s u x ∧ Same s y v) ∨ (Same s u y ∧ Same s x v) := by
  obtain ⟨a, s1, e1, hra, han, hi1, hk1, hr1⟩ := find_ok h hx hd
  obtain ⟨b, s2, e2, hrb, hbn, hi2, hk2, hr2⟩ := find_ok hi1 hy hd
  have hroots : ∀ y q, Root s2.parent y q ↔ Root s.parent y q := fun y q => (hr2 y q).trans (hr1 y q)
  have hra2 : Root s2.parent x a := (hroots _ _).2 hra
  have hrb2 : Root s2.parent y b := (hr2 _ _).2 hrb
  have hA : ∀ u, Root s2.parent u a ↔ Same s u x := fun u => by
    rw [hroots]; exact ⟨fun h => ⟨a, h, hra⟩, fun ⟨r, h1, h2⟩ => by rwa [h2.unique hra] at h1⟩
  have hB : ∀ u, Root s2.parent u b ↔ Same s u y := fun u => by
    have hrb0 : Root s.parent y b := (hr1 _ _).1 hrb
    rw [hroots]; exact ⟨fun h => ⟨b, h, hrb0⟩, fun ⟨r, h1, h2⟩ => by rwa [h2.unique hrb0] at h1⟩
  have hsym : ∀ u v, Same s u v ↔ Same s v u := fun u v =>
    ⟨fun ⟨r, h1, h2⟩ => ⟨r, h2, h1⟩, fun ⟨r, h1, h2⟩ => ⟨r, h2, h1⟩⟩
  have hS : ∀ u v, (∃ r, Root s2.parent u r ∧ Root s2.parent v r) ↔ Same s u v := fun u v => by
    simp [Same, hroots]
  simp only [UF.union, e1, e2]
  by_cases hab : a = b
  · subst hab
    refine ⟨s2, by simp, hi2, fun u v => ?_⟩
    rw [same_congr hroots]
    have hxy : Same s x y := ⟨a, hra, (hr1 _ _).1 hrb⟩
    have tr : ∀ {p q r}, Same s p q → Same s q r → Same s p r := by
      rintro p q r ⟨t, h1, h2⟩ ⟨t', h3, h4⟩
      have := h2.unique h3; subst this
      exact ⟨t, h1, h4⟩
    constructor
    · exact .inl
    · rintro (h | ⟨h1, h2⟩ | ⟨h1, h2⟩)
      · exact h
      · exact tr (tr h1 hxy) h2
      · exact tr (tr h1 ((hsym _ _).1 hxy)) h2
  · have ha := hra2.isRoot
    have hb := hrb2.isRoot
    rw [if_pos hab]
    have key : ∀ u v, (Same s u v ∨ (Root s2.parent u a ∧ Root s2.parent v b) ∨
        (Root s2.parent u b ∧ Root s2.parent v a)) ↔
        Same s u v ∨ (Same s u x ∧ Same s y v) ∨ (Same s u y ∧ Same s x v) := fun u v => by
      rw [hA, hB, hA, hB, hsym v y, hsym v x]
    have key' : ∀ u v, (Same s u v ∨ (Root s2.parent u b ∧ Root s2.parent v a) ∨
        (Root s2.parent u a ∧ Root s2.parent v b)) ↔
        Same s u v ∨ (Same s u x ∧ Same s y v) ∨ (Same s u y ∧ Same s x v) := fun u v => by
      rw [← key, or_comm (a := _ ∧ _)]
    split_ifs with h1 h2
    · refine ⟨_, rfl, ?_, fun u v => ?_⟩
      · exact link_inv hi2 han hbn ha hb hab s2.rank (fun _ _ => rfl) h1 le_rfl (Nat.le_add_left _ _)
      · refine (same_link ha hb hab u v).trans ?_
        rw [hS]; exact key u v
    · refine ⟨_, rfl, ?_, fun u v => ?_⟩
      · exact link_inv hi2 hbn han hb ha (Ne.symm hab) s2.rank (fun _ _ => rfl) h2 le_rfl (Nat.le_add_left _ _)
      · refine (same_link hb ha (Ne.symm hab) u v).trans ?_
        rw [hS]; exact key' u v
    · have hEq : s2.rank a = s2.rank b := by omega
      refine ⟨_, rfl, ?_, fun u v => ?_⟩
      · exact link_inv hi2 hbn han hb ha (Ne.symm hab)
          (Function.update s2.rank a (s2.rank a + 1)) (fun z hz => by rw [Function.update_of_ne hz])
          (by rw [Function.update_self]; omega) (by rw [Function.update_self]; omega)
          (by rw [Function.update_self, hEq, pow_succ]; omega)
      · refine (same_link hb ha (Ne.symm hab) u v).trans ?_
        rw [hS]; exact key' u v

theorem init_inv (n : Nat) : Inv n (UF.init n) := by
  refine ⟨rfl, fun x hx => hx, fun x _ h => absurd rfl h, fun r hr _ => ?_⟩
  have : r ∈ cls (UF.init n) r := mem_cls.2 ⟨hr, .base rfl⟩
  simpa [UF.init] using Finset.card_pos.2 ⟨r, this⟩

end Verif.UnionFind
