import Verif.Sort.Model
import Mathlib.Data.List.Perm.Basic
import Mathlib.Data.Int.Order.Basic

namespace Verif.Sort
variable {α : Type}

theorem rd_append (pre post : List α) (x : α) (i : Int) (hi : i = pre.length) : rd (pre ++ x :: post) i = some x := by
  subst hi
  simp [rd]

theorem wr_append (pre post : List α) (x v : α) (i : Int) (hi : i = pre.length) :
    wr (pre ++ x :: post) i v = some (pre ++ v :: post) := by
  subst hi
  simp [wr]

theorem swap_two (pre mid post : List α) (x y : α) (i j : Int) (hi : i = pre.length) (hj : j = pre.length + 1 + mid.length) :
    swap (pre ++ x :: (mid ++ y :: post)) i j = some (pre ++ y :: (mid ++ x :: post)) := by
  have h1 : pre ++ x :: (mid ++ y :: post) = (pre ++ x :: mid) ++ y :: post := by simp
  have h2 : pre ++ y :: (mid ++ y :: post) = (pre ++ y :: mid) ++ y :: post := by simp
  unfold swap
  rw [rd_append _ _ _ _ hi]
  rw [h1, rd_append _ _ _ _ (by simp; omega), ← h1]
  simp only [Option.bind_eq_bind, Option.bind_some]
  rw [wr_append _ _ _ _ _ hi]
  simp only [Option.bind_some]
  rw [h2, wr_append _ _ _ _ _ (by simp; omega)]
  simp

theorem swap_self (pre post : List α) (x : α) (i j : Int) (hi : i = pre.length) (hj : j = i) :
    swap (pre ++ x :: post) i j = some (pre ++ x :: post) := by
  subst hj
  unfold swap
  simp only [rd_append _ _ _ _ hi, Option.bind_eq_bind, Option.bind_some, wr_append _ _ _ _ _ hi]

/-- What the comparison must satisfy on the elements at hand. -/
structure TestOk (test : α → α → Option Bool) (le : α → α → Prop) (P : α → Prop) : Prop where
  total : ∀ x p, P x → P p → ∃ b, test x p = some b
  yes : ∀ x p, P x → P p → test x p = some true → le x p
  no : ∀ x p, P x → P p → test x p = some false → le p x
  trans : ∀ x y z, P x → P y → P z → le x y → le y z → le x z

variable {test : α → α → Option Bool} {le : α → α → Prop} {P : α → Prop}

theorem partLoop_spec (T : TestOk test le P) (p : α) (hp : P p) (pre : List α) (rest : List α) : ∀ (S B post : List α) (j i : Int),
    (∀ x ∈ rest, P x) → (∀ x ∈ S, le x p) → (∀ x ∈ B, le p x) →
    i + 1 = pre.length + S.length → j = pre.length + S.length + B.length →
    ∃ S' B', partLoop test p rest.length j i (pre ++ (S ++ (B ++ (rest ++ post)))) =
        some ((pre.length : Int) + S'.length - 1, pre ++ (S' ++ (B' ++ post))) ∧
      (S' ++ B').Perm (S ++ B ++ rest) ∧ (∀ x ∈ S', le x p) ∧ (∀ x ∈ B', le p x) := by
  induction rest with
  | nil =>
    intro S B post j i _ hS hB hi hj
    refine ⟨S, B, ?_, by simp, hS, hB⟩
    simp only [List.length_nil, partLoop, List.nil_append, Option.some.injEq, Prod.mk.injEq, and_true]
    omega
  | cons x rest ih =>
    intro S B post j i hP hS hB hi hj
    have hPx := hP x List.mem_cons_self
    have hPr : ∀ y ∈ rest, P y := fun y hy => hP y (List.mem_cons_of_mem _ hy)
    obtain ⟨b, hb⟩ := T.total x p hPx hp
    have hrd : rd (pre ++ (S ++ (B ++ (x :: rest ++ post)))) j = some x := by
      have : pre ++ (S ++ (B ++ (x :: rest ++ post))) = (pre ++ S ++ B) ++ x :: (rest ++ post) := by simp
      rw [this]
      exact rd_append _ _ _ _ (by simp; omega)
    simp only [List.length_cons, partLoop, hrd, Option.bind_eq_bind, Option.bind_some, hb]
    cases b with
    | false =>
      obtain ⟨S', B', e, hperm, h1, h2⟩ := ih S (B ++ [x]) post (j + 1) i hPr hS
        (by
          intro y hy
          rcases List.mem_append.1 hy with h | h
          · exact hB y h
          · rw [List.mem_singleton.1 h]; exact T.no x p hPx hp hb) hi (by simp; omega)
      refine ⟨S', B', ?_, by simpa using hperm, h1, h2⟩
      rw [← e]
      simp
    | true =>
      have hS' : ∀ y ∈ S ++ [x], le y p := by
        intro y hy
        rcases List.mem_append.1 hy with h | h
        · exact hS y h
        · rw [List.mem_singleton.1 h]; exact T.yes x p hPx hp hb
      cases B with
      | nil =>
        obtain ⟨S', B', e, hperm, h1, h2⟩ := ih (S ++ [x]) [] post (j + 1) (i + 1) hPr hS' (by simp)
          (by simp; omega) (by simp at hj ⊢; omega)
        refine ⟨S', B', ?_, by simpa using hperm, h1, h2⟩
        have hsw : swap (pre ++ (S ++ ([] ++ (x :: rest ++ post)))) (i + 1) j =
            some (pre ++ (S ++ [x] ++ ([] ++ (rest ++ post)))) := by
          have e1 : pre ++ (S ++ ([] ++ (x :: rest ++ post))) = (pre ++ S) ++ x :: (rest ++ post) := by simp
          rw [e1, swap_self _ _ _ _ _ (by simp; omega) (by simp at hj; omega)]
          simp
        simp only [if_true, hsw, Option.bind_some]
        exact e
      | cons b B =>
        have hB' : ∀ y ∈ B ++ [b], le p y := by
          intro y hy
          rcases List.mem_append.1 hy with h | h
          · exact hB y (List.mem_cons_of_mem _ h)
          · rw [List.mem_singleton.1 h]; exact hB b List.mem_cons_self
        obtain ⟨S', B', e, hperm, h1, h2⟩ := ih (S ++ [x]) (B ++ [b]) post (j + 1) (i + 1) hPr hS' hB'
          (by simp; omega) (by simp at hj ⊢; omega)
        refine ⟨S', B', ?_, ?_, h1, h2⟩
        · have hsw : swap (pre ++ (S ++ (b :: B ++ (x :: rest ++ post)))) (i + 1) j =
              some (pre ++ (S ++ [x] ++ (B ++ [b] ++ (rest ++ post)))) := by
            have e1 : pre ++ (S ++ (b :: B ++ (x :: rest ++ post))) = (pre ++ S) ++ b :: (B ++ x :: (rest ++ post)) := by
              simp
            rw [e1, swap_two _ _ _ _ _ _ _ (by simp; omega) (by simp at hj ⊢; omega)]
            simp
          simp only [if_true, hsw, Option.bind_some]
          exact e
        · refine hperm.trans ?_
          have h3 : (S ++ [x] ++ (B ++ [b]) ++ rest).Perm (S ++ (b :: B ++ x :: rest)) := by
            simp only [List.append_assoc]
            refine List.Perm.append_left _ ?_
            simp only [List.cons_append, List.nil_append]
            -- x :: (B ++ b :: rest) ~ b :: (B ++ x :: rest)
            exact (List.perm_middle.cons x).trans ((List.Perm.swap b x _).trans (List.perm_middle.symm.cons b))
          simpa using h3

theorem partition_spec (T : TestOk test le P) (pre seg post : List α) (p : α) (hseg : ∀ x ∈ seg, P x) (hp : P p)
    (low high : Int) (hl : low = pre.length) (hh : high = pre.length + seg.length) :
    ∃ S B, partition test (pre ++ (seg ++ p :: post)) low high =
        some ((pre.length : Int) + S.length, pre ++ (S ++ p :: (B ++ post))) ∧
      (S ++ B).Perm seg ∧ (∀ x ∈ S, le x p) ∧ (∀ x ∈ B, le p x) := by
  have hrd : rd (pre ++ (seg ++ p :: post)) high = some p := by
    rw [← List.append_assoc]
    exact rd_append _ _ _ _ (by simp; omega)
  obtain ⟨S, B, e, hperm, h1, h2⟩ := partLoop_spec T p hp pre seg [] [] (p :: post) low (low - 1) hseg (by simp) (by simp)
    (by simp; omega) (by simp; omega)
  have hlen := hperm.length_eq
  simp only [List.length_append, List.nil_append] at hlen
  have hn : (high - low).toNat = seg.length := by omega
  simp only [List.nil_append] at e hperm
  unfold partition
  simp only [hrd, Option.bind_eq_bind, Option.bind_some, hn, e]
  cases B with
  | nil =>
    refine ⟨S, [], ?_, hperm, h1, by simp⟩
    have e1 : pre ++ (S ++ ([] ++ p :: post)) = (pre ++ S) ++ p :: post := by simp
    rw [e1, swap_self _ _ _ _ _ (by simp) (by simp at hlen ⊢; omega)]
    simp
  | cons b B =>
    refine ⟨S, B ++ [b], ?_, ?_, h1, ?_⟩
    · have e1 : pre ++ (S ++ (b :: B ++ p :: post)) = (pre ++ S) ++ b :: (B ++ p :: post) := by simp
      rw [e1, swap_two _ _ _ _ _ _ _ (by simp) (by simp at hlen ⊢; omega)]
      simp
    · refine List.Perm.trans ?_ hperm
      exact List.Perm.append_left _ List.perm_append_comm
    · intro y hy
      rcases List.mem_append.1 hy with h | h
      · exact h2 y (List.mem_cons_of_mem _ h)
      · rw [List.mem_singleton.1 h]; exact h2 b List.mem_cons_self

theorem sortRec_spec (T : TestOk test le P) : ∀ (f : Nat) (pre seg post : List α) (low high : Int), seg.length ≤ f →
    (∀ x ∈ seg, P x) → low = pre.length → high = pre.length + seg.length - 1 →
    ∃ seg', sortRec test f (pre ++ (seg ++ post)) low high = some (pre ++ (seg' ++ post)) ∧ seg'.Perm seg ∧
      seg'.Pairwise le := by
  intro f
  induction f with
  | zero =>
    intro pre seg post low high hf hP hl hh
    have : seg = [] := List.length_eq_zero_iff.1 (by omega)
    subst this
    exact ⟨[], by simp at hh; simp [sortRec]; omega, by simp, by simp⟩
  | succ f ih =>
    intro pre seg post low high hf hP hl hh
    unfold sortRec
    by_cases hlt : low < high
    · rw [if_pos hlt]
      have hne : seg ≠ [] := by rintro rfl; simp at hh; omega
      obtain ⟨init, p, rfl⟩ : ∃ init p, seg = init ++ [p] := ⟨_, _, (List.dropLast_append_getLast hne).symm⟩
      have hPp : P p := hP p (by simp)
      have hPi : ∀ x ∈ init, P x := fun x hx => hP x (by simp [hx])
      simp only [List.length_append, List.length_cons, List.length_nil] at hh hf
      obtain ⟨S, B, e, hperm, h1, h2⟩ := partition_spec T pre init post p hPi hPp low high hl (by omega)
      have hlen := hperm.length_eq
      simp only [List.length_append] at hlen
      have hPS : ∀ x ∈ S, P x := fun x hx => hPi x (hperm.mem_iff.1 (List.mem_append_left _ hx))
      have hPB : ∀ x ∈ B, P x := fun x hx => hPi x (hperm.mem_iff.1 (List.mem_append_right _ hx))
      obtain ⟨S', e2, hp2, hs2⟩ := ih pre S (p :: (B ++ post)) low (pre.length + S.length - 1) (by omega) hPS hl rfl
      obtain ⟨B', e3, hp3, hs3⟩ := ih (pre ++ (S' ++ [p])) B post (pre.length + S.length + 1) high (by omega) hPB
        (by have := hp2.length_eq; simp; omega) (by have := hp2.length_eq; simp; omega)
      refine ⟨S' ++ p :: B', ?_, ?_, ?_⟩
      · have : pre ++ (init ++ [p] ++ post) = pre ++ (init ++ p :: post) := by simp
        rw [this]
        simp only [e, Option.bind_eq_bind, Option.bind_some, e2]
        have : pre ++ (S' ++ p :: (B ++ post)) = pre ++ (S' ++ [p]) ++ (B ++ post) := by simp
        rw [this, e3]
        simp
      · have a1 : (S' ++ p :: B').Perm (S ++ p :: B) := hp2.append (hp3.cons p)
        refine a1.trans (List.perm_middle.trans ((hperm.cons p).trans ?_))
        exact (List.perm_append_singleton p init).symm
      · rw [List.pairwise_append]
        refine ⟨hs2, List.pairwise_cons.2 ⟨fun y hy => h2 y (hp3.mem_iff.1 hy), hs3⟩, ?_⟩
        intro x hx y hy
        have hx' := hp2.mem_iff.1 hx
        have hxp := h1 x hx'
        rcases List.mem_cons.1 hy with rfl | hy
        · exact hxp
        · have hy' := hp3.mem_iff.1 hy
          exact T.trans x p y (hPS x hx') hPp (hPB y hy') hxp (h2 y hy')
    · rw [if_neg hlt]
      refine ⟨seg, rfl, List.Perm.refl _, ?_⟩
      have : seg.length ≤ 1 := by omega
      match seg, this with
      | [], _ => exact List.Pairwise.nil
      | [x], _ => simp

end Verif.Sort
