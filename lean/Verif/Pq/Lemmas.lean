import Verif.Pq.Model
import Mathlib.Data.List.Basic
import Mathlib.Data.List.Perm.Basic
import Mathlib.Tactic.SplitIfs
import Mathlib.Tactic.Push
import Mathlib.Tactic.Common

/-!
# The heap order is kept by the two sifts
-/

namespace Verif.Pq

variable {α : Type} (lt : α → α → Bool) (d : α)

/-- What the comparison of the nodes has to satisfy: it never holds both ways, and its negation is transitive. -/
structure Weak : Prop where
  asymm : ∀ a b, lt a b = true → lt b a = false
  trans : ∀ a b c, lt b a = false → lt c b = false → lt c a = false

theorem get_set (q : List α) (i j : Nat) (x : α) :
    (q.set i x).getD j d = if i = j ∧ j < q.length then x else q.getD j d := by
  by_cases h : i = j
  · subst h
    by_cases hl : i < q.length
    · rw [if_pos ⟨rfl, hl⟩]
      simp [List.getD_eq_getElem?_getD, hl]
    · rw [if_neg (by tauto)]
      rw [List.set_eq_of_length_le (by omega)]
  · rw [if_neg (by tauto)]
    simp [List.getD_eq_getElem?_getD, List.getElem?_set, h]

theorem set_perm (q : List α) (i j : Nat) (x : α) (hij : i ≠ j) (hi : i < q.length) (hj : j < q.length) :
    ((q.set i (q.getD j d)).set j x).Perm (q.set i x) := by
  have h := List.set_set_perm (as := q.set i x) (i := i) (j := j) (by simpa using hi) (by simpa using hj)
  have e1 : (q.set i x)[j]'(by simpa using hj) = q.getD j d := by
    rw [List.getElem_set_ne hij]
    rw [List.getD_eq_getElem?_getD, List.getElem?_eq_getElem hj]
    rfl
  have e2 : (q.set i x)[i]'(by simpa using hi) = x := List.getElem_set_self _
  rw [e1, e2, List.set_set] at h
  exact h

/-- The heap order between the place `i` and its parent. -/
def Ok (q : List α) (i : Nat) : Prop := lt (q.getD i d) (q.getD ((i - 1) / 2) d) = false

/-- The list is a heap. -/
def IsHeap (q : List α) : Prop := ∀ i, 0 < i → i < q.length → Ok lt d q i

/-- The list is a heap but for the place `pos`. -/
structure Hole (q : List α) (pos : Nat) : Prop where
  away : ∀ i, 0 < i → i < q.length → i ≠ pos → (i - 1) / 2 ≠ pos → Ok lt d q i
  skip : 0 < pos → ∀ i, 0 < i → i < q.length → (i - 1) / 2 = pos →
    lt (q.getD i d) (q.getD ((pos - 1) / 2) d) = false

theorem siftdown_perm (x : α) : ∀ (fuel : Nat) (q : List α) (pos : Nat), pos < q.length →
    (siftdown lt d 0 x fuel q pos).Perm (q.set pos x) := by
  intro fuel
  induction fuel with
  | zero => intro q pos _; exact List.Perm.refl _
  | succ fuel ih =>
    intro q pos hp
    simp only [siftdown]
    by_cases h0 : 0 < pos
    · simp only [h0, if_true]
      by_cases h1 : lt x (q.getD ((pos - 1) / 2) d) = true
      · simp only [h1, if_true]
        refine (ih _ _ (by simp; omega)).trans ?_
        exact set_perm d q pos ((pos - 1) / 2) x (by omega) hp (by omega)
      · simp only [h1]
        exact List.Perm.refl _
    · simp only [h0, if_false]
      exact List.Perm.refl _

variable {lt}

theorem siftdown_heap (W : Weak lt) (x : α) : ∀ (fuel : Nat) (q : List α) (pos : Nat), pos < fuel → pos < q.length →
    Hole lt d q pos → (∀ i, 0 < i → i < q.length → (i - 1) / 2 = pos → lt (q.getD i d) x = false) →
    IsHeap lt d (siftdown lt d 0 x fuel q pos) := by
  intro fuel
  induction fuel with
  | zero => intro q pos h; omega
  | succ fuel ih =>
    intro q pos hf hp H hx
    simp only [siftdown]
    by_cases h0 : 0 < pos
    · simp only [h0, if_true]
      by_cases h1 : lt x (q.getD ((pos - 1) / 2) d) = true
      · simp only [h1, if_true]
        set pp := (pos - 1) / 2 with hpp
        have hpl : pp < pos := by omega
        have okpp : 0 < pp → lt (q.getD pp d) (q.getD ((pp - 1) / 2) d) = false := fun h =>
          H.away pp h (by omega) (by omega) (by omega)
        refine ih _ _ (by omega) (by simp; omega) ⟨?_, ?_⟩ ?_
        · intro i hi hl hne hpar
          simp only [List.length_set] at hl
          have hip : pos ≠ i := by rintro rfl; exact hpar rfl
          unfold Ok
          rw [get_set, get_set, if_neg (by tauto)]
          by_cases hc : pos = (i - 1) / 2
          · rw [if_pos ⟨hc, by omega⟩]
            exact H.skip h0 i hi hl hc.symm
          · rw [if_neg (by tauto)]
            exact H.away i hi hl (Ne.symm hip) (Ne.symm hc)
        · intro hpp0 i hi hl hpar
          simp only [List.length_set] at hl
          rw [get_set, get_set, if_neg (c := pos = (pp - 1) / 2 ∧ _) (by omega)]
          by_cases hc : pos = i
          · rw [if_pos ⟨hc, by omega⟩]
            exact okpp hpp0
          · rw [if_neg (by tauto)]
            have := H.away i hi hl (Ne.symm hc) (by omega)
            unfold Ok at this
            rw [hpar] at this
            exact W.trans _ _ _ (okpp hpp0) this
        · intro i hi hl hpar
          simp only [List.length_set] at hl
          rw [get_set]
          have hxp := W.asymm _ _ h1
          by_cases hc : pos = i
          · rw [if_pos ⟨hc, by omega⟩]
            exact hxp
          · rw [if_neg (by tauto)]
            have := H.away i hi hl (Ne.symm hc) (by omega)
            unfold Ok at this
            rw [hpar] at this
            exact W.trans _ _ _ hxp this
      · rw [if_neg h1]
        intro i hi hl
        simp only [List.length_set] at hl
        unfold Ok
        rw [get_set, get_set]
        by_cases hc : pos = i
        · rw [if_pos ⟨hc, by omega⟩, if_neg (by omega), ← hc]
          simpa using h1
        · rw [if_neg (by tauto)]
          by_cases hd : pos = (i - 1) / 2
          · rw [if_pos ⟨hd, by omega⟩]
            exact hx i hi hl hd.symm
          · rw [if_neg (by tauto)]
            exact H.away i hi hl (Ne.symm hc) (Ne.symm hd)
    · rw [if_neg h0]
      intro i hi hl
      simp only [List.length_set] at hl
      unfold Ok
      rw [get_set, get_set, if_neg (by omega)]
      by_cases hd : pos = (i - 1) / 2
      · rw [if_pos ⟨hd, by omega⟩]
        exact hx i hi hl hd.symm
      · rw [if_neg (by tauto)]
        exact H.away i hi hl (by omega) (Ne.symm hd)

theorem siftupLoop_spec (W : Weak lt) : ∀ (fuel : Nat) (q : List α) (pos : Nat), q.length ≤ pos + fuel → pos < q.length →
    Hole lt d q pos →
    (siftupLoop lt d fuel q pos).1.length = q.length ∧ (siftupLoop lt d fuel q pos).2 < q.length ∧
    q.length ≤ 2 * (siftupLoop lt d fuel q pos).2 + 1 ∧ Hole lt d (siftupLoop lt d fuel q pos).1 (siftupLoop lt d fuel q pos).2 ∧
    ∀ x, ((siftupLoop lt d fuel q pos).1.set (siftupLoop lt d fuel q pos).2 x).Perm (q.set pos x) := by
  intro fuel
  induction fuel with
  | zero => intro q pos h hp; omega
  | succ fuel ih =>
    intro q pos hf hp H
    simp only [siftupLoop]
    by_cases h0 : 2 * pos + 1 < q.length
    · rw [if_pos h0]
      obtain ⟨c, hc⟩ : ∃ c, c = if 2 * pos + 1 + 1 < q.length ∧ lt (q.getD (2 * pos + 1) d) (q.getD (2 * pos + 1 + 1) d) = false
        then 2 * pos + 1 + 1 else 2 * pos + 1 := ⟨_, rfl⟩
      rw [← hc]
      have hcl : c < q.length := by rw [hc]; split_ifs <;> omega
      have hcp : (c - 1) / 2 = pos := by rw [hc]; split_ifs <;> omega
      have hc0 : 0 < c := by rw [hc]; split_ifs <;> omega
      have hcpos : pos < c := by omega
      have hmin : ∀ i, 0 < i → i < q.length → (i - 1) / 2 = pos → i ≠ c → lt (q.getD i d) (q.getD c d) = false := by
        intro i hi hl hpar hne
        by_cases hh : 2 * pos + 1 + 1 < q.length ∧ lt (q.getD (2 * pos + 1) d) (q.getD (2 * pos + 1 + 1) d) = false
        · rw [if_pos hh] at hc
          have : i = 2 * pos + 1 := by omega
          rw [this, hc]; exact hh.2
        · rw [if_neg hh] at hc
          have : i = 2 * pos + 1 + 1 := by omega
          rw [this, hc]
          apply W.asymm
          by_contra hcon
          exact hh ⟨by omega, by simpa using hcon⟩
      obtain ⟨i1, i2, i3, i4, i5⟩ := ih (q.set pos (q.getD c d)) c (by simp; omega) (by simpa using hcl) ⟨by
          intro i hi hl hne hpar
          simp only [List.length_set] at hl
          unfold Ok
          rw [get_set, get_set]
          by_cases hip : pos = i
          · rw [if_pos ⟨hip, hl⟩, if_neg (by omega), ← hip]
            exact H.skip (by omega) c hc0 hcl hcp
          · rw [if_neg (by tauto)]
            by_cases hd : pos = (i - 1) / 2
            · rw [if_pos ⟨hd, by omega⟩]
              exact hmin i hi hl hd.symm hne
            · rw [if_neg (by tauto)]
              exact H.away i hi hl (Ne.symm hip) (Ne.symm hd), by
          intro _ i hi hl hpar
          simp only [List.length_set] at hl
          rw [get_set, get_set, if_neg (by omega), hcp, if_pos ⟨rfl, hp⟩]
          have := H.away i hi hl (by omega) (by omega)
          unfold Ok at this
          rw [hpar] at this
          exact this⟩
      simp only [List.length_set] at i1 i2 i3
      refine ⟨i1, i2, i3, i4, fun x => (i5 x).trans ?_⟩
      exact set_perm d q pos c x (by omega) hp hcl
    · rw [if_neg h0]
      exact ⟨rfl, hp, by simp only; omega, H, fun x => List.Perm.refl _⟩

theorem heappush_perm (q : List α) (x : α) : (heappush lt d q x).Perm (x :: q) := by
  refine (siftdown_perm lt d x _ _ _ (by simp)).trans ?_
  rw [List.set_append_right _ _ (Nat.le_refl _)]
  simp

theorem heappush_heap (W : Weak lt) (q : List α) (x : α) (h : IsHeap lt d q) : IsHeap lt d (heappush lt d q x) := by
  have hg : ∀ i, i < q.length → (q ++ [x]).getD i d = q.getD i d := by
    intro i hi
    simp [List.getD_eq_getElem?_getD, List.getElem?_append_left hi]
  refine siftdown_heap d W x _ _ _ (by omega) (by simp) ⟨?_, ?_⟩ ?_
  · intro i hi hl hne _
    simp only [List.length_append, List.length_singleton] at hl
    unfold Ok
    rw [hg i (by omega), hg _ (by omega)]
    exact h i hi (by omega)
  · intro _ i hi hl hpar
    simp only [List.length_append, List.length_singleton] at hl
    omega
  · intro i hi hl hpar
    simp only [List.length_append, List.length_singleton] at hl
    omega

theorem siftup_spec (W : Weak lt) (r x : α) (rest : List α) (h : IsHeap lt d (r :: rest)) :
    IsHeap lt d (siftup lt d (r :: rest) x) ∧ (siftup lt d (r :: rest) x).Perm (x :: rest) := by
  obtain ⟨i1, i2, i3, i4, i5⟩ := siftupLoop_spec d W (r :: rest).length (r :: rest) 0 (by omega) (by simp)
    ⟨fun i hi hl _ _ => h i hi hl, fun h0 => absurd h0 (by omega)⟩
  constructor
  · refine siftdown_heap d W x _ _ _ (by rw [i1]; omega) (by rw [i1]; exact i2) i4 ?_
    intro i hi hl hpar
    rw [i1] at hl
    omega
  · refine (siftdown_perm lt d x _ _ _ (by rw [i1]; exact i2)).trans ?_
    exact (i5 x).trans (by simp)

theorem heappop_spec (W : Weak lt) (q : List α) (h : IsHeap lt d q) :
    match heappop lt d q with
    | none => q = []
    | some (x, q') => q.head? = some x ∧ q.Perm (x :: q') ∧ IsHeap lt d q' := by
  unfold heappop
  rcases List.eq_nil_or_concat q with rfl | ⟨init, last, rfl⟩
  · simp
  · simp only [List.concat_eq_append, List.getLast?_append, List.getLast?_singleton, Option.some_or, List.dropLast_concat]
    simp only [List.concat_eq_append] at h
    cases init with
    | nil => exact ⟨rfl, List.Perm.refl _, fun i _ hl => by simp at hl⟩
    | cons r rest =>
      have hi : IsHeap lt d (r :: rest) := by
        have hg : ∀ i, i < (r :: rest).length → (r :: rest ++ [last]).getD i d = (r :: rest).getD i d := by
          intro i hi
          rw [List.getD_eq_getElem?_getD, List.getD_eq_getElem?_getD, List.getElem?_append_left hi]
        intro i hi hl
        have := h i hi (by simp only [List.length_append]; omega)
        unfold Ok at this ⊢
        rwa [hg i hl, hg _ (by omega)] at this
      obtain ⟨a, b⟩ := siftup_spec d W r last rest hi
      refine ⟨rfl, ?_, a⟩
      simp only [List.cons_append]
      refine List.Perm.cons _ (List.Perm.trans ?_ b.symm)
      exact List.perm_append_comm

theorem head_least (W : Weak lt) (irr : ∀ a, lt a a = false) (q : List α) (h : IsHeap lt d q) :
    ∀ i, i < q.length → lt (q.getD i d) (q.getD 0 d) = false := by
  intro i
  induction i using Nat.strongRecOn with
  | ind i ih =>
    intro hi
    by_cases h0 : i = 0
    · subst h0; exact irr _
    · exact W.trans _ _ _ (ih ((i - 1) / 2) (by omega) (by omega)) (h i (by omega) hi)

end Verif.Pq
