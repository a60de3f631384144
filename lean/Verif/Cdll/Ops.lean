import Verif.Cdll.Lemmas
import Mathlib.Data.List.Basic

namespace Verif.Cdll
variable {α : Type}

theorem ok_intro {ε σ : Type} {P : σ → Prop} {r : Except ε σ} {v : σ} (h1 : r = .ok v) (h2 : P v) :
    ∃ v, r = .ok v ∧ P v := ⟨v, h1, h2⟩

theorem Rep.empty : Rep (empty : CDLL α) [] :=
  ⟨fun _ => 0, rfl, fun _ => rfl, fun h => absurd rfl h,
    ⟨fun i _ h => absurd h (by simp), fun i h => absurd h (by simp), fun i h => absurd h (by simp)⟩,
    fun i h => absurd h (by simp), fun i h => absurd h (by simp)⟩

/-- Data of the new ring after inserting behind position `j`. -/
theorem data_insert {data : Nat → Option α} {ids : Nat → Nat} {xs : List α} {new j : Nat} (d : α) (hj : j < xs.length)
    (hd : ∀ i, i < xs.length → data (ids i) = xs[i]?) (hnew : ∀ i, i < xs.length → ids i ≠ new) (i : Nat)
    (hi : i < xs.length + 1) :
    upd data new (some d) (if i ≤ j then ids i else if i = j + 1 then new else ids (i - 1)) =
      (xs.insertIdx (j + 1) d)[i]? := by
  rw [List.getElem?_insertIdx]
  by_cases c1 : i ≤ j
  · rw [if_pos c1, if_pos (by omega : i < j + 1), upd_ne _ _ (hnew _ (by omega)), hd _ (by omega)]
  · rw [if_neg c1, if_neg (by omega : ¬ i < j + 1)]
    by_cases c2 : i = j + 1
    · rw [if_pos c2, if_pos c2, upd_same, if_pos (by omega)]
    · rw [if_neg c2, if_neg c2, upd_ne _ _ (hnew _ (by omega)), hd _ (by omega)]

theorem insert_out {s : CDLL α} {xs : List α} (h : Rep s xs) (d : α) (i : Int)
    (hi : i > xs.length ∨ i < 0) : insert s d i = .error .value := by
  obtain ⟨ids, hc, _⟩ := h
  unfold insert
  rw [if_pos (by rw [hc]; exact hi)]

theorem insert_nil {s : CDLL α} (h : Rep s ([] : List α)) (d : α) : ∃ s', insert s d 0 = .ok s' ∧ Rep s' [d] := by
  obtain ⟨ids, hc, hh, _⟩ := h
  have hh := hh rfl
  apply ok_intro
  · unfold insert
    rw [if_neg (by rw [hc]; simp)]
    simp only [alloc, hh]
    rfl
  · refine ⟨fun _ => s.fresh, by simp [hc], by simp, fun _ => rfl, ⟨?_, ?_, ?_⟩, ?_, ?_⟩
    · intro i j hi hj _; simp at hi hj; omega
    · intro i hi; simp [upd_same]
    · intro i hi; simp [upd_same]
    · intro i hi; simp
    · intro i hi; simp only [List.length_singleton] at hi; obtain rfl : i = 0 := by omega
      simp [upd_same]

/-- Core of insertion behind position `j` with the head kept. -/
theorem insert_pos {s : CDLL α} {xs : List α} (h : Rep s xs) (hx : xs ≠ []) (d : α) (j : Nat) (hj : j < xs.length) :
    ∃ s', insert s d ((j : Int) + 1) = .ok s' ∧ Rep s' (xs.insertIdx (j + 1) d) := by
  obtain ⟨ids, hc, _, hh, hr, hlt, hd⟩ := h
  have hh := hh hx
  have hnew : ∀ i, i < xs.length → ids i ≠ s.fresh := fun i hi => by have := hlt i hi; omega
  have hr' : Ring (alloc s d).next (alloc s d).prev xs.length ids := by
    refine ⟨hr.inj, ?_, ?_⟩
    · intro i hi; simp only [alloc]; rw [upd_ne _ _ (hnew _ hi)]; exact hr.nxt i hi
    · intro i hi; simp only [alloc]; rw [upd_ne _ _ (hnew _ (succ_lt hi))]; exact hr.prv i hi
  have hw := walk_ids hr' j 0 (by omega)
  rw [Nat.zero_add] at hw
  apply ok_intro
  · unfold insert
    rw [if_neg (by rw [hc]; omega)]
    have hh' : (alloc s d).head = some (ids 0) := hh
    simp only [hh']
    rw [show ((j : Int) + 1 - 1).toNat = j by omega, hw]
    simp only [bind, Except.bind, attr, hr'.nxt j hj]
    rfl
  · have hsj := succ_lt hj
    have hlen : (xs.insertIdx (j + 1) d).length = xs.length + 1 := by
      rw [List.length_insertIdx, if_pos (by omega)]
    refine ⟨fun i => if i ≤ j then ids i else if i = j + 1 then s.fresh else ids (i - 1), ?_, ?_, ?_, ?_, ?_, ?_⟩
    · rw [hlen]; simp [alloc, hc]
    · intro hn; rw [hn] at hlen; simp at hlen
    · intro _; simp; omega
    · rw [hlen]
      dsimp only
      refine hr'.insertAfter hj hnew ?_ ?_ ?_ ?_ ?_ ?_
      · exact upd_same _ _ _
      · rw [upd_ne _ _ (hnew j hj).symm, upd_same]
      · intro x h1 h2; rw [upd_ne _ _ h1, upd_ne _ _ h2]
      · exact upd_same _ _ _
      · rw [upd_ne _ _ (hnew _ hsj), upd_same]
      · intro x h1 h2; rw [upd_ne _ _ h2, upd_ne _ _ h1]
    · intro i hi
      rw [hlen] at hi
      simp only [alloc]
      split
      · have := hlt i (by omega); omega
      · split
        · omega
        · have := hlt (i - 1) (by omega); omega
    · intro i hi
      rw [hlen] at hi
      exact data_insert d hj hd hnew i hi

theorem insert_single {s : CDLL α} {a : α} (h : Rep s [a]) (d : α) : ∃ s', insert s d 0 = .ok s' ∧ Rep s' [d, a] := by
  obtain ⟨ids, hc, _, hh, hr, hlt, hd⟩ := h
  have hh := hh (by simp)
  have h0 : ids 0 ≠ s.fresh := by have := hlt 0 (by simp); omega
  have n0 : s.next (ids 0) = some (ids 0) := hr.nxt 0 (by simp)
  have p0 : s.prev (ids 0) = some (ids 0) := hr.prv 0 (by simp)
  have d0 := hd 0 (by simp)
  apply ok_intro
  · unfold insert
    rw [if_neg (by rw [hc]; simp)]
    have hh' : (alloc s d).head = some (ids 0) := hh
    have nn : (alloc s d).next (ids 0) = some (ids 0) := by simp only [alloc]; rw [upd_ne _ _ h0]; exact n0
    simp only [hh', show ((0 : Int) - 1).toNat = 0 from rfl, walk]
    simp only [bind, Except.bind, nn, attr]
    rfl
  · refine ⟨fun i => if i = 0 then s.fresh else ids 0, by simp [alloc, hc], by simp, by simp, ⟨?_, ?_, ?_⟩, ?_, ?_⟩
    · intro i j hi hj e
      simp only [List.length_cons, List.length_nil] at hi hj
      by_cases c1 : i = 0 <;> by_cases c2 : j = 0 <;> simp only [c1, c2, if_true, if_false] at e <;> (try omega)
      all_goals first
        | exact absurd e.symm h0
        | exact absurd e h0
    · intro i hi
      simp only [List.length_cons, List.length_nil] at hi ⊢
      by_cases c : i = 0
      · subst c; simp [succ, upd, h0.symm]
      · obtain rfl : i = 1 := by omega
        simp [succ, upd]
    · intro i hi
      simp only [List.length_cons, List.length_nil] at hi ⊢
      by_cases c : i = 0
      · subst c; simp [succ, upd, h0]
      · obtain rfl : i = 1 := by omega
        simp [succ, upd]
    · intro i hi
      have := hlt 0 (by simp)
      simp only [alloc]; split <;> omega
    · intro i hi
      simp only [List.length_cons, List.length_nil] at hi
      by_cases c : i = 0
      · subst c; simp [alloc, upd]
      · obtain rfl : i = 1 := by omega
        simp [alloc, upd, h0, d0]

theorem append_rep {s : CDLL α} {xs : List α} (h : Rep s xs) (d : α) :
    ∃ s', append s d = .ok s' ∧ Rep s' (xs ++ [d]) := by
  have hc : s.count = xs.length := h.choose_spec.1
  cases xs with
  | nil =>
    unfold append
    rw [hc]; exact insert_nil h d
  | cons a as =>
    unfold append
    rw [hc]
    have := insert_pos h (by simp) d as.length (by simp)
    rw [show as.length + 1 = (a :: as).length from rfl, List.insertIdx_length_self] at this
    exact this

theorem appendNode_rep {s : CDLL α} {xs : List α} (h : Rep s xs) (d : α) :
    ∃ s', appendNode s d = .ok s' ∧ Rep s' (xs ++ [d]) := by
  obtain ⟨ids, hc, hh0, hh, hr, hlt, hd⟩ := h
  by_cases hx : xs = []
  · subst hx
    have hh := hh0 rfl
    apply ok_intro
    · unfold appendNode
      simp only [alloc, hh]
      rfl
    · refine ⟨fun _ => s.fresh, by simp, by simp, fun _ => rfl, ⟨?_, ?_, ?_⟩, ?_, ?_⟩
      · intro i j hi hj _; simp at hi hj; omega
      · intro i hi; simp [upd_same]
      · intro i hi; simp [upd_same]
      · intro i hi; simp
      · intro i hi; simp at hi; subst hi; simp [upd_same]
  · have hh := hh hx
    have hpos : 0 < xs.length := by cases xs with | nil => exact absurd rfl hx | cons => simp
    have hnew : ∀ i, i < xs.length → ids i ≠ s.fresh := fun i hi => by have := hlt i hi; omega
    have hr' : Ring (alloc s d).next (alloc s d).prev xs.length ids := by
      refine ⟨hr.inj, ?_, ?_⟩
      · intro i hi; simp only [alloc]; rw [upd_ne _ _ (hnew _ hi)]; exact hr.nxt i hi
      · intro i hi; simp only [alloc]; rw [upd_ne _ _ (hnew _ (succ_lt hi))]; exact hr.prv i hi
    have hj : xs.length - 1 < xs.length := by omega
    have hsj : succ (xs.length - 1) xs.length = 0 := succ_zero (by omega)
    have hp : (alloc s d).prev (ids 0) = some (ids (xs.length - 1)) := by
      have := hr'.prv _ hj; rwa [hsj] at this
    apply ok_intro
    · unfold appendNode
      have hh' : (alloc s d).head = some (ids 0) := hh
      simp only [hh', hp, attr, bind, Except.bind]
      rfl
    · refine ⟨fun i => if i ≤ xs.length - 1 then ids i else if i = xs.length - 1 + 1 then s.fresh else ids (i - 1),
        by simp [alloc, hc], by simp, fun _ => by simp [alloc, hh], ?_, ?_, ?_⟩
      · rw [List.length_append, List.length_singleton]
        dsimp only
        refine hr'.insertAfter hj hnew ?_ ?_ ?_ ?_ ?_ ?_
        · rw [upd_ne _ _ (hnew _ hj), upd_same]
        · rw [upd_same, hsj]
        · intro x h1 h2; rw [upd_ne _ _ h2, upd_ne _ _ h1]
        · rw [upd_ne _ _ (hnew 0 hpos).symm, upd_same]
        · rw [hsj]; exact upd_same _ _ _
        · intro x h1 h2; rw [hsj] at h1; rw [upd_ne _ _ h1, upd_ne _ _ h2]
      · intro i hi
        rw [List.length_append, List.length_singleton] at hi
        simp only [alloc]
        split
        · have := hlt i (by omega); omega
        · split
          · omega
          · have := hlt (i - 1) (by omega); omega
      · intro i hi
        rw [List.length_append, List.length_singleton] at hi
        have := data_insert d hj hd hnew i hi
        rw [show xs.length - 1 + 1 = xs.length by omega, List.insertIdx_length_self] at this
        rw [← this]
        simp only [alloc, show xs.length - 1 + 1 = xs.length by omega]

theorem unlink_rep {s : CDLL α} {n : Nat} {ids : Nat → Nat} (hr : Ring s.next s.prev n ids) (hn : 2 ≤ n) {k : Nat}
    (hk : k < n) :
    ∃ s', unlink s (ids k) = .ok s' ∧ Ring s'.next s'.prev (n - 1) (fun i => ids (skip k i)) ∧
      s'.data = s.data ∧ s'.fresh = s.fresh ∧ s'.head = s.head ∧ s'.count = s.count ∧
      (s'.next (ids k)).isSome ∧ (s'.prev (ids k)).isSome := by
  obtain ⟨p, hp, hpk⟩ := exists_pred hk
  have hkp : k ≠ p := by
    rintro rfl
    unfold succ at hpk; split at hpk <;> omega
  have hks : k ≠ succ k n := by unfold succ; split <;> omega
  have hpv : s.prev (ids k) = some (ids p) := by have := hr.prv p hp; rwa [hpk] at this
  have hnx := hr.nxt k hk
  have hne : ids k ≠ ids p := fun e => hkp (hr.inj _ _ hk hp e)
  have hne2 : ids k ≠ ids (succ k n) := fun e => hks (hr.inj _ _ hk (succ_lt hk) e)
  apply ok_intro
  · unfold unlink
    simp only [hnx, hpv, attr, bind, Except.bind, upd_ne _ _ hne]
    rfl
  · refine ⟨hr.removeAt hn hk hp hpk (upd_same _ _ _) ?_ (upd_same _ _ _) ?_, rfl, rfl, rfl, rfl, ?_, ?_⟩
    · intro x h1 _; exact upd_ne _ _ h1
    · intro x h1 _; exact upd_ne _ _ h1
    · simp [upd_ne _ _ hne, hnx]
    · simp [upd_ne _ _ hne2, hpv]

theorem data_erase {data : Nat → Option α} {ids : Nat → Nat} {xs : List α} {k : Nat}
    (hd : ∀ i, i < xs.length → data (ids i) = xs[i]?) (i : Nat) (hi : i < xs.length - 1) :
    data (ids (skip k i)) = (xs.eraseIdx k)[i]? := by
  rw [List.getElem?_eraseIdx, hd _ (skip_lt hi)]
  unfold skip
  split <;> rfl

theorem removeByIndex_rep {s : CDLL α} {xs : List α} (h : Rep s xs) (k : Nat) (hk : k < xs.length) :
    ∃ s', removeByIndex s k = .ok s' ∧ Rep s' (xs.eraseIdx k) := by
  obtain ⟨ids, hc, hh0, hh, hr, hlt, hd⟩ := h
  have hx : xs ≠ [] := by rintro rfl; simp at hk
  have hh := hh hx
  by_cases h1 : xs.length = 1
  · obtain ⟨a, rfl⟩ := List.length_eq_one_iff.1 h1
    obtain rfl : k = 0 := by simp at hk; exact hk
    apply ok_intro
    · unfold removeByIndex
      rw [if_neg (by rw [hc]; simp), if_pos (by rw [hc]; rfl)]
    · exact ⟨fun _ => 0, rfl, fun _ => rfl, fun h => absurd rfl h,
        ⟨fun i _ h => absurd h (by simp), fun i h => absurd h (by simp), fun i h => absurd h (by simp)⟩,
        fun i h => absurd h (by simp), fun i h => absurd h (by simp)⟩
  · have hn : 2 ≤ xs.length := by omega
    have hw := walk_ids hr k 0 (by omega)
    rw [Nat.zero_add] at hw
    have hlen : (xs.eraseIdx k).length = xs.length - 1 := List.length_eraseIdx_of_lt hk
    have hne : xs.eraseIdx k ≠ [] := by intro e; rw [e] at hlen; simp at hlen; omega
    by_cases hk0 : k = 0
    · subst hk0
      have hr2 : Ring ({s with head := some (ids (succ 0 xs.length))} : CDLL α).next
        ({s with head := some (ids (succ 0 xs.length))} : CDLL α).prev xs.length ids := hr
      obtain ⟨s', e, hring, e1, e2, e3, e4, _, _⟩ := unlink_rep hr2 hn hk
      refine ⟨{ s' with count := s'.count - 1 }, ?_, ?_⟩
      · unfold removeByIndex
        rw [if_neg (by rw [hc]; omega), if_neg (by rw [hc]; exact h1)]
        simp only [hh, attr, bind, Except.bind, Int.toNat_natCast, hw, if_true, hr.nxt 0 hk, pure, Except.pure, e]
      · refine ⟨fun i => ids (skip 0 i), ?_, fun h => absurd h hne, fun _ => ?_, ?_, ?_, ?_⟩
        · simp only [e4, hlen, hc]
        · simp only [e3]
          rw [succ_eq (by omega)]; rfl
        · rw [hlen]; exact hring
        · intro i hi; rw [hlen] at hi; simp only [e2]; exact hlt _ (skip_lt hi)
        · intro i hi; rw [hlen] at hi; simp only [e1]; exact data_erase hd i hi
    · have hne0 : ids k ≠ ids 0 := fun e => hk0 (hr.inj _ _ hk (by omega) e)
      obtain ⟨s', e, hring, e1, e2, e3, e4, _, _⟩ := unlink_rep hr hn hk
      refine ⟨{ s' with count := s'.count - 1 }, ?_, ?_⟩
      · unfold removeByIndex
        rw [if_neg (by rw [hc]; omega), if_neg (by rw [hc]; exact h1)]
        simp only [hh, attr, bind, Except.bind, Int.toNat_natCast, hw, if_neg hne0, pure, Except.pure, e]
      · refine ⟨fun i => ids (skip k i), ?_, fun h => absurd h hne, fun _ => ?_, ?_, ?_, ?_⟩
        · simp only [e4, hlen, hc]
        · simp only [e3, hh]
          unfold skip; rw [if_pos (by omega)]
        · rw [hlen]; exact hring
        · intro i hi; rw [hlen] at hi; simp only [e2]; exact hlt _ (skip_lt hi)
        · intro i hi; rw [hlen] at hi; simp only [e1]; exact data_erase hd i hi

theorem findNode_ids [DecidableEq α] {s : CDLL α} {xs : List α} {ids : Nat → Nat}
    (hr : Ring s.next s.prev xs.length ids) (hd : ∀ i, i < xs.length → s.data (ids i) = xs[i]?) (x : α) (hx : x ∈ xs) :
    ∀ m j, j + m = xs.length → (∀ i, i < j → xs[i]? ≠ some x) → j < xs.length →
      findNode s x m (ids j) = .ok (ids (xs.idxOf x), true) := by
  have hidx := List.idxOf_lt_length_of_mem hx
  have hget : xs[xs.idxOf x]? = some x := by rw [List.getElem?_eq_getElem hidx, List.getElem_idxOf]
  intro m
  induction m with
  | zero => intro j h _ h'; omega
  | succ m ih =>
    intro j hj hno hjl
    have hle : j ≤ xs.idxOf x := by
      by_contra hc
      exact hno _ (by omega) hget
    by_cases he : xs[j]? = some x
    · have hge : xs.idxOf x ≤ j := by
        have h1 : xs[j] = x := by rw [List.getElem?_eq_getElem hjl] at he; exact Option.some.inj he
        by_contra hc
        have := List.not_of_lt_findIdx (p := (· == x)) (xs := xs) (i := j) (by rw [← List.idxOf]; omega)
        simp [h1] at this
      have : xs.idxOf x = j := by omega
      simp only [findNode, hd j hjl, he, if_true, this]
    · have hlt : j < xs.idxOf x := by
        rcases Nat.lt_or_ge j (xs.idxOf x) with h | h
        · exact h
        · obtain rfl : j = xs.idxOf x := by omega
          exact absurd hget he
      have : findNode s x (m + 1) (ids j) = findNode s x m (ids (j + 1)) := by
        simp only [findNode, hd j hjl, if_neg he, hr.nxt j hjl, succ_eq (by omega : j + 1 ≠ xs.length), attr, bind,
          Except.bind]
      rw [this]
      refine ih (j + 1) (by omega) ?_ (by omega)
      intro i hi
      rcases Nat.lt_or_ge i j with h | h
      · exact hno i h
      · obtain rfl : i = j := by omega
        exact he

theorem remove_rep [DecidableEq α] {s : CDLL α} {xs : List α} (h : Rep s xs) (x : α) (hx : x ∈ xs)
    (hn : 2 ≤ xs.length) : ∃ s', remove s x = .ok s' ∧ Rep s' (xs.erase x) := by
  obtain ⟨ids, hc, hh0, hh, hr, hlt, hd⟩ := h
  have hxne : xs ≠ [] := by rintro rfl; simp at hx
  have hh := hh hxne
  have hk := List.idxOf_lt_length_of_mem hx
  have hf := findNode_ids hr hd x hx xs.length 0 (by omega) (by intro i hi; omega) (by omega)
  rw [← hc] at hf
  rw [List.erase_eq_eraseIdx_of_idxOf (rfl : xs.idxOf x = xs.idxOf x)]
  have hlen : (xs.eraseIdx (xs.idxOf x)).length = xs.length - 1 := List.length_eraseIdx_of_lt hk
  generalize xs.idxOf x = k at *
  have hne : xs.eraseIdx k ≠ [] := by intro e; rw [e] at hlen; simp at hlen; omega
  have fin : ∀ (hd0 : Nat) (s1 : CDLL α), Ring s1.next s1.prev (xs.length - 1) (fun i => ids (skip k i)) →
      s1.data = s.data → s1.fresh = s.fresh → s1.head = some (ids (skip k 0)) → s1.count = s.count →
      Rep { s1 with next := upd s1.next (ids k) none, prev := upd s1.prev (ids k) none, count := s1.count - 1 }
        (xs.eraseIdx k) := by
    intro _ s1 hring e1 e2 e3 e4
    have hnk : ∀ i, i < xs.length - 1 → ids (skip k i) ≠ ids k := fun i hi e =>
      skip_ne (hr.inj _ _ (skip_lt hi) hk e)
    refine ⟨fun i => ids (skip k i), ?_, fun h => absurd h hne, fun _ => e3, ?_, ?_, ?_⟩
    · simp only [e4, hlen, hc]
    · rw [hlen]
      refine ⟨hring.inj, ?_, ?_⟩
      · intro i hi; dsimp only; rw [upd_ne _ _ (hnk i hi)]; exact hring.nxt i hi
      · intro i hi; dsimp only; rw [upd_ne _ _ (hnk _ (succ_lt hi))]; exact hring.prv i hi
    · intro i hi; rw [hlen] at hi; simp only [e2]; exact hlt _ (skip_lt hi)
    · intro i hi; rw [hlen] at hi; simp only [e1]; exact data_erase hd i hi
  by_cases hk0 : k = 0
  · subst hk0
    have hr2 : Ring ({s with head := some (ids (succ 0 xs.length))} : CDLL α).next
      ({s with head := some (ids (succ 0 xs.length))} : CDLL α).prev xs.length ids := hr
    obtain ⟨s', e, hring, e1, e2, e3, e4, i1, i2⟩ := unlink_rep hr2 hn hk
    obtain ⟨v1, hv1⟩ := Option.isSome_iff_exists.1 i1
    obtain ⟨v2, hv2⟩ := Option.isSome_iff_exists.1 i2
    refine ⟨_, ?_, fin 0 s' hring e1 e2 (by rw [e3, succ_eq (by omega)]; rfl) e4⟩
    unfold remove
    rw [hh]
    simp only [attr, bind, Except.bind, hf, if_true, hr.nxt 0 hk, pure, Except.pure, e, hv1, hv2]
  · have hne0 : ids k ≠ ids 0 := fun e => hk0 (hr.inj _ _ hk (by omega) e)
    obtain ⟨s', e, hring, e1, e2, e3, e4, i1, i2⟩ := unlink_rep hr hn hk
    obtain ⟨v1, hv1⟩ := Option.isSome_iff_exists.1 i1
    obtain ⟨v2, hv2⟩ := Option.isSome_iff_exists.1 i2
    refine ⟨_, ?_, fin 0 s' hring e1 e2 (by rw [e3, hh]; unfold skip; rw [if_pos (by omega)]) e4⟩
    unfold remove
    rw [hh]
    simp only [attr, bind, Except.bind, hf, if_true, if_neg hne0, pure, Except.pure, e, hv1, hv2]

theorem setItem_rep {s : CDLL α} {xs : List α} (h : Rep s xs) (k : Nat) (hk : k < xs.length) (v : α) :
    ∃ s', setItem s k v = .ok s' ∧ Rep s' (xs.set k v) := by
  obtain ⟨ids, hc, hh0, hh, hr, hlt, hd⟩ := h
  have hx : xs ≠ [] := by rintro rfl; simp at hk
  have hh := hh hx
  have hw := walk_ids hr k 0 (by omega)
  rw [Nat.zero_add] at hw
  apply ok_intro
  · unfold setItem
    rw [if_neg (by rw [hc]; omega)]
    simp only [hh, attr, bind, Except.bind, Int.toNat_natCast, hw]
    rfl
  · refine ⟨ids, by simp [hc], by simp [hx], fun _ => rfl, by simpa using hr, by simpa using hlt, ?_⟩
    intro i hi
    rw [List.length_set] at hi
    rw [List.getElem?_set]
    by_cases c : k = i
    · subst c
      simp only [upd_same, if_true, if_pos hi]
    · rw [if_neg c]
      simp only [upd_ne _ _ (fun e => c (hr.inj _ _ hi hk e).symm)]
      exact hd i hi

theorem replaceNode_single {s : CDLL α} {a : α} (h : Rep s [a]) (d : α) :
    ∃ s', replaceNode s 0 d = .ok s' ∧ Rep s' [d] := by
  obtain ⟨ids, hc, hh0, hh, hr, hlt, hd⟩ := h
  apply ok_intro
  · unfold replaceNode
    rw [if_neg (by rw [hc]; simp)]
    exact if_pos hc
  · refine ⟨fun _ => s.fresh, by simp [alloc, hc], by simp, fun _ => rfl, ⟨?_, ?_, ?_⟩, ?_, ?_⟩
    · intro i j hi hj _; simp at hi hj; omega
    · intro i hi; simp [alloc, upd_same]
    · intro i hi; simp [alloc, upd_same]
    · intro i hi; simp [alloc]
    · intro i hi; simp at hi; subst hi; simp [alloc, upd_same]

theorem toList_rep {s : CDLL α} {xs : List α} (h : Rep s xs) (hx : xs ≠ []) (fuel : Nat) (hf : xs.length ≤ fuel) :
    toList s fuel = some (xs.map some) := by
  obtain ⟨ids, hc, hh0, hh, hr, hlt, hd⟩ := h
  have hh := hh hx
  have hpos : 0 < xs.length := by cases xs with | nil => exact absurd rfl hx | cons => simp
  have hl := iterLoop_ring hr xs rfl hd (xs.length - 1) 1 fuel (by omega) (by omega) (by omega)
  have h1 : s.next (ids 0) = some (ids (if 1 = xs.length then 0 else 1)) := hr.nxt 0 hpos
  have h0 := hd 0 hpos
  unfold toList
  rw [hh]
  simp only [h1, hl, Option.bind_eq_bind, Option.bind_some, h0]
  cases xs with
  | nil => exact absurd rfl hx
  | cons a as => simp

theorem get_rep {s : CDLL α} {xs : List α} (h : Rep s xs) (k : Nat) (hk : k < xs.length) :
    get s k = .ok xs[k]? ∧ get s ((k : Int) - xs.length) = .ok xs[k]? := by
  obtain ⟨ids, hc, hh0, hh, hr, hlt, hd⟩ := h
  have hx : xs ≠ [] := by rintro rfl; simp at hk
  have hh := hh hx
  have hw := walk_ids hr k 0 (by omega)
  rw [Nat.zero_add] at hw
  constructor
  · unfold get
    rw [if_neg (by omega)]
    rw [if_neg (by omega)]
    simp only [hh, attr, bind, Except.bind, Int.toNat_natCast, hw, hd k hk]
  · unfold get
    rw [if_neg (by omega), if_pos (by omega), show ((s.count : Int) + (k - xs.length)).toNat = k by omega]
    simp only [hh, attr, bind, Except.bind, hw, hd k hk]

theorem indexLoop_ids [DecidableEq α] {s : CDLL α} {xs : List α} {ids : Nat → Nat}
    (hr : Ring s.next s.prev xs.length ids) (hd : ∀ i, i < xs.length → s.data (ids i) = xs[i]?) (x : α) :
    ∀ m j, j + m = xs.length → indexLoop s x m j (ids (if j = xs.length then 0 else j)) =
      .ok (((xs.drop j).findIdx? (· = x)).map (· + j)) := by
  intro m
  induction m with
  | zero => intro j h; rw [List.drop_eq_nil_of_le (by omega)]; rfl
  | succ m ih =>
    intro j hj
    have hjl : j < xs.length := by omega
    rw [if_neg (by omega), List.drop_eq_getElem_cons hjl, List.findIdx?_cons]
    have hdj : s.data (ids j) = some xs[j] := by rw [hd j hjl, List.getElem?_eq_getElem hjl]
    by_cases he : xs[j] = x
    · simp [indexLoop, hdj, he]
    · have := ih (j + 1) (by omega)
      simp only [indexLoop, hdj, Option.some.injEq, if_neg he, hr.nxt j hjl, attr, bind, Except.bind]
      unfold succ
      rw [this]
      simp only [he, decide_false, Bool.false_eq_true, if_false, Option.map_map]
      congr 2
      funext y
      simp only [Function.comp]
      omega

theorem index_rep [DecidableEq α] {s : CDLL α} {xs : List α} (h : Rep s xs) (x : α) :
    index s x = .ok (xs.findIdx? (· = x)) := by
  obtain ⟨ids, hc, hh0, hh, hr, hlt, hd⟩ := h
  unfold index
  by_cases hx : xs = []
  · subst hx
    have : s.count = 0 := hc
    simp [this]
  · have hpos : 0 < xs.length := by cases xs with | nil => exact absurd rfl hx | cons => simp
    have hh := hh hx
    obtain ⟨n, hn⟩ : ∃ n, s.count = n + 1 := ⟨s.count - 1, by omega⟩
    have := indexLoop_ids hr hd x (n + 1) 0 (by omega)
    rw [if_neg (by omega)] at this
    simp only [hn, hh, this, List.drop_zero]
    congr 1
    cases xs.findIdx? (fun b => decide (b = x)) <;> rfl

end Verif.Cdll
