import Verif.Skip.Props

/-! # Properties of the skip list and of the sorted sequence (C237–C239) -/

set_option linter.unusedSectionVars false
set_option linter.unusedVariables false

namespace Verif.Skip

variable {K V : Type} [LinearOrder K]

/-! ## C237: deletion by key -/

theorem remove_present {s : S K V} {xs lo hi : List ℕ} {n : ℕ} (h : Inv s xs) (hs : Sorted s xs) (e : xs = lo ++ n :: hi) :
    ∃ s', remove s (s.key n) = some s' ∧ level0 s' = some hi ∧ s'.key = s.key ∧ s'.data = s.data ∧ s'.size = s.size - 1 ∧
      s'.prev = s.prev ∧ s'.hp = s.hp := by
  obtain ⟨upd, e1, e2, -⟩ := scan_present h hs e
  have hn : n ∈ xs := by rw [e]; simp
  obtain ⟨a1, a2, a3⟩ := h.hle n hn
  unfold remove
  rw [e1]
  dsimp only
  rw [if_pos]
  · refine ⟨_, rfl, ?_, rfl, rfl, rfl, rfl, rfl⟩
    have hsub : ∀ x ∈ hi, x ∈ xs := fun x hx => by rw [e]; simp [hx]
    have hx : ∀ x ∈ hi, x ≠ head := fun x hx => not_head h (hsub x hx)
    apply level0_of_path
    · simp only [trim, if_true]
      exact (trimmed_spec _ _).2.1 h.h1
    · have := h.length_le
      rw [e] at this
      simp at this
      change hi.length + 2 ≤ s.next
      omega
    · intro x hx'
      refine ⟨not_tail h (hsub x hx'), ?_⟩
      simp only [trim]
      rw [if_neg (hx x hx')]
      exact (h.hle x (hsub x hx')).1
    · have hp := h.path 0 h.h1
      rw [lev_zero' h, e, show lo ++ n :: hi ++ [tail] = (lo ++ [n]) ++ (hi ++ [tail]) by simp, seg_append] at hp
      have hp2 := hp.2
      rw [lst_append] at hp2
      change Seg (Link s 0) n (hi ++ [tail]) at hp2
      have key : ∀ (Y : List ℕ) (a : ℕ), (∀ x ∈ Y, x ≠ head) → (a ≠ head ∨ a = head) → ∀ a', (a ≠ head ∧ a' = a ∨ a = n ∧ a' = head) →
          Seg (Link s 0) a (Y ++ [tail]) → Seg (fun x y => (if 0 < s.hs n ∧ x = upd 0 then s.succ 0 n else s.succ 0 x) = y) a' (Y ++ [tail]) := by
        intro Y
        induction Y with
        | nil =>
          intro a hY _ a' ha hseg
          refine ⟨?_, trivial⟩
          rw [e2 0 a1]
          rcases ha with ⟨h1, h2⟩ | ⟨h1, h2⟩
          · rw [if_neg (fun hh => h1 (h2 ▸ hh.2)), h2]
            exact hseg.1.1
          · rw [if_pos ⟨a1, h2⟩, ← h1]
            exact hseg.1.1
        | cons y Y ih =>
          intro a hY _ a' ha hseg
          have hy := hY y List.mem_cons_self
          refine ⟨?_, ih y (fun x hx => hY x (List.mem_cons_of_mem _ hx)) (Or.inl hy) y (Or.inl ⟨hy, rfl⟩) hseg.2⟩
          rw [e2 0 a1]
          rcases ha with ⟨h1, h2⟩ | ⟨h1, h2⟩
          · rw [if_neg (fun hh => h1 (h2 ▸ hh.2)), h2]
            exact hseg.1.1
          · rw [if_pos ⟨a1, h2⟩, ← h1]
            exact hseg.1.1
      exact key hi n hx (Or.inl (not_head h hn)) head (Or.inr ⟨rfl, rfl⟩) hp2
  · refine ⟨a2, ?_⟩
    intro l hl
    rw [e2 l hl]
    omega

theorem filter_gt {s : S K V} {lo hi : List ℕ} {n : ℕ} (hs : Sorted s (lo ++ n :: hi)) :
    (assoc s (lo ++ n :: hi)).filter (fun p => s.key n < p.1) = assoc s hi := by
  unfold Sorted at hs
  rw [List.pairwise_append, List.pairwise_cons] at hs
  obtain ⟨h1, ⟨h2, h3⟩, h4⟩ := hs
  unfold assoc
  rw [List.map_append, List.map_cons, List.filter_append, List.filter_cons]
  have e1 : (lo.map fun n => (s.key n, s.data n)).filter (fun p => s.key n < p.1) = [] := by
    rw [List.filter_eq_nil_iff]
    intro p hp
    obtain ⟨x, hx, rfl⟩ := List.mem_map.1 hp
    simpa using (h4 x hx n List.mem_cons_self).le
  have e2 : (hi.map fun n => (s.key n, s.data n)).filter (fun p => s.key n < p.1) = hi.map fun n => (s.key n, s.data n) := by
    rw [List.filter_eq_self]
    intro p hp
    obtain ⟨x, hx, rfl⟩ := List.mem_map.1 hp
    simpa using h2 x hx
  rw [e1, e2]
  simp

/-- C237 (refuted): `delete(key)` of a key which is there leaves only the greater keys: together with the key, every smaller
key is lost from the iteration. -/
theorem C237_delete_refuted (ops : List (Op K V)) (k0 : K) (v0 : V) (s : S K V) (hr : run (empty k0 v0) ops = some s) (k : K) (v : V)
    (hk : spec (fun _ => none) ops k = some v) : ∃ s' l, remove s k = some s' ∧ items s = some l ∧
      items s' = some (l.filter fun p => k < p.1) ∧ s'.size = s.size - 1 := by
  obtain ⟨xs, h⟩ := sim_of_run hr
  obtain ⟨n, hn, rfl, rfl⟩ := h.present hk
  obtain ⟨lo, hi, e⟩ := List.append_of_mem hn
  obtain ⟨s', e1, e2, e3, e4, e5, -⟩ := remove_present h.inv h.sorted e
  refine ⟨s', assoc s xs, e1, h.inv.items, ?_, e5⟩
  have hs := h.sorted
  rw [e] at hs ⊢
  rw [filter_gt hs]
  unfold items
  rw [e2, e3, e4]
  rfl

/-- C237 (refuted): so a pair with a smaller key is no longer found by iterating, and the length no longer is the number of
pairs. -/
theorem C237_lost_refuted (ops : List (Op K V)) (k0 : K) (v0 : V) (s : S K V) (hr : run (empty k0 v0) ops = some s) (k k' : K) (v v' : V)
    (hk : spec (fun _ => none) ops k = some v) (hk' : spec (fun _ => none) ops k' = some v') (hlt : k' < k) :
    ∃ s' l', remove s k = some s' ∧ items s' = some l' ∧ (k', v') ∉ l' ∧ s'.size ≠ l'.length := by
  obtain ⟨xs, h⟩ := sim_of_run hr
  obtain ⟨n, hn, rfl, rfl⟩ := h.present hk
  obtain ⟨lo, hi, e⟩ := List.append_of_mem hn
  obtain ⟨s', e1, e2, e3, e4, e5, -⟩ := remove_present h.inv h.sorted e
  have hs := h.sorted
  rw [e] at hs
  have hf := filter_gt hs
  have hit : items s' = some (assoc s hi) := by
    unfold items
    rw [e2, e3, e4]
    rfl
  refine ⟨s', assoc s hi, e1, hit, ?_, ?_⟩
  · rw [← hf, List.mem_filter]
    rintro ⟨-, hc⟩
    exact absurd (of_decide_eq_true hc) (not_lt.2 hlt.le)
  · rw [e5, h.inv.size, e]
    have hlo : lo ≠ [] := by
      rintro rfl
      obtain ⟨n', hn', f1, -⟩ := h.present hk'
      rw [e] at hn'
      unfold Sorted at hs
      rw [List.nil_append, List.pairwise_cons] at hs
      rcases List.mem_cons.1 hn' with rfl | hn'
      · rw [f1] at hlt
        exact lt_irrefl _ hlt
      · have := hs.1 n' hn'
        rw [f1] at this
        exact lt_irrefl _ (lt_trans hlt this)
    have := List.length_pos_iff.2 hlo
    simp [assoc]
    omega

/-- C237 (partial): deleting a key which is not there changes nothing. -/
theorem C237_absent_partial (ops : List (Op K V)) (k0 : K) (v0 : V) (s : S K V) (hr : run (empty k0 v0) ops = some s) (k : K)
    (hk : spec (fun _ => none) ops k = none) : remove s k = some s := by
  obtain ⟨xs, h⟩ := sim_of_run hr
  obtain ⟨lo, hi, sp⟩ := split_exists h.sorted k
  obtain ⟨upd, e1, -⟩ := scan_absent h.inv sp (h.absent hk)
  unfold remove
  rw [e1]

/-- C237 (partial): deleting the smallest key leaves all other pairs. -/
theorem C237_first_partial (ops : List (Op K V)) (k0 : K) (v0 : V) (s : S K V) (hr : run (empty k0 v0) ops = some s) (k : K) (v : V)
    (hk : spec (fun _ => none) ops k = some v) (hmin : ∀ k' v', spec (fun _ => none) ops k' = some v' → k ≤ k') :
    ∃ s' l', remove s k = some s' ∧ items s' = some l' ∧ l'.Pairwise (fun p q => p.1 < q.1) ∧ s'.size = l'.length ∧
      ∀ k' v', (k', v') ∈ l' ↔ k' ≠ k ∧ spec (fun _ => none) ops k' = some v' := by
  obtain ⟨s', l, e1, e2, e3, e4⟩ := C237_delete_refuted ops k0 v0 s hr k v hk
  obtain ⟨s2, l2, f1, f2, f3, f4, f5⟩ := C236_items ops k0 v0
  rw [hr] at f1
  injection f1 with f1
  subst f1
  rw [e2] at f2
  injection f2 with f2
  subst f2
  have hm : ∀ k' v', (k', v') ∈ l.filter (fun p => k < p.1) ↔ k' ≠ k ∧ spec (fun _ => none) ops k' = some v' := by
    intro k' v'
    rw [List.mem_filter, f4, decide_eq_true_iff]
    constructor
    · rintro ⟨a, b⟩
      exact ⟨b.ne', a⟩
    · rintro ⟨a, b⟩
      exact ⟨b, lt_of_le_of_ne (hmin k' v' b) (Ne.symm a)⟩
  refine ⟨s', _, e1, e3, f3.filter _, ?_, hm⟩
  rw [e4, f5]
  have hmem := (f4 k v).2 hk
  cases l with
  | nil => exact absurd hmem (by simp)
  | cons p l =>
    obtain ⟨h1, h2⟩ := List.pairwise_cons.1 f3
    have hp : p.1 = k := by
      rcases List.mem_cons.1 hmem with hh | hh
      · rw [← hh]
      · have := h1 _ hh
        exact absurd (hmin p.1 p.2 ((f4 _ _).1 List.mem_cons_self)) (not_le.2 this)
    have : (p :: l).filter (fun p => k < p.1) = l := by
      rw [List.filter_cons, hp]
      simp only [lt_irrefl, decide_false, Bool.false_eq_true, if_false]
      rw [List.filter_eq_self]
      intro q hq
      have := h1 q hq
      rw [hp] at this
      simpa using this
    rw [this]
    simp

/-- C237 (refuted): even then the backward links are wrong: the predecessor of the new first node is the deleted node. -/
theorem C237_pred_refuted (ops : List (Op K V)) (k0 : K) (v0 : V) (s : S K V) (hr : run (empty k0 v0) ops = some s) (n b : ℕ) (ys : List ℕ)
    (hl : level0 s = some (n :: b :: ys)) : ∃ s', remove s (s.key n) = some s' ∧ level0 s' = some (b :: ys) ∧ seqPred s' b = some (some n) := by
  obtain ⟨xs, h⟩ := sim_of_run hr
  rw [h.inv.level0] at hl
  injection hl with hl
  subst hl
  obtain ⟨s', e1, e2, e3, e4, e5, e6, e7⟩ := remove_present (lo := []) h.inv h.sorted rfl
  refine ⟨s', e1, e2, ?_⟩
  have hp := prev_path (lo := [n]) (hi := ys) (n := b) h.inv
  unfold seqPred
  have : getPrev s' 0 b = getPrev s 0 b := by
    unfold getPrev
    rw [e6, e7]
  rw [this, hp]
  change some (if n = head then none else some n) = _
  rw [if_neg (not_head h.inv List.mem_cons_self)]

/-! ## C238: navigation -/

/-- C238: in every reachable state the nodes of the sequence are found by `lookup` with their keys; `succ`, `pred` and `min` give the next node, the
node before and the first one, or `None`. -/
theorem C238_neighbours (ops : List (Op K V)) (k0 : K) (v0 : V) (s : S K V) (hr : run (empty k0 v0) ops = some s) :
    ∃ xs, level0 s = some xs ∧ xs.Pairwise (fun a b => s.key a < s.key b) ∧ seqMin s = some xs.head? ∧
      ∀ lo n hi, xs = lo ++ n :: hi → lookup s (s.key n) = some (some n) ∧ seqSucc s n = some hi.head? ∧ seqPred s n = some lo.getLast? := by
  obtain ⟨xs, h⟩ := sim_of_run hr
  refine ⟨xs, h.inv.level0, h.sorted, ?_, ?_⟩
  · unfold seqMin
    rw [h.inv.size]
    cases xs with
    | nil => rfl
    | cons x xs =>
      rw [if_neg (by simp; omega)]
      have := fst_path (lo := []) h.inv (Or.inr (by simp))
      change getSucc s 0 head = some x at this
      rw [this]
      rfl
  · intro lo n hi e
    have hi' := h.inv
    rw [e] at hi'
    refine ⟨lookup_present h.inv h.sorted (by rw [e]; simp), ?_, ?_⟩
    · have h2 : Inv s ((lo ++ [n]) ++ hi) := by simpa using hi'
      have := fst_path h2 (Or.inl (by simp))
      rw [lst_append] at this
      change getSucc s 0 n = some (fst hi) at this
      unfold seqSucc
      rw [this]
      cases hi with
      | nil => rfl
      | cons y ys =>
        change some (if y = tail then none else some y) = _
        rw [if_neg (not_tail hi' (x := y) (by simp))]
        rfl
    · unfold seqPred
      rw [prev_path hi']
      rcases List.eq_nil_or_concat lo with rfl | ⟨lo', x, rfl⟩
      · rfl
      · rw [List.concat_eq_append] at *
        rw [lst_append]
        change some (if x = head then none else some x) = _
        rw [if_neg (not_head hi' (x := x) (by simp))]
        simp

theorem locate_present {s : S K V} {xs : List ℕ} {n : ℕ} (h : Inv s xs) (hs : Sorted s xs) (hn : n ∈ xs) :
    locate s (s.key n) = some (fst xs) := by
  obtain ⟨lo, hi, e⟩ := List.append_of_mem hn
  obtain ⟨upd, e1, e2, -⟩ := scan_present h hs e
  unfold locate
  rw [e1]
  dsimp only
  rw [e2 0 (h.hle n hn).1]
  exact fst_path (lo := []) h (Or.inr (by rw [e]; simp))

theorem locate_absent {s : S K V} {xs lo hi : List ℕ} {k : K} (h : Inv s xs) (sp : Split s xs lo hi k) (hk : ∀ x ∈ xs, s.key x ≠ k) :
    locate s k = some (fst hi) := by
  obtain ⟨upd, e1, e2⟩ := scan_absent h sp hk
  unfold locate
  rw [e1]
  dsimp only
  have hi' := h
  rw [sp.eq] at hi'
  rw [e2 0 h.h1, lev_zero hi' rfl]
  have e := (h.split_path sp.eq h.h1).2.1.1
  have hz : lev s hi 0 = hi := by
    unfold lev
    rw [List.filter_eq_self]
    intro x hx
    have := (hi'.hle x (List.mem_append_right _ hx)).1
    exact decide_eq_true this
  rw [lev_zero hi' rfl, hz] at e
  unfold getSucc
  rw [if_pos, e]
  rcases List.mem_cons.1 (lst_mem lo head) with hh | hh
  · rw [hh]
    exact h.h1
  · exact (hi'.hle _ (List.mem_append_left _ hh)).1

/-- C238 (refuted): for a key which is in the sequence `locate` gives the node with the smallest key of all, not the one with the key. -/
theorem C238_locate_refuted (ops : List (Op K V)) (k0 : K) (v0 : V) (s : S K V) (hr : run (empty k0 v0) ops = some s) (k : K) (v : V)
    (hk : spec (fun _ => none) ops k = some v) : ∃ n, locate s k = some n ∧ spec (fun _ => none) ops (s.key n) = some (s.data n) ∧
      ∀ k' v', spec (fun _ => none) ops k' = some v' → s.key n ≤ k' := by
  obtain ⟨xs, h⟩ := sim_of_run hr
  obtain ⟨n, hn, rfl, rfl⟩ := h.present hk
  refine ⟨fst xs, locate_present h.inv h.sorted hn, ?_⟩
  cases xs with
  | nil => exact absurd hn (by simp)
  | cons x xs =>
    refine ⟨h.get List.mem_cons_self, ?_⟩
    intro k' v' hk'
    obtain ⟨m, hm, rfl, -⟩ := h.present hk'
    obtain ⟨h1, -⟩ := List.pairwise_cons.1 h.sorted
    rcases List.mem_cons.1 hm with rfl | hm
    · exact le_rfl
    · exact (h1 m hm).le

/-- C238 (refuted): for a key greater than all keys `locate` gives the sentinel node at the end, not `None`. -/
theorem C238_locate_tail_refuted (ops : List (Op K V)) (k0 : K) (v0 : V) (s : S K V) (hr : run (empty k0 v0) ops = some s) (k : K)
    (hk : ∀ k' v', spec (fun _ => none) ops k' = some v' → k' < k) : locate s k = some tail := by
  obtain ⟨xs, h⟩ := sim_of_run hr
  have hx : ∀ x ∈ xs, s.key x < k := fun x hx => hk _ _ (h.get hx)
  exact locate_absent (lo := xs) (hi := []) h.inv ⟨by simp, fun x hx' => (hx x hx').le, by simp⟩ fun x hx' => (hx x hx').ne

/-- C238 (partial): for a key which is not in the sequence, but smaller than some key, `locate` gives the node with the
smallest greater key. -/
theorem C238_locate_partial (ops : List (Op K V)) (k0 : K) (v0 : V) (s : S K V) (hr : run (empty k0 v0) ops = some s) (k k1 : K) (v1 : V)
    (hk : spec (fun _ => none) ops k = none) (hk1 : spec (fun _ => none) ops k1 = some v1) (hlt : k < k1) :
    ∃ n, locate s k = some n ∧ k < s.key n ∧ spec (fun _ => none) ops (s.key n) = some (s.data n) ∧
      ∀ k' v', spec (fun _ => none) ops k' = some v' → k < k' → s.key n ≤ k' := by
  obtain ⟨xs, h⟩ := sim_of_run hr
  obtain ⟨lo, hi, sp⟩ := split_exists h.sorted k
  refine ⟨fst hi, locate_absent h.inv sp (h.absent hk), ?_⟩
  have hin : ∀ k' v', spec (fun _ => none) ops k' = some v' → k < k' → ∃ m ∈ hi, s.key m = k' := by
    intro k' v' h1 h2
    obtain ⟨m, hm, rfl, -⟩ := h.present h1
    rw [sp.eq] at hm
    rcases List.mem_append.1 hm with hm | hm
    · exact absurd (sp.lo m hm) (not_le.2 h2)
    · exact ⟨m, hm, rfl⟩
  cases hi with
  | nil =>
    obtain ⟨m, hm, -⟩ := hin k1 v1 hk1 hlt
    exact absurd hm (by simp)
  | cons y ys =>
    refine ⟨sp.hi y List.mem_cons_self, h.get (by rw [sp.eq]; simp [fst]), ?_⟩
    intro k' v' h1 h2
    obtain ⟨m, hm, rfl⟩ := hin k' v' h1 h2
    have hs := h.sorted
    unfold Sorted at hs
    rw [sp.eq, List.pairwise_append, List.pairwise_cons] at hs
    rcases List.mem_cons.1 hm with rfl | hm
    · exact le_rfl
    · exact (hs.2.1.1 m hm).le

/-! ## C239: the operations on sequences -/

/-- The operations by position; `none` where the position does not exist. -/
inductive SOp (K V : Type) where
  | insertAt (i : ℕ) (k : K) (v : V)
  | delItem (i : ℕ)
  | reverse (i j : ℕ)

/-- One operation on the sequence. -/
def stepS (s : S K V) (o : SOp K V) : Option (S K V) :=
  match level0 s with
  | none => none
  | some xs =>
    match o with
    | .insertAt i k v => (xs[i]?).bind fun n => (insertAt s n k v).map Prod.fst
    | .delItem i => (xs[i]?).bind fun n => delItem s n
    | .reverse i j => (xs[i]?).bind fun a => (xs[j]?).bind fun b => reverseItems s.next s a b

/-- What it means for the list of pairs. -/
def specS (l : List (K × V)) : SOp K V → Option (List (K × V))
  | .insertAt i k v =>
    (l[i]?).map fun p =>
      if k = p.1 then l.take i ++ (p.1, v) :: l.drop (i + 1)
      else if k > p.1 then l.take (i + 1) ++ (k, v) :: l.drop (i + 1)
      else l.take i ++ (k, v) :: l.drop i
  | .delItem i => if i < l.length then some (l.take i ++ l.drop (i + 1)) else none
  | .reverse i j => if i ≤ j ∧ j < l.length then some (l.take i ++ ((l.take (j + 1)).drop i).reverse ++ l.drop (j + 1)) else none

/-- A sequence of operations. -/
def runS (s : S K V) : List (SOp K V) → Option (S K V)
  | [] => some s
  | o :: os => (stepS s o).bind fun s' => runS s' os

/-- And of the list. -/
def specRunS (l : List (K × V)) : List (SOp K V) → Option (List (K × V))
  | [] => some l
  | o :: os => (specS l o).bind fun l' => specRunS l' os

theorem assoc_append (s : S K V) (xs ys : List ℕ) : assoc s (xs ++ ys) = assoc s xs ++ assoc s ys := List.map_append

theorem assoc_length (s : S K V) (xs : List ℕ) : (assoc s xs).length = xs.length := List.length_map _

theorem assoc_congr {s s' : S K V} {xs : List ℕ} (h : ∀ x ∈ xs, s'.key x = s.key x ∧ s'.data x = s.data x) : assoc s' xs = assoc s xs := by
  unfold assoc
  apply List.map_congr_left
  intro x hx
  rw [(h x hx).1, (h x hx).2]

theorem take_mid (s : S K V) (lo hi : List ℕ) (n : ℕ) : (assoc s (lo ++ n :: hi)).take lo.length = assoc s lo ∧
    (assoc s (lo ++ n :: hi)).drop (lo.length + 1) = assoc s hi ∧ (assoc s (lo ++ n :: hi)).drop lo.length = (s.key n, s.data n) :: assoc s hi ∧
    (assoc s (lo ++ n :: hi)).take (lo.length + 1) = assoc s lo ++ [(s.key n, s.data n)] ∧
    (assoc s (lo ++ n :: hi))[lo.length]? = some (s.key n, s.data n) := by
  have e : assoc s (lo ++ n :: hi) = assoc s lo ++ (s.key n, s.data n) :: assoc s hi := assoc_append s _ _
  rw [e, ← assoc_length s lo]
  refine ⟨List.take_left, ?_, List.drop_left, ?_, ?_⟩
  · rw [List.drop_append]
    simp
  · rw [List.take_append]
    simp
  · simp

theorem stepS_spec {s : S K V} {xs : List ℕ} (h : Inv s xs) (o : SOp K V) (l' : List (K × V)) (hl : specS (assoc s xs) o = some l') :
    ∃ s' xs', stepS s o = some s' ∧ Inv s' xs' ∧ assoc s' xs' = l' := by
  have split : ∀ i : ℕ, i < xs.length → ∃ lo n hi, xs = lo ++ n :: hi ∧ lo.length = i ∧ xs[i]? = some n := by
    intro i hi
    refine ⟨xs.take i, xs[i], xs.drop (i + 1), ?_, by simp; omega, List.getElem?_eq_getElem hi⟩
    rw [List.getElem_cons_drop, List.take_append_drop]
  unfold stepS
  rw [h.level0]
  dsimp only
  cases o with
  | insertAt i k v =>
    unfold specS at hl
    dsimp only at hl ⊢
    have hi : i < xs.length := by
      by_contra hc
      rw [List.getElem?_eq_none (by rw [assoc_length]; omega)] at hl
      exact absurd hl (by simp)
    obtain ⟨lo, n, hi', e, elen, en⟩ := split i hi
    subst e
    subst elen
    obtain ⟨t1, t2, t3, t4, t5⟩ := take_mid s lo hi' n
    rw [t5, t1, t2, t3, t4] at hl
    rw [en]
    injection hl with hl
    subst hl
    change ∃ s' xs', Option.map Prod.fst (insertAt s n k v) = some s' ∧ _
    have hnd := List.nodup_middle.1 h.nodup
    have hn1 := (List.nodup_cons.1 hnd).1
    have hnx := next_not_mem h
    by_cases hk : k = s.key n
    · unfold insertAt
      rw [if_pos hk]
      refine ⟨_, lo ++ n :: hi', rfl, h.data _, ?_⟩
      dsimp only
      rw [if_pos hk, assoc_append, assoc_congr (s := s) (xs := lo)]
      · congr 1
        change (s.key n, if n = n then v else s.data n) :: assoc _ hi' = _
        rw [if_pos rfl, assoc_congr (s := s) (xs := hi')]
        intro x hx
        refine ⟨rfl, if_neg ?_⟩
        exact fun hh => hn1 (hh ▸ List.mem_append_right _ hx)
      · intro x hx
        refine ⟨rfl, if_neg ?_⟩
        exact fun hh => hn1 (hh ▸ List.mem_append_left _ hx)
    · obtain ⟨s', e1, i1, ek, ed⟩ := insertAt_spec h k v hk
      rw [e1]
      refine ⟨s', _, rfl, i1, ?_⟩
      have same : ∀ ys : List ℕ, (∀ x ∈ ys, x ∈ lo ++ n :: hi') → assoc s' ys = assoc s ys := by
        intro ys hys
        apply assoc_congr
        intro x hx
        have : x ≠ s.next := fun hh => hnx (hh ▸ hys x hx)
        exact ⟨by rw [ek, if_neg this], by rw [ed, if_neg this]⟩
      have sl : assoc s' lo = assoc s lo := same lo fun x hx => List.mem_append_left _ hx
      have sh : assoc s' hi' = assoc s hi' := same hi' fun x hx => by simp [hx]
      have sn : assoc s' [n] = assoc s [n] := same [n] fun x hx => by simp at hx; simp [hx]
      have sx : assoc s' [s.next] = [(k, v)] := by
        change [(s'.key s.next, s'.data s.next)] = _
        rw [ek, ed, if_pos rfl, if_pos rfl]
      dsimp only
      rw [if_neg hk]
      by_cases hc : k > s.key n
      · rw [if_pos hc, if_pos hc, show lo ++ n :: s.next :: hi' = lo ++ ([n] ++ ([s.next] ++ hi')) by simp, assoc_append, assoc_append,
          assoc_append, sl, sh, sn, sx]
        simp [assoc]
      · rw [if_neg hc, if_neg hc, show lo ++ s.next :: n :: hi' = lo ++ ([s.next] ++ ([n] ++ hi')) by simp, assoc_append, assoc_append,
          assoc_append, sl, sh, sn, sx]
        simp [assoc]
  | delItem i =>
    unfold specS at hl
    dsimp only at hl ⊢
    rw [assoc_length] at hl
    by_cases hi : i < xs.length
    · rw [if_pos hi] at hl
      obtain ⟨lo, n, hi', e, elen, en⟩ := split i hi
      subst e
      subst elen
      obtain ⟨t1, t2, -⟩ := take_mid s lo hi' n
      rw [t1, t2] at hl
      injection hl with hl
      rw [en]
      obtain ⟨s', e1, i1, ek, ed, -⟩ := delItem_spec h
      refine ⟨s', lo ++ hi', e1, i1, ?_⟩
      rw [← hl, ← assoc_append]
      apply assoc_congr
      intro x _
      rw [ek, ed]
      exact ⟨rfl, rfl⟩
    · rw [if_neg hi] at hl
      exact absurd hl (by simp)
  | reverse i j =>
    unfold specS at hl
    dsimp only at hl ⊢
    rw [assoc_length] at hl
    by_cases hij : i ≤ j ∧ j < xs.length
    · rw [if_pos hij] at hl
      obtain ⟨lo, b, q, e, elen, en⟩ := split j hij.2
      have ea : xs[i]? = some ((lo.drop i ++ [b]).headD 0) := by
        rw [e]
        rcases Nat.lt_or_ge i lo.length with hlt | hge
        · rw [List.getElem?_append_left hlt, List.drop_eq_getElem_cons hlt, List.getElem?_eq_getElem hlt]
          rfl
        · have : i = lo.length := by omega
          subst this
          simp
      have hinv : Inv s (lo.take i ++ lo.drop i ++ b :: q) := by
        rw [List.take_append_drop, ← e]
        exact h
      have hlen := h.length_le
      obtain ⟨s', e1, i1, ek, ed, -⟩ := reverseItems_spec (lo.drop i) s.next s (lo.take i) q b (by
        rw [e] at hlen
        simp at hlen ⊢
        omega) hinv
      rw [ea, en]
      refine ⟨s', _, e1, i1, ?_⟩
      injection hl with hl
      rw [← hl, e]
      obtain ⟨-, t2, -, t4, -⟩ := take_mid s lo q b
      rw [← elen, t2, t4]
      have hs : ∀ ys, assoc s' ys = assoc s ys := by
        intro ys
        apply assoc_congr
        intro x _
        rw [ek, ed]
        exact ⟨rfl, rfl⟩
      rw [hs]
      have hil : i ≤ lo.length := by omega
      have g1 : (assoc s (lo ++ b :: q)).take i = assoc s (lo.take i) := by
        rw [assoc_append, List.take_append_of_le_length (by rw [assoc_length]; exact hil)]
        exact (List.map_take ..).symm
      have g2 : (assoc s lo ++ [(s.key b, s.data b)]).drop i = assoc s (lo.drop i) ++ [(s.key b, s.data b)] := by
        rw [List.drop_append_of_le_length (by rw [assoc_length]; exact hil)]
        congr 1
        exact (List.map_drop ..).symm
      rw [g1, g2, assoc_append]
      simp [assoc]
    · rw [if_neg hij] at hl
      exact absurd hl (by simp)

/-- C239: on a sequence which was built in order, every sequence of `insertAt`, `delItem` and `reverseItems` at existing
positions (the first not after the second) raises nothing and has the effect on the list of pairs which these names say: the pair is put
next to the node, on the side of its key, or replaces the data for an equal key; the node is removed; the part from the
first to the second node is reversed. The length stays the number of pairs. -/
theorem C239_run (ops : List (Op K V)) (k0 : K) (v0 : V) (s : S K V) (hr : run (empty k0 v0) ops = some s) (sops : List (SOp K V))
    (l l' : List (K × V)) (hl : items s = some l) (hs : specRunS l sops = some l') :
    ∃ s', runS s sops = some s' ∧ items s' = some l' ∧ s'.size = l'.length := by
  obtain ⟨xs, h⟩ := sim_of_run hr
  have hi := h.inv
  rw [hi.items] at hl
  injection hl with hl
  subst hl
  clear h hr
  induction sops generalizing s xs with
  | nil =>
    injection hs with hs
    subst hs
    exact ⟨s, rfl, hi.items, by rw [hi.size, assoc_length]⟩
  | cons o sops ih =>
    unfold specRunS at hs
    cases e : specS (assoc s xs) o with
    | none =>
      rw [e] at hs
      exact absurd hs (by simp)
    | some l1 =>
      rw [e] at hs
      obtain ⟨s1, xs1, e1, i1, rfl⟩ := stepS_spec hi o l1 e
      obtain ⟨s2, f1, f2, f3⟩ := ih s1 xs1 i1 hs
      refine ⟨s2, ?_, f2, f3⟩
      unfold runS
      rw [e1]
      exact f1

/-- C239: reversing twice the same range gives the sequence back. -/
theorem C239_reverse_twice (ops : List (Op K V)) (k0 : K) (v0 : V) (s : S K V) (hr : run (empty k0 v0) ops = some s) (l : List (K × V))
    (hl : items s = some l) (i j : ℕ) (hij : i ≤ j) (hj : j < l.length) :
    ∃ s', runS s [.reverse i j, .reverse i j] = some s' ∧ items s' = some l := by
  obtain ⟨s', e1, e2, -⟩ := C239_run ops k0 v0 s hr [.reverse i j, .reverse i j] l l hl (by
    have hlen : (l.take i ++ ((l.take (j + 1)).drop i).reverse ++ l.drop (j + 1)).length = l.length := by
      simp
      omega
    unfold specRunS specRunS specRunS specS
    simp only [if_pos (And.intro hij hj), Option.bind_some, hlen]
    congr 1
    have h1 : (l.take i).length = i := by simp; omega
    have h2 : ((l.take (j + 1)).drop i).reverse.length = j + 1 - i := by simp; omega
    have h3 : (l.take i ++ ((l.take (j + 1)).drop i).reverse).length = j + 1 := by rw [List.length_append, h1, h2]; omega
    have t1 : (l.take i ++ ((l.take (j + 1)).drop i).reverse ++ l.drop (j + 1)).take (j + 1) = l.take i ++ ((l.take (j + 1)).drop i).reverse := by
      rw [List.take_append_of_le_length h3.ge, List.take_of_length_le h3.le]
    have t2 : (l.take i ++ ((l.take (j + 1)).drop i).reverse ++ l.drop (j + 1)).drop (j + 1) = l.drop (j + 1) := by
      rw [List.drop_append, h3, List.drop_eq_nil_of_le h3.le]
      simp
    have t3 : (l.take i ++ ((l.take (j + 1)).drop i).reverse ++ l.drop (j + 1)).take i = l.take i := by
      rw [List.append_assoc, List.take_append_of_le_length h1.ge, List.take_of_length_le h1.le]
    have t4 : (l.take i ++ ((l.take (j + 1)).drop i).reverse).drop i = ((l.take (j + 1)).drop i).reverse := by
      rw [List.drop_append, h1, List.drop_eq_nil_of_le h1.le]
      simp
    rw [t1, t2, t3, t4, List.reverse_reverse]
    have t5 : l.take i = (l.take (j + 1)).take i := by
      rw [List.take_take]
      congr 1
      omega
    rw [t5, List.take_append_drop, List.take_append_drop])
  exact ⟨s', e1, e2⟩

/-! ## Concrete cases -/

/-- Five pairs with nodes of several heights; one is deleted. -/
def ops1 : List (Op ℕ ℕ) := [.insert 5 50 2, .insert 2 20 0, .insert 9 90 1, .insert 7 70 0, .insert 3 30 3, .delete 7, .insert 9 91 0]

example : ((run (empty 0 0) ops1).bind items) = some [(2, 20), (3, 30), (5, 50), (9, 91)] := by decide +kernel
example : spec (fun _ => none) ops1 9 = some 91 ∧ spec (fun _ => none) ops1 7 = none := by decide +kernel
example : ((run (empty 0 0) ops1).map fun s => s.size) = some 4 := by decide +kernel
example : ((run (empty 0 0) ops1).bind fun s => getItem s 5) = some (some 50) := by decide +kernel
-- heights
example : ((run (empty 0 0) [.insert 5 50 0, .insert 2 20 3]).bind items) = ((run (empty 0 0) [.insert 5 50 2, .insert 2 20 0]).bind items) := by
  decide +kernel
-- deleting 5 loses 2 and 3
example : (((run (empty 0 0) ops1).bind fun s => remove s 5).bind items) = some [(9, 91)] := by decide +kernel
example : (((run (empty 0 0) ops1).bind fun s => remove s 5).map fun s => s.size) = some 3 := by decide +kernel
-- deleting the first
example : (((run (empty 0 0) ops1).bind fun s => remove s 2).bind items) = some [(3, 30), (5, 50), (9, 91)] := by decide +kernel
example : ((run (empty 0 0) ops1).bind level0) = some [3, 6, 2, 4] := by decide +kernel
example : ((run (empty 0 0) ops1).bind fun s => (remove s 2).bind fun s' => seqPred s' 6) = some (some 3) := by decide +kernel
-- navigation
example : ((run (empty 0 0) ops1).bind fun s => seqSucc s 6) = some (some 2) := by decide +kernel
example : ((run (empty 0 0) ops1).bind fun s => seqPred s 6) = some (some 3) := by decide +kernel
example : ((run (empty 0 0) ops1).bind fun s => (locate s 5).map s.key) = some 2 := by decide +kernel
example : ((run (empty 0 0) ops1).bind fun s => (locate s 4).map s.key) = some 5 := by decide +kernel
example : ((run (empty 0 0) ops1).bind fun s => locate s 10) = some tail := by decide +kernel
-- sequences
example : ((run (empty 0 0) ops1).bind fun s => (runS s [.insertAt 1 4 40, .reverse 0 3, .delItem 1, .insertAt 0 1 10]).bind items) =
    specRunS [(2, 20), (3, 30), (5, 50), (9, 91)] [.insertAt 1 4 40, .reverse 0 3, .delItem 1, .insertAt 0 1 10] := by decide +kernel
example : specRunS [(2, 20), (3, 30), (5, 50), (9, 91)] [.insertAt 1 4 40, .reverse 0 3, .delItem 1, .insertAt 0 1 10] =
    some [(1, 10), (5, 50), (3, 30), (2, 20), (9, 91)] := by decide +kernel

end Verif.Skip
