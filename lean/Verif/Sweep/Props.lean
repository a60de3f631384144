import Verif.Sweep.Ops
import Mathlib.Order.Nat

/-!
# Properties of the sorted sequence of the sweep line (C130 - C133)
-/

namespace Verif.Sweep
variable {K D : Type} [LinearOrder K]
set_option linter.unusedSectionVars false

/-- What a dictionary does with one call. -/
def dictStep (m : K → Option (Option D)) : Op K D → K → Option (Option D)
  | .set k d _ => Function.update m k (some d)
  | .ins k d _ => Function.update m k (some d)
  | .del k => Function.update m k none

/-- What a dictionary contains after the calls. -/
def dict (ops : List (Op K D)) : K → Option (Option D) := ops.foldl dictStep fun _ => none

/-- The state represents the dictionary `m`. -/
def Rep (s : SL K D) (m : K → Option (Option D)) : Prop :=
  ∃ xs, Inv s xs ∧ SortedBy s xs ∧ ∀ k v, m k = some v ↔ ∃ x ∈ xs, s.key x = .val k ∧ s.data x = v

theorem seqInsert_eq (s : SL K D) (k : K) (d : Option D) (h : Nat) : seqInsert s k d h = insert s k d h := by
  unfold seqInsert
  cases hs : scan s k with
  | none => unfold insert; rw [hs]
  | some r =>
    obtain ⟨a, b⟩ := r
    cases a with
    | none => rfl
    | some n => unfold insert; rw [hs]

theorem sorted_inj (s : SL K D) (xs : List Id) (hs : SortedBy s xs) (k : K) :
    ∀ x ∈ xs, ∀ y ∈ xs, s.key x = .val k → s.key y = .val k → x = y := by
  induction xs with
  | nil => intro x hx; cases hx
  | cons a xs ih =>
    have h := List.pairwise_cons.1 hs
    intro x hx y hy ex ey
    rcases List.mem_cons.1 hx with h1 | h1 <;> rcases List.mem_cons.1 hy with h2 | h2
    · rw [h1, h2]
    · exact absurd (h.1 y h2 k k (h1 ▸ ex) ey) (lt_irrefl _)
    · exact absurd (h.1 x h1 k k (h2 ▸ ey) ex) (lt_irrefl _)
    · exact ih h.2 x h1 y h2 ex ey

theorem rep_empty : Rep (empty : SL K D) fun _ => none :=
  ⟨[], inv_empty, List.Pairwise.nil, by simp⟩

theorem rep_insert (s : SL K D) (m : K → Option (Option D)) (hr : Rep s m) (k : K) (d : Option D) (h : Nat) :
    ∃ s' n, insert s k d (h + 1) = some (s', n) ∧ Rep s' (Function.update m k (some d)) := by
  obtain ⟨xs, hI, hs, hm⟩ := hr
  rcases cut_sorted s xs k hI hs with ⟨A, B, rfl, a1, b1⟩ | ⟨A, x, B, rfl, hx, a1, b1⟩
  · obtain ⟨s', e, I', kk, dd, aa⟩ := insert_absent s A B k d (h + 1) (Nat.succ_pos h) hI (le_of a1).1 (gt_of b1).1 (le_of a1).2
    obtain ⟨f1, f2, f3⟩ := fresh_not s _ hI
    have kold : ∀ x ∈ A ++ B, s'.key x = s.key x := by
      intro x hx; rw [kk, Function.update_of_ne (fun e : x = s.alloc => f1 (e ▸ hx))]
    have dold : ∀ x ∈ A ++ B, s'.data x = s.data x := by
      intro x hx; rw [dd, Function.update_of_ne (fun e : x = s.alloc => f1 (e ▸ hx))]
    have kA : ∀ x ∈ A, s'.key x = s.key x := fun x hx => kold x (List.mem_append_left _ hx)
    have kB : ∀ x ∈ B, s'.key x = s.key x := fun x hx => kold x (List.mem_append_right _ hx)
    have knew : s'.key s.alloc = .val k := by rw [kk, Function.update_self]
    have dnew : s'.data s.alloc = d := by rw [dd, Function.update_self]
    refine ⟨s', _, e, A ++ s.alloc :: B, I', ?_, ?_⟩
    · have hp := List.pairwise_append.1 hs
      refine List.pairwise_append.2 ⟨?_, List.pairwise_cons.2 ⟨?_, ?_⟩, ?_⟩
      · exact hp.1.imp_of_mem fun {x y} hx hy h => by rw [kA x hx, kA y hy]; exact h
      · intro b hb ka kb e1 e2
        rw [knew] at e1; injection e1 with e1
        obtain ⟨kb', e3, hlt⟩ := b1 b hb
        rw [kB b hb, e3] at e2; injection e2 with e2
        rw [← e1, ← e2]; exact hlt
      · exact hp.2.1.imp_of_mem fun {x y} hx hy h => by rw [kB x hx, kB y hy]; exact h
      · intro a ha b hb ka kb e1 e2
        obtain ⟨ka', e3, hlt⟩ := a1 a ha
        rw [kA a ha, e3] at e1; injection e1 with e1
        rcases List.mem_cons.1 hb with rfl | hb
        · rw [knew] at e2; injection e2 with e2
          rw [← e1, ← e2]; exact hlt
        · obtain ⟨kb', e4, hlt2⟩ := b1 b hb
          rw [kB b hb, e4] at e2; injection e2 with e2
          rw [← e1, ← e2]; exact lt_trans hlt hlt2
    · intro j v
      by_cases hj : j = k
      · subst hj
        rw [Function.update_self]
        constructor
        · intro h; injection h with h
          exact ⟨s.alloc, by simp, knew, by rw [dnew, h]⟩
        · rintro ⟨x, hx, e1, e2⟩
          rw [List.mem_append, List.mem_cons] at hx
          rcases hx with hx | hx | hx
          · rw [kA x hx] at e1; exact absurd e1 ((le_of a1).2 x hx)
          · rw [hx, dnew] at e2; rw [e2]
          · rw [kB x hx] at e1; exact absurd e1 ((gt_of b1).2 x hx)
      · rw [Function.update_of_ne hj, hm]
        constructor
        · rintro ⟨x, hx, e1, e2⟩
          refine ⟨x, ?_, by rw [kold x hx, e1], by rw [dold x hx, e2]⟩
          rw [List.mem_append] at hx; rw [List.mem_append, List.mem_cons]; tauto
        · rintro ⟨x, hx, e1, e2⟩
          have hx' : x ∈ A ++ B := by
            rw [List.mem_append, List.mem_cons] at hx
            rcases hx with hx | hx | hx
            · exact List.mem_append_left _ hx
            · rw [hx, knew] at e1; injection e1 with e1; exact absurd e1.symm hj
            · exact List.mem_append_right _ hx
          exact ⟨x, hx', by rw [← kold x hx', e1], by rw [← dold x hx', e2]⟩
  · have e := insert_present s A B x k d (h + 1) hI (le_of a1).1 hx (gt_of b1).1 (le_of a1).2
    refine ⟨_, _, e, A ++ [x] ++ B, inv_data s _ x d hI, hs, ?_⟩
    intro j v
    have xm : x ∈ A ++ [x] ++ B := by simp
    by_cases hj : j = k
    · subst hj
      rw [Function.update_self]
      constructor
      · intro h; injection h with h
        exact ⟨x, xm, hx, by unfold changeInf; dsimp only; rw [Function.update_self, h]⟩
      · rintro ⟨y, hy, e1, e2⟩
        have : y = x := sorted_inj s _ hs j y hy x xm e1 hx
        rw [this] at e2
        unfold changeInf at e2; dsimp only at e2; rw [Function.update_self] at e2; rw [e2]
    · rw [Function.update_of_ne hj, hm]
      have dn : ∀ y, s.key y = .val j → (changeInf s x d).data y = s.data y := by
        intro y hy; unfold changeInf; dsimp only
        rw [Function.update_of_ne]
        intro e; rw [e, hx] at hy; injection hy with hy; exact hj hy.symm
      constructor
      · rintro ⟨y, hy, e1, e2⟩; exact ⟨y, hy, e1, by rw [dn y e1, e2]⟩
      · rintro ⟨y, hy, e1, e2⟩
        have e1' : s.key y = .val j := e1
        exact ⟨y, hy, e1', by rw [← dn y e1', e2]⟩

theorem rep_lookup (s : SL K D) (m : K → Option (Option D)) (hr : Rep s m) (k : K) :
    (m k = none ∧ lookup s k = some none) ∨ (∃ x, lookup s k = some (some x) ∧ s.key x = .val k ∧ m k = some (s.data x)) := by
  obtain ⟨xs, hI, hs, hm⟩ := hr
  rcases cut_sorted s xs k hI hs with ⟨A, B, rfl, a1, b1⟩ | ⟨A, x, B, rfl, hx, a1, b1⟩
  · left
    constructor
    · cases hk : m k with
      | none => rfl
      | some v =>
        exfalso
        obtain ⟨x, hx, e, _⟩ := (hm k v).1 hk
        rcases List.mem_append.1 hx with hx | hx
        · exact (le_of a1).2 x hx e
        · exact (gt_of b1).2 x hx e
    · unfold lookup; rw [scan_absent s A B k hI (le_of a1).1 (gt_of b1).1 (le_of a1).2]; rfl
  · right
    refine ⟨x, ?_, hx, (hm k _).2 ⟨x, by simp, hx, rfl⟩⟩
    unfold lookup; rw [scan_present s A B x k hI (le_of a1).1 hx (gt_of b1).1 (le_of a1).2]; rfl

theorem rep_del (s : SL K D) (m : K → Option (Option D)) (hr : Rep s m) (k : K) :
    ∃ s', step s (.del k : Op K D) = some s' ∧ Rep s' (Function.update m k none) := by
  have hr' := hr
  obtain ⟨xs, hI, hs, hm⟩ := hr
  rcases cut_sorted s xs k hI hs with ⟨A, B, rfl, a1, b1⟩ | ⟨A, x, B, rfl, hx, a1, b1⟩
  · have e : lookup s k = some none := by
      unfold lookup; rw [scan_absent s A B k hI (le_of a1).1 (gt_of b1).1 (le_of a1).2]; rfl
    have hk : m k = none := by
      rcases rep_lookup s m hr' k with h | ⟨x, h1, _⟩
      · exact h.1
      · rw [e] at h1; injection h1 with h1; cases h1
    refine ⟨s, by unfold step; dsimp only; rw [e], ?_⟩
    have : Function.update m k none = m := by rw [← hk]; exact Function.update_eq_self k m
    rw [this]; exact hr'
  · have e : lookup s k = some (some x) := by
      unfold lookup; rw [scan_present s A B x k hI (le_of a1).1 hx (gt_of b1).1 (le_of a1).2]; rfl
    have eL : A ++ [x] ++ B = A ++ x :: B := by simp
    rw [eL] at hI hs hm
    obtain ⟨s', e1, I', fr, _⟩ := delItem_spec s A B x hI
    have nd := hI.nodup
    rw [List.nodup_middle, List.nodup_cons] at nd
    refine ⟨s', by unfold step; dsimp only; rw [e]; exact e1, A ++ B, I', ?_, ?_⟩
    · have hp := List.pairwise_append.1 hs
      have h2 := List.pairwise_cons.1 hp.2.1
      unfold SortedBy
      rw [fr.key]
      refine List.pairwise_append.2 ⟨hp.1, h2.2, fun a ha b hb => hp.2.2 a ha b (List.mem_cons_of_mem _ hb)⟩
    · intro j v
      rw [fr.key, fr.data]
      by_cases hj : j = k
      · subst hj
        rw [Function.update_self]
        constructor
        · intro h; cases h
        · rintro ⟨y, hy, e1, _⟩
          exfalso
          rcases List.mem_append.1 hy with hy | hy
          · exact (le_of a1).2 y hy e1
          · exact (gt_of b1).2 y hy e1
      · rw [Function.update_of_ne hj, hm]
        constructor
        · rintro ⟨y, hy, e1, e2⟩
          refine ⟨y, ?_, e1, e2⟩
          rw [List.mem_append, List.mem_cons] at hy
          rcases hy with hy | hy | hy
          · exact List.mem_append_left _ hy
          · rw [hy, hx] at e1; injection e1 with e1; exact absurd e1.symm hj
          · exact List.mem_append_right _ hy
        · rintro ⟨y, hy, e1, e2⟩
          refine ⟨y, ?_, e1, e2⟩
          rw [List.mem_append] at hy; rw [List.mem_append, List.mem_cons]; tauto

theorem rep_step (s : SL K D) (m : K → Option (Option D)) (hr : Rep s m) (op : Op K D) :
    ∃ s', step s op = some s' ∧ Rep s' (dictStep m op) := by
  cases op with
  | set k d h =>
    obtain ⟨s', n, e, r⟩ := rep_insert s m hr k d h
    exact ⟨s', by unfold step; dsimp only; rw [e]; rfl, r⟩
  | ins k d h =>
    obtain ⟨s', n, e, r⟩ := rep_insert s m hr k d h
    exact ⟨s', by unfold step; dsimp only; rw [seqInsert_eq, e]; rfl, r⟩
  | del k => exact rep_del s m hr k

theorem rep_run (ops : List (Op K D)) : ∃ s, run ops = some s ∧ Rep s (dict ops) := by
  unfold run dict
  have key : ∀ (ops : List (Op K D)) (s : SL K D) m, Rep s m →
      ∃ s', ops.foldlM step s = some s' ∧ Rep s' (ops.foldl dictStep m) := by
    intro ops
    induction ops with
    | nil => intro s m h; exact ⟨s, rfl, h⟩
    | cons op ops ih =>
      intro s m h
      obtain ⟨s1, e, r⟩ := rep_step s m h op
      obtain ⟨s2, e2, r2⟩ := ih s1 _ r
      exact ⟨s2, by rw [List.foldlM_cons, e]; exact e2, r2⟩
  exact key ops empty _ rep_empty

/-- The content of a state as a sorted list of pairs. -/
theorem rep_items (s : SL K D) (m : K → Option (Option D)) (hr : Rep s m) :
    ∃ L : List (K × Option D), items s = some (L.map fun p => (.val p.1, p.2)) ∧ L.Pairwise (fun a b => a.1 < b.1) ∧
      s.size = L.length ∧ ∀ k v, (k, v) ∈ L ↔ m k = some v := by
  obtain ⟨xs, hI, hs, hm⟩ := hr
  have key : ∀ xs : List Id, (∀ x ∈ xs, ∃ k, s.key x = .val k) → SortedBy s xs →
      ∃ L : List (K × Option D), (xs.map fun n => (s.key n, s.data n)) = L.map (fun p => (.val p.1, p.2)) ∧
        L.Pairwise (fun a b => a.1 < b.1) ∧ (∀ k v, (k, v) ∈ L ↔ ∃ x ∈ xs, s.key x = .val k ∧ s.data x = v) := by
    intro xs
    induction xs with
    | nil => intro _ _; exact ⟨[], rfl, List.Pairwise.nil, by simp⟩
    | cons x xs ih =>
      intro hv hs
      have h := List.pairwise_cons.1 hs
      obtain ⟨L, e, p, q⟩ := ih (fun y hy => hv y (List.mem_cons_of_mem _ hy)) h.2
      obtain ⟨k, hk⟩ := hv x List.mem_cons_self
      refine ⟨(k, s.data x) :: L, by rw [List.map_cons, List.map_cons, e, hk], List.pairwise_cons.2 ⟨?_, p⟩, ?_⟩
      · rintro ⟨j, v⟩ hj
        obtain ⟨y, hy, e1, _⟩ := (q j v).1 hj
        exact h.1 y hy k j hk e1
      · intro j v
        rw [List.mem_cons, q]
        constructor
        · rintro (h | ⟨y, hy, r⟩)
          · injection h with h1 h2
            exact ⟨x, List.mem_cons_self, by rw [hk, h1], h2.symm⟩
          · exact ⟨y, List.mem_cons_of_mem _ hy, r⟩
        · rintro ⟨y, hy, e1, e2⟩
          rcases List.mem_cons.1 hy with rfl | hy
          · left; rw [hk] at e1; injection e1 with e1; rw [e1, e2]
          · right; exact ⟨y, hy, e1, e2⟩
  obtain ⟨L, e, p, q⟩ := key xs hI.vals hs
  refine ⟨L, ?_, p, ?_, fun k v => (q k v).trans (hm k v).symm⟩
  · unfold items; rw [nodes_spec s xs hI]; simp only [Option.map_some]; rw [e]
  · have := congrArg List.length e
    simp only [List.length_map] at this
    rw [hI.size, this]

/-- **C130.** The sorted sequence is a sorted dictionary: after any calls of `s[k] = v`, `insert` and `delItem` of a found
node, whatever heights the random generator gives, nothing fails, iteration gives exactly the pairs of the dictionary in the
strict order of the keys, `len` is their number, and `s[k]` is the value or `None`. -/
theorem C130_dict (ops : List (Op K D)) :
    ∃ s, run ops = some s ∧
      (∃ L : List (K × Option D), items s = some (L.map fun p => (.val p.1, p.2)) ∧ L.Pairwise (fun a b => a.1 < b.1) ∧
        s.size = L.length ∧ ∀ k v, (k, v) ∈ L ↔ dict ops k = some v) ∧
      ∀ k, getitem s k = some ((dict ops k).join) := by
  obtain ⟨s, e, r⟩ := rep_run ops
  refine ⟨s, e, rep_items s _ r, ?_⟩
  intro k
  unfold getitem
  rcases rep_lookup s _ r k with ⟨h1, h2⟩ | ⟨x, h1, _, h3⟩
  · rw [h2, h1]; rfl
  · rw [h1, h3]; rfl

/-- **C130.** `lookup` gives a node with that key, and `None` exactly when the key is not there; `min` is the first node. -/
theorem C130_lookup (ops : List (Op K D)) :
    ∃ s ns, run ops = some s ∧ nodes s = some ns ∧ minNode s = some ns.head? ∧
      ∀ k, ∃ r, lookup s k = some r ∧ (r = none ↔ dict ops k = none) ∧ ∀ x, r = some x → x ∈ ns ∧ s.key x = .val k := by
  obtain ⟨s, e, r⟩ := rep_run ops
  have r' := r
  obtain ⟨xs, hI, hs, hm⟩ := r
  refine ⟨s, xs, e, nodes_spec s xs hI, ?_, ?_⟩
  · unfold minNode
    rw [hI.size]
    have h := hI.adjS [] xs rfl 0 hI.Hpos
    rw [pl_nil] at h
    cases xs with
    | nil => rfl
    | cons x xs =>
      rw [if_neg (by simp; omega), h, ql_cons, if_pos (hI.hpos x List.mem_cons_self)]; rfl
  · intro k
    rcases cut_sorted s xs k hI hs with ⟨A, B, rfl, a1, b1⟩ | ⟨A, x, B, rfl, hx, a1, b1⟩
    · have e : lookup s k = some none := by
        unfold lookup; rw [scan_absent s A B k hI (le_of a1).1 (gt_of b1).1 (le_of a1).2]; rfl
      refine ⟨none, e, ?_, fun x h => by cases h⟩
      rcases rep_lookup s _ r' k with ⟨h1, _⟩ | ⟨x, h1, _⟩
      · simp [h1]
      · rw [e] at h1; injection h1 with h1; cases h1
    · have e : lookup s k = some (some x) := by
        unfold lookup; rw [scan_present s A B x k hI (le_of a1).1 hx (gt_of b1).1 (le_of a1).2]; rfl
      refine ⟨some x, e, ?_, ?_⟩
      · rw [(hm k _).2 ⟨x, by simp, hx, rfl⟩]; simp
      · intro y hy; injection hy with hy; rw [← hy]; exact ⟨by simp, hx⟩

/-- The hypotheses of C130 are about any calls; here with several heights, a replaced value and a removal. -/
example : ((run [.set 5 (some 50) 0, .ins 2 (some 20) 2, .set 9 none 1, .set 5 (some 51) 3, .del 2, .del 7] :
    Option (SL Nat Nat)).bind items) = some [(.val 5, some 51), (.val 9, none)] := by decide +kernel

/-! ## C131 -/

theorem nodesFrom_congr (s s' : SL K D) : ∀ (f : Nat) (n : Id) (Y : List Id), nodesFrom s 0 f n = some Y →
    (∀ y ∈ Y, s'.succ y = s.succ y) → nodesFrom s' 0 f n = some Y := by
  intro f
  induction f with
  | zero => intro n Y h; cases h
  | succ f ih =>
    intro n Y h hy
    rw [nodesFrom] at h ⊢
    by_cases hn : n = tl
    · rw [if_pos hn] at h ⊢; exact h
    · rw [if_neg hn] at h ⊢
      cases hm : (s.succ n)[0]? with
      | none => rw [hm] at h; cases h
      | some m =>
        rw [hm] at h
        dsimp only at h
        cases hr : nodesFrom s 0 f m with
        | none => rw [hr] at h; cases h
        | some Y' =>
          rw [hr] at h
          have h' : n :: Y' = Y := by simpa using h
          subst h'
          rw [hy n List.mem_cons_self, hm]
          dsimp only
          rw [ih m Y' hr fun y h => hy y (List.mem_cons_of_mem _ h)]; rfl

/-- The loop of `_remove`. -/
theorem removeLoop (s : SL K D) (x : Id) (xh : x ≠ hd) (upd : List Id) (Q : Nat → Id) (m : Nat)
    (hu : ∀ l < m, upd[l]? = some hd) (hq : ∀ l < m, (s.succ x)[l]? = some (Q l)) (hm : m ≤ (s.succ hd).length) :
    ∃ s', (List.range m).foldlM (removeStep x upd) s = some s' ∧ s'.key = s.key ∧ s'.data = s.data ∧ s'.alloc = s.alloc ∧
      s'.size = s.size ∧ s'.prev = s.prev ∧ (∀ a, a ≠ hd → s'.succ a = s.succ a) ∧
      (s'.succ hd).length = (s.succ hd).length ∧ ∀ l, (s'.succ hd)[l]? = if l < m then some (Q l) else (s.succ hd)[l]? := by
  induction m with
  | zero => exact ⟨s, rfl, rfl, rfl, rfl, rfl, rfl, fun _ _ => rfl, rfl, fun l => by simp⟩
  | succ m ih =>
    obtain ⟨s1, e, k1, d1, a1, z1, p1, u1, l1, v1⟩ := ih (fun l hl => hu l (by omega)) (fun l hl => hq l (by omega)) (by omega)
    have hlen : m < (s1.succ hd).length := by rw [l1]; omega
    refine ⟨{ s1 with succ := Function.update s1.succ hd ((s1.succ hd).set m (Q m)) }, ?_, k1, d1, a1, z1, p1, ?_, ?_, ?_⟩
    · rw [List.range_succ, List.foldlM_append, e]
      show (List.foldlM (removeStep x upd) s1 [m] : Option (SL K D)) = _
      simp only [List.foldlM_cons, List.foldlM_nil]
      unfold removeStep
      rw [hu m (by omega), u1 x xh, hq m (by omega)]
      dsimp only
      unfold setSucc
      rw [if_pos hlen]; rfl
    · intro a ha; dsimp only; rw [Function.update_of_ne ha]; exact u1 a ha
    · dsimp only; rw [Function.update_self, List.length_set]; exact l1
    · intro l; dsimp only
      rw [Function.update_self, List.getElem?_set]
      by_cases h : m = l
      · subst h; rw [if_pos rfl, if_pos hlen, if_pos (by omega)]
      · rw [if_neg h, v1]
        by_cases h2 : l < m
        · rw [if_pos h2, if_pos (by omega)]
        · rw [if_neg h2, if_neg (by omega)]

/-- `del s[k]` for a key that is there: everything up to the key disappears from the list. -/
theorem remove_spec (s : SL K D) (A B : List Id) (x : Id) (k : K) (hI : Inv s ((A ++ [x]) ++ B))
    (hA : ∀ a ∈ A, leKey (s.key a) k = true) (hx : s.key x = .val k) (hB : ∀ b ∈ B, leKey (s.key b) k = false)
    (hk : ∀ a ∈ A, s.key a ≠ .val k) :
    ∃ s', remove s k = some s' ∧ nodes s' = some B ∧ s'.key = s.key ∧ s'.data = s.data ∧ s'.size = s.size - 1 ∧
      s'.prev = s.prev := by
  have xm : x ∈ A ++ [x] ++ B := by simp
  have xh : x ≠ hd := fun h => hI.nhd (h ▸ xm)
  have hle := hI.hle x xm
  have h0 := hI.hpos x xm
  obtain ⟨s1, e, k1, d1, a1, z1, p1, u1, l1, v1⟩ := removeLoop s x xh
    ((List.range (ht s hd)).map fun i => if i < ht s x then hd else pl (ht s) i A) (fun l => ql (ht s) l B) (ht s x)
    (by
      intro l hl
      rw [List.getElem?_map, List.getElem?_range (by omega)]; simp [hl])
    (by
      intro l hl
      have := hI.adjS (A ++ [x]) B rfl l (by omega)
      rwa [pl_snoc, if_pos hl] at this)
    hle
  refine ⟨{ trimHead s1 with size := s1.size - 1 }, ?_, ?_, k1, d1, ?_, p1⟩
  · unfold remove
    rw [scan_present s A B x k hI hA hx hB hk]
    dsimp only
    rw [show (s.succ x).length = ht s x from rfl, e]
  · obtain ⟨j, ej, j0, _, _⟩ := trim_spec (s1.succ hd).length (s1.succ hd) rfl (by rw [l1]; exact hI.Hpos)
    obtain ⟨s2, hs2⟩ : ∃ s2 : SL K D, s2 = { trimHead s1 with size := s1.size - 1 } := ⟨_, rfl⟩
    have us : s2.succ = (trimHead s1).succ := by rw [hs2]
    have h1 : (s2.succ hd)[0]? = some (ql (ht s) 0 B) := by
      rw [us]; unfold trimHead; dsimp only; rw [Function.update_self, ej, List.getElem?_take_of_lt j0, v1, if_pos h0]
    have al : s2.alloc = s.alloc := by rw [hs2]; exact a1
    rw [← hs2]
    unfold nodes
    rw [h1]
    dsimp only
    rw [al]
    apply nodesFrom_congr s
    · have := inv_length s _ hI
      rw [List.length_append] at this
      exact nodesFrom_spec s _ hI B (A ++ [x]) _ rfl (by omega)
    · intro y hy
      have yh : y ≠ hd := fun h => hI.nhd (h ▸ List.mem_append_right _ hy)
      rw [us]; unfold trimHead; dsimp only; rw [Function.update_of_ne yh]; exact u1 y yh
  · show s1.size - 1 = _; rw [z1]

theorem rep_remove (s : SL K D) (m : K → Option (Option D)) (hr : Rep s m) (k : K) (hk : m k ≠ none) :
    ∃ s', ∃ L L' : List (K × Option D), items s = some (L.map fun p : K × Option D => (.val p.1, p.2)) ∧
      remove s k = some s' ∧ items s' = some (L'.map fun p : K × Option D => (.val p.1, p.2)) ∧
      L' = L.filter (fun p => k < p.1) ∧ s'.size = s.size - 1 ∧
      (∀ j v, (j, v) ∈ L ↔ m j = some v) ∧ L.Pairwise (fun a b => a.1 < b.1) ∧ s.size = L.length := by
  obtain ⟨L, e, p, z, q⟩ := rep_items s m hr
  obtain ⟨xs, hI, hs, hm⟩ := hr
  rcases cut_sorted s xs k hI hs with ⟨A, B, rfl, a1, b1⟩ | ⟨A, x, B, rfl, hx, a1, b1⟩
  · exfalso; apply hk
    cases hv : m k with
    | none => rfl
    | some v =>
      exfalso
      obtain ⟨x, hx, e, _⟩ := (hm k v).1 hv
      rcases List.mem_append.1 hx with hx | hx
      · exact (le_of a1).2 x hx e
      · exact (gt_of b1).2 x hx e
  · obtain ⟨s', e1, n1, k1, d1, z1, _⟩ := remove_spec s A B x k hI (le_of a1).1 hx (gt_of b1).1 (le_of a1).2
    refine ⟨s', L, L.filter (fun p => k < p.1), e, e1, ?_, rfl, z1, q, p, z⟩
    unfold items at e ⊢
    rw [nodes_spec s _ hI] at e
    rw [n1]
    simp only [Option.map_some, Option.some.injEq] at e ⊢
    rw [k1, d1]
    -- filter both sides
    have hf : ∀ l : List Id, (∀ y ∈ l, ∃ k, s.key y = .val k) → ∀ L : List (K × Option D),
        (l.map fun n => (s.key n, s.data n)) = L.map (fun p => (.val p.1, p.2)) →
        ((l.filter fun n => !leKey (s.key n) k).map fun n => (s.key n, s.data n)) =
          (L.filter (fun p => k < p.1)).map (fun p => (.val p.1, p.2)) := by
      intro l
      induction l with
      | nil => intro _ L hL; cases L with
        | nil => rfl
        | cons a L => cases hL
      | cons y l ih =>
        intro hv L hL
        cases L with
        | nil => cases hL
        | cons a L =>
          rw [List.map_cons, List.map_cons] at hL
          injection hL with h1 h2
          injection h1 with h3 h4
          have := ih (fun y hy => hv y (List.mem_cons_of_mem _ hy)) L h2
          rw [List.filter_cons, List.filter_cons, h3]
          by_cases hc : k < a.1
          · have hd' : leKey (SKey.val a.1) k = false := by simp [leKey, hc]
            simp only [hd', Bool.not_false, if_true, hc, decide_true, List.map_cons, h3, h4, this]
          · have hd' : leKey (SKey.val a.1) k = true := by simp [leKey, not_lt.1 hc]
            simp only [hd', Bool.not_true, hc, decide_false, Bool.false_eq_true, if_false, this]
    have := hf _ hI.vals L e
    rw [← this]
    congr 1
    rw [List.filter_append, List.filter_append]
    have g1 : (A.filter fun n => !leKey (s.key n) k) = [] := by
      rw [List.filter_eq_nil_iff]; intro a ha; simp [(le_of a1).1 a ha]
    have g2 : ([x].filter fun n => !leKey (s.key n) k) = [] := by
      rw [List.filter_eq_nil_iff]; intro a ha; rw [List.mem_singleton.1 ha, hx]; simp [leKey]
    have g3 : (B.filter fun n => !leKey (s.key n) k) = B := by
      rw [List.filter_eq_self]; intro b hb; simp [(gt_of b1).1 b hb]
    rw [g1, g2, g3]; rfl

/-- **C131, refuted.** `del s[k]` (and `s.delete(k)`) does not remove one key: after it iteration gives only the keys greater
than `k`, every smaller key is gone, while `len` is one less than before. -/
theorem C131_delete_refuted (ops : List (Op K D)) (k : K) (hk : dict ops k ≠ none) :
    ∃ s s', ∃ L L' : List (K × Option D), run ops = some s ∧ remove s k = some s' ∧
      items s = some (L.map fun p : K × Option D => (.val p.1, p.2)) ∧
      items s' = some (L'.map fun p : K × Option D => (.val p.1, p.2)) ∧
      (∀ p, p ∈ L' ↔ p ∈ L ∧ k < p.1) ∧ s'.size = (L.length : Int) - 1 ∧
      ∀ j v, j < k → dict ops j = some v → (j, v) ∈ L ∧ (j, v) ∉ L' := by
  obtain ⟨s, e, r⟩ := rep_run ops
  obtain ⟨s', L, L', i1, e1, i2, f, z, q, _, zl⟩ := rep_remove s _ r k hk
  refine ⟨s, s', L, L', e, e1, i1, i2, ?_, by rw [z, zl], ?_⟩
  · intro p; rw [f, List.mem_filter]; simp
  · intro j v hj hv
    refine ⟨(q j v).2 hv, ?_⟩
    rw [f, List.mem_filter]
    rintro ⟨_, h⟩
    simp only [decide_eq_true_eq] at h
    exact lt_asymm hj h

/-- Keys 2, 5, 9; `del s[5]` leaves 9 only, and `len` is 2. -/
example : ((run [.set 5 (some 50) 0, .ins 2 (some 20) 2, .set 9 none 1] : Option (SL Nat Nat)).bind fun s =>
    (remove s 5).bind fun s' => (items s').map fun i => (i, s'.size)) = some ([(.val 9, none)], 2) := by decide +kernel

/-- **C131, what holds.** A key that is not there changes nothing, and the removal of the smallest key leaves exactly the other
pairs in order. -/
theorem C131_delete_partial (ops : List (Op K D)) (k : K) :
    ∃ s s', run ops = some s ∧ remove s k = some s' ∧
      (dict ops k = none → s' = s) ∧
      (dict ops k ≠ none → (∀ j, j < k → dict ops j = none) →
        ∃ L' : List (K × Option D), items s' = some (L'.map fun p => (.val p.1, p.2)) ∧ L'.Pairwise (fun a b => a.1 < b.1) ∧
          s'.size = s.size - 1 ∧ ∀ j v, (j, v) ∈ L' ↔ j ≠ k ∧ dict ops j = some v) := by
  obtain ⟨s, e, r⟩ := rep_run ops
  by_cases hk : dict ops k = none
  · refine ⟨s, s, e, ?_, fun _ => rfl, fun h => absurd hk h⟩
    rcases rep_lookup s _ r k with ⟨_, h2⟩ | ⟨x, _, _, h3⟩
    · unfold lookup at h2
      unfold remove
      cases hs : scan s k with
      | none => rw [hs] at h2; cases h2
      | some p =>
        obtain ⟨a, b⟩ := p
        rw [hs] at h2
        have h2' : a = none := by simpa using h2
        subst h2'; rfl
    · rw [hk] at h3; cases h3
  · obtain ⟨s', L, L', i1, e1, i2, f, z, q, p, _⟩ := rep_remove s _ r k hk
    refine ⟨s, s', e, e1, fun h => absurd h hk, fun _ hmin => ⟨L', i2, ?_, z, ?_⟩⟩
    · rw [f]; exact p.filter _
    · intro j v
      rw [f, List.mem_filter, q]
      simp only [decide_eq_true_eq]
      constructor
      · rintro ⟨h1, h2⟩; exact ⟨ne_of_gt h2, h1⟩
      · rintro ⟨h1, h2⟩
        refine ⟨h2, ?_⟩
        rcases lt_trichotomy j k with h | h | h
        · rw [hmin j h] at h2; cases h2
        · exact absurd h h1
        · exact h

/-- Removal of the smallest key. -/
example : ((run [.set 5 (some 50) 0, .ins 2 (some 20) 2, .set 9 none 1] : Option (SL Nat Nat)).bind fun s =>
    (remove s 2).bind fun s' => (items s').map fun i => (i, s'.size)) = some ([(.val 5, some 50), (.val 9, none)], 2) := by
  decide +kernel

/-- **C131, refuted.** Even then the first node that is left still names the deleted node as its predecessor, so `pred` gives a
node that is not in the sequence. -/
theorem C131_pred_refuted (ops : List (Op K D)) (k : K) (hk : dict ops k ≠ none) (hj : ∃ j, k < j ∧ dict ops j ≠ none) :
    ∃ s s' x y ns, run ops = some s ∧ remove s k = some s' ∧ nodes s' = some (y :: ns) ∧
      predOf s' y = some (some x) ∧ s'.key x = .val k ∧ x ∉ y :: ns := by
  obtain ⟨s, e, r⟩ := rep_run ops
  obtain ⟨xs, hI, hs, hm⟩ := r
  rcases cut_sorted s xs k hI hs with ⟨A, B, rfl, a1, b1⟩ | ⟨A, x, B, rfl, hx, a1, b1⟩
  · exfalso; apply hk
    cases hv : dict ops k with
    | none => rfl
    | some v =>
      exfalso
      obtain ⟨x, hx, e, _⟩ := (hm k v).1 hv
      rcases List.mem_append.1 hx with hx | hx
      · exact (le_of a1).2 x hx e
      · exact (gt_of b1).2 x hx e
  · obtain ⟨s', e1, n1, k1, d1, z1, p1⟩ := remove_spec s A B x k hI (le_of a1).1 hx (gt_of b1).1 (le_of a1).2
    obtain ⟨j, hkj, hjn⟩ := hj
    have hB : B ≠ [] := by
      intro h
      cases hv : dict ops j with
      | none => exact hjn hv
      | some v =>
        obtain ⟨z, hz, ez, _⟩ := (hm j v).1 hv
        rw [h, List.append_nil] at hz
        rcases List.mem_append.1 hz with hz | hz
        · obtain ⟨ka, e2, hlt⟩ := a1 z hz
          rw [ez] at e2; injection e2 with e2
          rw [e2] at hkj; exact lt_asymm hkj hlt
        · rw [List.mem_singleton.1 hz, hx] at ez; injection ez with ez
          rw [ez] at hkj; exact lt_irrefl _ hkj
    obtain ⟨y, ns, hyn⟩ := List.exists_cons_of_ne_nil hB
    have xm : x ∈ A ++ [x] ++ B := by simp
    have ym : y ∈ A ++ [x] ++ B := by rw [hyn]; simp
    have ap := hI.adjP (A ++ [x]) B rfl 0 hI.Hpos
    rw [pl_snoc, if_pos (hI.hpos x xm), hyn, ql_cons, if_pos (hI.hpos y ym)] at ap
    refine ⟨s, s', x, y, ns, e, e1, by rw [n1, hyn], ?_, by rw [k1]; exact hx, ?_⟩
    · unfold predOf
      rw [p1, ap]
      simp only [Option.map_some]
      rw [if_neg (fun h : x = hd => hI.nhd (h ▸ xm))]
    · intro h
      rw [← hyn] at h
      exact (List.nodup_append.1 hI.nodup).2.2 x (by simp) x h rfl

/-- The smallest of three keys is deleted; `pred` of the new first node is the deleted one. -/
example : ((run [.set 5 (some 50) 0, .ins 2 (some 20) 2, .set 9 none 1] : Option (SL Nat Nat)).bind fun s =>
    (remove s 2).bind fun s' => (predOf s' 2).map fun p => p.map s'.key) = some (some (.val 2)) := by decide +kernel

/-! ## C132 -/

/-- **C132, what holds.** `locate` of a key that is not there gives the first node with a greater key, or the tail node. -/
theorem C132_locate_partial (ops : List (Op K D)) (k : K) (hk : dict ops k = none) :
    ∃ s ns r, run ops = some s ∧ nodes s = some ns ∧ locate s k = some r ∧
      ((r = tl ∧ ∀ j, dict ops j ≠ none → j < k) ∨
       (r ∈ ns ∧ ∃ kr, s.key r = .val kr ∧ k < kr ∧ ∀ j, dict ops j ≠ none → k < j → kr ≤ j)) := by
  obtain ⟨s, e, r⟩ := rep_run ops
  obtain ⟨xs, hI, hs, hm⟩ := r
  rcases cut_sorted s xs k hI hs with ⟨A, B, rfl, a1, b1⟩ | ⟨A, x, B, rfl, hx, a1, b1⟩
  · have hloc : locate s k = some (ql (ht s) 0 B) := by
      unfold locate
      rw [scan_absent s A B k hI (le_of a1).1 (gt_of b1).1 (le_of a1).2]
      dsimp only
      rw [List.getElem?_map, List.getElem?_range hI.Hpos]
      exact hI.adjS A B rfl 0 hI.Hpos
    refine ⟨s, _, _, e, nodes_spec s _ hI, hloc, ?_⟩
    cases B with
    | nil =>
      left; refine ⟨rfl, ?_⟩
      intro j hj
      cases hv : dict ops j with
      | none => exact absurd hv hj
      | some v =>
        obtain ⟨z, hz, ez, _⟩ := (hm j v).1 hv
        rw [List.append_nil] at hz
        obtain ⟨ka, e2, hlt⟩ := a1 z hz
        rw [ez] at e2; injection e2 with e2
        rw [e2]; exact hlt
    | cons y B =>
      right
      have ym : y ∈ A ++ y :: B := by simp
      rw [ql_cons, if_pos (hI.hpos y ym)]
      obtain ⟨ky, ey, hlt⟩ := b1 y List.mem_cons_self
      refine ⟨ym, ky, ey, hlt, ?_⟩
      intro j hj hkj
      cases hv : dict ops j with
      | none => exact absurd hv hj
      | some v =>
        obtain ⟨z, hz, ez, _⟩ := (hm j v).1 hv
        rcases List.mem_append.1 hz with hz | hz
        · obtain ⟨ka, e2, hlt2⟩ := a1 z hz
          rw [ez] at e2; injection e2 with e2
          rw [e2] at hkj; exact absurd hkj (not_lt.2 (le_of_lt hlt2))
        · rcases List.mem_cons.1 hz with rfl | hz
          · rw [ez] at ey; injection ey with ey; rw [ey]
          · have := (List.pairwise_cons.1 (List.pairwise_append.1 hs).2.1).1 z hz ky j ey ez
            exact le_of_lt this
  · exfalso
    have := (hm k _).2 ⟨x, by simp, hx, rfl⟩
    rw [hk] at this; cases this

/-- Keys 2, 5, 9: `locate(6)` is the node of 9. -/
example : ((run [.set 5 (some 50) 0, .ins 2 (some 20) 2, .set 9 none 1] : Option (SL Nat Nat)).bind fun s =>
    (locate s 6).map s.key) = some (.val 9) := by decide +kernel

/-- **C132, refuted.** `locate` of a key that is there gives the node of the smallest key of the whole sequence, not the node
with that key. -/
theorem C132_locate_present_refuted (ops : List (Op K D)) (k : K) (hk : dict ops k ≠ none) :
    ∃ s r kr, run ops = some s ∧ locate s k = some r ∧ s.key r = .val kr ∧ dict ops kr ≠ none ∧
      ∀ j, dict ops j ≠ none → kr ≤ j := by
  obtain ⟨s, e, r⟩ := rep_run ops
  obtain ⟨xs, hI, hs, hm⟩ := r
  rcases cut_sorted s xs k hI hs with ⟨A, B, rfl, a1, b1⟩ | ⟨A, x, B, rfl, hx, a1, b1⟩
  · exfalso; apply hk
    cases hv : dict ops k with
    | none => rfl
    | some v =>
      exfalso
      obtain ⟨x, hx, e, _⟩ := (hm k v).1 hv
      rcases List.mem_append.1 hx with hx | hx
      · exact (le_of a1).2 x hx e
      · exact (gt_of b1).2 x hx e
  · have xm : x ∈ A ++ [x] ++ B := by simp
    obtain ⟨y, W, hyW⟩ : ∃ y W, A ++ [x] ++ B = y :: W := by
      cases A with
      | nil => exact ⟨x, B, rfl⟩
      | cons a A => exact ⟨a, A ++ [x] ++ B, rfl⟩
    have ym : y ∈ A ++ [x] ++ B := by rw [hyW]; simp
    obtain ⟨ky, ey⟩ := hI.vals y ym
    have hloc : locate s k = some y := by
      unfold locate
      rw [scan_present s A B x k hI (le_of a1).1 hx (gt_of b1).1 (le_of a1).2]
      dsimp only
      rw [List.getElem?_map, List.getElem?_range hI.Hpos]
      simp only [Option.map_some, Option.bind_some]
      rw [if_pos (hI.hpos x xm)]
      have := hI.adjS [] (A ++ [x] ++ B) rfl 0 hI.Hpos
      rw [pl_nil, hyW, ql_cons, if_pos (hI.hpos y ym)] at this
      exact this
    refine ⟨s, y, ky, e, hloc, ey, ?_, ?_⟩
    · rw [(hm ky _).2 ⟨y, ym, ey, rfl⟩]; simp
    · intro j hj
      cases hv : dict ops j with
      | none => exact absurd hv hj
      | some v =>
        obtain ⟨z, hz, ez, _⟩ := (hm j v).1 hv
        rw [hyW] at hz hs
        rcases List.mem_cons.1 hz with rfl | hz
        · rw [ez] at ey; injection ey with ey; rw [ey]
        · exact le_of_lt ((List.pairwise_cons.1 hs).1 z hz ky j ey ez)

/-- Keys 2, 5, 9: `locate(9)` is the node of 2. -/
example : ((run [.set 5 (some 50) 0, .ins 2 (some 20) 2, .set 9 none 1] : Option (SL Nat Nat)).bind fun s =>
    (locate s 9).map s.key) = some (.val 2) := by decide +kernel

/-- **C132, refuted.** Behind the last key `locate` does not give `None` but the internal tail node. -/
theorem C132_locate_none_refuted (ops : List (Op K D)) (k : K) (hk : ∀ j, dict ops j ≠ none → j < k) :
    ∃ s ns, run ops = some s ∧ nodes s = some ns ∧ locate s k = some tl ∧ tl ∉ ns := by
  have hn : dict ops k = none := by
    cases h : dict ops k with
    | none => rfl
    | some v => exact absurd (hk k (by rw [h]; simp)) (lt_irrefl _)
  obtain ⟨s, e, r⟩ := rep_run ops
  obtain ⟨xs, hI, hs, hm⟩ := r
  refine ⟨s, xs, e, nodes_spec s _ hI, ?_, hI.ntl⟩
  rcases cut_sorted s xs k hI hs with ⟨A, B, rfl, a1, b1⟩ | ⟨A, x, B, rfl, hx, a1, b1⟩
  · have hB : B = [] := by
      cases B with
      | nil => rfl
      | cons y B =>
        exfalso
        obtain ⟨ky, ey, hlt⟩ := b1 y List.mem_cons_self
        have := hk ky (by rw [(hm ky _).2 ⟨y, by simp, ey, rfl⟩]; simp)
        exact lt_asymm this hlt
    unfold locate
    rw [scan_absent s A B k hI (le_of a1).1 (gt_of b1).1 (le_of a1).2]
    dsimp only
    rw [List.getElem?_map, List.getElem?_range hI.Hpos]
    have := hI.adjS A B rfl 0 hI.Hpos
    rw [hB, ql_nil] at this
    exact this
  · exfalso
    have := (hm k _).2 ⟨x, by simp, hx, rfl⟩
    rw [hn] at this; cases this

example : ((run [.set 5 (some 50) 0, .ins 2 (some 20) 2, .set 9 none 1] : Option (SL Nat Nat)).bind fun s =>
    locate s 10) = some tl := by decide +kernel

end Verif.Sweep
