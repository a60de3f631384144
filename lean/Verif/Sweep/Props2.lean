import Verif.Sweep.Props

/-!
# Operations that take nodes (C133)
-/

namespace Verif.Sweep
variable {K D : Type} [LinearOrder K]
set_option linter.unusedSectionVars false

/-- The states that calls can reach: a sorted phase, then calls that take nodes of the sequence. -/
inductive Reach : SL K D → Prop
  | start (ops : List (Op K D)) (s : SL K D) : run ops = some s → Reach s
  | delItem (s s' : SL K D) (c : Id) (ns : List Id) : Reach s → nodes s = some ns → c ∈ ns → delItem s c = some s' → Reach s'
  | insertAt (s s' : SL K D) (node n : Id) (ns : List Id) (k : K) (d : Option D) : Reach s → nodes s = some ns → node ∈ ns →
      insertAt s node k d = some (s', n) → Reach s'
  | changeInf (s : SL K D) (n : Id) (d : Option D) : Reach s → Reach (changeInf s n d)
  | reverse (s s' : SL K D) (a b : Id) (X M W : List Id) : Reach s → nodes s = some (X ++ a :: (M ++ b :: W)) →
      reverseItems (s.alloc + 2) s a b = some s' → Reach s'

theorem reach_inv (s : SL K D) (h : Reach s) : ∃ xs, Inv s xs := by
  induction h with
  | start ops s h =>
    obtain ⟨s', e, xs, hI, _⟩ := rep_run ops
    rw [h] at e; injection e with e; exact ⟨xs, e ▸ hI⟩
  | delItem s s' c ns _ hn hc hd ih =>
    obtain ⟨xs, hI⟩ := ih
    rw [nodes_spec s xs hI] at hn; injection hn with hn; subst hn
    obtain ⟨A, B, rfl⟩ := List.append_of_mem hc
    obtain ⟨s1, e, I1, _⟩ := delItem_spec s A B c hI
    rw [hd] at e; injection e with e; exact ⟨_, e ▸ I1⟩
  | insertAt s s' node n ns k d _ hn hc hi ih =>
    obtain ⟨xs, hI⟩ := ih
    rw [nodes_spec s xs hI] at hn; injection hn with hn; subst hn
    obtain ⟨kn, hkn⟩ := hI.vals node hc
    obtain ⟨A, B, rfl⟩ := List.append_of_mem hc
    by_cases hk : kn = k
    · subst hk
      unfold Sweep.insertAt at hi
      rw [if_pos hkn] at hi
      injection hi with hi; injection hi with h1 h2
      exact ⟨_, h1 ▸ inv_data s _ node d hI⟩
    · obtain ⟨s1, e, I1, _⟩ := insertAt_spec s A B node kn k d hI hkn hk
      rw [hi] at e; injection e with e; injection e with e1 e2
      exact ⟨_, e1 ▸ I1⟩
  | changeInf s n d _ ih =>
    obtain ⟨xs, hI⟩ := ih
    exact ⟨xs, inv_data s xs n d hI⟩
  | reverse s s' a b X M W _ hn hr ih =>
    obtain ⟨xs, hI⟩ := ih
    rw [nodes_spec s xs hI] at hn; injection hn with hn; subst hn
    have := inv_length s _ hI
    simp only [List.length_append, List.length_cons] at this
    obtain ⟨s1, e, I1, _⟩ := reverseItems_spec M s X W a b (s.alloc + 2) hI (by omega)
    rw [hr] at e; injection e with e; exact ⟨_, e ▸ I1⟩

/-- **C133.** In every reachable state `len` is the number of nodes, and `succ` and `pred` of a node are its neighbours in the
order of iteration. -/
theorem C133_neighbours (s : SL K D) (h : Reach s) :
    ∃ ns, nodes s = some ns ∧ s.size = ns.length ∧
      ∀ X n Y, ns = X ++ n :: Y → succOf s n = some Y.head? ∧ predOf s n = some X.getLast? := by
  obtain ⟨xs, hI⟩ := reach_inv s h
  refine ⟨xs, nodes_spec s xs hI, hI.size, ?_⟩
  intro X n Y hx
  subst hx
  have nm : n ∈ X ++ n :: Y := by simp
  have h0 := hI.hpos n nm
  constructor
  · have a := hI.adjS (X ++ [n]) Y (by simp) 0 hI.Hpos
    rw [pl_snoc, if_pos h0] at a
    unfold succOf
    rw [a]
    simp only [Option.map_some, Option.some.injEq]
    cases Y with
    | nil => rfl
    | cons y Y =>
      have ym : y ∈ X ++ n :: y :: Y := by simp
      rw [ql_cons, if_pos (hI.hpos y ym), if_neg (fun h : y = tl => hI.ntl (h ▸ ym))]; rfl
  · have a := hI.adjP X (n :: Y) rfl 0 hI.Hpos
    rw [ql_cons, if_pos h0] at a
    unfold predOf
    rw [a]
    simp only [Option.map_some, Option.some.injEq]
    rcases List.eq_nil_or_concat X with hX | ⟨X', x, hX⟩
    · rw [hX]; rfl
    · rw [List.concat_eq_append] at hX
      subst hX
      have xm : x ∈ X' ++ [x] ++ n :: Y := by simp
      rw [pl_snoc, if_pos (hI.hpos x xm), if_neg (fun h : x = hd => hI.nhd (h ▸ xm))]; simp

/-- **C133.** `delItem` takes exactly its node out of the sequence. -/
theorem C133_delItem (s : SL K D) (h : Reach s) (X Y : List Id) (c : Id) (hn : nodes s = some (X ++ c :: Y)) :
    ∃ s', delItem s c = some s' ∧ nodes s' = some (X ++ Y) ∧ s'.size = s.size - 1 ∧ s'.key = s.key ∧ s'.data = s.data ∧
      Reach s' := by
  obtain ⟨xs, hI⟩ := reach_inv s h
  have hn' := hn
  rw [nodes_spec s xs hI] at hn; injection hn with hn; subst hn
  obtain ⟨s1, e, I1, fr, _⟩ := delItem_spec s X Y c hI
  refine ⟨s1, e, nodes_spec s1 _ I1, ?_, fr.key, fr.data, Reach.delItem s s1 c _ h hn' (by simp) e⟩
  rw [I1.size, hI.size]; simp only [List.length_append, List.length_cons]; omega

/-- **C133.** `insertAt` puts a new node directly behind its node when the new key is greater, directly before it when the key is
smaller, and replaces the value when the keys are equal. -/
theorem C133_insertAt (s : SL K D) (h : Reach s) (X Y : List Id) (node : Id) (k : K) (d : Option D)
    (hn : nodes s = some (X ++ node :: Y)) :
    ∃ s' n kn, s.key node = .val kn ∧ insertAt s node k d = some (s', n) ∧ s'.key n = .val k ∧ s'.data n = d ∧
      (∀ x ∈ X ++ node :: Y, s'.key x = s.key x ∧ (x ≠ n → s'.data x = s.data x)) ∧ Reach s' ∧
      (kn < k → n ∉ X ++ node :: Y ∧ nodes s' = some (X ++ node :: n :: Y) ∧ s'.size = s.size + 1) ∧
      (k < kn → n ∉ X ++ node :: Y ∧ nodes s' = some (X ++ n :: node :: Y) ∧ s'.size = s.size + 1) ∧
      (kn = k → n = node ∧ nodes s' = some (X ++ node :: Y) ∧ s'.size = s.size) := by
  obtain ⟨xs, hI⟩ := reach_inv s h
  have hn' := hn
  rw [nodes_spec s xs hI] at hn; injection hn with hn; subst hn
  have nm : node ∈ X ++ node :: Y := by simp
  obtain ⟨kn, hkn⟩ := hI.vals node nm
  by_cases hk : kn = k
  · subst hk
    have e : insertAt s node kn d = some (changeInf s node d, node) := by unfold insertAt; rw [if_pos hkn]
    refine ⟨_, node, kn, hkn, e, hkn, ?_, ?_, Reach.insertAt s _ node _ _ kn d h hn' nm e, fun h => absurd h (lt_irrefl _),
      fun h => absurd h (lt_irrefl _), fun _ => ⟨rfl, nodes_spec _ _ (inv_data s _ node d hI), rfl⟩⟩
    · unfold changeInf; dsimp only; rw [Function.update_self]
    · intro x _; refine ⟨rfl, fun hx => ?_⟩
      unfold changeInf; dsimp only; rw [Function.update_of_ne hx]
  · obtain ⟨s1, e, I1, k1, d1, a1⟩ := insertAt_spec s X Y node kn k d hI hkn hk
    obtain ⟨f1, _, _⟩ := fresh_not s _ hI
    refine ⟨s1, s.alloc, kn, hkn, e, by rw [k1, Function.update_self], by rw [d1, Function.update_self], ?_,
      Reach.insertAt s _ node _ _ k d h hn' nm e, ?_, ?_, fun h => absurd h hk⟩
    · intro x hx
      have hne : x ≠ s.alloc := fun e => f1 (e ▸ hx)
      rw [k1, d1, Function.update_of_ne hne, Function.update_of_ne hne]; exact ⟨rfl, fun _ => rfl⟩
    · intro hlt
      rw [if_pos hlt] at I1
      refine ⟨f1, nodes_spec _ _ I1, ?_⟩
      rw [I1.size, hI.size]; simp only [List.length_append, List.length_cons]; omega
    · intro hlt
      rw [if_neg (lt_asymm hlt)] at I1
      refine ⟨f1, nodes_spec _ _ I1, ?_⟩
      rw [I1.size, hI.size]; simp only [List.length_append, List.length_cons]; omega

/-- **C133.** `reverseItems(a, b)` reverses the part of the sequence from `a` to `b` and nothing else. -/
theorem C133_reverse (s : SL K D) (h : Reach s) (X M W : List Id) (a b : Id) (hn : nodes s = some (X ++ a :: (M ++ b :: W))) :
    ∃ s', reverseItems (s.alloc + 2) s a b = some s' ∧ nodes s' = some (X ++ (a :: (M ++ [b])).reverse ++ W) ∧
      s'.size = s.size ∧ s'.key = s.key ∧ s'.data = s.data ∧ Reach s' := by
  obtain ⟨xs, hI⟩ := reach_inv s h
  have hn' := hn
  rw [nodes_spec s xs hI] at hn; injection hn with hn; subst hn
  have hl := inv_length s _ hI
  simp only [List.length_append, List.length_cons] at hl
  obtain ⟨s1, e, I1, fr⟩ := reverseItems_spec M s X W a b (s.alloc + 2) hI (by omega)
  refine ⟨s1, e, ?_, ?_, fr.key, fr.data, Reach.reverse s s1 a b X M W h hn' e⟩
  · rw [nodes_spec s1 _ I1]; simp
  · rw [I1.size, hI.size]; simp

/-- A reachable state with five nodes of several heights; the part from the second to the fourth is reversed, a node is taken
out and one is put in. -/
example : ((run [.set 5 (some 50) 0, .set 2 (some 20) 2, .set 9 (some 90) 1, .set 7 none 0, .set 3 (some 30) 3] :
    Option (SL Nat Nat)).bind fun s => (nodes s).bind fun ns => (reverseItems (s.alloc + 2) s 6 5).bind fun s1 =>
      (delItem s1 5).bind fun s2 => (insertAt s2 4 8 none).bind fun s3 =>
        (nodes s1).bind fun n1 => (nodes s3.1).map fun n3 => (ns, n1, n3, s3.1.size)) =
    some ([3, 6, 2, 5, 4], [3, 5, 2, 6, 4], [3, 2, 6, 7, 4], 5) := by decide +kernel

/-- `insertAt` at the tail node, which `locate` gives for a key behind the last one. -/
theorem insertAt_tail (s : SL K D) (xs : List Id) (k : K) (d : Option D) (hI : Inv s xs) (ne : xs ≠ []) :
    ∃ s', insertAt s tl k d = some (s', s.alloc) ∧ Inv s' (xs ++ [s.alloc]) ∧
      s'.key = Function.update s.key s.alloc (.val k) ∧ s'.data = Function.update s.data s.alloc d := by
  have I1 : Inv s (xs ++ []) := by rwa [List.append_nil]
  obtain ⟨m, m0, mH, g1, g2⟩ := shared s xs [] I1 (by rwa [List.append_nil])
  obtain ⟨s', e, I', k1, d1, _⟩ := mkNode_spec s xs [] m k d I1 m0 mH _ _ g1 g2
  refine ⟨s', ?_, I', k1, d1⟩
  unfold insertAt
  rw [if_neg (by rw [hI.kt]; simp), hI.kt]
  have hg : gtKey (SKey.nil : SKey K) k = false := rfl
  dsimp only
  rw [hg, if_neg (by simp)]
  have ap := I1.adjP xs [] rfl 0 hI.Hpos
  rw [ql_nil] at ap
  rw [ap]
  dsimp only
  have as := I1.adjS xs [] rfl 0 hI.Hpos
  rw [as]
  dsimp only
  exact e

/-- **C133.** `s.insertAt(s.locate(k), k, v)` is `s[k] = v` for a key that is not there, when the sequence is not empty. -/
theorem C133_locate_insertAt (ops : List (Op K D)) (k : K) (d : Option D) (hk : dict ops k = none)
    (ne : ∃ j, dict ops j ≠ none) :
    ∃ s n s' c, run ops = some s ∧ locate s k = some n ∧ insertAt s n k d = some (s', c) ∧
      ∃ L : List (K × Option D), items s' = some (L.map fun p => (.val p.1, p.2)) ∧ L.Pairwise (fun a b => a.1 < b.1) ∧
        s'.size = L.length ∧ ∀ j v, (j, v) ∈ L ↔ Function.update (dict ops) k (some d) j = some v := by
  obtain ⟨s, e, xs, hI, hs, hm⟩ := rep_run ops
  rcases cut_sorted s xs k hI hs with ⟨A, B, rfl, a1, b1⟩ | ⟨A, x, B, rfl, hx, a1, b1⟩
  · have hloc : locate s k = some (ql (ht s) 0 B) := by
      unfold locate
      rw [scan_absent s A B k hI (le_of a1).1 (gt_of b1).1 (le_of a1).2]
      dsimp only
      rw [List.getElem?_map, List.getElem?_range hI.Hpos]
      exact hI.adjS A B rfl 0 hI.Hpos
    have hne : A ++ B ≠ [] := by
      obtain ⟨j, hj⟩ := ne
      intro h
      cases hv : dict ops j with
      | none => exact hj hv
      | some v =>
        obtain ⟨z, hz, _⟩ := (hm j v).1 hv
        rw [h] at hz; cases hz
    obtain ⟨f1, _, _⟩ := fresh_not s _ hI
    have ins : ∃ s', insertAt s (ql (ht s) 0 B) k d = some (s', s.alloc) ∧ Inv s' (A ++ s.alloc :: B) ∧
        s'.key = Function.update s.key s.alloc (.val k) ∧ s'.data = Function.update s.data s.alloc d := by
      cases B with
      | nil => rw [List.append_nil] at hI hne; exact insertAt_tail s A k d hI hne
      | cons y B =>
        have ym : y ∈ A ++ y :: B := by simp
        obtain ⟨ky, ey, hlt⟩ := b1 y List.mem_cons_self
        obtain ⟨s', e1, I', k1, d1, _⟩ := insertAt_spec s A B y ky k d hI ey (ne_of_gt hlt)
        rw [if_neg (lt_asymm hlt)] at I'
        rw [ql_cons, if_pos (hI.hpos y ym)]
        exact ⟨s', e1, I', k1, d1⟩
    obtain ⟨s', e1, I', kk, dd⟩ := ins
    refine ⟨s, _, s', _, e, hloc, e1, rep_items s' _ ⟨_, I', ?_, ?_⟩⟩
    · have kA : ∀ x ∈ A, s'.key x = s.key x := by
        intro x hx; rw [kk, Function.update_of_ne (fun e : x = s.alloc => f1 (e ▸ List.mem_append_left _ hx))]
      have kB : ∀ x ∈ B, s'.key x = s.key x := by
        intro x hx; rw [kk, Function.update_of_ne (fun e : x = s.alloc => f1 (e ▸ List.mem_append_right _ hx))]
      have knew : s'.key s.alloc = .val k := by rw [kk, Function.update_self]
      have hp := List.pairwise_append.1 hs
      refine List.pairwise_append.2 ⟨?_, List.pairwise_cons.2 ⟨?_, ?_⟩, ?_⟩
      · exact hp.1.imp_of_mem fun {x y} hx hy h => by rw [kA x hx, kA y hy]; exact h
      · intro b hb ka kb e1 e2
        rw [knew] at e1; injection e1 with e1
        obtain ⟨kb', e3, hlt⟩ := b1 b hb
        rw [kB b hb, e3] at e2; injection e2 with e2
        rw [← e1, ← e2]; exact hlt
      · exact hp.2.1.imp_of_mem fun {x y} hx hy h => by rw [kB x hx, kB y hy]; exact h
      · intro a ha b hb ka kb e1 e2
        obtain ⟨ka', e3, hlt⟩ := a1 a ha
        rw [kA a ha, e3] at e1; injection e1 with e1
        rcases List.mem_cons.1 hb with hb | hb
        · rw [hb, knew] at e2; injection e2 with e2
          rw [← e1, ← e2]; exact hlt
        · obtain ⟨kb', e4, hlt2⟩ := b1 b hb
          rw [kB b hb, e4] at e2; injection e2 with e2
          rw [← e1, ← e2]; exact lt_trans hlt hlt2
    · have kold : ∀ x ∈ A ++ B, s'.key x = s.key x := by
        intro x hx; rw [kk, Function.update_of_ne (fun e : x = s.alloc => f1 (e ▸ hx))]
      have dold : ∀ x ∈ A ++ B, s'.data x = s.data x := by
        intro x hx; rw [dd, Function.update_of_ne (fun e : x = s.alloc => f1 (e ▸ hx))]
      have knew : s'.key s.alloc = .val k := by rw [kk, Function.update_self]
      have dnew : s'.data s.alloc = d := by rw [dd, Function.update_self]
      intro j v
      by_cases hj : j = k
      · subst hj
        rw [Function.update_self]
        constructor
        · intro h; injection h with h
          exact ⟨s.alloc, by simp, knew, by rw [dnew, h]⟩
        · rintro ⟨x, hx, e1, e2⟩
          rw [List.mem_append, List.mem_cons] at hx
          rcases hx with hx | hx | hx
          · rw [kold x (List.mem_append_left _ hx)] at e1; exact absurd e1 ((le_of a1).2 x hx)
          · rw [hx, dnew] at e2; rw [e2]
          · rw [kold x (List.mem_append_right _ hx)] at e1; exact absurd e1 ((gt_of b1).2 x hx)
      · rw [Function.update_of_ne hj, hm]
        constructor
        · rintro ⟨x, hx, e1, e2⟩
          refine ⟨x, ?_, by rw [kold x hx, e1], by rw [dold x hx, e2]⟩
          rw [List.mem_append] at hx; rw [List.mem_append, List.mem_cons]; tauto
        · rintro ⟨x, hx, e1, e2⟩
          have hx' : x ∈ A ++ B := by
            rw [List.mem_append, List.mem_cons] at hx
            rcases hx with hx | hx | hx
            · exact List.mem_append_left _ hx
            · rw [hx, knew] at e1; injection e1 with e1; exact absurd e1.symm hj
            · exact List.mem_append_right _ hx
          exact ⟨x, hx', by rw [← kold x hx', e1], by rw [← dold x hx', e2]⟩
  · exfalso
    have := (hm k _).2 ⟨x, by simp, hx, rfl⟩
    rw [hk] at this; cases this

/-- Keys 2 and 5 are there; 9 is put at the tail, 3 before 5. -/
example : ((run [.set 5 (some 50) 0, .ins 2 (some 20) 2] : Option (SL Nat Nat)).bind fun s => (locate s 9).bind fun n =>
    (insertAt s n 9 none).bind fun s1 => (locate s1.1 3).bind fun n1 => (insertAt s1.1 n1 3 none).bind fun s2 => items s2.1) =
    some [(.val 2, some 20), (.val 3, none), (.val 5, some 50), (.val 9, none)] := by decide +kernel

theorem linkStep_len (c : Id) (s s' : SL K D) (l : Nat) (h : linkStep c s l = some s') :
    ∀ x, (s'.succ x).length = (s.succ x).length := by
  unfold linkStep at h
  cases hp : (s.prev c)[l]? with
  | none => rw [hp] at h; cases h
  | some p =>
    cases hq : (s.succ c)[l]? with
    | none => rw [hp, hq] at h; cases h
    | some q =>
      rw [hp, hq] at h
      dsimp only at h
      unfold setSucc at h
      split_ifs at h with h1
      · simp only [Option.bind_some] at h
        unfold setPrev at h
        dsimp only at h
        split_ifs at h with h2
        injection h with h
        intro x; rw [← h]; dsimp only
        by_cases hx : x = p
        · subst hx; simp
        · rw [Function.update_of_ne hx]
      · cases h

theorem linkLoop_len (c : Id) (n : Nat) : ∀ (s s' : SL K D), (List.range n).foldlM (linkStep c) s = some s' →
    ∀ x, (s'.succ x).length = (s.succ x).length := by
  induction n with
  | zero => intro s s' h x; injection h with h; rw [h]
  | succ n ih =>
    intro s s' h x
    rw [List.range_succ, List.foldlM_append] at h
    cases h1 : (List.range n).foldlM (linkStep c) s with
    | none => rw [h1] at h; cases h
    | some s1 =>
      rw [h1] at h
      have h' : linkStep c s1 n = some s' := by
        have : (List.foldlM (linkStep c) s1 [n] : Option (SL K D)) = some s' := h
        simp only [List.foldlM_cons, List.foldlM_nil] at this
        cases h2 : linkStep c s1 n with
        | none => rw [h2] at this; cases this
        | some s2 => rw [h2] at this; exact this
      rw [linkStep_len c s1 s' n h' x, ih s s1 h1 x]

theorem foldlM_none_of_prefix (c : Id) (n : Nat) (s : SL K D) (m : Nat) (hm : m ≤ n)
    (h : (List.range m).foldlM (linkStep c) s = none) : (List.range n).foldlM (linkStep c) s = none := by
  induction n with
  | zero => obtain rfl : m = 0 := by omega
            exact h
  | succ n ih =>
    by_cases hn : m = n + 1
    · subst hn; exact h
    · rw [List.range_succ, List.foldlM_append, ih (by omega)]; rfl

/-- **C133, refuted.** On an empty sequence that once had a node with more levels than the head has now, the same two calls raise
an `IndexError`: the lists of the tail node are never shortened. -/
theorem C133_empty_refuted (ops : List (Op K D)) (s : SL K D) (he : run ops = some s) (hne : ∀ j, dict ops j = none)
    (hl : (s.succ hd).length < (s.prev tl).length) (k : K) (d : Option D) :
    locate s k = some tl ∧ insertAt s tl k d = none := by
  obtain ⟨s0, e, xs, hI, hs, hm⟩ := rep_run ops
  rw [he] at e; injection e with e; subst e
  have hx : xs = [] := by
    cases xs with
    | nil => rfl
    | cons x xs =>
      exfalso
      obtain ⟨kx, hk⟩ := hI.vals x List.mem_cons_self
      have := (hm kx _).2 ⟨x, List.mem_cons_self, hk, rfl⟩
      rw [hne kx] at this; cases this
  subst hx
  have hA := hI.adjS [] [] rfl
  have hP := hI.adjP [] [] rfl
  simp only [pl_nil, ql_nil] at hA hP
  constructor
  · unfold locate
    rw [scan_absent s [] [] k hI (by simp) (by simp) (by simp)]
    dsimp only
    rw [List.getElem?_map, List.getElem?_range hI.Hpos]
    exact hA 0 hI.Hpos
  · have all1 : (s.succ hd).filter (· = tl) = s.succ hd := by
      rw [List.filter_eq_self]
      intro a ha
      obtain ⟨i, hi, e⟩ := List.mem_iff_getElem.1 ha
      have := hA i hi
      rw [List.getElem?_eq_getElem hi, e] at this
      injection this with this; simp [this]
    have all2 : (s.prev tl).filter (· = hd) = s.prev tl := by
      rw [List.filter_eq_self]
      intro a ha
      obtain ⟨i, hi, e⟩ := List.mem_iff_getElem.1 ha
      have h1 : (s.prev tl)[i]? = some a := by rw [List.getElem?_eq_getElem hi, e]
      by_cases hH : i < ht s hd
      · rw [hP i hH] at h1; injection h1 with h1; simp [← h1]
      · simp [hI.stale i a (by omega) h1]
    unfold insertAt
    rw [if_neg (by rw [hI.kt]; simp), hI.kt]
    have hg : gtKey (SKey.nil : SKey K) k = false := rfl
    dsimp only
    rw [hg, if_neg (by simp), hP 0 hI.Hpos]
    dsimp only
    rw [hA 0 hI.Hpos]
    dsimp only
    rw [all1, all2]
    unfold mkNode
    dsimp only
    obtain ⟨s1, hs1⟩ : ∃ s1 : SL K D, s1 = { s with
      key := Function.update s.key s.alloc (.val k), data := Function.update s.data s.alloc d,
      succ := Function.update s.succ s.alloc (s.succ hd), prev := Function.update s.prev s.alloc (s.prev tl),
      alloc := s.alloc + 1 } := ⟨_, rfl⟩
    rw [← hs1]
    have c1 : s1.succ s.alloc = s.succ hd := by rw [hs1]; dsimp only; rw [Function.update_self]
    have c2 : s1.prev s.alloc = s.prev tl := by rw [hs1]; dsimp only; rw [Function.update_self]
    have hlink : link s1 s.alloc = none := by
      unfold link
      rw [c2]
      apply foldlM_none_of_prefix _ _ _ ((s.succ hd).length + 1) hl
      rw [List.range_succ, List.foldlM_append]
      cases h1 : (List.range (s.succ hd).length).foldlM (linkStep s.alloc) s1 with
      | none => rfl
      | some s2 =>
        have hlen := linkLoop_len s.alloc _ s1 s2 h1 s.alloc
        rw [c1] at hlen
        show (List.foldlM (linkStep s.alloc) s2 [(s.succ hd).length] : Option (SL K D)) = none
        simp only [List.foldlM_cons, List.foldlM_nil]
        have : linkStep s.alloc s2 (s.succ hd).length = none := by
          unfold linkStep
          rw [List.getElem?_eq_none (l := s2.succ s.alloc) (by omega)]
          cases (s2.prev s.alloc)[(s.succ hd).length]? <;> rfl
        rw [this]; rfl
    rw [hlink]

/-- One key with two levels, taken out again. -/
example : ((run [.set 5 (some 50) 1, .del 5] : Option (SL Nat Nat)).map fun s =>
    (decide ((s.succ hd).length < (s.prev tl).length), s.size, (insertAt s tl 5 none).isNone)) =
    some (true, 0, true) := by decide +kernel

end Verif.Sweep
