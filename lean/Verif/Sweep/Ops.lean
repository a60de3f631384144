import Verif.Sweep.Scan
import Mathlib.Order.Lattice
import Mathlib.Order.MinMax

/-!
# The operations on the sequence of nodes
-/

namespace Verif.Sweep
variable {K D : Type} [LinearOrder K]
set_option linter.unusedSectionVars false

/-- The lists of a node outside of the sequence do not matter. -/
theorem inv_fresh (s s' : SL K D) (xs : List Id) (c : Id) (hI : Inv s xs) (hc : c ∉ xs) (ch : c ≠ hd) (ct : c ≠ tl)
    (hk : ∀ x, x ≠ c → s'.key x = s.key x) (ha : s.alloc ≤ s'.alloc) (hz : s'.size = s.size)
    (hs : ∀ x, x ≠ c → s'.succ x = s.succ x) (hp : ∀ x, x ≠ c → s'.prev x = s.prev x) : Inv s' xs := by
  have hx : ∀ x, x ≠ c → ht s' x = ht s x := by intro x h; unfold ht; rw [hs x h]
  have hm : ∀ x ∈ xs, x ≠ c := fun x h e => hc (e ▸ h)
  refine ⟨hI.nodup, hI.nhd, hI.ntl, fun x h => lt_of_lt_of_le (hI.lt x h) ha, le_trans hI.al ha,
    fun x h => (hx x (hm x h)) ▸ hI.hpos x h, ?_, ?_, ?_, ?_, ?_, ?_, ?_, fun x h => ?_, ?_, ?_, hz ▸ hI.size⟩
  · intro x h; rw [hx x (hm x h), hp x (hm x h)]; exact hI.plen x h
  · intro x h; rw [hx x (hm x h), hx hd ch.symm]; exact hI.hle x h
  · rw [hx hd ch.symm]; exact hI.Hpos
  · rw [hx hd ch.symm, hp tl ct.symm]; exact hI.tlen
  · rw [hx hd ch.symm, hp tl ct.symm]; exact hI.stale
  · intro X Y hXY l hl
    rw [hx hd ch.symm] at hl
    have hX : c ∉ X := fun h => hc (by rw [hXY]; exact List.mem_append_left _ h)
    rw [pl_congr l X (h' := ht s) (fun y hy => hx y (hm y (by rw [hXY]; exact List.mem_append_left _ hy))),
      ql_congr l Y (h' := ht s) (fun y hy => hx y (hm y (by rw [hXY]; exact List.mem_append_right _ hy))),
      hs _ (pl_ne_of ch hX)]
    exact hI.adjS X Y hXY l hl
  · intro X Y hXY l hl
    rw [hx hd ch.symm] at hl
    have hY : c ∉ Y := fun h => hc (by rw [hXY]; exact List.mem_append_right _ h)
    rw [pl_congr l X (h' := ht s) (fun y hy => hx y (hm y (by rw [hXY]; exact List.mem_append_left _ hy))),
      ql_congr l Y (h' := ht s) (fun y hy => hx y (hm y (by rw [hXY]; exact List.mem_append_right _ hy))),
      hp _ (ql_ne_of ct hY)]
    exact hI.adjP X Y hXY l hl
  · rw [hk x (hm x h)]; exact hI.vals x h
  · rw [hk hd ch.symm]; exact hI.kh
  · rw [hk tl ct.symm]; exact hI.kt

/-- `changeInf` touches nothing but the data. -/
theorem inv_data (s : SL K D) (xs : List Id) (n : Id) (d : Option D) (hI : Inv s xs) : Inv (changeInf s n d) xs :=
  ⟨hI.nodup, hI.nhd, hI.ntl, hI.lt, hI.al, hI.hpos, hI.plen, hI.hle, hI.Hpos, hI.tlen, hI.stale, hI.adjS, hI.adjP, hI.vals,
    hI.kh, hI.kt, hI.size⟩

theorem fresh_not (s : SL K D) (xs : List Id) (hI : Inv s xs) : s.alloc ∉ xs ∧ s.alloc ≠ hd ∧ s.alloc ≠ tl := by
  have h2 := hI.al
  refine ⟨fun h => lt_irrefl _ (hI.lt _ h), ?_, ?_⟩
  · intro h; rw [h] at h2; revert h2; decide
  · intro h; rw [h] at h2; revert h2; decide

/-- A new node between two parts of the sequence. -/
theorem mkNode_spec (s : SL K D) (X Y : List Id) (m : Nat) (k : K) (d : Option D) (hI : Inv s (X ++ Y)) (m0 : 0 < m)
    (mH : m ≤ ht s hd) (ss ps : List Id) (hs : ss = (List.range m).map fun l => ql (ht s) l Y)
    (hp : ps = (List.range m).map fun l => pl (ht s) l X) :
    ∃ s', mkNode s k d ss ps = some (s', s.alloc) ∧ Inv s' (X ++ s.alloc :: Y) ∧
      s'.key = Function.update s.key s.alloc (.val k) ∧ s'.data = Function.update s.data s.alloc d ∧
      s'.alloc = s.alloc + 1 := by
  obtain ⟨f1, f2, f3⟩ := fresh_not s _ hI
  obtain ⟨s1, hs1⟩ : ∃ s1 : SL K D, s1 = { s with
    key := Function.update s.key s.alloc (.val k), data := Function.update s.data s.alloc d,
    succ := Function.update s.succ s.alloc ss, prev := Function.update s.prev s.alloc ps, alloc := s.alloc + 1 } := ⟨_, rfl⟩
  have k1 : s1.key = Function.update s.key s.alloc (.val k) := by rw [hs1]
  have d1 : s1.data = Function.update s.data s.alloc d := by rw [hs1]
  have u1 : s1.succ = Function.update s.succ s.alloc ss := by rw [hs1]
  have p1 : s1.prev = Function.update s.prev s.alloc ps := by rw [hs1]
  have a1 : s1.alloc = s.alloc + 1 := by rw [hs1]
  have z1 : s1.size = s.size := by rw [hs1]
  have I1 : Inv s1 (X ++ Y) := by
    apply inv_fresh s s1 _ s.alloc hI f1 f2 f3
    · intro x hx; rw [k1, Function.update_of_ne hx]
    · omega
    · exact z1
    · intro x hx; rw [u1, Function.update_of_ne hx]
    · intro x hx; rw [p1, Function.update_of_ne hx]
  have hht : ∀ x, x ≠ s.alloc → ht s1 x = ht s x := by
    intro x hx; unfold ht; rw [u1, Function.update_of_ne hx]
  have nX : ∀ y ∈ X, ht s1 y = ht s y := fun y hy => hht y (fun h => f1 (h ▸ List.mem_append_left _ hy))
  have nY : ∀ y ∈ Y, ht s1 y = ht s y := fun y hy => hht y (fun h => f1 (h ▸ List.mem_append_right _ hy))
  obtain ⟨s', e, I', fr, _⟩ := inv_link s1 X Y s.alloc m k I1 f1 f2 f3 (by omega) (by rw [k1, Function.update_self]) m0
    (by rw [hht hd f2.symm]; exact mH) (by rw [u1, Function.update_self, hs]; simp) (by rw [p1, Function.update_self, hp]; simp)
    (by
      intro l hl
      rw [p1, Function.update_self, hp, List.getElem?_map, List.getElem?_range hl, pl_congr l X nX]; rfl)
    (by
      intro l hl
      rw [u1, Function.update_self, hs, List.getElem?_map, List.getElem?_range hl, ql_congr l Y nY]; rfl)
  refine ⟨_, ?_, I', ?_, ?_, ?_⟩
  · unfold mkNode; dsimp only; rw [← hs1, e]
  · show s'.key = _; rw [fr.key, k1]
  · show s'.data = _; rw [fr.data, d1]
  · show s'.alloc = _; rw [fr.alloc, a1]

theorem mapM_some {α β : Type} (f : α → Option β) (g : α → β) : ∀ L : List α, (∀ x ∈ L, f x = some (g x)) →
    L.mapM f = some (L.map g)
  | [], _ => rfl
  | x :: L, h => by
    rw [List.mapM_cons, h x List.mem_cons_self, mapM_some f g L fun y hy => h y (List.mem_cons_of_mem _ hy)]; rfl

/-- `_insert` of a new key. -/
theorem insert_absent (s : SL K D) (A B : List Id) (k : K) (d : Option D) (h : Nat) (h0 : 0 < h) (hI : Inv s (A ++ B))
    (hA : ∀ a ∈ A, leKey (s.key a) k = true) (hB : ∀ b ∈ B, leKey (s.key b) k = false) (hk : ∀ a ∈ A, s.key a ≠ .val k) :
    ∃ s', insert s k d h = some (s', s.alloc) ∧ Inv s' (A ++ s.alloc :: B) ∧
      s'.key = Function.update s.key s.alloc (.val k) ∧ s'.data = Function.update s.data s.alloc d ∧
      s'.alloc = s.alloc + 1 := by
  obtain ⟨s1, hs1⟩ : ∃ s1, s1 = extend s (h - ht s hd) := ⟨_, rfl⟩
  have I1 : Inv s1 (A ++ B) := hs1 ▸ inv_extend s _ _ hI
  have hH : h ≤ ht s1 hd := by rw [hs1, extend_ht]; omega
  have hht : ∀ x, x ≠ hd → ht s1 x = ht s x := by
    intro x hx; unfold ht; rw [hs1]; unfold extend; dsimp only; rw [Function.update_of_ne hx]
  have nA : ∀ y ∈ A, ht s1 y = ht s y := fun y hy => hht y (fun e => hI.nhd (e ▸ List.mem_append_left _ hy))
  obtain ⟨upd, hu⟩ : ∃ u, u = ((List.range (ht s hd)).map fun i => pl (ht s) i A) ++ List.replicate (h - ht s hd) hd := ⟨_, rfl⟩
  have updl : ∀ l ∈ List.range h, upd[l]? = some (pl (ht s1) l A) := by
    intro l hl
    rw [List.mem_range] at hl
    rw [pl_congr l A nA, hu]
    by_cases h1 : l < ht s hd
    · rw [List.getElem?_append_left (by simpa using h1), List.getElem?_map, List.getElem?_range h1]; rfl
    · rw [List.getElem?_append_right (by simpa using h1), List.getElem?_replicate, if_pos]
      · rw [pl_none _ _ _ fun y hy => le_trans (hI.hle y (List.mem_append_left _ hy)) (by omega)]
      · simp; omega
  have e1 := mapM_some (fun l => upd[l]?) (fun l => pl (ht s1) l A) (List.range h) updl
  have e2 := mapM_some (fun l => upd[l]?.bind fun u => (s1.succ u)[l]?) (fun l => ql (ht s1) l B) (List.range h) (by
    intro l hl
    rw [updl l hl]
    exact I1.adjS A B rfl l (lt_of_lt_of_le (List.mem_range.1 hl) hH))
  obtain ⟨s', e3, I', kk, dd, aa⟩ := mkNode_spec s1 A B h k d I1 h0 hH _ _ rfl rfl
  have a1 : s1.alloc = s.alloc := by rw [hs1]; rfl
  have k1 : s1.key = s.key := by rw [hs1]; rfl
  have d1 : s1.data = s.data := by rw [hs1]; rfl
  refine ⟨s', ?_, ?_, ?_, ?_, ?_⟩
  · unfold insert
    rw [scan_absent s A B k hI hA hB hk]
    dsimp only
    have hs1' : s1 = { s with
      succ := Function.update s.succ hd (s.succ hd ++ List.replicate (h - (s.succ hd).length) tl)
      prev := Function.update s.prev tl (s.prev tl ++ List.replicate (h - (s.succ hd).length) hd) } := hs1
    have hu' : upd = ((List.range (ht s hd)).map fun i => pl (ht s) i A) ++ List.replicate (h - (s.succ hd).length) hd := hu
    have u1 : Function.update s.succ hd (s.succ hd ++ List.replicate (h - (s.succ hd).length) tl) = s1.succ := by rw [hs1']
    rw [← hs1', ← hu', e1, u1, e2]
    dsimp only
    rw [e3, a1]
  · rw [← a1]; exact I'
  · rw [kk, k1, a1]
  · rw [dd, d1, a1]
  · rw [aa, a1]

/-- `_insert` of a key that is there. -/
theorem insert_present (s : SL K D) (A B : List Id) (x : Id) (k : K) (d : Option D) (h : Nat) (hI : Inv s ((A ++ [x]) ++ B))
    (hA : ∀ a ∈ A, leKey (s.key a) k = true) (hx : s.key x = .val k) (hB : ∀ b ∈ B, leKey (s.key b) k = false)
    (hk : ∀ a ∈ A, s.key a ≠ .val k) : insert s k d h = some (changeInf s x d, x) := by
  unfold insert
  rw [scan_present s A B x k hI hA hx hB hk]

theorem filter_prefix (q : Id) : ∀ (L : List Id) (m : Nat), m ≤ L.length →
    (∀ i, i < L.length → (L[i]? = some q ↔ i < m)) → L.filter (· = q) = List.replicate m q := by
  intro L
  induction L with
  | nil => intro m hm _; simp at hm; subst hm; rfl
  | cons a L ih =>
    intro m hm h
    cases m with
    | zero =>
      rw [List.replicate_zero, List.filter_eq_nil_iff]
      intro b hb hbq
      obtain ⟨i, hi, e⟩ := List.mem_iff_getElem.1 hb
      have := (h i hi).1 (by rw [List.getElem?_eq_getElem hi, e]; simpa using hbq)
      omega
    | succ m =>
      have ha : a = q := by
        have := (h 0 (by simp)).2 (by omega)
        simpa using this
      rw [List.filter_cons, if_pos (by simpa using ha), ih m (by simpa using hm), ha, List.replicate_succ]
      intro i hi
      have := h (i + 1) (by simpa using hi)
      rw [List.getElem?_cons_succ] at this
      rw [this]; omega

/-- How many levels two neighbours share. -/
theorem shared (s : SL K D) (X Y : List Id) (hI : Inv s (X ++ Y)) (ne : X ++ Y ≠ []) :
    ∃ m, 0 < m ∧ m ≤ ht s hd ∧
      (s.succ (pl (ht s) 0 X)).filter (· = ql (ht s) 0 Y) = (List.range m).map (fun l => ql (ht s) l Y) ∧
      (s.prev (ql (ht s) 0 Y)).filter (· = pl (ht s) 0 X) = (List.range m).map (fun l => pl (ht s) l X) := by
  -- the last of `X`, the first of `Y`
  have plX : ∀ X' x, X = X' ++ [x] → pl (ht s) 0 X = x ∧ ∀ l, pl (ht s) l X = x ↔ l < ht s x := by
    intro X' x e
    have hx : x ∈ X ++ Y := by rw [e]; simp
    have h0 := hI.hpos x hx
    subst e
    refine ⟨by rw [pl_snoc, if_pos h0], fun l => ?_⟩
    rw [pl_snoc]
    by_cases h : l < ht s x
    · simp [h]
    · simp only [h, if_false, iff_false]
      apply pl_ne_of (fun e => hI.nhd (e ▸ hx))
      have := (List.nodup_append.1 (List.nodup_append.1 hI.nodup).1).2.2
      intro hc; exact this x hc x (by simp) rfl
  have qlY : ∀ y Y', Y = y :: Y' → ql (ht s) 0 Y = y ∧ ∀ l, ql (ht s) l Y = y ↔ l < ht s y := by
    intro y Y' e
    have hy : y ∈ X ++ Y := by rw [e]; simp
    have h0 := hI.hpos y hy
    subst e
    refine ⟨by rw [ql_cons, if_pos h0], fun l => ?_⟩
    rw [ql_cons]
    by_cases h : l < ht s y
    · simp [h]
    · simp only [h, if_false, iff_false]
      apply ql_ne_of (fun e => hI.ntl (e ▸ hy))
      exact (List.nodup_cons.1 (List.nodup_append.1 hI.nodup).2.1).1
  have key : ∃ m, 0 < m ∧ m ≤ ht s hd ∧ m ≤ (s.succ (pl (ht s) 0 X)).length ∧ m ≤ (s.prev (ql (ht s) 0 Y)).length ∧
      (∀ i, i < (s.succ (pl (ht s) 0 X)).length → ((s.succ (pl (ht s) 0 X))[i]? = some (ql (ht s) 0 Y) ↔ i < m)) ∧
      (∀ i, i < (s.prev (ql (ht s) 0 Y)).length → ((s.prev (ql (ht s) 0 Y))[i]? = some (pl (ht s) 0 X) ↔ i < m)) ∧
      (∀ l < m, ql (ht s) l Y = ql (ht s) 0 Y) ∧ (∀ l < m, pl (ht s) l X = pl (ht s) 0 X) := by
    rcases List.eq_nil_or_concat X with hX | ⟨X', x, hX⟩ <;> rcases hYc : Y with _ | ⟨y, Y'⟩
    · exfalso; apply ne; rw [hX, hYc]; rfl
    · -- the head and a node
      rw [← hYc]
      obtain ⟨e1, e2⟩ := qlY y Y' hYc
      have hy : y ∈ X ++ Y := by rw [hYc]; simp
      have p0 : ∀ l, pl (ht s) l X = hd := by intro l; rw [hX]; rfl
      refine ⟨ht s y, hI.hpos y hy, hI.hle y hy, ?_, ?_, ?_, ?_, ?_, ?_⟩
      · rw [p0]; exact hI.hle y hy
      · rw [e1, hI.plen y hy]
      · intro i hi; rw [p0] at hi ⊢
        have := hI.adjS X Y rfl i hi
        rw [p0] at this
        rw [this, e1]
        constructor
        · intro h; injection h with h; exact (e2 i).1 h
        · intro h; rw [(e2 i).2 h]
      · intro i hi; rw [e1] at hi ⊢
        rw [hI.plen y hy] at hi
        have := hI.adjP X Y rfl i (lt_of_lt_of_le hi (hI.hle y hy))
        rw [(e2 i).2 hi] at this
        rw [this, p0, p0]
        simp [hi]
      · intro l hl; rw [(e2 l).2 hl, e1]
      · intro l hl; rw [p0, p0]
    · -- a node and the tail
      rw [← hYc]
      rw [List.concat_eq_append] at hX
      obtain ⟨e1, e2⟩ := plX X' x hX
      have hx : x ∈ X ++ Y := by rw [hX]; simp
      have q0 : ∀ l, ql (ht s) l Y = tl := by intro l; rw [hYc]; rfl
      have xh : x ≠ hd := fun h => hI.nhd (h ▸ hx)
      refine ⟨ht s x, hI.hpos x hx, hI.hle x hx, ?_, ?_, ?_, ?_, ?_, ?_⟩
      · rw [e1]; exact le_refl _
      · rw [q0]; exact le_trans (hI.hle x hx) hI.tlen
      · intro i hi; rw [e1] at hi ⊢
        have := hI.adjS X Y rfl i (lt_of_lt_of_le hi (hI.hle x hx))
        rw [(e2 i).2 hi] at this
        rw [this, q0, q0]
        have hi' : i < ht s x := hi
        simp [hi']
      · intro i hi; rw [q0] at hi ⊢
        by_cases hH : i < ht s hd
        · have := hI.adjP X Y rfl i hH
          rw [q0] at this
          rw [this, e1]
          constructor
          · intro h; injection h with h; exact (e2 i).1 h
          · intro h; rw [(e2 i).2 h]
        · constructor
          · intro h; rw [e1] at h; exact absurd (hI.stale i x (by omega) h) xh
          · intro h; have := hI.hle x hx; omega
      · intro l hl; rw [q0, q0]
      · intro l hl; rw [(e2 l).2 hl, e1]
    · -- two nodes
      rw [← hYc]
      rw [List.concat_eq_append] at hX
      obtain ⟨e1, e2⟩ := plX X' x hX
      obtain ⟨e3, e4⟩ := qlY y Y' hYc
      have hx : x ∈ X ++ Y := by rw [hX]; simp
      have hy : y ∈ X ++ Y := by rw [hYc]; simp
      refine ⟨min (ht s x) (ht s y), ?_, ?_, ?_, ?_, ?_, ?_, ?_, ?_⟩
      · exact lt_min (hI.hpos x hx) (hI.hpos y hy)
      · exact le_trans (min_le_left _ _) (hI.hle x hx)
      · rw [e1]; exact min_le_left _ _
      · rw [e3, hI.plen y hy]; exact min_le_right _ _
      · intro i hi; rw [e1] at hi ⊢
        have hi' : i < ht s x := hi
        have := hI.adjS X Y rfl i (lt_of_lt_of_le hi (hI.hle x hx))
        rw [(e2 i).2 hi] at this
        rw [this, e3, lt_min_iff]
        constructor
        · intro h; injection h with h; exact ⟨hi', (e4 i).1 h⟩
        · intro h; rw [(e4 i).2 h.2]
      · intro i hi; rw [e3] at hi ⊢
        rw [hI.plen y hy] at hi
        have := hI.adjP X Y rfl i (lt_of_lt_of_le hi (hI.hle y hy))
        rw [(e4 i).2 hi] at this
        rw [this, e1, lt_min_iff]
        constructor
        · intro h; injection h with h; exact ⟨(e2 i).1 h, hi⟩
        · intro h; rw [(e2 i).2 h.1]
      · intro l hl; rw [lt_min_iff] at hl; rw [(e4 l).2 hl.2, e3]
      · intro l hl; rw [lt_min_iff] at hl; rw [(e2 l).2 hl.1, e1]
  obtain ⟨m, m0, mH, l1, l2, f1, f2, g1, g2⟩ := key
  refine ⟨m, m0, mH, ?_, ?_⟩
  · rw [filter_prefix _ _ m l1 f1]
    apply List.ext_getElem?
    intro i
    rw [List.getElem?_replicate, List.getElem?_map]
    by_cases hi : i < m
    · rw [if_pos hi, List.getElem?_range hi]; simp [g1 i hi]
    · rw [if_neg hi, List.getElem?_eq_none (by simpa using hi)]; rfl
  · rw [filter_prefix _ _ m l2 f2]
    apply List.ext_getElem?
    intro i
    rw [List.getElem?_replicate, List.getElem?_map]
    by_cases hi : i < m
    · rw [if_pos hi, List.getElem?_range hi]; simp [g2 i hi]
    · rw [if_neg hi, List.getElem?_eq_none (by simpa using hi)]; rfl

/-- `insertAt` behind or before a node of the sequence. -/
theorem insertAt_spec (s : SL K D) (X Y : List Id) (node : Id) (kn k : K) (d : Option D) (hI : Inv s (X ++ node :: Y))
    (hn : s.key node = .val kn) (hk : kn ≠ k) :
    ∃ s', insertAt s node k d = some (s', s.alloc) ∧
      Inv s' (if kn < k then X ++ node :: s.alloc :: Y else X ++ s.alloc :: node :: Y) ∧
      s'.key = Function.update s.key s.alloc (.val k) ∧ s'.data = Function.update s.data s.alloc d ∧
      s'.alloc = s.alloc + 1 := by
  have hnm : node ∈ X ++ node :: Y := by simp
  have h0 := hI.hpos node hnm
  unfold insertAt
  rw [if_neg (by rw [hn]; intro h; injection h with h; exact hk h), hn]
  dsimp only
  by_cases hlt : kn < k
  · have hg : gtKey (SKey.val kn) k = true := by simp [gtKey, hlt]
    rw [hg, if_pos rfl, if_pos hlt]
    have I1 : Inv s ((X ++ [node]) ++ Y) := by rwa [List.append_assoc, List.singleton_append]
    have p0 : pl (ht s) 0 (X ++ [node]) = node := by rw [pl_snoc, if_pos h0]
    have sq := I1.adjS _ _ rfl 0 I1.Hpos
    rw [p0] at sq
    dsimp only
    rw [sq]
    dsimp only
    obtain ⟨m, m0, mH, g1, g2⟩ := shared s _ _ I1 (by simp)
    rw [p0] at g1 g2
    obtain ⟨s', e, I', r⟩ := mkNode_spec s _ _ m k d I1 m0 mH _ _ g1 g2
    refine ⟨s', e, ?_, r⟩
    rwa [List.append_assoc, List.singleton_append] at I'
  · have hg : gtKey (SKey.val kn) k = false := by simp [gtKey, hlt]
    rw [hg, if_neg (by simp), if_neg hlt]
    have pp := hI.adjP X (node :: Y) rfl 0 hI.Hpos
    have q0 : ql (ht s) 0 (node :: Y) = node := by rw [ql_cons, if_pos h0]
    rw [q0] at pp
    rw [pp]
    dsimp only
    have sq := hI.adjS X (node :: Y) rfl 0 hI.Hpos
    rw [sq]
    dsimp only
    obtain ⟨m, m0, mH, g1, g2⟩ := shared s _ _ hI (by simp)
    obtain ⟨s', e, I', r⟩ := mkNode_spec s _ _ m k d hI m0 mH _ _ g1 g2
    exact ⟨s', e, I', r⟩

/-- One round of `reverseItems`. -/
theorem moveBehind_spec (s : SL K D) (X M W : List Id) (c b : Id) (hI : Inv s (X ++ c :: (M ++ b :: W))) :
    ∃ s', moveBehind s c b = some s' ∧ Inv s' (X ++ (M ++ b :: c :: W)) ∧ Frame s s' := by
  obtain ⟨s1, e1, I1, f1, _⟩ := delItem_spec s X (M ++ b :: W) c hI
  have nd := hI.nodup
  rw [List.nodup_middle, List.nodup_cons] at nd
  have cm : c ∈ X ++ c :: (M ++ b :: W) := by simp
  have ch : c ≠ hd := fun h => hI.nhd (h ▸ cm)
  have ct : c ≠ tl := fun h => hI.ntl (h ▸ cm)
  obtain ⟨kc, hkc⟩ := hI.vals c cm
  have eqL : X ++ (M ++ b :: W) = (X ++ M ++ [b]) ++ W := by simp
  have I2 : Inv s1 ((X ++ M ++ [b]) ++ W) := eqL ▸ I1
  have hb : 0 < ht s1 b := I1.hpos b (by simp)
  have p0 : pl (ht s1) 0 (X ++ M ++ [b]) = b := by rw [pl_snoc, if_pos hb]
  have sq := I2.adjS _ _ rfl 0 I2.Hpos
  rw [p0] at sq
  obtain ⟨m, m0, mH, g1, g2⟩ := shared s1 _ _ I2 (by simp)
  rw [p0] at g1 g2
  obtain ⟨s2, hs2⟩ : ∃ s2 : SL K D, s2 = { s1 with
    succ := Function.update s1.succ c ((s1.succ b).filter (· = ql (ht s1) 0 W))
    prev := Function.update s1.prev c ((s1.prev (ql (ht s1) 0 W)).filter (· = b)) } := ⟨_, rfl⟩
  have u2 : s2.succ = Function.update s1.succ c ((s1.succ b).filter (· = ql (ht s1) 0 W)) := by rw [hs2]
  have v2 : s2.prev = Function.update s1.prev c ((s1.prev (ql (ht s1) 0 W)).filter (· = b)) := by rw [hs2]
  have k2 : s2.key = s1.key := by rw [hs2]
  have a2 : s2.alloc = s1.alloc := by rw [hs2]
  have hc : c ∉ (X ++ M ++ [b]) ++ W := by rw [← eqL]; exact nd.1
  have I3 : Inv s2 ((X ++ M ++ [b]) ++ W) := by
    apply inv_fresh s1 s2 _ c I2 hc ch ct
    · intro x _; rw [k2]
    · rw [a2]
    · rw [hs2]
    · intro x hx; rw [u2, Function.update_of_ne hx]
    · intro x hx; rw [v2, Function.update_of_ne hx]
  have hht : ∀ x, x ≠ c → ht s2 x = ht s1 x := by
    intro x hx; unfold ht; rw [u2, Function.update_of_ne hx]
  have nX : ∀ y ∈ X ++ M ++ [b], ht s2 y = ht s1 y := fun y hy => hht y (fun h => hc (h ▸ List.mem_append_left _ hy))
  have nY : ∀ y ∈ W, ht s2 y = ht s1 y := fun y hy => hht y (fun h => hc (h ▸ List.mem_append_right _ hy))
  obtain ⟨s3, e3, I4, f3, _⟩ := inv_link s2 _ _ c m kc I3 hc ch ct
    (by rw [a2, f1.alloc]; exact hI.lt c cm) (by rw [k2, f1.key]; exact hkc) m0
    (by rw [hht hd ch.symm]; exact mH) (by rw [u2, Function.update_self, g1]; simp) (by rw [v2, Function.update_self, g2]; simp)
    (by
      intro l hl
      rw [v2, Function.update_self, g2, List.getElem?_map, List.getElem?_range hl, pl_congr l _ nX]; rfl)
    (by
      intro l hl
      rw [u2, Function.update_self, g1, List.getElem?_map, List.getElem?_range hl, ql_congr l _ nY]; rfl)
  refine ⟨{ s3 with size := s3.size + 1 }, ?_, ?_, ?_⟩
  · unfold moveBehind
    rw [e1]
    dsimp only
    rw [sq]
    dsimp only
    rw [← hs2, e3]
  · have : X ++ (M ++ b :: c :: W) = X ++ M ++ [b] ++ c :: W := by simp
    rw [this]; exact I4
  · refine ⟨?_, ?_, ?_⟩
    · show s3.key = _; rw [f3.key, k2, f1.key]
    · show s3.data = _; rw [f3.data, hs2]; exact f1.data
    · show s3.alloc = _; rw [f3.alloc, a2, f1.alloc]

/-- `reverseItems` reverses the part from `a` to `b`. -/
theorem reverseItems_spec : ∀ (M : List Id) (s : SL K D) (X W : List Id) (a b : Id) (f : Nat),
    Inv s (X ++ a :: (M ++ b :: W)) → M.length + 1 < f →
    ∃ s', reverseItems f s a b = some s' ∧ Inv s' (X ++ b :: (M.reverse ++ a :: W)) ∧ Frame s s' := by
  intro M
  induction M with
  | nil =>
    intro s X W a b f hI hf
    obtain ⟨f, rfl⟩ : ∃ g, f = g + 2 := ⟨f - 2, by simp at hf; omega⟩
    obtain ⟨s1, e1, I1, f1⟩ := moveBehind_spec s X [] W a b hI
    have nd := hI.nodup
    rw [List.nodup_middle, List.nodup_cons] at nd
    have hab : a ≠ b := fun h => nd.1 (by rw [h]; simp)
    have ha : 0 < ht s a := hI.hpos a (by simp)
    have hb : 0 < ht s b := hI.hpos b (by simp)
    have sa := hI.adjS (X ++ [a]) (b :: W) (by simp) 0 hI.Hpos
    rw [pl_snoc, if_pos ha, ql_cons, if_pos hb] at sa
    refine ⟨s1, ?_, I1, f1⟩
    rw [reverseItems, if_neg hab, sa]
    dsimp only
    rw [e1]
    dsimp only
    rw [reverseItems, if_pos rfl]
  | cons a2 M ih =>
    intro s X W a b f hI hf
    obtain ⟨f, rfl⟩ : ∃ g, f = g + 1 := ⟨f - 1, by omega⟩
    obtain ⟨s1, e1, I1, f1⟩ := moveBehind_spec s X (a2 :: M) W a b hI
    have nd := hI.nodup
    rw [List.nodup_middle, List.nodup_cons] at nd
    have hab : a ≠ b := fun h => nd.1 (by rw [h]; simp)
    have ha : 0 < ht s a := hI.hpos a (by simp)
    have ha2 : 0 < ht s a2 := hI.hpos a2 (by simp)
    have sa := hI.adjS (X ++ [a]) (a2 :: (M ++ b :: W)) (by simp) 0 hI.Hpos
    rw [pl_snoc, if_pos ha, ql_cons, if_pos ha2] at sa
    obtain ⟨s2, e2, I2, f2⟩ := ih s1 X (a :: W) a2 b f I1 (by simp at hf; omega)
    refine ⟨s2, ?_, ?_, ⟨f2.key.trans f1.key, f2.data.trans f1.data, f2.alloc.trans f1.alloc⟩⟩
    · rw [reverseItems, if_neg hab, sa]
      dsimp only
      rw [e1]
      dsimp only
      exact e2
    · simpa using I2

end Verif.Sweep
