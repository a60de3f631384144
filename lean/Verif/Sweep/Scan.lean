import Verif.Sweep.Cut
import Mathlib.Data.List.Perm.Subperm
import Mathlib.Data.List.Pairwise

/-!
# The search
-/

namespace Verif.Sweep
variable {K D : Type} [LinearOrder K]
set_option linter.unusedSectionVars false

theorem inv_length (s : SL K D) (xs : List Id) (hI : Inv s xs) : xs.length ≤ s.alloc := by
  have h : xs ⊆ List.range s.alloc := fun x hx => List.mem_range.2 (hI.lt x hx)
  have := (List.subperm_of_subset hI.nodup h).length_le
  rwa [List.length_range] at this

theorem pl_prefix (s : SL K D) (xs : List Id) (l : Nat) (n : Id) (h1 : n ∈ xs) (h2 : l < ht s n) :
    ∃ A1 A2, xs = A1 ++ A2 ∧ n = pl (ht s) l A1 := by
  obtain ⟨A, B, rfl⟩ := List.append_of_mem h1
  exact ⟨A ++ [n], B, by simp, by rw [pl_snoc, if_pos h2]⟩

/-- The walk along a level stops at the last node of the part that is not greater. -/
theorem walk_spec (s : SL K D) (A B : List Id) (k : K) (l : Nat) (hI : Inv s (A ++ B)) (hl : l < ht s hd)
    (hA : ∀ a ∈ A, leKey (s.key a) k = true) (hB : ∀ b ∈ B, leKey (s.key b) k = false) :
    ∀ (N : Nat) (A1 A2 : List Id) (f : Nat), A2.length ≤ N → A = A1 ++ A2 → A2.length < f →
      walk s l k f (pl (ht s) l A1) = some (pl (ht s) l A) := by
  intro N
  induction N with
  | zero =>
    intro A1 A2 f hN hA' hf
    obtain rfl : A2 = [] := List.length_eq_zero_iff.1 (by omega)
    obtain ⟨f, rfl⟩ : ∃ g, f = g + 1 := ⟨f - 1, by simp at hf; omega⟩
    rw [List.append_nil] at hA'
    subst hA'
    rw [walk, if_neg, hI.adjS A B rfl l hl]
    · dsimp only
      rw [if_neg]
      rcases ql_mem (ht s) l B with h | ⟨h, _⟩
      · rw [h, hI.kt]; simp [leKey]
      · rw [hB _ h]; simp
    · exact pl_ne_of (by decide) (fun h => hI.ntl (List.mem_append_left _ h))
  | succ N ih =>
    intro A1 A2 f hN hA' hf
    obtain ⟨f, rfl⟩ : ∃ g, f = g + 1 := ⟨f - 1, by omega⟩
    have nt : pl (ht s) l A1 ≠ tl :=
      pl_ne_of (by decide) (fun h => hI.ntl (List.mem_append_left _ (by rw [hA']; exact List.mem_append_left _ h)))
    rw [walk, if_neg nt, hI.adjS A1 (A2 ++ B) (by rw [hA', List.append_assoc]) l hl]
    dsimp only
    rcases ql_append (ht s) l A2 B with ⟨h1, h2⟩ | ⟨h1, _⟩
    · rw [h2, if_neg]
      · rcases pl_append (ht s) l A1 A2 with ⟨_, h⟩ | ⟨h, _⟩
        · rw [hA', h]
        · rcases pl_mem (ht s) l (A1 ++ A2) with h' | ⟨_, h'⟩
          · exfalso; rw [h'] at h; exact hI.nhd (List.mem_append_left _ (by rw [hA']; exact List.mem_append_right _ h))
          · have := h1 _ h; omega
      · rcases ql_mem (ht s) l B with h | ⟨h, _⟩
        · rw [h, hI.kt]; simp [leKey]
        · rw [hB _ h]; simp
    · have hy : l < ht s (ql (ht s) l (A2 ++ B)) := by
        rcases ql_mem (ht s) l (A2 ++ B) with h | ⟨_, h⟩
        · exfalso; rw [h] at h1; exact hI.ntl (List.mem_append_left _ (by rw [hA']; exact List.mem_append_right _ h1))
        · exact h
      rw [if_pos (hA _ (by rw [hA']; exact List.mem_append_right _ h1))]
      obtain ⟨Z, W, hZ⟩ := List.append_of_mem h1
      have e : ql (ht s) l (A2 ++ B) = pl (ht s) l (A1 ++ (Z ++ [ql (ht s) l (A2 ++ B)])) := by
        rw [← List.append_assoc, pl_snoc, if_pos hy]
      rw [e]
      have hlen : A2.length = Z.length + (W.length + 1) := by
        conv_lhs => rw [hZ]
        simp
      apply ih _ W
      · omega
      · rw [hA']
        conv_lhs => rw [hZ]
        simp
      · omega

/-- Where the walk may start. -/
def Good (s : SL K D) (A B : List Id) (l : Nat) (n : Id) : Prop :=
  n = hd ∨ (n ∈ A ∧ l < ht s n) ∨ n = ql (ht s) l (A ++ B)

theorem scanLevel_spec (s : SL K D) (A B : List Id) (k : K) (l : Nat) (n : Id) (hI : Inv s (A ++ B)) (hl : l < ht s hd)
    (hA : ∀ a ∈ A, leKey (s.key a) k = true) (hB : ∀ b ∈ B, leKey (s.key b) k = false) (hn : Good s A B l n) :
    scanLevel s l k n = some (pl (ht s) l A) := by
  have fuel : A.length < s.alloc + 1 := by
    have := inv_length s _ hI; rw [List.length_append] at this; omega
  unfold scanLevel
  have h0 := hI.adjS [] (A ++ B) rfl l hl
  rw [pl_nil] at h0
  rw [h0]
  dsimp only
  rcases ql_append (ht s) l A B with ⟨h1, h2⟩ | ⟨h1, _⟩
  · rw [if_neg, pl_none _ _ _ h1]
    rw [h2]
    rcases ql_mem (ht s) l B with h | ⟨h, _⟩
    · rw [h, hI.kt]; simp [leKey]
    · rw [hB _ h]; simp
  · rw [if_pos (hA _ h1)]
    have hy : l < ht s (ql (ht s) l (A ++ B)) := by
      rcases ql_mem (ht s) l (A ++ B) with h | ⟨_, h⟩
      · exfalso; rw [h] at h1; exact hI.ntl (List.mem_append_left _ h1)
      · exact h
    have key : ∀ n, n ∈ A → l < ht s n → walk s l k (s.alloc + 1) n = some (pl (ht s) l A) := by
      intro n g1 g2
      obtain ⟨A1, A2, e1, e2⟩ := pl_prefix s A l n g1 g2
      rw [e2]
      refine walk_spec s A B k l hI hl hA hB _ A1 A2 _ (le_refl _) e1 ?_
      rw [e1, List.length_append] at fuel; omega
    rcases hn with rfl | ⟨g1, g2⟩ | rfl
    · exact walk_spec s A B k l hI hl hA hB _ [] A _ (le_refl _) rfl fuel
    · exact key n g1 g2
    · exact key _ h1 hy

theorem good_next (s : SL K D) (A B : List Id) (l : Nat) : Good s A B l (pl (ht s) (l + 1) A) := by
  rcases pl_mem (ht s) (l + 1) A with h | ⟨h1, h2⟩
  · exact Or.inl h
  · exact Or.inr (Or.inl ⟨h1, by omega⟩)

theorem scanDown_absent (s : SL K D) (A B : List Id) (k : K) (hI : Inv s (A ++ B))
    (hA : ∀ a ∈ A, leKey (s.key a) k = true) (hB : ∀ b ∈ B, leKey (s.key b) k = false) (hk : ∀ a ∈ A, s.key a ≠ .val k) :
    ∀ l n, l ≤ ht s hd → (∀ j, l = j + 1 → Good s A B j n) →
      scanDown s k l n = some (none, (List.range l).map fun i => pl (ht s) i A) := by
  intro l
  induction l with
  | zero => intro n _ _; rfl
  | succ l ih =>
    intro n hl hn
    rw [scanDown, scanLevel_spec s A B k l n hI (by omega) hA hB (hn l rfl)]
    dsimp only
    rw [ih _ (by omega) (fun j hj => by subst hj; exact good_next s A B j)]
    dsimp only
    rw [if_neg, List.range_succ, List.map_append]
    · rfl
    · rcases pl_mem (ht s) l A with h | ⟨h, _⟩
      · rw [h, hI.kh]; simp
      · exact hk _ h

theorem scanDown_present (s : SL K D) (A B : List Id) (x : Id) (k : K) (hI : Inv s ((A ++ [x]) ++ B))
    (hA : ∀ a ∈ A, leKey (s.key a) k = true) (hx : s.key x = .val k) (hB : ∀ b ∈ B, leKey (s.key b) k = false)
    (hk : ∀ a ∈ A, s.key a ≠ .val k) :
    ∀ l n, l ≤ ht s hd → (∀ j, l = j + 1 → Good s (A ++ [x]) B j n) →
      scanDown s k l n = some (if 0 < l then some x else none,
        (List.range l).map fun i => if i < ht s x then hd else pl (ht s) i A) := by
  intro l
  have hA' : ∀ a ∈ A ++ [x], leKey (s.key a) k = true := by
    intro a ha
    rcases List.mem_append.1 ha with h | h
    · exact hA a h
    · rw [List.mem_singleton.1 h, hx]; simp [leKey]
  have hx0 : 0 < ht s x := hI.hpos x (by simp)
  induction l with
  | zero => intro n _ _; rfl
  | succ l ih =>
    intro n hl hn
    rw [scanDown, scanLevel_spec s _ B k l n hI (by omega) hA' hB (hn l rfl)]
    dsimp only
    rw [ih _ (by omega) (fun j hj => by subst hj; exact good_next s _ B j)]
    dsimp only
    rw [pl_snoc, List.range_succ, List.map_append]
    by_cases hlx : l < ht s x
    · rw [if_pos hlx, if_pos hx, if_pos (Nat.succ_pos l)]
      congr 2
      · by_cases h0 : 0 < l
        · rw [if_pos h0]; rfl
        · rw [if_neg h0]; rfl
      · simp [hlx]
    · rw [if_neg hlx, if_neg, if_pos (Nat.succ_pos l), if_pos (by omega : 0 < l)]
      · simp [hlx]
      · rcases pl_mem (ht s) l A with h | ⟨h, _⟩
        · rw [h, hI.kh]; simp
        · exact hk _ h

theorem scan_start (s : SL K D) (A B : List Id) (hI : Inv s (A ++ B)) :
    ∃ n, (s.succ hd).getLast? = some n ∧ ∀ j, ht s hd = j + 1 → Good s A B j n := by
  have h := hI.Hpos
  have e := hI.adjS [] (A ++ B) rfl (ht s hd - 1) (by omega)
  rw [pl_nil] at e
  refine ⟨ql (ht s) (ht s hd - 1) (A ++ B), ?_, ?_⟩
  · rw [List.getLast?_eq_getElem?]; exact e
  · intro j hj
    right; right
    rw [hj]; rfl

/-- `_scan` for a key that is not there. -/
theorem scan_absent (s : SL K D) (A B : List Id) (k : K) (hI : Inv s (A ++ B))
    (hA : ∀ a ∈ A, leKey (s.key a) k = true) (hB : ∀ b ∈ B, leKey (s.key b) k = false) (hk : ∀ a ∈ A, s.key a ≠ .val k) :
    scan s k = some (none, (List.range (ht s hd)).map fun i => pl (ht s) i A) := by
  obtain ⟨n, e, g⟩ := scan_start s A B hI
  unfold scan
  rw [e]
  exact scanDown_absent s A B k hI hA hB hk _ n (le_refl _) g

/-- `_scan` for a key that is there. -/
theorem scan_present (s : SL K D) (A B : List Id) (x : Id) (k : K) (hI : Inv s ((A ++ [x]) ++ B))
    (hA : ∀ a ∈ A, leKey (s.key a) k = true) (hx : s.key x = .val k) (hB : ∀ b ∈ B, leKey (s.key b) k = false)
    (hk : ∀ a ∈ A, s.key a ≠ .val k) :
    scan s k = some (some x, (List.range (ht s hd)).map fun i => if i < ht s x then hd else pl (ht s) i A) := by
  obtain ⟨n, e, g⟩ := scan_start s (A ++ [x]) B hI
  unfold scan
  rw [e]
  have := scanDown_present s A B x k hI hA hx hB hk _ n (le_refl _) g
  rw [if_pos hI.Hpos] at this
  exact this

/-- The keys increase along the list. -/
def SortedBy (s : SL K D) (xs : List Id) : Prop :=
  xs.Pairwise fun a b => ∀ ka kb, s.key a = .val ka → s.key b = .val kb → ka < kb

/-- In a sorted list every key cuts it: the key is absent or it is the last of the first part. -/
theorem cut_sorted (s : SL K D) (xs : List Id) (k : K) (hI : Inv s xs) (hs : SortedBy s xs) :
    (∃ A B, xs = A ++ B ∧ (∀ a ∈ A, ∃ ka, s.key a = .val ka ∧ ka < k) ∧ (∀ b ∈ B, ∃ kb, s.key b = .val kb ∧ k < kb)) ∨
    (∃ A x B, xs = A ++ [x] ++ B ∧ s.key x = .val k ∧ (∀ a ∈ A, ∃ ka, s.key a = .val ka ∧ ka < k) ∧
      (∀ b ∈ B, ∃ kb, s.key b = .val kb ∧ k < kb)) := by
  have hv := hI.vals
  clear hI
  induction xs with
  | nil => left; exact ⟨[], [], rfl, by simp, by simp⟩
  | cons y xs ih =>
    obtain ⟨ky, hy⟩ := hv y List.mem_cons_self
    have hs' := List.pairwise_cons.1 hs
    have hv' : ∀ x ∈ xs, ∃ k, s.key x = .val k := fun x hx => hv x (List.mem_cons_of_mem _ hx)
    rcases lt_trichotomy ky k with h | h | h
    · rcases ih hs'.2 hv' with ⟨A, B, e, a1, b1⟩ | ⟨A, x, B, e, hx, a1, b1⟩
      · left; refine ⟨y :: A, B, by rw [e]; rfl, ?_, b1⟩
        intro a ha; rcases List.mem_cons.1 ha with rfl | ha
        · exact ⟨ky, hy, h⟩
        · exact a1 a ha
      · right; refine ⟨y :: A, x, B, by rw [e]; rfl, hx, ?_, b1⟩
        intro a ha; rcases List.mem_cons.1 ha with rfl | ha
        · exact ⟨ky, hy, h⟩
        · exact a1 a ha
    · right; refine ⟨[], y, xs, rfl, by rw [hy, h], by simp, ?_⟩
      intro b hb
      obtain ⟨kb, hb'⟩ := hv' b hb
      exact ⟨kb, hb', h ▸ hs'.1 b hb ky kb hy hb'⟩
    · left; refine ⟨[], y :: xs, rfl, by simp, ?_⟩
      intro b hb; rcases List.mem_cons.1 hb with rfl | hb
      · exact ⟨ky, hy, h⟩
      · obtain ⟨kb, hb'⟩ := hv' b hb
        exact ⟨kb, hb', lt_trans h (hs'.1 b hb ky kb hy hb')⟩

theorem le_of {s : SL K D} {A : List Id} {k : K} (h : ∀ a ∈ A, ∃ ka, s.key a = .val ka ∧ ka < k) :
    (∀ a ∈ A, leKey (s.key a) k = true) ∧ ∀ a ∈ A, s.key a ≠ .val k := by
  constructor
  · intro a ha; obtain ⟨ka, e, hl⟩ := h a ha; rw [e]; simp [leKey, le_of_lt hl]
  · intro a ha hc; obtain ⟨ka, e, hl⟩ := h a ha; rw [e] at hc; injection hc with hc; exact ne_of_lt hl hc

theorem gt_of {s : SL K D} {B : List Id} {k : K} (h : ∀ b ∈ B, ∃ kb, s.key b = .val kb ∧ k < kb) :
    (∀ b ∈ B, leKey (s.key b) k = false) ∧ ∀ b ∈ B, s.key b ≠ .val k := by
  constructor
  · intro a ha; obtain ⟨ka, e, hl⟩ := h a ha; rw [e]; simp [leKey, hl]
  · intro a ha hc; obtain ⟨ka, e, hl⟩ := h a ha; rw [e] at hc; injection hc with hc; exact ne_of_gt hl hc

/-- Iteration gives the list. -/
theorem nodesFrom_spec (s : SL K D) (xs : List Id) (hI : Inv s xs) : ∀ (Y X : List Id) (f : Nat), xs = X ++ Y → Y.length < f →
    nodesFrom s 0 f (ql (ht s) 0 Y) = some Y := by
  intro Y
  induction Y with
  | nil =>
    intro X f _ hf
    obtain ⟨f, rfl⟩ : ∃ g, f = g + 1 := ⟨f - 1, by simp at hf; omega⟩
    rw [ql_nil, nodesFrom, if_pos rfl]
  | cons y Y ih =>
    intro X f hXY hf
    obtain ⟨f, rfl⟩ : ∃ g, f = g + 1 := ⟨f - 1, by omega⟩
    have hy : y ∈ xs := by rw [hXY]; simp
    have h0 := hI.hpos y hy
    have hs := hI.adjS (X ++ [y]) Y (by rw [hXY]; simp) 0 hI.Hpos
    rw [pl_snoc, if_pos h0] at hs
    rw [ql_cons, if_pos h0, nodesFrom, if_neg (fun h : y = tl => hI.ntl (h ▸ hy)), hs]
    dsimp only
    rw [ih (X ++ [y]) f (by rw [hXY]; simp) (by simp at hf; omega)]; rfl

theorem nodes_spec (s : SL K D) (xs : List Id) (hI : Inv s xs) : nodes s = some xs := by
  unfold nodes
  have h := hI.adjS [] xs rfl 0 hI.Hpos
  rw [pl_nil] at h
  rw [h]
  have := inv_length s xs hI
  exact nodesFrom_spec s xs hI xs [] _ rfl (by omega)

end Verif.Sweep
