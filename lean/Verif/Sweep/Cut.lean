import Verif.Sweep.Splice

/-!
# Removal of a node, unused levels, new levels
-/

namespace Verif.Sweep
variable {K D : Type} [LinearOrder K]
set_option linter.unusedSectionVars false

theorem inv_unlink (s : SL K D) (X0 Y0 : List Id) (c : Nat) (hI : Inv s (X0 ++ c :: Y0)) :
    ∃ s', (List.range (s.succ c).length).foldlM (unlinkStep c) s = some s' ∧
      Inv { s' with size := s'.size - 1 } (X0 ++ Y0) ∧ Frame s s' ∧
      (∀ x, (s'.succ x).length = (s.succ x).length) ∧ s'.succ c = s.succ c := by
  have cm : c ∈ X0 ++ c :: Y0 := by simp
  have nd0 := hI.nodup
  rw [List.nodup_middle, List.nodup_cons] at nd0
  obtain ⟨hc, nd1⟩ := nd0
  have ch : c ≠ hd := fun h => hI.nhd (h ▸ cm)
  have ct : c ≠ tl := fun h => hI.ntl (h ▸ cm)
  have hcX : c ∉ X0 := fun h => hc (List.mem_append_left _ h)
  have hcY : c ∉ Y0 := fun h => hc (List.mem_append_right _ h)
  have nd := List.nodup_append.1 nd1
  have sub : ∀ x, x ∈ X0 ++ Y0 → x ∈ X0 ++ c :: Y0 := by
    intro x hx; rw [List.mem_append] at hx; rw [List.mem_append, List.mem_cons]; tauto
  have hh0 : hd ∉ X0 ++ Y0 := fun h => hI.nhd (sub _ h)
  have ht0 : tl ∉ X0 ++ Y0 := fun h => hI.ntl (sub _ h)
  have dis : ∀ x ∈ X0, x ∉ Y0 := fun x hx hy => nd.2.2 x hx x hy rfl
  obtain ⟨m, hm⟩ : ∃ m, m = ht s c := ⟨_, rfl⟩
  have mH : m ≤ ht s hd := hm ▸ hI.hle c cm
  have hp : ∀ l < m, (s.prev c)[l]? = some (pl (ht s) l X0) := by
    intro l hl
    have := hI.adjP X0 (c :: Y0) rfl l (by omega)
    rwa [ql_cons, if_pos (by omega)] at this
  have hq : ∀ l < m, (s.succ c)[l]? = some (ql (ht s) l Y0) := by
    intro l hl
    have := hI.adjS (X0 ++ [c]) Y0 (by simp) l (by omega)
    rwa [pl_snoc, if_pos (by omega)] at this
  have adS : ∀ l < m, (s.succ (pl (ht s) l X0))[l]? = some c := by
    intro l hl
    have := hI.adjS X0 (c :: Y0) rfl l (by omega)
    rwa [ql_cons, if_pos (by omega)] at this
  have adP : ∀ l < m, (s.prev (ql (ht s) l Y0))[l]? = some c := by
    intro l hl
    have := hI.adjP (X0 ++ [c]) Y0 (by simp) l (by omega)
    rwa [pl_snoc, if_pos (by omega)] at this
  obtain ⟨s', e, a⟩ := loop_spec (unlinkStep c) c s (fun l => pl (ht s) l X0) (fun l => ql (ht s) l Y0)
    (fun l => ql (ht s) l Y0) (fun l => pl (ht s) l X0) m
    (by intro s1 l _ h1 h2; unfold unlinkStep; rw [h1, h2]; rfl)
    hp hq
    (by intro l hl; exact lt_of_some (adS l hl))
    (by intro l hl; exact lt_of_some (adP l hl))
    (by intro l _; exact pl_ne_of ch hcX)
    (by intro l _; exact ql_ne_of ct hcY)
  have hht : ht s' = ht s := funext a.lenS
  have hht' : ∀ z, ht ({ s' with size := z } : SL K D) = ht s := fun z => hht
  refine ⟨s', ?_, ?_, ⟨a.key, a.data, a.alloc⟩, a.lenS, a.succ_ne c (fun l _ => pl_ne_of ch hcX)⟩
  · rw [show (s.succ c).length = m from hm.symm]; exact e
  constructor
  · exact nd1
  · exact hh0
  · exact ht0
  · intro x hx; show x < s'.alloc; rw [a.alloc]; exact hI.lt x (sub x hx)
  · show 2 ≤ s'.alloc; rw [a.alloc]; exact hI.al
  · intro x hx; rw [hht']; exact hI.hpos x (sub x hx)
  · intro x hx; rw [hht']; show (s'.prev x).length = _; rw [a.lenP]; exact hI.plen x (sub x hx)
  · intro x hx; rw [hht']; exact hI.hle x (sub x hx)
  · rw [hht']; exact hI.Hpos
  · rw [hht']; show _ ≤ (s'.prev tl).length; rw [a.lenP]; exact hI.tlen
  · intro l p hl hp'; rw [hht'] at hl
    have hp'' : (s'.prev tl)[l]? = some p := hp'
    rw [a.prev, if_neg (fun h => absurd h.1 (by omega))] at hp''
    exact hI.stale l p hl hp''
  · intro X Y hXY l hl
    rw [hht'] at hl ⊢
    show (s'.succ _)[l]? = _
    rcases split_cases' hXY with ⟨Z, hX, hY⟩ | ⟨Z, hX, hY⟩
    · have old := hI.adjS X (Z ++ c :: Y0) (by rw [hX, List.append_assoc]) l hl
      subst hY
      rcases ql_append (ht s) l Z Y0 with ⟨h1, h2⟩ | ⟨h1, h2⟩
      · have e1 : pl (ht s) l X0 = pl (ht s) l X := by
          rw [hX]; rcases pl_append (ht s) l X Z with ⟨_, h⟩ | ⟨h, _⟩
          · exact h
          · rcases pl_mem (ht s) l (X ++ Z) with h' | ⟨_, h'⟩
            · exfalso; rw [h'] at h; exact hh0 (List.mem_append_left _ (by rw [hX]; exact List.mem_append_right _ h))
            · have := h1 _ h; omega
        rw [h2]
        by_cases hlm : l < m
        · rw [a.succ, if_pos ⟨hlm, e1⟩]
        · rw [a.succ, if_neg (fun h => hlm h.1), old]
          rcases ql_append (ht s) l Z (c :: Y0) with ⟨_, h⟩ | ⟨h, _⟩
          · rw [h, ql_cons, if_neg (by omega)]
          · rcases ql_mem (ht s) l (Z ++ c :: Y0) with h' | ⟨_, h'⟩
            · exfalso; rw [h'] at h; exact ht0 (List.mem_append_left _ (by rw [hX]; exact List.mem_append_right _ h))
            · have := h1 _ h; omega
      · rw [a.succ, if_neg, old, h2 (c :: Y0)]
        rintro ⟨_, h3⟩
        rw [hX] at h3
        rcases pl_append (ht s) l X Z with ⟨h4, h5⟩ | ⟨h4, h5⟩
        · rcases ql_mem (ht s) l (Z ++ Y0) with h' | ⟨_, h'⟩
          · rw [h'] at h1; exact ht0 (List.mem_append_left _ (by rw [hX]; exact List.mem_append_right _ h1))
          · have := h4 _ h1; omega
        · rw [h3] at h4
          rcases pl_mem (ht s) l X with h' | ⟨h', _⟩
          · rw [h'] at h4; exact hh0 (List.mem_append_left _ (by rw [hX]; exact List.mem_append_right _ h4))
          · have nd1 : (X ++ Z).Nodup := hX ▸ nd.1
            exact (List.nodup_append.1 nd1).2.2 _ h' _ h4 rfl
    · have old := hI.adjS (X0 ++ c :: Z) Y (by rw [hY, List.append_assoc, List.cons_append]) l hl
      subst hX
      rcases pl_append (ht s) l X0 Z with ⟨h1, h2⟩ | ⟨h1, h2⟩
      · have e1 : ql (ht s) l Y0 = ql (ht s) l Y := by
          rw [hY]; rcases ql_append (ht s) l Z Y with ⟨_, h⟩ | ⟨h, _⟩
          · exact h
          · rcases ql_mem (ht s) l (Z ++ Y) with h' | ⟨_, h'⟩
            · exfalso; rw [h'] at h; exact ht0 (List.mem_append_right _ (by rw [hY]; exact List.mem_append_left _ h))
            · have := h1 _ h; omega
        rw [h2]
        by_cases hlm : l < m
        · rw [a.succ, if_pos ⟨hlm, rfl⟩, e1]
        · rw [a.succ, if_neg (fun h => hlm h.1)]
          have : pl (ht s) l (X0 ++ c :: Z) = pl (ht s) l X0 := by
            rcases pl_append (ht s) l (X0 ++ [c]) Z with ⟨_, h⟩ | ⟨h, _⟩
            · rw [List.append_assoc, List.singleton_append] at h
              rw [h, pl_snoc, if_neg (by omega)]
            · rw [List.append_assoc, List.singleton_append] at h
              rcases pl_mem (ht s) l (X0 ++ c :: Z) with h' | ⟨_, h'⟩
              · exfalso; rw [h'] at h; exact hh0 (List.mem_append_right _ (by rw [hY]; exact List.mem_append_left _ h))
              · have := h1 _ h; omega
          rw [← this, old]
      · have h3 := h2 (X0 ++ [c])
        rw [List.append_assoc, List.singleton_append] at h3
        rw [h3] at old
        rw [a.succ, if_neg, old]
        rintro ⟨_, h4⟩
        rw [← h4] at h1
        have hz : pl (ht s) l X0 ∈ Y0 := by rw [hY]; exact List.mem_append_left _ h1
        rcases pl_mem (ht s) l X0 with h' | ⟨h', _⟩
        · rw [h'] at hz; exact hh0 (List.mem_append_right _ hz)
        · exact dis _ h' hz
  · intro X Y hXY l hl
    rw [hht'] at hl ⊢
    show (s'.prev _)[l]? = _
    rcases split_cases' hXY with ⟨Z, hX, hY⟩ | ⟨Z, hX, hY⟩
    · have old := hI.adjP X (Z ++ c :: Y0) (by rw [hX, List.append_assoc]) l hl
      subst hY
      rcases ql_append (ht s) l Z Y0 with ⟨h1, h2⟩ | ⟨h1, h2⟩
      · have e1 : pl (ht s) l X0 = pl (ht s) l X := by
          rw [hX]; rcases pl_append (ht s) l X Z with ⟨_, h⟩ | ⟨h, _⟩
          · exact h
          · rcases pl_mem (ht s) l (X ++ Z) with h' | ⟨_, h'⟩
            · exfalso; rw [h'] at h; exact hh0 (List.mem_append_left _ (by rw [hX]; exact List.mem_append_right _ h))
            · have := h1 _ h; omega
        rw [h2]
        by_cases hlm : l < m
        · rw [a.prev, if_pos ⟨hlm, rfl⟩, e1]
        · rw [a.prev, if_neg (fun h => hlm h.1)]
          have : ql (ht s) l (Z ++ c :: Y0) = ql (ht s) l Y0 := by
            rcases ql_append (ht s) l Z (c :: Y0) with ⟨_, h⟩ | ⟨h, _⟩
            · rw [h, ql_cons, if_neg (by omega)]
            · rcases ql_mem (ht s) l (Z ++ c :: Y0) with h' | ⟨_, h'⟩
              · exfalso; rw [h'] at h; exact ht0 (List.mem_append_left _ (by rw [hX]; exact List.mem_append_right _ h))
              · have := h1 _ h; omega
          rw [← this, old]
      · rw [h2 (c :: Y0)] at old
        rw [a.prev, if_neg, old]
        rintro ⟨_, h3⟩
        rw [← h3] at h1
        have hz : ql (ht s) l Y0 ∈ X0 := by rw [hX]; exact List.mem_append_right _ h1
        rcases ql_mem (ht s) l Y0 with h' | ⟨h', _⟩
        · rw [h'] at hz; exact ht0 (List.mem_append_left _ hz)
        · exact dis _ hz h'
    · have old := hI.adjP (X0 ++ c :: Z) Y (by rw [hY, List.append_assoc, List.cons_append]) l hl
      subst hX
      rcases pl_append (ht s) l X0 Z with ⟨h1, h2⟩ | ⟨h1, h2⟩
      · have e1 : ql (ht s) l Y0 = ql (ht s) l Y := by
          rw [hY]; rcases ql_append (ht s) l Z Y with ⟨_, h⟩ | ⟨h, _⟩
          · exact h
          · rcases ql_mem (ht s) l (Z ++ Y) with h' | ⟨_, h'⟩
            · exfalso; rw [h'] at h; exact ht0 (List.mem_append_right _ (by rw [hY]; exact List.mem_append_left _ h))
            · have := h1 _ h; omega
        rw [h2]
        by_cases hlm : l < m
        · rw [a.prev, if_pos ⟨hlm, e1⟩]
        · rw [a.prev, if_neg (fun h => hlm h.1), old]
          rcases pl_append (ht s) l (X0 ++ [c]) Z with ⟨_, h⟩ | ⟨h, _⟩
          · rw [List.append_assoc, List.singleton_append] at h
            rw [h, pl_snoc, if_neg (by omega)]
          · rw [List.append_assoc, List.singleton_append] at h
            rcases pl_mem (ht s) l (X0 ++ c :: Z) with h' | ⟨_, h'⟩
            · exfalso; rw [h'] at h; exact hh0 (List.mem_append_right _ (by rw [hY]; exact List.mem_append_left _ h))
            · have := h1 _ h; omega
      · have h3 := h2 (X0 ++ [c])
        rw [List.append_assoc, List.singleton_append] at h3
        rw [h3] at old
        rw [a.prev, if_neg, old]
        rintro ⟨_, h4⟩
        rw [hY] at h4
        rcases ql_append (ht s) l Z Y with ⟨h5, _⟩ | ⟨h5, _⟩
        · rcases pl_mem (ht s) l (X0 ++ Z) with h' | ⟨_, h'⟩
          · rw [h'] at h1; exact hh0 (List.mem_append_right _ (by rw [hY]; exact List.mem_append_left _ h1))
          · have := h5 _ h1; omega
        · rw [h4] at h5
          rcases ql_mem (ht s) l Y with h' | ⟨h', _⟩
          · rw [h'] at h5; exact ht0 (List.mem_append_right _ (by rw [hY]; exact List.mem_append_left _ h5))
          · have nd1 : (Z ++ Y).Nodup := hY ▸ nd.2.1
            exact (List.nodup_append.1 nd1).2.2 _ h5 _ h' rfl
  · intro x hx; show ∃ k, s'.key x = .val k; rw [a.key]; exact hI.vals x (sub x hx)
  · show s'.key hd = _; rw [a.key]; exact hI.kh
  · show s'.key tl = _; rw [a.key]; exact hI.kt
  · show s'.size - 1 = _; rw [a.size, hI.size]; simp only [List.length_append, List.length_cons]; omega

theorem trim_spec : ∀ (n : Nat) (l : List Id), l.length = n → 0 < n →
    ∃ j, trim n l = l.take j ∧ 0 < j ∧ j ≤ n ∧ ∀ i, j ≤ i → i < n → l[i]? = some tl := by
  intro n
  induction n with
  | zero => intro l _ h; omega
  | succ i ih =>
    intro l hl _
    rw [trim]
    by_cases h1 : l[i]? ≠ some tl
    · rw [if_pos h1]
      exact ⟨i + 1, by rw [List.take_of_length_le (by omega)], by omega, le_refl _, fun k _ _ => by omega⟩
    · rw [if_neg h1]
      push Not at h1
      by_cases h2 : 0 < i
      · rw [if_pos h2]
        obtain ⟨j, e, j0, ji, hj⟩ := ih l.dropLast (by rw [List.length_dropLast]; omega) h2
        refine ⟨j, ?_, j0, by omega, ?_⟩
        · rw [e, List.dropLast_eq_take, List.take_take, hl]; congr 1; omega
        · intro k hk hk2
          by_cases hki : k = i
          · rw [hki]; exact h1
          · have := hj k hk (by omega)
            rwa [List.dropLast_eq_take, List.getElem?_take_of_lt (by omega)] at this
      · rw [if_neg h2]
        exact ⟨i + 1, by rw [List.take_of_length_le (by omega)], by omega, le_refl _, fun k _ _ => by omega⟩

/-- A change of the number of levels of the head. -/
theorem inv_levels (s s' : SL K D) (xs : List Id) (hI : Inv s xs) (hk : s'.key = s.key) (ha : s'.alloc = s.alloc)
    (hz : s'.size = s.size) (hs : ∀ x, x ≠ hd → s'.succ x = s.succ x) (hp : ∀ x, x ≠ tl → s'.prev x = s.prev x)
    (H0 : 0 < ht s' hd) (hle : ∀ x ∈ xs, ht s x ≤ ht s' hd) (tle : ht s' hd ≤ (s'.prev tl).length)
    (old : ∀ l, l < ht s hd → l < ht s' hd → (s'.succ hd)[l]? = (s.succ hd)[l]? ∧ (s'.prev tl)[l]? = (s.prev tl)[l]?)
    (new : ∀ l, ht s hd ≤ l → l < ht s' hd → (s'.succ hd)[l]? = some tl ∧ (s'.prev tl)[l]? = some hd)
    (hst : ∀ l p, ht s' hd ≤ l → (s'.prev tl)[l]? = some p → p = hd) : Inv s' xs := by
  have hx : ∀ x ∈ xs, ht s' x = ht s x := by
    intro x hx; unfold ht; rw [hs x (fun h => hI.nhd (h ▸ hx))]
  refine ⟨hI.nodup, hI.nhd, hI.ntl, fun x h => ha ▸ hI.lt x h, ha ▸ hI.al, fun x h => (hx x h) ▸ hI.hpos x h, ?_, ?_, H0, tle,
    hst, ?_, ?_, fun x h => hk ▸ hI.vals x h, hk ▸ hI.kh, hk ▸ hI.kt, hz ▸ hI.size⟩
  · intro x h; rw [hx x h, hp x (fun e => hI.ntl (e ▸ h))]; exact hI.plen x h
  · intro x h; rw [hx x h]; exact hle x h
  · intro X Y hXY l hl
    rw [pl_congr l X (h' := ht s) (fun y hy => hx y (by rw [hXY]; exact List.mem_append_left _ hy)),
      ql_congr l Y (h' := ht s) (fun y hy => hx y (by rw [hXY]; exact List.mem_append_right _ hy))]
    by_cases h1 : l < ht s hd
    · have o := hI.adjS X Y hXY l h1
      rcases pl_mem (ht s) l X with h2 | ⟨h2, _⟩
      · rw [h2] at o ⊢; rw [(old l h1 hl).1]; exact o
      · rw [hs _ (fun h => hI.nhd (by rw [hXY, ← h]; exact List.mem_append_left _ h2))]; exact o
    · have h2 : ∀ x ∈ xs, ht s x ≤ l := fun x hx => le_trans (hI.hle x hx) (by omega)
      rw [pl_none _ _ _ (fun y hy => h2 y (by rw [hXY]; exact List.mem_append_left _ hy)),
        ql_none _ _ _ (fun y hy => h2 y (by rw [hXY]; exact List.mem_append_right _ hy))]
      exact (new l (by omega) hl).1
  · intro X Y hXY l hl
    rw [pl_congr l X (h' := ht s) (fun y hy => hx y (by rw [hXY]; exact List.mem_append_left _ hy)),
      ql_congr l Y (h' := ht s) (fun y hy => hx y (by rw [hXY]; exact List.mem_append_right _ hy))]
    by_cases h1 : l < ht s hd
    · have o := hI.adjP X Y hXY l h1
      rcases ql_mem (ht s) l Y with h2 | ⟨h2, _⟩
      · rw [h2] at o ⊢; rw [(old l h1 hl).2]; exact o
      · rw [hp _ (fun h => hI.ntl (by rw [hXY, ← h]; exact List.mem_append_right _ h2))]; exact o
    · have h2 : ∀ x ∈ xs, ht s x ≤ l := fun x hx => le_trans (hI.hle x hx) (by omega)
      rw [pl_none _ _ _ (fun y hy => h2 y (by rw [hXY]; exact List.mem_append_left _ hy)),
        ql_none _ _ _ (fun y hy => h2 y (by rw [hXY]; exact List.mem_append_right _ hy))]
      exact (new l (by omega) hl).2

theorem inv_trim (s : SL K D) (xs : List Id) (hI : Inv s xs) : Inv (trimHead s) xs := by
  obtain ⟨j, e, j0, jn, hj⟩ := trim_spec (s.succ hd).length (s.succ hd) rfl hI.Hpos
  have hh : (trimHead s).succ hd = (s.succ hd).take j := by unfold trimHead; dsimp only; rw [Function.update_self, e]
  have hH : ht (trimHead s) hd = j := by unfold ht; rw [hh, List.length_take]; omega
  have lv : ∀ l, j ≤ l → l < ht s hd → ∀ x ∈ xs, ht s x ≤ l := by
    intro l h1 h2 x hx
    have h3 := hI.adjS [] xs rfl l h2
    rw [pl_nil, hj l h1 h2] at h3
    by_contra hc
    rcases List.append_of_mem hx with ⟨A, B, hAB⟩
    have h4 : ql (ht s) l xs ∈ xs := by
      rcases ql_mem (ht s) l xs with h | ⟨h, _⟩
      · exfalso
        rw [hAB] at h
        rcases ql_append (ht s) l A (x :: B) with ⟨_, h'⟩ | ⟨h', _⟩
        · rw [h', ql_cons, if_pos (by omega)] at h
          exact hI.ntl (h ▸ hx)
        · rw [h] at h'; exact hI.ntl (by rw [hAB]; exact List.mem_append_left _ h')
      · exact h
    injection h3 with h3
    rw [← h3] at h4; exact hI.ntl h4
  apply inv_levels s (trimHead s) xs hI rfl rfl rfl
  · intro x hx; unfold trimHead; dsimp only; rw [Function.update_of_ne hx]
  · intro x _; rfl
  · rw [hH]; exact j0
  · intro x hx; rw [hH]
    by_cases hjl : j < ht s hd
    · exact lv j (le_refl j) hjl x hx
    · have : ht s hd = j := by unfold ht at hjl ⊢; omega
      rw [← this]; exact hI.hle x hx
  · rw [hH]; exact le_trans jn hI.tlen
  · intro l _ h2; rw [hH] at h2; rw [hh]; exact ⟨List.getElem?_take_of_lt h2, rfl⟩
  · intro l h1 h2; rw [hH] at h2; unfold ht at h1; omega
  · intro l p hl hp; rw [hH] at hl
    have hp' : (s.prev tl)[l]? = some p := hp
    by_cases h1 : l < ht s hd
    · have h2 := hI.adjP xs [] (by simp) l h1
      rw [ql_nil, hp', pl_none _ _ _ (lv l hl h1)] at h2
      injection h2
    · exact hI.stale l p (by omega) hp'

/-- The state with `n` more levels (skiplist.py:111-113). -/
def extend (s : SL K D) (n : Nat) : SL K D := { s with
  succ := Function.update s.succ hd (s.succ hd ++ List.replicate n tl)
  prev := Function.update s.prev tl (s.prev tl ++ List.replicate n hd) }

theorem extend_succ_hd (s : SL K D) (n : Nat) : (extend s n).succ hd = s.succ hd ++ List.replicate n tl := by
  unfold extend; dsimp only; rw [Function.update_self]

theorem extend_ht (s : SL K D) (n : Nat) : ht (extend s n) hd = ht s hd + n := by
  unfold ht; rw [extend_succ_hd, List.length_append, List.length_replicate]

theorem inv_extend (s : SL K D) (xs : List Id) (n : Nat) (hI : Inv s xs) : Inv (extend s n) xs := by
  have hp : (extend s n).prev tl = s.prev tl ++ List.replicate n hd := by
    unfold extend; dsimp only; rw [Function.update_self]
  apply inv_levels s (extend s n) xs hI rfl rfl rfl
  · intro x hx; unfold extend; dsimp only; rw [Function.update_of_ne hx]
  · intro x hx; unfold extend; dsimp only; rw [Function.update_of_ne hx]
  · rw [extend_ht]; have := hI.Hpos; omega
  · intro x hx; rw [extend_ht]; have := hI.hle x hx; omega
  · rw [extend_ht, hp, List.length_append, List.length_replicate]; have := hI.tlen; omega
  · intro l h1 _
    rw [extend_succ_hd, hp, List.getElem?_append_left h1, List.getElem?_append_left (lt_of_lt_of_le h1 hI.tlen)]
    exact ⟨rfl, rfl⟩
  · intro l h1 h2
    rw [extend_ht] at h2
    constructor
    · rw [extend_succ_hd, List.getElem?_append_right h1, List.getElem?_replicate, if_pos]
      unfold ht at h1 h2; omega
    · rw [hp]
      by_cases h3 : l < (s.prev tl).length
      · rw [List.getElem?_append_left h3]
        obtain ⟨p, hp'⟩ : ∃ p, (s.prev tl)[l]? = some p := ⟨_, List.getElem?_eq_getElem h3⟩
        rw [hp', hI.stale l p h1 hp']
      · rw [List.getElem?_append_right (by omega), List.getElem?_replicate, if_pos]
        have := hI.tlen; omega
  · intro l p h1 h2
    rw [extend_ht] at h1
    rw [hp] at h2
    by_cases h3 : l < (s.prev tl).length
    · rw [List.getElem?_append_left h3] at h2; exact hI.stale l p (by omega) h2
    · rw [List.getElem?_append_right (by omega), List.getElem?_replicate] at h2
      split_ifs at h2; injection h2 with h2; exact h2.symm

/-- `delItem` takes the node out of the sequence. -/
theorem delItem_spec (s : SL K D) (X0 Y0 : List Id) (c : Nat) (hI : Inv s (X0 ++ c :: Y0)) :
    ∃ s', delItem s c = some s' ∧ Inv s' (X0 ++ Y0) ∧ Frame s s' ∧ (∀ x, x ≠ hd → ht s' x = ht s x) := by
  obtain ⟨s1, e, h1, f, hl, _⟩ := inv_unlink s X0 Y0 c hI
  refine ⟨{ trimHead s1 with size := s1.size - 1 }, ?_, ?_, ⟨f.key, f.data, f.alloc⟩, ?_⟩
  · unfold delItem; rw [e]
  · have := inv_trim _ _ h1
    exact this
  · intro x hx
    show ((trimHead s1).succ x).length = _
    unfold trimHead; dsimp only; rw [Function.update_of_ne hx]; exact hl x

end Verif.Sweep
