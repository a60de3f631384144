import Verif.Sweep.Link

/-!
# Insertion and removal of a node at all its levels
-/

namespace Verif.Sweep
variable {K D : Type} [LinearOrder K]
set_option linter.unusedSectionVars false

theorem lt_of_some {l : List Id} {i : Nat} {a : Id} (h : l[i]? = some a) : i < l.length := by
  by_contra hc
  rw [List.getElem?_eq_none (by omega)] at h; cases h

/-- What the loops of the structure do not touch. -/
structure Frame (s s' : SL K D) : Prop where
  key : s'.key = s.key
  data : s'.data = s.data
  alloc : s'.alloc = s.alloc

theorem pl_ne_of {h : Id → Nat} {l : Nat} {X : List Id} {c : Id} (h1 : c ≠ hd) (h2 : c ∉ X) : pl h l X ≠ c := by
  rcases pl_mem h l X with e | ⟨e, _⟩
  · rw [e]; exact fun h => h1 h.symm
  · intro hc; rw [hc] at e; exact h2 e

theorem ql_ne_of {h : Id → Nat} {l : Nat} {X : List Id} {c : Id} (h1 : c ≠ tl) (h2 : c ∉ X) : ql h l X ≠ c := by
  rcases ql_mem h l X with e | ⟨e, _⟩
  · rw [e]; exact fun h => h1 h.symm
  · intro hc; rw [hc] at e; exact h2 e

theorem split_cases {α : Type} {X0 Y0 X Y : List α} {c : α} (h : X0 ++ c :: Y0 = X ++ Y) :
    (∃ Z, X0 = X ++ Z ∧ Y = Z ++ c :: Y0) ∨ (∃ Z, X = X0 ++ c :: Z ∧ Y0 = Z ++ Y) := by
  rcases List.append_eq_append_iff.1 h with ⟨Z, h1, h2⟩ | ⟨Z, h1, h2⟩
  · cases Z with
    | nil => left; exact ⟨[], by simpa using h1.symm, by simpa using h2.symm⟩
    | cons z Z =>
      right
      rw [List.cons_append] at h2
      injection h2 with h3 h4
      exact ⟨Z, by rw [h1, ← h3], h4⟩
  · left; exact ⟨Z, h1, h2⟩

theorem split_cases' {α : Type} {X0 Y0 X Y : List α} (h : X0 ++ Y0 = X ++ Y) :
    (∃ Z, X0 = X ++ Z ∧ Y = Z ++ Y0) ∨ (∃ Z, X = X0 ++ Z ∧ Y0 = Z ++ Y) := by
  rcases List.append_eq_append_iff.1 h with ⟨Z, h1, h2⟩ | ⟨Z, h1, h2⟩
  · right; exact ⟨Z, h1, h2⟩
  · left; exact ⟨Z, h1, h2⟩

theorem inv_link (s : SL K D) (X0 Y0 : List Id) (c m : Nat) (k : K) (hI : Inv s (X0 ++ Y0)) (hc : c ∉ X0 ++ Y0)
    (ch : c ≠ hd) (ct : c ≠ tl) (ca : c < s.alloc) (ck : s.key c = .val k)
    (m0 : 0 < m) (mH : m ≤ ht s hd) (cs : (s.succ c).length = m) (cp : (s.prev c).length = m)
    (hp : ∀ l < m, (s.prev c)[l]? = some (pl (ht s) l X0)) (hq : ∀ l < m, (s.succ c)[l]? = some (ql (ht s) l Y0)) :
    ∃ s', link s c = some s' ∧ Inv { s' with size := s'.size + 1 } (X0 ++ c :: Y0) ∧ Frame s s' ∧
      ∀ x, (s'.succ x).length = (s.succ x).length := by
  have hcX : c ∉ X0 := fun h => hc (List.mem_append_left _ h)
  have hcY : c ∉ Y0 := fun h => hc (List.mem_append_right _ h)
  have nd := List.nodup_append.1 hI.nodup
  obtain ⟨s', e, a⟩ := loop_spec (linkStep c) c s (fun l => pl (ht s) l X0) (fun l => ql (ht s) l Y0) (fun _ => c)
    (fun _ => c) m
    (by intro s1 l _ h1 h2; unfold linkStep; rw [h1, h2]; rfl)
    hp hq
    (by intro l hl; exact lt_of_some (hI.adjS X0 Y0 rfl l (by omega)))
    (by intro l hl; exact lt_of_some (hI.adjP X0 Y0 rfl l (by omega)))
    (by intro l _; exact pl_ne_of ch hcX)
    (by intro l _; exact ql_ne_of ct hcY)
  have hht : ht s' = ht s := funext a.lenS
  have hht' : ∀ z, ht ({ s' with size := z } : SL K D) = ht s := fun z => hht
  have htc : ht s c = m := cs
  have sc : ∀ l < m, (s'.succ c)[l]? = some (ql (ht s) l Y0) := by
    intro l hl; rw [a.succ, if_neg (fun h => pl_ne_of ch hcX h.2), hq l hl]
  have pc : ∀ l < m, (s'.prev c)[l]? = some (pl (ht s) l X0) := by
    intro l hl; rw [a.prev, if_neg (fun h => ql_ne_of ct hcY h.2), hp l hl]
  have hh0 : hd ∉ X0 ++ Y0 := hI.nhd
  have ht0 : tl ∉ X0 ++ Y0 := hI.ntl
  have dis : ∀ x ∈ X0, x ∉ Y0 := fun x hx hy => nd.2.2 x hx x hy rfl
  refine ⟨s', ?_, ?_, ⟨a.key, a.data, a.alloc⟩, a.lenS⟩
  · unfold link; rw [cp]; exact e
  constructor
  · rw [List.nodup_middle]; exact List.nodup_cons.2 ⟨hc, hI.nodup⟩
  · intro h; rw [List.mem_append, List.mem_cons] at h
    rcases h with h | h | h
    · exact hh0 (List.mem_append_left _ h)
    · exact ch h.symm
    · exact hh0 (List.mem_append_right _ h)
  · intro h; rw [List.mem_append, List.mem_cons] at h
    rcases h with h | h | h
    · exact ht0 (List.mem_append_left _ h)
    · exact ct h.symm
    · exact ht0 (List.mem_append_right _ h)
  · intro x hx; show x < s'.alloc; rw [a.alloc]
    rw [List.mem_append, List.mem_cons] at hx
    rcases hx with h | h | h
    · exact hI.lt x (List.mem_append_left _ h)
    · rw [h]; exact ca
    · exact hI.lt x (List.mem_append_right _ h)
  · show 2 ≤ s'.alloc; rw [a.alloc]; exact hI.al
  · intro x hx; rw [hht']
    rw [List.mem_append, List.mem_cons] at hx
    rcases hx with h | h | h
    · exact hI.hpos x (List.mem_append_left _ h)
    · rw [h, htc]; exact m0
    · exact hI.hpos x (List.mem_append_right _ h)
  · intro x hx; rw [hht']; show (s'.prev x).length = _; rw [a.lenP]
    rw [List.mem_append, List.mem_cons] at hx
    rcases hx with h | h | h
    · exact hI.plen x (List.mem_append_left _ h)
    · rw [h, htc]; exact cp
    · exact hI.plen x (List.mem_append_right _ h)
  · intro x hx; rw [hht']
    rw [List.mem_append, List.mem_cons] at hx
    rcases hx with h | h | h
    · exact hI.hle x (List.mem_append_left _ h)
    · rw [h, htc]; exact mH
    · exact hI.hle x (List.mem_append_right _ h)
  · rw [hht']; exact hI.Hpos
  · rw [hht']; show _ ≤ (s'.prev tl).length; rw [a.lenP]; exact hI.tlen
  · intro l p hl hp'; rw [hht'] at hl
    have hp'' : (s'.prev tl)[l]? = some p := hp'
    rw [a.prev, if_neg (fun h => absurd h.1 (by omega))] at hp''
    exact hI.stale l p hl hp''
  · -- successors
    intro X Y hXY l hl
    rw [hht'] at hl ⊢
    show (s'.succ _)[l]? = _
    rcases split_cases hXY with ⟨Z, hX, hY⟩ | ⟨Z, hX, hY⟩
    · have old := hI.adjS X (Z ++ Y0) (by rw [hX, List.append_assoc]) l hl
      subst hY
      rcases ql_append (ht s) l Z (c :: Y0) with ⟨h1, h2⟩ | ⟨h1, h2⟩
      · have e1 : pl (ht s) l X0 = pl (ht s) l X := by
          rw [hX]; rcases pl_append (ht s) l X Z with ⟨_, h⟩ | ⟨h, _⟩
          · exact h
          · rcases pl_mem (ht s) l (X ++ Z) with h' | ⟨_, h'⟩
            · exfalso; rw [h'] at h; exact hh0 (List.mem_append_left _ (by rw [hX]; exact List.mem_append_right _ h))
            · have := h1 _ h; omega
        rw [h2, ql_cons, htc]
        by_cases hm : l < m
        · rw [if_pos hm, a.succ, if_pos ⟨hm, e1⟩]
        · rw [if_neg hm, a.succ, if_neg (fun h => hm h.1), old]
          rcases ql_append (ht s) l Z Y0 with ⟨_, h⟩ | ⟨h, _⟩
          · rw [h]
          · rcases ql_mem (ht s) l (Z ++ Y0) with h' | ⟨_, h'⟩
            · exfalso; rw [h'] at h; exact ht0 (List.mem_append_left _ (by rw [hX]; exact List.mem_append_right _ h))
            · have := h1 _ h; omega
      · rw [a.succ, if_neg, old, h2 Y0]
        rintro ⟨_, h3⟩
        rw [hX] at h3
        rcases pl_append (ht s) l X Z with ⟨h4, h5⟩ | ⟨h4, h5⟩
        · rcases ql_mem (ht s) l (Z ++ c :: Y0) with h' | ⟨_, h'⟩
          · rw [h'] at h1; exact ht0 (List.mem_append_left _ (by rw [hX]; exact List.mem_append_right _ h1))
          · have := h4 _ h1; omega
        · rw [h3] at h4
          rcases pl_mem (ht s) l X with h' | ⟨h', _⟩
          · rw [h'] at h4; exact hh0 (List.mem_append_left _ (by rw [hX]; exact List.mem_append_right _ h4))
          · have nd1 : (X ++ Z).Nodup := hX ▸ nd.1
            exact (List.nodup_append.1 nd1).2.2 _ h' _ h4 rfl
    · have old := hI.adjS (X0 ++ Z) Y (by rw [hY, List.append_assoc]) l hl
      subst hX
      rcases pl_append (ht s) l (X0 ++ [c]) Z with ⟨h1, h2⟩ | ⟨h1, h2⟩
      · have e1 : ql (ht s) l Y0 = ql (ht s) l Y := by
          rw [hY]; rcases ql_append (ht s) l Z Y with ⟨_, h⟩ | ⟨h, _⟩
          · exact h
          · rcases ql_mem (ht s) l (Z ++ Y) with h' | ⟨_, h'⟩
            · exfalso; rw [h'] at h; exact ht0 (List.mem_append_right _ (by rw [hY]; exact List.mem_append_left _ h))
            · have := h1 _ h; omega
        rw [List.append_assoc, List.singleton_append] at h2
        rw [h2, pl_snoc, htc]
        by_cases hm : l < m
        · rw [if_pos hm, sc l hm, e1]
        · rw [if_neg hm, a.succ, if_neg (fun h => hm h.1)]
          have : pl (ht s) l (X0 ++ Z) = pl (ht s) l X0 := by
            rcases pl_append (ht s) l X0 Z with ⟨_, h⟩ | ⟨h, _⟩
            · exact h
            · rcases pl_mem (ht s) l (X0 ++ Z) with h' | ⟨_, h'⟩
              · exfalso; rw [h'] at h; exact hh0 (List.mem_append_right _ (by rw [hY]; exact List.mem_append_left _ h))
              · have := h1 _ h; omega
          rw [← this, old]
      · have h3 := h2 X0
        rw [List.append_assoc, List.singleton_append] at h1 h3
        rw [← h3] at h1 ⊢
        rw [a.succ, if_neg, old]
        rintro ⟨_, h4⟩
        rw [← h4] at h1
        have hz : pl (ht s) l X0 ∈ Y0 := by rw [hY]; exact List.mem_append_left _ h1
        rcases pl_mem (ht s) l X0 with h' | ⟨h', _⟩
        · rw [h'] at hz; exact hh0 (List.mem_append_right _ hz)
        · exact dis _ h' hz
  · -- predecessors
    intro X Y hXY l hl
    rw [hht'] at hl ⊢
    show (s'.prev _)[l]? = _
    rcases split_cases hXY with ⟨Z, hX, hY⟩ | ⟨Z, hX, hY⟩
    · have old := hI.adjP X (Z ++ Y0) (by rw [hX, List.append_assoc]) l hl
      subst hY
      rcases ql_append (ht s) l Z (c :: Y0) with ⟨h1, h2⟩ | ⟨h1, h2⟩
      · have e1 : pl (ht s) l X0 = pl (ht s) l X := by
          rw [hX]; rcases pl_append (ht s) l X Z with ⟨_, h⟩ | ⟨h, _⟩
          · exact h
          · rcases pl_mem (ht s) l (X ++ Z) with h' | ⟨_, h'⟩
            · exfalso; rw [h'] at h; exact hh0 (List.mem_append_left _ (by rw [hX]; exact List.mem_append_right _ h))
            · have := h1 _ h; omega
        rw [h2, ql_cons, htc]
        by_cases hm : l < m
        · rw [if_pos hm, pc l hm, e1]
        · rw [if_neg hm, a.prev, if_neg (fun h => hm h.1)]
          have : ql (ht s) l (Z ++ Y0) = ql (ht s) l Y0 := by
            rcases ql_append (ht s) l Z Y0 with ⟨_, h⟩ | ⟨h, _⟩
            · exact h
            · rcases ql_mem (ht s) l (Z ++ Y0) with h' | ⟨_, h'⟩
              · exfalso; rw [h'] at h; exact ht0 (List.mem_append_left _ (by rw [hX]; exact List.mem_append_right _ h))
              · have := h1 _ h; omega
          rw [← this, old]
      · rw [a.prev, if_neg, ← h2 Y0, old]
        rintro ⟨_, h3⟩
        rw [← h3] at h1
        have hz : ql (ht s) l Y0 ∈ X0 := by rw [hX]; exact List.mem_append_right _ h1
        rcases ql_mem (ht s) l Y0 with h' | ⟨h', _⟩
        · rw [h'] at hz; exact ht0 (List.mem_append_left _ hz)
        · exact dis _ hz h'
    · have old := hI.adjP (X0 ++ Z) Y (by rw [hY, List.append_assoc]) l hl
      subst hX
      rcases pl_append (ht s) l (X0 ++ [c]) Z with ⟨h1, h2⟩ | ⟨h1, h2⟩
      · have e1 : ql (ht s) l Y0 = ql (ht s) l Y := by
          rw [hY]; rcases ql_append (ht s) l Z Y with ⟨_, h⟩ | ⟨h, _⟩
          · exact h
          · rcases ql_mem (ht s) l (Z ++ Y) with h' | ⟨_, h'⟩
            · exfalso; rw [h'] at h; exact ht0 (List.mem_append_right _ (by rw [hY]; exact List.mem_append_left _ h))
            · have := h1 _ h; omega
        rw [List.append_assoc, List.singleton_append] at h2
        rw [h2, pl_snoc, htc]
        by_cases hm : l < m
        · rw [if_pos hm, a.prev, if_pos ⟨hm, e1⟩]
        · rw [if_neg hm, a.prev, if_neg (fun h => hm h.1), old]
          rcases pl_append (ht s) l X0 Z with ⟨_, h⟩ | ⟨h, _⟩
          · rw [h]
          · rcases pl_mem (ht s) l (X0 ++ Z) with h' | ⟨_, h'⟩
            · exfalso; rw [h'] at h; exact hh0 (List.mem_append_right _ (by rw [hY]; exact List.mem_append_left _ h))
            · have := h1 _ h; omega
      · have h3 := h2 X0
        rw [List.append_assoc, List.singleton_append] at h1 h3
        rw [← h3] at h1 ⊢
        rw [a.prev, if_neg, old]
        rintro ⟨_, h4⟩
        rw [hY] at h4
        rcases ql_append (ht s) l Z Y with ⟨h5, _⟩ | ⟨h5, _⟩
        · rcases pl_mem (ht s) l (X0 ++ Z) with h' | ⟨_, h'⟩
          · rw [h'] at h1; exact hh0 (List.mem_append_right _ (by rw [hY]; exact List.mem_append_left _ h1))
          · have := h5 _ h1; omega
        · rw [h4] at h5
          rcases ql_mem (ht s) l Y with h' | ⟨h', _⟩
          · rw [h'] at h5; exact ht0 (List.mem_append_right _ (by rw [hY]; exact List.mem_append_left _ h5))
          · have nd1 : (Z ++ Y).Nodup := hY ▸ nd.2.1
            exact (List.nodup_append.1 nd1).2.2 _ h5 _ h' rfl
  · intro x hx; show ∃ k, s'.key x = .val k; rw [a.key]
    rw [List.mem_append, List.mem_cons] at hx
    rcases hx with h | h | h
    · exact hI.vals x (List.mem_append_left _ h)
    · exact ⟨k, by rw [h]; exact ck⟩
    · exact hI.vals x (List.mem_append_right _ h)
  · show s'.key hd = _; rw [a.key]; exact hI.kh
  · show s'.key tl = _; rw [a.key]; exact hI.kt
  · show s'.size + 1 = _; rw [a.size, hI.size]; simp only [List.length_append, List.length_cons]; omega

end Verif.Sweep
