import Verif.Skip.Model
import Mathlib.Data.List.Nodup
import Mathlib.Data.List.Basic
import Mathlib.Data.Finset.Card
import Mathlib.Data.Finset.Range
import Mathlib.Data.Fintype.Basic
import Mathlib.Order.Interval.Finset.Nat

/-! # Invariant of the skip list -/

set_option linter.unusedSectionVars false
set_option linter.unusedVariables false

namespace Verif.Skip

variable {K V : Type} [LinearOrder K]

/-! ## Paths -/

/-- Consecutive elements of `a :: X` are related. -/
def Seg (R : ℕ → ℕ → Prop) : ℕ → List ℕ → Prop
  | _, [] => True
  | a, b :: X => R a b ∧ Seg R b X

/-- The last element of `a :: X`. -/
def lst : ℕ → List ℕ → ℕ
  | a, [] => a
  | _, b :: X => lst b X

theorem seg_append (R : ℕ → ℕ → Prop) (X Y : List ℕ) (a : ℕ) : Seg R a (X ++ Y) ↔ Seg R a X ∧ Seg R (lst a X) Y := by
  induction X generalizing a with
  | nil => simp [Seg, lst]
  | cons b X ih => simp [Seg, lst, ih, and_assoc]

theorem lst_mem (X : List ℕ) (a : ℕ) : lst a X ∈ a :: X := by
  induction X generalizing a with
  | nil => simp [lst]
  | cons b X ih => exact List.mem_cons_of_mem _ (ih b)

theorem lst_append (X Y : List ℕ) (a : ℕ) : lst a (X ++ Y) = lst (lst a X) Y := by
  induction X generalizing a with
  | nil => rfl
  | cons b X ih => exact ih b

theorem seg_mono {R R' : ℕ → ℕ → Prop} (X : List ℕ) (a : ℕ) (nd : (a :: X).Nodup) (h : Seg R a X)
    (hi : ∀ x y, x ∈ a :: X → x ≠ lst a X → y ∈ X → R x y → R' x y) : Seg R' a X := by
  induction X generalizing a with
  | nil => trivial
  | cons b X ih =>
    refine ⟨hi a b List.mem_cons_self ?_ List.mem_cons_self h.1, ?_⟩
    · intro he
      apply (List.nodup_cons.1 nd).1
      rw [he]
      exact lst_mem X b
    · apply ih b (List.nodup_cons.1 nd).2 h.2
      intro x y hx hne hy
      exact hi x y (List.mem_cons_of_mem _ hx) hne (List.mem_cons_of_mem _ hy)

/-! ## The invariant -/

/-- The nodes at a level. -/
def lev (s : S K V) (xs : List ℕ) (l : ℕ) : List ℕ := xs.filter fun x => l < s.hs x

theorem lev_append (s : S K V) (xs ys : List ℕ) (l : ℕ) : lev s (xs ++ ys) l = lev s xs l ++ lev s ys l := List.filter_append ..

theorem mem_lev {s : S K V} {xs : List ℕ} {l x : ℕ} : x ∈ lev s xs l ↔ x ∈ xs ∧ l < s.hs x := by
  simp [lev]

/-- `a` and `b` are linked at level `l`. -/
def Link (s : S K V) (l a b : ℕ) : Prop := s.succ l a = b ∧ s.prev l b = a

/-- The heap holds the sequence `xs` of nodes. -/
structure Inv (s : S K V) (xs : List ℕ) : Prop where
  nodup : xs.Nodup
  ids : ∀ x ∈ xs, 2 ≤ x ∧ x < s.next
  next2 : 2 ≤ s.next
  h1 : 1 ≤ s.hs head
  hle : ∀ x ∈ xs, 1 ≤ s.hs x ∧ s.hs x ≤ s.hs head ∧ s.hp x = s.hs x
  htail : s.hs head ≤ s.hp tail
  stale : ∀ l, s.hs head ≤ l → l < s.hp tail → s.prev l tail = head
  path : ∀ l < s.hs head, Seg (Link s l) head (lev s xs l ++ [tail])
  size : s.size = xs.length

theorem inv_empty (k : K) (v : V) : Inv (empty k v) [] where
  nodup := List.nodup_nil
  ids := by simp
  next2 := le_rfl
  h1 := by simp [empty]
  hle := by simp
  htail := by simp [empty]
  stale := by simp [empty]
  path := by
    intro l hl
    simp [lev, Seg, Link, empty]
  size := rfl

theorem Inv.full_nodup {s : S K V} {xs : List ℕ} (h : Inv s xs) (l : ℕ) : (head :: (lev s xs l ++ [tail])).Nodup := by
  have h1 : (lev s xs l).Nodup := h.nodup.filter _
  have h2 : ∀ x ∈ lev s xs l, 2 ≤ x := fun x hx => (h.ids x (mem_lev.1 hx).1).1
  rw [List.nodup_cons, List.nodup_append]
  refine ⟨?_, h1, by simp, ?_⟩
  · intro hm
    rcases List.mem_append.1 hm with hm | hm
    · have := h2 _ hm
      simp [head] at this
    · simp [head, tail] at hm
  · intro a ha b hb
    have := h2 a ha
    simp only [List.mem_singleton] at hb
    subst hb
    intro hc
    subst hc
    simp [tail] at this

theorem Inv.length_le {s : S K V} {xs : List ℕ} (h : Inv s xs) : xs.length + 2 ≤ s.next := by
  have : xs.toFinset ⊆ Finset.Ico 2 s.next := by
    intro x hx
    rw [Finset.mem_Ico]
    exact h.ids x (List.mem_toFinset.1 hx)
  have := Finset.card_le_card this
  rw [List.toFinset_card_of_nodup h.nodup, Nat.card_Ico] at this
  have := h.next2
  omega

/-- All nodes of a level have a pointer there. -/
theorem Inv.hs_of_mem {s : S K V} {xs : List ℕ} (h : Inv s xs) {l a : ℕ} (hl : l < s.hs head) (ha : a ∈ head :: lev s xs l) : l < s.hs a := by
  rcases List.mem_cons.1 ha with rfl | ha
  · exact hl
  · exact (mem_lev.1 ha).2

theorem Inv.hp_of_mem {s : S K V} {xs : List ℕ} (h : Inv s xs) {l a : ℕ} (hl : l < s.hs head) (ha : a ∈ lev s xs l ++ [tail]) : l < s.hp a := by
  rcases List.mem_append.1 ha with ha | ha
  · obtain ⟨h1, h2⟩ := mem_lev.1 ha
    rw [(h.hle a h1).2.2]
    exact h2
  · rw [List.mem_singleton.1 ha]
    exact lt_of_lt_of_le hl h.htail

/-! ## `_scan` -/

theorem walk_spec (s : S K V) (k : K) (l : ℕ) (ys zs : List ℕ) : ∀ (fuel a : ℕ), ys.length < fuel → a ≠ tail →
    (∀ x ∈ a :: ys, l < s.hs x) → Seg (Link s l) a (ys ++ (zs ++ [tail])) → (∀ x ∈ ys, x ≠ tail ∧ s.key x ≤ k) →
    (∀ x ∈ zs, k < s.key x) → walk s k l fuel a = some (lst a ys) := by
  induction ys with
  | nil =>
    intro fuel a hf ha hh hseg _ hz
    obtain ⟨f, rfl⟩ : ∃ f, fuel = f + 1 := ⟨fuel - 1, by simp at hf; omega⟩
    unfold walk getSucc
    rw [if_neg ha, if_pos (hh a List.mem_cons_self)]
    have hb : ¬ le s (s.succ l a) k := by
      cases zs with
      | nil =>
        have := hseg.1.1
        rw [this]
        exact fun h => h.1 rfl
      | cons z zs =>
        have := hseg.1.1
        rw [this]
        exact fun h => absurd h.2 (not_le.2 (hz z List.mem_cons_self))
    simp only [if_neg hb]
    rfl
  | cons y ys ih =>
    intro fuel a hf ha hh hseg hy hz
    obtain ⟨f, rfl⟩ : ∃ f, fuel = f + 1 := ⟨fuel - 1, by simp at hf; omega⟩
    unfold walk getSucc
    rw [if_neg ha, if_pos (hh a List.mem_cons_self)]
    have e : s.succ l a = y := hseg.1.1
    have hb : le s (s.succ l a) k := by
      rw [e]
      exact hy y List.mem_cons_self
    simp only [if_pos hb]
    rw [e]
    exact ih f y (by simp at hf; omega) (hy y List.mem_cons_self).1 (fun x hx => hh x (List.mem_cons_of_mem _ hx)) hseg.2
      (fun x hx => hy x (List.mem_cons_of_mem _ hx)) hz

/-- The sequence is divided at the key: `lo` has the nodes with keys up to `k`. -/
structure Split (s : S K V) (xs lo hi : List ℕ) (k : K) : Prop where
  eq : xs = lo ++ hi
  lo : ∀ x ∈ lo, s.key x ≤ k
  hi : ∀ x ∈ hi, k < s.key x

theorem not_tail {s : S K V} {xs : List ℕ} (h : Inv s xs) {x : ℕ} (hx : x ∈ xs) : x ≠ tail := by
  intro he
  have := (h.ids x hx).1
  rw [he] at this
  simp [tail] at this

theorem not_head {s : S K V} {xs : List ℕ} (h : Inv s xs) {x : ℕ} (hx : x ∈ xs) : x ≠ head := by
  intro he
  have := (h.ids x hx).1
  rw [he] at this
  simp [head] at this

theorem scanLevel_spec {s : S K V} {xs lo hi : List ℕ} {k : K} (h : Inv s xs) (hs : Split s xs lo hi k) {l : ℕ} (hl : l < s.hs head) (a : ℕ)
    (ha : lev s lo l = [] ∨ a ∈ head :: lev s lo l) : scanLevel s k l a = some (lst head (lev s lo l)) := by
  have hp := h.path l hl
  rw [hs.eq, lev_append, List.append_assoc] at hp
  have hz : ∀ x ∈ lev s hi l, k < s.key x := fun x hx => hs.hi x (mem_lev.1 hx).1
  have hy : ∀ x ∈ lev s lo l, x ≠ tail ∧ s.key x ≤ k := fun x hx =>
    ⟨not_tail h (hs.eq ▸ List.mem_append_left _ (mem_lev.1 hx).1), hs.lo x (mem_lev.1 hx).1⟩
  unfold scanLevel getSucc
  rw [if_pos hl]
  dsimp only
  cases hlo : lev s lo l with
  | nil =>
    rw [if_neg]
    · rfl
    · rw [hlo] at hp
      cases hhi : lev s hi l with
      | nil =>
        rw [hhi] at hp
        rw [hp.1.1]
        exact fun hc => hc.1 rfl
      | cons z zs =>
        rw [hhi] at hp
        rw [hp.1.1]
        exact fun hc => absurd hc.2 (not_le.2 (hz z (hhi ▸ List.mem_cons_self)))
  | cons y ys =>
    rw [hlo] at hp
    have hle : le s (s.succ l head) k := by
      rw [hp.1.1]
      exact hy y (hlo ▸ List.mem_cons_self)
    rw [if_pos hle, ← hlo]
    have ha' : a ∈ head :: lev s lo l := by
      rcases ha with ha | ha
      · rw [ha] at hlo; cases hlo
      · exact ha
    obtain ⟨p, q, hpq⟩ := List.append_of_mem ha'
    have hp2 : Seg (Link s l) head (lev s lo l ++ (lev s hi l ++ [tail])) := by rw [hlo]; exact hp
    have hlen : (lev s lo l).length + 2 ≤ s.next := by
      have h1 := h.length_le
      have h2 : (lev s lo l).length ≤ lo.length := List.length_filter_le _ _
      have h3 : lo.length ≤ xs.length := by rw [hs.eq]; simp
      omega
    have hmem : ∀ x ∈ head :: lev s lo l, l < s.hs x := by
      intro x hx
      rcases List.mem_cons.1 hx with rfl | hx
      · exact hl
      · exact (mem_lev.1 hx).2
    cases p with
    | nil =>
      simp only [List.nil_append, List.cons.injEq] at hpq
      obtain ⟨rfl, rfl⟩ := hpq
      exact walk_spec s k l _ (lev s hi l) s.next head (by omega) (by simp [head, tail]) hmem hp2 hy hz
    | cons c p =>
      simp only [List.cons_append, List.cons.injEq] at hpq
      obtain ⟨rfl, hpq⟩ := hpq
      have e1 : lev s lo l = (p ++ [a]) ++ q := by rw [hpq]; simp
      have e2 : lst head (lev s lo l) = lst a q := by
        rw [e1, lst_append, lst_append]
        rfl
      rw [e2]
      have hp3 : Seg (Link s l) a (q ++ (lev s hi l ++ [tail])) := by
        rw [e1, List.append_assoc, seg_append, lst_append] at hp2
        exact hp2.2
      have hlen2 : q.length ≤ (lev s lo l).length := by rw [e1]; simp; omega
      refine walk_spec s k l q (lev s hi l) s.next a (by omega) (hy a (by rw [e1]; simp)).1 ?_ hp3 ?_ hz
      · intro x hx
        apply hmem
        rw [hpq]
        rcases List.mem_cons.1 hx with rfl | hx
        · simp
        · simp [hx]
      · intro x hx
        apply hy
        rw [hpq]
        simp [hx]

theorem lev_sub (s : S K V) (lo : List ℕ) {l m : ℕ} (hlm : l ≤ m) {x : ℕ} (hx : x ∈ lev s lo m) : x ∈ lev s lo l := by
  rw [mem_lev] at *
  exact ⟨hx.1, lt_of_le_of_lt hlm hx.2⟩

theorem scanLoop_spec {s : S K V} {xs lo hi : List ℕ} {k : K} (h : Inv s xs) (hs : Split s xs lo hi k) (n : ℕ) : ∀ (a : ℕ)
    (r : Option ℕ × (ℕ → ℕ)), n ≤ s.hs head → (n ≠ 0 → lev s lo (n - 1) = [] ∨ a ∈ head :: lev s lo (n - 1)) →
    ∃ r1 upd, scanLoop s k n a r = some (r1, upd) ∧
      (∀ m, upd m = if m < n ∧ ¬ isKey s (lst head (lev s lo m)) k then lst head (lev s lo m) else r.2 m) ∧
      (0 < n → isKey s (lst head (lev s lo 0)) k → r1 = some (lst head (lev s lo 0))) ∧
      ((∀ m < n, ¬ isKey s (lst head (lev s lo m)) k) → r1 = r.1) := by
  induction n with
  | zero =>
    intro a r _ _
    exact ⟨r.1, r.2, rfl, by simp, by simp, by simp⟩
  | succ n ih =>
    intro a r hn ha
    unfold scanLoop
    rw [scanLevel_spec h hs (show n < s.hs head by omega) a (ha (by omega))]
    dsimp only
    set b := lst head (lev s lo n) with hb
    have hb' : n ≠ 0 → lev s lo (n - 1) = [] ∨ b ∈ head :: lev s lo (n - 1) := by
      intro _
      right
      rcases List.mem_cons.1 (lst_mem (lev s lo n) head) with hh | hh
      · rw [hb, hh]
        exact List.mem_cons_self
      · exact List.mem_cons_of_mem _ (lev_sub s lo (by omega) hh)
    obtain ⟨r1, upd, e, e1, e2, e3⟩ := ih b (if isKey s b k then (some b, r.2) else (r.1, fun m => if m = n then b else r.2 m)) (by omega) hb'
    refine ⟨r1, upd, e, ?_, ?_, ?_⟩
    · intro m
      rw [e1 m]
      by_cases hm : m = n
      · subst hm
        rw [if_neg (by omega)]
        by_cases hk : isKey s b k
        · rw [if_pos hk, if_neg (fun hc => hc.2 hk)]
        · rw [if_neg hk, if_pos ⟨by omega, hk⟩]
          simp [hb]
      · have hr : (if isKey s b k then (some b, r.2) else (r.1, fun m => if m = n then b else r.2 m)).2 m = r.2 m := by
          by_cases hk : isKey s b k
          · rw [if_pos hk]
          · rw [if_neg hk]
            simp [hm]
        rw [hr]
        by_cases hc : m < n ∧ ¬ isKey s (lst head (lev s lo m)) k
        · rw [if_pos hc, if_pos ⟨by omega, hc.2⟩]
        · rw [if_neg hc, if_neg (fun hh => hc ⟨by omega, hh.2⟩)]
    · intro _ hk
      by_cases hn0 : n = 0
      · subst hn0
        have : r1 = (if isKey s b k then (some b, r.2) else (r.1, fun m => if m = 0 then b else r.2 m)).1 := e3 (by omega)
        rw [this, if_pos hk]
      · exact e2 (by omega) hk
    · intro hno
      rw [e3 fun m hm => hno m (by omega), if_neg (hno n (by omega))]

theorem lev_zero {s : S K V} {xs lo hi : List ℕ} (h : Inv s xs) (e : xs = lo ++ hi) : lev s lo 0 = lo := by
  unfold lev
  apply List.filter_eq_self.2
  intro x hx
  have := (h.hle x (e ▸ List.mem_append_left _ hx)).1
  simp
  omega

/-- The result of `_scan`. -/
theorem scan_spec {s : S K V} {xs lo hi : List ℕ} {k : K} (h : Inv s xs) (hs : Split s xs lo hi k) :
    ∃ r1 upd, scan s k = some (r1, upd) ∧
      (∀ m, upd m = if m < s.hs head ∧ ¬ isKey s (lst head (lev s lo m)) k then lst head (lev s lo m) else head) ∧
      (isKey s (lst head lo) k → r1 = some (lst head lo)) ∧
      ((∀ m < s.hs head, ¬ isKey s (lst head (lev s lo m)) k) → r1 = none) := by
  unfold scan getSucc
  have h1 := h.h1
  rw [if_pos (by omega)]
  dsimp only
  obtain ⟨r1, upd, e, e1, e2, e3⟩ := scanLoop_spec h hs (s.hs head) (s.succ (s.hs head - 1) head) (none, fun _ => head) le_rfl (by
    intro _
    have hp := h.path (s.hs head - 1) (by omega)
    rw [hs.eq, lev_append, List.append_assoc] at hp
    cases hlo : lev s lo (s.hs head - 1) with
    | nil => exact Or.inl rfl
    | cons y ys =>
      right
      rw [hlo] at hp
      rw [hp.1.1]
      simp)
  rw [lev_zero h hs.eq] at e2
  exact ⟨r1, upd, e, e1, e2 (by omega), e3⟩

/-! ## Linking and unlinking -/

/-- The first element of `X` or the tail. -/
def fst (X : List ℕ) : ℕ := X.headD tail

theorem fst_cons (X : List ℕ) : ∃ Y, X ++ [tail] = fst X :: Y := by
  cases X with
  | nil => exact ⟨[], rfl⟩
  | cons b X => exact ⟨X ++ [tail], rfl⟩

/-- The path of a level, divided. -/
theorem Inv.split_path {s : S K V} {xs lo hi : List ℕ} (h : Inv s xs) (e : xs = lo ++ hi) {l : ℕ} (hl : l < s.hs head) :
    Seg (Link s l) head (lev s lo l) ∧ Link s l (lst head (lev s lo l)) (fst (lev s hi l)) ∧
      ∀ Y, lev s hi l ++ [tail] = fst (lev s hi l) :: Y → Seg (Link s l) (fst (lev s hi l)) Y := by
  have hp := h.path l hl
  rw [e, lev_append, List.append_assoc, seg_append] at hp
  obtain ⟨Y, hY⟩ := fst_cons (lev s hi l)
  rw [hY] at hp
  refine ⟨hp.1, hp.2.1, ?_⟩
  intro Y' hY'
  rw [hY] at hY'
  simp only [List.cons.injEq, true_and] at hY'
  rw [← hY']
  exact hp.2.2

/-- Putting a node `n` of height `nh` between `lo` and `hi`. -/
theorem link_inv {s s' : S K V} {lo hi : List ℕ} {n nh : ℕ} {sl pl : ℕ → ℕ} (h : Inv s (lo ++ hi)) (hn : n ∉ lo ++ hi) (hn2 : 2 ≤ n)
    (hnx : n < s'.next) (hnn : s.next ≤ s'.next) (hnh : 1 ≤ nh) (hnH : nh ≤ s.hs head)
    (hpl : ∀ l < nh, pl l = lst head (lev s lo l)) (hsl : ∀ l < nh, sl l = fst (lev s hi l))
    (es : ∀ l a, s'.succ l a = if l < nh ∧ a = pl l then n else if a = n then sl l else s.succ l a)
    (ep : ∀ l a, s'.prev l a = if l < nh ∧ a = sl l then n else if a = n then pl l else s.prev l a)
    (eh : ∀ a, s'.hs a = if a = n then nh else s.hs a) (ehp : ∀ a, s'.hp a = if a = n then nh else s.hp a)
    (esz : s'.size = s.size + 1) : Inv s' (lo ++ n :: hi) := by
  have n0 : head ≠ n := by simp [head]; omega
  have n1 : tail ≠ n := by simp [tail]; omega
  have eH : s'.hs head = s.hs head := by rw [eh, if_neg n0]
  have eT : s'.hp tail = s.hp tail := by rw [ehp, if_neg n1]
  have ne : ∀ x ∈ lo ++ hi, x ≠ n := fun x hx he => hn (he ▸ hx)
  have elev : ∀ ys : List ℕ, (∀ x ∈ ys, x ≠ n) → ∀ l, lev s' ys l = lev s ys l := by
    intro ys hys l
    unfold lev
    apply List.filter_congr
    intro x hx
    rw [eh, if_neg (hys x hx)]
  have elo := elev lo fun x hx => ne x (List.mem_append_left _ hx)
  have ehi := elev hi fun x hx => ne x (List.mem_append_right _ hx)
  constructor
  · have := h.nodup
    rw [List.nodup_append] at this ⊢
    refine ⟨this.1, List.nodup_cons.2 ⟨fun hc => hn (List.mem_append_right _ hc), this.2.1⟩, ?_⟩
    intro a ha b hb
    rcases List.mem_cons.1 hb with rfl | hb
    · exact ne a (List.mem_append_left _ ha)
    · exact this.2.2 a ha b hb
  · intro x hx
    rcases List.mem_append.1 hx with hx | hx
    · have := h.ids x (List.mem_append_left _ hx)
      exact ⟨this.1, by omega⟩
    · rcases List.mem_cons.1 hx with rfl | hx
      · exact ⟨hn2, hnx⟩
      · have := h.ids x (List.mem_append_right _ hx)
        exact ⟨this.1, by omega⟩
  · have := h.next2
    omega
  · rw [eH]
    exact h.h1
  · intro x hx
    rw [eH, eh, ehp]
    by_cases hxn : x = n
    · rw [if_pos hxn, if_pos hxn]
      exact ⟨hnh, hnH, rfl⟩
    · rw [if_neg hxn, if_neg hxn]
      apply h.hle
      rcases List.mem_append.1 hx with hx | hx
      · exact List.mem_append_left _ hx
      · rcases List.mem_cons.1 hx with hx | hx
        · exact absurd hx hxn
        · exact List.mem_append_right _ hx
  · rw [eH, eT]
    exact h.htail
  · intro l hl hl'
    rw [eH] at hl
    rw [eT] at hl'
    rw [ep, if_neg (by omega), if_neg n1]
    exact h.stale l hl hl'
  · intro l hl
    rw [eH] at hl
    have nd := h.full_nodup l
    obtain ⟨p1, p2, p3⟩ := h.split_path rfl hl
    obtain ⟨Y, hY⟩ := fst_cons (lev s hi l)
    have p3 := p3 Y hY
    rw [lev_append, List.append_assoc, hY] at nd
    have nin : n ∉ head :: (lev s lo l ++ fst (lev s hi l) :: Y) := by
      rw [← hY]
      intro hc
      rcases List.mem_cons.1 hc with hc | hc
      · exact n0 hc.symm
      · rcases List.mem_append.1 hc with hc | hc
        · exact hn (List.mem_append_left _ (mem_lev.1 hc).1)
        · rcases List.mem_append.1 hc with hc | hc
          · exact hn (List.mem_append_right _ (mem_lev.1 hc).1)
          · exact n1 (List.mem_singleton.1 hc).symm
    have nd' := nd
    rw [← List.cons_append, List.nodup_append] at nd
    obtain ⟨nA, nB, nAB⟩ := nd
    have nA' : ∀ x ∈ head :: lev s lo l, x ≠ n := fun x hx he => nin (by
      rw [← he, ← List.cons_append]; exact List.mem_append_left _ hx)
    have nB' : ∀ x ∈ fst (lev s hi l) :: Y, x ≠ n := fun x hx he => nin (by
      rw [← he, ← List.cons_append]; exact List.mem_append_right _ hx)
    have eL : lev s' (lo ++ n :: hi) l = lev s lo l ++ ((if l < nh then [n] else []) ++ lev s hi l) := by
      rw [lev_append, elo]
      congr 1
      unfold lev
      rw [List.filter_cons]
      rw [eh, if_pos rfl]
      have := ehi l
      unfold lev at this
      by_cases hc : l < nh
      · simp only [hc, decide_true, if_true, List.singleton_append]
        rw [this]
      · simp only [hc, decide_false, if_false, List.nil_append]
        exact this
    rw [eL]
    by_cases hc : l < nh
    · rw [if_pos hc, List.append_assoc, List.append_assoc, hY, seg_append]
      have hpm : pl l ∈ head :: lev s lo l := by rw [hpl l hc]; exact lst_mem _ _
      have hsm : sl l ∈ fst (lev s hi l) :: Y := by rw [hsl l hc]; exact List.mem_cons_self
      refine ⟨?_, ?_, ?_, ?_⟩
      · refine seg_mono _ _ nA p1 ?_
        rintro x y hx hxl hy ⟨h1, h2⟩
        constructor
        · rw [es, if_neg (fun hh => hxl (by rw [hh.2, hpl l hc])), if_neg (nA' x hx), h1]
        · rw [ep, if_neg (fun hh => nAB y (List.mem_cons_of_mem _ hy) _ hsm hh.2), if_neg (nA' y (List.mem_cons_of_mem _ hy)), h2]
      · constructor
        · rw [es, if_pos ⟨hc, (hpl l hc).symm⟩]
        · rw [ep, if_neg (fun hh => nB' _ hsm hh.2.symm), if_pos rfl, hpl l hc]
      · constructor
        · rw [es, if_neg (fun hh => nA' _ hpm hh.2.symm), if_pos rfl, hsl l hc]
        · rw [ep, if_pos ⟨hc, (hsl l hc).symm⟩]
      · refine seg_mono _ _ nB p3 ?_
        rintro x y hx hxl hy ⟨h1, h2⟩
        constructor
        · rw [es, if_neg (fun hh => nAB _ hpm x hx hh.2.symm), if_neg (nB' x hx), h1]
        · rw [ep, if_neg, if_neg (nB' y (List.mem_cons_of_mem _ hy)), h2]
          rintro ⟨_, hh⟩
          rw [hsl l hc] at hh
          exact (List.nodup_cons.1 nB).1 (hh ▸ hy)
    · rw [if_neg hc, List.nil_append, List.append_assoc, hY]
      have hp := h.path l hl
      rw [lev_append, List.append_assoc, hY] at hp
      refine seg_mono _ _ nd' hp ?_
      rintro x y hx _ hy ⟨h1, h2⟩
      constructor
      · rw [es, if_neg (fun hh => hc hh.1), if_neg (fun hh : x = n => nin (hh ▸ hx)), h1]
      · rw [ep, if_neg (fun hh => hc hh.1), if_neg (fun hh : y = n => nin (hh ▸ List.mem_cons_of_mem _ hy)), h2]
  · rw [esz, h.size]
    simp
    omega

/-- Taking a node out. -/
theorem unlink_inv {s s' : S K V} {lo hi : List ℕ} {n : ℕ} (h : Inv s (lo ++ n :: hi))
    (es : ∀ l a, s'.succ l a = if l < s.hs n ∧ a = s.prev l n then s.succ l n else s.succ l a)
    (ep : ∀ l a, s'.prev l a = if l < s.hs n ∧ a = s.succ l n then s.prev l n else s.prev l a)
    (eh : ∀ a, s'.hs a = s.hs a) (ehp : ∀ a, s'.hp a = s.hp a) (enx : s'.next = s.next)
    (esz : s'.size = s.size - 1) : Inv s' (lo ++ hi) := by
  have sub : ∀ x ∈ lo ++ hi, x ∈ lo ++ n :: hi := by
    intro x hx
    rcases List.mem_append.1 hx with hx | hx
    · exact List.mem_append_left _ hx
    · exact List.mem_append_right _ (List.mem_cons_of_mem _ hx)
  have elev : ∀ (ys : List ℕ) l, lev s' ys l = lev s ys l := by
    intro ys l
    unfold lev
    apply List.filter_congr
    intro x hx
    rw [eh]
  have nd0 := h.nodup
  rw [List.nodup_append] at nd0
  have hmn := h.hle n (by simp)
  constructor
  · rw [List.nodup_append]
    exact ⟨nd0.1, (List.nodup_cons.1 nd0.2.1).2, fun a ha b hb => nd0.2.2 a ha b (List.mem_cons_of_mem _ hb)⟩
  · intro x hx
    rw [enx]
    exact h.ids x (sub x hx)
  · rw [enx]
    exact h.next2
  · rw [eh]
    exact h.h1
  · intro x hx
    rw [eh, eh, ehp]
    exact h.hle x (sub x hx)
  · rw [eh, ehp]
    exact h.htail
  · intro l hl hl'
    rw [eh] at hl
    rw [ehp] at hl'
    rw [ep, if_neg (by omega)]
    exact h.stale l hl hl'
  · intro l hl
    rw [eh] at hl
    rw [elev, lev_append]
    have hp := h.path l hl
    have nd := h.full_nodup l
    rw [lev_append] at hp nd
    by_cases hc : l < s.hs n
    · have e1 : lev s (n :: hi) l = n :: lev s hi l := by
        unfold lev
        rw [List.filter_cons]
        simp [hc]
      rw [e1] at hp nd
      obtain ⟨Y, hY⟩ := fst_cons (lev s hi l)
      rw [List.append_assoc, List.cons_append, hY] at hp nd
      rw [List.append_assoc, hY, seg_append]
      rw [seg_append] at hp
      obtain ⟨p1, p2, p3, p4⟩ := hp
      rw [← List.cons_append, List.nodup_append] at nd
      obtain ⟨nA, nB, nAB⟩ := nd
      have hpm : s.prev l n ∈ head :: lev s lo l := by rw [p2.2]; exact lst_mem _ _
      have hsm : s.succ l n ∈ fst (lev s hi l) :: Y := by rw [p3.1]; exact List.mem_cons_self
      refine ⟨?_, ?_, ?_⟩
      · refine seg_mono _ _ nA p1 ?_
        rintro x y hx hxl hy ⟨h1, h2⟩
        constructor
        · rw [es, if_neg (fun hh => hxl (by rw [hh.2, p2.2])), h1]
        · rw [ep, if_neg (fun hh => nAB y (List.mem_cons_of_mem _ hy) _ (List.mem_cons_of_mem _ hsm) hh.2), h2]
      · constructor
        · rw [es, if_pos ⟨hc, p2.2.symm⟩, p3.1]
        · rw [ep, if_pos ⟨hc, p3.1.symm⟩, p2.2]
      · refine seg_mono _ _ (List.nodup_cons.1 nB).2 p4 ?_
        rintro x y hx hxl hy ⟨h1, h2⟩
        constructor
        · rw [es, if_neg (fun hh => nAB _ hpm x (List.mem_cons_of_mem _ hx) hh.2.symm), h1]
        · rw [ep, if_neg, h2]
          rintro ⟨_, hh⟩
          rw [p3.1] at hh
          exact (List.nodup_cons.1 (List.nodup_cons.1 nB).2).1 (hh ▸ hy)
    · have e1 : lev s (n :: hi) l = lev s hi l := by
        unfold lev
        rw [List.filter_cons]
        simp [hc]
      rw [e1] at hp nd
      refine seg_mono _ _ nd hp ?_
      rintro x y hx _ hy ⟨h1, h2⟩
      constructor
      · rw [es, if_neg (fun hh => hc hh.1), h1]
      · rw [ep, if_neg (fun hh => hc hh.1), h2]
  · rw [esz, h.size]
    simp
    omega

theorem trimmed_spec (s : S K V) (n : ℕ) : trimmed s n ≤ n ∧ (1 ≤ n → 1 ≤ trimmed s n) ∧ ∀ l, trimmed s n ≤ l → l < n → s.succ l head = tail := by
  induction n with
  | zero => exact ⟨le_rfl, by omega, by omega⟩
  | succ n ih =>
    unfold trimmed
    by_cases h1 : s.succ n head ≠ tail
    · rw [if_pos h1]
      exact ⟨le_rfl, by omega, by omega⟩
    · rw [if_neg h1]
      push Not at h1
      by_cases h2 : 0 < n
      · rw [if_pos h2]
        refine ⟨by omega, fun _ => ih.2.1 h2, ?_⟩
        intro l hl hl'
        by_cases hln : l = n
        · rw [hln]; exact h1
        · exact ih.2.2 l hl (by omega)
      · rw [if_neg h2]
        exact ⟨by omega, by omega, by omega⟩

theorem trim_inv {s : S K V} {xs : List ℕ} (h : Inv s xs) : Inv (trim s) xs := by
  obtain ⟨t1, t2, t3⟩ := trimmed_spec s (s.hs head)
  have eh : ∀ x ∈ xs, (trim s).hs x = s.hs x := by
    intro x hx
    unfold trim
    dsimp only
    rw [if_neg (not_head h hx)]
  have eH : (trim s).hs head = trimmed s (s.hs head) := by
    unfold trim
    simp
  have elev : ∀ l, lev (trim s) xs l = lev s xs l := by
    intro l
    unfold lev
    apply List.filter_congr
    intro x hx
    rw [eh x hx]
  have hempty : ∀ l, trimmed s (s.hs head) ≤ l → l < s.hs head → lev s xs l = [] := by
    intro l h1 h2
    have hp := h.path l h2
    cases hl : lev s xs l with
    | nil => rfl
    | cons y ys =>
      rw [hl] at hp
      have := hp.1.1
      rw [t3 l h1 h2] at this
      have hy : y ∈ lev s xs l := by rw [hl]; exact List.mem_cons_self
      exact absurd this.symm (not_tail h (mem_lev.1 hy).1)
  constructor
  · exact h.nodup
  · exact h.ids
  · exact h.next2
  · rw [eH]
    exact t2 h.h1
  · intro x hx
    obtain ⟨a, b, c⟩ := h.hle x hx
    rw [eH, eh x hx]
    refine ⟨a, ?_, c⟩
    by_contra hc
    push Not at hc
    have h2 := hempty (trimmed s (s.hs head)) le_rfl (by omega)
    have : x ∈ lev s xs (trimmed s (s.hs head)) := mem_lev.2 ⟨hx, hc⟩
    rw [h2] at this
    cases this
  · rw [eH]
    exact le_trans t1 h.htail
  · intro l hl hl'
    rw [eH] at hl
    by_cases hc : l < s.hs head
    · have hp := h.path l hc
      rw [hempty l hl hc] at hp
      exact hp.1.2
    · exact h.stale l (by omega) hl'
  · intro l hl
    rw [eH] at hl
    rw [elev]
    exact h.path l (by omega)
  · exact h.size

theorem grow_inv {s : S K V} {xs : List ℕ} (h : Inv s xs) (n : ℕ) : Inv (grow s n) xs := by
  have eH : (grow s n).hs head = max (s.hs head) n := by simp [grow]
  have eT : (grow s n).hp tail = s.hp tail + (n - s.hs head) := by simp [grow]
  have eh : ∀ x ∈ xs, (grow s n).hs x = s.hs x := by
    intro x hx
    unfold grow
    dsimp only
    rw [if_neg (not_head h hx)]
  have ehp : ∀ x ∈ xs, (grow s n).hp x = s.hp x := by
    intro x hx
    unfold grow
    dsimp only
    rw [if_neg (not_tail h hx)]
  have elev : ∀ l, lev (grow s n) xs l = lev s xs l := by
    intro l
    unfold lev
    apply List.filter_congr
    intro x hx
    rw [eh x hx]
  have ht := h.htail
  constructor
  · exact h.nodup
  · exact h.ids
  · exact h.next2
  · rw [eH]
    exact le_max_of_le_left h.h1
  · intro x hx
    obtain ⟨a, b, c⟩ := h.hle x hx
    rw [eH, eh x hx, ehp x hx]
    exact ⟨a, le_max_of_le_left b, c⟩
  · rw [eH, eT]
    omega
  · intro l hl hl'
    rw [eH] at hl
    rw [eT] at hl'
    unfold grow
    dsimp only
    by_cases hc : s.hp tail ≤ l
    · rw [if_pos ⟨rfl, hc⟩]
    · rw [if_neg (fun hh => hc hh.2)]
      exact h.stale l (by omega) (by omega)
  · intro l hl
    rw [eH] at hl
    rw [elev]
    by_cases hc : l < s.hs head
    · refine seg_mono _ _ (h.full_nodup l) (h.path l hc) ?_
      rintro x y _ _ _ ⟨h1, h2⟩
      constructor
      · change (if x = head ∧ s.hs head ≤ l then tail else s.succ l x) = y
        rw [if_neg (by omega), h1]
      · change (if y = tail ∧ s.hp tail ≤ l then head else s.prev l y) = x
        rw [if_neg (by omega), h2]
    · have he : lev s xs l = [] := by
        unfold lev
        apply List.filter_eq_nil_iff.2
        intro x hx
        have := (h.hle x hx).2.1
        simp
        omega
      rw [he]
      refine ⟨⟨?_, ?_⟩, trivial⟩
      · change (if head = head ∧ s.hs head ≤ l then tail else s.succ l head) = tail
        rw [if_pos ⟨rfl, by omega⟩]
      · change (if tail = tail ∧ s.hp tail ≤ l then head else s.prev l tail) = head
        by_cases hd : s.hp tail ≤ l
        · rw [if_pos ⟨rfl, hd⟩]
        · rw [if_neg (fun hh => hd hh.2)]
          exact h.stale l (by omega) (by omega)
  · exact h.size

end Verif.Skip
