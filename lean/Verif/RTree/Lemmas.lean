import Verif.RTree.Model
import Mathlib.Order.Lattice
import Mathlib.Order.MinMax
import Mathlib.Data.List.Perm.Basic
import Mathlib.Data.List.Perm.Subperm

namespace Verif.RTree
variable {K : Type}

section order
variable [LinearOrder K]

/-- `b` covers `r`. -/
def Covers (b r : Rect K) : Prop := b.minx ≤ r.minx ∧ b.miny ≤ r.miny ∧ r.maxx ≤ b.maxx ∧ r.maxy ≤ b.maxy

theorem Covers.refl (b : Rect K) : Covers b b := ⟨le_rfl, le_rfl, le_rfl, le_rfl⟩
theorem Covers.trans {a b c : Rect K} (h : Covers a b) (h' : Covers b c) : Covers a c :=
  ⟨h.1.trans h'.1, h.2.1.trans h'.2.1, h'.2.2.1.trans h.2.2.1, h'.2.2.2.trans h.2.2.2⟩
theorem covers_union_left (a b : Rect K) : Covers (a.union b) a :=
  ⟨min_le_left _ _, min_le_left _ _, le_max_left _ _, le_max_left _ _⟩
theorem covers_union_right (a b : Rect K) : Covers (a.union b) b :=
  ⟨min_le_right _ _, min_le_right _ _, le_max_right _ _, le_max_right _ _⟩

theorem intersect_iff (a b : Rect K) : a.intersect b = true ↔
    a.minx ≤ b.maxx ∧ b.miny ≤ a.maxy ∧ b.minx ≤ a.maxx ∧ a.miny ≤ b.maxy := by
  simp only [Rect.intersect, Bool.not_eq_true', Bool.or_eq_false_iff, decide_eq_false_iff_not, not_lt, gt_iff_lt]
  tauto

theorem Covers.intersect {b e q : Rect K} (h : Covers b e) (he : e.intersect q = true) : b.intersect q = true := by
  rw [intersect_iff] at *
  exact ⟨h.1.trans he.1, he.2.1.trans h.2.2.2, he.2.2.1.trans h.2.2.1, h.2.1.trans he.2.2.2⟩

theorem foldl_union {α : Type} (mbr : α → Option (Rect K)) (xs : List α) : ∀ (b : Rect K),
    (∀ x ∈ xs, (mbr x).isSome) →
    ∃ c, xs.foldl (fun acc y => acc.bind (fun a => (mbr y).map a.union)) (some b) = some c ∧ Covers c b ∧
      ∀ x ∈ xs, ∀ r, mbr x = some r → Covers c r := by
  induction xs with
  | nil => intro b _; exact ⟨b, rfl, Covers.refl b, by simp⟩
  | cons x xs ih =>
    intro b h
    obtain ⟨r, hr⟩ := Option.isSome_iff_exists.1 (h x List.mem_cons_self)
    obtain ⟨c, hc, h1, h2⟩ := ih (b.union r) (fun y hy => h y (List.mem_cons_of_mem _ hy))
    refine ⟨c, ?_, h1.trans (covers_union_left _ _), ?_⟩
    · rw [List.foldl_cons]
      simp only [Option.bind_some, hr, Option.map_some]
      exact hc
    · intro y hy s hs
      rcases List.mem_cons.1 hy with rfl | hy
      · rw [hr] at hs
        cases hs
        exact h1.trans (covers_union_right _ _)
      · exact h2 y hy s hs

theorem unionAll_spec {α : Type} (mbr : α → Option (Rect K)) (xs : List α) (hne : xs ≠ [])
    (h : ∀ x ∈ xs, (mbr x).isSome) :
    ∃ c, unionAll mbr xs = some c ∧ ∀ x ∈ xs, ∀ r, mbr x = some r → Covers c r := by
  cases xs with
  | nil => exact absurd rfl hne
  | cons x xs =>
    obtain ⟨r, hr⟩ := Option.isSome_iff_exists.1 (h x List.mem_cons_self)
    obtain ⟨c, hc, h1, h2⟩ := foldl_union mbr xs r (fun y hy => h y (List.mem_cons_of_mem _ hy))
    refine ⟨c, by simp only [unionAll, hr]; exact hc, ?_⟩
    intro y hy s hs
    rcases List.mem_cons.1 hy with rfl | hy
    · rw [hr] at hs; cases hs; exact h1
    · exact h2 y hy s hs

theorem insertBy_perm {α : Type} (key : α → K) (x : α) (xs : List α) : (insertBy key x xs).Perm (x :: xs) := by
  induction xs with
  | nil => exact List.Perm.refl _
  | cons y ys ih =>
    simp only [insertBy]
    split
    · exact List.Perm.refl _
    · exact (ih.cons y).trans (List.Perm.swap x y ys)

theorem sortBy_perm {α : Type} (key : α → K) (xs : List α) : (sortBy key xs).Perm xs := by
  induction xs with
  | nil => exact List.Perm.refl _
  | cons x xs ih => exact (insertBy_perm key x _).trans (ih.cons x)

end order

theorem mem_cuts {m k i : Nat} (hm : 0 < m) : i ∈ cuts m k ↔ m ≤ i ∧ i + m ≤ k := by
  unfold cuts
  rw [List.mem_drop_iff_getElem]
  constructor
  · rintro ⟨j, hj, rfl⟩
    simp only [List.length_range] at hj
    simp only [List.getElem_range]
    omega
  · rintro ⟨h1, h2⟩
    refine ⟨i - m, by simp only [List.length_range]; omega, ?_⟩
    simp only [List.getElem_range]
    omega

variable [CommRing K] [LinearOrder K]

theorem margin_some {α : Type} (mbr : α → Option (Rect K)) (m : Nat) (hm : 0 < m) (xs : List α)
    (h : ∀ x ∈ xs, (mbr x).isSome) : ∃ v, margin mbr m xs = some v := by
  unfold margin
  have hc : ∀ i ∈ cuts m xs.length, 0 < i ∧ i < xs.length := fun i hi => by
    have := (mem_cuts hm).1 hi; omega
  generalize cuts m xs.length = cs at *
  suffices H : ∀ v : K, ∃ w, cs.foldl (fun acc i => do
      let a ← acc
      let l ← unionAll mbr (xs.take i)
      let r ← unionAll mbr (xs.drop i)
      some (a + (l.perimeter + r.perimeter))) (some v) = some w from H 0
  induction cs with
  | nil => intro v; exact ⟨v, rfl⟩
  | cons i is ih =>
    intro v
    obtain ⟨h1, h2⟩ := hc i List.mem_cons_self
    obtain ⟨l, hl, _⟩ := unionAll_spec mbr (xs.take i) (by simp; constructor; omega; rintro rfl; simp at h2)
      (fun x hx => h x (List.mem_of_mem_take hx))
    obtain ⟨r, hr, _⟩ := unionAll_spec mbr (xs.drop i) (by simp; omega) (fun x hx => h x (List.mem_of_mem_drop hx))
    rw [List.foldl_cons]
    simp only [Option.bind_eq_bind, Option.bind_some, hl, hr]
    exact ih (fun j hj => hc j (List.mem_cons_of_mem _ hj)) _

theorem bestCut_some {α : Type} (mbr : α → Option (Rect K)) (xs : List α) (h : ∀ x ∈ xs, (mbr x).isSome) :
    ∀ (cs : List Nat) (best : Option (Nat × K)), (∀ i ∈ cs, 0 < i ∧ i < xs.length) → (best = none → cs ≠ []) →
      ∃ i v, bestCut mbr xs cs best = some (some (i, v)) ∧ (i ∈ cs ∨ ∃ w, best = some (i, w)) := by
  intro cs
  induction cs with
  | nil =>
    intro best _ hb
    cases best with
    | none => exact absurd rfl (hb rfl)
    | some b => exact ⟨b.1, b.2, rfl, .inr ⟨b.2, rfl⟩⟩
  | cons i is ih =>
    intro best hc _
    obtain ⟨h1, h2⟩ := hc i List.mem_cons_self
    obtain ⟨l, hl, _⟩ := unionAll_spec mbr (xs.take i) (by simp; constructor; omega; rintro rfl; simp at h2)
      (fun x hx => h x (List.mem_of_mem_take hx))
    obtain ⟨r, hr, _⟩ := unionAll_spec mbr (xs.drop i) (by simp; omega) (fun x hx => h x (List.mem_of_mem_drop hx))
    have hc' : ∀ j ∈ is, 0 < j ∧ j < xs.length := fun j hj => hc j (List.mem_cons_of_mem _ hj)
    simp only [bestCut, Option.bind_eq_bind, hl, hr, Option.bind_some]
    have fin : ∀ (j : Nat) (b : K), (j = i ∨ ∃ w, best = some (j, w)) →
        ∃ i' v, bestCut mbr xs is (some (j, b)) = some (some (i', v)) ∧ (i' ∈ i :: is ∨ ∃ w, best = some (i', w)) := by
      intro j b hj
      obtain ⟨i', v, e, hm⟩ := ih (some (j, b)) hc' (by simp)
      refine ⟨i', v, e, ?_⟩
      rcases hm with hm | ⟨w, hw⟩
      · exact .inl (List.mem_cons_of_mem _ hm)
      · cases hw
        rcases hj with rfl | hj
        · exact .inl List.mem_cons_self
        · exact .inr hj
    cases best with
    | none => exact fin i _ (.inl rfl)
    | some b =>
      obtain ⟨j, b⟩ := b
      dsimp only
      split
      · exact fin i _ (.inl rfl)
      · exact fin j b (.inr ⟨b, rfl⟩)

/-- `_split_node` distributes the children into two groups of at least `m`. -/
theorem split_spec {α : Type} (mbr : α → Option (Rect K)) (m : Nat) (hm : 0 < m) (xs : List α)
    (hl : 2 * m ≤ xs.length) (h : ∀ x ∈ xs, (mbr x).isSome) :
    ∃ a b, split mbr m xs = some (a, b) ∧ (a ++ b).Perm xs ∧ m ≤ a.length ∧ m ≤ b.length := by
  unfold split
  dsimp only
  have p1 := sortBy_perm (fun x => ((mbr x).map Rect.minx).getD 0) xs
  generalize sortBy (fun x => ((mbr x).map Rect.minx).getD 0) xs = s1 at *
  have p2 := sortBy_perm (fun x => ((mbr x).map Rect.miny).getD 0) s1
  generalize hs2 : sortBy (fun x => ((mbr x).map Rect.miny).getD 0) s1 = s2 at *
  obtain ⟨mx, hmx⟩ := margin_some mbr m hm s1 (fun x hx => h x (p1.mem_iff.1 hx))
  obtain ⟨my, hmy⟩ := margin_some mbr m hm s2 (fun x hx => h x (p1.mem_iff.1 (p2.mem_iff.1 hx)))
  have p3 : ∃ s3, (if mx ≤ my then sortBy (fun x => ((mbr x).map Rect.minx).getD 0) s2 else
      sortBy (fun x => ((mbr x).map Rect.miny).getD 0) s2) = s3 ∧ s3.Perm s2 := by
    split
    · exact ⟨_, rfl, sortBy_perm _ _⟩
    · exact ⟨_, rfl, sortBy_perm _ _⟩
  obtain ⟨s3, e3, p3⟩ := p3
  have p := p3.trans (p2.trans p1)
  have hlen := p.length_eq
  obtain ⟨i, v, e, hmem⟩ := bestCut_some mbr s3 (fun x hx => h x (p.mem_iff.1 hx)) (cuts m s3.length) none
    (fun i hi => by have := (mem_cuts hm).1 hi; omega)
    (fun _ hn => by
      have : m ∈ cuts m s3.length := (mem_cuts hm).2 ⟨le_rfl, by omega⟩
      rw [hn] at this; simp at this)
  have hi : i ∈ cuts m s3.length := by
    rcases hmem with h | ⟨w, hw⟩
    · exact h
    · cases hw
  have := (mem_cuts hm).1 hi
  refine ⟨s3.take i, s3.drop i, ?_, ?_, ?_, ?_⟩
  · simp only [Option.bind_eq_bind, hmx, hmy, Option.bind_some, e3, e]
  · rw [List.take_append_drop]; exact p
  · rw [List.length_take]; omega
  · rw [List.length_drop]; omega

theorem chooseLoop_some (r : Rect K) : ∀ (cs : List (Tree K)) (i : Nat) (best : Option (Nat × K)),
    (∀ c ∈ cs, c.mbr.isSome) → (best = none → cs ≠ []) →
    ∃ j v, chooseLoop r cs i best = some (some (j, v)) ∧ ((i ≤ j ∧ j < i + cs.length) ∨ ∃ w, best = some (j, w)) := by
  intro cs
  induction cs with
  | nil =>
    intro i best _ hb
    cases best with
    | none => exact absurd rfl (hb rfl)
    | some b => exact ⟨b.1, b.2, rfl, .inr ⟨b.2, rfl⟩⟩
  | cons c cs ih =>
    intro i best hc _
    obtain ⟨b, hb⟩ := Option.isSome_iff_exists.1 (hc c List.mem_cons_self)
    have hc' : ∀ c ∈ cs, c.mbr.isSome := fun x hx => hc x (List.mem_cons_of_mem _ hx)
    simp only [chooseLoop, hb, Option.bind_eq_bind, Option.bind_some]
    have fin : ∀ (j : Nat) (f : K), (j = i ∨ ∃ w, best = some (j, w)) →
        ∃ j' v, chooseLoop r cs (i + 1) (some (j, f)) = some (some (j', v)) ∧
          ((i ≤ j' ∧ j' < i + (c :: cs).length) ∨ ∃ w, best = some (j', w)) := by
      intro j f hj
      obtain ⟨j', v, e, hm⟩ := ih (i + 1) (some (j, f)) hc' (by simp)
      refine ⟨j', v, e, ?_⟩
      simp only [List.length_cons]
      rcases hm with hm | ⟨w, hw⟩
      · exact .inl ⟨by omega, by omega⟩
      · cases hw
        rcases hj with rfl | hj
        · exact .inl ⟨le_rfl, by omega⟩
        · exact .inr hj
    cases best with
    | none => exact fin i _ (.inl rfl)
    | some b' =>
      obtain ⟨j, f⟩ := b'
      dsimp only
      split
      · exact fin i _ (.inl rfl)
      · exact fin j f (.inr ⟨f, rfl⟩)

mutual
/-- A non-root node: its rectangle is known, and so on below. -/
def Good : Tree K → Prop
  | .leaf m _ => m.isSome
  | .inner m cs => m.isSome ∧ cs ≠ [] ∧ GoodL cs
def GoodL : List (Tree K) → Prop
  | [] => True
  | c :: cs => Good c ∧ GoodL cs
end

omit [CommRing K] [LinearOrder K] in
theorem goodL_iff (cs : List (Tree K)) : GoodL cs ↔ ∀ c ∈ cs, Good c := by
  induction cs with
  | nil => simp [GoodL]
  | cons c cs ih => simp [GoodL, ih]

omit [CommRing K] [LinearOrder K] in
theorem Good.mbr {t : Tree K} (h : Good t) : t.mbr.isSome := by
  cases t with
  | leaf m es => exact h
  | inner m cs => exact h.1

/-- The root: like a good node but its own rectangle may be unknown. -/
def Root : Tree K → Prop
  | .leaf _ _ => True
  | .inner _ cs => cs ≠ [] ∧ GoodL cs

omit [CommRing K] [LinearOrder K] in
theorem Good.root {t : Tree K} (h : Good t) : Root t := by
  cases t with
  | leaf m es => trivial
  | inner m cs => exact h.2

omit [CommRing K] [LinearOrder K] in
theorem depth_mem {cs : List (Tree K)} {c : Tree K} (h : c ∈ cs) : depth c ≤ depthL cs := by
  induction cs with
  | nil => simp at h
  | cons d ds ih =>
    simp only [depthL]
    rcases List.mem_cons.1 h with rfl | h
    · omega
    · have := ih h; omega

omit [CommRing K] [LinearOrder K] in
theorem entriesL_append (a b : List (Tree K)) : entriesL (a ++ b) = entriesL a ++ entriesL b := by
  induction a with
  | nil => simp [entriesL]
  | cons c cs ih => simp [entriesL, ih]

omit [CommRing K] [LinearOrder K] in
theorem entriesL_perm {a b : List (Tree K)} (h : a.Perm b) : (entriesL a).Perm (entriesL b) := by
  induction h with
  | nil => exact List.Perm.refl _
  | cons x _ ih => simp only [entriesL]; exact ih.append_left _
  | swap x y l =>
    simp only [entriesL, ← List.append_assoc]
    exact List.perm_append_comm.append_right _
  | trans _ _ ih1 ih2 => exact ih1.trans ih2

/-- Entries of the optional split-off node. -/
def sibEntries : Option (Tree K) → List (Rect K)
  | none => []
  | some t => entries t

theorem insertTree_spec (M m : Nat) (hm : 0 < m) (hM : 2 * m ≤ M + 1) (r : Rect K) :
    ∀ (f : Nat) (t : Tree K), depth t ≤ f → Root t →
      ∃ t' sib, insertTree M m r f t = some (t', sib) ∧ Root t' ∧ ((t.mbr.isSome ∨ ∃ mb es, t = .leaf mb es) → Good t') ∧
        (∀ s, sib = some s → Good s) ∧ (entries t' ++ sibEntries sib).Perm (entries t ++ [r]) ∧
        ((∃ mb es, t = .leaf mb es) → ∃ mb es, t' = .leaf mb es) := by
  intro f
  induction f with
  | zero =>
    intro t hd
    cases t with
    | leaf => simp [depth] at hd
    | inner => simp [depth] at hd
  | succ f ih =>
    intro t hd hr
    cases t with
    | leaf mb es =>
      simp only [insertTree]
      split
      · rename_i hlen
        obtain ⟨a, b, e, hp, ha, hb⟩ := split_spec (some : Rect K → Option (Rect K)) m hm (es ++ [r]) (by omega)
          (by simp)
        obtain ⟨ca, hca, _⟩ := unionAll_spec (some : Rect K → Option (Rect K)) a
          (by rintro rfl; simp at ha; omega) (by simp)
        obtain ⟨cb, hcb, _⟩ := unionAll_spec (some : Rect K → Option (Rect K)) b
          (by rintro rfl; simp at hb; omega) (by simp)
        refine ⟨.leaf (unionAll some a) a, some (.leaf (unionAll some b) b), by simp [e], trivial, ?_, ?_, ?_, ?_⟩
        · intro _; simp [Good, hca]
        · rintro s ⟨⟩; simp [Good, hcb]
        · simpa [entries, sibEntries] using hp
        · intro _; exact ⟨_, _, rfl⟩
      · obtain ⟨ca, hca, _⟩ := unionAll_spec (some : Rect K → Option (Rect K)) (es ++ [r]) (by simp) (by simp)
        exact ⟨_, none, rfl, trivial, fun _ => by simp [Good, hca], by simp, by simp [entries, sibEntries],
          fun _ => ⟨_, _, rfl⟩⟩
    | inner mb cs =>
      obtain ⟨hne, hg⟩ := hr
      rw [goodL_iff] at hg
      obtain ⟨j, v, e, hj⟩ := chooseLoop_some r cs 0 none (fun c hc => (hg c hc).mbr) (fun _ => hne)
      have hjl : j < cs.length := by
        rcases hj with h | ⟨w, hw⟩
        · omega
        · cases hw
      have hget : cs[j]? = some cs[j] := List.getElem?_eq_getElem hjl
      have hmem : cs[j] ∈ cs := List.getElem_mem hjl
      obtain ⟨c', sib, e', hroot, hgood, hsib, hperm, _⟩ := ih cs[j]
        (by have := depth_mem hmem; simp only [depth] at hd; omega) (hg _ hmem).root
      have hgc' : Good c' := hgood (.inl (hg _ hmem).mbr)
      have hset : ∀ c ∈ cs.set j c', Good c := by
        intro c hc
        rcases List.mem_or_eq_of_mem_set hc with h | rfl
        · exact hg c h
        · exact hgc'
      have hne' : cs.set j c' ≠ [] := by
        intro h; have := congrArg List.length h; simp at this; exact hne this
      refine ⟨.inner mb (cs.set j c'), sib, ?_, ⟨hne', (goodL_iff _).2 hset⟩, ?_, hsib, ?_, ?_⟩
      · simp only [insertTree, e, Option.bind_eq_bind, Option.bind_some, hget, e']
      · rintro (h | ⟨_, _, h⟩)
        · exact ⟨h, hne', (goodL_iff _).2 hset⟩
        · cases h
      · simp only [entries]
        have hsplit : cs = cs.take j ++ cs[j] :: cs.drop (j + 1) := by
          rw [← List.drop_eq_getElem_cons hjl, List.take_append_drop]
        have hs2 : cs.set j c' = cs.take j ++ c' :: cs.drop (j + 1) := by
          rw [List.set_eq_take_append_cons_drop, if_pos hjl]
        rw [hs2]
        conv_rhs => rw [hsplit]
        simp only [entriesL_append, entriesL, List.append_assoc]
        refine List.Perm.append_left _ ?_
        -- entries c' ++ (rest ++ sib) ~ entries c ++ (rest ++ [r])
        have h1 : (entries c' ++ (entriesL (cs.drop (j + 1)) ++ sibEntries sib)).Perm
            (entries c' ++ sibEntries sib ++ entriesL (cs.drop (j + 1))) := by
          rw [List.append_assoc]; exact List.perm_append_comm.append_left _
        refine h1.trans ((hperm.append_right _).trans ?_)
        rw [List.append_assoc]
        exact List.perm_append_comm.append_left _
      · rintro ⟨_, _, h⟩; cases h

theorem attach_spec (M m : Nat) (hm : 0 < m) (hM : 2 * m ≤ M + 1) (root sib : Tree K) (hr : Root root)
    (hl : (∃ mb es, root = .leaf mb es) → Good root) (hs : Good sib) :
    ∃ t, attach M m root sib = some t ∧ Root t ∧ (entries t).Perm (entries root ++ entries sib) := by
  cases root with
  | leaf mb es =>
    refine ⟨_, rfl, ⟨by simp, ?_⟩, by simp [entries, entriesL]⟩
    rw [goodL_iff]
    intro c hc
    simp only [List.mem_cons, List.not_mem_nil, or_false] at hc
    rcases hc with rfl | rfl
    · exact hl ⟨_, _, rfl⟩
    · exact hs
  | inner mb cs =>
    obtain ⟨hne, hg⟩ := hr
    rw [goodL_iff] at hg
    have hg' : ∀ c ∈ cs ++ [sib], Good c := by
      intro c hc
      rcases List.mem_append.1 hc with h | h
      · exact hg c h
      · rw [List.mem_singleton.1 h]; exact hs
    obtain ⟨c, hc, _⟩ := unionAll_spec Tree.mbr (cs ++ [sib]) (by simp) (fun c hc => (hg' c hc).mbr)
    simp only [attach, hc, Option.bind_eq_bind, Option.bind_some]
    split
    · rename_i hlen
      obtain ⟨a, b, e, hp, ha, hb⟩ := split_spec Tree.mbr m hm (cs ++ [sib]) (by omega) (fun c hc => (hg' c hc).mbr)
      have hane : a ≠ [] := by rintro rfl; simp at ha; omega
      have hbne : b ≠ [] := by rintro rfl; simp at hb; omega
      have hga : ∀ c ∈ a, Good c := fun c hc => hg' c (hp.mem_iff.1 (List.mem_append_left _ hc))
      have hgb : ∀ c ∈ b, Good c := fun c hc => hg' c (hp.mem_iff.1 (List.mem_append_right _ hc))
      obtain ⟨ca, hca, _⟩ := unionAll_spec Tree.mbr a hane (fun c hc => (hga c hc).mbr)
      obtain ⟨cb, hcb, _⟩ := unionAll_spec Tree.mbr b hbne (fun c hc => (hgb c hc).mbr)
      refine ⟨.inner none [.inner (unionAll Tree.mbr a) a, .inner (unionAll Tree.mbr b) b], ?_, ⟨by simp, ?_⟩, ?_⟩
      · simp [e]
      · rw [goodL_iff]
        intro c hc
        simp only [List.mem_cons, List.not_mem_nil, or_false] at hc
        rcases hc with rfl | rfl
        · exact ⟨by simp [hca], hane, (goodL_iff _).2 hga⟩
        · exact ⟨by simp [hcb], hbne, (goodL_iff _).2 hgb⟩
      · simp only [entries, entriesL, List.append_nil]
        rw [← entriesL_append]
        refine (entriesL_perm hp).trans ?_
        rw [entriesL_append]
        simp [entriesL]
    · exact ⟨_, rfl, ⟨by simp, (goodL_iff _).2 hg'⟩, by simp [entries, entriesL_append, entriesL]⟩

theorem insert_spec (M m : Nat) (hm : 0 < m) (hM : 2 * m ≤ M + 1) (t : Tree K) (hr : Root t) (r : Rect K) :
    ∃ t', insert M m t r = some t' ∧ Root t' ∧ (entries t').Perm (entries t ++ [r]) := by
  obtain ⟨t', sib, e, hroot, hgood, hsib, hperm, hleaf⟩ := insertTree_spec M m hm hM r (depth t) t le_rfl hr
  unfold insert
  simp only [e, Option.bind_eq_bind, Option.bind_some]
  cases sib with
  | none => exact ⟨t', rfl, hroot, by simpa [sibEntries] using hperm⟩
  | some s =>
    obtain ⟨t2, e2, hr2, hp2⟩ := attach_spec M m hm hM t' s hroot (fun h => by
      -- a leaf result comes from a leaf
      cases t with
      | leaf mb es => exact hgood (.inr ⟨_, _, rfl⟩)
      | inner mb cs =>
        exfalso
        obtain ⟨mb', es', rfl⟩ := h
        simp only [depth, insertTree, Option.bind_eq_bind] at e
        rw [Option.bind_eq_some_iff] at e
        obtain ⟨b, _, e⟩ := e
        rw [Option.bind_eq_some_iff] at e
        obtain ⟨b, _, e⟩ := e
        rw [Option.bind_eq_some_iff] at e
        obtain ⟨c, _, e⟩ := e
        rw [Option.bind_eq_some_iff] at e
        obtain ⟨c, _, e⟩ := e
        simp at e) (hsib s rfl)
    exact ⟨t2, e2, hr2, hp2.trans hperm⟩

theorem run_spec (M m : Nat) (hm : 0 < m) (hM : 2 * m ≤ M + 1) (rs : List (Rect K)) : ∀ (t : Tree K), Root t →
    ∃ t', run M m t rs = some t' ∧ Root t' ∧ (entries t').Perm (entries t ++ rs) := by
  induction rs with
  | nil => intro t h; exact ⟨t, rfl, h, by simp⟩
  | cons r rs ih =>
    intro t h
    obtain ⟨t1, e1, h1, p1⟩ := insert_spec M m hm hM t h r
    obtain ⟨t2, e2, h2, p2⟩ := ih t1 h1
    refine ⟨t2, by simp [run, e1, e2], h2, p2.trans ?_⟩
    simpa using p1.append_right rs

mutual
theorem search_good (q : Rect K) : ∀ t : Tree K, Root t →
    ∃ res, search q t = some res ∧ res.Subperm (entries t) ∧ ∀ x ∈ res, x.intersect q = true
  | .leaf _ es, _ => ⟨es.filter (fun e => e.intersect q), by simp [search], List.filter_sublist.subperm,
      fun x hx => (List.mem_filter.1 hx).2⟩
  | .inner _ cs, h => by
    obtain ⟨res, e, h1, h2⟩ := searchL_good q cs h.2
    exact ⟨res, by simpa [search] using e, by simpa [entries] using h1, h2⟩
theorem searchL_good (q : Rect K) : ∀ cs : List (Tree K), GoodL cs →
    ∃ res, searchL q cs = some res ∧ res.Subperm (entriesL cs) ∧ ∀ x ∈ res, x.intersect q = true
  | [], _ => ⟨[], by simp [searchL], by simp, by simp⟩
  | c :: cs, h => by
    obtain ⟨b, hb⟩ := Option.isSome_iff_exists.1 h.1.mbr
    obtain ⟨r1, e1, s1, i1⟩ := search_good q c h.1.root
    obtain ⟨r2, e2, s2, i2⟩ := searchL_good q cs h.2
    simp only [searchL, hb, entriesL]
    split
    · refine ⟨r1 ++ r2, by simp [e1, e2], s1.append s2, ?_⟩
      intro x hx
      rcases List.mem_append.1 hx with h | h
      · exact i1 x h
      · exact i2 x h
    · exact ⟨r2, e2, s2.trans (List.sublist_append_right _ _).subperm, i2⟩
end

end Verif.RTree
