import Verif.Cp.Model
import Verif.DnC.Props
import Mathlib.Analysis.Real.Sqrt
import Mathlib.Data.List.Pairwise
import Mathlib.Algebra.Order.Field.Rat
import Mathlib.Data.Rat.Floor
import Mathlib.Tactic.Linarith
import Mathlib.Tactic.NormNum
import Mathlib.Tactic.FieldSimp
import Mathlib.Tactic.Ring

/-! # C224: `min_distance` finds a closest pair -/

set_option linter.unusedSectionVars false

namespace Verif.Cp

variable {K : Type} [Field K] [LinearOrder K] [IsStrictOrderedRing K]

/-- What the algorithm needs from a distance. -/
structure IsDist (dist : P K → P K → K) : Prop where
  symm : ∀ p q, dist p q = dist q p
  dx : ∀ p q : P K, |p.x - q.x| ≤ dist p q
  dy : ∀ p q : P K, |p.y - q.y| ≤ dist p q

/-- `m` is the initial value or the distance of two different points of `A`, with their indices. -/
def Att (dist : P K → P K → K) (A : List (P K)) (m : Best K) : Prop :=
  m = (⊤, (-1, -1)) ∨ ∃ p ∈ A, ∃ q ∈ A, p.i ≠ q.i ∧ m = ((dist p q : WithTop K), ((p.i : ℤ), (q.i : ℤ)))

variable {dist : P K → P K → K} {A : List (P K)}

theorem stripInner_spec (hd : IsDist dist) (p : P K) (l : List (P K)) (hs : l.Pairwise fun a b => a.y ≤ b.y) :
    ∀ m : Best K, (stripInner dist p l m).1 ≤ m.1 ∧ (∀ q ∈ l, (stripInner dist p l m).1 ≤ dist p q) := by
  induction l with
  | nil => intro m; simp [stripInner]
  | cons q l ih =>
    intro m
    rw [List.pairwise_cons] at hs
    unfold stripInner
    by_cases h1 : ((q.y - p.y : K) : WithTop K) < m.1
    · rw [if_pos h1]
      by_cases h2 : (dist p q : WithTop K) < m.1
      · rw [if_pos h2]
        obtain ⟨i1, i2⟩ := ih hs.2 ((dist p q : WithTop K), ((p.i : ℤ), (q.i : ℤ)))
        refine ⟨i1.trans h2.le, ?_⟩
        intro r hr
        rcases List.mem_cons.1 hr with rfl | hr
        · exact i1
        · exact i2 r hr
      · rw [if_neg h2]
        obtain ⟨i1, i2⟩ := ih hs.2 m
        refine ⟨i1, ?_⟩
        intro r hr
        rcases List.mem_cons.1 hr with rfl | hr
        · exact i1.trans (not_lt.1 h2)
        · exact i2 r hr
    · rw [if_neg h1]
      refine ⟨le_rfl, ?_⟩
      intro r hr
      refine (not_lt.1 h1).trans (WithTop.coe_le_coe.2 ?_)
      have hy : q.y ≤ r.y := by
        rcases List.mem_cons.1 hr with rfl | hr
        · exact le_rfl
        · exact hs.1 r hr
      have h3 := hd.dy p r
      have h4 := neg_abs_le (p.y - r.y)
      linarith

theorem stripInner_att (p : P K) (hp : p ∈ A) (l : List (P K)) (hA : ∀ q ∈ l, q ∈ A) (hi : ∀ q ∈ l, p.i ≠ q.i) :
    ∀ m : Best K, Att dist A m → Att dist A (stripInner dist p l m) := by
  induction l with
  | nil => intro m hm; exact hm
  | cons q l ih =>
    intro m hm
    have ih' := ih (fun r hr => hA r (List.mem_cons_of_mem _ hr)) (fun r hr => hi r (List.mem_cons_of_mem _ hr))
    unfold stripInner
    split_ifs
    · exact ih' _ (Or.inr ⟨p, hp, q, hA q List.mem_cons_self, hi q List.mem_cons_self, rfl⟩)
    · exact ih' _ hm
    · exact hm

theorem stripLoop_spec (hd : IsDist dist) (l : List (P K)) (hs : l.Pairwise fun a b => a.y ≤ b.y) :
    ∀ m : Best K, (stripLoop dist l m).1 ≤ m.1 ∧ l.Pairwise fun p q => (stripLoop dist l m).1 ≤ dist p q := by
  induction l with
  | nil => intro m; simp [stripLoop]
  | cons p l ih =>
    intro m
    rw [List.pairwise_cons] at hs ⊢
    unfold stripLoop
    obtain ⟨a1, a2⟩ := stripInner_spec hd p l hs.2 m
    obtain ⟨b1, b2⟩ := ih hs.2 (stripInner dist p l m)
    exact ⟨b1.trans a1, fun q hq => b1.trans (a2 q hq), b2⟩

theorem stripLoop_att (l : List (P K)) (hA : ∀ q ∈ l, q ∈ A) (hi : l.Pairwise fun a b => a.i ≠ b.i) :
    ∀ m : Best K, Att dist A m → Att dist A (stripLoop dist l m) := by
  induction l with
  | nil => intro m hm; exact hm
  | cons p l ih =>
    intro m hm
    rw [List.pairwise_cons] at hi
    exact ih (fun r hr => hA r (List.mem_cons_of_mem _ hr)) hi.2 _
      (stripInner_att p (hA p List.mem_cons_self) l (fun r hr => hA r (List.mem_cons_of_mem _ hr)) hi.1 m hm)

theorem bruteInner_spec (p : P K) (l : List (P K)) :
    ∀ m : Best K, (bruteInner dist p l m).1 ≤ m.1 ∧ ∀ q ∈ l, (bruteInner dist p l m).1 ≤ dist p q := by
  induction l with
  | nil => intro m; simp [bruteInner]
  | cons q l ih =>
    intro m
    unfold bruteInner
    by_cases h : (dist p q : WithTop K) < m.1
    · rw [if_pos h]
      obtain ⟨i1, i2⟩ := ih ((dist p q : WithTop K), ((p.i : ℤ), (q.i : ℤ)))
      refine ⟨i1.trans h.le, ?_⟩
      intro r hr
      rcases List.mem_cons.1 hr with rfl | hr
      · exact i1
      · exact i2 r hr
    · rw [if_neg h]
      obtain ⟨i1, i2⟩ := ih m
      refine ⟨i1, ?_⟩
      intro r hr
      rcases List.mem_cons.1 hr with rfl | hr
      · exact i1.trans (not_lt.1 h)
      · exact i2 r hr

theorem bruteInner_att (p : P K) (hp : p ∈ A) (l : List (P K)) (hA : ∀ q ∈ l, q ∈ A) (hi : ∀ q ∈ l, p.i ≠ q.i) :
    ∀ m : Best K, Att dist A m → Att dist A (bruteInner dist p l m) := by
  induction l with
  | nil => intro m hm; exact hm
  | cons q l ih =>
    intro m hm
    have ih' := ih (fun r hr => hA r (List.mem_cons_of_mem _ hr)) (fun r hr => hi r (List.mem_cons_of_mem _ hr))
    unfold bruteInner
    split_ifs
    · exact ih' _ (Or.inr ⟨p, hp, q, hA q List.mem_cons_self, hi q List.mem_cons_self, rfl⟩)
    · exact ih' _ hm

theorem brute_spec (l : List (P K)) :
    ∀ m : Best K, (brute dist l m).1 ≤ m.1 ∧ l.Pairwise fun p q => (brute dist l m).1 ≤ dist p q := by
  induction l with
  | nil => intro m; simp [brute]
  | cons p l ih =>
    intro m
    rw [List.pairwise_cons]
    unfold brute
    obtain ⟨a1, a2⟩ := bruteInner_spec (dist := dist) p l m
    obtain ⟨b1, b2⟩ := ih (bruteInner dist p l m)
    exact ⟨b1.trans a1, fun q hq => b1.trans (a2 q hq), b2⟩

theorem brute_att (l : List (P K)) (hA : ∀ q ∈ l, q ∈ A) (hi : l.Pairwise fun a b => a.i ≠ b.i) :
    ∀ m : Best K, Att dist A m → Att dist A (brute dist l m) := by
  induction l with
  | nil => intro m hm; exact hm
  | cons p l ih =>
    intro m hm
    rw [List.pairwise_cons] at hi
    exact ih (fun r hr => hA r (List.mem_cons_of_mem _ hr)) hi.2 _
      (bruteInner_att p (hA p List.mem_cons_self) l (fun r hr => hA r (List.mem_cons_of_mem _ hr)) hi.1 m hm)

/-- A bound for all pairs in the order of the list is a bound for all pairs. -/
theorem all_pairs (hd : IsDist dist) (l : List (P K)) (b : WithTop K) (h : l.Pairwise fun p q => b ≤ dist p q) :
    ∀ p ∈ l, ∀ q ∈ l, p.i ≠ q.i → b ≤ dist p q := by
  induction l with
  | nil => simp
  | cons a l ih =>
    rw [List.pairwise_cons] at h
    intro p hp q hq hne
    rcases List.mem_cons.1 hp with rfl | hp'
    · rcases List.mem_cons.1 hq with rfl | hq'
      · exact absurd rfl hne
      · exact h.1 q hq'
    · rcases List.mem_cons.1 hq with rfl | hq'
      · rw [hd.symm]; exact h.1 p hp'
      · exact ih h.2 p hp' q hq' hne

theorem strip_spec (hd : IsDist dist) (l : List (P K)) (m : Best K) : (stripClosest dist l m).1 ≤ m.1 ∧
    ∀ p ∈ l, ∀ q ∈ l, p.i ≠ q.i → (stripClosest dist l m).1 ≤ dist p q := by
  have hs : (l.insertionSort fun p q => p.y ≤ q.y).Pairwise fun a b => a.y ≤ b.y :=
    haveI : Std.Total (fun p q : P K => p.y ≤ q.y) := ⟨fun a b => le_total _ _⟩
    haveI : IsTrans (P K) (fun p q : P K => p.y ≤ q.y) := ⟨fun a b c => le_trans⟩
    List.pairwise_insertionSort _ l
  obtain ⟨h1, h2⟩ := stripLoop_spec hd _ hs m
  refine ⟨h1, fun p hp q hq => ?_⟩
  exact all_pairs hd _ _ h2 p ((List.perm_insertionSort _ l).mem_iff.2 hp) q ((List.perm_insertionSort _ l).mem_iff.2 hq)

theorem strip_att (l : List (P K)) (hA : ∀ q ∈ l, q ∈ A) (hi : l.Pairwise fun a b => a.i ≠ b.i) (m : Best K)
    (hm : Att dist A m) : Att dist A (stripClosest dist l m) := by
  apply stripLoop_att _ _ _ m hm
  · intro q hq
    exact hA q ((List.perm_insertionSort _ l).mem_iff.1 hq)
  · exact (List.perm_insertionSort _ l).symm.pairwise hi (fun h => h.symm)

/-- The invariant of the recursion. -/
theorem closestUtil_spec (hd : IsDist dist) (fuel : ℕ) : ∀ xs ys : List (P K), xs.length ≤ fuel →
    xs.Pairwise (fun a b => a.x ≤ b.x) → xs.Pairwise (fun a b => a.i ≠ b.i) → ys.Pairwise (fun a b => a.i ≠ b.i) →
    (∀ p ∈ xs, p ∈ A) → (∀ p ∈ ys, p ∈ A) →
    ∃ r, closestUtil dist fuel xs ys = some r ∧ Att dist A r ∧
      ∀ p ∈ xs, p ∈ ys → ∀ q ∈ xs, q ∈ ys → p.i ≠ q.i → r.1 ≤ dist p q := by
  induction fuel with
  | zero =>
    intro xs ys hl hs hx hy hA hB
    have : xs = [] := List.length_eq_zero_iff.1 (by omega)
    subst this
    refine ⟨(⊤, (-1, -1)), by unfold closestUtil; rw [if_pos (by simp)]; rfl, Or.inl rfl, by simp⟩
  | succ k ih =>
    intro xs ys hl hs hx hy hA hB
    by_cases h3 : xs.length ≤ 3
    · refine ⟨_, by unfold closestUtil; rw [if_pos h3], brute_att xs hA hx _ (Or.inl rfl), ?_⟩
      intro p hp _ q hq _ hne
      exact all_pairs hd xs _ (brute_spec xs _).2 p hp q hq hne
    · have hmid : xs.length / 2 < xs.length := by omega
      obtain ⟨m, hm⟩ : ∃ m, xs[xs.length / 2]? = some m := ⟨_, List.getElem?_eq_getElem hmid⟩
      have hsplit := List.take_append_drop (xs.length / 2) xs
      have hsp : (xs.take (xs.length / 2)).Pairwise (fun a b => a.x ≤ b.x) ∧ (xs.drop (xs.length / 2)).Pairwise (fun a b => a.x ≤ b.x) ∧
          ∀ a ∈ xs.take (xs.length / 2), ∀ b ∈ xs.drop (xs.length / 2), a.x ≤ b.x := by
        rw [← hsplit, List.pairwise_append] at hs
        exact hs
      have hdm : ∃ rest, xs.drop (xs.length / 2) = m :: rest := by
        rw [List.drop_eq_getElem_cons hmid]
        rw [List.getElem?_eq_getElem hmid] at hm
        exact ⟨_, by rw [Option.some.inj hm]⟩
      obtain ⟨rest, hrest⟩ := hdm
      have hle : ∀ a ∈ xs.take (xs.length / 2), a.x ≤ m.x := fun a ha => hsp.2.2 a ha m (by rw [hrest]; exact List.mem_cons_self)
      have hge : ∀ b ∈ xs.drop (xs.length / 2), m.x ≤ b.x := by
        intro b hb
        have := hsp.2.1
        rw [hrest] at hb this
        rw [List.pairwise_cons] at this
        rcases List.mem_cons.1 hb with rfl | hb
        · exact le_rfl
        · exact this.1 b hb
      obtain ⟨dl, l1, l2, l3⟩ := ih (xs.take (xs.length / 2)) (ys.filter fun p => p.x ≤ m.x) (by rw [List.length_take]; omega)
        hsp.1 (hx.sublist (List.take_sublist _ _)) (hy.sublist List.filter_sublist)
        (fun p hp => hA p (List.mem_of_mem_take hp)) (fun p hp => hB p (List.mem_of_mem_filter hp))
      obtain ⟨dr, r1, r2, r3⟩ := ih (xs.drop (xs.length / 2)) (ys.filter fun p => p.x > m.x) (by rw [List.length_drop]; omega)
        hsp.2.1 (hx.sublist (List.drop_sublist _ _)) (hy.sublist List.filter_sublist)
        (fun p hp => hA p (List.mem_of_mem_drop hp)) (fun p hp => hB p (List.mem_of_mem_filter hp))
      have hcall : closestUtil dist (k + 1) xs ys = some
          (let d := if dl.1 < dr.1 then dl else dr
           let s := stripClosest dist (ys.filter fun p => ((|p.x - m.x| : K) : WithTop K) < d.1) d
           if s.1 < d.1 then s else d) := by
        conv_lhs => unfold closestUtil
        rw [if_neg h3, hm]
        dsimp only
        rw [l1, r1]
      refine ⟨_, hcall, ?_, ?_⟩
      · have hatt : Att dist A (if dl.1 < dr.1 then dl else dr) := by split_ifs <;> assumption
        dsimp only
        split_ifs
        · exact strip_att _ (fun q hq => hB q (List.mem_of_mem_filter hq)) (hy.sublist List.filter_sublist) _ l2
        · exact l2
        · exact strip_att _ (fun q hq => hB q (List.mem_of_mem_filter hq)) (hy.sublist List.filter_sublist) _ r2
        · exact r2
      · obtain ⟨d, hddef⟩ : ∃ d, d = (if dl.1 < dr.1 then dl else dr) := ⟨_, rfl⟩
        have hdl : d.1 ≤ dl.1 := by
          rw [hddef]; split_ifs with h
          · exact le_rfl
          · exact not_lt.1 h
        have hdr : d.1 ≤ dr.1 := by
          rw [hddef]; split_ifs with h
          · exact h.le
          · exact le_rfl
        rw [← hddef]
        dsimp only
        set s := stripClosest dist (ys.filter fun p => ((|p.x - m.x| : K) : WithTop K) < d.1) d with hs'
        obtain ⟨s1, s2⟩ := strip_spec hd (ys.filter fun p => ((|p.x - m.x| : K) : WithTop K) < d.1) d
        rw [← hs'] at s1 s2
        have hfin : (if s.1 < d.1 then s else d).1 ≤ s.1 ∧ (if s.1 < d.1 then s else d).1 ≤ d.1 := by
          split_ifs with h
          · exact ⟨le_rfl, h.le⟩
          · exact ⟨not_lt.1 h, le_rfl⟩
        intro p hp hpy q hq hqy hne
        by_contra hc
        have hlt : (dist p q : WithTop K) < d.1 := lt_of_lt_of_le (not_le.1 hc) hfin.2
        -- a pair at the two sides of the line, or touching it, is in the strip
        have close : ∀ a b : P K, a ∈ ys → b ∈ ys → a.i ≠ b.i → dist a b = dist p q → a.x ≤ m.x → m.x ≤ b.x → False := by
          intro a b ha hb hab he h1 h2
          have hx1 := hd.dx a b
          have hx2 := neg_abs_le (a.x - b.x)
          apply hc
          refine hfin.1.trans ?_
          rw [← he]
          apply s2 a _ b _ hab
          · refine List.mem_filter.2 ⟨ha, ?_⟩
            simp only [decide_eq_true_eq]
            refine lt_of_le_of_lt (WithTop.coe_le_coe.2 ?_) hlt
            rw [← he, abs_of_nonpos (by linarith)]
            linarith
          · refine List.mem_filter.2 ⟨hb, ?_⟩
            simp only [decide_eq_true_eq]
            refine lt_of_le_of_lt (WithTop.coe_le_coe.2 ?_) hlt
            rw [← he, abs_of_nonneg (by linarith)]
            linarith
        rw [← hsplit, List.mem_append] at hp hq
        rcases hp with hp | hp <;> rcases hq with hq | hq
        · apply hc
          exact hfin.2.trans (hdl.trans (l3 p hp (List.mem_filter.2 ⟨hpy, by simpa using hle p hp⟩) q hq
            (List.mem_filter.2 ⟨hqy, by simpa using hle q hq⟩) hne))
        · exact close p q hpy hqy hne rfl (hle p hp) (hge q hq)
        · exact close q p hqy hpy hne.symm (hd.symm _ _) (hle q hq) (hge p hp)
        · rcases (hge p hp).lt_or_eq with h1 | h1
          · rcases (hge q hq).lt_or_eq with h2 | h2
            · apply hc
              exact hfin.2.trans (hdr.trans (r3 p hp (List.mem_filter.2 ⟨hpy, by simpa using h1⟩) q hq
                (List.mem_filter.2 ⟨hqy, by simpa using h2⟩) hne))
            · exact close q p hqy hpy hne.symm (hd.symm _ _) h2.symm.le h1.le
          · exact close p q hpy hqy hne rfl h1.symm.le (hge q hq)

theorem mem_index (pts : List (K × K)) (p : P K) : p ∈ index pts ↔ pts[p.i]? = some (p.x, p.y) := by
  unfold index
  simp only [List.mem_map, Prod.exists, List.mem_zipIdx_iff_getElem?]
  constructor
  · rintro ⟨a, b, i, h, rfl⟩; exact h
  · intro h; exact ⟨p.x, p.y, p.i, h, rfl⟩

theorem index_pairwise (pts : List (K × K)) : (index pts).Pairwise fun a b => a.i ≠ b.i := by
  unfold index
  rw [List.pairwise_map]
  have h : ((pts.zipIdx).map Prod.snd).Nodup := by rw [List.zipIdx_map_snd]; exact List.nodup_range'
  rw [List.Nodup, List.pairwise_map] at h
  exact h

/-- **C224 for a general distance.** -/
theorem minDistance_spec (hd : IsDist dist) (pts : List (K × K)) :
    (pts.length < 2 → minDistance dist pts = some (⊤, (-1, -1))) ∧
    (2 ≤ pts.length → ∃ p ∈ index pts, ∃ q ∈ index pts, p.i ≠ q.i ∧
      minDistance dist pts = some ((dist p q : WithTop K), ((p.i : ℤ), (q.i : ℤ))) ∧
      ∀ a ∈ index pts, ∀ b ∈ index pts, a.i ≠ b.i → dist p q ≤ dist a b) := by
  have hlen : (index pts).length = pts.length := by simp [index]
  have : Std.Total (fun p q : P K => p.x ≤ q.x) := ⟨fun a b => le_total _ _⟩
  have : IsTrans (P K) (fun p q : P K => p.x ≤ q.x) := ⟨fun a b c => le_trans⟩
  have px := List.perm_insertionSort (fun p q : P K => p.x ≤ q.x) (index pts)
  have py := List.perm_insertionSort (fun p q : P K => p.y ≤ q.y) (index pts)
  obtain ⟨r, h1, h2, h3⟩ := closestUtil_spec (A := index pts) hd pts.length ((index pts).insertionSort fun p q => p.x ≤ q.x)
    ((index pts).insertionSort fun p q => p.y ≤ q.y) (by rw [px.length_eq, hlen]) (List.pairwise_insertionSort _ _)
    (px.symm.pairwise (index_pairwise pts) (fun h => h.symm)) (py.symm.pairwise (index_pairwise pts) (fun h => h.symm))
    (fun p hp => px.mem_iff.1 hp) (fun p hp => py.mem_iff.1 hp)
  have h3' : ∀ a ∈ index pts, ∀ b ∈ index pts, a.i ≠ b.i → r.1 ≤ dist a b := fun a ha b hb =>
    h3 a (px.mem_iff.2 ha) (py.mem_iff.2 ha) b (px.mem_iff.2 hb) (py.mem_iff.2 hb)
  constructor
  · intro hl
    rcases h2 with rfl | ⟨p, hp, q, hq, hne, -⟩
    · exact h1
    · exfalso
      have e1 := (mem_index pts p).1 hp
      have e2 := (mem_index pts q).1 hq
      obtain ⟨e1, -⟩ := List.getElem?_eq_some_iff.1 e1
      obtain ⟨e2, -⟩ := List.getElem?_eq_some_iff.1 e2
      omega
  · intro hl
    rcases h2 with rfl | ⟨p, hp, q, hq, hne, rfl⟩
    · exfalso
      have m0 : (⟨pts[0].1, pts[0].2, 0⟩ : P K) ∈ index pts := (mem_index pts _).2 (List.getElem?_eq_getElem (show 0 < pts.length by omega))
      have m1 : (⟨pts[1].1, pts[1].2, 1⟩ : P K) ∈ index pts := (mem_index pts _).2 (List.getElem?_eq_getElem (show 1 < pts.length by omega))
      have := h3' _ m0 _ m1 (by simp)
      simp at this
    · refine ⟨p, hp, q, hq, hne, h1, fun a ha b hb hab => ?_⟩
      exact WithTop.coe_le_coe.1 (h3' a ha b hb hab)

/-- The Euclidean distance (closest_point.py:33-34). -/
noncomputable def euclid (p q : P ℝ) : ℝ := √((p.x - q.x) ^ 2 + (p.y - q.y) ^ 2)

theorem euclid_isDist : IsDist euclid := by
  refine ⟨fun p q => ?_, fun p q => ?_, fun p q => ?_⟩
  · unfold euclid; congr 1; ring
  · unfold euclid
    exact Real.abs_le_sqrt (by nlinarith [sq_nonneg (p.y - q.y)])
  · unfold euclid
    exact Real.abs_le_sqrt (by nlinarith [sq_nonneg (p.x - q.x)])

/-- **C224.**  For at least two points `min_distance` returns the indices of two different points and their distance, and no
two points are closer; for fewer points it returns infinity and `(-1, -1)`. -/
theorem C224_closest (pts : List (ℝ × ℝ)) :
    (pts.length < 2 → minDistance euclid pts = some (⊤, (-1, -1))) ∧
    (2 ≤ pts.length → ∃ (i j : ℕ) (hi : i < pts.length) (hj : j < pts.length), i ≠ j ∧
      minDistance euclid pts =
        some (((√((pts[i].1 - pts[j].1) ^ 2 + (pts[i].2 - pts[j].2) ^ 2) : ℝ) : WithTop ℝ), ((i : ℤ), (j : ℤ))) ∧
      ∀ (a b : ℕ) (ha : a < pts.length) (hb : b < pts.length), a ≠ b →
        √((pts[i].1 - pts[j].1) ^ 2 + (pts[i].2 - pts[j].2) ^ 2) ≤
          √((pts[a].1 - pts[b].1) ^ 2 + (pts[a].2 - pts[b].2) ^ 2)) := by
  obtain ⟨h1, h2⟩ := minDistance_spec euclid_isDist pts
  refine ⟨h1, fun hl => ?_⟩
  obtain ⟨p, hp, q, hq, hne, h3, h4⟩ := h2 hl
  obtain ⟨i1, e1⟩ := List.getElem?_eq_some_iff.1 ((mem_index pts p).1 hp)
  obtain ⟨i2, e2⟩ := List.getElem?_eq_some_iff.1 ((mem_index pts q).1 hq)
  have he : euclid p q = √((pts[p.i].1 - pts[q.i].1) ^ 2 + (pts[p.i].2 - pts[q.i].2) ^ 2) := by
    rw [e1, e2]; rfl
  refine ⟨p.i, q.i, i1, i2, hne, by rw [← he]; exact h3, ?_⟩
  intro a b ha hb hab
  rw [← he]
  exact h4 ⟨pts[a].1, pts[a].2, a⟩ ((mem_index pts _).2 (List.getElem?_eq_getElem ha)) ⟨pts[b].1, pts[b].2, b⟩
    ((mem_index pts _).2 (List.getElem?_eq_getElem hb)) hab

/-- The example of the documentation, with the maximum distance. -/
example : minDistance (K := ℚ) (fun p q => max |p.x - q.x| |p.y - q.y|) [(2, 3), (12, 30), (40, 50), (5, 1), (12, 10), (3, 4)] =
    some (1, (0, 5)) := by decide +kernel

end Verif.Cp
