import Verif.KdTree.Lemmas
import Mathlib.Data.List.Perm.Subperm

namespace Verif.KdTree
variable {K : Type} [CommRing K] [LinearOrder K]

theorem push_perm (x : K × Point K) (h : List (K × Point K)) : (push x h).Perm (x :: h) := by
  induction h with
  | nil => exact List.Perm.refl _
  | cons y ys ih =>
    simp only [push]
    split
    · exact List.Perm.refl _
    · exact (ih.cons y).trans (List.Perm.swap x y ys)

/-- Farthest first. -/
def Desc (h : List (K × Point K)) : Prop := h.Pairwise (fun x y => y.1 ≤ x.1)

theorem push_desc (x : K × Point K) (h : List (K × Point K)) (hs : Desc h) : Desc (push x h) := by
  unfold Desc at *
  induction h with
  | nil => simp [push]
  | cons y ys ih =>
    rw [List.pairwise_cons] at hs
    simp only [push]
    split
    · rename_i hle
      have hyx : y.1 ≤ x.1 := by
        simp only [heapLe, Bool.or_eq_true, decide_eq_true_eq, Bool.and_eq_true] at hle
        rcases hle with h | ⟨h, _⟩
        · exact h.le
        · exact h.ge
      rw [List.pairwise_cons]
      refine ⟨?_, List.pairwise_cons.2 hs⟩
      intro z hz
      rcases List.mem_cons.1 hz with rfl | hz
      · exact hyx
      · exact (hs.1 z hz).trans hyx
    · rename_i hle
      have hxy : x.1 ≤ y.1 := by
        simp only [heapLe, Bool.or_eq_true, decide_eq_true_eq, Bool.and_eq_true, not_or, not_lt] at hle
        exact hle.1
      rw [List.pairwise_cons]
      refine ⟨?_, ih hs.2⟩
      intro z hz
      rcases List.mem_cons.1 ((push_perm x ys).mem_iff.1 hz) with rfl | hz
      · exact hxy
      · exact hs.1 z hz

/-- `ltWorst` on a heap known to be non-empty. -/
def ltW (x : K) : List (K × Point K) → Bool
  | [] => false
  | (d, _) :: _ => decide (x < d)

/-- The heap after looking at a node's own point (bkdtree.py:304-313). -/
def visit (k : Nat) (d : K) (p : Point K) (heap : List (K × Point K)) : List (K × Point K) :=
  if heap.length < k then push (d, p) heap else if ltW d heap then push (d, p) heap.tail else heap

/-- `kNearestRec` without the failure case. -/
def kRec (target : Point K) (k : Nat) : Tree K → List (K × Point K) → List (K × Point K)
  | .nil, heap => heap
  | .node p a l r _, heap =>
    let heap := visit k (distSq p target) p heap
    let diff := coord target a - coord p a
    if diff ≤ 0 then
      let heap := kRec target k l heap
      if ltW (diff * diff) heap then kRec target k r heap else heap
    else
      let heap := kRec target k r heap
      if ltW (diff * diff) heap then kRec target k l heap else heap

theorem ltWorst_eq {h : List (K × Point K)} (hne : h ≠ []) (x : K) : ltWorst x h = some (ltW x h) := by
  cases h with
  | nil => exact absurd rfl hne
  | cons w ws => rfl

theorem push_ne (x : K × Point K) (h : List (K × Point K)) : push x h ≠ [] := by
  intro e
  have := (push_perm x h).length_eq
  rw [e] at this; simp at this

theorem visit_ne (k : Nat) (hk : 0 < k) (d : K) (p : Point K) (heap : List (K × Point K)) :
    visit k d p heap ≠ [] := by
  unfold visit
  split
  · exact push_ne _ _
  · rename_i h
    split
    · exact push_ne _ _
    · intro e; rw [e] at h; simp at h; omega

theorem kRec_ne (target : Point K) (k : Nat) (hk : 0 < k) : ∀ (t : Tree K) (heap : List (K × Point K)), heap ≠ [] →
    kRec target k t heap ≠ [] := by
  intro t
  induction t with
  | nil => intro heap h; exact h
  | node p a l r s ihl ihr =>
    intro heap _
    simp only [kRec]
    have hv := visit_ne k hk (distSq p target) p heap
    split
    · split
      · exact ihr _ (ihl _ hv)
      · exact ihl _ hv
    · split
      · exact ihl _ (ihr _ hv)
      · exact ihr _ hv

/-- With `k ≥ 1` the heap is never empty when its first entry is read. -/
theorem kNearestRec_eq (target : Point K) (k : Nat) (hk : 0 < k) : ∀ (t : Tree K) (heap : List (K × Point K)),
    kNearestRec target k t heap = some (kRec target k t heap) := by
  intro t
  induction t with
  | nil => intro heap; rfl
  | node p a l r s ihl ihr =>
    intro heap
    have hv := visit_ne k hk (distSq p target) p heap
    have hfirst : (if heap.length < k then some (push (distSq p target, p) heap)
        else do
          let b ← ltWorst (distSq p target) heap
          some (if b then push (distSq p target, p) heap.tail else heap)) =
        some (visit k (distSq p target) p heap) := by
      unfold visit
      split
      · rfl
      · rename_i h
        rw [ltWorst_eq (by intro e; rw [e] at h; simp at h; omega)]
        rfl
    simp only [kNearestRec, kRec]
    rw [hfirst]
    simp only [Option.bind_eq_bind, Option.bind_some, ihl, ihr]
    split
    · rw [ltWorst_eq (kRec_ne target k hk l _ hv), Option.bind_some]
      split <;> rfl
    · rw [ltWorst_eq (kRec_ne target k hk r _ hv), Option.bind_some]
      split <;> rfl

/-- What one traversal guarantees about the heap. -/
structure Good (target : Point K) (k : Nat) (pts : List (Point K)) (old new : List (K × Point K)) : Prop where
  desc : Desc new
  len : new.length ≤ k
  honest : ∀ x ∈ new, x.1 = distSq x.2 target
  sub : (new.map Prod.snd).Subperm (old.map Prod.snd ++ pts)
  keep : ∀ x ∈ old, ∃ y ∈ new, y.1 ≤ x.1
  cover : ∀ q ∈ pts, ∃ y ∈ new, y.1 ≤ distSq q target

theorem visit_good (target : Point K) (k : Nat) (hk : 0 < k) (p : Point K) (heap : List (K × Point K))
    (hs : Desc heap) (hl : heap.length ≤ k) (hh : ∀ x ∈ heap, x.1 = distSq x.2 target) :
    Good target k [p] heap (visit k (distSq p target) p heap) := by
  unfold visit
  split
  · rename_i hlt
    have hp := push_perm (distSq p target, p) heap
    refine ⟨push_desc _ _ hs, by rw [hp.length_eq, List.length_cons]; omega, ?_, ?_, ?_, ?_⟩
    · intro x hx
      rcases List.mem_cons.1 (hp.mem_iff.1 hx) with rfl | hx
      · rfl
      · exact hh x hx
    · refine ((hp.map Prod.snd).trans ?_).subperm
      simpa using (List.perm_append_singleton p (heap.map Prod.snd)).symm
    · intro x hx; exact ⟨x, hp.mem_iff.2 (List.mem_cons_of_mem _ hx), le_rfl⟩
    · intro q hq
      obtain rfl := List.mem_singleton.1 hq
      exact ⟨_, hp.mem_iff.2 List.mem_cons_self, le_rfl⟩
  · rename_i hlt
    cases heap with
    | nil => simp at hlt; omega
    | cons w ws =>
      obtain ⟨dw, pw⟩ := w
      unfold Desc at hs
      rw [List.pairwise_cons] at hs
      split
      · rename_i hw
        have hw : distSq p target < dw := by simpa [ltW] using hw
        have hp := push_perm (distSq p target, p) ws
        simp only [List.tail_cons]
        refine ⟨push_desc _ _ hs.2, by rw [hp.length_eq]; simpa using hl, ?_, ?_, ?_, ?_⟩
        · intro x hx
          rcases List.mem_cons.1 (hp.mem_iff.1 hx) with rfl | hx
          · rfl
          · exact hh x (List.mem_cons_of_mem _ hx)
        · have h1 : ((push (distSq p target, p) ws).map Prod.snd).Perm (ws.map Prod.snd ++ [p]) :=
            (hp.map Prod.snd).trans (by simpa using (List.perm_append_singleton p (ws.map Prod.snd)).symm)
          refine h1.subperm.trans ?_
          simp only [List.map_cons, List.cons_append]
          exact (List.sublist_cons_self _ _).subperm
        · intro x hx
          rcases List.mem_cons.1 hx with rfl | hx
          · exact ⟨_, hp.mem_iff.2 List.mem_cons_self, hw.le⟩
          · exact ⟨x, hp.mem_iff.2 (List.mem_cons_of_mem _ hx), le_rfl⟩
        · intro q hq
          obtain rfl := List.mem_singleton.1 hq
          exact ⟨_, hp.mem_iff.2 List.mem_cons_self, le_rfl⟩
      · rename_i hw
        have hw : dw ≤ distSq p target := by simpa [ltW] using hw
        refine ⟨List.pairwise_cons.2 hs, hl, hh, ?_, fun x hx => ⟨x, hx, le_rfl⟩, ?_⟩
        · exact (List.sublist_append_left _ _).subperm
        · intro q hq
          obtain rfl := List.mem_singleton.1 hq
          exact ⟨_, List.mem_cons_self, hw⟩

theorem Good.trans {target : Point K} {k : Nat} {A B : List (Point K)} {h0 h1 h2 : List (K × Point K)}
    (g1 : Good target k A h0 h1) (g2 : Good target k B h1 h2) : Good target k (A ++ B) h0 h2 := by
  refine ⟨g2.desc, g2.len, g2.honest, ?_, ?_, ?_⟩
  · refine g2.sub.trans ?_
    rw [← List.append_assoc]
    exact (List.subperm_append_right B).2 g1.sub
  · intro x hx
    obtain ⟨y, hy, h⟩ := g1.keep x hx
    obtain ⟨z, hz, h'⟩ := g2.keep y hy
    exact ⟨z, hz, h'.trans h⟩
  · intro q hq
    rcases List.mem_append.1 hq with hq | hq
    · obtain ⟨y, hy, h⟩ := g1.cover q hq
      obtain ⟨z, hz, h'⟩ := g2.keep y hy
      exact ⟨z, hz, h'.trans h⟩
    · exact g2.cover q hq

theorem Good.perm {target : Point K} {k : Nat} {A B : List (Point K)} {h0 h1 : List (K × Point K)}
    (g : Good target k A h0 h1) (hp : A.Perm B) : Good target k B h0 h1 :=
  ⟨g.desc, g.len, g.honest, g.sub.trans (hp.append_left _).subperm, g.keep,
    fun q hq => g.cover q (hp.mem_iff.2 hq)⟩

variable [IsStrictOrderedRing K]

/-- A pruned subtree. -/
theorem Good.skip {target : Point K} {k : Nat} {A B : List (Point K)} {h0 h1 : List (K × Point K)} {x : K}
    (g : Good target k A h0 h1) (hne : h1 ≠ []) (hx : ¬ ltW x h1 = true) (hB : ∀ q ∈ B, x ≤ distSq q target) :
    Good target k (A ++ B) h0 h1 := by
  refine ⟨g.desc, g.len, g.honest, g.sub.trans ?_, g.keep, ?_⟩
  · rw [← List.append_assoc]; exact (List.sublist_append_left _ _).subperm
  · intro q hq
    rcases List.mem_append.1 hq with hq | hq
    · exact g.cover q hq
    · cases h1 with
      | nil => exact absurd rfl hne
      | cons w ws =>
        obtain ⟨dw, pw⟩ := w
        have hw : dw ≤ x := by simpa [ltW] using hx
        exact ⟨_, List.mem_cons_self, hw.trans (hB q hq)⟩

theorem kRec_good (dim : Nat) (target : Point K) (ht : target.length = dim) (k : Nat) (hk : 0 < k) :
    ∀ (t : Tree K) (heap : List (K × Point K)), Inv dim t → Desc heap → heap.length ≤ k →
      (∀ x ∈ heap, x.1 = distSq x.2 target) → Good target k (collect t) heap (kRec target k t heap) := by
  intro t
  induction t with
  | nil =>
    intro heap _ hs hl hh
    exact ⟨hs, hl, hh, by simpa [collect, kRec] using List.Subperm.refl _, fun x hx => ⟨x, hx, le_rfl⟩, by simp [collect]⟩
  | node p a l r s ihl ihr =>
    intro heap hi hs hl hh
    obtain ⟨ha, hp, hL, hR, il, ir⟩ := hi
    have g1 := visit_good target k hk p heap hs hl hh
    simp only [kRec]
    have hne1 : ∃ y, y ∈ visit k (distSq p target) p heap := by
      obtain ⟨y, hy, _⟩ := g1.cover p (List.mem_singleton_self p); exact ⟨y, hy⟩
    generalize visit k (distSq p target) p heap = h1 at *
    by_cases hd : coord target a - coord p a ≤ 0
    · rw [if_pos hd]
      have g2 := ihl h1 il g1.desc g1.len g1.honest
      have hne : kRec target k l h1 ≠ [] := by
        obtain ⟨y, hy⟩ := hne1
        obtain ⟨z, hz, _⟩ := g2.keep y hy
        exact List.ne_nil_of_mem hz
      have g12 := g1.trans g2
      split
      · have g3 := ihr _ ir g2.desc g2.len g2.honest
        have := g12.trans g3
        simpa [collect] using this
      · rename_i hc
        have := g12.skip hne hc (B := collect r) (fun q hq => by
          rw [distSq_comm]
          exact prune ha ht (ir.length q hq) (.inl ⟨by linarith, hR q hq⟩))
        simpa [collect] using this
    · rw [if_neg hd]
      have g2 := ihr h1 ir g1.desc g1.len g1.honest
      have hne : kRec target k r h1 ≠ [] := by
        obtain ⟨y, hy⟩ := hne1
        obtain ⟨z, hz, _⟩ := g2.keep y hy
        exact List.ne_nil_of_mem hz
      have g12 := g1.trans g2
      have hperm : ([p] ++ collect r ++ collect l).Perm (collect (.node p a l r s)) := by
        simp only [collect, List.singleton_append, List.cons_append]
        exact List.perm_append_comm.cons p
      split
      · have g3 := ihl _ il g2.desc g2.len g2.honest
        exact (g12.trans g3).perm hperm
      · rename_i hc
        exact (g12.skip hne hc (B := collect l) (fun q hq => by
          rw [distSq_comm]
          exact prune ha ht (il.length q hq) (.inr ⟨by linarith, hL q hq⟩))).perm hperm

end Verif.KdTree
