import Verif.KdTree.KNearest
import Mathlib.Tactic.Abel

/-! Exactness of the k-nearest search when no stored point differs from the target in one coordinate only. -/

namespace Verif.KdTree
variable {K : Type} [CommRing K] [LinearOrder K]

/-- What one traversal guarantees in general position: `out` are the points left out. -/
structure Exact (target : Point K) (k : Nat) (pts : List (Point K)) (old new : List (K × Point K))
    (out : List (Point K)) : Prop where
  perm : (new.map Prod.snd ++ out).Perm (old.map Prod.snd ++ pts)
  far : ∀ y ∈ out, ∀ x ∈ new, x.1 ≤ distSq y target
  full : out ≠ [] → new.length = k
  shrink : old.length = k → ∀ x ∈ new, ∃ y ∈ old, x.1 ≤ y.1
  grow : old.length ≤ new.length

theorem Exact.trans {target : Point K} {k : Nat} {A B oA oB : List (Point K)} {h0 h1 h2 : List (K × Point K)}
    (hl : h2.length ≤ k) (g1 : Exact target k A h0 h1 oA) (g2 : Exact target k B h1 h2 oB) :
    Exact target k (A ++ B) h0 h2 (oB ++ oA) := by
  have hsh : h1.length = k → ∀ x ∈ h2, ∃ y ∈ h1, x.1 ≤ y.1 := g2.shrink
  refine ⟨?_, ?_, ?_, ?_, g1.grow.trans g2.grow⟩
  · rw [← List.append_assoc]
    refine (g2.perm.append_right oA).trans ?_
    rw [← List.append_assoc]
    have h1 : (h1.map Prod.snd ++ B ++ oA).Perm (h1.map Prod.snd ++ oA ++ B) := by
      rw [List.append_assoc, List.append_assoc]
      exact List.perm_append_comm.append_left _
    exact h1.trans (g1.perm.append_right B)
  · intro y hy x hx
    rcases List.mem_append.1 hy with hy | hy
    · exact g2.far y hy x hx
    · obtain ⟨z, hz, hle⟩ := hsh (g1.full (List.ne_nil_of_mem hy)) x hx
      exact hle.trans (g1.far y hy z hz)
  · intro hne
    by_cases h : oB = []
    · have h' : oA ≠ [] := by
        intro e; exact hne (by rw [h, e]; rfl)
      have := g1.full h'
      have := g2.grow
      omega
    · exact g2.full h
  · intro h x hx
    have h1k : h1.length = k := by have := g1.grow; have := g2.grow; omega
    obtain ⟨y, hy, h'⟩ := hsh h1k x hx
    obtain ⟨z, hz, h''⟩ := g1.shrink h y hy
    exact ⟨z, hz, h'.trans h''⟩

theorem Exact.permPts {target : Point K} {k : Nat} {A B o : List (Point K)} {h0 h1 : List (K × Point K)}
    (g : Exact target k A h0 h1 o) (hp : A.Perm B) : Exact target k B h0 h1 o :=
  ⟨g.perm.trans (hp.append_left _), g.far, g.full, g.shrink, g.grow⟩

/-- A subtree left out while the heap is full. -/
theorem Exact.skip {target : Point K} {k : Nat} {A B o : List (Point K)} {h0 h1 : List (K × Point K)}
    (g : Exact target k A h0 h1 o) (hl : h1.length = k) (hB : ∀ q ∈ B, ∀ x ∈ h1, x.1 ≤ distSq q target) :
    Exact target k (A ++ B) h0 h1 (o ++ B) := by
  refine ⟨?_, ?_, fun _ => hl, g.shrink, g.grow⟩
  · rw [← List.append_assoc, ← List.append_assoc]
    exact g.perm.append_right B
  · intro y hy x hx
    rcases List.mem_append.1 hy with hy | hy
    · exact g.far y hy x hx
    · exact hB y hy x hx

theorem visit_exact (target : Point K) (k : Nat) (hk : 0 < k) (p : Point K) (heap : List (K × Point K))
    (hs : Desc heap) (hl : heap.length ≤ k) (hh : ∀ x ∈ heap, x.1 = distSq x.2 target) :
    ∃ o, Exact target k [p] heap (visit k (distSq p target) p heap) o := by
  unfold visit
  by_cases hlt : heap.length < k
  · rw [if_pos hlt]
    have hp := push_perm (distSq p target, p) heap
    refine ⟨[], ?_, by simp, by simp, fun h => by omega, by rw [hp.length_eq]; simp⟩
    rw [List.append_nil]
    exact (hp.map Prod.snd).trans (by simpa using (List.perm_append_singleton p (heap.map Prod.snd)).symm)
  · rw [if_neg hlt]
    cases heap with
    | nil => simp at hlt; omega
    | cons w ws =>
      obtain ⟨dw, pw⟩ := w
      unfold Desc at hs
      rw [List.pairwise_cons] at hs
      by_cases hw : ltW (distSq p target) ((dw, pw) :: ws) = true
      · rw [if_pos hw]
        have hw : distSq p target < dw := by simpa [ltW] using hw
        have hp := push_perm (distSq p target, p) ws
        simp only [List.tail_cons]
        have hdw : dw = distSq pw target := hh _ List.mem_cons_self
        have hall : ∀ x ∈ push (distSq p target, p) ws, x.1 ≤ dw := by
          intro x hx
          rcases List.mem_cons.1 (hp.mem_iff.1 hx) with rfl | hx
          · exact hw.le
          · exact hs.1 x hx
        refine ⟨[pw], ?_, ?_, ?_, ?_, by rw [hp.length_eq]; simp⟩
        · refine ((hp.map Prod.snd).append_right [pw]).trans ?_
          simp only [List.map_cons, List.cons_append]
          refine (List.perm_append_singleton pw (p :: ws.map Prod.snd)).trans ?_
          exact (List.perm_append_singleton p (ws.map Prod.snd)).symm.cons pw
        · intro y hy x hx
          obtain rfl := List.mem_singleton.1 hy
          rw [← hdw]; exact hall x hx
        · intro _; rw [hp.length_eq]; simp at hl hlt ⊢; omega
        · intro _ x hx; exact ⟨_, List.mem_cons_self, hall x hx⟩
      · rw [if_neg hw]
        have hw : dw ≤ distSq p target := by simpa [ltW] using hw
        refine ⟨[p], List.Perm.refl _, ?_, ?_, fun _ x hx => ⟨x, hx, le_rfl⟩, le_rfl⟩
        · intro y hy x hx
          obtain rfl := List.mem_singleton.1 hy
          rcases List.mem_cons.1 hx with rfl | hx
          · exact hw
          · exact (hs.1 x hx).trans hw
        · intro _; simp at hl hlt ⊢; omega

variable [IsStrictOrderedRing K]

/-- When the pruning test fails although the node's own point is off the axis, the heap is full. -/
theorem full_of_prune {target p : Point K} {k : Nat} {A o : List (Point K)} {h0 h2 : List (K × Point K)} {x : K}
    (hlen : h2.length ≤ k) (hdesc : Desc h2) (hon : ∀ y ∈ h2, y.1 = distSq y.2 target)
    (g : Exact target k A h0 h2 o) (hpA : p ∈ A) (hx : ¬ ltW x h2 = true) (hgen : x < distSq p target) (hne : h2 ≠ []) :
    h2.length = k ∧ ∀ y ∈ h2, y.1 ≤ x := by
  cases h2 with
  | nil => exact absurd rfl hne
  | cons w ws =>
    obtain ⟨dw, pw⟩ := w
    have hw : dw ≤ x := by simpa [ltW] using hx
    unfold Desc at hdesc
    rw [List.pairwise_cons] at hdesc
    have hall : ∀ y ∈ (dw, pw) :: ws, y.1 ≤ x := by
      intro y hy
      rcases List.mem_cons.1 hy with rfl | hy
      · exact hw
      · exact (hdesc.1 y hy).trans hw
    refine ⟨?_, hall⟩
    by_contra hc
    have ho : o = [] := by by_contra h; exact hc (g.full h)
    have hm : p ∈ ((dw, pw) :: ws).map Prod.snd ++ o := g.perm.mem_iff.2 (List.mem_append_right _ hpA)
    rw [ho, List.append_nil, List.mem_map] at hm
    obtain ⟨y, hy, rfl⟩ := hm
    have h1 := hall y hy
    rw [hon y hy] at h1
    exact absurd hgen (not_lt.2 h1)

theorem kRec_exact (dim : Nat) (target : Point K) (ht : target.length = dim) (k : Nat) (hk : 0 < k) :
    ∀ (t : Tree K) (heap : List (K × Point K)), Inv dim t → Desc heap → heap.length ≤ k →
      (∀ x ∈ heap, x.1 = distSq x.2 target) →
      (∀ q ∈ collect t, ∀ a, a < dim → (coord target a - coord q a) * (coord target a - coord q a) < distSq q target) →
      ∃ o, Exact target k (collect t) heap (kRec target k t heap) o := by
  intro t
  induction t with
  | nil =>
    intro heap _ _ _ _ _
    exact ⟨[], by simp [collect, kRec], by simp, by simp, fun _ x hx => ⟨x, hx, le_rfl⟩, le_rfl⟩
  | node p a l r s ihl ihr =>
    intro heap hi hs hl hh hg
    obtain ⟨ha, hp, hL, hR, il, ir⟩ := hi
    have g1 := visit_good target k hk p heap hs hl hh
    obtain ⟨o1, x1⟩ := visit_exact target k hk p heap hs hl hh
    have hv := visit_ne k hk (distSq p target) p heap
    have hgp := hg p (by simp [collect]) a ha
    have hgl : ∀ q ∈ collect l, ∀ a, a < dim → (coord target a - coord q a) * (coord target a - coord q a) < distSq q target :=
      fun q hq => hg q (by simp [collect, hq])
    have hgr : ∀ q ∈ collect r, ∀ a, a < dim → (coord target a - coord q a) * (coord target a - coord q a) < distSq q target :=
      fun q hq => hg q (by simp [collect, hq])
    simp only [kRec]
    generalize visit k (distSq p target) p heap = h1 at *
    by_cases hd : coord target a - coord p a ≤ 0
    · rw [if_pos hd]
      have g2 := kRec_good dim target ht k hk l h1 il g1.desc g1.len g1.honest
      obtain ⟨o2, x2⟩ := ihl h1 il g1.desc g1.len g1.honest hgl
      have hne := kRec_ne target k hk l h1 hv
      have x12 := x1.trans g2.len x2
      split
      · have g3 := kRec_good dim target ht k hk r _ ir g2.desc g2.len g2.honest
        obtain ⟨o3, x3⟩ := ihr _ ir g2.desc g2.len g2.honest hgr
        have := x12.trans g3.len x3
        exact ⟨_, by simpa [collect] using this⟩
      · rename_i hc
        obtain ⟨f1, f2⟩ := full_of_prune g2.len g2.desc g2.honest x12 (by simp) hc hgp hne
        have := x12.skip f1 (B := collect r) (fun q hq x hx => (f2 x hx).trans (by
          rw [distSq_comm]
          exact prune ha ht (ir.length q hq) (.inl ⟨by linarith, hR q hq⟩)))
        exact ⟨_, by simpa [collect] using this⟩
    · rw [if_neg hd]
      have g2 := kRec_good dim target ht k hk r h1 ir g1.desc g1.len g1.honest
      obtain ⟨o2, x2⟩ := ihr h1 ir g1.desc g1.len g1.honest hgr
      have hne := kRec_ne target k hk r h1 hv
      have x12 := x1.trans g2.len x2
      have hperm : ([p] ++ collect r ++ collect l).Perm (collect (.node p a l r s)) := by
        simp only [collect, List.singleton_append, List.cons_append]
        exact List.perm_append_comm.cons p
      split
      · have g3 := kRec_good dim target ht k hk l _ il g2.desc g2.len g2.honest
        obtain ⟨o3, x3⟩ := ihl _ il g2.desc g2.len g2.honest hgl
        exact ⟨_, (x12.trans g3.len x3).permPts hperm⟩
      · rename_i hc
        obtain ⟨f1, f2⟩ := full_of_prune g2.len g2.desc g2.honest x12 (by simp) hc hgp hne
        exact ⟨_, (x12.skip f1 (B := collect l) (fun q hq x hx => (f2 x hx).trans (by
          rw [distSq_comm]
          exact prune ha ht (il.length q hq) (.inr ⟨by linarith, hL q hq⟩)))).permPts hperm⟩

theorem pow_pos_of_ne {z : K} (h : z ≠ 0) : 0 < z ^ 2 := by
  rcases lt_or_gt_of_ne h with h | h
  · nlinarith
  · exact pow_pos h 2

/-- A second coordinate that differs makes the distance exceed any single coordinate. -/
theorem coord_lt_distSq : ∀ (p q : Point K) (a b : Nat), a < p.length → b < p.length → p.length = q.length → b ≠ a →
    coord p b ≠ coord q b → (coord p a - coord q a) ^ 2 < distSq p q := by
  intro p
  induction p with
  | nil => intro q a b h; simp at h
  | cons x xs ih =>
    intro q a b ha hb hlen hab hne
    cases q with
    | nil => simp at hlen
    | cons y ys =>
      simp only [List.length_cons, Nat.add_right_cancel_iff] at hlen
      have hd : distSq (x :: xs) (y :: ys) = (x - y) ^ 2 + distSq xs ys := by simp [distSq]
      rw [hd]
      cases a with
      | zero =>
        cases b with
        | zero => exact absurd rfl hab
        | succ b =>
          have h1 := coord_le_distSq xs ys b (by simpa using hb) hlen
          have h2 : (0 : K) < (coord xs b - coord ys b) ^ 2 := by
            refine pow_pos_of_ne ?_
            simpa [coord, sub_eq_zero] using hne
          simp only [coord, List.getD_cons_zero]
          linarith
      | succ a =>
        cases b with
        | zero =>
          have h1 := coord_le_distSq xs ys a (by simpa using ha) hlen
          have h2 : (0 : K) < (x - y) ^ 2 := by
            refine pow_pos_of_ne ?_
            simpa [coord, sub_eq_zero] using hne
          simp only [coord, List.getD_cons_succ] at h1 ⊢
          linarith
        | succ b =>
          have h1 := ih ys a b (by simpa using ha) (by simpa using hb) hlen (by omega) (by simpa [coord] using hne)
          have : (0 : K) ≤ (x - y) ^ 2 := sq_nonneg _
          simp only [coord, List.getD_cons_succ] at h1 ⊢
          linarith

end Verif.KdTree
