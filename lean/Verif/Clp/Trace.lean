import Verif.Clp.Phase
import Mathlib.Data.List.Chain

/-!
# Phase three: the clipped polygons
-/

set_option linter.unusedSectionVars false
namespace Verif.Clp
open Verif.Poly
variable {K : Type} [Field K] [LinearOrder K] [IsStrictOrderedRing K]

/-- `p` lies on the segment from `a` to `b`. -/
def OnSeg (a b p : K × K) : Prop := ∃ t : K, 0 ≤ t ∧ t ≤ 1 ∧ p = (a.1 + t * (b.1 - a.1), a.2 + t * (b.2 - a.2))

theorem onSeg_left (a b : K × K) : OnSeg a b a := ⟨0, le_refl _, zero_le_one, by simp⟩
theorem onSeg_right (a b : K × K) : OnSeg a b b := ⟨1, zero_le_one, le_refl _, by simp⟩

/-- Two points lie on one edge. -/
def AdjH (h : Heap K) (o : List Nat) (P Q : Pt K) : Prop :=
  ∃ i e, Edge o i e ∧ OnSeg (h i).pos (h e).pos P.1 ∧ OnSeg (h i).pos (h e).pos Q.1

theorem AdjH.symm {h : Heap K} {o : List Nat} {P Q : Pt K} (a : AdjH h o P Q) : AdjH h o Q P := by
  obtain ⟨i, e, E, x, y⟩ := a
  exact ⟨i, e, E, y, x⟩

theorem edge_pred {o : List Nat} {i : Nat} (hi : i ∈ o) : ∃ i', Edge o i' i := by
  obtain ⟨pre, post, rfl⟩ := List.append_of_mem hi
  rcases List.eq_nil_or_concat pre with rfl | ⟨p, a, rfl⟩
  · rcases List.eq_nil_or_concat post with rfl | ⟨q, b, rfl⟩
    · exact ⟨i, [], [], [], rfl, rfl⟩
    · exact ⟨b, i :: q, [], q ++ [b], by simp, by simp⟩
  · exact ⟨a, p, i :: post, post ++ p ++ [a], by simp, by simp⟩

section inv
variable {h : Heap K} {n : Nat} {os oc : List Nat} {BS BC : Nat → List Nat}

theorem onSegS (I : Inv h n os oc BS BC) {i e : Nat} (E : Edge os i e) {x : Nat} (hx : x ∈ i :: (BS i ++ [e])) :
    OnSeg (h i).pos (h e).pos (h x).pos := by
  rcases List.mem_cons.mp hx with rfl | hx
  · exact onSeg_left _ _
  · rcases List.mem_append.mp hx with hx | hx
    · obtain ⟨e', j, f, w, E', F, hw, c⟩ := I.crossS i E.left x hx
      obtain rfl := edge_unique I.s E E'
      obtain ⟨a1, a2, _, _, p1, _⟩ := C22_intersect_sound _ _ _ _ _ _ _ c.eq
      exact ⟨_, a1.le, a2.le, p1⟩
    · simp only [List.mem_singleton] at hx
      subst hx; exact onSeg_right _ _

theorem onSegC (I : Inv h n os oc BS BC) {j f : Nat} (F : Edge oc j f) {x : Nat} (hx : x ∈ j :: (BC j ++ [f])) :
    OnSeg (h j).pos (h f).pos (h x).pos := by
  rcases List.mem_cons.mp hx with rfl | hx
  · exact onSeg_left _ _
  · rcases List.mem_append.mp hx with hx | hx
    · obtain ⟨f', i, e, v, F', E, hv, c⟩ := I.crossC j F.left x hx
      obtain rfl := edge_unique I.c F F'
      obtain ⟨_, _, a1, a2, _, p1⟩ := C22_intersect_sound _ _ _ _ _ _ _ c.eq
      exact ⟨_, a1.le, a2.le, by rw [c.pos]; exact p1⟩
    · simp only [List.mem_singleton] at hx
      subst hx; exact onSeg_right _ _

/-- `next` stays in the ring and on one edge. -/
theorem next_edge {o : List Nat} {B : Nat → List Nat} (r : RingInv h o B) {x : Nat} (hx : x ∈ full o B) :
    ∃ i e, Edge o i e ∧ x ∈ i :: (B i ++ [e]) ∧ (h x).next ∈ i :: (B i ++ [e]) ∧ (h x).next ∈ full o B := by
  obtain ⟨i, hi, hx⟩ := mem_full.mp hx
  obtain ⟨e, E⟩ := edge_exists hi
  have hx' : x ∈ i :: B i := by rcases hx with rfl | hx <;> simp [*]
  have := path_next_mem (edge_path r E) x hx'
  refine ⟨i, e, E, ?_, List.mem_cons_of_mem _ this, ?_⟩
  · rcases List.mem_cons.mp hx' with rfl | q <;> simp [*]
  · rcases List.mem_append.mp this with q | q
    · exact mem_full_blk hi q
    · simp only [List.mem_singleton] at q; rw [q]; exact mem_full_orig B E.right

theorem prev_edge {o : List Nat} {B : Nat → List Nat} (r : RingInv h o B) {x : Nat} (hx : x ∈ full o B) :
    ∃ i e, Edge o i e ∧ x ∈ i :: (B i ++ [e]) ∧ (h x).prev ∈ i :: (B i ++ [e]) ∧ (h x).prev ∈ full o B := by
  obtain ⟨i, hi, hx⟩ := mem_full.mp hx
  obtain ⟨k, e, E, hx'⟩ : ∃ k e, Edge o k e ∧ x ∈ B k ++ [e] := by
    rcases hx with rfl | hx
    · obtain ⟨k, E⟩ := edge_pred hi
      exact ⟨k, x, E, by simp⟩
    · obtain ⟨e, E⟩ := edge_exists hi
      exact ⟨i, e, E, List.mem_append_left _ hx⟩
  have := path_prev_mem' (edge_path r E) x hx'
  refine ⟨k, e, E, List.mem_cons_of_mem _ hx', ?_, ?_⟩
  · rcases List.mem_cons.mp this with q | q
    · simp [q]
    · exact List.mem_cons_of_mem _ (List.mem_append_left _ q)
  · rcases List.mem_cons.mp this with q | q
    · rw [q]; exact mem_full_orig B E.left
    · exact mem_full_blk E.left q

/-- The vertices of the two polygons. -/
def All (os oc : List Nat) (BS BC : Nat → List Nat) (x : Nat) : Prop := x ∈ full os BS ∨ x ∈ full oc BC

/-- Two points on one edge of one of the polygons. -/
def Adj (h : Heap K) (os oc : List Nat) (P Q : Pt K) : Prop := AdjH h os P Q ∨ AdjH h oc P Q

/-- One step forward or back. -/
def go (h : Heap K) (fwd : Bool) (c : Nat) : Nat := if fwd then (h c).next else (h c).prev

theorem go_adj (I : Inv h n os oc BS BC) (fwd : Bool) {x : Nat} (hx : All os oc BS BC x) :
    All os oc BS BC (go h fwd x) ∧ Adj h os oc (pt h x) (pt h (go h fwd x)) := by
  rcases hx with hx | hx <;> cases fwd
  · obtain ⟨i, e, E, h1, h2, h3⟩ := prev_edge I.s hx
    exact ⟨.inl h3, .inl ⟨i, e, E, onSegS I E h1, onSegS I E h2⟩⟩
  · obtain ⟨i, e, E, h1, h2, h3⟩ := next_edge I.s hx
    exact ⟨.inl h3, .inl ⟨i, e, E, onSegS I E h1, onSegS I E h2⟩⟩
  · obtain ⟨i, e, E, h1, h2, h3⟩ := prev_edge I.c hx
    exact ⟨.inr h3, .inr ⟨i, e, E, onSegC I E h1, onSegC I E h2⟩⟩
  · obtain ⟨i, e, E, h1, h2, h3⟩ := next_edge I.c hx
    exact ⟨.inr h3, .inr ⟨i, e, E, onSegC I E h1, onSegC I E h2⟩⟩

/-- The crossings know their neighbours. -/
theorem nb_spec (I : Inv h n os oc BS BC) {x : Nat} (hx : All os oc BS BC x) (hi : (h x).inter = true) :
    ∃ w, (h x).nb = some w ∧ (h w).nb = some x ∧ pt h w = pt h x ∧ All os oc BS BC w ∧ (h w).inter = true := by
  rcases hx with hx | hx
  · obtain ⟨i, hio, hx⟩ := mem_full.mp hx
    rcases hx with rfl | hx
    · rw [(I.s.orig x hio).1] at hi; cases hi
    · obtain ⟨e, j, f, w, E, F, hw, c⟩ := I.crossS i hio x hx
      exact ⟨w, c.nbv, c.nbw, by simp [pt, c.pos, c.zv, c.zw], .inr (mem_full_blk F.left hw), I.c.blk j F.left w hw⟩
  · obtain ⟨j, hjo, hx⟩ := mem_full.mp hx
    rcases hx with rfl | hx
    · rw [(I.c.orig x hjo).1] at hi; cases hi
    · obtain ⟨f, i, e, v, F, E, hv, c⟩ := I.crossC j hjo x hx
      exact ⟨v, c.nbw, c.nbv, by simp [pt, c.pos, c.zv, c.zw], .inl (mem_full_blk E.left hv), I.s.blk i E.left v hv⟩

end inv

/-! ## Walking -/

/-- Following `g` from `a` one meets `l` and then `b`. -/
def Orb (g : Nat → Nat) : Nat → List Nat → Nat → Prop
  | a, [], b => g a = b
  | a, x :: l, b => g a = x ∧ Orb g x l b

theorem orb_concat {g : Nat → Nat} {x b : Nat} : ∀ {l : List Nat} {a : Nat}, Orb g a l x → g x = b → Orb g a (l ++ [x]) b
  | [], _, h1, h2 => ⟨h1, h2⟩
  | _ :: _, _, h1, h2 => ⟨h1.1, orb_concat h1.2 h2⟩

theorem path_orb {h : Heap K} {b : Nat} : ∀ {l : List Nat} {a : Nat}, Path h a l b → Orb (go h true) a l b
  | [], _, p => p.1
  | _ :: _, _, p => ⟨p.1, path_orb p.2.2⟩

theorem path_orb_prev {h : Heap K} {b : Nat} : ∀ {l : List Nat} {a : Nat}, Path h a l b → Orb (go h false) b l.reverse a
  | [], _, p => p.2
  | x :: l, a, p => by
    rw [List.reverse_cons]
    exact orb_concat (path_orb_prev p.2.2) p.2.1

/-- From every vertex one comes back to it. -/
theorem ring_orb {h : Heap K} {l : List Nat} (r : Ring h l) {c : Nat} (hc : c ∈ l) (fwd : Bool) :
    ∃ m, m.length < l.length ∧ Orb (go h fwd) c m c := by
  obtain ⟨p, q, rfl⟩ := List.append_of_mem hc
  have r' := ring_rotate r (by simp)
  have hp : Path h c (q ++ p) c := r'.2
  cases fwd
  · exact ⟨(q ++ p).reverse, by simp only [List.length_reverse, List.length_append, List.length_cons]; omega, path_orb_prev hp⟩
  · exact ⟨q ++ p, by simp only [List.length_append, List.length_cons]; omega, path_orb hp⟩

theorem walk_spec {h : Heap K} {fwd : Bool} {d : Nat} (hd : (h d).inter = true) (P : Nat → Prop) (A : Pt K → Pt K → Prop)
    (hg : ∀ x, P x → P (go h fwd x) ∧ A (pt h x) (pt h (go h fwd x))) : ∀ (l : List Nat) (c : Nat), Orb (go h fwd) c l d → P c →
    ∃ v ms, (h v).inter = true ∧ P v ∧ (∀ x ∈ ms, P x) ∧ (c :: ms).getLast? = some v ∧ ms ≠ [] ∧
      List.IsChain A ((c :: ms).map (pt h)) ∧ ∀ f acc, l.length < f → walk h fwd f c acc = some (v, acc ++ ms.map (pt h))
  | [], c, o, hc => by
    have e : go h fwd c = d := o
    have hgc := hg c hc
    rw [e] at hgc
    refine ⟨d, [d], hd, hgc.1, by simpa using hgc.1, rfl, by simp, by simpa using hgc.2, fun f acc hf => ?_⟩
    obtain ⟨f, rfl⟩ : ∃ k, f = k + 1 := ⟨f - 1, by simp at hf; omega⟩
    rw [walk]
    show (if (h (go h fwd c)).inter then some (go h fwd c, acc ++ [pt h (go h fwd c)]) else _) = _
    rw [e, if_pos hd]
    rfl
  | x :: l, c, o, hc => by
    have e : go h fwd c = x := o.1
    have hgc := hg c hc
    rw [e] at hgc
    by_cases hx : (h x).inter = true
    · refine ⟨x, [x], hx, hgc.1, by simpa using hgc.1, rfl, by simp, by simpa using hgc.2, fun f acc hf => ?_⟩
      obtain ⟨f, rfl⟩ : ∃ k, f = k + 1 := ⟨f - 1, by simp at hf; omega⟩
      rw [walk]
      show (if (h (go h fwd c)).inter then some (go h fwd c, acc ++ [pt h (go h fwd c)]) else _) = _
      rw [e, if_pos hx]
      rfl
    · obtain ⟨v, ms, h1, h2, h3, h4, h5, h6, h7⟩ := walk_spec hd P A hg l x o.2 hgc.1
      refine ⟨v, x :: ms, h1, h2, ?_, ?_, by simp, ?_, fun f acc hf => ?_⟩
      · intro y hy
        rcases List.mem_cons.mp hy with rfl | hy
        · exact hgc.1
        · exact h3 y hy
      · rw [List.getLast?_cons_cons]; exact h4
      · simp only [List.map_cons, List.isChain_cons_cons]
        exact ⟨hgc.2, h6⟩
      · obtain ⟨f, rfl⟩ : ∃ k, f = k + 1 := ⟨f - 1, by simp at hf; omega⟩
        rw [walk]
        show (if (h (go h fwd c)).inter then _ else walk h fwd f (go h fwd c) (acc ++ [pt h (go h fwd c)])) = _
        rw [e, if_neg hx, h7 f _ (by simp at hf; omega)]
        simp

/-! ## Marks -/

/-- Only marks differ, and none is taken away. -/
structure Marks (h h' : Heap K) : Prop where
  same : ∀ x, h' x = { h x with checked := (h' x).checked }
  mono : ∀ x, (h x).checked = true → (h' x).checked = true

theorem Marks.refl (h : Heap K) : Marks h h := ⟨fun _ => rfl, fun _ h => h⟩
theorem Marks.trans {h h' h'' : Heap K} (a : Marks h h') (b : Marks h' h'') : Marks h h'' :=
  ⟨fun x => by rw [b.same x, a.same x], fun x hx => b.mono x (a.mono x hx)⟩

theorem mark_get (h : Heap K) (a x : Nat) : (mark h a) x = { h x with checked := (h x).checked || decide (x = a) } := by
  rw [mark, get_upd]; split_ifs with e
  · subst e; simp
  · simp [e]

theorem mark_marks (h : Heap K) (a : Nat) : Marks h (mark h a) :=
  ⟨fun x => by rw [mark_get], fun x hx => by rw [mark_get]; simp [hx]⟩

theorem Marks.pt {h h' : Heap K} (a : Marks h h') (x : Nat) : pt h' x = Clp.pt h x := by rw [Clp.pt, Clp.pt, a.same x]

theorem Marks.inv {h h' : Heap K} {n : Nat} {os oc : List Nat} {BS BC : Nat → List Nat} (a : Marks h h') (I : Inv h n os oc BS BC) :
    Inv h' n os oc BS BC :=
  I.congr ⟨fun x _ => by rw [a.same x], fun x _ => by rw [a.same x], fun x _ => by rw [a.same x], fun x _ => by rw [a.same x],
    fun x _ => by rw [a.same x]⟩ fun x _ => by rw [a.same x]; exact ⟨rfl, rfl⟩

theorem Marks.adj {h h' : Heap K} {os oc : List Nat} (a : Marks h h') (P Q : Pt K) : Adj h' os oc P Q ↔ Adj h os oc P Q := by
  have : ∀ x, (h' x).pos = (h x).pos := fun x => by rw [a.same x]
  simp only [Adj, AdjH, this]

theorem setChecked_spec {h : Heap K} {c w : Nat} (hc : (h c).nb = some w) (hw : (h w).nb = some c) :
    ∃ h', Marks h h' ∧ (∀ x, (h' x).checked = ((h x).checked || decide (x = c) || decide (x = w))) ∧
      ∀ f, 2 ≤ f → setChecked f h c = some h' := by
  by_cases hk : ((mark h c) w).checked = false
  · refine ⟨mark (mark h c) w, (mark_marks h c).trans (mark_marks _ w), fun x => by rw [mark_get, mark_get], fun f hf => ?_⟩
    obtain ⟨f, rfl⟩ : ∃ k, f = k + 2 := ⟨f - 2, by omega⟩
    have e1 : ((mark h c) c).nb = some w := by rw [mark_get]; exact hc
    have e2 : ((mark (mark h c) w) w).nb = some c := by rw [mark_get, mark_get]; exact hw
    have e3 : ((mark (mark h c) w) c).checked = true := by rw [mark_get, mark_get]; simp
    rw [setChecked]
    simp only [e1, hk, if_true]
    rw [setChecked]
    simp [e2, e3]
  · refine ⟨mark h c, mark_marks h c, fun x => ?_, fun f hf => ?_⟩
    · by_cases hx : x = w
      · subst hx
        have : ((mark h c) x).checked = true := by simpa using hk
        rw [this]; simp
      · rw [mark_get]; simp [hx]
    · obtain ⟨f, rfl⟩ : ∃ k, f = k + 1 := ⟨f - 1, by omega⟩
      have e1 : ((mark h c) c).nb = some w := by rw [mark_get]; exact hc
      rw [setChecked]
      simp only [e1]
      rw [if_neg hk]

/-- The number of vertices that are not marked. -/
def openCount (h : Heap K) (n : Nat) : Nat := (List.range n).countP fun x => !(h x).checked

theorem openCount_lt {h h' : Heap K} {n c : Nat} (m : Marks h h') (hc : c < n) (h1 : (h c).checked = false) (h2 : (h' c).checked = true) :
    openCount h' n < openCount h n := by
  unfold openCount
  obtain ⟨p, q, e⟩ := List.append_of_mem (List.mem_range.mpr hc)
  rw [e]
  simp only [List.countP_append, List.countP_cons, h1, h2]
  have : ∀ l : List Nat, (l.countP fun x => !(h' x).checked) ≤ l.countP fun x => !(h x).checked := fun l =>
    List.countP_mono_left fun x _ hx => by
      cases hk : (h x).checked
      · rfl
      · rw [m.mono x hk] at hx; cases hx
  have hp := this p
  have hq := this q
  simp only [Bool.not_true, Bool.not_false, if_true, Bool.false_eq_true, if_false]
  omega

theorem openCount_le {h h' : Heap K} {n : Nat} (m : Marks h h') : openCount h' n ≤ openCount h n :=
  List.countP_mono_left fun x _ hx => by
    cases hk : (h x).checked
    · rfl
    · rw [m.mono x hk] at hx; cases hx

section trace
variable {n : Nat} {os oc : List Nat} {BS BC : Nat → List Nat}

theorem Inv.lt {h : Heap K} (I : Inv h n os oc BS BC) {x : Nat} (hx : All os oc BS BC x) : x < n := by
  rcases hx with hx | hx
  · exact I.ltS x hx
  · exact I.ltC x hx

/-- What a traced list of points has to do with the polygons. -/
structure Good (h : Heap K) (os oc : List Nat) (BS BC : Nat → List Nat) (l : List (Pt K)) : Prop where
  ne : l ≠ []
  mem : ∀ P ∈ l, ∃ x, All os oc BS BC x ∧ P = pt h x
  chain : List.IsChain (Adj h os oc) l

theorem Good.marks {h h' : Heap K} {l : List (Pt K)} (m : Marks h h') (g : Good h' os oc BS BC l) : Good h os oc BS BC l :=
  ⟨g.ne, fun P hP => by obtain ⟨x, hx, e⟩ := g.mem P hP; exact ⟨x, hx, by rw [e, m.pt]⟩,
   g.chain.imp fun P Q => (m.adj P Q).mp⟩

theorem Good.marks' {h h' : Heap K} {l : List (Pt K)} (m : Marks h h') (g : Good h os oc BS BC l) : Good h' os oc BS BC l :=
  ⟨g.ne, fun P hP => by obtain ⟨x, hx, e⟩ := g.mem P hP; exact ⟨x, hx, by rw [e, m.pt]⟩,
   g.chain.imp fun P Q => (m.adj P Q).mpr⟩

theorem trace_spec : ∀ (k : Nat) (h : Heap K) (c : Nat) (acc : List (Pt K)), openCount h n ≤ k → Inv h n os oc BS BC → All os oc BS BC c →
    (h c).inter = true → (h c).checked = false → acc.getLast? = some (pt h c) → Good h os oc BS BC acc →
    ∃ h' l, Marks h h' ∧ (h' c).checked = true ∧ Good h os oc BS BC l ∧ acc.length < l.length ∧ (∀ P ∈ acc, P ∈ l) ∧
      (∀ x, All os oc BS BC x → (h' x).checked = true → (h x).checked = true ∨ pt h x ∈ l) ∧
      ∀ fuel f, (full os BS).length + (full oc BC).length + 2 ≤ fuel → k < f → trace fuel f h c acc = some (h', l) := by
  intro k
  induction k with
  | zero =>
    intro h c acc hk I hc hi ho _ _
    exfalso
    have : (List.range n).countP (fun x => !(h x).checked) ≠ 0 := by
      intro h0
      rw [List.countP_eq_zero] at h0
      exact h0 c (List.mem_range.mpr (I.lt hc)) (by simp [ho])
    exact this (Nat.le_zero.mp hk)
  | succ k ih =>
    intro h c acc hk I hc hi ho hl G
    obtain ⟨w, n1, n2, n3, hw, hwi⟩ := nb_spec I hc hi
    obtain ⟨h1, m1, ck1, sc1⟩ := setChecked_spec n1 n2
    have I1 := m1.inv I
    have hc1 : (h1 c).checked = true := by rw [ck1]; simp
    obtain ⟨m, hml, orb⟩ : ∃ m, m.length < (full os BS).length + (full oc BC).length + 1 ∧ Orb (go h1 (h1 c).entry) c m c := by
      rcases hc with hc | hc
      · obtain ⟨m, h1, h2⟩ := ring_orb I1.s.ring hc (h1 c).entry
        exact ⟨m, by omega, h2⟩
      · obtain ⟨m, h1, h2⟩ := ring_orb I1.c.ring hc (h1 c).entry
        exact ⟨m, by omega, h2⟩
    have hi1 : (h1 c).inter = true := by rw [m1.same c]; exact hi
    obtain ⟨v, ms, v1, v2, v3, v4, v5, v6, v7⟩ := walk_spec hi1 (All os oc BS BC) (Adj h1 os oc) (fun x hx => go_adj I1 (h1 c).entry hx) m c orb hc
    obtain ⟨u, u1, u2, u3, hu, hui⟩ := nb_spec I1 v2 v1
    -- the points after the walk
    have hG1 : Good h1 os oc BS BC (acc ++ ms.map (pt h1)) := by
      refine ⟨by simp [G.ne], fun P hP => ?_, ?_⟩
      · rcases List.mem_append.mp hP with hP | hP
        · exact (G.marks' m1).mem P hP
        · obtain ⟨x, hx, rfl⟩ := List.mem_map.mp hP
          exact ⟨x, v3 x hx, rfl⟩
      · rw [List.map_cons, List.isChain_cons] at v6
        refine List.isChain_append.mpr ⟨(G.marks' m1).chain, v6.2, fun x hx y hy => ?_⟩
        rw [hl] at hx
        simp only [Option.mem_def, Option.some.injEq] at hx
        subst hx
        rw [← m1.pt c]
        exact v6.1 y hy
    have hlast : (acc ++ ms.map (pt h1)).getLast? = some (pt h1 v) := by
      rw [List.getLast?_append]
      have : (ms.map (pt h1)).getLast? = some (pt h1 v) := by
        rw [List.getLast?_map]
        have : ms.getLast? = some v := by
          cases ms with
          | nil => exact absurd rfl v5
          | cons a t => rw [List.getLast?_cons_cons] at v4; exact v4
        rw [this]; rfl
      rw [this]; rfl
    have hlen : acc.length < (acc ++ ms.map (pt h1)).length := by
      cases ms with
      | nil => exact absurd rfl v5
      | cons a t => simp
    have hcl : pt h c ∈ acc := List.mem_of_mem_getLast? hl
    by_cases hck : (h1 u).checked = true
    · refine ⟨h1, acc ++ ms.map (pt h1), m1, hc1, hG1.marks m1, hlen, fun P hP => List.mem_append_left _ hP, fun x hx hxc => ?_, fun fuel f hf hk' => ?_⟩
      · rw [ck1] at hxc
        simp only [Bool.or_eq_true, decide_eq_true_eq] at hxc
        rcases hxc with (q | q) | q
        · exact .inl q
        · subst q; exact .inr (List.mem_append_left _ hcl)
        · subst q; exact .inr (by rw [n3]; exact List.mem_append_left _ hcl)
      · obtain ⟨f, rfl⟩ : ∃ k, f = k + 1 := ⟨f - 1, by omega⟩
        rw [trace, sc1 fuel (by omega)]
        dsimp only
        rw [v7 fuel acc (by omega)]
        dsimp only
        rw [u1]
        dsimp only
        rw [if_pos hck]
    · have hdec : openCount h1 n < openCount h n := openCount_lt m1 (I.lt hc) ho hc1
      obtain ⟨h2, l, m2, d1, d2, d3, d4, d5, d6⟩ := ih h1 u (acc ++ ms.map (pt h1)) (by omega) I1 hu hui (by simpa using hck)
        (by rw [hlast, u3]) hG1
      refine ⟨h2, l, m1.trans m2, m2.mono c hc1, d2.marks m1, by omega, fun P hP => d4 P (List.mem_append_left _ hP), fun x hx hxc => ?_,
        fun fuel f hf hk' => ?_⟩
      · rcases d5 x hx hxc with q | q
        · rw [ck1] at q
          simp only [Bool.or_eq_true, decide_eq_true_eq] at q
          rcases q with (q | q) | q
          · exact .inl q
          · subst q; exact .inr (d4 _ (List.mem_append_left _ hcl))
          · subst q; exact .inr (by rw [n3]; exact d4 _ (List.mem_append_left _ hcl))
        · rw [m1.pt] at q; exact .inr q
      · obtain ⟨f, rfl⟩ : ∃ k, f = k + 1 := ⟨f - 1, by omega⟩
        rw [trace, sc1 fuel (by omega)]
        dsimp only
        rw [v7 fuel acc (by omega)]
        dsimp only
        rw [u1]
        dsimp only
        rw [if_neg hck]
        exact d6 fuel f hf (by omega)

theorem firstOpen_path {h : Heap K} {hd : Nat} : ∀ (l : List Nat) (a : Nat), Path h a l hd → hd ∉ l →
    ∃ r, (∀ f, l.length < f → firstOpen h hd f a = some r) ∧ (∀ v, r = some v → v ∈ a :: l ∧ (h v).inter = true ∧ (h v).checked = false) ∧
      (r = none → ∀ x ∈ a :: l, (h x).inter = true → (h x).checked = true)
  | [], a, p, _ => by
    by_cases hq : (h a).inter = true ∧ (h a).checked = false
    · refine ⟨some a, fun f hf => ?_, fun v hv => ?_, fun h => by cases h⟩
      · obtain ⟨f, rfl⟩ : ∃ k, f = k + 1 := ⟨f - 1, by simp at hf; omega⟩
        rw [firstOpen, if_pos hq]
      · cases hv; exact ⟨by simp, hq⟩
    · refine ⟨none, fun f hf => ?_, fun v hv => (by cases hv), fun _ x hx hi => ?_⟩
      · obtain ⟨f, rfl⟩ : ∃ k, f = k + 1 := ⟨f - 1, by simp at hf; omega⟩
        rw [firstOpen, if_neg hq, if_pos p.1]
      · simp only [List.mem_singleton] at hx; subst hx
        by_contra hne
        exact hq ⟨hi, by simpa using hne⟩
  | y :: l, a, p, hx => by
    have hyd : y ≠ hd := fun q => hx (by simp [q])
    by_cases hq : (h a).inter = true ∧ (h a).checked = false
    · refine ⟨some a, fun f hf => ?_, fun v hv => ?_, fun h => by cases h⟩
      · obtain ⟨f, rfl⟩ : ∃ k, f = k + 1 := ⟨f - 1, by simp at hf; omega⟩
        rw [firstOpen, if_pos hq]
      · cases hv; exact ⟨by simp, hq⟩
    · obtain ⟨r, r1, r2, r3⟩ := firstOpen_path l y p.2.2 (fun q => hx (List.mem_cons_of_mem _ q))
      refine ⟨r, fun f hf => ?_, fun v hv => ⟨List.mem_cons_of_mem _ (r2 v hv).1, (r2 v hv).2⟩, fun hr x hx hi => ?_⟩
      · obtain ⟨f, rfl⟩ : ∃ k, f = k + 1 := ⟨f - 1, by simp at hf; omega⟩
        rw [firstOpen, if_neg hq, p.1, if_neg hyd]
        exact r1 f (by simp at hf; omega)
      · rcases List.mem_cons.mp hx with rfl | hx
        · by_contra hne
          exact hq ⟨hi, by simpa using hne⟩
        · exact r3 hr x hx hi

/-- The traced polygons. -/
theorem pieces_spec {hs : Nat} (hh : os.head? = some hs) : ∀ (k : Nat) (h : Heap K) (acc : List (List (Pt K))), openCount h n ≤ k →
    Inv h n os oc BS BC → (∀ l ∈ acc, Good h os oc BS BC l ∧ 2 ≤ l.length) →
    ∃ h' r, Marks h h' ∧ (∀ l ∈ r, Good h os oc BS BC l ∧ 2 ≤ l.length) ∧ (∀ l ∈ acc, l ∈ r) ∧
      (∀ x ∈ full os BS, (h x).inter = true → (h x).checked = true ∨ ∃ l ∈ r, pt h x ∈ l) ∧
      ((∀ x ∈ full os BS, (h x).inter = true → (h x).checked = true) → r = acc ∧ h' = h) ∧
      ∃ N, ∀ fuel ≥ N, ∀ f, k < f → pieces fuel hs f h acc = some (h', r) := by
  intro k
  induction k with
  | zero =>
    intro h acc hk I hacc
    obtain ⟨t, ht, hp, hnt⟩ := ring_cons I.s.ring (full_head hh)
    obtain ⟨r, r1, r2, r3⟩ := firstOpen_path t hs hp hnt
    cases r with
    | some v =>
      exfalso
      obtain ⟨hv, _, ho⟩ := r2 v rfl
      rw [← ht] at hv
      have : (List.range n).countP (fun x => !(h x).checked) ≠ 0 := by
        intro h0
        rw [List.countP_eq_zero] at h0
        exact h0 v (List.mem_range.mpr (I.ltS v hv)) (by simp [ho])
      exact this (Nat.le_zero.mp hk)
    | none =>
      refine ⟨h, acc, Marks.refl h, hacc, fun l hl => hl, fun x hx hi => .inl (r3 rfl x (ht ▸ hx) hi), fun _ => ⟨rfl, rfl⟩, t.length + 1,
        fun fuel hf f hk' => ?_⟩
      obtain ⟨f, rfl⟩ : ∃ k, f = k + 1 := ⟨f - 1, by omega⟩
      rw [pieces, r1 fuel (by omega)]
  | succ k ih =>
    intro h acc hk I hacc
    obtain ⟨t, ht, hp, hnt⟩ := ring_cons I.s.ring (full_head hh)
    obtain ⟨r, r1, r2, r3⟩ := firstOpen_path t hs hp hnt
    cases r with
    | none =>
      refine ⟨h, acc, Marks.refl h, hacc, fun l hl => hl, fun x hx hi => .inl (r3 rfl x (ht ▸ hx) hi), fun _ => ⟨rfl, rfl⟩, t.length + 1,
        fun fuel hf f hk' => ?_⟩
      obtain ⟨f, rfl⟩ : ∃ k, f = k + 1 := ⟨f - 1, by omega⟩
      rw [pieces, r1 fuel (by omega)]
    | some v =>
      obtain ⟨hv, hvi, ho⟩ := r2 v rfl
      rw [← ht] at hv
      obtain ⟨h1, l, m1, c1, g1, len1, _, ck1, tr1⟩ := trace_spec (openCount h n) h v [pt h v] (le_refl _) I (.inl hv) hvi ho rfl
        ⟨by simp, fun P hP => ⟨v, .inl hv, by simpa using hP⟩, List.IsChain.singleton _⟩
      have hdec : openCount h1 n < openCount h n := openCount_lt m1 (I.ltS v hv) ho c1
      have len1' : 2 ≤ l.length := by simp at len1; omega
      obtain ⟨h2, r, m2, p1, p2, p3, _, N, p4⟩ := ih h1 (acc ++ [l]) (by omega) (m1.inv I) (by
        intro l' hl'
        rcases List.mem_append.mp hl' with q | q
        · exact ⟨(hacc l' q).1.marks' m1, (hacc l' q).2⟩
        · simp only [List.mem_singleton] at q; subst q; exact ⟨g1.marks' m1, len1'⟩)
      refine ⟨h2, r, m1.trans m2, fun l' hl' => ⟨(p1 l' hl').1.marks m1, (p1 l' hl').2⟩, fun l' hl' => p2 l' (List.mem_append_left _ hl'),
        fun x hx hi => ?_, fun hall => ?_, N + t.length + (full os BS).length + (full oc BC).length + openCount h n + 2, fun fuel hf f hk' => ?_⟩
      · rcases p3 x hx (by rw [m1.same x]; exact hi) with q | ⟨l', q1, q2⟩
        · rcases ck1 x (.inl hx) q with q | q
          · exact .inl q
          · exact .inr ⟨l, p2 l (by simp), q⟩
        · exact .inr ⟨l', q1, by rw [m1.pt] at q2; exact q2⟩
      · rw [hall v hv hvi] at ho; cases ho
      · obtain ⟨f, rfl⟩ : ∃ k, f = k + 1 := ⟨f - 1, by omega⟩
        rw [pieces, r1 fuel (by omega)]
        dsimp only
        rw [tr1 fuel fuel (by omega) (by omega)]
        dsimp only
        exact p4 fuel (by omega) f (by omega)

theorem points_path {h : Heap K} {hd : Nat} : ∀ (l : List Nat) (a : Nat), Path h a l hd → hd ∉ l → ∀ f, l.length < f →
    points h hd f a = some ((a :: l).map (pt h))
  | [], a, p, _, f, hf => by
    obtain ⟨f, rfl⟩ : ∃ k, f = k + 1 := ⟨f - 1, by simp at hf; omega⟩
    rw [points, if_pos p.1]; rfl
  | y :: l, a, p, hx, f, hf => by
    have hyd : y ≠ hd := fun q => hx (by simp [q])
    obtain ⟨f, rfl⟩ : ∃ k, f = k + 1 := ⟨f - 1, by simp at hf; omega⟩
    rw [points, p.1, if_neg hyd, points_path l y p.2.2 (fun q => hx (List.mem_cons_of_mem _ q)) f (by simp at hf; omega)]
    rfl

end trace

end Verif.Clp
