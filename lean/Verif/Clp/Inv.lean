import Verif.Clp.Ring
import Verif.Poly.Props
import Mathlib.Tactic.Linarith

/-!
# Phase one of the clipping: the crossings are inserted in order
-/

set_option linter.unusedSectionVars false
namespace Verif.Clp
open Verif.Poly
variable {K : Type} [Field K] [LinearOrder K]

/-- The vertices of a polygon: the original ones, each followed by the crossings on its edge. -/
def full (o : List Nat) (B : Nat → List Nat) : List Nat := o.flatMap fun i => i :: B i

theorem full_append (a b : List Nat) (B : Nat → List Nat) : full (a ++ b) B = full a B ++ full b B := by simp [full]
theorem full_cons (i : Nat) (o : List Nat) (B : Nat → List Nat) : full (i :: o) B = i :: (B i ++ full o B) := by simp [full]
theorem mem_full {o : List Nat} {B : Nat → List Nat} {x : Nat} : x ∈ full o B ↔ ∃ i ∈ o, x = i ∨ x ∈ B i := by
  simp [full]
theorem mem_full_orig {o : List Nat} (B : Nat → List Nat) {x : Nat} (h : x ∈ o) : x ∈ full o B := mem_full.mpr ⟨x, h, .inl rfl⟩
theorem mem_full_blk {o : List Nat} {B : Nat → List Nat} {i x : Nat} (h : i ∈ o) (hx : x ∈ B i) : x ∈ full o B :=
  mem_full.mpr ⟨i, h, .inr hx⟩
theorem full_update {o : List Nat} {B : Nat → List Nat} {s : Nat} (x : List Nat) (h : s ∉ o) :
    full o (Function.update B s x) = full o B := by
  unfold full
  refine List.flatMap_congr fun i hi => ?_
  have : i ≠ s := fun e => h (e ▸ hi)
  rw [Function.update_of_ne this]

/-- `e` comes after `s` among the original vertices. -/
def Edge {α : Type} (o : List α) (s e : α) : Prop := ∃ pre post t, o = pre ++ s :: post ∧ post ++ pre ++ [s] = e :: t

theorem edge_exists {o : List Nat} {s : Nat} (h : s ∈ o) : ∃ e, Edge o s e := by
  obtain ⟨pre, post, e⟩ := List.append_of_mem h
  cases hh : post ++ pre ++ [s] with
  | nil => simp at hh
  | cons x t => exact ⟨x, pre, post, t, e, hh⟩

theorem Edge.left {o : List Nat} {s e : Nat} (h : Edge o s e) : s ∈ o := by
  obtain ⟨pre, post, t, h1, h2⟩ := h
  rw [h1]; simp

theorem Edge.right {o : List Nat} {s e : Nat} (h : Edge o s e) : e ∈ o := by
  obtain ⟨pre, post, t, h1, h2⟩ := h
  have : e ∈ post ++ pre ++ [s] := by rw [h2]; simp
  rw [h1]
  simp only [List.mem_append, List.mem_singleton, List.mem_cons] at this ⊢
  tauto

structure RingInv (h : Heap K) (o : List Nat) (B : Nat → List Nat) : Prop where
  ring : Ring h (full o B)
  orig : ∀ i ∈ o, (h i).inter = false ∧ (h i).alpha = 0
  blk : ∀ i ∈ o, ∀ v ∈ B i, (h v).inter = true
  sorted : ∀ i ∈ o, (B i).Pairwise fun x y => (h x).alpha ≤ (h y).alpha

theorem Ring.nodup {h : Heap K} {l : List Nat} (r : Ring h l) : l.Nodup := by
  cases l with
  | nil => exact List.nodup_nil
  | cons a l => exact r.1

theorem RingInv.congr {h h' : Heap K} {o : List Nat} {B : Nat → List Nat} (r : RingInv h o B)
    (e : ∀ x ∈ full o B, (h' x).next = (h x).next ∧ (h' x).prev = (h x).prev ∧ (h' x).inter = (h x).inter ∧ (h' x).alpha = (h x).alpha) :
    RingInv h' o B := by
  refine ⟨ring_congr (fun x hx => ⟨(e x hx).1, (e x hx).2.1⟩) r.ring, fun i hi => ?_, fun i hi v hv => ?_, fun i hi => ?_⟩
  · obtain ⟨_, _, e1, e2⟩ := e i (mem_full_orig B hi)
    rw [e1, e2]; exact r.orig i hi
  · rw [(e v (mem_full_blk hi hv)).2.2.1]; exact r.blk i hi v hv
  · refine (r.sorted i hi).imp_of_mem fun {x y} hx hy hxy => ?_
    rw [(e x (mem_full_blk hi hx)).2.2.2, (e y (mem_full_blk hi hy)).2.2.2]; exact hxy

/-- The ring from `s` on. -/
theorem edge_ring {h : Heap K} {o : List Nat} {B : Nat → List Nat} (r : RingInv h o B) {s e : Nat} (E : Edge o s e) :
    (e = s ∧ o = [s] ∧ Ring h (s :: B s)) ∨
    ∃ pre post R, o = pre ++ s :: post ∧ full post B ++ full pre B = e :: R ∧ Ring h (s :: (B s ++ e :: R)) := by
  obtain ⟨pre, post, t, h1, h2⟩ := E
  have hr := r.ring
  rw [h1, full_append, full_cons] at hr
  have hr' := ring_rotate hr (by simp)
  cases hh : post ++ pre with
  | nil =>
    left
    obtain ⟨rfl, rfl⟩ := List.append_eq_nil_iff.mp hh
    simp only [List.nil_append, List.cons.injEq] at h2
    refine ⟨h2.1.symm, h1, ?_⟩
    simpa [full] using hr'
  | cons x u =>
    right
    rw [hh, List.cons_append, List.cons.injEq] at h2
    obtain ⟨rfl, _⟩ := h2
    refine ⟨pre, post, B x ++ full u B, h1, ?_, ?_⟩
    · rw [← full_append, hh, full_cons]
    · have : full post B ++ full pre B = x :: (B x ++ full u B) := by rw [← full_append, hh, full_cons]
      rw [← this]
      simpa [List.append_assoc] using hr'

theorem edge_path {h : Heap K} {o : List Nat} {B : Nat → List Nat} (r : RingInv h o B) {s e : Nat} (E : Edge o s e) :
    Path h s (B s) e := by
  rcases edge_ring r E with ⟨rfl, _, hr⟩ | ⟨_, _, R, _, _, hr⟩
  · exact hr.2
  · exact ((path_append h e R s (B s) s).mp hr.2).1

theorem edge_next {h : Heap K} {o : List Nat} {B : Nat → List Nat} (r : RingInv h o B) {s e : Nat} (E : Edge o s e) {f : Nat}
    (hf : (B s).length < f) : nextPlain h f (h s).next = some e :=
  nextPlain_spec (r.orig e E.right).1 (B s) s (edge_path r E) (r.blk s E.left) f hf

theorem edge_unique {h : Heap K} {o : List Nat} {B : Nat → List Nat} (r : RingInv h o B) {s e e' : Nat} (E : Edge o s e) (E' : Edge o s e') :
    e = e' := by
  have a := edge_next r E (f := (B s).length + 1) (by omega)
  have b := edge_next r E' (f := (B s).length + 1) (by omega)
  rw [a] at b
  exact Option.some.inj b

/-- `Polygon.insert` of a crossing on the edge from `s` to `e`. -/
theorem insertV_spec {h : Heap K} {o : List Nat} {B : Nat → List Nat} (r : RingInv h o B) {s e v : Nat} (E : Edge o s e) (hse : s ≠ e)
    (hv : v ∉ full o B) (hi : (h v).inter = true) (ha : 0 < (h v).alpha) :
    ∃ h' B1 B2, (∀ fuel, (B s).length + 1 < fuel → insertV fuel h v s e = some h') ∧ B s = B1 ++ B2 ∧ RingInv h' o (Function.update B s (B1 ++ v :: B2)) ∧ Same h h' ∧
      ∀ x, x ∉ v :: full o B → h' x = h x := by
  rcases edge_ring r E with ⟨h1, _, _⟩ | ⟨pre, post, R, ho, hR, hr⟩
  · exact absurd h1.symm hse
  have hp := edge_path r E
  have hnd := hr.1
  have heB : e ∉ s :: B s := by
    have : ((s :: B s) ++ (e :: R)).Nodup := by simpa using hnd
    intro hm
    exact (List.nodup_append'.mp this).2.2 hm (by simp)
  obtain ⟨B1, B2, c, e1, e2, e3, e4, e5⟩ := seek_spec (a := (h v).alpha) (B s) s hp heB
  have hmem : ∀ x, x ∈ full o B ↔ x ∈ s :: (B s ++ e :: R) := by
    intro x
    rw [ho, full_append, full_cons, ← hR]
    simp only [List.mem_append, List.mem_cons]
    tauto
  have hv' : v ∉ s :: (B s ++ e :: R) := fun hm => hv ((hmem v).mpr hm)
  cases B1 with
  | nil =>
    exfalso
    simp only [List.nil_append] at e1
    have := e4 s (by rw [← e1]; simp)
    rw [(r.orig s E.left).2] at this
    exact absurd ha (not_lt.mpr this)
  | cons s' B1 =>
    simp only [List.cons_append, List.cons.injEq] at e1
    obtain ⟨rfl, e1⟩ := e1
    -- the vertex after the new one
    obtain ⟨R', hc⟩ : ∃ R', B2 ++ e :: R = c :: R' := by
      cases B2 with
      | nil => simp only [List.nil_append, List.head?_cons, Option.some.injEq] at e2; subst e2; exact ⟨R, rfl⟩
      | cons b B2 => simp only [List.cons_append, List.head?_cons, Option.some.injEq] at e2; subst e2; exact ⟨_, rfl⟩
    have hring : Ring h (s :: (B1 ++ c :: R')) := by
      rw [← hc, ← List.append_assoc, ← e1]; exact hr
    have hvc : v ∉ s :: (B1 ++ c :: R') := by
      rw [← hc, ← List.append_assoc, ← e1]; exact hv'
    have L : Linked h (link h v c) v c := link_linked h
    have hnew := ring_link hring hvc L
    have hsp : s ∉ pre ∧ s ∉ post := by
      have nd : (full o B).Nodup := r.ring.nodup
      rw [ho, full_append, full_cons] at nd
      have h1 := List.nodup_append'.mp nd
      refine ⟨fun hm => h1.2.2 (mem_full_orig B hm) (by simp), fun hm => ?_⟩
      exact (List.nodup_cons.mp h1.2.1).1 (List.mem_append_right _ (mem_full_orig B hm))
    refine ⟨link h v c, B1, B2, ?_, e1, ?_, L.data, ?_⟩
    · intro fuel hf
      rw [insertV, e5 fuel hf]; rfl
    · have hal : ∀ x, ((link h v c) x).alpha = (h x).alpha := fun x => by rw [L.data x]
      have hin : ∀ x, ((link h v c) x).inter = (h x).inter := fun x => by rw [L.data x]
      refine ⟨?_, fun i hi' => ?_, fun i hi' x hx => ?_, fun i hi' => ?_⟩
      · rw [ho, full_append, full_cons, full_update _ hsp.1, full_update _ hsp.2, Function.update_self]
        rw [← hc] at hnew
        have e6 : s :: (B1 ++ v :: (B2 ++ e :: R)) = (s :: ((B1 ++ v :: B2) ++ full post B)) ++ full pre B := by
          rw [List.cons_append, List.append_assoc, hR]; simp
        rw [e6] at hnew
        by_cases hpre : full pre B = []
        · rw [hpre] at hnew ⊢; simpa using hnew
        · exact ring_rotate hnew hpre
      · rw [hal, hin]; exact r.orig i hi'
      · rw [hin]
        by_cases his : i = s
        · subst his
          rw [Function.update_self] at hx
          rcases List.mem_append.mp hx with hx | hx
          · exact r.blk i hi' x (by rw [e1]; exact List.mem_append_left _ hx)
          · rcases List.mem_cons.mp hx with hx | hx
            · subst hx; exact hi
            · exact r.blk i hi' x (by rw [e1]; exact List.mem_append_right _ hx)
        · rw [Function.update_of_ne his] at hx
          exact r.blk i hi' x hx
      · simp only [hal]
        by_cases his : i = s
        · subst his
          rw [Function.update_self]
          have hs := r.sorted i hi'
          rw [e1, List.pairwise_append] at hs
          obtain ⟨s1, s2, s3⟩ := hs
          have hall : ∀ y ∈ B2, (h v).alpha ≤ (h y).alpha := by
            cases B2 with
            | nil => simp
            | cons b B2 =>
              intro y hy
              have hb : (h v).alpha ≤ (h b).alpha := e4 b (by simp)
              rcases List.mem_cons.mp hy with hy | hy
              · subst hy; exact hb
              · exact hb.trans ((List.pairwise_cons.mp s2).1 y hy)
          rw [List.pairwise_append]
          refine ⟨s1, List.pairwise_cons.mpr ⟨hall, s2⟩, fun x hx y hy => ?_⟩
          rcases List.mem_cons.mp hy with hy | hy
          · subst hy; exact (e3 x (List.mem_cons_of_mem _ hx)).le
          · exact s3 x hx y hy
        · rw [Function.update_of_ne his]; exact r.sorted i hi'
    · intro x hx
      have hxv : x ≠ v := fun e => hx (by simp [e])
      have hxr : x ∉ s :: (B1 ++ c :: R') := by
        intro hm
        rw [← hc, ← List.append_assoc, ← e1] at hm
        exact hx (List.mem_cons_of_mem _ ((hmem x).mpr hm))
      have hxc : x ≠ c := fun e => hxr (by simp [e])
      have hxp : x ≠ (h c).prev := by
        intro e
        have hpm := path_prev_mem ((path_append h c R' s B1 s).mp hring.2).1
        rw [← e] at hpm
        exact hxr (by rcases List.mem_cons.mp hpm with q | q <;> simp [q])
      have := L.data x
      rw [L.next, L.prev, if_neg hxp, if_neg hxv, if_neg hxc, if_neg hxv] at this
      exact this

/-- A crossing: the vertices `v` and `w` that stand for it in the two polygons. -/
structure Cr (h : Heap K) (i e j f v w : Nat) : Prop where
  nbv : (h v).nb = some w
  nbw : (h w).nb = some v
  eq : intersect (h i).pos (h e).pos (h j).pos (h f).pos = some ((h v).pos, (h v).alpha, (h w).alpha)
  pos : (h w).pos = (h v).pos
  zv : (h v).z = 0
  zw : (h w).z = 0

structure Inv (h : Heap K) (size : Nat) (os oc : List Nat) (BS BC : Nat → List Nat) : Prop where
  s : RingInv h os BS
  c : RingInv h oc BC
  disj : (full os BS).Disjoint (full oc BC)
  ltS : ∀ x ∈ full os BS, x < size
  ltC : ∀ x ∈ full oc BC, x < size
  crossS : ∀ i ∈ os, ∀ v ∈ BS i, ∃ e j f w, Edge os i e ∧ Edge oc j f ∧ w ∈ BC j ∧ Cr h i e j f v w
  crossC : ∀ j ∈ oc, ∀ w ∈ BC j, ∃ f i e v, Edge oc j f ∧ Edge os i e ∧ v ∈ BS i ∧ Cr h i e j f v w

/-- Only links and flags differ. -/
structure Keep (h h' : Heap K) (n : Nat) : Prop where
  pos : ∀ x < n, (h' x).pos = (h x).pos
  z : ∀ x < n, (h' x).z = (h x).z
  nb : ∀ x < n, (h' x).nb = (h x).nb
  alpha : ∀ x < n, (h' x).alpha = (h x).alpha
  inter : ∀ x < n, (h' x).inter = (h x).inter

theorem Keep.refl (h : Heap K) (n : Nat) : Keep h h n := ⟨fun _ _ => rfl, fun _ _ => rfl, fun _ _ => rfl, fun _ _ => rfl, fun _ _ => rfl⟩
theorem Keep.trans {h h' h'' : Heap K} {n m : Nat} (a : Keep h h' n) (b : Keep h' h'' m) (hnm : n ≤ m) : Keep h h'' n :=
  ⟨fun x hx => (b.pos x (by omega)).trans (a.pos x hx), fun x hx => (b.z x (by omega)).trans (a.z x hx),
   fun x hx => (b.nb x (by omega)).trans (a.nb x hx), fun x hx => (b.alpha x (by omega)).trans (a.alpha x hx),
   fun x hx => (b.inter x (by omega)).trans (a.inter x hx)⟩
theorem Same.keep {h h' : Heap K} (a : Same h h') (n : Nat) : Keep h h' n :=
  ⟨fun x _ => by rw [a x], fun x _ => by rw [a x], fun x _ => by rw [a x], fun x _ => by rw [a x], fun x _ => by rw [a x]⟩

theorem Cr.keep {h h' : Heap K} {n i e j f v w : Nat} (c : Cr h i e j f v w) (k : Keep h h' n) (hi : i < n) (he : e < n) (hj : j < n)
    (hf : f < n) (hv : v < n) (hw : w < n) : Cr h' i e j f v w :=
  ⟨by rw [k.nb v hv]; exact c.nbv, by rw [k.nb w hw]; exact c.nbw,
   by rw [k.pos i hi, k.pos e he, k.pos j hj, k.pos f hf, k.pos v hv, k.alpha v hv, k.alpha w hw]; exact c.eq,
   by rw [k.pos v hv, k.pos w hw]; exact c.pos, by rw [k.z v hv]; exact c.zv, by rw [k.z w hw]; exact c.zw⟩

theorem Inv.lt_edge {h : Heap K} {n : Nat} {os oc : List Nat} {BS BC : Nat → List Nat} (I : Inv h n os oc BS BC) {i e : Nat}
    (E : Edge os i e) : i < n ∧ e < n :=
  ⟨I.ltS i (mem_full_orig BS E.left), I.ltS e (mem_full_orig BS E.right)⟩

theorem Inv.lt_edge' {h : Heap K} {n : Nat} {os oc : List Nat} {BS BC : Nat → List Nat} (I : Inv h n os oc BS BC) {i e : Nat}
    (E : Edge oc i e) : i < n ∧ e < n :=
  ⟨I.ltC i (mem_full_orig BC E.left), I.ltC e (mem_full_orig BC E.right)⟩

/-- A step that keeps the rings. -/
theorem Inv.congr {h h' : Heap K} {n : Nat} {os oc : List Nat} {BS BC : Nat → List Nat} (I : Inv h n os oc BS BC) (k : Keep h h' n)
    (hl : ∀ x < n, (h' x).next = (h x).next ∧ (h' x).prev = (h x).prev) : Inv h' n os oc BS BC := by
  refine ⟨I.s.congr fun x hx => ?_, I.c.congr fun x hx => ?_, I.disj, I.ltS, I.ltC, fun i hi v hv => ?_, fun j hj w hw => ?_⟩
  · have := I.ltS x hx
    exact ⟨(hl x this).1, (hl x this).2, k.inter x this, k.alpha x this⟩
  · have := I.ltC x hx
    exact ⟨(hl x this).1, (hl x this).2, k.inter x this, k.alpha x this⟩
  · obtain ⟨e, j, f, w, E, F, hw, c⟩ := I.crossS i hi v hv
    exact ⟨e, j, f, w, E, F, hw, c.keep k (I.lt_edge E).1 (I.lt_edge E).2 (I.lt_edge' F).1 (I.lt_edge' F).2
      (I.ltS v (mem_full_blk hi hv)) (I.ltC w (mem_full_blk F.left hw))⟩
  · obtain ⟨f, i, e, v, F, E, hv, c⟩ := I.crossC j hj w hw
    exact ⟨f, i, e, v, F, E, hv, c.keep k (I.lt_edge E).1 (I.lt_edge E).2 (I.lt_edge' F).1 (I.lt_edge' F).2
      (I.ltS v (mem_full_blk E.left hv)) (I.ltC w (mem_full_blk hj hw))⟩

/-- What one step of phase one adds. -/
structure Ext (st st' : St K) (BS BC BS' BC' : Nat → List Nat) : Prop where
  size : st.size ≤ st'.size
  keep : Keep st.heap st'.heap st.size
  unchecked : (∀ x, (st.heap x).checked = false) → ∀ x, (st'.heap x).checked = false
  s : ∀ i x, x ∈ BS i → x ∈ BS' i
  c : ∀ i x, x ∈ BC i → x ∈ BC' i

theorem Ext.refl (st : St K) (BS BC : Nat → List Nat) : Ext st st BS BC BS BC :=
  ⟨le_refl _, Keep.refl _ _, fun h => h, fun _ _ h => h, fun _ _ h => h⟩
theorem Ext.trans {st st' st'' : St K} {BS BC BS' BC' BS'' BC'' : Nat → List Nat} (a : Ext st st' BS BC BS' BC')
    (b : Ext st' st'' BS' BC' BS'' BC'') : Ext st st'' BS BC BS'' BC'' :=
  ⟨a.size.trans b.size, a.keep.trans b.keep a.size, fun h => b.unchecked (a.unchecked h), fun i x h => b.s i x (a.s i x h),
   fun i x h => b.c i x (a.c i x h)⟩

theorem two_old (st : St K) (i : K × K) (us uc : K) {x : Nat} (hx : x < st.size) : (twoNodes st i us uc) x = st.heap x := by
  have h1 : ¬ x = st.size := by omega
  have h2 : ¬ x = st.size + 1 := by omega
  simp [twoNodes, setNb, get_upd, h1, h2]

theorem two_v (st : St K) (i : K × K) (us uc : K) :
    (twoNodes st i us uc) st.size = { newNode st.size (i, 0) us true false with nb := some (st.size + 1) } := by
  simp [twoNodes, setNb, get_upd]

theorem two_w (st : St K) (i : K × K) (us uc : K) :
    (twoNodes st i us uc) (st.size + 1) = { newNode (st.size + 1) (i, 0) uc true false with nb := some st.size } := by
  simp [twoNodes, setNb, get_upd]

theorem two_checked (st : St K) (i : K × K) (us uc : K) (h : ∀ x, (st.heap x).checked = false) (x : Nat) :
    ((twoNodes st i us uc) x).checked = false := by
  by_cases h1 : x = st.size
  · subst h1; rw [two_v]; rfl
  · by_cases h2 : x = st.size + 1
    · subst h2; rw [two_w]; rfl
    · have := h x
      simp [twoNodes, setNb, get_upd, h1, h2, this]

variable [IsStrictOrderedRing K]

theorem intersect_same (a c d : K × K) : intersect a a c d = none := by
  simp [intersect]

theorem intersect_same' (a b c : K × K) : intersect a b c c = none := by
  simp [intersect]

/-- One pair of edges. -/
theorem cross_spec {st : St K} {os oc : List Nat} {BS BC : Nat → List Nat} (I : Inv st.heap st.size os oc BS BC) {s e c f : Nat}
    (E : Edge os s e) (F : Edge oc c f) :
    ∃ st' BS' BC', Inv st'.heap st'.size os oc BS' BC' ∧ Ext st st' BS BC BS' BC' ∧
      (intersect (st.heap s).pos (st.heap e).pos (st.heap c).pos (st.heap f).pos = none → st' = st) ∧
      (∀ q, intersect (st.heap s).pos (st.heap e).pos (st.heap c).pos (st.heap f).pos = some q →
        ∃ v ∈ BS' s, ∃ w ∈ BC' c, Cr st'.heap s e c f v w) ∧
      ∃ N, ∀ fuel ≥ N, cross fuel st s c = some st' := by
  have hn1 : ∀ fuel, (BS s).length < fuel → nextPlain st.heap fuel (st.heap s).next = some e := fun fuel hf => edge_next I.s E hf
  have hn2 : ∀ fuel, (BC c).length < fuel → nextPlain st.heap fuel (st.heap c).next = some f := fun fuel hf => edge_next I.c F hf
  cases hx : intersect (st.heap s).pos (st.heap e).pos (st.heap c).pos (st.heap f).pos with
  | none =>
    refine ⟨st, BS, BC, I, Ext.refl _ _ _, fun _ => rfl, fun q hq => (by cases hq), (BS s).length + (BC c).length + 1, fun fuel hf => ?_⟩
    rw [cross, hn1 fuel (by omega), hn2 fuel (by omega)]
    dsimp only
    rw [hx]
  | some q =>
    obtain ⟨i, us, uc⟩ := q
    obtain ⟨a1, a2, a3, a4, _, _⟩ := C22_intersect_sound _ _ _ _ _ _ _ hx
    have hse : s ≠ e := by
      intro h; subst h; rw [intersect_same] at hx; cases hx
    have hcf : c ≠ f := by
      intro h; subst h; rw [intersect_same'] at hx; cases hx
    set h := twoNodes st i us uc with hh
    have hold : ∀ x < st.size, h x = st.heap x := fun x hx => two_old st i us uc hx
    have hkeep : Keep st.heap h st.size :=
      ⟨fun x hx => by rw [hold x hx], fun x hx => by rw [hold x hx], fun x hx => by rw [hold x hx], fun x hx => by rw [hold x hx],
       fun x hx => by rw [hold x hx]⟩
    have I0 : Inv h st.size os oc BS BC := I.congr hkeep fun x hx => by rw [hold x hx]; exact ⟨rfl, rfl⟩
    have hv : st.size ∉ full os BS := fun hm => absurd (I.ltS _ hm) (lt_irrefl _)
    have hw : st.size + 1 ∉ full oc BC := fun hm => absurd (I.ltC _ hm) (by omega)
    have hvv : h st.size = { newNode st.size (i, 0) us true false with nb := some (st.size + 1) } := two_v st i us uc
    have hww : h (st.size + 1) = { newNode (st.size + 1) (i, 0) uc true false with nb := some st.size } := two_w st i us uc
    obtain ⟨h1, B1, B2, ins1, hB, r1, sm1, out1⟩ := insertV_spec I0.s E hse hv (by rw [hvv]; rfl) (by rw [hvv]; exact a1)
    have rc : RingInv h1 oc BC := I0.c.congr fun x hx => by
      have : x ∉ st.size :: full os BS := by
        intro hm
        rcases List.mem_cons.mp hm with hm | hm
        · exact absurd (I.ltC x hx) (by omega)
        · exact I.disj hm hx
      rw [out1 x this]; exact ⟨rfl, rfl, rfl, rfl⟩
    have hw1 : h1 (st.size + 1) = { h (st.size + 1) with next := (h1 (st.size + 1)).next, prev := (h1 (st.size + 1)).prev } := sm1 _
    obtain ⟨h2, C1, C2, ins2, hC, r2, sm2, out2⟩ := insertV_spec rc F hcf hw (by rw [hw1, hww]; rfl) (by rw [hw1, hww]; exact a3)
    have hfull1 : ∀ x, x ∈ full os (Function.update BS s (B1 ++ st.size :: B2)) → x = st.size ∨ x ∈ full os BS := by
      intro x hx
      obtain ⟨k, hk, hx⟩ := mem_full.mp hx
      rcases hx with hx | hx
      · exact .inr (mem_full.mpr ⟨k, hk, .inl hx⟩)
      · by_cases hks : k = s
        · subst hks
          rw [Function.update_self] at hx
          rcases List.mem_append.mp hx with hx | hx
          · exact .inr (mem_full_blk hk (by rw [hB]; exact List.mem_append_left _ hx))
          · rcases List.mem_cons.mp hx with hx | hx
            · exact .inl hx
            · exact .inr (mem_full_blk hk (by rw [hB]; exact List.mem_append_right _ hx))
        · rw [Function.update_of_ne hks] at hx
          exact .inr (mem_full_blk hk hx)
    have hfull2 : ∀ x, x ∈ full oc (Function.update BC c (C1 ++ (st.size + 1) :: C2)) → x = st.size + 1 ∨ x ∈ full oc BC := by
      intro x hx
      obtain ⟨k, hk, hx⟩ := mem_full.mp hx
      rcases hx with hx | hx
      · exact .inr (mem_full.mpr ⟨k, hk, .inl hx⟩)
      · by_cases hks : k = c
        · subst hks
          rw [Function.update_self] at hx
          rcases List.mem_append.mp hx with hx | hx
          · exact .inr (mem_full_blk hk (by rw [hC]; exact List.mem_append_left _ hx))
          · rcases List.mem_cons.mp hx with hx | hx
            · exact .inl hx
            · exact .inr (mem_full_blk hk (by rw [hC]; exact List.mem_append_right _ hx))
        · rw [Function.update_of_ne hks] at hx
          exact .inr (mem_full_blk hk hx)
    have hsB : ∀ k x, x ∈ BS k → x ∈ Function.update BS s (B1 ++ st.size :: B2) k := by
      intro k x hxx
      by_cases hks : k = s
      · subst hks
        rw [Function.update_self]
        rw [hB] at hxx
        rcases List.mem_append.mp hxx with hx | hx
        · exact List.mem_append_left _ hx
        · exact List.mem_append_right _ (List.mem_cons_of_mem _ hx)
      · rw [Function.update_of_ne hks]; exact hxx
    have hsC : ∀ k x, x ∈ BC k → x ∈ Function.update BC c (C1 ++ (st.size + 1) :: C2) k := by
      intro k x hxx
      by_cases hks : k = c
      · subst hks
        rw [Function.update_self]
        rw [hC] at hxx
        rcases List.mem_append.mp hxx with hx | hx
        · exact List.mem_append_left _ hx
        · exact List.mem_append_right _ (List.mem_cons_of_mem _ hx)
      · rw [Function.update_of_ne hks]; exact hxx
    have sm : Same h h2 := sm1.trans sm2
    have k2 : Keep st.heap h2 st.size := hkeep.trans (sm.keep st.size) (le_refl _)
    have cr : Cr h2 s e c f st.size (st.size + 1) := by
      have p : ∀ x < st.size, (h2 x).pos = (st.heap x).pos := k2.pos
      have dv : h2 st.size = { h st.size with next := (h2 st.size).next, prev := (h2 st.size).prev } := sm _
      have dw : h2 (st.size + 1) = { h (st.size + 1) with next := (h2 (st.size + 1)).next, prev := (h2 (st.size + 1)).prev } := sm _
      refine ⟨by rw [dv, hvv], by rw [dw, hww], ?_, by rw [dv, dw, hvv, hww]; rfl, by rw [dv, hvv]; rfl, by rw [dw, hww]; rfl⟩
      rw [p s (I.lt_edge E).1, p e (I.lt_edge E).2, p c (I.lt_edge' F).1, p f (I.lt_edge' F).2, hx, dv, dw, hvv, hww]
      rfl
    refine ⟨⟨h2, st.size + 2⟩, Function.update BS s (B1 ++ st.size :: B2), Function.update BC c (C1 ++ (st.size + 1) :: C2), ?_, ?_,
      fun h => (by cases h), ?_, (BS s).length + (BC c).length + 2, ?_⟩
    · refine ⟨?_, r2, ?_, ?_, ?_, ?_, ?_⟩
      · refine r1.congr fun x hx => ?_
        have : x ∉ (st.size + 1) :: full oc BC := by
          intro hm
          rcases hfull1 x hx with q | q <;> rcases List.mem_cons.mp hm with hm | hm
          · omega
          · subst q; exact absurd (I.ltC _ hm) (lt_irrefl _)
          · subst hm; exact absurd (I.ltS _ q) (by omega)
          · exact I.disj q hm
        rw [out2 x this]; exact ⟨rfl, rfl, rfl, rfl⟩
      · intro x hx hy
        rcases hfull1 x hx with q | q <;> rcases hfull2 x hy with q' | q'
        · omega
        · subst q; exact absurd (I.ltC _ q') (lt_irrefl _)
        · subst q'; exact absurd (I.ltS _ q) (by omega)
        · exact I.disj q q'
      · intro x hx
        rcases hfull1 x hx with q | q
        · show x < st.size + 2; omega
        · have := I.ltS x q; show x < st.size + 2; omega
      · intro x hx
        rcases hfull2 x hx with q | q
        · show x < st.size + 2; omega
        · have := I.ltC x q; show x < st.size + 2; omega
      · intro k hk v hv'
        by_cases hvs : v = st.size
        · subst hvs
          have hks : k = s := by
            by_contra hks
            rw [Function.update_of_ne hks] at hv'
            exact hv (mem_full_blk hk hv')
          subst hks
          refine ⟨e, c, f, st.size + 1, E, F, ?_, cr⟩
          rw [Function.update_self]; simp
        · have hvo : v ∈ BS k := by
            by_cases hks : k = s
            · subst hks
              rw [Function.update_self] at hv'
              rw [hB]
              simp only [List.mem_append, List.mem_cons] at hv' ⊢
              tauto
            · rw [Function.update_of_ne hks] at hv'; exact hv'
          obtain ⟨e', j, f', w, E', F', hw', cc⟩ := I.crossS k hk v hvo
          exact ⟨e', j, f', w, E', F', hsC _ _ hw', cc.keep k2 (I.lt_edge E').1 (I.lt_edge E').2 (I.lt_edge' F').1 (I.lt_edge' F').2
            (I.ltS v (mem_full_blk hk hvo)) (I.ltC w (mem_full_blk F'.left hw'))⟩
      · intro k hk w hw'
        by_cases hws : w = st.size + 1
        · subst hws
          have hks : k = c := by
            by_contra hks
            rw [Function.update_of_ne hks] at hw'
            exact hw (mem_full_blk hk hw')
          subst hks
          refine ⟨f, s, e, st.size, F, E, ?_, cr⟩
          rw [Function.update_self]; simp
        · have hwo : w ∈ BC k := by
            by_cases hks : k = c
            · subst hks
              rw [Function.update_self] at hw'
              rw [hC]
              simp only [List.mem_append, List.mem_cons] at hw' ⊢
              tauto
            · rw [Function.update_of_ne hks] at hw'; exact hw'
          obtain ⟨f', i', e', v, F', E', hv', cc⟩ := I.crossC k hk w hwo
          exact ⟨f', i', e', v, F', E', hsB _ _ hv', cc.keep k2 (I.lt_edge E').1 (I.lt_edge E').2 (I.lt_edge' F').1 (I.lt_edge' F').2
            (I.ltS v (mem_full_blk E'.left hv')) (I.ltC w (mem_full_blk hk hwo))⟩
    · refine ⟨by show st.size ≤ st.size + 2; omega, k2, fun hc x => ?_, hsB, hsC⟩
      show (h2 x).checked = false
      rw [sm x]
      exact two_checked st i us uc hc x
    · intro q _
      exact ⟨st.size, by rw [Function.update_self]; simp, st.size + 1, by rw [Function.update_self]; simp, cr⟩
    · intro fuel hf
      rw [cross, hn1 fuel (by omega), hn2 fuel (by omega)]
      dsimp only
      rw [hx]
      dsimp only
      rw [← hh, edge_next I0.s E (by omega)]
      dsimp only
      rw [ins1 fuel (by omega)]
      dsimp only
      rw [edge_next rc F (by omega)]
      dsimp only
      rw [ins2 fuel (by omega)]
      rfl

end Verif.Clp
