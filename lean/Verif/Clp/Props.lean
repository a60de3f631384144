import Verif.Clp.Trace
import Verif.Clp.Mono
import Mathlib.Algebra.Order.Field.Rat
import Mathlib.Tactic.NormNum

/-!
# Boolean operations on polygons: theorems

`ProperCross a b c d p` says in coordinates that the segments `a b` and `c d` cross at `p`, an inner point of both.
-/

set_option linter.unusedSectionVars false
namespace Verif.Clp
open Verif.Poly
variable {K : Type} [Field K] [LinearOrder K] [IsStrictOrderedRing K]

/-! ## New polygons -/

theorem build_more : ∀ (l : List (Pt K)) (st : St K) (hd : Nat) (r : List Nat), Ring st.heap (hd :: r) → (∀ x ∈ hd :: r, x < st.size) →
    (∀ x ∈ hd :: r, (st.heap x).inter = false ∧ (st.heap x).alpha = 0) → (∀ x, (st.heap x).checked = false) →
    ∃ st' m, build st (some hd) l = (st', some hd) ∧ st.size ≤ st'.size ∧ Ring st'.heap (hd :: (r ++ m)) ∧ m.map (pt st'.heap) = l ∧
      (∀ x ∈ m, st.size ≤ x ∧ x < st'.size) ∧ (∀ x ∈ hd :: (r ++ m), (st'.heap x).inter = false ∧ (st'.heap x).alpha = 0) ∧
      (∀ x, (st'.heap x).checked = false) ∧ (∀ x < st.size, x ∉ hd :: r → st'.heap x = st.heap x) ∧ (∀ x < st.size, pt st'.heap x = pt st.heap x)
  | [], st, hd, r, R, lt, pl, ck => by
    refine ⟨st, [], rfl, le_refl _, by simpa using R, rfl, by simp, by simpa using pl, ck, fun _ _ _ => rfl, fun _ _ => rfl⟩
  | p :: l, st, hd, r, R, lt, pl, ck => by
    set h0 := st.heap.upd st.size (newNode st.size p 0 false true) with hh0
    have old : ∀ x, x ≠ st.size → h0 x = st.heap x := fun x hx => by rw [hh0, get_upd, if_neg hx]
    have new : h0 st.size = newNode st.size p 0 false true := by rw [hh0, get_upd, if_pos rfl]
    have lt' : ∀ x ∈ hd :: r, x ≠ st.size := fun x hx => by have := lt x hx; omega
    have R0 : Ring h0 (hd :: r) := ring_congr (fun x hx => by rw [old x (lt' x hx)]; exact ⟨rfl, rfl⟩) R
    obtain ⟨a1, L⟩ := add_linked h0 (v := st.size) (n := hd) (fun e => lt' hd (by simp) e.symm)
    have R1 := ring_add R0 (fun hm => lt' _ hm rfl) L
    have dat := L.data
    have hp1 : ∀ x, pt (add h0 (some hd) st.size).1 x = pt h0 x := fun x => by rw [pt, pt, dat x]
    have mem' : ∀ x, x ∈ hd :: (r ++ [st.size]) ↔ x ∈ hd :: r ∨ x = st.size := by
      intro x
      simp only [List.mem_cons, List.mem_append, List.mem_singleton, List.not_mem_nil, or_false]
      tauto
    obtain ⟨st', m, b1, b2, b3, b4, b5, b6, b7, b8, b9⟩ := build_more l ⟨(add h0 (some hd) st.size).1, st.size + 1⟩ hd (r ++ [st.size]) R1
      (fun x hx => by
        rcases (mem' x).mp hx with q | q
        · have := lt x q; show x < st.size + 1; omega
        · show x < st.size + 1; omega)
      (fun x hx => by
        show ((add h0 (some hd) st.size).1 x).inter = false ∧ ((add h0 (some hd) st.size).1 x).alpha = 0
        rw [dat x]
        rcases (mem' x).mp hx with q | q
        · rw [old x (lt' x q)]; exact pl x q
        · subst q; rw [new]; exact ⟨rfl, rfl⟩)
      (fun x => by
        show ((add h0 (some hd) st.size).1 x).checked = false
        rw [dat x]
        by_cases q : x = st.size
        · subst q; rw [new]; rfl
        · rw [old x q]; exact ck x)
    simp only at b2 b3 b5 b8 b9
    refine ⟨st', st.size :: m, ?_, by omega, by simpa using b3, ?_, ?_, by simpa using b6, b7, ?_, ?_⟩
    · rw [build, ← hh0, a1]
      exact b1
    · rw [List.map_cons, b4, b9 st.size (by omega), hp1, pt, new]
      rfl
    · intro x hx
      rcases List.mem_cons.mp hx with q | q
      · subst q; exact ⟨le_refl _, by omega⟩
      · have := b5 x q; omega
    · intro x hx hr
      rw [b8 x (by omega) (by
        rw [mem']
        rintro (q | q)
        · exact hr q
        · omega)]
      have hxp : x ≠ (h0 hd).prev := by
        intro e
        have := path_prev_mem R0.2
        rw [← e] at this
        exact hr this
      have hxs : x ≠ st.size := by omega
      have hxh : x ≠ hd := fun e => hr (by simp [e])
      have := dat x
      rw [L.next, L.prev, if_neg hxp, if_neg hxs, if_neg hxh, if_neg hxs] at this
      rw [← old x hxs]
      exact this
    · intro x hx
      rw [b9 x (by omega), hp1, pt, pt, old x (by omega)]

theorem build_first (p : Pt K) (l : List (Pt K)) (st : St K) (ck : ∀ x, (st.heap x).checked = false) :
    ∃ st' m, build st none (p :: l) = (st', some st.size) ∧ st.size ≤ st'.size ∧ Ring st'.heap (st.size :: m) ∧
      (st.size :: m).map (pt st'.heap) = p :: l ∧ (∀ x ∈ st.size :: m, st.size ≤ x ∧ x < st'.size) ∧
      (∀ x ∈ st.size :: m, (st'.heap x).inter = false ∧ (st'.heap x).alpha = 0) ∧
      (∀ x, (st'.heap x).checked = false) ∧ (∀ x < st.size, st'.heap x = st.heap x) := by
  set h0 := st.heap.upd st.size (newNode st.size p 0 false true) with hh0
  have old : ∀ x, x ≠ st.size → h0 x = st.heap x := fun x hx => by rw [hh0, get_upd, if_neg hx]
  have new : h0 st.size = newNode st.size p 0 false true := by rw [hh0, get_upd, if_pos rfl]
  set h1 := setPrev (setNext h0 st.size st.size) st.size st.size with hh1
  have hs1 : Same h0 h1 := (setNext_same _ _ _).trans (setPrev_same _ _ _)
  have hn : (h1 st.size).next = st.size := by rw [hh1, setPrev_next, setNext_next, if_pos rfl]
  have hp : (h1 st.size).prev = st.size := by rw [hh1, setPrev_prev, if_pos rfl]
  obtain ⟨st', m, b1, b2, b3, b4, b5, b6, b7, b8, b9⟩ := build_more l ⟨h1, st.size + 1⟩ st.size [] ⟨by simp, hn, hp⟩
    (fun x hx => by simp only [List.mem_singleton] at hx; subst hx; show st.size < st.size + 1; omega)
    (fun x hx => by
      simp only [List.mem_singleton] at hx; subst hx
      show (h1 st.size).inter = false ∧ (h1 st.size).alpha = 0
      rw [hs1 st.size, new]; exact ⟨rfl, rfl⟩)
    (fun x => by
      show (h1 x).checked = false
      rw [hs1 x]
      by_cases q : x = st.size
      · subst q; rw [new]; rfl
      · rw [old x q]; exact ck x)
  simp only [List.nil_append] at b2 b3 b5 b6 b8 b9
  refine ⟨st', m, ?_, by omega, b3, ?_, ?_, b6, b7, ?_⟩
  · rw [build]
    exact b1
  · rw [List.map_cons, b4, b9 st.size (by omega)]
    congr 1
    rw [pt, hs1 st.size, new]; rfl
  · intro x hx
    rcases List.mem_cons.mp hx with q | q
    · subst q; exact ⟨le_refl _, by omega⟩
    · have := b5 x q; omega
  · intro x hx
    have hxs : x ≠ st.size := by omega
    rw [b8 x (by omega) (by simp; omega)]
    have := hs1 x
    rw [hh1, setPrev_next, setPrev_prev, setNext_next, setNext_prev, if_neg hxs, if_neg hxs, ← hh1] at this
    rw [this, old x hxs]

theorem full_nil (o : List Nat) : full o (fun _ => []) = o := by simp [full]

theorem twoPolys_spec {S C : List (Pt K)} (hS : S ≠ []) (hC : C ≠ []) :
    ∃ st hs hc os oc, twoPolys S C = some (st, hs, hc) ∧ os.head? = some hs ∧ oc.head? = some hc ∧
      Inv st.heap st.size os oc (fun _ => []) (fun _ => []) ∧ os.map (pt st.heap) = S ∧ oc.map (pt st.heap) = C ∧
      ∀ x, (st.heap x).checked = false := by
  obtain ⟨p, S, rfl⟩ := List.exists_cons_of_ne_nil hS
  obtain ⟨q, C, rfl⟩ := List.exists_cons_of_ne_nil hC
  obtain ⟨s1, m1, a1, a2, a3, a4, a5, a6, a7, a8⟩ := build_first p S (⟨⟨[]⟩, 0⟩ : St K) (fun x => rfl)
  obtain ⟨s2, m2, b1, b2, b3, b4, b5, b6, b7, b8⟩ := build_first q C s1 a7
  have keep : ∀ x ∈ 0 :: m1, s2.heap x = s1.heap x := fun x hx => b8 x (a5 x hx).2
  refine ⟨s2, 0, s1.size, 0 :: m1, s1.size :: m2, ?_, rfl, rfl, ⟨?_, ?_, ?_, ?_, ?_, ?_, ?_⟩, ?_, b4, b7⟩
  · rw [twoPolys]
    simp only [a1, b1]
  · refine ⟨?_, fun i hi => ?_, fun i hi v hv => absurd hv (by simp), fun i hi => List.Pairwise.nil⟩
    · rw [full_nil]
      exact ring_congr (fun x hx => by rw [keep x hx]; exact ⟨rfl, rfl⟩) a3
    · rw [keep i hi]; exact a6 i hi
  · refine ⟨?_, fun i hi => b6 i hi, fun i hi v hv => absurd hv (by simp), fun i hi => List.Pairwise.nil⟩
    rw [full_nil]; exact b3
  · rw [full_nil, full_nil]
    intro x hx hy
    have h1 := (a5 x hx).2
    have h2 := (b5 x hy).1
    omega
  · rw [full_nil]
    intro x hx
    have := (a5 x hx).2
    omega
  · rw [full_nil]
    exact fun x hx => (b5 x hx).2
  · exact fun i hi v hv => absurd hv (by simp)
  · exact fun i hi v hv => absurd hv (by simp)
  · rw [← a4]
    refine List.map_congr_left fun x hx => ?_
    rw [pt, pt, keep x hx]

/-! ## What the operations return -/

/-- The segments `a b` and `c d` cross at an inner point `p` of both. -/
def ProperCross (a b c d p : K × K) : Prop :=
  (b.1 - a.1) * (d.2 - c.2) ≠ (b.2 - a.2) * (d.1 - c.1) ∧ ∃ s t : K, 0 < s ∧ s < 1 ∧ 0 < t ∧ t < 1 ∧
    p = (a.1 + s * (b.1 - a.1), a.2 + s * (b.2 - a.2)) ∧ p = (c.1 + t * (d.1 - c.1), c.2 + t * (d.2 - c.2))

theorem properCross_iff (a b c d p : K × K) : ProperCross a b c d p ↔ ∃ us uc, intersect a b c d = some (p, us, uc) := by
  constructor
  · rintro ⟨hp, s, t, h1, h2, h3, h4, h5, h6⟩
    have e := h5.symm.trans h6
    rw [Prod.mk.injEq] at e
    exact ⟨s, t, by rw [C22_intersect_complete a b c d s t h1 h2 h3 h4 e.1 e.2 hp, h5]⟩
  · rintro ⟨us, uc, h⟩
    obtain ⟨h1, h2, h3, h4, h5, h6⟩ := C22_intersect_sound a b c d p us uc h
    refine ⟨fun e => ?_, us, uc, h1, h2, h3, h4, h5, h6⟩
    have : (d.2 - c.2) * (b.1 - a.1) - (d.1 - c.1) * (b.2 - a.2) = 0 := by linear_combination e
    simp [intersect, this] at h

/-- Two points on one edge of the polygon `S`. -/
def OnEdge (S : List (Pt K)) (P Q : Pt K) : Prop := ∃ a b, Edge S a b ∧ OnSeg a.1 b.1 P.1 ∧ OnSeg a.1 b.1 Q.1

theorem edge_map {o : List Nat} {i e : Nat} (E : Edge o i e) (f : Nat → Pt K) : Edge (o.map f) (f i) (f e) := by
  obtain ⟨pre, post, t, h1, h2⟩ := E
  refine ⟨pre.map f, post.map f, t.map f, by rw [h1]; simp, ?_⟩
  have := congrArg (List.map f) h2
  simpa using this

theorem edge_unmap {o : List Nat} {f : Nat → Pt K} {a b : Pt K} (E : Edge (o.map f) a b) : ∃ i e, Edge o i e ∧ f i = a ∧ f e = b := by
  obtain ⟨pre, post, t, h1, h2⟩ := E
  obtain ⟨p, q, hq, rfl, h4⟩ := List.map_eq_append_iff.mp h1
  obtain ⟨i, q', rfl, rfl, rfl⟩ := List.map_eq_cons_iff.mp h4
  have h5 : (q' ++ p ++ [i]).map f = b :: t := by simpa using h2
  obtain ⟨e, t', h6, rfl, _⟩ := List.map_eq_cons_iff.mp h5
  exact ⟨i, e, ⟨p, q', t', hq, h6⟩, rfl, rfl⟩

/-- Everything about one operation. -/
theorem op_spec (o : Op) {S C : List (Pt K)} (hS : S ≠ []) (hC : C ≠ []) :
    ∃ r N, (∀ fuel ≥ N, op o fuel S C = some r) ∧ r ≠ [] ∧
      (((∀ a b, Edge S a b → ∀ c d, Edge C c d → ∀ p, ¬ ProperCross a.1 b.1 c.1 d.1 p) ∧ r = [S]) ∨
       ((∃ a b c d p, Edge S a b ∧ Edge C c d ∧ ProperCross a.1 b.1 c.1 d.1 p) ∧
        (∀ l ∈ r, 2 ≤ l.length ∧ List.IsChain (fun P Q => OnEdge S P Q ∨ OnEdge C P Q) l ∧
          ∀ P ∈ l, P ∈ S ∨ P ∈ C ∨ ∃ a b c d, Edge S a b ∧ Edge C c d ∧ ProperCross a.1 b.1 c.1 d.1 P.1 ∧ P.2 = 0) ∧
        (∀ a b, Edge S a b → ∀ c d, Edge C c d → ∀ p, ProperCross a.1 b.1 c.1 d.1 p → ∃ l ∈ r, (p, 0) ∈ l))) := by
  obtain ⟨st, hs, hc, os, oc, t1, t2, t3, I, t4, t5, t6⟩ := twoPolys_spec hS hC
  obtain ⟨st1, BS, BC, I1, X, d1, n1, N1, p1⟩ := phase1_spec t2 t3 I
  obtain ⟨h2, F2, N2, p2⟩ := phase2_spec I1 t2 t3 o.sEntry o.cEntry
  have I2 := F2.inv I1
  obtain ⟨h3, r, m3, q1, _, q3, q4, N3, p3⟩ := pieces_spec t2 (openCount h2 st1.size) h2 [] (le_refl _) I2 (by simp)
  -- points of the original vertices
  have old : ∀ x < st.size, pt h2 x = pt st.heap x := by
    intro x hx
    rw [pt, pt, F2 x, Prod.mk.injEq]
    exact ⟨X.keep.pos x hx, X.keep.z x hx⟩
  have ltS : ∀ x ∈ os, x < st.size := fun x hx => I.ltS x (mem_full_orig _ hx)
  have ltC : ∀ x ∈ oc, x < st.size := fun x hx => I.ltC x (mem_full_orig _ hx)
  have mS : os.map (pt h2) = S := by rw [← t4]; exact List.map_congr_left fun x hx => old x (ltS x hx)
  have mC : oc.map (pt h2) = C := by rw [← t5]; exact List.map_congr_left fun x hx => old x (ltC x hx)
  have unck : ∀ x, (h2 x).checked = false := fun x => by rw [F2 x]; exact X.unchecked t6 x
  have hI3 := m3.inv I2
  obtain ⟨t, ht, hp, hnt⟩ := ring_cons hI3.s.ring (full_head t2)
  have run : ∀ fuel ≥ N1 + N2 + N3 + openCount h2 st1.size + t.length + 1,
      op o fuel S C = if r = [] then some [(full os BS).map (pt h3)] else some r := by
    intro fuel hf
    rw [op, t1]
    dsimp only
    rw [clipSt, p1 fuel (by omega)]
    dsimp only
    rw [p2 fuel (by omega)]
    dsimp only
    rw [p3 fuel (by omega) fuel (by omega)]
    cases r with
    | nil =>
      dsimp only
      rw [points_path t hs hp hnt fuel (by omega), ← ht]
      rfl
    | cons l r => rfl
  by_cases hx : ∃ a b c d p, Edge S a b ∧ Edge C c d ∧ ProperCross a.1 b.1 c.1 d.1 p
  · -- some edges cross
    have cross_in : ∀ a b, Edge S a b → ∀ c d, Edge C c d → ∀ p, ProperCross a.1 b.1 c.1 d.1 p → ∃ l ∈ r, (p, 0) ∈ l := by
      intro a b E c d F p hp
      rw [← t4] at E
      rw [← t5] at F
      obtain ⟨i, e, E', rfl, rfl⟩ := edge_unmap E
      obtain ⟨j, f, F', rfl, rfl⟩ := edge_unmap F
      clear E F
      rename' E' => E, F' => F
      obtain ⟨us, uc, hi⟩ := (properCross_iff _ _ _ _ _).mp hp
      obtain ⟨v, hv, w, hw, cr⟩ := d1 i e E j f F _ hi
      have hk := cr.eq
      have lI := I.lt_edge E
      have lJ := I.lt_edge' F
      rw [X.keep.pos i lI.1, X.keep.pos e lI.2, X.keep.pos j lJ.1, X.keep.pos f lJ.2] at hk
      have hi' : intersect (st.heap i).pos (st.heap e).pos (st.heap j).pos (st.heap f).pos = some (p, us, uc) := hi
      rw [hi'] at hk
      simp only [Option.some.injEq, Prod.mk.injEq] at hk
      rcases q3 v (mem_full_blk E.left hv) (I2.s.blk i E.left v hv) with q | ⟨l, hl, hm⟩
      · rw [unck v] at q; cases q
      · refine ⟨l, hl, ?_⟩
        have : pt h2 v = (p, 0) := by rw [pt, F2 v, hk.1]; exact congrArg _ cr.zv
        rw [← this]; exact hm
    have hr : r ≠ [] := by
      obtain ⟨a, b, c, d, p, E, F, hp⟩ := hx
      obtain ⟨l, hl, _⟩ := cross_in a b E c d F p hp
      intro e; rw [e] at hl; cases hl
    refine ⟨r, _, fun fuel hf => by rw [run fuel hf, if_neg hr], hr, .inr ⟨hx, fun l hl => ?_, cross_in⟩⟩
    obtain ⟨g, hlen⟩ := q1 l hl
    refine ⟨hlen, g.chain.imp fun P Q a => ?_, fun P hP => ?_⟩
    · rcases a with ⟨i, e, E, s1, s2⟩ | ⟨i, e, E, s1, s2⟩
      · exact .inl ⟨pt h2 i, pt h2 e, by rw [← mS]; exact edge_map E _, s1, s2⟩
      · exact .inr ⟨pt h2 i, pt h2 e, by rw [← mC]; exact edge_map E _, s1, s2⟩
    · obtain ⟨x, hx, rfl⟩ := g.mem P hP
      rcases hx with hx | hx
      · obtain ⟨i, hi, hx⟩ := mem_full.mp hx
        rcases hx with rfl | hx
        · left; rw [← mS]; exact List.mem_map_of_mem hi
        · right; right
          obtain ⟨e, j, f, w, E, F, hw, cr⟩ := I2.crossS i hi x hx
          refine ⟨pt h2 i, pt h2 e, pt h2 j, pt h2 f, by rw [← mS]; exact edge_map E _, by rw [← mC]; exact edge_map F _, ?_, cr.zv⟩
          exact (properCross_iff _ _ _ _ _).mpr ⟨_, _, cr.eq⟩
      · obtain ⟨j, hj, hx⟩ := mem_full.mp hx
        rcases hx with rfl | hx
        · right; left; rw [← mC]; exact List.mem_map_of_mem hj
        · right; right
          obtain ⟨f, i, e, v, F, E, hv, cr⟩ := I2.crossC j hj x hx
          refine ⟨pt h2 i, pt h2 e, pt h2 j, pt h2 f, by rw [← mS]; exact edge_map E _, by rw [← mC]; exact edge_map F _, ?_, cr.zw⟩
          refine (properCross_iff _ _ _ _ _).mpr ⟨(h2 v).alpha, (h2 x).alpha, ?_⟩
          show intersect (h2 i).pos (h2 e).pos (h2 j).pos (h2 f).pos = some ((h2 x).pos, (h2 v).alpha, (h2 x).alpha)
          rw [cr.pos]; exact cr.eq
  · -- no edges cross
    have none_all : ∀ a b, Edge S a b → ∀ c d, Edge C c d → ∀ p, ¬ ProperCross a.1 b.1 c.1 d.1 p :=
      fun a b E c d F p hp => hx ⟨a, b, c, d, p, E, F, hp⟩
    have noB : ∀ i ∈ os, BS i = [] := by
      intro i hi
      by_contra hne
      obtain ⟨v, l, hv⟩ := List.exists_cons_of_ne_nil hne
      obtain ⟨e, j, f, w, E, F, hw, cr⟩ := I2.crossS i hi v (by rw [hv]; simp)
      exact none_all (pt h2 i) (pt h2 e) (by rw [← mS]; exact edge_map E _) (pt h2 j) (pt h2 f) (by rw [← mC]; exact edge_map F _) _
        ((properCross_iff _ _ _ _ _).mpr ⟨_, _, cr.eq⟩)
    have hfull : full os BS = os := by
      have : full os BS = full os (fun _ => []) := by
        unfold full
        exact List.flatMap_congr fun i hi => by rw [noB i hi]
      rw [this, full_nil]
    have hr : r = [] := by
      refine (q4 fun x hx hi => ?_).1
      rw [hfull] at hx
      rw [(I2.s.orig x hx).1] at hi; cases hi
    refine ⟨[S], N1 + N2 + N3 + openCount h2 st1.size + t.length + 1, fun fuel hf => ?_, by simp, .inl ⟨none_all, rfl⟩⟩
    rw [run fuel hf, if_pos hr, hfull]
    congr 2
    rw [← mS]
    exact List.map_congr_left fun x _ => by rw [m3.pt]

theorem op_empty (o : Op) (fuel : Nat) (S C : List (Pt K)) (h : S = [] ∨ C = []) : op o fuel S C = none := by
  rw [op, twoPolys]
  rcases h with rfl | rfl
  · simp [build]
  · simp [build]

theorem op_nonempty {o : Op} {fuel : Nat} {S C : List (Pt K)} {r : List (List (Pt K))} (h : op o fuel S C = some r) : S ≠ [] ∧ C ≠ [] := by
  constructor
  · intro e; rw [op_empty o fuel S C (.inl e)] at h; cases h
  · intro e; rw [op_empty o fuel S C (.inr e)] at h; cases h

/-- The answer does not depend on the fuel. -/
theorem op_eq {o : Op} {fuel : Nat} {S C : List (Pt K)} {r r' : List (List (Pt K))} {N : Nat} (h : op o fuel S C = some r)
    (h' : ∀ f ≥ N, op o f S C = some r') : r = r' := by
  have a := op_mono h (Nat.le_max_left fuel N)
  rw [h' _ (Nat.le_max_right fuel N)] at a
  exact (Option.some.inj a).symm

/-! ## C397: the operations end -/

/-- **C397.** For any two polygons with at least one vertex each, convex or not, simple or not, degenerate or not, every operation ends
without an exception and returns at least one polygon. -/
theorem C397_ends (o : Op) (S C : List (Pt K)) (hS : S ≠ []) (hC : C ≠ []) :
    ∃ r N, r ≠ [] ∧ ∀ fuel ≥ N, op o fuel S C = some r := by
  obtain ⟨r, N, h1, h2, _⟩ := op_spec o hS hC
  exact ⟨r, N, h2, h1⟩

/-- A square with lower left corner `(x, y)`. -/
def quad (x y s z : ℚ) : List (Pt ℚ) := [((x, y), z), ((x + s, y), z), ((x + s, y + s), z), ((x, y + s), z)]

example : op .intersection 60 (quad 0 0 2 0) (quad 1 1 2 0) = some [[((2, 1), 0), ((2, 2), 0), ((1, 2), 0), ((1, 1), 0), ((2, 1), 0)]] := by
  decide +kernel

example : op .union 60 (quad 0 0 2 0) (quad 1 1 2 0) = some [[((2, 1), 0), ((2, 0), 0), ((0, 0), 0), ((0, 2), 0), ((1, 2), 0), ((1, 3), 0),
    ((3, 3), 0), ((3, 1), 0), ((2, 1), 0)]] := by
  decide +kernel

example : op .difference 60 (quad 0 0 2 0) (quad 1 1 2 0) = some [[((2, 1), 0), ((2, 0), 0), ((0, 0), 0), ((0, 2), 0), ((1, 2), 0),
    ((1, 1), 0), ((2, 1), 0)]] := by
  decide +kernel

/-! ## C398: the outlines run along the outlines of the operands -/

/-- **C398.** Every vertex of a polygon returned is a vertex of an operand or a point where two edges cross, and every two vertices that
follow each other in it lie on one edge of one operand. -/
theorem C398_outline (o : Op) (fuel : Nat) (S C : List (Pt K)) (r : List (List (Pt K))) (h : op o fuel S C = some r)
    (hx : ∃ a b c d p, Edge S a b ∧ Edge C c d ∧ ProperCross a.1 b.1 c.1 d.1 p) (l : List (Pt K)) (hl : l ∈ r) :
    2 ≤ l.length ∧ List.IsChain (fun P Q => OnEdge S P Q ∨ OnEdge C P Q) l ∧
      ∀ P ∈ l, P ∈ S ∨ P ∈ C ∨ ∃ a b c d, Edge S a b ∧ Edge C c d ∧ ProperCross a.1 b.1 c.1 d.1 P.1 := by
  obtain ⟨hS, hC⟩ := op_nonempty h
  obtain ⟨r', N, h1, _, h3⟩ := op_spec o hS hC
  obtain rfl := op_eq h h1
  rcases h3 with ⟨hn, _⟩ | ⟨_, h4, _⟩
  · obtain ⟨a, b, c, d, p, E, F, hp⟩ := hx
    exact absurd hp (hn a b E c d F p)
  · obtain ⟨a, b, c⟩ := h4 l hl
    refine ⟨a, b, fun P hP => ?_⟩
    rcases c P hP with q | q | ⟨a, b, c, d, E, F, q, _⟩
    · exact .inl q
    · exact .inr (.inl q)
    · exact .inr (.inr ⟨a, b, c, d, E, F, q⟩)

/-- **C398.** Every point where an edge of one polygon crosses an edge of the other is a vertex of one of the polygons returned. -/
theorem C398_crossings (o : Op) (fuel : Nat) (S C : List (Pt K)) (r : List (List (Pt K))) (h : op o fuel S C = some r)
    (a b c d : Pt K) (E : Edge S a b) (F : Edge C c d) (p : K × K) (hp : ProperCross a.1 b.1 c.1 d.1 p) : ∃ l ∈ r, ∃ P ∈ l, P.1 = p := by
  obtain ⟨hS, hC⟩ := op_nonempty h
  obtain ⟨r', N, h1, _, h3⟩ := op_spec o hS hC
  obtain rfl := op_eq h h1
  rcases h3 with ⟨hn, _⟩ | ⟨_, _, h5⟩
  · exact absurd hp (hn a b E c d F p)
  · obtain ⟨l, hl, hm⟩ := h5 a b E c d F p hp
    exact ⟨l, hl, _, hm, rfl⟩

/-- A vertex of one polygon on an edge of the other: one of the polygons returned is not closed, its last vertex is not its first, and the
edge that closes it lies on no edge of the operands. -/
def triS : List (Pt ℚ) := [((3, 3), 0), ((1, 1), 0), ((2, 3), 0)]
def triC : List (Pt ℚ) := [((4, 1), 0), ((1, 4), 0), ((1, 3), 0)]

theorem edge3 {α : Type} {a b c x y : α} (E : Edge [a, b, c] x y) : (x, y) ∈ [(a, b), (b, c), (c, a)] := by
  obtain ⟨pre, post, t, h1, h2⟩ := E
  rcases pre with _ | ⟨p, _ | ⟨q, _ | ⟨u, pre⟩⟩⟩
  · simp only [List.nil_append, List.cons.injEq] at h1
    obtain ⟨rfl, rfl⟩ := h1
    simp at h2
    simp [h2.1]
  · simp only [List.cons_append, List.nil_append, List.cons.injEq] at h1
    obtain ⟨rfl, rfl, rfl⟩ := h1
    simp at h2
    simp [h2.1]
  · simp only [List.cons_append, List.nil_append, List.cons.injEq] at h1
    obtain ⟨rfl, rfl, rfl, rfl⟩ := h1
    simp at h2
    simp [h2.1]
  · simp at h1

theorem onSeg_line {a b p : K × K} (h : OnSeg a b p) : (b.1 - a.1) * (p.2 - a.2) - (b.2 - a.2) * (p.1 - a.1) = 0 := by
  obtain ⟨t, _, _, rfl⟩ := h
  ring

/-- **C398 refuted** (closing): the edge from the last to the first vertex of a polygon returned need not lie on an edge of an operand. -/
theorem C398_closed_refuted : ∃ r, op .intersection 60 triS triC = some r ∧ ∃ l ∈ r, ∃ P Q, l.getLast? = some P ∧ l.head? = some Q ∧
    ¬ (OnEdge triS P Q ∨ OnEdge triC P Q) := by
  refine ⟨[[((5 / 2, 5 / 2), 0), ((11 / 5, 11 / 5), 0), ((4, 1), 0), ((5 / 2, 5 / 2), 0)],
    [((7 / 4, 5 / 2), 0), ((2, 3), 0), ((3, 3), 0), ((5 / 2, 5 / 2), 0)]], by decide +kernel, _, by simp; right; rfl, ((5 / 2, 5 / 2), 0),
    ((7 / 4, 5 / 2), 0), rfl, rfl, ?_⟩
  rintro (⟨a, b, E, h1, h2⟩ | ⟨a, b, E, h1, h2⟩)
  · have e := edge3 E
    have k : _ ∧ _ := ⟨onSeg_line h1, onSeg_line h2⟩
    clear h1 h2 E
    simp only [List.mem_cons, Prod.mk.injEq, List.not_mem_nil, or_false] at e
    rcases e with ⟨rfl, rfl⟩ | ⟨rfl, rfl⟩ | ⟨rfl, rfl⟩ <;> norm_num at k
  · have e := edge3 E
    have k : _ ∧ _ := ⟨onSeg_line h1, onSeg_line h2⟩
    clear h1 h2 E
    simp only [List.mem_cons, Prod.mk.injEq, List.not_mem_nil, or_false] at e
    rcases e with ⟨rfl, rfl⟩ | ⟨rfl, rfl⟩ | ⟨rfl, rfl⟩ <;> norm_num at k

/-! ## C399: the rings -/

/-- **C399.** The points of a new polygon are the points given, in that order. -/
theorem C399_build (S : List (Pt K)) (hS : S ≠ []) : ∃ st hd N, build (⟨⟨[]⟩, 0⟩ : St K) none S = (st, some hd) ∧
    ∀ fuel ≥ N, points st.heap hd fuel hd = some S := by
  obtain ⟨p, S, rfl⟩ := List.exists_cons_of_ne_nil hS
  obtain ⟨s1, m1, a1, a2, a3, a4, _⟩ := build_first p S (⟨⟨[]⟩, 0⟩ : St K) (fun x => rfl)
  refine ⟨s1, _, m1.length + 1, a1, fun fuel hf => ?_⟩
  obtain ⟨t, ht, hp, hnt⟩ := ring_cons a3 rfl
  have : m1 = t := by simpa using ht
  subst this
  rw [points_path m1 _ hp hnt fuel (by omega), a4]

/-- The point at parameter `t` of the segment from `a` to `b`, at height zero. -/
def lerp (a b : Pt K) (t : K) : Pt K := ((a.1.1 + t * (b.1.1 - a.1.1), a.1.2 + t * (b.1.2 - a.1.2)), 0)

/-- **C399.** After an operation the subject has its old vertices in the old order, and between a vertex and the next one the points where
the edge crosses the edges of the other polygon, in the order in which they come on the edge.  All its crossings are there. -/
theorem C399_order (o : Op) (S C : List (Pt K)) (hS : S ≠ []) (hC : C ≠ []) :
    ∃ st hs hc st' r N, twoPolys S C = some (st, hs, hc) ∧ (∀ fuel ≥ N, clipSt fuel st hs hc o.sEntry o.cEntry = some (st', r)) ∧
      ∃ blocks : List (Pt K × Pt K × List K), blocks.map (·.1) = S ∧
        (∀ x ∈ blocks, Edge S x.1 x.2.1 ∧ x.2.2.Pairwise (· ≤ ·) ∧
          (∀ t ∈ x.2.2, 0 < t ∧ t < 1 ∧ ∃ c d, Edge C c d ∧ ProperCross x.1.1 x.2.1.1 c.1 d.1 (lerp x.1 x.2.1 t).1) ∧
          ∀ c d, Edge C c d → ∀ p, ProperCross x.1.1 x.2.1.1 c.1 d.1 p → ∃ t ∈ x.2.2, (lerp x.1 x.2.1 t).1 = p) ∧
        ∀ fuel ≥ N, points st'.heap hs fuel hs = some (blocks.flatMap fun x => x.1 :: x.2.2.map (lerp x.1 x.2.1)) := by
  obtain ⟨st, hs, hc, os, oc, t1, t2, t3, I, t4, t5, t6⟩ := twoPolys_spec hS hC
  obtain ⟨st1, BS, BC, I1, X, d1, n1, N1, p1⟩ := phase1_spec t2 t3 I
  obtain ⟨h2, F2, N2, p2⟩ := phase2_spec I1 t2 t3 o.sEntry o.cEntry
  have I2 := F2.inv I1
  obtain ⟨h3, r, m3, q1, _, q3, q4, N3, p3⟩ := pieces_spec t2 (openCount h2 st1.size) h2 [] (le_refl _) I2 (by simp)
  have I3 := m3.inv I2
  have dat : ∀ x, (h3 x).pos = (st1.heap x).pos ∧ (h3 x).z = (st1.heap x).z ∧ (h3 x).alpha = (st1.heap x).alpha := by
    intro x; rw [m3.same x, F2 x]; exact ⟨rfl, rfl, rfl⟩
  have old : ∀ x < st.size, pt h3 x = pt st.heap x := by
    intro x hx
    rw [pt, pt, (dat x).1, (dat x).2.1, X.keep.pos x hx, X.keep.z x hx]
  have ltS : ∀ x ∈ os, x < st.size := fun x hx => I.ltS x (mem_full_orig _ hx)
  have ltC : ∀ x ∈ oc, x < st.size := fun x hx => I.ltC x (mem_full_orig _ hx)
  have mS : os.map (pt h3) = S := by rw [← t4]; exact List.map_congr_left fun x hx => old x (ltS x hx)
  have mC : oc.map (pt h3) = C := by rw [← t5]; exact List.map_congr_left fun x hx => old x (ltC x hx)
  obtain ⟨t, ht, hp, hnt⟩ := ring_cons I3.s.ring (full_head t2)
  -- the next original vertex
  have hsucc : ∀ i, ∃ e, i ∈ os → Edge os i e := by
    intro i
    by_cases hi : i ∈ os
    · obtain ⟨e, E⟩ := edge_exists hi
      exact ⟨e, fun _ => E⟩
    · exact ⟨0, fun h => absurd h hi⟩
  choose succ hsucc using hsucc
  have hlerp : ∀ i ∈ os, ∀ v ∈ BS i, pt h3 v = lerp (pt h3 i) (pt h3 (succ i)) (h3 v).alpha := by
    intro i hi v hv
    obtain ⟨e, j, f, w, E, F, hw, cr⟩ := I3.crossS i hi v hv
    obtain rfl := edge_unique I3.s E (hsucc i hi)
    obtain ⟨_, _, _, _, e1, _⟩ := C22_intersect_sound _ _ _ _ _ _ _ cr.eq
    rw [pt, cr.zv, e1]
    rfl
  refine ⟨st, hs, hc, ⟨h3, st1.size⟩, if r = [] then [(full os BS).map (pt h3)] else r,
    N1 + N2 + N3 + openCount h2 st1.size + t.length + 1, t1, fun fuel hf => ?_,
    os.map fun i => (pt h3 i, pt h3 (succ i), (BS i).map fun v => (h3 v).alpha), ?_, ?_, fun fuel hf => ?_⟩
  · rw [clipSt, p1 fuel (by omega)]
    dsimp only
    rw [p2 fuel (by omega)]
    dsimp only
    rw [p3 fuel (by omega) fuel (by omega)]
    cases r with
    | nil =>
      dsimp only
      rw [points_path t hs hp hnt fuel (by omega), ← ht]
      rfl
    | cons l r => rfl
  · rw [List.map_map]; exact mS
  · intro x hx
    obtain ⟨i, hi, rfl⟩ := List.mem_map.mp hx
    have E := hsucc i hi
    dsimp only
    refine ⟨by rw [← mS]; exact edge_map E _, ?_, ?_, ?_⟩
    · rw [List.pairwise_map]; exact I3.s.sorted i hi
    · intro t ht
      obtain ⟨v, hv, rfl⟩ := List.mem_map.mp ht
      obtain ⟨e, j, f, w, E', F, hw, cr⟩ := I3.crossS i hi v hv
      obtain rfl := edge_unique I3.s E' E
      obtain ⟨a1, a2, _, _, _, _⟩ := C22_intersect_sound _ _ _ _ _ _ _ cr.eq
      refine ⟨a1, a2, pt h3 j, pt h3 f, by rw [← mC]; exact edge_map F _, ?_⟩
      rw [← hlerp i hi v hv]
      exact (properCross_iff _ _ _ _ _).mpr ⟨_, _, cr.eq⟩
    · intro c d F p hpc
      rw [← mC] at F
      obtain ⟨j, f, F', rfl, rfl⟩ := edge_unmap F
      obtain ⟨us, uc, hi'⟩ := (properCross_iff _ _ _ _ _).mp hpc
      have lI := I.lt_edge E
      have lJ := I.lt_edge' F'
      rw [old i lI.1, old _ lI.2, old j lJ.1, old f lJ.2] at hi'
      obtain ⟨v, hv, w, hw, cr⟩ := d1 i _ E j f F' _ hi'
      have hk := cr.eq
      rw [X.keep.pos i lI.1, X.keep.pos _ lI.2, X.keep.pos j lJ.1, X.keep.pos f lJ.2] at hk
      have hi'' : intersect (st.heap i).pos (st.heap (succ i)).pos (st.heap j).pos (st.heap f).pos = some (p, us, uc) := hi'
      rw [hi''] at hk
      simp only [Option.some.injEq, Prod.mk.injEq] at hk
      refine ⟨(h3 v).alpha, List.mem_map_of_mem hv, ?_⟩
      rw [← hlerp i hi v hv]
      show (h3 v).pos = p
      rw [(dat v).1, hk.1]
  · rw [points_path t hs hp hnt fuel (by omega), ← ht]
    congr 1
    rw [full, List.map_flatMap, List.flatMap_map]
    refine List.flatMap_congr fun i hi => ?_
    rw [List.map_cons, List.map_map]
    congr 1
    exact List.map_congr_left fun v hv => hlerp i hi v hv

/-! ## C400: polygons whose outlines do not cross -/

/-- **C400 refuted.** Whenever no two edges cross, union, intersection and difference all return the first polygon. -/
theorem C400_no_crossing_refuted (S C : List (Pt K)) (hS : S ≠ []) (hC : C ≠ [])
    (hn : ∀ a b, Edge S a b → ∀ c d, Edge C c d → ∀ p, ¬ ProperCross a.1 b.1 c.1 d.1 p) : ∃ N, ∀ o, ∀ fuel ≥ N, op o fuel S C = some [S] := by
  have key : ∀ o, ∃ N, ∀ fuel ≥ N, op o fuel S C = some [S] := by
    intro o
    obtain ⟨r, N, h1, _, h3⟩ := op_spec o hS hC
    rcases h3 with ⟨_, rfl⟩ | ⟨⟨a, b, c, d, p, E, F, hp⟩, _⟩
    · exact ⟨N, h1⟩
    · exact absurd hp (hn a b E c d F p)
  obtain ⟨N1, k1⟩ := key .union
  obtain ⟨N2, k2⟩ := key .intersection
  obtain ⟨N3, k3⟩ := key .difference
  refine ⟨N1 + N2 + N3, fun o fuel hf => ?_⟩
  cases o
  · exact k1 fuel (by omega)
  · exact k2 fuel (by omega)
  · exact k3 fuel (by omega)

theorem onSeg_lt {a b p : K × K} {m : K} (h : OnSeg a b p) (ha : a.1 < m) (hb : b.1 < m) : p.1 < m := by
  obtain ⟨t, h0, h1, rfl⟩ := h
  show a.1 + t * (b.1 - a.1) < m
  nlinarith [mul_le_mul_of_nonneg_left hb.le h0, mul_le_mul_of_nonneg_left ha.le (sub_nonneg.mpr h1), mul_nonneg h0 (sub_nonneg.mpr hb.le),
    mul_nonneg (sub_nonneg.mpr h1) (sub_nonneg.mpr ha.le)]

theorem onSeg_gt {a b p : K × K} {m : K} (h : OnSeg a b p) (ha : m < a.1) (hb : m < b.1) : m < p.1 := by
  obtain ⟨t, h0, h1, rfl⟩ := h
  show m < a.1 + t * (b.1 - a.1)
  nlinarith [mul_nonneg h0 (sub_nonneg.mpr hb.le), mul_nonneg (sub_nonneg.mpr h1) (sub_nonneg.mpr ha.le)]

theorem ProperCross.seg {a b c d p : K × K} (h : ProperCross a b c d p) : OnSeg a b p ∧ OnSeg c d p := by
  obtain ⟨_, s, t, h1, h2, h3, h4, h5, h6⟩ := h
  exact ⟨⟨s, h1.le, h2.le, h5⟩, ⟨t, h3.le, h4.le, h6⟩⟩

theorem Edge.left' {α : Type} {o : List α} {s e : α} (h : Edge o s e) : s ∈ o ∧ e ∈ o := by
  obtain ⟨pre, post, t, h1, h2⟩ := h
  have : e ∈ post ++ pre ++ [s] := by rw [h2]; simp
  rw [h1]
  simp only [List.mem_append, List.mem_cons] at this ⊢
  refine ⟨by simp, ?_⟩
  simp only [List.not_mem_nil, or_false] at this
  tauto

/-- **C400 refuted.** For two polygons on the two sides of a vertical line the intersection is the first polygon (it should be empty), and the
union is the first polygon (the second is lost). -/
theorem C400_apart_refuted (S C : List (Pt K)) (hS : S ≠ []) (hC : C ≠ []) (m : K) (h1 : ∀ P ∈ S, P.1.1 < m) (h2 : ∀ P ∈ C, m < P.1.1) :
    ∃ N, ∀ fuel ≥ N, op .intersection fuel S C = some [S] ∧ op .union fuel S C = some [S] := by
  obtain ⟨N, hN⟩ := C400_no_crossing_refuted S C hS hC (by
    intro a b E c d F p hp
    obtain ⟨s1, s2⟩ := hp.seg
    have a1 := onSeg_lt s1 (h1 a E.left'.1) (h1 b E.left'.2)
    have a2 := onSeg_gt s2 (h2 c F.left'.1) (h2 d F.left'.2)
    exact absurd a1 (not_lt.mpr a2.le))
  exact ⟨N, fun fuel hf => ⟨hN _ fuel hf, hN _ fuel hf⟩⟩

/-- **C400 partial.** The difference of two polygons on the two sides of a vertical line is the first polygon, as it should be. -/
theorem C400_apart_partial (S C : List (Pt K)) (hS : S ≠ []) (hC : C ≠ []) (m : K) (h1 : ∀ P ∈ S, P.1.1 < m) (h2 : ∀ P ∈ C, m < P.1.1) :
    ∃ N, ∀ fuel ≥ N, op .difference fuel S C = some [S] ∧ op .difference fuel C S = some [C] := by
  obtain ⟨N, hN⟩ := C400_no_crossing_refuted S C hS hC (by
    intro a b E c d F p hp
    obtain ⟨s1, s2⟩ := hp.seg
    exact absurd (onSeg_lt s1 (h1 a E.left'.1) (h1 b E.left'.2)) (not_lt.mpr (onSeg_gt s2 (h2 c F.left'.1) (h2 d F.left'.2)).le))
  obtain ⟨N', hN'⟩ := C400_no_crossing_refuted C S hC hS (by
    intro a b E c d F p hp
    obtain ⟨s2, s1⟩ := hp.seg
    exact absurd (onSeg_lt s1 (h1 c F.left'.1) (h1 d F.left'.2)) (not_lt.mpr (onSeg_gt s2 (h2 a E.left'.1) (h2 b E.left'.2)).le))
  exact ⟨N + N', fun fuel hf => ⟨hN _ fuel (by omega), hN' _ fuel (by omega)⟩⟩

theorem edge4 {α : Type} {a b c d x y : α} (E : Edge [a, b, c, d] x y) : (x, y) ∈ [(a, b), (b, c), (c, d), (d, a)] := by
  obtain ⟨pre, post, t, h1, h2⟩ := E
  rcases pre with _ | ⟨p, _ | ⟨q, _ | ⟨u, _ | ⟨v, pre⟩⟩⟩⟩
  · simp only [List.nil_append, List.cons.injEq] at h1
    obtain ⟨rfl, rfl⟩ := h1
    simp at h2
    simp [h2.1]
  · simp only [List.cons_append, List.nil_append, List.cons.injEq] at h1
    obtain ⟨rfl, rfl, rfl⟩ := h1
    simp at h2
    simp [h2.1]
  · simp only [List.cons_append, List.nil_append, List.cons.injEq] at h1
    obtain ⟨rfl, rfl, rfl, rfl⟩ := h1
    simp at h2
    simp [h2.1]
  · simp only [List.cons_append, List.nil_append, List.cons.injEq] at h1
    obtain ⟨rfl, rfl, rfl, rfl, rfl⟩ := h1
    simp at h2
    simp [h2.1]
  · simp at h1

/-- **C400 refuted.** For a polygon inside a rectangle, the intersection of the rectangle with it is the rectangle (it should be the inner
polygon), and so is the difference (it should have a hole). -/
theorem C400_inside_refuted (x0 x1 y0 y1 z : K) (C : List (Pt K)) (hC : C ≠ [])
    (h : ∀ P ∈ C, x0 < P.1.1 ∧ P.1.1 < x1 ∧ y0 < P.1.2 ∧ P.1.2 < y1) :
    ∃ N, ∀ fuel ≥ N, ∀ o, op o fuel [((x0, y0), z), ((x1, y0), z), ((x1, y1), z), ((x0, y1), z)] C =
      some [[((x0, y0), z), ((x1, y0), z), ((x1, y1), z), ((x0, y1), z)]] := by
  obtain ⟨N, hN⟩ := C400_no_crossing_refuted [((x0, y0), z), ((x1, y0), z), ((x1, y1), z), ((x0, y1), z)] C (by simp) hC (by
    intro a b E c d F p hp
    obtain ⟨⟨s, _, _, e1⟩, ⟨t, t0, t1, e2⟩⟩ := hp.seg
    obtain ⟨c1, c2, c3, c4⟩ := h c F.left'.1
    obtain ⟨d1, d2, d3, d4⟩ := h d F.left'.2
    have px : p.1 = c.1.1 + t * (d.1.1 - c.1.1) := by rw [e2]
    have py : p.2 = c.1.2 + t * (d.1.2 - c.1.2) := by rw [e2]
    have t1' := sub_nonneg.mpr t1
    have b1 : x0 < p.1 := by
      rw [px]; nlinarith [mul_nonneg t0 (sub_nonneg.mpr d1.le), mul_nonneg t1' (sub_nonneg.mpr c1.le)]
    have b2 : p.1 < x1 := by
      rw [px]; nlinarith [mul_nonneg t0 (sub_nonneg.mpr d2.le), mul_nonneg t1' (sub_nonneg.mpr c2.le)]
    have b3 : y0 < p.2 := by
      rw [py]; nlinarith [mul_nonneg t0 (sub_nonneg.mpr d3.le), mul_nonneg t1' (sub_nonneg.mpr c3.le)]
    have b4 : p.2 < y1 := by
      rw [py]; nlinarith [mul_nonneg t0 (sub_nonneg.mpr d4.le), mul_nonneg t1' (sub_nonneg.mpr c4.le)]
    have e := edge4 E
    simp only [List.mem_cons, Prod.mk.injEq, List.not_mem_nil, or_false] at e
    rcases e with ⟨rfl, rfl⟩ | ⟨rfl, rfl⟩ | ⟨rfl, rfl⟩ | ⟨rfl, rfl⟩
    · simp at e1; rw [e1] at b3; simp at b3
    · simp at e1; rw [e1] at b2; simp at b2
    · simp at e1; rw [e1] at b4; simp at b4
    · simp at e1; rw [e1] at b1; simp at b1)
  exact ⟨N, fun fuel hf o => hN o fuel hf⟩

example : op .intersection 60 (quad 0 0 4 0) (quad 1 1 1 0) = some [quad 0 0 4 0] := by decide +kernel
example : op .union 60 (quad 0 0 1 0) (quad 2 0 1 0) = some [quad 0 0 1 0] := by decide +kernel
example : op .difference 60 (quad 1 1 1 0) (quad 0 0 4 0) = some [quad 1 1 1 0] := by decide +kernel
example : ∃ N, ∀ fuel ≥ N, op .intersection fuel (quad 0 0 1 0) (quad 2 0 1 0) = some [quad 0 0 1 0] ∧
    op .union fuel (quad 0 0 1 0) (quad 2 0 1 0) = some [quad 0 0 1 0] :=
  C400_apart_refuted _ _ (by simp [quad]) (by simp [quad]) (3 / 2) (by simp [quad]; norm_num) (by simp [quad]; norm_num)

/-! ## C401: heights -/

/-- **C401 partial.** For polygons at height zero all results are at height zero. -/
theorem C401_flat_partial (o : Op) (fuel : Nat) (S C : List (Pt K)) (r : List (List (Pt K))) (h : op o fuel S C = some r)
    (h1 : ∀ P ∈ S, P.2 = 0) (h2 : ∀ P ∈ C, P.2 = 0) : ∀ l ∈ r, ∀ P ∈ l, P.2 = 0 := by
  obtain ⟨hS, hC⟩ := op_nonempty h
  obtain ⟨r', N, h3, _, h4⟩ := op_spec o hS hC
  obtain rfl := op_eq h h3
  rcases h4 with ⟨_, rfl⟩ | ⟨_, h5, _⟩
  · intro l hl P hP
    simp only [List.mem_singleton] at hl; subst hl
    exact h1 P hP
  · intro l hl P hP
    rcases (h5 l hl).2.2 P hP with q | q | ⟨_, _, _, _, _, _, _, q⟩
    · exact h1 P q
    · exact h2 P q
    · exact q

/-- **C401 refuted.** For polygons in a plane at another height whose outlines cross, the polygons returned leave that plane: the crossings
are at height zero. -/
theorem C401_height_refuted (o : Op) (fuel : Nat) (S C : List (Pt K)) (r : List (List (Pt K))) (h : op o fuel S C = some r) (z : K) (hz : z ≠ 0)
    (a b c d : Pt K) (E : Edge S a b) (F : Edge C c d) (p : K × K) (hp : ProperCross a.1 b.1 c.1 d.1 p) : ∃ l ∈ r, ∃ P ∈ l, P.2 ≠ z := by
  obtain ⟨hS, hC⟩ := op_nonempty h
  obtain ⟨r', N, h1, _, h3⟩ := op_spec o hS hC
  obtain rfl := op_eq h h1
  rcases h3 with ⟨hn, _⟩ | ⟨_, _, h5⟩
  · exact absurd hp (hn a b E c d F p)
  · obtain ⟨l, hl, hm⟩ := h5 a b E c d F p hp
    exact ⟨l, hl, _, hm, hz.symm⟩

example : op .intersection 60 (quad 0 0 2 5) (quad 1 1 2 5) = some [[((2, 1), 0), ((2, 2), 5), ((1, 2), 0), ((1, 1), 5), ((2, 1), 0)]] := by
  decide +kernel

/-! ## C402: inside or outside -/

/-- **C402 refuted.** The ray from the first vertex passes through a vertex of the other polygon: the "intersection" has a vertex to the right of
the whole second polygon. -/
theorem C402_vertex_refuted : ∃ (S C : List (Pt ℚ)) (r : List (List (Pt ℚ))), op .intersection 60 S C = some r ∧
    ∃ l ∈ r, ∃ P ∈ l, ∀ Q ∈ C, Q.1.1 < P.1.1 := by
  refine ⟨[((0, 0), 0), ((2, 1), 0), ((3, -1), 0)], [((1, 0), 0), ((0, 1), 0), ((-1, 0), 0), ((0, -1), 0)],
    [[((2 / 3, 1 / 3), 0), ((2, 1), 0), ((3, -1), 0), ((3 / 4, -1 / 4), 0), ((1, 0), 0), ((2 / 3, 1 / 3), 0)]], by decide +kernel, _,
    List.mem_singleton_self _, ((3, -1), 0), by simp, ?_⟩
  intro Q hQ
  simp only [List.mem_cons, List.not_mem_nil, or_false] at hQ
  rcases hQ with rfl | rfl | rfl | rfl <;> norm_num

/-- The edges of a polygon: each vertex with the next one, the last with the first. -/
def edges {α : Type} (l : List α) : List (α × α) := l.zip (l.rotate 1)

theorem wind_count {v hd N : Nat} {h : Heap K} (nx : Nat → Nat) : ∀ (l : List Nat) (a n : Nat), Path h a l hd → hd ∉ l →
    (∀ x ∈ a :: l, (h x).inter = false → ∀ fuel ≥ N, nextPlain h fuel (h x).next = some (nx x)) →
    ∀ fuel ≥ N, ∀ f, l.length < f → windLoop fuel h v hd f a n = some (n + (a :: l).countP fun x =>
      !(h x).inter && (intersect (h v).pos (1000000, (h v).pos.2) (h x).pos (h (nx x)).pos).isSome)
  | l, a, n, p, hx, hn, fuel, hfu, f, hf => by
    obtain ⟨f, rfl⟩ : ∃ k, f = k + 1 := ⟨f - 1, by omega⟩
    have step : windLoop fuel h v hd (f + 1) a n =
        if (h a).next = hd then some (n + [a].countP fun x =>
          !(h x).inter && (intersect (h v).pos (1000000, (h v).pos.2) (h x).pos (h (nx x)).pos).isSome)
        else windLoop fuel h v hd f (h a).next (n + [a].countP fun x =>
          !(h x).inter && (intersect (h v).pos (1000000, (h v).pos.2) (h x).pos (h (nx x)).pos).isSome) := by
      rw [windLoop]
      by_cases hi : (h a).inter = true
      · simp [hi]
      · have hi' : (h a).inter = false := by simpa using hi
        rw [hn a (by simp) hi' fuel hfu]
        by_cases hc : (intersect (h v).pos (1000000, (h v).pos.2) (h a).pos (h (nx a)).pos).isSome = true
        · simp [hi', hc]
        · simp [hi', hc]
    rw [step]
    cases l with
    | nil => rw [if_pos p.1]
    | cons x l =>
      have hxd : x ≠ hd := fun q => hx (by simp [q])
      rw [p.1, if_neg hxd, wind_count nx l x _ p.2.2 (fun q => hx (List.mem_cons_of_mem _ q)) (fun y hy => hn y (List.mem_cons_of_mem _ hy))
        fuel hfu f (by simp at hf; omega)]
      congr 1
      rw [Nat.add_assoc]
      congr 1
      rw [List.countP_cons (l := x :: l), List.countP_cons (l := [])]
      simp
      omega

theorem edge_get {o : List Nat} (k : Nat) (hk : k < o.length) : Edge o o[k] (o[(k + 1) % o.length]'(Nat.mod_lt _ (by omega))) := by
  have e : o.drop (k + 1) ++ o.take k ++ [o[k]] = o.rotate (k + 1) := by
    rw [List.rotate_eq_drop_append_take (by omega), List.append_assoc, List.take_append_getElem]
  refine ⟨o.take k, o.drop (k + 1), (o.rotate (k + 1)).tail, by rw [← List.drop_eq_getElem_cons hk, List.take_append_drop], ?_⟩
  rw [e]
  have hl : 0 < (o.rotate (k + 1)).length := by rw [List.length_rotate]; omega
  have := List.getElem_rotate o (k + 1) 0 hl
  rw [Nat.zero_add] at this
  rw [← this]
  have aux : ∀ (r : List Nat) (h : 0 < r.length), r = r[0] :: r.tail := by
    intro r h
    cases r with
    | nil => simp at h
    | cons a t => rfl
  exact aux _ hl

theorem countP_full {B : Nat → List Nat} (q : Nat → Bool) : ∀ o : List Nat, (∀ i ∈ o, ∀ v ∈ B i, q v = false) → (full o B).countP q = o.countP q
  | [], _ => rfl
  | i :: o, hb => by
    rw [full_cons, List.countP_cons, List.countP_append, List.countP_cons, countP_full q o fun j hj => hb j (List.mem_cons_of_mem _ hj)]
    rw [List.countP_eq_zero.mpr fun v hv => by rw [hb i (by simp) v hv]; simp]
    omega

open Classical in
/-- **C402 partial.** After the crossings have been put in, the test for the first vertex of the subject is the parity of the number of
edges of the other polygon, as it was given, that the segment from the vertex to (1000000, y) crosses properly. -/
theorem C402_parity_partial (S C : List (Pt K)) (v : Pt K) (hC : C ≠ []) : ∃ st hs hc st1 N, twoPolys (v :: S) C = some (st, hs, hc) ∧
    ∀ fuel ≥ N, phase1 fuel st hs hc = some st1 ∧ isInside fuel st1.heap hs hc =
      some (decide ((edges C).countP (fun e => decide (∃ p, ProperCross v.1 (1000000, v.1.2) e.1.1 e.2.1 p)) % 2 ≠ 0)) := by
  obtain ⟨st, hs, hc, os, oc, t1, t2, t3, I, t4, t5, t6⟩ := twoPolys_spec (List.cons_ne_nil v S) hC
  obtain ⟨st1, BS, BC, I1, X, d1, n1, N1, p1⟩ := phase1_spec t2 t3 I
  obtain ⟨t, ht, hp, hnt⟩ := ring_cons I1.c.ring (full_head t3)
  have hsucc : ∀ i, ∃ e, i ∈ oc → Edge oc i e := by
    intro i
    by_cases hi : i ∈ oc
    · obtain ⟨e, E⟩ := edge_exists hi
      exact ⟨e, fun _ => E⟩
    · exact ⟨0, fun h => absurd h hi⟩
  choose nx hnx using hsucc
  have mC : oc.map (pt st1.heap) = C := by
    rw [← t5]
    refine List.map_congr_left fun x hx => ?_
    have := I.ltC x (mem_full_orig _ hx)
    rw [pt, pt, X.keep.pos x this, X.keep.z x this]
  have hv : (st1.heap hs).pos = v.1 := by
    obtain ⟨a, os', rfl⟩ : ∃ a os', os = a :: os' := by
      cases os with
      | nil => cases t2
      | cons a os' => exact ⟨a, os', rfl⟩
    obtain rfl : a = hs := by simpa using t2
    have : a < st.size := I.ltS a (mem_full_orig _ (by simp))
    rw [X.keep.pos a this]
    have h4 : pt st.heap a = v := by simpa using (List.cons.inj t4).1
    rw [← h4]; rfl
  refine ⟨st, hs, hc, st1, N1 + (full oc BC).length, t1, fun fuel hf => ⟨p1 fuel (by omega), ?_⟩⟩
  have hlen : t.length < fuel := by rw [ht] at hf; simp at hf; omega
  rw [isInside, wind_count nx t hc 0 hp hnt (N := (full oc BC).length) (by
    intro x hx hi fuel hf
    rw [← ht] at hx
    obtain ⟨i, hio, hxi⟩ := mem_full.mp hx
    rcases hxi with rfl | hxi
    · exact edge_next I1.c (hnx x hio) (lt_of_lt_of_le (blk_length hio) hf)
    · rw [I1.c.blk i hio x hxi] at hi; cases hi) fuel (by omega) fuel hlen, ← ht, hv]
  rw [countP_full _ oc (fun i hi w hw => by rw [I1.c.blk i hi w hw]; rfl)]
  have e : edges C = oc.map fun i => (pt st1.heap i, pt st1.heap (nx i)) := by
    have hr : oc.map nx = oc.rotate 1 := by
      refine List.ext_getElem (by simp) fun k h1 h2 => ?_
      rw [List.getElem_map, List.getElem_rotate]
      have hk : k < oc.length := by simpa using h1
      exact edge_unique I1.c (hnx _ (List.getElem_mem hk)) (edge_get k hk)
    rw [edges, ← mC, ← List.map_rotate, ← hr, List.map_map, List.zip_map']
    rfl
  rw [e, List.countP_map, Option.map_some, Nat.zero_add]
  congr 4
  refine List.countP_congr fun i hi => ?_
  simp only [(I1.c.orig i hi).1, Bool.not_false, Bool.true_and, Function.comp_apply, decide_eq_true_eq]
  rw [Option.isSome_iff_exists]
  constructor
  · rintro ⟨⟨p, us, uc⟩, hq⟩
    exact ⟨p, (properCross_iff _ _ _ _ _).mpr ⟨us, uc, hq⟩⟩
  · rintro ⟨p, hp⟩
    obtain ⟨us, uc, hq⟩ := (properCross_iff _ _ _ _ _).mp hp
    exact ⟨_, hq⟩

/-- The translate of a polygon. -/
def shift (v : ℚ × ℚ) (l : List (Pt ℚ)) : List (Pt ℚ) := l.map fun P => ((P.1.1 + v.1, P.1.2 + v.2), P.2)

/-- **C402 refuted.** The ray ends at x = 1000000: for squares across that line the intersection is not the translate of the intersection of the
translated squares; it has a vertex above the whole first square. -/
theorem C402_shift_refuted : ∃ (S C : List (Pt ℚ)) (v : ℚ × ℚ) (r : List (List (Pt ℚ))), op .intersection 60 S C = some r ∧
    op .intersection 60 (shift v S) (shift v C) ≠ some (r.map (shift v)) ∧
    ∃ r', op .intersection 60 (shift v S) (shift v C) = some r' ∧ ∃ l ∈ r', ∃ P ∈ l, ∀ Q ∈ shift v S, Q.1.2 < P.1.2 := by
  refine ⟨quad 0 0 4 0, quad 1 1 4 0, (999998, 0), [[((4, 1), 0), ((4, 4), 0), ((1, 4), 0), ((1, 1), 0), ((4, 1), 0)]], by decide +kernel,
    by decide +kernel, [[((1000002, 1), 0), ((1000002, 4), 0), ((999999, 4), 0), ((999999, 5), 0), ((1000003, 5), 0), ((1000003, 1), 0),
      ((1000002, 1), 0)]], by decide +kernel, _, List.mem_singleton_self _, ((999999, 5), 0), by simp, ?_⟩
  intro Q hQ
  simp only [shift, quad, List.map_cons, List.map_nil, List.mem_cons, List.not_mem_nil, or_false] at hQ
  rcases hQ with rfl | rfl | rfl | rfl <;> norm_num

/-! ## C403: calling again -/

set_option synthInstance.maxSize 1000 in
set_option synthInstance.maxHeartbeats 200000 in
/-- **C403 refuted.** The same call on the same two polygons gives another answer the second time. -/
theorem C403_again_refuted : ∃ r r' : List (List (Pt ℚ)), twice .intersection 60 (quad 0 0 2 0) (quad 1 1 2 0) = some (r, r') ∧ r ≠ r' ∧
    r = [[((2, 1), 0), ((2, 2), 0), ((1, 2), 0), ((1, 1), 0), ((2, 1), 0)]] ∧ r' = [[((2, 1), 0), ((2, 1), 0)], [((1, 2), 0), ((1, 2), 0)]] :=
  ⟨_, _, by decide +kernel, by decide +kernel, rfl, rfl⟩

end Verif.Clp
