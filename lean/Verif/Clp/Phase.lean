import Verif.Clp.Inv

/-!
# Phase one as a whole, and phase two
-/

set_option linter.unusedSectionVars false
namespace Verif.Clp
open Verif.Poly
variable {K : Type} [Field K] [LinearOrder K] [IsStrictOrderedRing K]

/-- The crossing of two edges has its two vertices. -/
def Done (h : Heap K) (BS BC : Nat → List Nat) (i e j f : Nat) : Prop := ∃ v ∈ BS i, ∃ w ∈ BC j, Cr h i e j f v w

theorem Done.mono {st st' : St K} {os oc : List Nat} {BS BC BS' BC' : Nat → List Nat} {i e j f : Nat} (d : Done st.heap BS BC i e j f)
    (I : Inv st.heap st.size os oc BS BC) (x : Ext st st' BS BC BS' BC') (E : Edge os i e) (F : Edge oc j f) :
    Done st'.heap BS' BC' i e j f := by
  obtain ⟨v, hv, w, hw, c⟩ := d
  exact ⟨v, x.s _ _ hv, w, x.c _ _ hw, c.keep x.keep (I.lt_edge E).1 (I.lt_edge E).2 (I.lt_edge' F).1 (I.lt_edge' F).2
    (I.ltS v (mem_full_blk E.left hv)) (I.ltC w (mem_full_blk F.left hw))⟩

theorem skipC {fuel s hc : Nat} {st : St K} {e : Nat} (f : Nat) : ∀ (B : List Nat) (a : Nat), Path st.heap a B e →
    (∀ x ∈ B, (st.heap x).inter = true) → hc ∉ B →
    (if (st.heap a).next = hc then some st else loopC fuel s hc (f + B.length) st (st.heap a).next) =
      if e = hc then some st else loopC fuel s hc f st e
  | [], a, p, _, _ => by rw [p.1]; rfl
  | x :: B, a, p, hB, hc' => by
    have hx : x ≠ hc := fun e => hc' (by simp [e])
    rw [p.1, if_neg hx, List.length_cons, ← Nat.add_assoc, loopC, if_pos (hB x (by simp))]
    exact skipC f B x p.2.2 (fun y hy => hB y (List.mem_cons_of_mem _ hy)) (fun h => hc' (List.mem_cons_of_mem _ h))

theorem skipS {fuel hs hc : Nat} {st : St K} {e : Nat} (f : Nat) : ∀ (B : List Nat) (a : Nat), Path st.heap a B e →
    (∀ x ∈ B, (st.heap x).inter = true) → hs ∉ B →
    (if (st.heap a).next = hs then some st else loopS fuel hs hc (f + B.length) st (st.heap a).next) =
      if e = hs then some st else loopS fuel hs hc f st e
  | [], a, p, _, _ => by rw [p.1]; rfl
  | x :: B, a, p, hB, hc' => by
    have hx : x ≠ hs := fun e => hc' (by simp [e])
    rw [p.1, if_neg hx, List.length_cons, ← Nat.add_assoc, loopS, if_pos (hB x (by simp))]
    exact skipS f B x p.2.2 (fun y hy => hB y (List.mem_cons_of_mem _ hy)) (fun h => hc' (List.mem_cons_of_mem _ h))

theorem head_not_blk {h : Heap K} {o : List Nat} {B : Nat → List Nat} (r : RingInv h o B) {hd i : Nat} (hh : hd ∈ o) (hi : i ∈ o) :
    hd ∉ B i := by
  intro hm
  have := r.blk i hi hd hm
  rw [(r.orig hd hh).1] at this
  cases this

theorem orig_nodup {h : Heap K} {o : List Nat} {B : Nat → List Nat} (r : RingInv h o B) : o.Nodup := by
  have := r.ring.nodup
  have hs : o.Sublist (full o B) := by
    clear this r
    induction o with
    | nil => exact List.Sublist.slnil
    | cons i o ih => rw [full_cons]; exact (ih.trans (List.sublist_append_right _ _)).cons_cons i
  exact hs.nodup this

/-- What follows the vertex at a position of the list of the original vertices. -/
theorem edge_split {pre post : List Nat} {j hd : Nat} (nd : (pre ++ j :: post).Nodup) (hh : (pre ++ j :: post).head? = some hd) :
    (post = [] ∧ Edge (pre ++ j :: post) j hd) ∨ ∃ j' post', post = j' :: post' ∧ Edge (pre ++ j :: post) j j' ∧ j' ≠ hd := by
  cases post with
  | nil =>
    left
    refine ⟨rfl, pre, [], (pre ++ [j]).tail, rfl, ?_⟩
    cases pre with
    | nil => simp at hh ⊢; exact hh
    | cons a pre => simp at hh ⊢; exact hh
  | cons j' post' =>
    right
    refine ⟨j', post', rfl, ⟨pre, j' :: post', post' ++ pre ++ [j], rfl, by simp⟩, ?_⟩
    intro e
    subst e
    cases pre with
    | nil =>
      simp at hh
      subst hh
      simp at nd
    | cons a pre =>
      simp at hh
      subst hh
      simp at nd

theorem loopC_spec {os oc : List Nat} {s e hc : Nat} (E : Edge os s e) (hh : oc.head? = some hc) : ∀ (post pre : List Nat) (j : Nat)
    (st : St K) (BS BC : Nat → List Nat), oc = pre ++ j :: post → Inv st.heap st.size os oc BS BC →
    ∃ st' BS' BC', Inv st'.heap st'.size os oc BS' BC' ∧ Ext st st' BS BC BS' BC' ∧
      (∀ c ∈ j :: post, ∀ f, Edge oc c f → ∀ q, intersect (st.heap s).pos (st.heap e).pos (st.heap c).pos (st.heap f).pos = some q →
        Done st'.heap BS' BC' s e c f) ∧
      ((∀ c ∈ j :: post, ∀ f, Edge oc c f → intersect (st.heap s).pos (st.heap e).pos (st.heap c).pos (st.heap f).pos = none) → st' = st) ∧
      ∃ N, ∀ fuel ≥ N, ∀ k ≥ N, loopC fuel s hc k st j = some st' := by
  intro post
  induction post with
  | nil =>
    intro pre j st BS BC ho I
    have nd : (pre ++ j :: []).Nodup := ho ▸ orig_nodup I.c
    rcases edge_split nd (ho ▸ hh) with ⟨_, F⟩ | ⟨j', post', h1, _⟩
    · rw [← ho] at F
      obtain ⟨st1, BS1, BC1, I1, X1, n1, d1, N, c1⟩ := cross_spec I E F
      refine ⟨st1, BS1, BC1, I1, X1, ?_, ?_, N + (BC1 j).length + 1, ?_⟩
      · intro c hcm f F' q hq
        simp only [List.mem_singleton] at hcm
        subst hcm
        obtain rfl := edge_unique I.c F F'
        exact d1 q hq
      · intro hall
        exact n1 (hall j (by simp) hc F)
      · intro fuel hf k hk
        obtain ⟨k, rfl⟩ : ∃ m, k = (m + (BC1 j).length) + 1 := ⟨k - (BC1 j).length - 1, by omega⟩
        rw [loopC, if_neg (by simp [(I.c.orig j F.left).1]), c1 fuel (by omega)]
        dsimp only
        rw [skipC k (BC1 j) j (edge_path I1.c F) (I1.c.blk j F.left) (head_not_blk I1.c F.right F.left), if_pos rfl]
    · cases h1
  | cons j' post ih =>
    intro pre j st BS BC ho I
    have nd : (pre ++ j :: j' :: post).Nodup := ho ▸ orig_nodup I.c
    have hhc : hc ∈ oc := List.mem_of_mem_head? hh
    rcases edge_split nd (ho ▸ hh) with ⟨h1, _⟩ | ⟨j'', post', h1, F, hne⟩
    · cases h1
    · simp only [List.cons.injEq] at h1
      obtain ⟨rfl, rfl⟩ := h1
      rw [← ho] at F
      obtain ⟨st1, BS1, BC1, I1, X1, n1, d1, N, c1⟩ := cross_spec I E F
      obtain ⟨st2, BS2, BC2, I2, X2, d2, n2, N2, c2⟩ := ih (pre ++ [j]) j' st1 BS1 BC1 (by rw [ho]; simp) I1
      have hp : ∀ c f, Edge oc c f → intersect (st1.heap s).pos (st1.heap e).pos (st1.heap c).pos (st1.heap f).pos =
          intersect (st.heap s).pos (st.heap e).pos (st.heap c).pos (st.heap f).pos := by
        intro c f F'
        rw [X1.keep.pos s (I.lt_edge E).1, X1.keep.pos e (I.lt_edge E).2, X1.keep.pos c (I.lt_edge' F').1, X1.keep.pos f (I.lt_edge' F').2]
      refine ⟨st2, BS2, BC2, I2, X1.trans X2, ?_, ?_, N + N2 + (BC1 j).length + 1, ?_⟩
      · intro c hcm f F' q hq
        rcases List.mem_cons.mp hcm with hcm | hcm
        · subst hcm
          obtain rfl := edge_unique I.c F F'
          exact Done.mono (d1 q hq) I1 X2 E F
        · exact d2 c hcm f F' q (by rw [hp c f F']; exact hq)
      · intro hall
        have h1 := n1 (hall j (by simp) j' F)
        rw [n2 (fun c hcm f F' => by rw [hp c f F']; exact hall c (List.mem_cons_of_mem _ hcm) f F'), h1]
      · intro fuel hf k hk
        obtain ⟨k, rfl⟩ : ∃ m, k = (m + (BC1 j).length) + 1 := ⟨k - (BC1 j).length - 1, by omega⟩
        rw [loopC, if_neg (by simp [(I.c.orig j F.left).1]), c1 fuel (by omega)]
        dsimp only
        rw [skipC k (BC1 j) j (edge_path I1.c F) (I1.c.blk j F.left) (head_not_blk I1.c hhc F.left), if_neg hne]
        exact c2 fuel (by omega) k (by omega)

theorem loopS_spec {os oc : List Nat} {hs hc : Nat} (hh : os.head? = some hs) (hh' : oc.head? = some hc) : ∀ (post pre : List Nat) (i : Nat)
    (st : St K) (BS BC : Nat → List Nat), os = pre ++ i :: post → Inv st.heap st.size os oc BS BC →
    ∃ st' BS' BC', Inv st'.heap st'.size os oc BS' BC' ∧ Ext st st' BS BC BS' BC' ∧
      (∀ s ∈ i :: post, ∀ e, Edge os s e → ∀ c f, Edge oc c f → ∀ q,
        intersect (st.heap s).pos (st.heap e).pos (st.heap c).pos (st.heap f).pos = some q → Done st'.heap BS' BC' s e c f) ∧
      ((∀ s ∈ i :: post, ∀ e, Edge os s e → ∀ c f, Edge oc c f →
        intersect (st.heap s).pos (st.heap e).pos (st.heap c).pos (st.heap f).pos = none) → st' = st) ∧
      ∃ N, ∀ fuel ≥ N, ∀ k ≥ N, loopS fuel hs hc k st i = some st' := by
  obtain ⟨rc, hoc⟩ : ∃ rc, oc = [] ++ hc :: rc := by
    cases oc with
    | nil => simp at hh'
    | cons a l => simp at hh'; subst hh'; exact ⟨l, rfl⟩
  have hall : ∀ c f, Edge oc c f → c ∈ hc :: rc := fun c f F => by have := F.left; rw [hoc] at this; simpa using this
  intro post
  induction post with
  | nil =>
    intro pre i st BS BC ho I
    have nd : (pre ++ i :: []).Nodup := ho ▸ orig_nodup I.s
    rcases edge_split nd (ho ▸ hh) with ⟨_, E⟩ | ⟨j', post', h1, _⟩
    · rw [← ho] at E
      obtain ⟨st1, BS1, BC1, I1, X1, d1, n1, N, c1⟩ := loopC_spec E hh' rc [] hc st BS BC hoc I
      refine ⟨st1, BS1, BC1, I1, X1, ?_, ?_, N + (BS1 i).length + 1, ?_⟩
      · intro s hsm e E' c f F q hq
        simp only [List.mem_singleton] at hsm
        subst hsm
        obtain rfl := edge_unique I.s E E'
        exact d1 c (hall c f F) f F q hq
      · intro hn
        exact n1 fun c _ f F => hn i (by simp) hs E c f F
      · intro fuel hf k hk
        obtain ⟨k, rfl⟩ : ∃ m, k = (m + (BS1 i).length) + 1 := ⟨k - (BS1 i).length - 1, by omega⟩
        rw [loopS, if_neg (by simp [(I.s.orig i E.left).1]), c1 fuel (by omega) fuel (by omega)]
        dsimp only
        rw [skipS k (BS1 i) i (edge_path I1.s E) (I1.s.blk i E.left) (head_not_blk I1.s E.right E.left), if_pos rfl]
    · cases h1
  | cons i' post ih =>
    intro pre i st BS BC ho I
    have nd : (pre ++ i :: i' :: post).Nodup := ho ▸ orig_nodup I.s
    have hhs : hs ∈ os := List.mem_of_mem_head? hh
    rcases edge_split nd (ho ▸ hh) with ⟨h1, _⟩ | ⟨i'', post', h1, E, hne⟩
    · cases h1
    · simp only [List.cons.injEq] at h1
      obtain ⟨rfl, rfl⟩ := h1
      rw [← ho] at E
      obtain ⟨st1, BS1, BC1, I1, X1, d1, n1, N, c1⟩ := loopC_spec E hh' rc [] hc st BS BC hoc I
      obtain ⟨st2, BS2, BC2, I2, X2, d2, n2, N2, c2⟩ := ih (pre ++ [i]) i' st1 BS1 BC1 (by rw [ho]; simp) I1
      have hp : ∀ s e, Edge os s e → ∀ c f, Edge oc c f → intersect (st1.heap s).pos (st1.heap e).pos (st1.heap c).pos (st1.heap f).pos =
          intersect (st.heap s).pos (st.heap e).pos (st.heap c).pos (st.heap f).pos := by
        intro s e E' c f F'
        rw [X1.keep.pos s (I.lt_edge E').1, X1.keep.pos e (I.lt_edge E').2, X1.keep.pos c (I.lt_edge' F').1, X1.keep.pos f (I.lt_edge' F').2]
      refine ⟨st2, BS2, BC2, I2, X1.trans X2, ?_, ?_, N + N2 + (BS1 i).length + 1, ?_⟩
      · intro s hsm e E' c f F q hq
        rcases List.mem_cons.mp hsm with hsm | hsm
        · subst hsm
          obtain rfl := edge_unique I.s E E'
          exact Done.mono (d1 c (hall c f F) f F q hq) I1 X2 E F
        · exact d2 s hsm e E' c f F q (by rw [hp s e E' c f F]; exact hq)
      · intro hn
        have h1 := n1 fun c _ f F => hn i (by simp) i' E c f F
        rw [n2 (fun s hsm e E' c f F => by rw [hp s e E' c f F]; exact hn s (List.mem_cons_of_mem _ hsm) e E' c f F), h1]
      · intro fuel hf k hk
        obtain ⟨k, rfl⟩ : ∃ m, k = (m + (BS1 i).length) + 1 := ⟨k - (BS1 i).length - 1, by omega⟩
        rw [loopS, if_neg (by simp [(I.s.orig i E.left).1]), c1 fuel (by omega) fuel (by omega)]
        dsimp only
        rw [skipS k (BS1 i) i (edge_path I1.s E) (I1.s.blk i E.left) (head_not_blk I1.s hhs E.left), if_neg hne]
        exact c2 fuel (by omega) k (by omega)

/-- Phase one ends, and inserts a vertex in both polygons for every crossing of two edges. -/
theorem phase1_spec {os oc : List Nat} {hs hc : Nat} (hh : os.head? = some hs) (hh' : oc.head? = some hc) {st : St K}
    {BS BC : Nat → List Nat} (I : Inv st.heap st.size os oc BS BC) :
    ∃ st' BS' BC', Inv st'.heap st'.size os oc BS' BC' ∧ Ext st st' BS BC BS' BC' ∧
      (∀ s e, Edge os s e → ∀ c f, Edge oc c f → ∀ q,
        intersect (st.heap s).pos (st.heap e).pos (st.heap c).pos (st.heap f).pos = some q → Done st'.heap BS' BC' s e c f) ∧
      ((∀ s e, Edge os s e → ∀ c f, Edge oc c f →
        intersect (st.heap s).pos (st.heap e).pos (st.heap c).pos (st.heap f).pos = none) → st' = st) ∧
      ∃ N, ∀ fuel ≥ N, phase1 fuel st hs hc = some st' := by
  obtain ⟨rs, hos⟩ : ∃ rs, os = [] ++ hs :: rs := by
    cases os with
    | nil => simp at hh
    | cons a l => simp at hh; subst hh; exact ⟨l, rfl⟩
  obtain ⟨st', BS', BC', I', X, d, n, N, c⟩ := loopS_spec hh hh' rs [] hs st BS BC hos I
  refine ⟨st', BS', BC', I', X, fun s e E => d s ?_ e E, fun hn => n fun s _ e E => hn s e E, N, fun fuel hf => c fuel hf fuel hf⟩
  have := E.left; rw [hos] at this; simpa using this

/-! ## Phase two -/

/-- Only the entry flags differ. -/
def Flags (h h' : Heap K) : Prop := ∀ x, h' x = { h x with entry := (h' x).entry }

theorem Flags.refl (h : Heap K) : Flags h h := fun _ => rfl
theorem Flags.trans {h h' h'' : Heap K} (a : Flags h h') (b : Flags h' h'') : Flags h h'' := fun x => by rw [b x, a x]

theorem setEntry_flags (h : Heap K) (a : Nat) (b : Bool) : Flags h (setEntry h a b) := fun x => by
  rw [setEntry, get_upd]; split_ifs with e
  · rw [e]
  · rfl

theorem Flags.inv {h h' : Heap K} {n : Nat} {os oc : List Nat} {BS BC : Nat → List Nat} (a : Flags h h') (I : Inv h n os oc BS BC) :
    Inv h' n os oc BS BC :=
  I.congr ⟨fun x _ => by rw [a x], fun x _ => by rw [a x], fun x _ => by rw [a x], fun x _ => by rw [a x], fun x _ => by rw [a x]⟩
    fun x _ => by rw [a x]; exact ⟨rfl, rfl⟩

theorem entryLoop_path {hd : Nat} : ∀ (l : List Nat) (a : Nat) (h : Heap K) (e : Bool), Path h a l hd → hd ∉ l →
    ∃ h', Flags h h' ∧ ∀ f, l.length < f → entryLoop hd f h a e = some h'
  | [], a, h, e, p, _ => by
    have hF : Flags h (if (h a).inter then setEntry h a e else h) := by split_ifs <;> [exact setEntry_flags _ _ _; exact Flags.refl _]
    refine ⟨if (h a).inter then setEntry h a e else h, hF, fun f hf => ?_⟩
    obtain ⟨f, rfl⟩ : ∃ k, f = k + 1 := ⟨f - 1, by simp at hf; omega⟩
    rw [entryLoop]
    rw [if_pos]
    rw [hF a]; exact p.1
  | x :: l, a, h, e, p, hx => by
    have hF : Flags h (if (h a).inter then setEntry h a e else h) := by split_ifs <;> [exact setEntry_flags _ _ _; exact Flags.refl _]
    have hxd : x ≠ hd := fun q => hx (by simp [q])
    obtain ⟨h', F', c⟩ := entryLoop_path l x (if (h a).inter then setEntry h a e else h) (if (h a).inter then !e else e)
      (path_congr hd l x (fun y _ => by rw [hF y]) (fun y _ => by rw [hF y]) p.2.2) (fun q => hx (List.mem_cons_of_mem _ q))
    refine ⟨h', hF.trans F', fun f hf => ?_⟩
    obtain ⟨f, rfl⟩ : ∃ k, f = k + 1 := ⟨f - 1, by simp at hf; omega⟩
    have hn : ((if (h a).inter then setEntry h a e else h) a).next = x := by rw [hF a]; exact p.1
    rw [entryLoop]
    rw [hn, if_neg hxd]
    exact c f (by simp at hf; omega)

theorem ring_cons {h : Heap K} {l : List Nat} (r : Ring h l) {hd : Nat} (hh : l.head? = some hd) :
    ∃ t, l = hd :: t ∧ Path h hd t hd ∧ hd ∉ t := by
  cases l with
  | nil => simp at hh
  | cons a t =>
    simp at hh; subst hh
    exact ⟨t, rfl, r.2, (List.nodup_cons.mp r.1).1⟩

theorem full_head {o : List Nat} {B : Nat → List Nat} {hd : Nat} (hh : o.head? = some hd) : (full o B).head? = some hd := by
  cases o with
  | nil => simp at hh
  | cons a t => simp at hh; subst hh; rw [full_cons]; rfl

theorem wind_path {v hd N : Nat} {h : Heap K} : ∀ (l : List Nat) (a n : Nat), Path h a l hd → hd ∉ l →
    (∀ x ∈ a :: l, (h x).inter = false → ∃ e, ∀ fuel ≥ N, nextPlain h fuel (h x).next = some e) →
    ∃ k, ∀ fuel ≥ N, ∀ f, l.length < f → windLoop fuel h v hd f a n = some k
  | [], a, n, p, _, hn => by
    by_cases hi : (h a).inter = true
    · refine ⟨n, fun fuel _ f hf => ?_⟩
      obtain ⟨f, rfl⟩ : ∃ k, f = k + 1 := ⟨f - 1, by simp at hf; omega⟩
      rw [windLoop]
      simp only [hi, if_true, p.1]
    · obtain ⟨e, he⟩ := hn a (by simp) (by simpa using hi)
      refine ⟨if (intersect (h v).pos (1000000, (h v).pos.2) (h a).pos (h e).pos).isSome then n + 1 else n, fun fuel hfu f hf => ?_⟩
      obtain ⟨f, rfl⟩ : ∃ k, f = k + 1 := ⟨f - 1, by simp at hf; omega⟩
      rw [windLoop, he fuel hfu, if_neg hi]
      simp only [Option.map_some, p.1, if_true]
  | x :: l, a, n, p, hx, hn => by
    have hxd : x ≠ hd := fun q => hx (by simp [q])
    by_cases hi : (h a).inter = true
    · obtain ⟨k, c⟩ := wind_path (v := v) (N := N) l x n p.2.2 (fun q => hx (List.mem_cons_of_mem _ q)) (fun y hy => hn y (List.mem_cons_of_mem _ hy))
      refine ⟨k, fun fuel hfu f hf => ?_⟩
      obtain ⟨f, rfl⟩ : ∃ k, f = k + 1 := ⟨f - 1, by simp at hf; omega⟩
      rw [windLoop]
      simp only [hi, if_true, p.1, hxd, if_false]
      exact c fuel hfu f (by simp at hf; omega)
    · obtain ⟨e, he⟩ := hn a (by simp) (by simpa using hi)
      obtain ⟨k, c⟩ := wind_path (v := v) (N := N) l x (if (intersect (h v).pos (1000000, (h v).pos.2) (h a).pos (h e).pos).isSome then n + 1 else n)
        p.2.2 (fun q => hx (List.mem_cons_of_mem _ q)) (fun y hy => hn y (List.mem_cons_of_mem _ hy))
      refine ⟨k, fun fuel hfu f hf => ?_⟩
      obtain ⟨f, rfl⟩ : ∃ k, f = k + 1 := ⟨f - 1, by simp at hf; omega⟩
      rw [windLoop, he fuel hfu, if_neg hi]
      simp only [Option.map_some, p.1, hxd, if_false]
      exact c fuel hfu f (by simp at hf; omega)

theorem blk_length {o : List Nat} {B : Nat → List Nat} {i : Nat} (hi : i ∈ o) : (B i).length < (full o B).length := by
  obtain ⟨p, q, rfl⟩ := List.append_of_mem hi
  rw [full_append, full_cons]
  simp only [List.length_append, List.length_cons]
  omega

theorem isInside_ends {h : Heap K} {o : List Nat} {B : Nat → List Nat} (r : RingInv h o B) {hd : Nat} (hh : o.head? = some hd) (v : Nat) :
    ∃ b N, ∀ fuel ≥ N, isInside fuel h v hd = some b := by
  obtain ⟨t, ht, hp, hnt⟩ := ring_cons r.ring (full_head hh)
  obtain ⟨k, hk⟩ := wind_path (v := v) (N := (full o B).length) t hd 0 hp hnt (by
    intro x hx hi
    rw [← ht] at hx
    obtain ⟨i, hio, hxi⟩ := mem_full.mp hx
    rcases hxi with rfl | hxi
    · obtain ⟨e, E⟩ := edge_exists hio
      exact ⟨e, fun fuel hf => edge_next r E (lt_of_lt_of_le (blk_length hio) hf)⟩
    · rw [r.blk i hio x hxi] at hi; cases hi)
  refine ⟨decide (k % 2 ≠ 0), (full o B).length, fun fuel hf => ?_⟩
  have hlen : t.length < fuel := by rw [ht] at hf; simp at hf; omega
  rw [isInside, hk fuel hf fuel hlen]
  rfl

/-- Phase two ends and sets only entry flags. -/
theorem phase2_spec {h : Heap K} {n : Nat} {os oc : List Nat} {BS BC : Nat → List Nat} (I : Inv h n os oc BS BC) {hs hc : Nat}
    (hh : os.head? = some hs) (hh' : oc.head? = some hc) (a b : Bool) :
    ∃ h', Flags h h' ∧ ∃ N, ∀ fuel ≥ N, phase2 fuel h hs hc a b = some h' := by
  obtain ⟨b1, N1, e1⟩ := isInside_ends I.c hh' hs
  obtain ⟨t, ht, hp, hnt⟩ := ring_cons I.s.ring (full_head hh)
  obtain ⟨h1, F1, c1⟩ := entryLoop_path t hs h (a ^^ b1) hp hnt
  have I1 := F1.inv I
  obtain ⟨b2, N2, e2⟩ := isInside_ends I1.s hh hc
  obtain ⟨t', ht', hp', hnt'⟩ := ring_cons I1.c.ring (full_head hh')
  obtain ⟨h2, F2, c2⟩ := entryLoop_path t' hc h1 (b ^^ b2) hp' hnt'
  refine ⟨h2, F1.trans F2, N1 + N2 + t.length + t'.length + 1, fun fuel hf => ?_⟩
  rw [phase2, e1 fuel (by omega)]
  dsimp only
  rw [c1 fuel (by omega)]
  dsimp only
  rw [e2 fuel (by omega)]
  dsimp only
  rw [c2 fuel (by omega)]

end Verif.Clp
