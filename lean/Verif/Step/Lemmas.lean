import Verif.Step.Model
import Mathlib.Data.List.Basic
import Mathlib.Tactic.Tauto

/-! # Reasoning about the writer -/

set_option linter.unusedSectionVars false

namespace Verif.Step

/-- The references in a parameter. -/
def Param.refsOf : Param → List Nat
  | .ref r => [r]
  | .refs rs => rs
  | .grid rs => rs.flatten
  | _ => []

/-- The references in an entity. -/
def Entity.refsOf (e : Entity) : List Nat := e.params.flatMap Param.refsOf

/-- The references in an instance. -/
def Inst.refsOf : Inst → List Nat
  | .simple e => e.refsOf
  | .complex es => es.flatMap Entity.refsOf

/-- "There is an instance with this number" and, if a name is given, "of this type". -/
abbrev Fact := Nat × Option String

/-- The fact holds in a state. -/
def Holds (w : W) (f : Fact) : Prop :=
  ∃ v, get f.1 w.inst = some v ∧ ∀ t, f.2 = some t → v.type = t

/-- The type requirements the writer is to keep: vertices of edges, points of vertices and the edges
of loops. -/
def typing (e : Entity) : List Fact :=
  if e.name = "EDGE_CURVE" then
    match e.params with
    | [_, .ref a, .ref b, _, _] => [(a, some "VERTEX_POINT"), (b, some "VERTEX_POINT")]
    | _ => []
  else if e.name = "VERTEX_POINT" then
    match e.params with
    | [_, .ref p] => [(p, some "CARTESIAN_POINT")]
    | _ => []
  else if e.name = "EDGE_LOOP" then
    match e.params with
    | [_, .refs l] => l.map (fun r => (r, some "ORIENTED_EDGE"))
    | _ => []
  else []

/-- What an entity needs. -/
def Entity.req (e : Entity) : List Fact := e.refsOf.map (fun r => (r, none)) ++ typing e

/-- What an instance needs. -/
def Inst.req : Inst → List Fact
  | .simple e => e.req
  | .complex es => (es.flatMap Entity.refsOf).map (fun r => (r, none))

/-- Numbers are `1, 2, …` in the order of the file; what an instance needs was there before it. -/
structure Inv (w : W) : Prop where
  pos : 1 ≤ w.counter
  keys : w.inst.map Prod.fst = List.range' 1 (w.counter - 1)
  back : ∀ k v, (k, v) ∈ w.inst → ∀ f ∈ v.req, f.1 < k ∧ Holds w f
  ctx : ∀ c, w.ctx = some c → Holds w (c, none)

/-- Later state: only additions. -/
def Ext (w w' : W) : Prop := (∃ l, w'.inst = w.inst ++ l) ∧ w.counter ≤ w'.counter

theorem Ext.refl (w : W) : Ext w w := ⟨⟨[], by simp⟩, Nat.le_refl _⟩

theorem Ext.trans {a b c : W} (h1 : Ext a b) (h2 : Ext b c) : Ext a c := by
  obtain ⟨⟨l1, e1⟩, c1⟩ := h1
  obtain ⟨⟨l2, e2⟩, c2⟩ := h2
  exact ⟨⟨l1 ++ l2, by rw [e2, e1, List.append_assoc]⟩, by omega⟩

theorem get_append (k : Nat) (v : Inst) : ∀ (l m : List (Nat × Inst)), get k l = some v →
    get k (l ++ m) = some v
  | [], _, h => by simp [get] at h
  | e :: l, m, h => by
    rw [List.cons_append, get]
    rw [get] at h
    split_ifs at h ⊢ with c
    · exact h
    · exact get_append k v l m h

theorem get_append_right (k : Nat) : ∀ (l m : List (Nat × Inst)), k ∉ l.map Prod.fst →
    get k (l ++ m) = get k m
  | [], _, _ => rfl
  | e :: l, m, h => by
    rw [List.cons_append, get]
    simp only [List.map_cons, List.mem_cons, not_or] at h
    rw [if_neg (Ne.symm h.1)]
    exact get_append_right k l m h.2

theorem upd_new (k : Nat) (v : Inst) : ∀ (l : List (Nat × Inst)), k ∉ l.map Prod.fst →
    upd k v l = l ++ [(k, v)]
  | [], _ => rfl
  | e :: l, h => by
    simp only [List.map_cons, List.mem_cons, not_or] at h
    rw [upd, if_neg (Ne.symm h.1), upd_new k v l h.2]
    rfl

theorem get_mem (k : Nat) (v : Inst) : ∀ (l : List (Nat × Inst)), get k l = some v → (k, v) ∈ l
  | [], h => by simp [get] at h
  | e :: l, h => by
    rw [get] at h
    split_ifs at h with c
    · cases h; simp [← c]
    · exact List.mem_cons_of_mem _ (get_mem k v l h)

theorem get_of_mem (k : Nat) (v : Inst) : ∀ (l : List (Nat × Inst)), (l.map Prod.fst).Nodup →
    (k, v) ∈ l → get k l = some v
  | [], _, h => by simp at h
  | e :: l, hn, h => by
    rw [List.map_cons, List.nodup_cons] at hn
    rw [get]
    rcases List.mem_cons.1 h with rfl | h
    · simp
    · rw [if_neg, get_of_mem k v l hn.2 h]
      rintro rfl
      exact hn.1 (List.mem_map.2 ⟨_, h, rfl⟩)

theorem Holds.mono {w w' : W} (h : Ext w w') {f : Fact} (hf : Holds w f) : Holds w' f := by
  obtain ⟨⟨l, e⟩, -⟩ := h
  obtain ⟨v, h1, h2⟩ := hf
  exact ⟨v, by rw [e]; exact get_append _ _ _ _ h1, h2⟩

theorem Holds.key {w : W} (hi : Inv w) {f : Fact} (hf : Holds w f) : 1 ≤ f.1 ∧ f.1 < w.counter := by
  obtain ⟨v, h1, -⟩ := hf
  have h2 : f.1 ∈ w.inst.map Prod.fst := List.mem_map.2 ⟨_, get_mem _ _ _ h1, rfl⟩
  rw [hi.keys, List.mem_range'_1] at h2
  have := hi.pos
  omega

theorem fresh {w : W} (hi : Inv w) : w.counter ∉ w.inst.map Prod.fst := by
  rw [hi.keys, List.mem_range'_1]
  have := hi.pos
  omega

/-- The state after adding an instance. -/
def W.add (w : W) (v : Inst) : W := ⟨w.counter + 1, w.inst ++ [(w.counter, v)], w.ctx⟩

theorem addEntity_eq {w : W} (hi : Inv w) (e : Entity) :
    addEntity e w = (some w.counter, w.add (.simple e)) := by
  have := upd_new w.counter (.simple e) w.inst (fresh hi)
  simp only [addEntity, bind, M.bind, nextRef, store, pure, M.pure, this, W.add]

theorem addComplex_eq {w : W} (hi : Inv w) (es : List Entity) :
    addComplex es w = (some w.counter, w.add (.complex es)) := by
  have := upd_new w.counter (.complex es) w.inst (fresh hi)
  simp only [addComplex, bind, M.bind, nextRef, store, pure, M.pure, this, W.add]

theorem ext_add (w : W) (v : Inst) : Ext w (w.add v) := ⟨⟨[_], rfl⟩, by simp [W.add]⟩

theorem get_add {w : W} (hi : Inv w) (v : Inst) : get w.counter (w.add v).inst = some v := by
  simp only [W.add]
  rw [get_append_right _ _ _ (fresh hi)]
  simp [get]

theorem inv_add {w : W} (hi : Inv w) (v : Inst) (hv : ∀ f ∈ v.req, Holds w f) : Inv (w.add v) := by
  refine ⟨by simp [W.add], ?_, ?_, ?_⟩
  · simp only [W.add, List.map_append, hi.keys, List.map_cons, List.map_nil]
    obtain ⟨n, hn⟩ : ∃ n, w.counter = n + 1 := ⟨w.counter - 1, by have := hi.pos; omega⟩
    rw [hn]
    simp only [Nat.add_sub_cancel]
    rw [List.range'_1_concat]
    congr 2
    omega
  · intro k u hm f hf
    simp only [W.add, List.mem_append, List.mem_singleton, Prod.mk.injEq] at hm
    rcases hm with hm | ⟨rfl, rfl⟩
    · obtain ⟨h1, h2⟩ := hi.back k u hm f hf
      exact ⟨h1, h2.mono (ext_add w v)⟩
    · exact ⟨((hv f hf).key hi).2, (hv f hf).mono (ext_add w _)⟩
  · intro c hc
    exact (hi.ctx c hc).mono (ext_add w v)

/-- Started in a good state where the facts `rs` hold, the method ends (normally or by an exception)
in a good later state, and the facts `out a` hold if it returns `a`. -/
def T {α : Type} (rs : List Fact) (m : M α) (out : α → List Fact) : Prop :=
  ∀ w, Inv w → (∀ f ∈ rs, Holds w f) →
    Inv (m w).2 ∧ Ext w (m w).2 ∧ ∀ a, (m w).1 = some a → ∀ f ∈ out a, Holds (m w).2 f

theorem T.bind {α β : Type} {rs : List Fact} {m : M α} {out : α → List Fact} {f : α → M β}
    {out2 : β → List Fact} (h1 : T rs m out) (h2 : ∀ a, T (out a ++ rs) (f a) out2) :
    T rs (m >>= f) out2 := by
  intro w hw hr
  obtain ⟨i1, e1, o1⟩ := h1 w hw hr
  show Inv (M.bind m f w).2 ∧ _
  simp only [M.bind]
  change _ ∧ Ext w (M.bind m f w).2 ∧ ∀ a, (M.bind m f w).1 = some a → ∀ g ∈ out2 a, Holds (M.bind m f w).2 g
  simp only [M.bind]
  rcases hm : m w with ⟨r, w'⟩
  rw [hm] at i1 e1 o1
  cases r with
  | none => exact ⟨i1, e1, by simp⟩
  | some a =>
    have := h2 a w' i1 (by
      intro g hg
      rcases List.mem_append.1 hg with hg | hg
      · exact o1 a rfl g hg
      · exact (hr g hg).mono e1)
    exact ⟨this.1, e1.trans this.2.1, this.2.2⟩

theorem T.pure {α : Type} {rs : List Fact} {a : α} {out : α → List Fact}
    (h : ∀ w, (∀ f ∈ rs, Holds w f) → ∀ f ∈ out a, Holds w f) : T rs (Pure.pure a : M α) out := by
  intro w hw hr
  refine ⟨hw, Ext.refl w, ?_⟩
  intro b hb
  have hb : some a = some b := hb
  cases hb
  exact h w hr

theorem T.weaken {α : Type} {rs rs' : List Fact} {m : M α} {out out' : α → List Fact}
    (h : T rs m out) (h1 : ∀ w, (∀ f ∈ rs', Holds w f) → ∀ f ∈ rs, Holds w f)
    (h2 : ∀ a w, (∀ f ∈ out a, Holds w f) → ∀ f ∈ out' a, Holds w f) : T rs' m out' := by
  intro w hw hr
  obtain ⟨i1, e1, o1⟩ := h w hw (h1 w hr)
  exact ⟨i1, e1, fun a ha => h2 a _ (o1 a ha)⟩

theorem T.raise {α : Type} {rs : List Fact} {out : α → List Fact} : T rs (raise : M α) out := by
  intro w hw _
  exact ⟨hw, Ext.refl w, by intro a h; simp [Step.raise] at h⟩

/-- The facts known about a new instance. -/
def is (r : Nat) (t : String) : List Fact := [(r, none), (r, some t)]

theorem T.entity {rs : List Fact} {e : Entity}
    (h : ∀ w, (∀ f ∈ rs, Holds w f) → ∀ f ∈ e.req, Holds w f) :
    T rs (addEntity e) (fun i => is i e.name) := by
  intro w hw hr
  rw [addEntity_eq hw]
  refine ⟨inv_add hw _ (h w hr), ext_add _ _, ?_⟩
  intro a ha
  cases ha
  have hg := get_add hw (.simple e)
  intro f hf
  simp only [is, List.mem_cons, List.not_mem_nil, or_false] at hf
  rcases hf with rfl | rfl
  · exact ⟨_, hg, by simp⟩
  · exact ⟨_, hg, by intro t ht; cases ht; rfl⟩

theorem T.complex {rs : List Fact} {es : List Entity}
    (h : ∀ w, (∀ f ∈ rs, Holds w f) → ∀ f ∈ (Inst.complex es).req, Holds w f) :
    T rs (addComplex es) (fun i => is i "COMPLEX_ENTITY_INSTANCE") := by
  intro w hw hr
  rw [addComplex_eq hw]
  refine ⟨inv_add hw _ (h w hr), ext_add _ _, ?_⟩
  intro a ha
  cases ha
  have hg := get_add hw (.complex es)
  intro f hf
  simp only [is, List.mem_cons, List.not_mem_nil, or_false] at hf
  rcases hf with rfl | rfl
  · exact ⟨_, hg, by simp⟩
  · exact ⟨_, hg, by intro t ht; cases ht; rfl⟩

theorem T.typeOf {rs : List Fact} (r : Nat) : T rs (typeOf r) (fun t => is r t) := by
  intro w hw hr
  refine ⟨hw, Ext.refl w, ?_⟩
  intro t ht f hf
  simp only [Step.typeOf] at ht ⊢
  rw [Option.map_eq_some_iff] at ht
  obtain ⟨v, hv, rfl⟩ := ht
  simp only [is, List.mem_cons, List.not_mem_nil, or_false] at hf
  rcases hf with rfl | rfl
  · exact ⟨_, hv, by simp⟩
  · exact ⟨_, hv, by intro t ht; cases ht; rfl⟩

theorem T.getCtx {rs : List Fact} :
    T rs getCtx (fun c => c.toList.map (fun r => (r, none))) := by
  intro w hw hr
  refine ⟨hw, Ext.refl w, ?_⟩
  intro c hc f hf
  simp only [Step.getCtx, Option.some.injEq] at hc ⊢
  subst hc
  simp only [List.mem_map, Option.mem_toList] at hf
  obtain ⟨r, hr', rfl⟩ := hf
  exact hw.ctx r hr'

theorem T.setCtx {rs : List Fact} {c : Nat}
    (h : ∀ w, (∀ f ∈ rs, Holds w f) → Holds w (c, none)) : T rs (setCtx c) (fun _ => []) := by
  intro w hw hr
  refine ⟨⟨hw.pos, hw.keys, hw.back, ?_⟩, ⟨⟨[], by simp [Step.setCtx]⟩, Nat.le_refl _⟩, by simp⟩
  intro d hd
  have hd : some c = some d := hd
  cases hd
  exact h w hr

theorem T.mapM' {α β : Type} {rs : List Fact} {f : α → M β} {out : β → List Fact} (l : List α)
    (h : ∀ a ∈ l, T rs (f a) out) : T rs (mapM' f l) (fun bs => bs.flatMap out) := by
  induction l with
  | nil => exact T.pure (by simp)
  | cons a l ih =>
    refine T.bind (h a (by simp)) (fun b => ?_)
    refine T.bind ((ih (fun a' ha' => h a' (by simp [ha']))).weaken ?_ (fun _ _ x => x))
      (fun bs => ?_)
    · intro w hw g hg; exact hw g (by simp [hg])
    · refine T.pure ?_
      intro w hw g hg
      simp only [List.flatMap_cons, List.mem_append] at hg
      apply hw
      simp only [List.mem_append]
      tauto

end Verif.Step
