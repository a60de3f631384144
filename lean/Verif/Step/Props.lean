import Verif.Step.Lemmas

/-! # C47, C104: the writer's numbering, references and types, for every history of calls -/

set_option linter.unusedSectionVars false
set_option linter.unusedSimpArgs false
set_option linter.flexible false

namespace Verif.Step

/-- Discharge "the facts known imply the facts needed". -/
macro "facts" : tactic => `(tactic|
  (intro w hw
   simp only [Entity.req, Inst.req, Entity.refsOf, Param.refsOf, typing, is, tf, List.flatMap_cons,
     List.flatMap_nil, List.map_cons, List.map_nil, List.append_nil, List.nil_append,
     List.cons_append, List.forall_mem_cons, List.forall_mem_append, List.not_mem_nil,
     IsEmpty.forall_iff, implies_true, and_true, true_and, String.reduceEq, if_true, if_false,
     List.forall_mem_map, List.map_append, reduceIte] at hw ⊢
   try tauto))

theorem T.point {rs : List Fact} (pt : List ℚ) (n : String) :
    T rs (addPoint pt n) (fun i => is i "CARTESIAN_POINT") := by
  unfold addPoint
  split_ifs
  · exact T.entity (by facts)
  · exact T.raise

theorem T.direction {rs : List Fact} (pt : List ℚ) (n : String) :
    T rs (addDirection pt n) (fun i => is i "DIRECTION") := by
  unfold addDirection
  split_ifs
  · exact T.entity (by facts)
  · exact T.raise

theorem T.vertexRef {rs : List Fact} (r : Nat) (n : String) :
    T rs (addVertexRef r n) (fun i => is i "VERTEX_POINT") := by
  unfold addVertexRef
  refine T.bind (T.typeOf r) (fun t => ?_)
  split_ifs with h1 h2
  · subst h1
    exact T.entity (by facts)
  · subst h2
    exact T.pure (by facts)
  · exact T.raise

theorem T.vertex {rs : List Fact} (p : Pt) (n : String) :
    T rs (addVertex p n) (fun i => is i "VERTEX_POINT") := by
  cases p with
  | coords pt => exact T.bind (T.point pt "") (fun r => T.vertexRef r "")
  | ref r => exact T.vertexRef r n

theorem T.edgeCurve {rs : List Fact} (s e : Pt) (g : Nat) (b : Bool) (n : String)
    (hg : ∀ w, (∀ f ∈ rs, Holds w f) → Holds w (g, none)) :
    T rs (addEdgeCurve s e g b n) (fun i => is i "EDGE_CURVE") := by
  refine T.bind (T.vertex s "") (fun v1 => T.bind (T.vertex e "") (fun v2 => ?_))
  refine T.entity ?_
  intro w hw
  have hg' := hg w (fun f hf => hw f (by simp [hf]))
  revert hw
  revert w
  intro w hg' hw
  simp only [Entity.req, Entity.refsOf, Param.refsOf, typing, is, tf, List.flatMap_cons,
     List.flatMap_nil, List.map_cons, List.map_nil, List.append_nil, List.nil_append,
     List.cons_append, List.forall_mem_cons, List.forall_mem_append, List.not_mem_nil,
     IsEmpty.forall_iff, implies_true, and_true, true_and, String.reduceEq, if_true, if_false,
     reduceIte] at hw ⊢
  tauto

theorem T.oriented {rs : List Fact} (edge : Nat) (s e : Option Nat) (o : Bool) (n : String)
    (h : ∀ w, (∀ f ∈ rs, Holds w f) → ∀ r ∈ edge :: (s.toList ++ e.toList), Holds w (r, none)) :
    T rs (addOriented edge s e o n) (fun i => is i "ORIENTED_EDGE") := by
  refine T.entity ?_
  intro w hw
  have h' := h w hw
  cases s <;> cases e <;>
    simp [Entity.req, Entity.refsOf, Param.refsOf, typing, tf, orAny] at h' ⊢ <;> tauto

theorem T.orientAll {rs : List Fact} (es : List Nat) :
    T rs (orientAll es) (fun bs => bs.flatMap (fun i => is i "ORIENTED_EDGE")) := by
  induction es generalizing rs with
  | nil => exact T.pure (by facts)
  | cons e es ih =>
    refine T.bind (out := fun i => is i "ORIENTED_EDGE") ?_ (fun i => ?_)
    · unfold orient1
      refine T.bind (T.typeOf e) (fun t => ?_)
      split_ifs with h1 h2
      · subst h1; exact T.pure (by facts)
      · subst h2
        exact T.oriented e none none true "" (by
          intro w hw
          have := hw (e, none) (by simp [is])
          simpa using this)
      · exact T.raise
    · refine T.bind ih (fun bs => T.pure ?_)
      intro w hw g hg
      apply hw
      simp only [List.flatMap_cons, List.mem_append] at hg ⊢
      tauto

theorem T.loop {rs : List Fact} (es : List Nat) (n : String) :
    T rs (addLoop es n) (fun i => is i "EDGE_LOOP") := by
  refine T.bind (T.orientAll es) (fun bs => T.entity ?_)
  intro w hw
  have h1 : ∀ b ∈ bs, Holds w (b, none) ∧ Holds w (b, some "ORIENTED_EDGE") := by
    intro b hb
    constructor <;> apply hw <;> simp [is, hb]
  intro f hf
  simp only [Entity.req, Entity.refsOf, Param.refsOf, typing, List.flatMap_cons, List.flatMap_nil,
    List.append_nil, List.nil_append, List.mem_append, List.mem_map, String.reduceEq, reduceIte]
    at hf
  rcases hf with ⟨b, hb, rfl⟩ | ⟨b, hb, rfl⟩
  · exact (h1 b hb).1
  · exact (h1 b hb).2

theorem T.plain {rs : List Fact} {e : Entity} (ht : typing e = [])
    (h : ∀ w, (∀ f ∈ rs, Holds w f) → ∀ r ∈ e.refsOf, Holds w (r, none)) :
    T rs (addEntity e) (fun i => is i e.name) := by
  refine T.entity ?_
  intro w hw f hf
  rw [Entity.req, ht, List.append_nil, List.mem_map] at hf
  obtain ⟨r, hr, rfl⟩ := hf
  exact h w hw r hr

theorem T.units {rs : List Fact} (tol : ℚ) : T rs (addUnits tol)
    (fun u => [(u.1, none), (u.2.1, none), (u.2.2.1, none), (u.2.2.2, none)]) := by
  refine T.bind (T.complex (by facts)) (fun l => ?_)
  refine T.bind (T.complex (by facts)) (fun a => ?_)
  refine T.bind (T.complex (by facts)) (fun p => ?_)
  refine T.bind (T.entity (by facts)) (fun u => ?_)
  exact T.pure (by facts)

theorem T.context {rs : List Fact} (tol : ℚ) : T rs (addContext tol) (fun i => [(i, none)]) := by
  unfold addContext
  refine T.bind T.getCtx (fun c => ?_)
  cases c with
  | some c => exact T.pure (by intro w hw f hf; exact hw f (by simp at hf; simp [hf]))
  | none =>
    refine T.bind (T.units tol) (fun u => ?_)
    refine T.bind (T.complex (by facts)) (fun c => ?_)
    refine T.bind (T.setCtx (by facts)) (fun _ => T.pure (by facts))

theorem T.placement {rs : List Fact} (o x y : Nat) (n : String)
    (h : ∀ w, (∀ f ∈ rs, Holds w f) → ∀ r ∈ [o, x, y], Holds w (r, none)) :
    T rs (addPlacement o x y n) (fun i => is i "AXIS2_PLACEMENT_3D") := by
  refine T.plain (by simp [typing]) ?_
  intro w hw
  have := h w hw
  simpa [Entity.refsOf, Param.refsOf] using this

theorem T.plane {rs : List Fact} (o x y : List ℚ) : T rs (addPlane o x y)
    (fun u => [(u.1, none), (u.2.1, none), (u.2.2.1, none), (u.2.2.2, none)]) := by
  refine T.bind (T.point o "") (fun a => ?_)
  refine T.bind (T.direction x "") (fun b => ?_)
  refine T.bind (T.direction y "") (fun c => ?_)
  refine T.bind (T.placement a b c "" (by facts)) (fun d => ?_)
  exact T.pure (by facts)

theorem T.ctxOr {rs : List Fact} (tol : ℚ) (c : Option Nat)
    (h : ∀ w, (∀ f ∈ rs, Holds w f) → ∀ r ∈ c.toList, Holds w (r, none)) :
    T rs (ctxOr tol c) (fun i => [(i, none)]) := by
  cases c with
  | some c =>
    refine T.pure ?_
    intro w hw
    have := h w hw
    simpa using this
  | none => exact T.context tol

theorem T.manifold {rs : List Fact} (tol : ℚ) (reps : List Nat) (c : Option Nat) (n : String)
    (h : ∀ w, (∀ f ∈ rs, Holds w f) → ∀ r ∈ reps ++ c.toList, Holds w (r, none)) :
    T rs (addManifold tol reps c n) (fun i => [(i, none)]) := by
  refine T.bind (T.ctxOr tol c (fun w hw r hr => h w hw r (by simp [hr]))) (fun c' => ?_)
  refine (T.plain (by simp [typing]) ?_).weaken (fun _ x => x) ?_
  · intro w hw r hr
    simp only [Entity.refsOf, Param.refsOf, List.flatMap_cons, List.flatMap_nil, List.append_nil,
      List.nil_append, List.mem_append, List.mem_singleton] at hr
    rcases hr with hr | rfl
    · exact h w (fun f hf => hw f (by simp [hf])) r (by simp [hr])
    · exact hw (r, none) (by simp)
  · facts

theorem T.shapeRep {rs : List Fact} (tol : ℚ) (reps : List Nat) (c : Option Nat) (n : String)
    (h : ∀ w, (∀ f ∈ rs, Holds w f) → ∀ r ∈ reps ++ c.toList, Holds w (r, none)) :
    T rs (addShapeRep tol reps c n) (fun i => [(i, none)]) := by
  refine T.bind (T.ctxOr tol c (fun w hw r hr => h w hw r (by simp [hr]))) (fun c' => ?_)
  refine (T.plain (by simp [typing]) ?_).weaken (fun _ x => x) ?_
  · intro w hw r hr
    simp only [Entity.refsOf, Param.refsOf, List.flatMap_cons, List.flatMap_nil, List.append_nil,
      List.nil_append, List.mem_append, List.mem_singleton] at hr
    rcases hr with hr | rfl
    · exact h w (fun f hf => hw f (by simp [hf])) r (by simp [hr])
    · exact hw (r, none) (by simp)
  · facts

/-- The facts about the fixed part. -/
def Static.facts (s : Static) : List Fact := [(s.p4, none), (s.p8, none), (s.place, none)]

theorem T.style {rs : List Fact} (tol : ℚ) (s : Static) (shell : Nat) (color : List ℚ)
    (h : ∀ w, (∀ f ∈ rs, Holds w f) → ∀ r ∈ [shell, s.p4, s.p8, s.place], Holds w (r, none)) :
    T rs (addStyle tol s shell color) (fun _ => []) := by
  suffices hs : T (([shell, s.p4, s.p8, s.place].map (fun r => (r, none)) : List Fact))
      (addStyle tol s shell color) (fun _ => []) by
    refine hs.weaken ?_ (fun _ _ x => x)
    intro w hw f hf
    obtain ⟨r, hr, rfl⟩ := List.mem_map.1 hf
    exact h w hw r hr
  unfold addStyle
  refine T.bind T.getCtx (fun c0 => ?_)
  refine T.bind (T.manifold tol _ c0 "" ?_) (fun e492 => ?_)
  · intro w hw r hr
    apply hw
    simp only [List.mem_append, List.mem_cons, List.not_mem_nil, or_false, List.mem_map,
      Option.mem_toList, Prod.mk.injEq, and_true, exists_eq_right] at hr ⊢
    tauto
  refine T.bind (T.entity (by facts)) (fun _ => ?_)
  refine T.bind (T.entity (by facts)) (fun _ => ?_)
  refine T.bind (T.plain (by simp [typing]) ?_) (fun e501 => ?_)
  · intro w _ r hr
    simp only [Entity.refsOf, List.flatMap_cons, Param.refsOf, List.nil_append, List.mem_flatMap,
      List.mem_map] at hr
    obtain ⟨p, ⟨q, -, rfl⟩, hp⟩ := hr
    simp [Param.refsOf] at hp
  refine T.bind (T.entity (by facts)) (fun _ => ?_)
  refine T.bind (T.entity (by facts)) (fun _ => ?_)
  refine T.bind (T.entity (by facts)) (fun _ => ?_)
  refine T.bind (T.entity (by facts)) (fun _ => ?_)
  refine T.bind (T.entity (by facts)) (fun _ => ?_)
  refine T.bind (T.entity (by facts)) (fun _ => ?_)
  refine T.bind (T.entity (by facts)) (fun _ => ?_)
  refine T.bind (T.context tol) (fun _ => ?_)
  refine T.bind (T.entity (by facts)) (fun _ => ?_)
  refine T.bind (T.entity (by facts)) (fun _ => ?_)
  exact T.pure (by facts)

theorem T.bspline {rs : List Fact} (ktol : ℚ) (c : Curve) (n : String) :
    T rs (addBSpline ktol c n) (fun i => is i "B_SPLINE_CURVE_WITH_KNOTS") := by
  unfold addBSpline
  refine T.bind (T.mapM' c.pts (fun p _ => T.point p "")) (fun ps => ?_)
  refine T.plain (by simp [typing]) ?_
  intro w hw r hr
  simp only [Entity.refsOf, Param.refsOf, List.flatMap_cons, List.flatMap_nil, List.append_nil,
      List.nil_append] at hr
  exact hw _ (by simp [is, hr])

theorem T.curveEdge {rs : List Fact} (ktol : ℚ) (c : Curve) :
    T rs (addCurveEdge ktol c) (fun i => is i "ORIENTED_EDGE") := by
  refine T.bind (T.point _ "") (fun a => T.bind (T.point _ "") (fun b => ?_))
  refine T.bind (T.bspline ktol c "") (fun g => ?_)
  refine T.bind (T.edgeCurve (.ref a) (.ref b) g true "" (by facts)) (fun e => ?_)
  exact T.oriented e none none true "" (by
    intro w hw
    have := hw (e, none) (by simp [is])
    simpa using this)

theorem T.surface {rs : List Fact} (tol ktol : ℚ) (st : Static) (s : Surf) (color : List ℚ)
    (n : String) (h : ∀ w, (∀ f ∈ rs, Holds w f) → ∀ f ∈ st.facts, Holds w f) :
    T rs (addSurface tol ktol st s color n) (fun i => [(i, none)]) := by
  suffices hs : T st.facts (addSurface tol ktol st s color n) (fun i => [(i, none)]) from
    hs.weaken h (fun _ _ x => x)
  unfold addSurface Static.facts
  refine T.bind (T.mapM' s.bounds (fun b _ => T.curveEdge ktol b)) (fun es => ?_)
  refine T.bind (T.loop es "") (fun l => ?_)
  refine T.bind (T.entity (by facts)) (fun fb => ?_)
  refine T.bind (T.mapM' s.net (fun row _ => T.mapM' row (fun p _ => T.point p ""))) (fun net => ?_)
  refine T.bind (T.plain (by simp [typing]) ?_) (fun g => ?_)
  · intro w hw r hr
    simp only [Entity.refsOf, Param.refsOf, List.flatMap_cons, List.flatMap_nil, List.append_nil,
      List.nil_append, List.mem_flatten] at hr
    obtain ⟨row, hrow, hr⟩ := hr
    apply hw
    simp only [List.mem_append, List.mem_flatMap]
    exact Or.inl ⟨row, hrow, r, hr, by simp [is]⟩
  refine T.bind (T.entity (by facts)) (fun f => ?_)
  refine T.bind (T.entity (by facts)) (fun sh => ?_)
  refine T.bind (T.entity (by facts)) (fun m => ?_)
  refine T.bind (T.style tol st m color ?_) (fun _ => T.pure (by facts))
  facts

theorem T.init (tol : ℚ) (o x y : List ℚ) : T [] (init tol o x y) Static.facts := by
  unfold Step.init
  refine T.bind (T.entity (by facts)) (fun e1 => ?_)
  refine T.bind (T.entity (by facts)) (fun e2 => ?_)
  refine T.bind (T.entity (by facts)) (fun e3 => ?_)
  refine T.bind (T.entity (by facts)) (fun e4 => ?_)
  refine T.bind (T.entity (by facts)) (fun e5 => ?_)
  refine T.bind (T.entity (by facts)) (fun e6 => ?_)
  refine T.bind (T.entity (by facts)) (fun e7 => ?_)
  refine T.bind (T.entity (by facts)) (fun e8 => ?_)
  refine T.bind (T.context tol) (fun c => ?_)
  refine T.bind (T.plane o x y) (fun p => ?_)
  unfold Static.facts
  exact T.pure (by facts)

/-- The references the caller passes that the method does not check.  For `add_entity` with an
entity made by the caller, what that entity needs. -/
def Call.req : Call → List Fact
  | .entity e => e.req
  | .complex es => (Inst.complex es).req
  | .edgeCurve _ _ g _ _ => [(g, none)]
  | .oriented e s t _ _ => (e :: (s.toList ++ t.toList)).map (fun r => (r, none))
  | .faceBound l _ _ => [(l, none)]
  | .openShell fs _ => fs.map (fun r => (r, none))
  | .face ls g _ _ => (ls ++ [g]).map (fun r => (r, none))
  | .shellModel ss _ => ss.map (fun r => (r, none))
  | .manifold rs c _ => (rs ++ c.toList).map (fun r => (r, none))
  | .placement o x y _ => [(o, none), (x, none), (y, none)]
  | .shapeRep is c _ => (is ++ c.toList).map (fun r => (r, none))
  | .relationship a b _ _ => [(a, none), (b, none)]
  | .style s _ => [(s, none)]
  | _ => []

theorem T.one {rs : List Fact} {m : M Nat} {out : Nat → List Fact} (h : T rs m out)
    (ho : ∀ i, (i, none) ∈ out i) : T rs (one m) (fun l => l.map (fun r => (r, none))) := by
  refine T.bind h (fun i => T.pure ?_)
  intro w hw f hf
  simp only [List.map_cons, List.map_nil, List.mem_singleton] at hf
  subst hf
  exact hw _ (by simp [ho i])

theorem T.exec (tol ktol : ℚ) (st : Static) (c : Call) :
    T (c.req ++ st.facts) (exec tol ktol st c) (fun l => l.map (fun r => (r, none))) := by
  have his : ∀ (t : String) (i : Nat), (i, none) ∈ is i t := by intro t i; simp [is]
  cases c with
  | entity e => exact T.one (T.entity (fun w hw f hf => hw f (by simp [Call.req, hf]))) (his _)
  | complex es => exact T.one (T.complex (fun w hw f hf => hw f (by simp [Call.req, hf]))) (his _)
  | point pt n => exact T.one (T.point pt n) (his _)
  | direction v n => exact T.one (T.direction v n) (his _)
  | vertex p n => exact T.one (T.vertex p n) (his _)
  | edgeCurve s e g b n =>
    exact T.one (T.edgeCurve s e g b n (fun w hw => hw _ (by simp [Call.req]))) (his _)
  | oriented e s t o n =>
    refine T.one (T.oriented e s t o n (fun w hw r hr => hw (r, none) ?_)) (his _)
    exact List.mem_append_left _ (List.mem_map.2 ⟨r, hr, rfl⟩)
  | loop es n => exact T.one (T.loop es n) (his _)
  | faceBound l o n =>
    refine T.one (T.plain (by simp [typing]) ?_) (his _)
    intro w hw r hr
    simp [Entity.refsOf, Param.refsOf, tf] at hr
    subst hr
    exact hw _ (by simp [Call.req])
  | openShell fs n =>
    refine T.one (T.plain (by simp [typing]) ?_) (his _)
    intro w hw r hr
    simp [Entity.refsOf, Param.refsOf, tf] at hr
    exact hw _ (by simp [Call.req, hr])
  | face ls g b n =>
    refine T.one (T.plain (by simp [typing]) ?_) (his _)
    intro w hw r hr
    simp [Entity.refsOf, Param.refsOf, tf] at hr
    apply hw
    rcases hr with hr | rfl
    · simp [Call.req, hr]
    · simp [Call.req]
  | shellModel ss n =>
    refine T.one (T.plain (by simp [typing]) ?_) (his _)
    intro w hw r hr
    simp [Entity.refsOf, Param.refsOf, tf] at hr
    exact hw _ (by simp [Call.req, hr])
  | manifold rs c n =>
    refine T.one (T.manifold tol rs c n (fun w hw r hr => hw (r, none) ?_)) (by simp)
    exact List.mem_append_left _ (List.mem_map.2 ⟨r, hr, rfl⟩)
  | units =>
    refine T.bind (T.units tol) (fun u => T.pure ?_)
    facts
  | context => exact T.one (T.context tol) (by simp)
  | placement o x y n =>
    refine T.one (T.placement o x y n (fun w hw r hr => hw (r, none) ?_)) (his _)
    simp only [Call.req, List.mem_append, List.mem_cons, List.not_mem_nil, or_false] at hr ⊢
    rcases hr with rfl | rfl | rfl <;> simp
  | plane o x y =>
    refine T.bind (T.plane o x y) (fun u => T.pure ?_)
    facts
  | shapeRep is c n =>
    refine T.one (T.shapeRep tol is c n (fun w hw r hr => hw (r, none) ?_)) (by simp)
    exact List.mem_append_left _ (List.mem_map.2 ⟨r, hr, rfl⟩)
  | relationship a b d n =>
    refine T.one (T.plain (by simp [typing]) ?_) (his _)
    intro w hw r hr
    simp [Entity.refsOf, Param.refsOf, tf] at hr
    apply hw
    rcases hr with rfl | rfl <;> simp [Call.req]
  | style s c =>
    refine T.bind (T.style tol st s c ?_) (fun _ => T.pure (by facts))
    unfold Call.req Static.facts
    facts
  | bspline c n => exact T.one (T.bspline ktol c n) (his _)
  | curve c => exact T.one (T.curveEdge ktol c) (his _)
  | surface s c n =>
    exact T.one (T.surface tol ktol st s c n (fun w hw f hf => hw f (by simp [hf]))) (by simp)

theorem inv_new : Inv W.new := by
  refine ⟨by decide, by decide, ?_, ?_⟩
  · intro k v h; simp [W.new] at h
  · intro c h; simp [W.new] at h

/-- What a writer can come to: the constructor, then calls, some of which may raise; the caller
passes references of existing instances. -/
inductive Reach (tol ktol : ℚ) : Static → W → Prop
  | init (o x y : List ℚ) (st : Static) (h : (init tol o x y W.new).1 = some st) :
    Reach tol ktol st (Step.init tol o x y W.new).2
  | call (st : Static) (w : W) (c : Call) (hw : Reach tol ktol st w)
    (hc : ∀ f ∈ c.req, Holds w f) : Reach tol ktol st (exec tol ktol st c w).2

theorem Reach.inv {tol ktol : ℚ} {st : Static} {w : W} (h : Reach tol ktol st w) :
    Inv w ∧ ∀ f ∈ st.facts, Holds w f := by
  induction h with
  | init o x y st h =>
    obtain ⟨h1, h2, h3⟩ := T.init tol o x y W.new inv_new (by simp)
    exact ⟨h1, h3 st h⟩
  | call st w c hw hc ih =>
    obtain ⟨h1, h2, h3⟩ := T.exec tol ktol st c w ih.1 (by
      intro f hf
      rcases List.mem_append.1 hf with hf | hf
      · exact hc f hf
      · exact ih.2 f hf)
    exact ⟨h1, fun f hf => (ih.2 f hf).mono h2⟩

/-! ## C47 -/

/-- In every reachable state the numbers in the file are `1, 2, 3, …` in this order, and every
reference in an instance is the number of an earlier one. -/
theorem C47_numbering {tol ktol : ℚ} {st : Static} {w : W} (h : Reach tol ktol st w) :
    w.inst.map Prod.fst = List.range' 1 w.inst.length ∧
    ∀ k v, (k, v) ∈ w.inst → ∀ r ∈ v.refsOf, r < k ∧ r ∈ w.inst.map Prod.fst := by
  have hi := h.inv.1
  refine ⟨?_, ?_⟩
  · have hl : w.inst.length = w.counter - 1 := by
      have := congrArg List.length hi.keys
      simpa using this
    rw [hl]; exact hi.keys
  · intro k v hm r hr
    have hf : (r, none) ∈ v.req := by
      cases v with
      | simple e => exact List.mem_append_left _ (List.mem_map.2 ⟨r, hr, rfl⟩)
      | complex es => exact List.mem_map.2 ⟨r, hr, rfl⟩
    obtain ⟨h1, u, hu, -⟩ := hi.back k v hm _ hf
    exact ⟨h1, List.mem_map.2 ⟨_, get_mem _ _ _ hu, rfl⟩⟩

/-- A call never changes or removes what was written, and returns references that are in the file. -/
theorem C47_append {tol ktol : ℚ} {st : Static} {w : W} (h : Reach tol ktol st w) (c : Call)
    (hc : ∀ f ∈ c.req, Holds w f) :
    (∃ l, (exec tol ktol st c w).2.inst = w.inst ++ l) ∧
    ∀ rs, (exec tol ktol st c w).1 = some rs →
      ∀ r ∈ rs, r ∈ (exec tol ktol st c w).2.inst.map Prod.fst := by
  obtain ⟨h1, h2, h3⟩ := T.exec tol ktol st c w h.inv.1 (by
      intro f hf
      rcases List.mem_append.1 hf with hf | hf
      · exact hc f hf
      · exact h.inv.2 f hf)
  refine ⟨h2.1, ?_⟩
  intro rs hrs r hr
  obtain ⟨u, hu, -⟩ := h3 rs hrs (r, none) (List.mem_map.2 ⟨r, hr, rfl⟩)
  exact List.mem_map.2 ⟨_, get_mem _ _ _ hu, rfl⟩

/-- Without the supposition on the caller references may dangle: unchecked numbers are written. -/
theorem C47_dangling_refuted {tol ktol : ℚ} {st : Static} {w : W} (h : Reach tol ktol st w)
    (r : Nat) (hr : w.counter < r) :
    ∃ k v, (k, v) ∈ (exec tol ktol st (.faceBound r true "") w).2.inst ∧ r ∈ v.refsOf ∧
      r ∉ (exec tol ktol st (.faceBound r true "") w).2.inst.map Prod.fst := by
  have hi := h.inv.1
  have e : (exec tol ktol st (.faceBound r true "") w).2 =
      w.add (.simple ⟨"FACE_BOUND", [.str "", .ref r, tf true]⟩) := by
    simp only [exec, one, addFaceBound, bind, M.bind]
    rw [addEntity_eq hi]
    rfl
  rw [e]
  refine ⟨w.counter, _, List.mem_append_right _ (List.mem_singleton.2 rfl), ?_, ?_⟩
  · simp [Inst.refsOf, Entity.refsOf, Param.refsOf, tf]
  · simp only [W.add, List.map_append, hi.keys, List.mem_append, List.mem_range'_1, List.map_cons,
      List.map_nil, List.mem_singleton]
    omega

/-! ## C104 -/

/-- In every reachable state the ends of an edge are vertices, the point of a vertex is a cartesian
point, and the members of a loop are oriented edges. -/
theorem C104_types {tol ktol : ℚ} {st : Static} {w : W} (h : Reach tol ktol st w) :
    (∀ k n a b g s, (k, Inst.simple ⟨"EDGE_CURVE", [n, .ref a, .ref b, g, s]⟩) ∈ w.inst →
      ∃ p q, (a, p) ∈ w.inst ∧ (b, q) ∈ w.inst ∧ p.type = "VERTEX_POINT" ∧
        q.type = "VERTEX_POINT") ∧
    (∀ k n a, (k, Inst.simple ⟨"VERTEX_POINT", [n, .ref a]⟩) ∈ w.inst →
      ∃ p, (a, p) ∈ w.inst ∧ p.type = "CARTESIAN_POINT") ∧
    (∀ k n l, (k, Inst.simple ⟨"EDGE_LOOP", [n, .refs l]⟩) ∈ w.inst →
      ∀ a ∈ l, ∃ p, (a, p) ∈ w.inst ∧ p.type = "ORIENTED_EDGE") := by
  have hi := h.inv.1
  have fact : ∀ k e, (k, Inst.simple e) ∈ w.inst → ∀ f ∈ typing e, ∃ p, (f.1, p) ∈ w.inst ∧
      ∀ t, f.2 = some t → p.type = t := by
    intro k e hm f hf
    obtain ⟨-, p, hp, ht⟩ := hi.back k _ hm f (List.mem_append_right _ hf)
    exact ⟨p, get_mem _ _ _ hp, ht⟩
  refine ⟨?_, ?_, ?_⟩
  · intro k n a b g s hm
    obtain ⟨p, hp, tp⟩ := fact k _ hm (a, some "VERTEX_POINT") (by simp [typing])
    obtain ⟨q, hq, tq⟩ := fact k _ hm (b, some "VERTEX_POINT") (by simp [typing])
    exact ⟨p, q, hp, hq, tp _ rfl, tq _ rfl⟩
  · intro k n a hm
    obtain ⟨p, hp, tp⟩ := fact k _ hm (a, some "CARTESIAN_POINT") (by simp [typing])
    exact ⟨p, hp, tp _ rfl⟩
  · intro k n l hm a ha
    obtain ⟨p, hp, tp⟩ := fact k _ hm (a, some "ORIENTED_EDGE") (by simp [typing, ha])
    exact ⟨p, hp, tp _ rfl⟩

end Verif.Step
