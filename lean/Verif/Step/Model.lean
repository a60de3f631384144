import Mathlib.Algebra.Order.Field.Basic
import Mathlib.Algebra.Order.Group.Abs
import Mathlib.Algebra.Field.Rat
import Mathlib.Algebra.Order.Ring.Rat

/-!
# Model of mmcore/compat/step/step_writer.py: the writer

Numbers are rationals.  A reference `#n` is the number `n`.  Parameters of entities are flat: a
string, a number, a reference, a list of references, a list of lists of references, a list of
numbers, an enumeration value, an unset value or a typed number; these are all the writer produces.
A method is a function from the state to an optional result and a state, so that what was written
before an exception stays.
-/

namespace Verif.Step

/-- Parameters of an entity. -/
inductive Param
  | str (s : String)
  | num (q : ℚ)
  | ref (r : Nat)
  | refs (rs : List Nat)
  | grid (rs : List (List Nat))
  | nums (qs : List ℚ)
  | enum (s : String)
  | unset (s : String)
  | typed (name : String) (q : ℚ)
deriving DecidableEq

/-- `p21.entity(name, params)`. -/
structure Entity where
  name : String
  params : List Param
deriving DecidableEq

/-- `p21.SimpleEntityInstance` and `p21.ComplexEntityInstance`. -/
inductive Inst
  | simple (e : Entity)
  | complex (es : List Entity)
deriving DecidableEq

/-- The changing part of a `StepWriter`: the next value of `_counter`, the dictionary of instances
in insertion order, `_context3`. -/
structure W where
  counter : Nat
  inst : List (Nat × Inst)
  ctx : Option Nat
deriving DecidableEq

/-- The part fixed by `__init__`: `_4`, `_8` and the placement `world_plane[-1]`. -/
structure Static where
  p4 : Nat
  p8 : Nat
  place : Nat
deriving DecidableEq

/-- Methods. -/
def M (α : Type) : Type := W → Option α × W

/-- Return. -/
def M.pure {α : Type} (a : α) : M α := fun w => (some a, w)

/-- Sequence; an exception stops. -/
def M.bind {α β : Type} (m : M α) (f : α → M β) : M β := fun w =>
  match m w with
  | (some a, w') => f a w'
  | (none, w') => (none, w')

instance : Monad M where
  pure := M.pure
  bind := M.bind

/-- `raise`. -/
def raise {α : Type} : M α := fun w => (none, w)

/-- `dict.update({k: v})`. -/
def upd (k : Nat) (v : Inst) : List (Nat × Inst) → List (Nat × Inst)
  | [] => [(k, v)]
  | e :: l => if e.1 = k then (k, v) :: l else e :: upd k v l

/-- `dict[k]`. -/
def get (k : Nat) : List (Nat × Inst) → Option Inst
  | [] => none
  | e :: l => if e.1 = k then some e.2 else get k l

/-- `next_ref` (step_writer.py:260-263). -/
def nextRef : M Nat := fun w => (some w.counter, { w with counter := w.counter + 1 })

/-- `instances.update` (step_writer.py:456, 462). -/
def store (k : Nat) (v : Inst) : M Unit := fun w => (some (), { w with inst := upd k v w.inst })

/-- `add_entity` (step_writer.py:453-457). -/
def addEntity (e : Entity) : M Nat := do
  let i ← nextRef
  store i (.simple e)
  return i

/-- `add_complex_entity` (step_writer.py:459-463). -/
def addComplex (es : List Entity) : M Nat := do
  let i ← nextRef
  store i (.complex es)
  return i

/-- The name `typeof` gives to an instance. -/
def Inst.type : Inst → String
  | .simple e => e.name
  | .complex _ => "COMPLEX_ENTITY_INSTANCE"

/-- `typeof` (step_writer.py:286-293); a missing key raises. -/
def typeOf (r : Nat) : M String := fun w => ((get r w.inst).map Inst.type, w)

/-- `add_cartesian_point` (step_writer.py:428-431). -/
def addPoint (pt : List ℚ) (name : String) : M Nat :=
  if pt.length = 2 ∨ pt.length = 3 then
    addEntity ⟨"CARTESIAN_POINT", [.str name, .nums pt]⟩
  else raise

/-- `add_direction` (step_writer.py:432-435). -/
def addDirection (v : List ℚ) (name : String) : M Nat :=
  if v.length = 2 ∨ v.length = 3 then addEntity ⟨"DIRECTION", [.str name, .nums v]⟩ else raise

/-- A point argument: coordinates or a reference. -/
inductive Pt
  | coords (pt : List ℚ)
  | ref (r : Nat)
deriving DecidableEq

/-- `add_vertex_point` of a reference (step_writer.py:305-311). -/
def addVertexRef (r : Nat) (name : String) : M Nat := do
  let t ← typeOf r
  if t = "CARTESIAN_POINT" then addEntity ⟨"VERTEX_POINT", [.str name, .ref r]⟩
  else if t = "VERTEX_POINT" then return r
  else raise

/-- `add_vertex_point` (step_writer.py:302-311); for coordinates the name is not passed on. -/
def addVertex (p : Pt) (name : String) : M Nat :=
  match p with
  | .coords pt => do
    let r ← addPoint pt ""
    addVertexRef r ""
  | .ref r => addVertexRef r name

/-- `.T.` or `.F.`. -/
def tf (b : Bool) : Param := .enum (if b then ".T." else ".F.")

/-- `add_edge_curve` (step_writer.py:294-300). -/
def addEdgeCurve (s e : Pt) (geometry : Nat) (sense : Bool) (name : String) : M Nat := do
  let v1 ← addVertex s ""
  let v2 ← addVertex e ""
  addEntity ⟨"EDGE_CURVE", [.str name, .ref v1, .ref v2, .ref geometry, tf sense]⟩

/-- A reference or `*`. -/
def orAny : Option Nat → Param
  | some r => .ref r
  | none => .unset "*"

/-- `add_oriented_edge` (step_writer.py:313-319). -/
def addOriented (edge : Nat) (s e : Option Nat) (o : Bool) (name : String) : M Nat :=
  addEntity ⟨"ORIENTED_EDGE", [.str name, orAny s, orAny e, .ref edge, tf o]⟩

/-- The body of the loop of `add_edge_loop` (step_writer.py:324-332). -/
def orient1 (e : Nat) : M Nat := do
  let t ← typeOf e
  if t = "ORIENTED_EDGE" then return e
  else if t = "EDGE_CURVE" then addOriented e none none true ""
  else raise

/-- The loop of `add_edge_loop` (step_writer.py:322-332). -/
def orientAll : List Nat → M (List Nat)
  | [] => return []
  | e :: es => do
    let e' ← orient1 e
    let es' ← orientAll es
    return e' :: es'

/-- `add_edge_loop` (step_writer.py:321-335). -/
def addLoop (edges : List Nat) (name : String) : M Nat := do
  let es ← orientAll edges
  addEntity ⟨"EDGE_LOOP", [.str name, .refs es]⟩

/-- `add_face_bound` (step_writer.py:336-339). -/
def addFaceBound (loop : Nat) (o : Bool) (name : String) : M Nat :=
  addEntity ⟨"FACE_BOUND", [.str name, .ref loop, tf o]⟩

/-- `add_open_shell` (step_writer.py:341-344). -/
def addOpenShell (faces : List Nat) (name : String) : M Nat :=
  addEntity ⟨"OPEN_SHELL", [.str name, .refs faces]⟩

/-- `add_advanced_face` (step_writer.py:346-349). -/
def addFace (loops : List Nat) (geom : Nat) (sense : Bool) (name : String) : M Nat :=
  addEntity ⟨"ADVANCED_FACE", [.str name, .refs loops, .ref geom, tf sense]⟩

/-- `add_shell_based_surface_model` (step_writer.py:350-353). -/
def addShellModel (shells : List Nat) (name : String) : M Nat :=
  addEntity ⟨"SHELL_BASED_SURFACE_MODEL", [.str name, .refs shells]⟩

/-- `add_units` (step_writer.py:361-396). -/
def addUnits (tol : ℚ) : M (Nat × Nat × Nat × Nat) := do
  let l ← addComplex [⟨"LENGTH_UNIT", []⟩, ⟨"NAMED_UNIT", [.unset "*"]⟩,
    ⟨"SI_UNIT", [.enum ".MILLI.", .enum ".METRE."]⟩]
  let a ← addComplex [⟨"NAMED_UNIT", [.unset "*"]⟩, ⟨"PLANE_ANGLE_UNIT", []⟩,
    ⟨"SI_UNIT", [.unset "$", .enum ".RADIAN."]⟩]
  let p ← addComplex [⟨"NAMED_UNIT", [.unset "*"]⟩,
    ⟨"SI_UNIT", [.unset "$", .enum ".STERADIAN."]⟩, ⟨"SOLID_ANGLE_UNIT", []⟩]
  let u ← addEntity ⟨"UNCERTAINTY_MEASURE_WITH_UNIT",
    [.typed "LENGTH_MEASURE" tol, .ref l, .str "", .str "maximum tolerance"]⟩
  return (l, a, p, u)

/-- Read `_context3`. -/
def getCtx : M (Option Nat) := fun w => (some w.ctx, w)

/-- Assign `_context3`. -/
def setCtx (c : Nat) : M Unit := fun w => (some (), { w with ctx := some c })

/-- `add_context3` (step_writer.py:397-408). -/
def addContext (tol : ℚ) : M Nat := do
  match ← getCtx with
  | some c => return c
  | none =>
    let u ← addUnits tol
    let c ← addComplex [⟨"GEOMETRIC_REPRESENTATION_CONTEXT", [.num 3]⟩,
      ⟨"GLOBAL_UNCERTAINTY_ASSIGNED_CONTEXT", [.refs [u.2.2.2]]⟩,
      ⟨"GLOBAL_UNIT_ASSIGNED_CONTEXT", [.refs [u.1, u.2.1, u.2.2.1]]⟩,
      ⟨"REPRESENTATION_CONTEXT", [.str "ID1", .str "3D"]⟩]
    setCtx c
    return c

/-- `add_axis_axis2_placement_3d` (step_writer.py:409-410). -/
def addPlacement (origin x y : Nat) (name : String) : M Nat :=
  addEntity ⟨"AXIS2_PLACEMENT_3D", [.str name, .ref origin, .ref x, .ref y]⟩

/-- `add_plane` (step_writer.py:412-419). -/
def addPlane (o x y : List ℚ) : M (Nat × Nat × Nat × Nat) := do
  let a ← addPoint o ""
  let b ← addDirection x ""
  let c ← addDirection y ""
  let d ← addPlacement a b c ""
  return (a, b, c, d)

/-- A given context or the common one (step_writer.py:357, 423). -/
def ctxOr (tol : ℚ) : Option Nat → M Nat
  | some c => return c
  | none => addContext tol

/-- `add_manifold_surface_shape_representation` (step_writer.py:355-359). -/
def addManifold (tol : ℚ) (reps : List Nat) (ctx : Option Nat) (name : String) : M Nat := do
  let c ← ctxOr tol ctx
  addEntity ⟨"MANIFOLD_SURFACE_SHAPE_REPRESENTATION", [.str name, .refs reps, .ref c]⟩

/-- `add_shape_representation` (step_writer.py:422-423). -/
def addShapeRep (tol : ℚ) (items : List Nat) (ctx : Option Nat) (name : String) : M Nat := do
  let c ← ctxOr tol ctx
  addEntity ⟨"SHAPE_REPRESENTATION", [.str name, .refs items, .ref c]⟩

/-- `add_shape_representation_relationship` (step_writer.py:425-426). -/
def addRelationship (r1 r2 : Nat) (descr name : String) : M Nat :=
  addEntity ⟨"SHAPE_REPRESENTATION_RELATIONSHIP", [.str name, .str descr, .ref r1, .ref r2]⟩

/-- `add_surface_style` (step_writer.py:437-451).  `_context3` has been set by `__init__`; if it
were `None`, `add_manifold_…` would make it and the later entity would hold the attribute. -/
def addStyle (tol : ℚ) (s : Static) (shell : Nat) (color : List ℚ) : M Unit := do
  let c0 ← getCtx
  let e492 ← addManifold tol [shell, s.place] c0 ""
  let _ ← addEntity ⟨"SHAPE_DEFINITION_REPRESENTATION", [.ref s.p8, .ref e492]⟩
  let _ ← addEntity ⟨"PRODUCT_RELATED_PRODUCT_CATEGORY", [.str "part", .unset "$", .refs [s.p4]]⟩
  let e501 ← addEntity ⟨"COLOUR_RGB", .str "" :: color.map .num⟩
  let e502 ← addEntity ⟨"FILL_AREA_STYLE_COLOUR", [.str "", .ref e501]⟩
  let e500 ← addEntity ⟨"FILL_AREA_STYLE", [.str "", .refs [e502]]⟩
  let e499 ← addEntity ⟨"SURFACE_STYLE_FILL_AREA", [.ref e500]⟩
  let e498 ← addEntity ⟨"SURFACE_SIDE_STYLE", [.str "", .refs [e499]]⟩
  let e497 ← addEntity ⟨"SURFACE_STYLE_USAGE", [.enum ".BOTH.", .ref e498]⟩
  let e496 ← addEntity ⟨"PRESENTATION_STYLE_ASSIGNMENT", [.refs [e497]]⟩
  let e495 ← addEntity ⟨"STYLED_ITEM", [.str "", .refs [e496], .ref shell]⟩
  let c1 ← addContext tol
  let _ ← addEntity ⟨"MECHANICAL_DESIGN_GEOMETRIC_PRESENTATION_REPRESENTATION",
    [.str "", .refs [e495], .ref c1]⟩
  let _ ← addEntity ⟨"PRESENTATION_LAYER_ASSIGNMENT", [.str "Default", .str "", .refs [shell]]⟩
  return ()

/-- `get_knot_multiplicities` (step_writer.py:155-172), the loop; `tol` is `1e-8`. -/
def multLoop {K : Type} [Field K] [LinearOrder K] (tol : K) : K → Nat → List K → List (K × Nat)
  | last, n, [] => [(last, n)]
  | last, n, k :: ks =>
    if |k - last| < tol then multLoop tol last (n + 1) ks
    else (last, n) :: multLoop tol k 1 ks

/-- `get_knot_multiplicities` (step_writer.py:155-172): the distinct knots with multiplicities. -/
def knotMults {K : Type} [Field K] [LinearOrder K] (tol : K) : List K → List (K × Nat)
  | [] => []
  | k :: ks => multLoop tol k 1 ks

/-- What the writer reads of a curve; `start` and `stop` are the end points. -/
structure Curve where
  degree : Nat
  pts : List (List ℚ)
  weights : List ℚ
  knots : List ℚ
  start : List ℚ
  stop : List ℚ
deriving DecidableEq

/-- Python list comprehension of calls. -/
def mapM' {α β : Type} (f : α → M β) : List α → M (List β)
  | [] => return []
  | a :: as => do
    let b ← f a
    let bs ← mapM' f as
    return b :: bs

/-- `add_b_spline_curve_with_knots` (step_writer.py:265-280). -/
def addBSpline (ktol : ℚ) (c : Curve) (name : String) : M Nat := do
  let km := knotMults ktol c.knots
  let ps ← mapM' (fun p => addPoint p "") c.pts
  addEntity ⟨"B_SPLINE_CURVE_WITH_KNOTS",
    [.str name, .num c.degree, .refs ps, .enum ".UNSPECIFIED.", .enum ".F.", .enum ".F.",
     .nums (km.map (fun e => (e.2 : ℚ))), .nums (km.map Prod.fst), .enum ".UNSPECIFIED."]⟩

/-- The edge of a curve (step_writer.py:476-481, 500-505). -/
def addCurveEdge (ktol : ℚ) (c : Curve) : M Nat := do
  let a ← addPoint c.start ""
  let b ← addPoint c.stop ""
  let g ← addBSpline ktol c ""
  let e ← addEdgeCurve (.ref a) (.ref b) g true ""
  addOriented e none none true ""

/-- What the writer reads of a surface, with the boundary curves from
`extract_surface_boundaries`. -/
structure Surf where
  degU : Nat
  degV : Nat
  net : List (List (List ℚ))
  weights : List (List ℚ)
  knotsU : List ℚ
  knotsV : List ℚ
  bounds : List Curve

/-- `add_nurbs_surface` (step_writer.py:465-498). -/
def addSurface (tol ktol : ℚ) (st : Static) (s : Surf) (color : List ℚ) (name : String) : M Nat := do
  let ku := knotMults ktol s.knotsU
  let kv := knotMults ktol s.knotsV
  let es ← mapM' (addCurveEdge ktol) s.bounds
  let l ← addLoop es ""
  let fb ← addFaceBound l true ""
  let net ← mapM' (mapM' (fun p => addPoint p "")) s.net
  let g ← addEntity ⟨"B_SPLINE_SURFACE_WITH_KNOTS",
    [.str name, .num s.degU, .num s.degV, .grid net, .enum ".UNSPECIFIED.", .enum ".F.", .enum ".F.",
     .enum ".F.", .nums (ku.map (fun e => (e.2 : ℚ))), .nums (kv.map (fun e => (e.2 : ℚ))),
     .nums (ku.map Prod.fst), .nums (kv.map Prod.fst), .enum ".UNSPECIFIED."]⟩
  let f ← addFace [fb] g true name
  let sh ← addOpenShell [f] ""
  let m ← addShellModel [sh] name
  addStyle tol st m color
  return m

/-- `__init__` (step_writer.py:242-254). -/
def init (tol : ℚ) (o x y : List ℚ) : M Static := do
  let e1 ← addEntity ⟨"APPLICATION_CONTEXT",
    [.str "core data for automotive mechanical design processes"]⟩
  let _ ← addEntity ⟨"APPLICATION_PROTOCOL_DEFINITION",
    [.str "international standard", .str "automotive_design", .num 2000, .ref e1]⟩
  let e3 ← addEntity ⟨"PRODUCT_CONTEXT", [.str "", .ref e1, .str "mechanical"]⟩
  let e4 ← addEntity ⟨"PRODUCT", [.str "Document", .str "Document", .unset "$", .ref e3]⟩
  let e5 ← addEntity ⟨"PRODUCT_DEFINITION_FORMATION", [.str "", .unset "$", .ref e4]⟩
  let e6 ← addEntity ⟨"PRODUCT_DEFINITION_CONTEXT", [.str "part definition", .ref e1, .str "design"]⟩
  let e7 ← addEntity ⟨"PRODUCT_DEFINITION", [.str "design", .unset "$", .ref e5, .ref e6]⟩
  let e8 ← addEntity ⟨"PRODUCT_DEFINITION_SHAPE", [.str "", .unset "$", .ref e7]⟩
  let _ ← addContext tol
  let p ← addPlane o x y
  return ⟨e4, e8, p.2.2.2⟩

/-- Before `__init__` adds entities: `count()` has given 0 away (step_writer.py:237-238). -/
def W.new : W := ⟨1, [], none⟩

/-- The public methods, with their arguments. -/
inductive Call
  | entity (e : Entity)
  | complex (es : List Entity)
  | point (pt : List ℚ) (name : String)
  | direction (v : List ℚ) (name : String)
  | vertex (p : Pt) (name : String)
  | edgeCurve (s e : Pt) (g : Nat) (sense : Bool) (name : String)
  | oriented (edge : Nat) (s e : Option Nat) (o : Bool) (name : String)
  | loop (edges : List Nat) (name : String)
  | faceBound (l : Nat) (o : Bool) (name : String)
  | openShell (fs : List Nat) (name : String)
  | face (ls : List Nat) (g : Nat) (sense : Bool) (name : String)
  | shellModel (ss : List Nat) (name : String)
  | manifold (rs : List Nat) (ctx : Option Nat) (name : String)
  | units
  | context
  | placement (o x y : Nat) (name : String)
  | plane (o x y : List ℚ)
  | shapeRep (is : List Nat) (ctx : Option Nat) (name : String)
  | relationship (r1 r2 : Nat) (descr name : String)
  | style (shell : Nat) (color : List ℚ)
  | bspline (c : Curve) (name : String)
  | curve (c : Curve)
  | surface (s : Surf) (color : List ℚ) (name : String)

/-- One reference as a result. -/
def one (m : M Nat) : M (List Nat) := do
  let r ← m
  return [r]

/-- A call; the result is the list of references returned. -/
def exec (tol ktol : ℚ) (st : Static) : Call → M (List Nat)
  | .entity e => one (addEntity e)
  | .complex es => one (addComplex es)
  | .point pt n => one (addPoint pt n)
  | .direction v n => one (addDirection v n)
  | .vertex p n => one (addVertex p n)
  | .edgeCurve s e g b n => one (addEdgeCurve s e g b n)
  | .oriented e s t o n => one (addOriented e s t o n)
  | .loop es n => one (addLoop es n)
  | .faceBound l o n => one (addFaceBound l o n)
  | .openShell fs n => one (addOpenShell fs n)
  | .face ls g b n => one (addFace ls g b n)
  | .shellModel ss n => one (addShellModel ss n)
  | .manifold rs c n => one (addManifold tol rs c n)
  | .units => do
    let u ← addUnits tol
    return [u.1, u.2.1, u.2.2.1, u.2.2.2]
  | .context => one (addContext tol)
  | .placement o x y n => one (addPlacement o x y n)
  | .plane o x y => do
    let u ← addPlane o x y
    return [u.1, u.2.1, u.2.2.1, u.2.2.2]
  | .shapeRep is c n => one (addShapeRep tol is c n)
  | .relationship a b d n => one (addRelationship a b d n)
  | .style s c => do
    addStyle tol st s c
    return []
  | .bspline c n => one (addBSpline ktol c n)
  | .curve c => one (addCurveEdge ktol c)
  | .surface s c n => one (addSurface tol ktol st s c n)

end Verif.Step
