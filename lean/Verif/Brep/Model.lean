/-!
# Model of mmcore/topo/brep/__init__.py

Geometry is a type `G` with a hash into `H`; objects are named by their position in the list they
are in.  Assignment to fields of the objects from outside is not modelled.
-/

namespace Verif.Brep

/-- `GeometryRepresentation` (brep/__init__.py:23-26). -/
structure Rep (G : Type) where
  index : Nat
  value : G
deriving DecidableEq

/-- `GeometryRepresentation.__eq__` (brep/__init__.py:35-36): equality of hashes. -/
def Rep.eqv {G H : Type} [DecidableEq H] (hash : G → H) (a b : Rep G) : Bool :=
  decide (hash a.value = hash b.value)

/-- `Vertex` (brep/__init__.py:39-41) with its identity. -/
structure Vtx (G : Type) where
  id : Nat
  rep : Rep G
deriving DecidableEq

/-- `Edge` (brep/__init__.py:87-90). -/
structure Edge (G : Type) where
  curve : Rep G
  start : Vtx G
  stop : Vtx G
deriving DecidableEq

/-- `Face` (brep/__init__.py:115-118); loops by identity. -/
structure Face (G : Type) where
  surf : Rep G
  bounds : List Nat
deriving DecidableEq

/-- `BRep` with its `BRepGeometry` (brep/__init__.py:134-138, 197-206). -/
structure St (G : Type) where
  points : List (Rep G) := []
  curves : List (Rep G) := []
  surfaces : List (Rep G) := []
  vertices : List (Vtx G) := []
  edges : List (Edge G) := []
  loops : List (List Nat) := []
  faces : List (Face G) := []

/-- The container is chosen by the type of the geometry (brep/__init__.py:142-147). -/
inductive Kind
  | point
  | curve
  | surface
deriving DecidableEq

/-- The container of a kind. -/
def St.cont {G : Type} (s : St G) : Kind → List (Rep G)
  | .point => s.points
  | .curve => s.curves
  | .surface => s.surfaces

/-- Replace the container of a kind. -/
def St.setCont {G : Type} (s : St G) (k : Kind) (l : List (Rep G)) : St G :=
  match k with
  | .point => { s with points := l }
  | .curve => { s with curves := l }
  | .surface => { s with surfaces := l }

variable {G H : Type} [DecidableEq H]

/-- `BRepGeometry.add` (brep/__init__.py:140-160). -/
def addGeom (hash : G → H) (s : St G) (k : Kind) (g : G) (check : Bool) : Nat × St G :=
  let c := s.cont k
  let r : Rep G := ⟨c.length, g⟩
  match (if check then c.findIdx? (fun x => x.eqv hash r) else none) with
  | some i => (i, s)
  | none => (c.length, s.setCont k (c ++ [r]))

/-- `add_vertex` (brep/__init__.py:207-213, 235-241). -/
def addVertex (hash : G → H) (s : St G) (r : Rep G) (check : Bool) : Nat × St G :=
  match (if check then s.vertices.findIdx? (fun v => v.rep.eqv hash r) else none) with
  | some i => (i, s)
  | none => (s.vertices.length, { s with vertices := s.vertices ++ [⟨s.vertices.length, r⟩] })

/-- The test of `add_edge` (brep/__init__.py:225-226). -/
def sameEdge (hash : G → H) (r : Rep G) (a b : Vtx G) (e : Edge G) : Bool :=
  e.curve.eqv hash r && (a.rep.eqv hash e.start.rep || a.rep.eqv hash e.stop.rep) &&
    (b.rep.eqv hash e.start.rep || b.rep.eqv hash e.stop.rep)

/-- `add_edge` (brep/__init__.py:215-230). -/
def addEdge (hash : G → H) (s : St G) (r : Rep G) (a b : Vtx G) (check : Bool) : Nat × St G :=
  match (if check then s.edges.findIdx? (sameEdge hash r a b) else none) with
  | some i => (i, s)
  | none => (s.edges.length, { s with edges := s.edges ++ [⟨r, a, b⟩] })

/-- `add_loop` (brep/__init__.py:247-250). -/
def addLoop (s : St G) (es : List Nat) : Nat × St G :=
  (s.loops.length, { s with loops := s.loops ++ [es] })

/-- What the search of `add_face` ends with. -/
inductive Scan
  | found (i : Nat)
  | missing
  | raised
deriving DecidableEq

/-- The search of `add_face` (brep/__init__.py:262-267).  The first loops are compared by identity;
with further loops `hash(b)` raises, as the field of a `Loop` is a list. -/
def scanFaces (hash : G → H) (r : Rep G) (ls : List Nat) : Nat → List (Face G) → Scan
  | _, [] => .missing
  | i, f :: fs =>
    if f.surf.eqv hash r then
      match ls, f.bounds with
      | a :: rest, b :: _ =>
        if a = b then (if rest = [] then .found i else .raised) else scanFaces hash r ls (i + 1) fs
      | _, _ => .raised
    else scanFaces hash r ls (i + 1) fs

/-- `add_face` (brep/__init__.py:252-272). -/
def addFace (hash : G → H) (s : St G) (r : Rep G) (ls : List Nat) (check : Bool) :
    Option Nat × St G :=
  match (if check then scanFaces hash r ls 0 s.faces else .missing) with
  | .found i => (some i, s)
  | .raised => (none, s)
  | .missing => (some s.faces.length, { s with faces := s.faces ++ [⟨r, ls⟩] })

/-- Calls, with the objects got from earlier calls given by their positions. -/
inductive Call (G : Type)
  | geom (k : Kind) (g : G) (check : Bool)
  | vertex (p : Nat) (check : Bool)
  | edge (c a b : Nat) (check : Bool)
  | loop (es : List Nat)
  | face (s : Nat) (ls : List Nat) (check : Bool)

/-- One call; `none` if it raises (or an object does not exist). -/
def exec (hash : G → H) (s : St G) : Call G → Option Nat × St G
  | .geom k g c => let p := addGeom hash s k g c; (some p.1, p.2)
  | .vertex p c => match s.points[p]? with
    | some r => let q := addVertex hash s r c; (some q.1, q.2)
    | none => (none, s)
  | .edge c a b ch => match s.curves[c]?, s.vertices[a]?, s.vertices[b]? with
    | some r, some x, some y => let q := addEdge hash s r x y ch; (some q.1, q.2)
    | _, _, _ => (none, s)
  | .loop es => let q := addLoop s es; (some q.1, q.2)
  | .face f ls c => match s.surfaces[f]? with
    | some r => addFace hash s r ls c
    | none => (none, s)

/-- A history of calls. -/
def run (hash : G → H) (s : St G) (cs : List (Call G)) : St G :=
  cs.foldl (fun s c => (exec hash s c).2) s

/-! ## `Sparce` (brep/__init__.py:169-192) -/

/-- The dictionary of pairs and `_rc` in insertion order. -/
structure Sparce (κ V : Type) where
  dict : List ((κ × κ) × V) := []
  rc : List (κ × List κ) := []

/-- `dict.__setitem__`. -/
def put {κ V : Type} [DecidableEq κ] (k : κ) (v : V) : List (κ × V) → List (κ × V)
  | [] => [(k, v)]
  | e :: l => if e.1 = k then (k, v) :: l else e :: put k v l

/-- `dict.get`. -/
def get {κ V : Type} [DecidableEq κ] (k : κ) : List (κ × V) → Option V
  | [] => none
  | e :: l => if e.1 = k then some e.2 else get k l

/-- `if a not in rc: rc[a] = []`. -/
def ensure {κ : Type} [DecidableEq κ] (a : κ) (rc : List (κ × List κ)) : List (κ × List κ) :=
  match get a rc with
  | some _ => rc
  | none => put a [] rc

/-- `if b not in rc[a]: rc[a].append(b)`. -/
def link {κ : Type} [DecidableEq κ] (a b : κ) (rc : List (κ × List κ)) : List (κ × List κ) :=
  match get a rc with
  | some l => if b ∈ l then rc else put a (l ++ [b]) rc
  | none => rc

/-- `__setitem__` (brep/__init__.py:175-186). -/
def Sparce.set {κ V : Type} [DecidableEq κ] (s : Sparce κ V) (a b : κ) (v : V) : Sparce κ V :=
  ⟨put (b, a) v (put (a, b) v s.dict), link b a (link a b (ensure b (ensure a s.rc)))⟩

/-- `__getitem__` of a pair (brep/__init__.py:189-190). -/
def Sparce.pair {κ V : Type} [DecidableEq κ] (s : Sparce κ V) (a b : κ) : Option V :=
  get (a, b) s.dict

/-- `__getitem__` of one key (brep/__init__.py:191-192). -/
def Sparce.row {κ V : Type} [DecidableEq κ] (s : Sparce κ V) (a : κ) : List (κ × Option V) :=
  s.rc.map (fun e => (e.1, s.pair a e.1))

/-! ## `nurbs_surf_to_brep` (brep/__init__.py:295-325) -/

/-- The index of a point and the points afterwards (brep/__init__.py:310-320). -/
def pointIndex {P : Type} [DecidableEq P] (pts : List P) (p : P) : Nat × List P :=
  if pts.length = 0 then (0, pts ++ [p])
  else if p ∈ pts then (pts.idxOf p, pts)
  else (pts.length, pts ++ [p])

/-- The loop over boundaries with end points (brep/__init__.py:304-323): curve and vertex indices of
the edges. -/
def edgeLoop {P : Type} [DecidableEq P] : Nat → List P → List (P × P) →
    List (Nat × Nat × Nat) × List P
  | _, pts, [] => ([], pts)
  | i, pts, (s, e) :: bs =>
    let r := edgeLoop (i + 1) (pointIndex (pointIndex pts s).2 e).2 bs
    ((i, (pointIndex pts s).1, (pointIndex (pointIndex pts s).2 e).1) :: r.1, r.2)

/-- `nurbs_surf_to_brep` (brep/__init__.py:295-325): edges of the loop of the only face and points. -/
def surfToBrep {P : Type} [DecidableEq P] (bounds : List (P × P)) :
    List (Nat × Nat × Nat) × List P := edgeLoop 0 [] bounds

end Verif.Brep
