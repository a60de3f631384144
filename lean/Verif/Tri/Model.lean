import Mathlib.Algebra.Field.Defs
import Mathlib.Algebra.Order.Field.Rat

/-!
# Reader of the files of Triangle, and the hand-over of arrays to the C library

Model of `mmcore/topo/mesh/triangle/data.py` (whole reader `loads`), of the renaming of keys in
`mmcore/topo/mesh/triangle/tri.py` and of `contig2d`, `fin`, `_wrap` in `mmcore/topo/mesh/triangle/core.pyx`.

A text is a list of characters, `none` stands for an exception.  `float(...)` of a token is the parameter `dbl`.
`int(...)` reads an optional sign and decimal digits (Python also reads underscores and surrounding blanks; tokens have no blanks).
Blanks are the six of ASCII.  Counts in headers are read as naturals (a negative count is treated as an exception).
-/

namespace Verif.Tri

abbrev Text := List Char
abbrev Tok := List Char

/-- `re.sub("#.*\n", '', s)` (data.py:7-8): a `#` and all up to and with the next newline; without a newline nothing is removed. -/
def removeComments : Text → Text
  | [] => []
  | c :: s =>
    if c = '#' then
      if '\n' ∈ s then removeComments' s else c :: s
    else c :: removeComments s
where
  /-- The part of the match after the `#`. -/
  removeComments' : Text → Text
  | [] => []
  | c :: s => if c = '\n' then removeComments s else removeComments' s

def isBlank (c : Char) : Bool := c = ' ' || c = '\n' || c = '\t' || c = '\r' || c = '\x0b' || c = '\x0c'

/-- `s.split()`; `w` is the token in progress. -/
def tokensAux : Tok → Text → List Tok
  | w, [] => if w = [] then [] else [w]
  | w, c :: s => if isBlank c then (if w = [] then tokensAux [] s else w :: tokensAux [] s) else tokensAux (w ++ [c]) s

def tokens (s : Text) : List Tok := tokensAux [] s

/-- `s.split('\n')`; `w` is the line in progress. -/
def linesAux : Text → Text → List Text
  | w, [] => [w]
  | w, c :: s => if c = '\n' then w :: linesAux [] s else linesAux (w ++ [c]) s

def lines (s : Text) : List Text := linesAux [] s

/-- Decimal digits. -/
def readNat (t : Tok) : Option Nat :=
  if t = [] then none
  else t.foldl (fun a c => a.bind fun a => if c.isDigit then some (10 * a + (c.toNat - '0'.toNat)) else none) (some 0)

/-- `int(t)`. -/
def readInt (t : Tok) : Option Int :=
  match t with
  | '-' :: r => (readNat r).map fun n => -(n : Int)
  | '+' :: r => (readNat r).map fun n => (n : Int)
  | r => (readNat r).map fun n => (n : Int)

variable {K : Type}

/-- What `loads` returns (data.py:29): one entry per key. -/
structure Data (K : Type) where
  vertices : Option (List (List K)) := none
  vertexAttributes : Option (List (List K)) := none
  vertexMarkers : Option (List (List Int)) := none
  triangles : Option (List (List Int)) := none
  triangleAttributes : Option (List (List K)) := none
  segments : Option (List (List Int)) := none
  segmentMarkers : Option (List (List Int)) := none
  holes : Option (List (List K)) := none
  regions : Option (List (List K)) := none
  triangleMaxArea : Option (List (List K)) := none
  edges : Option (List (List Int)) := none
  rayOrigins : Option (List (List Int)) := none
  rayDirections : Option (List (List K)) := none
  neighbors : Option (List (List Int)) := none
  deriving DecidableEq

/-- The dictionary and `var.start_at_zero` (data.py:26-29). -/
structure State (K : Type) where
  zero : Bool := true
  data : Data K := {}
  deriving DecidableEq

/-- `np.array(l).reshape(-1, w)` for `0 < w` (data.py:41, 66, …). -/
def reshape {α : Type} (w : Nat) (l : List α) : Option (List (List α)) :=
  if l.length % w = 0 then some ((List.range (l.length / w)).map fun i => (l.drop (i * w)).take w) else none

/-- `v[:, a:b]`. -/
def cols {α : Type} (a b : Nat) (v : List (List α)) : List (List α) := v.map fun r => (r.drop a).take (b - a)

/-- `np.array(…, dtype=…)` on an array of tokens: every entry is read. -/
def readAll {α : Type} (f : Tok → Option α) (v : List (List Tok)) : Option (List (List α)) := v.mapM fun r => r.mapM f

/-- `list(map(int, head))`, unpacked into `n` names (data.py:33, 61, 80, 160). -/
def header (n : Nat) (head : List Tok) : Option (List Nat) := if head.length = n then head.mapM readNat else none

/-- `a -= 1`. -/
def dec (v : List (List Int)) : List (List Int) := v.map fun r => r.map fun x => x - 1

/-- `if not var.start_at_zero: a -= 1` (data.py:68-69, 87-88, 135-137, 167-168). -/
def shift (zero : Bool) (v : List (List Int)) : List (List Int) := if zero then v else dec v

/-- `_vertices` (data.py:31-57): the rest of the tokens and the new state. -/
def readVertices (dbl : Tok → Option K) (tok : List Tok) (s : State K) : Option (List Tok × State K) :=
  match header 4 (tok.take 4) with
  | some [nv, dim, na, nb] =>
    let rest := tok.drop 4
    if nv = 0 then some (rest, s)
    else
      let w := 1 + dim + na + nb
      match reshape w (rest.take (nv * w)) with
      | some v =>
        match v.head?.bind (fun r => r.head?), readAll dbl (cols 1 3 v), readAll dbl (cols 3 (3 + na) v),
            readAll readInt (cols (3 + na) (3 + na + nb) v) with
        | some t, some xy, some att, some mark =>
          some (rest.drop (nv * w), ⟨t = ['0'], { s.data with
            vertices := some xy
            vertexAttributes := if 0 < na then some att else s.data.vertexAttributes
            vertexMarkers := if 0 < nb then some mark else s.data.vertexMarkers }⟩)
        | _, _, _, _ => none
      | none => none
  | _ => none

/-- `_ele` (data.py:59-76). -/
def readEle (dbl : Tok → Option K) (tok : List Tok) (s : State K) : Option (State K) :=
  match header 3 (tok.take 3) with
  | some [nt, nn, na] =>
    let rest := tok.drop 3
    if nt = 0 then some s
    else
      let w := 1 + nn + na
      match reshape w (rest.take (nt * w)) with
      | some v =>
        match readAll readInt (cols 1 (nn + 1) v), readAll dbl (cols (nn + 1) (nn + 1 + na) v) with
        | some t, some att =>
          some ⟨s.zero, { s.data with
            triangles := some (shift s.zero t)
            triangleAttributes := if 0 < na then some att else s.data.triangleAttributes }⟩
        | _, _ => none
      | none => none
  | _ => none

/-- `_segments` (data.py:78-95). -/
def readSegments (tok : List Tok) (s : State K) : Option (List Tok × State K) :=
  match header 2 (tok.take 2) with
  | some [ns, nb] =>
    let rest := tok.drop 2
    if ns = 0 then some (rest, s)
    else
      let w := 3 + nb
      match reshape w (rest.take (ns * w)) with
      | some v =>
        match readAll readInt (cols 1 3 v), readAll readInt (cols 3 (3 + nb) v) with
        | some t, some mark =>
          some (rest.drop (ns * w), ⟨s.zero, { s.data with
            segments := some (shift s.zero t)
            segmentMarkers := if 0 < nb then some mark else s.data.segmentMarkers }⟩)
        | _, _ => none
      | none => none
  | _ => none

/-- `_holes` (data.py:97-107). -/
def readHoles (dbl : Tok → Option K) (tok : List Tok) (s : State K) : Option (List Tok × State K) :=
  match header 1 (tok.take 1) with
  | some [n] =>
    let rest := tok.drop 1
    if n = 0 then some (rest, s)
    else
      match reshape 3 (rest.take (n * 3)) with
      | some v =>
        match readAll dbl (cols 1 3 v) with
        | some h => some (rest.drop (n * 3), ⟨s.zero, { s.data with holes := some h }⟩)
        | none => none
      | none => none
  | _ => none

/-- `_area` (data.py:109-117). -/
def readArea (dbl : Tok → Option K) (tok : List Tok) (s : State K) : Option (State K) :=
  match header 1 (tok.take 1) with
  | some [n] =>
    let rest := tok.drop 1
    if n = 0 then some s
    else
      match reshape 2 (rest.take (n * 2)) with
      | some v =>
        match readAll dbl (cols 1 2 v) with
        | some a => some ⟨s.zero, { s.data with triangleMaxArea := some a }⟩
        | none => none
      | none => none
  | _ => none

/-- `_regions` (data.py:139-156): rows of four, a column of zeros is put in. -/
def readRegions [Zero K] (dbl : Tok → Option K) (tok : List Tok) (s : State K) : Option (State K) :=
  match header 1 (tok.take 1) with
  | some [n] =>
    let rest := tok.drop 1
    if n = 0 then some s
    else
      match reshape 4 (rest.take (n * 4)) with
      | some v =>
        match readAll dbl (cols 1 4 v) with
        | some a => some ⟨s.zero, { s.data with regions := some (a.map fun r => r.take 2 ++ [0] ++ (r.drop 2).take 1) }⟩
        | none => none
      | none => none
  | _ => none

/-- `_neigh` (data.py:158-168). -/
def readNeigh (tok : List Tok) (s : State K) : Option (State K) :=
  match header 2 (tok.take 2) with
  | some [nt, nn] =>
    let rest := tok.drop 2
    if nt = 0 then some s
    else
      let w := 1 + nn
      match reshape w (rest.take (nt * w)) with
      | some v =>
        match readAll readInt (cols 1 w v) with
        | some t => some ⟨s.zero, { s.data with neighbors := some (shift s.zero t) }⟩
        | none => none
      | none => none
  | _ => none

/-- `_edge` (data.py:119-137): by lines; indexing an empty array by two indices raises. -/
def readEdge (dbl : Tok → Option K) (text : Text) (s : State K) : Option (State K) :=
  match lines text with
  | [] => none
  | first :: rest =>
    match header 2 (tokens first) with
    | some [ne, nb] =>
      if ne = 0 then some s
      else
        let tok := rest.map tokens
        let edges := tok.filter fun x => x.length = 3 + nb
        let rays := tok.filter fun x => x.length = 5 + nb
        if edges = [] ∨ rays = [] then none
        else
          match readAll readInt (cols 1 3 edges), readAll readInt (cols 1 2 rays), readAll dbl (cols 3 (5 + nb) rays) with
          | some e, some o, some d =>
            some ⟨s.zero, { s.data with edges := some (shift s.zero e), rayOrigins := some (shift s.zero o), rayDirections := some d }⟩
          | _, _, _ => none
    | _ => none

/-- The poly file (data.py:176-182). -/
def readPoly [Zero K] (dbl : Tok → Option K) (text : Text) (s : State K) : Option (State K) :=
  (readVertices dbl (tokens (removeComments text)) s).bind fun r =>
  (readSegments r.1 r.2).bind fun r =>
  (readHoles dbl r.1 r.2).bind fun r =>
  if r.1 = [] then some r.2 else readRegions dbl r.1 r.2

/-- The six texts; an empty text counts as none (data.py:170-190). -/
structure Files where
  node : Text := []
  ele : Text := []
  poly : Text := []
  area : Text := []
  edge : Text := []
  neigh : Text := []

def given {α : Type} (t : Text) (f : Text → α → Option α) (a : α) : Option α := if t = [] then some a else f t a

/-- `loads` (data.py:15-192). -/
def loads [Zero K] (dbl : Tok → Option K) (f : Files) : Option (Data K) :=
  (given f.node (fun t s => (readVertices dbl (tokens (removeComments t)) s).map Prod.snd) {}).bind fun s =>
  (given f.ele (fun t s => readEle dbl (tokens (removeComments t)) s) s).bind fun s =>
  (given f.poly (readPoly dbl) s).bind fun s =>
  (given f.area (fun t s => readArea dbl (tokens (removeComments t)) s) s).bind fun s =>
  (given f.edge (fun t s => readEdge dbl (removeComments t) s) s).bind fun s =>
  (given f.neigh (fun t s => readNeigh (tokens (removeComments t)) s) s).map State.data

/-! ## Hand-over to the library -/

/-- The names of tri.py:4-25. -/
def terms : List (String × String) :=
  [("pointlist", "vertices"), ("pointattributelist", "vertex_attributes"), ("pointmarkerlist", "vertex_markers"),
   ("trianglelist", "triangles"), ("trianglearealist", "triangle_max_area"), ("triangleattributelist", "triangle_attributes"),
   ("segmentlist", "segments"), ("segmentmarkerlist", "segment_markers"), ("holelist", "holes"), ("regionlist", "regions"),
   ("neighborlist", "neighbors"), ("edgelist", "edges"), ("edgemarkerlist", "edge_markers")]

/-- `{translate_inv[_]: tri[_] for _ in tri}` (tri.py:81); an unknown key raises `KeyError`. -/
def toC {α : Type} (d : List (String × α)) : Option (List (String × α)) :=
  d.mapM fun kv => (terms.find? fun t => t.2 = kv.1).map fun t => (t.1, kv.2)

/-- `{translate_frw[_]: tri[_] for _ in tri}` (tri.py:85). -/
def fromC {α : Type} (d : List (String × α)) : Option (List (String × α)) :=
  d.mapM fun kv => (terms.find? fun t => t.1 = kv.1).map fun t => (t.2, kv.2)

inductive DType | double | intc
  deriving DecidableEq

/-- Where the number of columns of an array is stored: one of the constants 1–4 or a counter of the struct. -/
inductive Width | const (n : Nat) | counter (name : String)
  deriving DecidableEq

/-- One row of `_wrap` together with the `fields` (core.pyx:121-163): name, dtype it is converted to, dtype of the buffer, counter of the
rows, width. -/
structure Field where
  name : String
  dtype : DType
  buffer : DType
  rows : String
  width : Width

def fields : List Field :=
  [⟨"pointlist", .double, .double, "numberofpoints", .const 2⟩,
   ⟨"pointattributelist", .double, .double, "numberofpoints", .counter "numberofpointattributes"⟩,
   ⟨"pointmarkerlist", .intc, .intc, "numberofpoints", .const 1⟩,
   ⟨"trianglelist", .intc, .intc, "numberoftriangles", .counter "numberofcorners"⟩,
   ⟨"triangleattributelist", .double, .double, "numberoftriangles", .counter "numberoftriangleattributes"⟩,
   ⟨"trianglearealist", .double, .double, "numberoftriangles", .const 1⟩,
   ⟨"neighborlist", .double, .intc, "numberoftriangles", .const 3⟩,
   ⟨"segmentlist", .intc, .intc, "numberofsegments", .const 2⟩,
   ⟨"segmentmarkerlist", .intc, .intc, "numberofsegments", .const 1⟩,
   ⟨"holelist", .double, .double, "numberofholes", .const 2⟩,
   ⟨"regionlist", .double, .double, "numberofregions", .const 4⟩,
   ⟨"edgelist", .intc, .intc, "numberofedges", .const 2⟩,
   ⟨"edgemarkerlist", .intc, .intc, "numberofedges", .const 1⟩,
   ⟨"normlist", .double, .double, "numberofedges", .const 2⟩]

/-- The counters of the struct. -/
abbrev Counters := String → Nat

/-- `_set` of a field for an array of shape `(r, c)` (core.pyx:72-76, 92-96, 115-119): a buffer of the wrong type and a width other than the
constant raise.  (`&arr[0, 0]` of an empty array does not: bounds are not checked, build.py:258.) -/
def setField (f : Field) (shape : Nat × Nat) (c : Counters) : Option Counters :=
  if f.dtype ≠ f.buffer then none
  else
    let c := fun k => if k = f.rows then shape.1 else c k
    match f.width with
    | .const n => if shape.2 = n then some c else none
    | .counter name => some fun k => if k = name then shape.2 else c k

/-- `fin` (core.pyx:217-221) on the shapes of the arrays of the dictionary. -/
def fin (d : String → Option (Nat × Nat)) : Option Counters :=
  fields.foldl (fun c f => c.bind fun c => match d f.name with | none => some c | some s => setField f s c) (some fun _ => 0)

end Verif.Tri
