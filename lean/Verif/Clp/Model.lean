import Verif.Poly.Model

/-!
# Model of the boolean operations on polygons (`Vertex`, `Polygon.clip`) in `mmcore/geom/polygon.py`

The vertices are objects on a heap, the attributes `next`, `previous` and `neighbour` are addresses; a polygon is the address of its
head.  Loops take fuel, `none` means that the fuel is used up (or, for `nb`, `AttributeError`).  A new vertex has itself as `next` and
`previous` instead of `None`; these are not read before they are set.  `intersect` is the model in `Poly/Model.lean`; coordinates are
exact.
-/

namespace Verif.Clp
open Verif.Poly
variable {K : Type} [Field K] [LinearOrder K]

/-- `Vertex` (polygon.py:151-164). -/
structure Node (K : Type) where
  pos : K × K
  z : K
  next : Nat
  prev : Nat
  nb : Option Nat
  entry : Bool
  alpha : K
  inter : Bool
  checked : Bool

/-- A point in space. -/
abbrev Pt (K : Type) := (K × K) × K

/-- The vertex that an unused address holds, and `Vertex(vertex, alpha, intersect, entry)` (polygon.py:151-164) at address `a`. -/
def newNode (a : Nat) (p : Pt K) (alpha : K) (inter entry : Bool) : Node K :=
  { pos := p.1, z := p.2, next := a, prev := a, nb := none, entry := entry, alpha := alpha, inter := inter, checked := false }

/-- The heap: the last entry for an address counts. -/
structure Heap (K : Type) where
  cells : List (Nat × Node K)

def Heap.get (h : Heap K) (a : Nat) : Node K :=
  match h.cells.find? fun c => c.1 == a with
  | some c => c.2
  | none => newNode a ((0, 0), 0) 0 false true

instance : CoeFun (Heap K) (fun _ => Nat → Node K) := ⟨Heap.get⟩

def Heap.upd (h : Heap K) (a : Nat) (n : Node K) : Heap K := ⟨(a, n) :: h.cells⟩

/-- The heap and the first address that is not used. -/
structure St (K : Type) where
  heap : Heap K
  size : Nat

def setNext (h : Heap K) (a b : Nat) : Heap K := h.upd a { h a with next := b }
def setPrev (h : Heap K) (a b : Nat) : Heap K := h.upd a { h a with prev := b }
def setNb (h : Heap K) (a b : Nat) : Heap K := h.upd a { h a with nb := some b }
def setEntry (h : Heap K) (a : Nat) (e : Bool) : Heap K := h.upd a { h a with entry := e }
def mark (h : Heap K) (a : Nat) : Heap K := h.upd a { h a with checked := true }

/-- The coordinates of a vertex. -/
def pt (h : Heap K) (a : Nat) : Pt K := ((h a).pos, (h a).z)

/-- `Polygon.add` (polygon.py:251-263): the heap and the head. -/
def add (h : Heap K) (head : Option Nat) (v : Nat) : Heap K × Nat :=
  match head with
  | none => (setPrev (setNext h v v) v v, v)
  | some n =>
    let p := (h n).prev
    (setNext (setPrev (setNext (setPrev h n v) v n) v p) p v, n)

/-- `Polygon(pts)`, `clip_polygon` (polygon.py:246-249, 577-581): a vertex for every point. -/
def build (st : St K) (head : Option Nat) : List (Pt K) → St K × Option Nat
  | [] => (st, head)
  | p :: l =>
    let r := add (st.heap.upd st.size (newNode st.size p 0 false true)) head st.size
    build ⟨r.1, st.size + 1⟩ (some r.2) l

/-- The search of `Polygon.insert` (polygon.py:275-277). -/
def seek (h : Heap K) (a : K) (e : Nat) : Nat → Nat → Option Nat
  | 0, _ => none
  | f + 1, c => if c ≠ e ∧ (h c).alpha < a then seek h a e f (h c).next else some c

/-- The links of `Polygon.insert` (polygon.py:279-283). -/
def link (h : Heap K) (v c : Nat) : Heap K :=
  let h1 := setNext h v c
  let p := (h1 c).prev
  setPrev (setNext (setPrev h1 v p) p v) c v

/-- `Polygon.insert` (polygon.py:265-283). -/
def insertV (fuel : Nat) (h : Heap K) (v s e : Nat) : Option (Heap K) :=
  (seek h (h v).alpha e fuel s).map (link h v)

/-- `Polygon.next` (polygon.py:285-290). -/
def nextPlain (h : Heap K) : Nat → Nat → Option Nat
  | 0, _ => none
  | f + 1, c => if (h c).inter then nextPlain h f (h c).next else some c

/-- The two new vertices of a crossing (polygon.py:442-445). -/
def twoNodes (st : St K) (i : K × K) (us uc : K) : Heap K :=
  let h1 := st.heap.upd st.size (newNode st.size (i, 0) us true false)
  let h2 := h1.upd (st.size + 1) (newNode (st.size + 1) (i, 0) uc true false)
  setNb (setNb h2 st.size (st.size + 1)) (st.size + 1) st.size

/-- The body of phase one for two vertices that are no crossings (polygon.py:439-450, 497-499). -/
def cross (fuel : Nat) (st : St K) (s c : Nat) : Option (St K) :=
  match nextPlain st.heap fuel (st.heap s).next, nextPlain st.heap fuel (st.heap c).next with
  | some s2, some c2 =>
    match intersect (st.heap s).pos (st.heap s2).pos (st.heap c).pos (st.heap c2).pos with
    | none => some st
    | some (i, us, uc) =>
      let h := twoNodes st i us uc
      match nextPlain h fuel (h s).next with
      | none => none
      | some e =>
        match insertV fuel h st.size s e with
        | none => none
        | some h1 =>
          match nextPlain h1 fuel (h1 c).next with
          | none => none
          | some f => (insertV fuel h1 (st.size + 1) c f).map fun h2 => ⟨h2, st.size + 2⟩
  | _, _ => none

/-- The loop over the vertices of the clip polygon (polygon.py:437-450, 509-516). -/
def loopC (fuel : Nat) (s hc : Nat) : Nat → St K → Nat → Option (St K)
  | 0, _, _ => none
  | f + 1, st, c =>
    match (if (st.heap c).inter then some st else cross fuel st s c) with
    | none => none
    | some st' => if (st'.heap c).next = hc then some st' else loopC fuel s hc f st' (st'.heap c).next

/-- The loop over the vertices of the subject polygon (polygon.py:435-450, 509-516). -/
def loopS (fuel : Nat) (hs hc : Nat) : Nat → St K → Nat → Option (St K)
  | 0, _, _ => none
  | f + 1, st, s =>
    match (if (st.heap s).inter then some st else loopC fuel s hc fuel st hc) with
    | none => none
    | some st' => if (st'.heap s).next = hs then some st' else loopS fuel hs hc f st' (st'.heap s).next

/-- Phase one (polygon.py:434-450). -/
def phase1 (fuel : Nat) (st : St K) (hs hc : Nat) : Option (St K) := loopS fuel hs hc fuel st hs

/-- The loop of `Vertex.isInside` (polygon.py:206-210): the number of crossings of the ray from `v`. -/
def windLoop (fuel : Nat) (h : Heap K) (v hd : Nat) : Nat → Nat → Nat → Option Nat
  | 0, _, _ => none
  | f + 1, q, n =>
    let n' := if (h q).inter then some n else
      (nextPlain h fuel (h q).next).map fun q2 =>
        if (intersect (h v).pos (1000000, (h v).pos.2) (h q).pos (h q2).pos).isSome then n + 1 else n
    match n' with
    | none => none
    | some k => if (h q).next = hd then some k else windLoop fuel h v hd f (h q).next k

/-- `Vertex.isInside` (polygon.py:196-212). -/
def isInside (fuel : Nat) (h : Heap K) (v hd : Nat) : Option Bool :=
  (windLoop fuel h v hd fuel hd 0).map fun n => decide (n % 2 ≠ 0)

/-- Setting the entry flags (polygon.py:454-457, 460-463). -/
def entryLoop (hd : Nat) : Nat → Heap K → Nat → Bool → Option (Heap K)
  | 0, _, _, _ => none
  | f + 1, h, s, e =>
    let h' := if (h s).inter then setEntry h s e else h
    if (h' s).next = hd then some h' else entryLoop hd f h' (h' s).next (if (h s).inter then !e else e)

/-- Phase two (polygon.py:452-463). -/
def phase2 (fuel : Nat) (h : Heap K) (hs hc : Nat) (sEntry cEntry : Bool) : Option (Heap K) :=
  match isInside fuel h hs hc with
  | none => none
  | some b =>
    match entryLoop hs fuel h hs (sEntry ^^ b) with
    | none => none
    | some h1 =>
      match isInside fuel h1 hc hs with
      | none => none
      | some b' => entryLoop hc fuel h1 hc (cEntry ^^ b')

/-- `unprocessed` and `head_intersect` (polygon.py:297-303, 317-322): the first crossing that is not checked. -/
def firstOpen (h : Heap K) (hd : Nat) : Nat → Nat → Option (Option Nat)
  | 0, _ => none
  | f + 1, v =>
    if (h v).inter ∧ (h v).checked = false then some (some v)
    else if (h v).next = hd then some none else firstOpen h hd f (h v).next

/-- `setChecked` (polygon.py:214-217). -/
def setChecked : Nat → Heap K → Nat → Option (Heap K)
  | 0, _, _ => none
  | f + 1, h, v =>
    let h1 := mark h v
    match (h1 v).nb with
    | none => some h1
    | some w => if (h1 w).checked = false then setChecked f h1 w else some h1

/-- The way to the next crossing (polygon.py:473-484): the crossing and the points so far. -/
def walk (h : Heap K) (fwd : Bool) : Nat → Nat → List (Pt K) → Option (Nat × List (Pt K))
  | 0, _, _ => none
  | f + 1, c, acc =>
    let c' := if fwd then (h c).next else (h c).prev
    if (h c').inter then some (c', acc ++ [pt h c']) else walk h fwd f c' (acc ++ [pt h c'])

/-- One clipped polygon (polygon.py:471-488).  `clipped.add` puts a vertex at the end (`build_more`). -/
def trace (fuel : Nat) : Nat → Heap K → Nat → List (Pt K) → Option (Heap K × List (Pt K))
  | 0, _, _, _ => none
  | f + 1, h, c, acc =>
    match setChecked fuel h c with
    | none => none
    | some h1 =>
      match walk h1 (h1 c).entry fuel c acc with
      | none => none
      | some (v, acc') =>
        match (h1 v).nb with
        | none => none
        | some w => if (h1 w).checked then some (h1, acc') else trace fuel f h1 w acc'

/-- The outer loop of phase three (polygon.py:466-490). -/
def pieces (fuel : Nat) (hs : Nat) : Nat → Heap K → List (List (Pt K)) → Option (Heap K × List (List (Pt K)))
  | 0, _, _ => none
  | f + 1, h, acc =>
    match firstOpen h hs fuel hs with
    | none => none
    | some none => some (h, acc)
    | some (some c) =>
      match trace fuel fuel h c [pt h c] with
      | none => none
      | some (h', l) => pieces fuel hs f h' (acc ++ [l])

/-- The points of a polygon in the order of `__iter__` (polygon.py:509-516). -/
def points (h : Heap K) (hd : Nat) : Nat → Nat → Option (List (Pt K))
  | 0, _ => none
  | f + 1, v =>
    if (h v).next = hd then some [pt h v] else (points h hd f (h v).next).map (pt h v :: ·)

/-- `Polygon.clip` (polygon.py:408-495): the heap afterwards and the polygons returned, as lists of points. -/
def clipSt (fuel : Nat) (st : St K) (hs hc : Nat) (sEntry cEntry : Bool) : Option (St K × List (List (Pt K))) :=
  match phase1 fuel st hs hc with
  | none => none
  | some st1 =>
    match phase2 fuel st1.heap hs hc sEntry cEntry with
    | none => none
    | some h2 =>
      match pieces fuel hs fuel h2 [] with
      | none => none
      | some (h3, []) => (points h3 hs fuel hs).map fun l => (⟨h3, st1.size⟩, [l])
      | some (h3, l) => some (⟨h3, st1.size⟩, l)

/-- The operations (polygon.py:324-331): `s_entry`, `c_entry`. -/
inductive Op where
  | union
  | intersection
  | difference

def Op.sEntry : Op → Bool
  | .union => false
  | .intersection => true
  | .difference => false

def Op.cEntry : Op → Bool
  | .union => false
  | .intersection => true
  | .difference => true

/-- Two new polygons (polygon.py:501-502, 574-581): the heap and the two heads; `none` for an empty polygon. -/
def twoPolys (S C : List (Pt K)) : Option (St K × Nat × Nat) :=
  let r1 := build (⟨⟨[]⟩, 0⟩ : St K) none S
  let r2 := build r1.1 none C
  match r1.2, r2.2 with
  | some hs, some hc => some (r2.1, hs, hc)
  | _, _ => none

/-- `clip_polygon` and the operators on two polygons (polygon.py:333-385, 572-587): new polygons from the points, then the
operation.  `none` also for a polygon without vertices (`AttributeError`). -/
def op (o : Op) (fuel : Nat) (S C : List (Pt K)) : Option (List (List (Pt K))) :=
  match twoPolys S C with
  | none => none
  | some (st, hs, hc) => (clipSt fuel st hs hc o.sEntry o.cEntry).map (·.2)

/-- Calling an operation twice on the same objects. -/
def twice (o : Op) (fuel : Nat) (S C : List (Pt K)) : Option (List (List (Pt K)) × List (List (Pt K))) :=
  match twoPolys S C with
  | none => none
  | some (st, hs, hc) =>
    match clipSt fuel st hs hc o.sEntry o.cEntry with
    | none => none
    | some (st', l) => (clipSt fuel st' hs hc o.sEntry o.cEntry).map fun r => (l, r.2)

end Verif.Clp
