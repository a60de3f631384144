import Mathlib.Algebra.Order.Field.Basic
import Mathlib.Algebra.BigOperators.Group.List.Basic
import Mathlib.Data.Fin.VecNotation
import Mathlib.Data.List.FinRange

/-!
# Model of mmcore/geom/implicit/tree

Quadtree / octree construction and collapsing (`collapse2d.py`, `collapse3d.py`,
`cbuild_tree3d.pyx`), the `ImplicitTree2D` / `ImplicitTree3D` wrappers (`tree2d.py`, `tree3d.py`)
and the adaptive octree (`octree.py`, `utils.py`).

Numbers are elements of an ordered field.  The two dimensional and the three dimensional code are
the same program up to the number of children, so the tree type has `n` children (`n = 4` with
fields `a b c d`, `n = 8` with fields `a .. h`), indexed in the order of the fields.
-/

namespace Verif.ImplTree

/-- `Leaf`, `Root`, `Empty`, `Full` (collapse2d.py:22-75; cbuild_tree3d.pyx:7-40).  The optional
`node=None` of `Empty`/`Full` is never used by the library and is not modelled. -/
inductive T (n : Nat) (β : Type) where
  | leaf (data : β)
  | root (ch : Fin n → T n β)
  | empty (node : T n β)
  | full (node : T n β)

variable {n : Nat} {β : Type}

/-- `isinstance(t, Empty)`. -/
def T.isEmpty : T n β → Bool
  | .empty _ => true
  | _ => false

/-- `isinstance(t, Full)`. -/
def T.isFull : T n β → Bool
  | .full _ => true
  | _ => false

/-- `reduce` (collapse2d.py:35-36, 47-48, 59-61, 74-75). -/
def T.reduce : T n β → T n β
  | .leaf d => .leaf d
  | .root ch => .root (fun i => (ch i).reduce)
  | .empty t => t.reduce
  | .full t => t.reduce

/-- `build_tree2d` (collapse2d.py:81-95) and `_build_tree3d` (cbuild_tree3d.pyx:54-75);
`sp b j` is the box handed to the `j`-th recursive call. -/
def buildTree (sp : β → Fin n → β) : Nat → β → T n β
  | 0, b => .leaf b
  | i + 1, b => .root (fun j => buildTree sp i (sp b j))

/-- `collapse2d` (collapse2d.py:98-191) and `collapse3d` (collapse3d.py:113-180).  `vals b` is the
list `values` of the shape at the corners of the leaf. -/
def collapse {K : Type} [Zero K] [LT K] [DecidableLT K] [LE K] [DecidableLE K]
    (vals : β → List K) : T n β → T n β
  | .leaf d =>
      if (vals d).all (fun v => decide (v < 0)) then .full (.leaf d)
      else if (vals d).all (fun v => decide (v ≥ 0)) then .empty (.leaf d)
      else .leaf d
  | .root ch =>
      if (List.finRange n).all (fun i => (collapse vals (ch i)).isEmpty) then .empty (.root ch)
      else if (List.finRange n).all (fun i => (collapse vals (ch i)).isFull) then .full (.root ch)
      else .root (fun i => collapse vals (ch i))
  | t => t

/-- The three lists of an `ImplicitTree2D` / `ImplicitTree3D` (tree2d.py:11-13, tree3d.py:8-10). -/
structure Lists (β : Type) where
  full : List β
  empty : List β
  border : List β

/-- `build_node` (tree2d.py:40-56, tree3d.py:39-60): walks the collapsed tree, recomputing the box
of each node by halving, and appends to the lists. -/
def buildNode (sp : β → Fin n → β) : T n β → β → Lists β → Lists β
  | .empty _, q, s => { s with empty := s.empty ++ [q] }
  | .full _, q, s => { s with full := s.full ++ [q] }
  | .leaf _, q, s => { s with border := s.border ++ [q] }
  | .root ch, q, s => (List.finRange n).foldl (fun s i => buildNode sp (ch i) (sp q i) s) s

/-- `clear` (tree2d.py:27-30, tree3d.py:26-29). -/
def Lists.clear (s : Lists β) : Lists β := { s with full := [], empty := [], border := [] }

/-- `ImplicitTree3D.build` (tree3d.py:31-37): `clear`, `build_tree`, `collapse`, then `build_node`
from `self.bounds`. -/
def build3 {K : Type} [Zero K] [LT K] [DecidableLT K] [LE K] [DecidableLE K]
    (sp : β → Fin n → β) (vals : β → List K) (bounds : β) (depth : Nat) (s : Lists β) : Lists β :=
  buildNode sp (collapse vals (buildTree sp depth bounds)) bounds s.clear

/-- `ImplicitTree2D.build` (tree2d.py:32-38): as above, but `build_node` starts from
`self.shape.bounds()`, not from `self.bounds`. -/
def build2 {K : Type} [Zero K] [LT K] [DecidableLT K] [LE K] [DecidableLE K]
    (sp : β → Fin n → β) (vals : β → List K) (bounds shapeBounds : β) (depth : Nat)
    (s : Lists β) : Lists β :=
  buildNode sp (collapse vals (buildTree sp depth bounds)) shapeBounds s.clear

section Boxes

variable {K : Type} [Field K] [LinearOrder K]

/-- A cell `((xmin, ymin), (xmax, ymax))`. -/
abbrev Q (K : Type) := (K × K) × (K × K)

/-- A cell `((xmin, ymin, zmin), (xmax, ymax, zmax))`. -/
abbrev B (K : Type) := (K × K × K) × (K × K × K)

/-- The boxes of the recursive calls of `build_tree2d` (collapse2d.py:85-93) and of `build_node`
(tree2d.py:49-56), in the order `a b c d`. -/
def quadSplit : Q K → Fin 4 → Q K
  | ((xmin, ymin), (xmax, ymax)) =>
    let xmid := (xmin + xmax) / 2
    let ymid := (ymin + ymax) / 2
    ![((xmin, ymin), (xmid, ymid)), ((xmid, ymin), (xmax, ymid)),
      ((xmin, ymid), (xmid, ymax)), ((xmid, ymid), (xmax, ymax))]

/-- The boxes of the recursive calls of `_build_tree3d` (cbuild_tree3d.pyx:59-73) and of
`build_node` (tree3d.py:48-60), in the order `a .. h`. -/
def octSplit : B K → Fin 8 → B K
  | ((xmin, ymin, zmin), (xmax, ymax, zmax)) =>
    let xmid := (xmin + xmax) / 2
    let ymid := (ymin + ymax) / 2
    let zmid := (zmin + zmax) / 2
    ![((xmin, ymin, zmin), (xmid, ymid, zmid)), ((xmid, ymin, zmin), (xmax, ymid, zmid)),
      ((xmin, ymid, zmin), (xmid, ymax, zmid)), ((xmid, ymid, zmin), (xmax, ymax, zmid)),
      ((xmin, ymin, zmid), (xmid, ymid, zmax)), ((xmid, ymin, zmid), (xmax, ymid, zmax)),
      ((xmin, ymid, zmid), (xmid, ymax, zmax)), ((xmid, ymid, zmid), (xmax, ymax, zmax))]

/-- `values` of a quadtree leaf (collapse2d.py:153-154). -/
def vals2 (shape : K × K → K) : Q K → List K
  | ((xmin, ymin), (xmax, ymax)) =>
    [shape (xmin, ymin), shape (xmin, ymax), shape (xmax, ymin), shape (xmax, ymax)]

/-- `values` of an octree leaf (collapse3d.py:128-129). -/
def vals3 (shape : K × K × K → K) : B K → List K
  | ((xmin, ymin, zmin), (xmax, ymax, zmax)) =>
    [shape (xmin, ymin, zmin), shape (xmin, ymin, zmax), shape (xmin, ymax, zmin),
     shape (xmin, ymax, zmax), shape (xmax, ymin, zmin), shape (xmax, ymin, zmax),
     shape (xmax, ymax, zmin), shape (xmax, ymax, zmax)]

/-! ## The adaptive octree -/

/-- `divide_xyz` (utils.py:26-37). -/
def divideXyz (mn mx c : K × K × K) : List (B K) :=
  [(mn, c),
   ((c.1, mn.2.1, mn.2.2), (mx.1, c.2.1, c.2.2)),
   ((c.1, c.2.1, mn.2.2), (mx.1, mx.2.1, c.2.2)),
   ((mn.1, c.2.1, mn.2.2), (c.1, mx.2.1, c.2.2)),
   ((mn.1, mn.2.1, c.2.2), (c.1, c.2.1, mx.2.2)),
   ((c.1, mn.2.1, c.2.2), (mx.1, c.2.1, mx.2.2)),
   (c, mx),
   ((mn.1, c.2.1, c.2.2), (c.1, mx.2.1, mx.2.2))]

/-- `divide("x", ..)` (utils.py:40-47). -/
def divideX (mn mx c : K × K × K) : List (B K) :=
  [(mn, (c.1, mx.2.1, mx.2.2)), ((c.1, mn.2.1, mn.2.2), mx)]

/-- `divide("y", ..)` (utils.py:40-47). -/
def divideY (mn mx c : K × K × K) : List (B K) :=
  [(mn, (mx.1, c.2.1, mx.2.2)), ((mn.1, c.2.1, mn.2.2), mx)]

/-- `divide("z", ..)` (utils.py:40-47). -/
def divideZ (mn mx c : K × K × K) : List (B K) :=
  [(mn, (mx.1, mx.2.1, c.2.2)), ((mn.1, mn.2.1, c.2.2), mx)]

/-- `divide_two("xy", ..)` (utils.py:49-61). -/
def divideXy (mn mx c : K × K × K) : List (B K) :=
  [(mn, (c.1, c.2.1, mx.2.2)), ((c.1, mn.2.1, mn.2.2), (mx.1, c.2.1, mx.2.2)),
   ((c.1, c.2.1, mn.2.2), mx), ((mn.1, c.2.1, mn.2.2), (c.1, mx.2.1, mx.2.2))]

/-- `divide_two("xz", ..)` (utils.py:49-61). -/
def divideXz (mn mx c : K × K × K) : List (B K) :=
  [(mn, (c.1, mx.2.1, c.2.2)), ((c.1, mn.2.1, mn.2.2), (mx.1, mx.2.1, c.2.2)),
   ((c.1, mn.2.1, c.2.2), mx), ((mn.1, mn.2.1, c.2.2), (c.1, mx.2.1, mx.2.2))]

/-- `divide_two("yz", ..)` (utils.py:49-61). -/
def divideYz (mn mx c : K × K × K) : List (B K) :=
  [(mn, (mx.1, c.2.1, c.2.2)), ((mn.1, mn.2.1, c.2.2), (mx.1, c.2.1, mx.2.2)),
   ((mn.1, c.2.1, c.2.2), mx), ((mn.1, c.2.1, mn.2.2), (mx.1, mx.2.1, c.2.2))]

/-- `find_division_option` (utils.py:63-75).  With no dimension above the target the function
returns `None`; `create_octree` does not call it in that case. -/
def findDivision (mn mx c dims target : K × K × K) : List (B K) :=
  match decide (dims.1 > target.1), decide (dims.2.1 > target.2.1),
    decide (dims.2.2 > target.2.2) with
  | true, false, false => divideX mn mx c
  | false, true, false => divideY mn mx c
  | false, false, true => divideZ mn mx c
  | true, true, false => divideXy mn mx c
  | true, false, true => divideXz mn mx c
  | false, true, true => divideYz mn mx c
  | true, true, true => divideXyz mn mx c
  | false, false, false => []

/-- `divide_2d` / `find_division_option_2d` (utils.py:79-91); no key for the empty string, a
`KeyError`, is `none`. -/
def findDivision2 (mn mx c dims target : K × K) : Option (List (Q K)) :=
  match decide (dims.1 > target.1), decide (dims.2 > target.2) with
  | true, false => some [(mn, (c.1, mx.2)), ((c.1, mn.2), mx)]
  | false, true => some [(mn, (mx.1, c.2)), ((mn.1, c.2), mx)]
  | true, true => some [(mn, c), ((c.1, mn.2), (mx.1, c.2)), (c, mx), ((mn.1, c.2), (c.1, mx.2))]
  | false, false => none

/-- `OCNode` (octree.py:13-25): `min`, `max`, the `lamp` flag (set or `None`; its value is always
the node's centre) and the children.  `parent` is not modelled; `dims` and `center` are functions
of `min` and `max`. -/
inductive Oc (K : Type) where
  | node (b : B K) (lamp : Bool) (child : List (Oc K))

/-- `dims` (octree.py:21-22); `rnd` is `round(·, 4)`. -/
def dims (rnd : K → K) (b : B K) : K × K × K :=
  (rnd (b.2.1 - b.1.1), rnd (b.2.2.1 - b.1.2.1), rnd (b.2.2.2 - b.1.2.2))

/-- `center` (octree.py:23). -/
def center (rnd : K → K) (b : B K) : K × K × K :=
  (b.1.1 + (dims rnd b).1 / 2, b.1.2.1 + (dims rnd b).2.1 / 2, b.1.2.2 + (dims rnd b).2.2 / 2)

/-- `create_octree` (octree.py:134-145) on a node that already has the children `old` and the lamp
`l`; `none` when the recursion is deeper than the fuel. -/
def create (rnd : K → K) (target : K × K × K) :
    Nat → B K → Bool → List (Oc K) → Option (Oc K)
  | 0, _, _, _ => none
  | k + 1, b, l, old =>
    let d := dims rnd b
    if d.1 ≤ target.1 ∧ d.2.1 ≤ target.2.1 ∧ d.2.2 ≤ target.2.2 then some (.node b true old)
    else
      ((findDivision b.1 b.2 (center rnd b) d target).mapM
        (fun x => create rnd target k x false [])).map (fun cs => .node b l (old ++ cs))

/-- `contains_point` (octree.py:92-94). -/
def containsPoint (b : B K) (p : K × K × K) : Bool :=
  decide (b.2.1 ≥ p.1) && decide (p.1 ≥ b.1.1) && decide (b.2.2.1 ≥ p.2.1) &&
    decide (p.2.1 ≥ b.1.2.1) && decide (b.2.2.2 ≥ p.2.2) && decide (p.2.2 ≥ b.1.2.2)

/-- `overlap` (octree.py:56-72). -/
def overlap (b m : B K) : Bool :=
  if m.1.1 - b.2.1 > 0 ∨ m.1.2.1 - b.2.2.1 > 0 ∨ m.1.2.2 - b.2.2.2 > 0 then false
  else if b.1.1 - m.2.1 > 0 ∨ b.1.2.1 - m.2.2.1 > 0 ∨ b.1.2.2 - m.2.2.2 > 0 then false
  else true

/-- `in_bbox` (octree.py:74-81). -/
def inBbox (b m : B K) : Bool :=
  decide (m.1.1 ≤ b.1.1) && decide (m.1.2.1 ≤ b.1.2.1) && decide (m.1.2.2 ≤ b.1.2.2) &&
    decide (m.2.1 ≥ b.2.1) && decide (m.2.2.1 ≥ b.2.2.1) && decide (m.2.2.2 ≥ b.2.2.2)

/-- `contains_bbox` (octree.py:83-90). -/
def containsBbox (b m : B K) : Bool :=
  decide (b.1.1 ≤ m.1.1) && decide (b.1.2.1 ≤ m.1.2.1) && decide (b.1.2.2 ≤ m.1.2.2) &&
    decide (b.2.1 ≥ m.2.1) && decide (b.2.2.1 ≥ m.2.2.1) && decide (b.2.2.2 ≥ m.2.2.2)

mutual
/-- `closest_node` (octree.py:113-122): the box of the node that is returned. -/
def closestNode (p : K × K × K) : Oc K → Option (B K)
  | .node b _ ch =>
    if containsPoint b p then
      match ch with
      | [] => some b
      | c :: cs => closestIn p (c :: cs)
    else none
/-- The `for child in head.child` loop of `closest_node` (octree.py:116-119). -/
def closestIn (p : K × K × K) : List (Oc K) → Option (B K)
  | [] => none
  | c :: cs => match closestNode p c with
    | some r => some r
    | none => closestIn p cs
end

/-- `create_children` with an even count (octree.py:47-54) on a node with children `old`. -/
def createChildren (rnd : K → K) (b : B K) (old : List (Oc K)) : Oc K :=
  .node b false (old ++ (divideXyz b.1 b.2 (center rnd b)).map (fun x => .node x true []))

mutual
/-- `traverse` (octree.py:127-132). -/
def traverse (rnd : K → K) : Oc K → Oc K
  | .node b true ch => createChildren rnd b ch
  | .node b false ch => .node b false (traverseList rnd ch)
/-- The list comprehension of `traverse` (octree.py:132). -/
def traverseList (rnd : K → K) : List (Oc K) → List (Oc K)
  | [] => []
  | c :: cs => traverse rnd c :: traverseList rnd cs
end

end Boxes

/-- `int.bit_length`: the number of binary digits of the absolute value. -/
def bitLength (x : Int) : Nat := if x.natAbs = 0 then 0 else Nat.log2 x.natAbs + 1

/-- `power_of_two` (utils.py:2-4). -/
def powerOfTwo (x : Int) : Nat := 1 <<< bitLength (x - 1)

end Verif.ImplTree
