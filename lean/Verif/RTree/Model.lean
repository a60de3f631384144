import Mathlib.Algebra.Ring.Defs
import Mathlib.Order.Defs.LinearOrder

/-!
# Model of `mmcore/ds/tree/rtree.py` (classes `Rectangle`, `Node`, `RStarTree`)

Entries are stored as `Node(is_leaf=True, mbr=rectangle)` without children and are modelled by the rectangle.
`Tree.leaf`/`Tree.inner` are the nodes with `is_leaf` true/false; both keep the cached `mbr` because the code reads the
cached value.  `none` results are exceptions (`AttributeError` on a `None` rectangle, `TypeError` when no distribution
exists).  Every node has one owner, so functional update is faithful; node comparison in the code is identity.
`_find_parent` (rtree.py:142-148) returns the node it is started at (the root) whenever the target lies anywhere below
it, so a split-off sibling is always attached to the root; the model attaches it there directly.
-/

namespace Verif.RTree

/-- `Rectangle` (rtree.py:166-171). -/
structure Rect (K : Type) where
  minx : K
  miny : K
  maxx : K
  maxy : K
  deriving DecidableEq, Repr

variable {K : Type} [CommRing K] [LinearOrder K]

/-- rtree.py:173-174. -/
def Rect.area (r : Rect K) : K := (r.maxx - r.minx) * (r.maxy - r.miny)

/-- rtree.py:176-177. -/
def Rect.perimeter (r : Rect K) : K := 2 * (r.maxx - r.minx + r.maxy - r.miny)

/-- rtree.py:179-181. -/
def Rect.intersect (a b : Rect K) : Bool :=
  !(decide (a.minx > b.maxx) || decide (a.maxy < b.miny) || decide (a.maxx < b.minx) || decide (a.miny > b.maxy))

/-- rtree.py:183-185. -/
def Rect.union (a b : Rect K) : Rect K :=
  ⟨min a.minx b.minx, min a.miny b.miny, max a.maxx b.maxx, max a.maxy b.maxy⟩

/-- `Node` (rtree.py:35-39). -/
inductive Tree (K : Type) where
  | leaf (mbr : Option (Rect K)) (entries : List (Rect K))
  | inner (mbr : Option (Rect K)) (children : List (Tree K))

/-- `node.mbr`. -/
def Tree.mbr : Tree K → Option (Rect K)
  | .leaf m _ => m
  | .inner m _ => m

/-- `_compute_mbr(children)` (rtree.py:136-140); also the loop of `update_mbr` (46-53) for a non-empty list. -/
def unionAll {α : Type} (mbr : α → Option (Rect K)) : List α → Option (Rect K)
  | [] => none
  | x :: xs => xs.foldl (fun acc y => acc.bind (fun a => (mbr y).map a.union)) (mbr x)

/-- Stable sort by an attribute of the rectangles; items without a rectangle raise. -/
def insertBy {α : Type} (key : α → K) (x : α) : List α → List α
  | [] => [x]
  | y :: ys => if key x ≤ key y then x :: y :: ys else y :: insertBy key x ys

def sortBy {α : Type} (key : α → K) : List α → List α
  | [] => []
  | x :: xs => insertBy key x (sortBy key xs)

/-- The distributions `range(min_children, k - min_children + 1)` (rtree.py:91, 130). -/
def cuts (m k : Nat) : List Nat := (List.range (k - m + 1)).drop m

/-- `_compute_margin` after its sort (rtree.py:130-134). -/
def margin {α : Type} (mbr : α → Option (Rect K)) (m : Nat) (xs : List α) : Option K :=
  (cuts m xs.length).foldl (fun acc i => do
    let a ← acc
    let l ← unionAll mbr (xs.take i)
    let r ← unionAll mbr (xs.drop i)
    some (a + (l.perimeter + r.perimeter))) (some 0)

/-- The loop over distributions (rtree.py:89-99). -/
def bestCut {α : Type} (mbr : α → Option (Rect K)) (xs : List α) : List Nat → Option (Nat × K) → Option (Option (Nat × K))
  | [], best => some best
  | i :: is, best => do
    let l ← unionAll mbr (xs.take i)
    let r ← unionAll mbr (xs.drop i)
    let a := l.area + r.area
    match best with
    | none => bestCut mbr xs is (some (i, a))
    | some (j, b) => if a < b then bestCut mbr xs is (some (i, a)) else bestCut mbr xs is (some (j, b))

/-- `_split_node` up to the two child lists (rtree.py:81-99), with the sorts done inside `_compute_margin` (129). -/
def split {α : Type} (mbr : α → Option (Rect K)) (m : Nat) (xs : List α) : Option (List α × List α) := do
  let kx := fun x => ((mbr x).map Rect.minx).getD 0
  let ky := fun x => ((mbr x).map Rect.miny).getD 0
  let s1 := sortBy kx xs
  let mx ← margin mbr m s1
  let s2 := sortBy ky s1
  let my ← margin mbr m s2
  let s3 := if mx ≤ my then sortBy kx s2 else sortBy ky s2
  let best ← bestCut mbr s3 (cuts m s3.length) none
  let (i, _) ← best
  some (s3.take i, s3.drop i)

/-- `_choose_leaf`'s loop (rtree.py:72-78): index of the first child with least enlargement. -/
def chooseLoop (r : Rect K) : List (Tree K) → Nat → Option (Nat × K) → Option (Option (Nat × K))
  | [], _, best => some best
  | c :: cs, i, best => do
    let b ← c.mbr
    let e := (b.union r).area - b.area
    match best with
    | none => chooseLoop r cs (i + 1) (some (i, e))
    | some (j, f) => if e < f then chooseLoop r cs (i + 1) (some (i, e)) else chooseLoop r cs (i + 1) (some (j, f))

/-- The descent of `insert` (rtree.py:62-66 with `_choose_leaf`, 68-79, and the leaf part of `_split_node`, 101-106).
Returns the rebuilt subtree and the node split off, if any.  The cached rectangles of inner nodes are *not* updated.
`fuel` bounds the depth. -/
def insertTree (M m : Nat) (r : Rect K) : Nat → Tree K → Option (Tree K × Option (Tree K))
  | 0, _ => none
  | _ + 1, .leaf _ es =>
    let es' := es ++ [r]
    if es'.length > M then do
      let (a, b) ← split some m es'
      some (.leaf (unionAll some a) a, some (.leaf (unionAll some b) b))
    else some (.leaf (unionAll some es') es', none)
  | f + 1, .inner mb cs => do
    let best ← chooseLoop r cs 0 none
    let (i, _) ← best
    let c ← cs[i]?
    let (c', sib) ← insertTree M m r f c
    some (.inner mb (cs.set i c'), sib)

/-- Attaching the split-off node (rtree.py:108-118). -/
def attach (M m : Nat) (root : Tree K) (sib : Tree K) : Option (Tree K) :=
  match root with
  | .leaf mb es => some (.inner none [.leaf mb es, sib])
  | .inner _ cs =>
    let cs' := cs ++ [sib]
    do
      let mb ← unionAll Tree.mbr cs'
      if cs'.length > M then do
        let (a, b) ← split Tree.mbr m cs'
        some (.inner none [.inner (unionAll Tree.mbr a) a, .inner (unionAll Tree.mbr b) b])
      else some (.inner (some mb) cs')

mutual
/-- Height of the node structure, used as fuel. -/
def depth : Tree K → Nat
  | .leaf _ _ => 1
  | .inner _ cs => depthL cs + 1
def depthL : List (Tree K) → Nat
  | [] => 0
  | c :: cs => max (depth c) (depthL cs)
end

/-- `insert(rectangle)` (rtree.py:62-66, 81-118). -/
def insert (M m : Nat) (t : Tree K) (r : Rect K) : Option (Tree K) := do
  let (t', sib) ← insertTree M m r (depth t) t
  match sib with
  | none => some t'
  | some s => attach M m t' s

/-- `RStarTree()` (rtree.py:57-60). -/
def empty : Tree K := .leaf none []

mutual
/-- `_search_subtree` (rtree.py:153-163). -/
def search (q : Rect K) : Tree K → Option (List (Rect K))
  | .leaf _ es => some (es.filter (fun e => e.intersect q))
  | .inner _ cs => searchL q cs
def searchL (q : Rect K) : List (Tree K) → Option (List (Rect K))
  | [] => some []
  | c :: cs =>
    match c.mbr with
    | none => none
    | some b =>
      if b.intersect q then
        match search q c, searchL q cs with
        | some a, some b => some (a ++ b)
        | _, _ => none
      else searchL q cs
end

/-- A history of inserts. -/
def run (M m : Nat) (t : Tree K) : List (Rect K) → Option (Tree K)
  | [] => some t
  | r :: rs => (insert M m t r).bind (fun t' => run M m t' rs)

mutual
/-- All stored rectangles. -/
def entries : Tree K → List (Rect K)
  | .leaf _ es => es
  | .inner _ cs => entriesL cs
def entriesL : List (Tree K) → List (Rect K)
  | [] => []
  | c :: cs => entries c ++ entriesL cs
end

end Verif.RTree
