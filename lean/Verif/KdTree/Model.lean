import Mathlib.Algebra.Ring.Defs
import Mathlib.Order.Defs.LinearOrder

/-!
# Model of `mmcore/ds/bkdtree.py` (class `BalancedKDTree`)

Points are lists of coordinates over an ordered ring `K` (exact arithmetic instead of `float`).
The rebalancing test is a parameter `unb : left size → right size → total → Bool`, so the theorems hold for any
rounding of `0.7 * total`; `unb07` is the exact reading of the code.  `list.sort(key=…)` is a stable sort.
`heapq` is modelled as a correct priority queue: the list sorted by the tuple order `(-dist, point)`.
Reading a coordinate that does not exist (`IndexError`) cannot happen under the dimension checks of the class except for
queries of a wrong length; `coord` then returns `0` and the theorems assume queries of the right length.
-/

namespace Verif.KdTree

variable {K : Type} [CommRing K] [LinearOrder K]

abbrev Point (K : Type) := List K

/-- `p[a]`. -/
def coord (p : Point K) (a : Nat) : K := p.getD a 0

/-- `KDNode` (bkdtree.py:60-79). -/
inductive Tree (K : Type) where
  | nil
  | node (point : Point K) (axis : Nat) (left right : Tree K) (size : Nat)
  deriving Repr, DecidableEq

/-- `node.size if node else 0`. -/
def size : Tree K → Nat
  | .nil => 0
  | .node _ _ _ _ s => s

/-- `_collect_points` (bkdtree.py:17-26): pre-order. -/
def collect : Tree K → List (Point K)
  | .nil => []
  | .node p _ l r _ => p :: (collect l ++ collect r)

/-- One step of a stable insertion sort by coordinate `a`. -/
def insertBy (a : Nat) (p : Point K) : List (Point K) → List (Point K)
  | [] => [p]
  | q :: qs => if coord p a ≤ coord q a then p :: q :: qs else q :: insertBy a p qs

/-- `points.sort(key=lambda x: x[axis])` (bkdtree.py:40). -/
def sortBy (a : Nat) : List (Point K) → List (Point K)
  | [] => []
  | p :: ps => insertBy a p (sortBy a ps)

/-- `_build_balanced(points, depth)` (bkdtree.py:29-48); `fuel` bounds the recursion depth and `points.length` suffices. -/
def buildF : Nat → Nat → List (Point K) → Tree K
  | 0, _, _ => .nil
  | fuel + 1, depth, pts =>
    match pts with
    | [] => .nil
    | p0 :: _ =>
      let axis := depth % p0.length
      let s := sortBy axis pts
      let m := pts.length / 2
      match s[m]? with
      | none => .nil
      | some p =>
        let l := buildF fuel (depth + 1) (s.take m)
        let r := buildF fuel (depth + 1) (s.drop (m + 1))
        .node p axis l r (size l + size r + 1)

def build (depth : Nat) (pts : List (Point K)) : Tree K := buildF pts.length depth pts

/-- `BalancedKDTree(points)` (bkdtree.py:81-93); `none` is `ValueError`. -/
def ofPoints (pts : List (Point K)) : Option (Tree K) :=
  match pts with
  | [] => some .nil
  | p0 :: _ => if pts.all (fun p => p.length == p0.length) then some (build 0 pts) else none

/-- `_is_unbalanced` with `alpha = 0.7` read exactly (bkdtree.py:95-111). -/
def unb07 (l r t : Nat) : Bool := decide (10 * l > 7 * t ∨ 10 * r > 7 * t)

/-- `_update_size(node)` followed by the rebalancing test (bkdtree.py:140-145, 229-235). -/
def finish (unb : Nat → Nat → Nat → Bool) (depth : Nat) (p : Point K) (a : Nat) (l r : Tree K) : Tree K :=
  let t := Tree.node p a l r (size l + size r + 1)
  if unb (size l) (size r) (size l + size r + 1) then build depth (collect t) else t

/-- `_insert_rec` (bkdtree.py:124-145). -/
def insertRec (unb : Nat → Nat → Nat → Bool) (q : Point K) : Nat → Tree K → Tree K
  | depth, .nil => .node q (depth % q.length) .nil .nil 1
  | depth, .node p a l r _ =>
    if coord q a ≤ coord p a then finish unb depth p a (insertRec unb q (depth + 1) l) r
    else finish unb depth p a l (insertRec unb q (depth + 1) r)

/-- `insert` (bkdtree.py:147-157); `none` is `ValueError`. -/
def insert (unb : Nat → Nat → Nat → Bool) (t : Tree K) (q : Point K) : Option (Tree K) :=
  match t with
  | .nil => some (.node q 0 .nil .nil 1)
  | .node p a l r s => if q.length ≠ p.length then none else some (insertRec unb q 0 (.node p a l r s))

/-- `min(candidates, key=…)`: first smallest. -/
def minBy (a : Nat) (p : Point K) : List (Point K) → Point K
  | [] => p
  | q :: qs => if coord q a < coord p a then minBy a q qs else minBy a p qs

/-- `_find_min` (bkdtree.py:159-182); only the point of the returned node is used. -/
def findMin (axis : Nat) : Tree K → Option (Point K)
  | .nil => none
  | .node p a l r _ =>
    if a = axis then
      match l with
      | .nil => some p
      | .node _ _ _ _ _ => findMin axis l
    else some (minBy axis p ((findMin axis l).toList ++ (findMin axis r).toList))

/-- `_delete_rec` (bkdtree.py:184-235).  The recursion follows the tree, one level per call. -/
def deleteRec (unb : Nat → Nat → Nat → Bool) : Nat → Tree K → Point K → Tree K
  | _, .nil, _ => .nil
  | depth, .node p a l r _, q =>
    if p = q then
      match r, l with
      | .node rp ra rl rr rs, l =>
        let m := (findMin a (.node rp ra rl rr rs)).getD p
        finish unb depth m a l (deleteRec unb (depth + 1) (.node rp ra rl rr rs) m)
      | .nil, .node lp la ll lr ls =>
        let m := (findMin a (.node lp la ll lr ls)).getD p
        finish unb depth m a (deleteRec unb (depth + 1) (.node lp la ll lr ls) m) .nil
      | .nil, .nil => .nil
    else if coord q a ≤ coord p a then finish unb depth p a (deleteRec unb (depth + 1) l q) r
    else finish unb depth p a l (deleteRec unb (depth + 1) r q)

/-- `delete` (bkdtree.py:237-245); `none` is `ValueError`. -/
def delete (unb : Nat → Nat → Nat → Bool) (t : Tree K) (q : Point K) : Option (Tree K) :=
  match t with
  | .nil => some .nil
  | .node p a l r s => if q.length ≠ p.length then none else some (deleteRec unb 0 (.node p a l r s) q)

/-- `_distance_sq` (bkdtree.py:247-249). -/
def distSq (p q : Point K) : K := ((p.zip q).map (fun c => (c.1 - c.2) ^ 2)).sum

/-- `best`: `none` is `(None, inf)`. -/
abbrev Best (K : Type) := Option (Point K × K)

/-- `x < best[1]`. -/
def ltBest (x : K) : Best K → Bool
  | none => true
  | some (_, d) => decide (x < d)

/-- `_nearest_rec` (bkdtree.py:251-279). -/
def nearestRec (target : Point K) : Tree K → Best K → Best K
  | .nil, best => best
  | .node p a l r _, best =>
    let d := distSq target p
    let best := if ltBest d best then some (p, d) else best
    let diff := coord target a - coord p a
    if diff ≤ 0 then
      let best := nearestRec target l best
      if ltBest (diff * diff) best then nearestRec target r best else best
    else
      let best := nearestRec target r best
      if ltBest (diff * diff) best then nearestRec target l best else best

/-- `nearest_neighbor` (bkdtree.py:281-291); `none` is `None`. -/
def nearest (t : Tree K) (target : Point K) : Option (Point K) :=
  match t with
  | .nil => none
  | .node p a l r s => (nearestRec target (.node p a l r s) none).map Prod.fst

/-- Tuple order of heap entries `(-dist, point)`, entries stored as `(dist, point)`. -/
def heapLe (x y : K × Point K) : Bool := decide (y.1 < x.1) || (decide (x.1 = y.1) && decide (x.2 ≤ y.2))

/-- `heappush`. -/
def push (x : K × Point K) : List (K × Point K) → List (K × Point K)
  | [] => [x]
  | y :: ys => if heapLe x y then x :: y :: ys else y :: push x ys

/-- `x < -heap[0][0]`; reading `heap[0]` of an empty heap raises `IndexError`. -/
def ltWorst (x : K) : List (K × Point K) → Option Bool
  | [] => none
  | (d, _) :: _ => some (decide (x < d))

/-- `_k_nearest_rec` (bkdtree.py:293-327). -/
def kNearestRec (target : Point K) (k : Nat) : Tree K → List (K × Point K) → Option (List (K × Point K))
  | .nil, heap => some heap
  | .node p a l r _, heap => do
    let d := distSq p target
    let heap ← (if heap.length < k then some (push (d, p) heap)
      else do
        let b ← ltWorst d heap
        some (if b then push (d, p) heap.tail else heap))
    let diff := coord target a - coord p a
    if diff ≤ 0 then do
      let heap ← kNearestRec target k l heap
      let b ← ltWorst (diff * diff) heap
      if b then kNearestRec target k r heap else some heap
    else do
      let heap ← kNearestRec target k r heap
      let b ← ltWorst (diff * diff) heap
      if b then kNearestRec target k l heap else some heap

/-- `k_nearest_neighbors` (bkdtree.py:329-349); `none` is an exception. -/
def kNearest (t : Tree K) (target : Point K) (k : Int) : Option (List (Point K)) :=
  match t with
  | .nil => some []
  | .node p a l r s =>
    if k ≤ 0 then some []
    else (kNearestRec target k.toNat (.node p a l r s) []).map (fun h => (h.map Prod.snd).reverse)

/-- Method calls that change the tree. -/
inductive Op (K : Type) where
  | insert (p : Point K)
  | delete (p : Point K)

/-- A caller that catches `ValueError`. -/
def step (unb : Nat → Nat → Nat → Bool) (t : Tree K) : Op K → Tree K
  | .insert p => (insert unb t p).getD t
  | .delete p => (delete unb t p).getD t

def run (unb : Nat → Nat → Nat → Bool) (t : Tree K) (ops : List (Op K)) : Tree K := ops.foldl (step unb) t

end Verif.KdTree
