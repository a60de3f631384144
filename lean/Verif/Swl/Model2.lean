import Verif.Swl.Model
import Verif.Pq.Model

/-!
# Model of the sweep: `SweepIntersector.findIntersections` of `mmcore/numeric/algorithms/sweep_line/sweep_intersector.py`

The X- and the Y-structure are lists of nodes in their order; a node has a number, so that `a == b` of two nodes is the equality of
the numbers.  The structures are skip lists of `skiplist.py`, here with one level: the heights of the nodes are random
(skiplist.py:4-5), one level is the run in which every height is one.  On a sorted structure the height does not matter to what a
scan finds.  `segQueue` is the heap of `Pq/Model.lean`.  The dictionaries `lastNode` and `assoc` are written and never decide
anything but that `assoc[s]` raises for a sentinel; only that is kept.  Loops have a bound on the number of rounds; `none` is an
exception, or the bound reached.
-/

namespace Verif.Swl

variable {K : Type} [Field K] [LinearOrder K]

/-- A node of the X-structure: a point and a node of the Y-structure. -/
structure XN (K : Type) where
  id : ℕ
  key : Pt K
  inf : Option ℕ
  deriving DecidableEq

/-- A node of the Y-structure: a segment and a node of the X-structure. -/
structure YN (K : Type) where
  id : ℕ
  key : Seg K
  inf : Option ℕ
  deriving DecidableEq

/-- The fields of a `SweepIntersector` (sweep_intersector.py:11-24), the class counters and the counter of nodes. -/
structure Sw (K : Type) where
  X : List (XN K)
  Y : List (YN K)
  queue : List (Seg K)
  next : Seg K
  /-- `original` (line 242): the index of the input by the number of the segment -/
  orig : List (ℕ × ℕ)
  /-- `interDic` -/
  inter : List ((ℕ × ℕ) × ℕ)
  /-- `isectDict`: what was appended, in this order, with the index of the input -/
  isect : List (ℕ × (K × K))
  pid : ℕ
  sid : ℕ
  nid : ℕ

/-- `_scan` (skiplist.py:72-91) on level 0 of the X-structure: how many nodes are passed. -/
def scanX (e : K) (p : Pt K) : List (XN K) → ℕ
  | [] => 0
  | x :: l => if Pt.compare e x.key p ≤ 0 then scanX e p l + 1 else 0

/-- The node found by `_scan` (skiplist.py:84-85). -/
def foundX (e : K) (p : Pt K) (l : List (XN K)) : Option (XN K) :=
  match scanX e p l with
  | 0 => none
  | n + 1 => (l[n]?).filter fun x => x.key.eqv e p

/-- `SortSeq.insert` of the X-structure (sortseq.py:4-17): the node. -/
def insertX (e : K) (w : Sw K) (p : Pt K) (inf : Option ℕ) : Sw K × ℕ :=
  match foundX e p w.X with
  | some x => ({ w with X := w.X.map fun y => if y.id = x.id then { y with inf := inf } else y }, x.id)
  | none =>
    let n := scanX e p w.X
    ({ w with X := w.X.take n ++ ⟨w.nid, p, inf⟩ :: w.X.drop n, nid := w.nid + 1 }, w.nid)

/-- `_scan` on level 0 of the Y-structure; a comparison may raise. -/
def scanY (pS : Pt K) (s : Seg K) : List (YN K) → Option ℕ
  | [] => some 0
  | y :: l => (Seg.compare pS y.key s).bind fun c => if c ≤ 0 then (scanY pS s l).map (· + 1) else some 0

/-- The node found by `_scan`. -/
def foundY (pS : Pt K) (s : Seg K) (l : List (YN K)) : Option (Option (YN K)) :=
  (scanY pS s l).bind fun n =>
    match n with
    | 0 => some none
    | n + 1 => match l[n]? with
      | none => some none
      | some y => (Seg.compare pS y.key s).map fun c => if c = 0 then some y else none

/-- The node with a number. -/
def Sw.node (w : Sw K) (i : ℕ) : Option (YN K) := w.Y.find? fun y => y.id = i

/-- Its place. -/
def Sw.place (w : Sw K) (i : ℕ) : Option ℕ := w.Y.findIdx? fun y => y.id = i

/-- `succ` (sortseq.py:19-28); using the `None` at the end raises. -/
def Sw.succ (w : Sw K) (i : ℕ) : Option (YN K) := (w.place i).bind fun n => w.Y[n + 1]?

/-- `pred` (sortseq.py:30-39). -/
def Sw.pred (w : Sw K) (i : ℕ) : Option (YN K) := (w.place i).bind fun n => if n = 0 then none else w.Y[n - 1]?

/-- `changeInf` (sortseq.py:41-46). -/
def Sw.changeInf (w : Sw K) (i : ℕ) (inf : Option ℕ) : Sw K :=
  { w with Y := w.Y.map fun y => if y.id = i then { y with inf := inf } else y }

/-- `delItem` of the Y-structure (sortseq.py:119-135). -/
def Sw.delItem (w : Sw K) (i : ℕ) : Sw K := { w with Y := w.Y.filter fun y => y.id ≠ i }

/-- `reverseItems(a, b)` (sortseq.py:137-156), for `a` not after `b`. -/
def Sw.reverseItems (w : Sw K) (a b : ℕ) : Option (Sw K) := do
  let i ← w.place a
  let j ← w.place b
  return { w with Y := w.Y.take i ++ ((w.Y.drop i).take (j + 1 - i)).reverse ++ (w.Y.drop i).drop (j + 1 - i) }

/-- `interDic[(i, j)] = x`. -/
def Sw.setInter (w : Sw K) (i j x : ℕ) : Sw K := { w with inter := ((i, j), x) :: w.inter.filter fun r => r.1 ≠ (i, j) }

/-- The two appends (sweep_intersector.py:291-294). -/
def Sw.record (e : K) (w : Sw K) (s : Seg K) (q : Pt K) : Option (Sw K) :=
  if !s.p1.eqv e q && !s.p2.eqv e q then
    (w.orig.lookup s.id).map fun i => { w with isect := w.isect ++ [(i, (q.x, q.y))] }
  else some w

/-- `computeIntersection` (sweep_intersector.py:267-294). -/
def Sw.computeIntersection (e : K) (w : Sw K) (sit0 : ℕ) : Option (Sw K) := do
  let y1 ← w.succ sit0
  let y0 ← w.node sit0
  if mayMeet y0.key y1.key then
    match w.inter.lookup (y0.key.id, y1.key.id) with
    | some it =>
      let w := w.changeInf sit0 (some it)
      return { w with inter := w.inter.filter fun r => r.1 ≠ (y0.key.id, y1.key.id) }
    | none =>
      match intersectionOfLines e w.pid y0.key y1.key with
      | none => return w
      | some q =>
        let r := insertX e { w with pid := w.pid + 1 } q (some sit0)
        let w := r.1.changeInf sit0 (some r.2)
        let w ← w.record e y0.key q
        w.record e y1.key q
  else return w

/-- The way up (sweep_intersector.py:110-111). -/
def Sw.walkUp (w : Sw K) (event : ℕ) : ℕ → ℕ → Option ℕ
  | 0, _ => none
  | n + 1, sit => (w.node sit).bind fun y => if y.inf = some event then (w.succ sit).bind fun z => Sw.walkUp w event n z.id else some sit

/-- The way down (sweep_intersector.py:122-139): the state and `sitPred`. -/
def walkDown (pS : Pt K) (event : ℕ) : ℕ → Sw K → ℕ → Option (Sw K × ℕ)
  | 0, _, _ => none
  | n + 1, w, sit => do
    let y ← w.node sit
    -- `self.assoc[s]` raises for a sentinel
    let _ ← w.orig.lookup y.key.id
    let z ← w.pred sit
    let w' := if pS.id = y.key.p2.id then w.delItem sit else w.changeInf sit none
    if z.inf = some event then walkDown pS event n w' z.id else some (w', z.id)

/-- The bundle (sweep_intersector.py:108-148): `sitSucc`, `sitPred`, `sitFirst`. -/
def bundle (pS : Pt K) (event : ℕ) (w : Sw K) (sit : ℕ) : Option (Sw K × ℕ × ℕ × ℕ) := do
  let top ← w.walkUp event (w.Y.length + 1) sit
  let y ← w.node top
  let z ← w.succ top
  let w := match y.inf with
    | some xit => w.setInter y.key.id z.key.id xit
    | none => w
  let (w, pred) ← walkDown pS event (w.Y.length + 1) w top
  let first ← w.succ pred
  if first.id ≠ z.id then
    let last ← w.pred z.id
    let w ← w.reverseItems first.id last.id
    return (w, z.id, pred, first.id)
  else return (w, z.id, pred, first.id)

/-- Order of the nodes of `segQueue` (priority_queue.py:12-13): by the start of the segment. -/
def segLt (e : K) (a b : Seg K) : Bool := decide (Pt.compare e a.p1 b.p1 < 0)

/-- `delMin` and the new `nextSeg` (sweep_intersector.py:183-184). -/
def Sw.advance (e : K) (w : Sw K) : Option (Sw K) := do
  let r ← Pq.delMin (segLt e) w.next w.queue
  let s ← Pq.minNode r.2
  return { w with queue := r.2, next := s }

/-- `sitSucc`, `sitPred`, `sitFirst`, or all `None`. -/
abbrev Marks := Option (ℕ × ℕ × ℕ)

/-- The insertions (sweep_intersector.py:151-184). -/
def insertAll (e : K) (pS : Pt K) : ℕ → Sw K → Marks → Option (Sw K × Marks)
  | 0, _, _ => none
  | n + 1, w, m =>
    if pS.id = w.next.p1.id then do
      let k ← scanY pS w.next w.Y
      let f ← foundY pS w.next w.Y
      -- `locate` (sortseq.py:55-61)
      let seg0 ← (if f.isSome then w.Y.head? else w.Y[k]?)
      let c ← Seg.compare pS w.next seg0.key
      if c ≠ 0 then
        -- `insertAt` (sortseq.py:96-117)
        let i ← w.place seg0.id
        let i := if c > 0 then i + 1 else i
        let w1 : Sw K := { w with Y := w.Y.take i ++ ⟨w.nid, w.next, none⟩ :: w.Y.drop i, nid := w.nid + 1 }
        let w2 := (insertX e w1 w.next.p2 (some w.nid)).1
        let m' ← (match m with
          | some m => some m
          | none => (w2.succ w.nid).bind fun z => (w2.pred w.nid).map fun p => (z.id, p.id, z.id))
        let w3 ← w2.advance e
        insertAll e pS n w3 (some m')
      else
        let p := seg0.key.p2
        let q := w.next.p2
        let w1 ← (if Pt.compare e p q < 0 then
            (w.orig.lookup w.next.id).map fun i =>
              { w with queue := Pq.insertNode (segLt e) w.next w.queue ⟨p, q, w.sid⟩, orig := (w.sid, i) :: w.orig, sid := w.sid + 1 }
          else some w)
        let w2 ← w1.advance e
        insertAll e pS n w2 m
    else some (w, m)

/-- The end of a round (sweep_intersector.py:191-208). -/
def Sw.close (e : K) (w : Sw K) (m : Marks) : Option (Sw K) :=
  match m with
  | none => some w
  | some (sitSucc, sitPred, sitFirst) => do
    let y ← w.node sitPred
    let w ← (match y.inf with
      | some xit => (w.node sitFirst).map fun z => (w.setInter y.key.id z.key.id xit).changeInf sitPred none
      | none => some w)
    let w ← w.computeIntersection e sitPred
    let sit ← w.pred sitSucc
    if sit.id ≠ sitPred then w.computeIntersection e sit.id else some w

/-- One round of the main loop (sweep_intersector.py:58-209) for the first event. -/
def Sw.round (e : K) (w : Sw K) (ev : XN K) : Option (Sw K) := do
  let (w, sit) ← (match ev.inf with
    | some s => some (w, some s)
    | none => (foundY ev.key ⟨ev.key, ev.key, w.sid⟩ w.Y).map fun f => ({ w with sid := w.sid + 1 }, f.map (·.id)))
  let (w, m) ← (match sit with
    | some s => (bundle ev.key ev.id w s).map fun r => (r.1, some r.2)
    | none => some (w, none))
  let (w, m) ← insertAll e ev.key (w.queue.length + 2) w m
  let w ← w.close e m
  return { w with X := w.X.filter fun x => x.id ≠ ev.id }

/-- The main loop (sweep_intersector.py:55-209). -/
def sweep (e : K) : ℕ → Sw K → Option (Sw K)
  | 0, _ => none
  | n + 1, w => match w.X with
    | [] => some w
    | ev :: _ => (w.round e ev).bind (sweep e n)

/-- One segment of the input (sweep_intersector.py:222-246). -/
def addSeg (e : K) (w : Sw K) (r : ((K × K) × (K × K)) × ℕ) : Sw K :=
  let a := insertX e { w with pid := w.pid + 1 } ⟨r.1.1.1, r.1.1.2, w.pid⟩ none
  let b := insertX e { a.1 with pid := a.1.pid + 1 } ⟨r.1.2.1, r.1.2.2, a.1.pid⟩ none
  let w := b.1
  if a.2 = b.2 then w
  else
    match w.X.find? (fun x => x.id = a.2), w.X.find? (fun x => x.id = b.2) with
    | some x, some y =>
      let s := mkSeg e x.key y.key w.sid
      { w with orig := (w.sid, r.2) :: w.orig, queue := Pq.insertNode (segLt e) s w.queue s, sid := w.sid + 1 }
    | _, _ => w

/-- `initializeStructures` (sweep_intersector.py:213-265); `inf` is `infinity`.  The lower sentinel is inserted below the upper one. -/
def initSweep (e inf : K) (segs : List ((K × K) × (K × K))) : Option (Sw K) := do
  let d : Seg K := ⟨⟨0, 0, 0⟩, ⟨0, 0, 0⟩, 0⟩
  let w := segs.zipIdx.foldl (addSeg e) ⟨[], [], [], d, [], [], [], 0, 0, 0⟩
  let lower : Seg K := ⟨⟨-inf, -inf, w.pid⟩, ⟨inf, -inf, w.pid + 1⟩, w.sid⟩
  let upper : Seg K := ⟨⟨-inf, inf, w.pid + 2⟩, ⟨inf, inf, w.pid + 3⟩, w.sid + 1⟩
  let stop : Pt K := ⟨inf, inf, w.pid + 4⟩
  let sStop : Seg K := ⟨stop, stop, w.sid + 2⟩
  let queue := Pq.insertNode (segLt e) sStop w.queue sStop
  let next ← Pq.minNode queue
  return { w with Y := [⟨w.nid, lower, none⟩, ⟨w.nid + 1, upper, none⟩], queue := queue, next := next, pid := w.pid + 5,
                  sid := w.sid + 3, nid := w.nid + 2 }

/-- `findIntersections` (sweep_intersector.py:26-211) up to `collectAndSortResult`: what is in `isectDict`.  `n` bounds the rounds. -/
def findIntersections (e : K) (n : ℕ) (segs : List ((K × K) × (K × K))) : Option (List (ℕ × (K × K))) := do
  let inf ← growAll n segs 1
  let w ← initSweep e inf segs
  let w ← sweep e n w
  return w.isect

end Verif.Swl
