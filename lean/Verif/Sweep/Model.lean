import Mathlib.Order.Defs.LinearOrder
import Mathlib.Logic.Function.Basic

/-!
# Model of the skip list of the sweep line: `mmcore/numeric/algorithms/sweep_line/skiplist.py` and `sortseq.py`

Objects are numbers: `0` is the head, `1` the tail, every new `SkipNode` gets the next number.  The lists `succ` and `prev` of
a node are the lists of the code.  `none` stands for an exception (`IndexError`, `StopIteration`) and, in the walks along a
level, for a walk that never ends: a walk of more steps than there are nodes visits a node twice.
-/

namespace Verif.Sweep

abbrev Id := Nat

/-- The head node (`self._head`, skiplist.py:50). -/
abbrev hd : Id := 0
/-- The tail node (`self._tail`, skiplist.py:49). -/
abbrev tl : Id := 1

/-- The keys: `None` of the head, `NIL()` of the tail (skiplist.py:9-33, 49-50), or a key of the user. -/
inductive SKey (K : Type)
  | none
  | nil
  | val (k : K)
  deriving DecidableEq

/-- The heap: the fields of all nodes (skiplist.py:36-40), how many were created, and `_size` (skiplist.py:53). -/
structure SL (K D : Type) where
  key : Id → SKey K
  data : Id → Option D
  succ : Id → List Id
  prev : Id → List Id
  alloc : Nat
  size : Int

variable {K D : Type} [LinearOrder K]

/-- `SkipList.__init__` (skiplist.py:47-53). -/
def empty : SL K D where
  key := fun a => if a = hd then .none else .nil
  data := fun _ => none
  succ := fun a => if a = hd then [tl] else []
  prev := fun a => if a = tl then [hd] else []
  alloc := 2
  size := 0

/-- `key_of_node <= key`: `NIL.__le__` is false (skiplist.py:20-21); the head is never asked. -/
def leKey : SKey K → K → Bool
  | .val a, k => decide (a ≤ k)
  | _, _ => false

/-- `key > key_of_node`: reflected to `NIL.__lt__`, false (skiplist.py:17-18). -/
def gtKey : SKey K → K → Bool
  | .val a, k => decide (a < k)
  | _, _ => false

/-- `dropwhile(lambda node_: node_.succ[level].key <= key, self._level(node, level))` (skiplist.py:69-73, 82-85). -/
def walk (s : SL K D) (l : Nat) (k : K) : Nat → Id → Option Id
  | 0, _ => none
  | f + 1, n =>
    if n = tl then none else
    match (s.succ n)[l]? with
    | none => none
    | some m => if leKey (s.key m) k then walk s l k f m else some n

/-- One round of the loop of `_scan`: the head is tried first (skiplist.py:81-86). -/
def scanLevel (s : SL K D) (l : Nat) (k : K) (node : Id) : Option Id :=
  match (s.succ hd)[l]? with
  | none => none
  | some m => if leKey (s.key m) k then walk s l k (s.alloc + 1) node else some hd

/-- The loop of `_scan` over the levels `l - 1, ..., 0` (skiplist.py:80-90): `return_value` and `prevs[0..l-1]`. -/
def scanDown (s : SL K D) (k : K) : Nat → Id → Option (Option Id × List Id)
  | 0, _ => some (none, [])
  | l + 1, node =>
    match scanLevel s l k node with
    | none => none
    | some n =>
      match scanDown s k l n with
      | none => none
      | some (r, ps) =>
        if s.key n = .val k then some (some (r.getD n), ps ++ [hd]) else some (r, ps ++ [n])

/-- `_scan` (skiplist.py:75-92). -/
def scan (s : SL K D) (k : K) : Option (Option Id × List Id) :=
  match (s.succ hd).getLast? with
  | none => none
  | some n => scanDown s k (s.succ hd).length n

/-- `a.succ[l] = x`. -/
def setSucc (s : SL K D) (a l x : Nat) : Option (SL K D) :=
  if l < (s.succ a).length then some { s with succ := Function.update s.succ a ((s.succ a).set l x) } else none

/-- `a.prev[l] = x`. -/
def setPrev (s : SL K D) (a l x : Nat) : Option (SL K D) :=
  if l < (s.prev a).length then some { s with prev := Function.update s.prev a ((s.prev a).set l x) } else none

/-- `prev[level].succ[level] = self.succ[level].prev[level] = self` (skiplist.py:43, sortseq.py:158). -/
def linkStep (c : Id) (s : SL K D) (l : Nat) : Option (SL K D) :=
  match (s.prev c)[l]?, (s.succ c)[l]? with
  | some p, some q => (setSucc s p l c).bind fun s1 => setPrev s1 q l c
  | _, _ => none

/-- The loop of `SkipNode.__init__` (skiplist.py:42-43). -/
def link (s : SL K D) (c : Id) : Option (SL K D) := (List.range (s.prev c).length).foldlM (linkStep c) s

/-- `SkipNode(key, data, succ, prev)` (skiplist.py:36-43). -/
def mkNode (s : SL K D) (k : K) (d : Option D) (ss ps : List Id) : Option (SL K D × Id) :=
  let c := s.alloc
  let s1 : SL K D := { s with
    key := Function.update s.key c (.val k), data := Function.update s.data c d,
    succ := Function.update s.succ c ss, prev := Function.update s.prev c ps, alloc := s.alloc + 1 }
  match link s1 c with
  | none => none
  | some s2 => some ({ s2 with size := s2.size + 1 }, c)

/-- `node.data = data` (skiplist.py:100, sortseq.py:14, 47). -/
def changeInf (s : SL K D) (n : Id) (d : Option D) : SL K D := { s with data := Function.update s.data n d }

/-- `_insert` (skiplist.py:94-117); `h` is the number drawn from `distribution` plus one. -/
def insert (s : SL K D) (k : K) (d : Option D) (h : Nat) : Option (SL K D × Id) :=
  match scan s k with
  | none => none
  | some (some n, _) => some (changeInf s n d, n)
  | some (none, update) =>
    let height := (s.succ hd).length
    let upd := update ++ List.replicate (h - height) hd
    let s1 : SL K D := { s with
      succ := Function.update s.succ hd (s.succ hd ++ List.replicate (h - height) tl)
      prev := Function.update s.prev tl (s.prev tl ++ List.replicate (h - height) hd) }
    match (List.range h).mapM (fun l => upd[l]?.bind fun u => (s1.succ u)[l]?), (List.range h).mapM (fun l => upd[l]?) with
    | some ss, some ps => mkNode s1 k d ss ps
    | _, _ => none

/-- `SortSeq.insert` (sortseq.py:5-18). -/
def seqInsert (s : SL K D) (k : K) (d : Option D) (h : Nat) : Option (SL K D × Id) :=
  match scan s k with
  | none => none
  | some (some n, _) => some (changeInf s n d, n)
  | some (none, _) => insert s k d h

/-- The loop that drops unused levels of the head (skiplist.py:130-135, sortseq.py:132-137). -/
def trim : Nat → List Id → List Id
  | 0, l => l
  | i + 1, l => if l[i]? ≠ some tl then l else if 0 < i then trim i l.dropLast else l

def trimHead (s : SL K D) : SL K D :=
  { s with succ := Function.update s.succ hd (trim (s.succ hd).length (s.succ hd)) }

/-- One round of the first loop of `_remove` (skiplist.py:126-127). -/
def removeStep (node : Id) (upd : List Id) (s : SL K D) (l : Nat) : Option (SL K D) :=
  match upd[l]?, (s.succ node)[l]? with
  | some p, some q => setSucc s p l q
  | _, _ => none

/-- `_remove` (skiplist.py:119-138). -/
def remove (s : SL K D) (k : K) : Option (SL K D) :=
  match scan s k with
  | none => none
  | some (none, _) => some s
  | some (some n, upd) =>
    match (List.range (s.succ n).length).foldlM (removeStep n upd) s with
    | none => none
    | some s1 => some { trimHead s1 with size := s1.size - 1 }

/-- `lookup` (sortseq.py:49-54). -/
def lookup (s : SL K D) (k : K) : Option (Option Id) := (scan s k).map (·.1)

/-- `__getitem__` (skiplist.py:148-153). -/
def getitem (s : SL K D) (k : K) : Option (Option D) := (lookup s k).map fun r => r.bind s.data

/-- `locate` (sortseq.py:56-62). -/
def locate (s : SL K D) (k : K) : Option Id :=
  match scan s k with
  | none => none
  | some (_, upd) => upd[0]?.bind fun u => (s.succ u)[0]?

/-- The nodes of `self._level(level=l)` from `n` on (skiplist.py:69-73). -/
def nodesFrom (s : SL K D) (l : Nat) : Nat → Id → Option (List Id)
  | 0, _ => none
  | f + 1, n =>
    if n = tl then some [] else
    match (s.succ n)[l]? with
    | none => none
    | some m => (nodesFrom s l f m).map (n :: ·)

/-- The nodes visited by `iteritems` and `__iter__` (skiplist.py:161-166). -/
def nodes (s : SL K D) : Option (List Id) :=
  match (s.succ hd)[0]? with
  | none => none
  | some n => nodesFrom s 0 (s.alloc + 1) n

/-- `iteritems` (skiplist.py:165-166). -/
def items (s : SL K D) : Option (List (SKey K × Option D)) := (nodes s).map fun ns => ns.map fun n => (s.key n, s.data n)

/-- `min` (sortseq.py:90-94); `__len__` is `size`. -/
def minNode (s : SL K D) : Option (Option Id) :=
  if s.size = 0 then some none else (s.succ hd)[0]?.map some

/-- `succ` (sortseq.py:20-29). -/
def succOf (s : SL K D) (n : Id) : Option (Option Id) :=
  (s.succ n)[0]?.map fun m => if m = tl then none else some m

/-- `pred` (sortseq.py:31-40). -/
def predOf (s : SL K D) (n : Id) : Option (Option Id) :=
  (s.prev n)[0]?.map fun m => if m = hd then none else some m

/-- One round of the first loop of `delItem` (sortseq.py:129-130). -/
def unlinkStep (c : Id) (s : SL K D) (l : Nat) : Option (SL K D) :=
  match (s.prev c)[l]?, (s.succ c)[l]? with
  | some p, some q => (setSucc s p l q).bind fun s1 => setPrev s1 q l p
  | _, _ => none

/-- `delItem` (sortseq.py:123-139). -/
def delItem (s : SL K D) (c : Id) : Option (SL K D) :=
  match (List.range (s.succ c).length).foldlM (unlinkStep c) s with
  | none => none
  | some s1 => some { trimHead s1 with size := s1.size - 1 }

/-- `insertAt` (sortseq.py:101-121). -/
def insertAt (s : SL K D) (node : Id) (k : K) (d : Option D) : Option (SL K D × Id) :=
  if s.key node = .val k then some (changeInf s node d, node)
  else
    let pn := if gtKey (s.key node) k then some node else (s.prev node)[0]?
    match pn with
    | none => none
    | some p =>
      match (s.succ p)[0]? with
      | none => none
      | some q => mkNode s k d ((s.succ p).filter (· = q)) ((s.prev q).filter (· = p))

/-- One round of `reverseItems` (sortseq.py:148-159): the node `c` goes behind `b`. -/
def moveBehind (s : SL K D) (c b : Id) : Option (SL K D) :=
  match delItem s c with
  | none => none
  | some s1 =>
    match (s1.succ b)[0]? with
    | none => none
    | some q =>
      let s2 : SL K D := { s1 with
        succ := Function.update s1.succ c ((s1.succ b).filter (· = q))
        prev := Function.update s1.prev c ((s1.prev q).filter (· = b)) }
      match link s2 c with
      | none => none
      | some s3 => some { s3 with size := s3.size + 1 }

/-- `reverseItems` (sortseq.py:141-159); the fuel bounds the number of rounds. -/
def reverseItems : Nat → SL K D → Id → Id → Option (SL K D)
  | 0, _, _, _ => none
  | f + 1, s, a, b =>
    if a = b then some s else
    match (s.succ a)[0]? with
    | none => none
    | some a' =>
      match moveBehind s a b with
      | none => none
      | some s1 => reverseItems f s1 a' b

/-- Calls of the user on a sorted sequence: `s[k] = d` (skiplist.py:155-156), `s.insert(k, d)` (sortseq.py:5-18), and
`s.delItem(s.lookup(k))` when the key is there. -/
inductive Op (K D : Type)
  | set (k : K) (d : Option D) (h : Nat)
  | ins (k : K) (d : Option D) (h : Nat)
  | del (k : K)

/-- One call; `h` is the number from `distribution` (skiplist.py:6-7, 103). -/
def step (s : SL K D) : Op K D → Option (SL K D)
  | .set k d h => (insert s k d (h + 1)).map (·.1)
  | .ins k d h => (seqInsert s k d (h + 1)).map (·.1)
  | .del k =>
    match lookup s k with
    | none => none
    | some none => some s
    | some (some n) => delItem s n

/-- A sequence of calls on a new structure. -/
def run (ops : List (Op K D)) : Option (SL K D) := ops.foldlM step empty

end Verif.Sweep
