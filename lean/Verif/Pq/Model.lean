/-!
# Model of the priority queue of the sweep line: `mmcore/numeric/algorithms/sweep_line/priority_queue.py`

`PriorityQueue` keeps its nodes in a Python list and works on it with `heappush` and `heappop` of the module `heapq` of the Python
library, which are modelled here after their Python source (`Lib/heapq.py`).  A node is any value; `lt a b` is the answer of
`QueueNode.__lt__` (priority_queue.py:12-13), which compares the keys; `heapq` makes no other comparison.  A place of the list that
is read and is always there is read with a default, `d`.
-/

namespace Verif.Pq

variable {α : Type} (lt : α → α → Bool) (d : α)

/-- `heapq._siftdown`: the new item climbs from the place `pos` over the parents it is less than, down to the place `start`.
The first argument is a bound on the number of rounds, `pos + 1` is enough. -/
def siftdown (start : Nat) (x : α) : Nat → List α → Nat → List α
  | 0, q, pos => q.set pos x
  | fuel + 1, q, pos =>
    if start < pos then
      let parentpos := (pos - 1) / 2
      let parent := q.getD parentpos d
      if lt x parent then siftdown start x fuel (q.set pos parent) parentpos
      else q.set pos x
    else q.set pos x

/-- `heapq.heappush`. -/
def heappush (q : List α) (x : α) : List α := siftdown lt d 0 x (q.length + 1) (q ++ [x]) q.length

/-- The loop of `heapq._siftup`: the smaller child moves up, until the free place is a leaf. -/
def siftupLoop : Nat → List α → Nat → List α × Nat
  | 0, q, pos => (q, pos)
  | fuel + 1, q, pos =>
    let childpos := 2 * pos + 1
    if childpos < q.length then
      let rightpos := childpos + 1
      let child := if rightpos < q.length ∧ lt (q.getD childpos d) (q.getD rightpos d) = false then rightpos else childpos
      siftupLoop fuel (q.set pos (q.getD child d)) child
    else (q, pos)

/-- `heapq._siftup` from the first place. -/
def siftup (q : List α) (x : α) : List α :=
  let r := siftupLoop lt d q.length q 0
  siftdown lt d 0 x (r.1.length + 1) r.1 r.2

/-- `heapq.heappop`: `none` is the exception for an empty list. -/
def heappop (q : List α) : Option (α × List α) :=
  match q.getLast? with
  | none => none
  | some last =>
    match q.dropLast with
    | [] => some (last, [])
    | r :: rest => some (r, siftup lt d (r :: rest) last)

/-- `PriorityQueue.insert` (priority_queue.py:42-48). -/
def insertNode (q : List α) (x : α) : List α := heappush lt d q x

/-- `PriorityQueue.min` (priority_queue.py:52-60). -/
def minNode (q : List α) : Option α := q.head?

/-- `PriorityQueue.delMin` (priority_queue.py:62-68): it returns the node. -/
def delMin (q : List α) : Option (α × List α) := heappop lt d q

/-- What a caller does with the queue. -/
inductive Op (α : Type) where
  | ins (x : α)
  | del

/-- The state of a queue and of the list of the nodes handed out so far, the latest first.  A `delMin` on the empty queue raises and
leaves the queue as it is. -/
def step (s : List α × List α) : Op α → List α × List α
  | .ins x => (insertNode lt d s.1 x, s.2)
  | .del => match delMin lt d s.1 with
    | none => s
    | some (x, q) => (q, x :: s.2)

/-- A run from the empty queue (priority_queue.py:25-26). -/
def run (ops : List (Op α)) : List α × List α := ops.foldl (step lt d) ([], [])

/-- Taking everything out. -/
def drain : Nat → List α → List α
  | 0, _ => []
  | n + 1, q => match delMin lt d q with
    | none => []
    | some (x, q') => x :: drain n q'

end Verif.Pq
