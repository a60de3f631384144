/-!
# Model of `mmcore/ds/cdll/cdll.py` and `node.py` (class `CDLL`)

Nodes live in a heap: addresses are natural numbers, `next a = none` means the attribute was deleted (`del node.next`),
so reading it raises `AttributeError`.  Node comparison in the code is identity (`Node` has no `__eq__`).
`Except.error` is a raised exception; all exceptions of the modelled methods are raised before the first write in the
states of interest, and `step` (a caller that catches the exception) keeps the old state.
The hooks (`insert_hook`, `remove_hook`) are empty in the class and not modelled.
-/

namespace Verif.Cdll

inductive Err where
  | value       -- `ValueError`
  | attribute   -- `AttributeError`
  deriving DecidableEq, Repr

/-- Update of a function at one point (attribute assignment). -/
def upd {β : Type} (f : Nat → β) (a : Nat) (v : β) : Nat → β := fun x => if x = a then v else f x

/-- A `CDLL` object together with the heap of its nodes (cdll.py:54-60, node.py:1-5). -/
structure CDLL (α : Type) where
  next : Nat → Option Nat
  prev : Nat → Option Nat
  data : Nat → Option α
  fresh : Nat
  head : Option Nat
  count : Nat

variable {α : Type}

/-- `CDLL()` (cdll.py:54-56). -/
def empty : CDLL α := ⟨fun _ => none, fun _ => none, fun _ => none, 0, none, 0⟩

/-- `Node(data)` (node.py:2-5): links point to itself. -/
def alloc (s : CDLL α) (d : α) : CDLL α :=
  { s with next := upd s.next s.fresh (some s.fresh), prev := upd s.prev s.fresh (some s.fresh),
           data := upd s.data s.fresh (some d), fresh := s.fresh + 1 }

/-- Reading an attribute that may have been deleted. -/
def attr {β : Type} : Option β → Except Err β
  | some x => .ok x
  | none => .error .attribute

/-- `for _ in range(k): temp = temp.next`. -/
def walk (s : CDLL α) : Nat → Nat → Except Err Nat
  | 0, a => .ok a
  | k + 1, a => do walk s k (← attr (s.next a))

/-- `insert(data, index)` (cdll.py:142-160). -/
def insert (s : CDLL α) (d : α) (index : Int) : Except Err (CDLL α) :=
  if index > s.count ∨ index < 0 then .error .value
  else
    let node := s.fresh
    let s := alloc s d
    match s.head with
    | none => .ok { s with head := some node, next := upd s.next node (some node),
                           prev := upd s.prev node (some node), count := s.count + 1 }
    | some h => do
      let temp ← walk s (index - 1).toNat h
      let tn ← attr (s.next temp)
      let prev1 := upd s.prev tn (some node)
      let next2 := upd s.next node (some tn)
      let prev2 := upd prev1 node (some temp)
      let next3 := upd next2 temp (some node)
      .ok { s with next := next3, prev := prev2,
                   head := if index = 0 then some node else some h, count := s.count + 1 }

/-- `append(data)` (cdll.py:97-99). -/
def append (s : CDLL α) (d : α) : Except Err (CDLL α) := insert s d s.count

/-- `append_node(Node(data))` (cdll.py:128-140). -/
def appendNode (s : CDLL α) (d : α) : Except Err (CDLL α) :=
  let node := s.fresh
  let s := alloc s d
  match s.head with
  | none => .ok { s with head := some node, count := 1 }
  | some h => do
    let hp ← attr (s.prev h)
    let prev1 := upd s.prev node (some hp)
    let next1 := upd s.next hp (some node)
    let prev2 := upd prev1 h (some node)
    let next2 := upd next1 node (some h)
    .ok { s with next := next2, prev := prev2, count := s.count + 1 }

/-- `temp.previous.next, temp.next.previous = temp.next, temp.previous`: the right side is read first, the two targets
are resolved one after the other. -/
def unlink (s : CDLL α) (t : Nat) : Except Err (CDLL α) := do
  let tn ← attr (s.next t)
  let tp ← attr (s.prev t)
  let next1 := upd s.next tp (some tn)
  let t2 ← attr (next1 t)
  .ok { s with next := next1, prev := upd s.prev t2 (some tp) }

/-- `remove_by_index(index)` (cdll.py:171-188). -/
def removeByIndex (s : CDLL α) (index : Int) : Except Err (CDLL α) :=
  if index ≥ s.count ∨ index < 0 then .error .value
  else if s.count = 1 then .ok { s with head := none, count := 0 }
  else do
    let h ← attr s.head
    let target ← walk s index.toNat h
    let s1 ← (if target = h then do
        let hn ← attr (s.next h)
        pure { s with head := some hn }
      else pure s)
    let s2 ← unlink s1 target
    .ok { s2 with count := s2.count - 1 }

/-- The search loop of `remove` (cdll.py:194-204): address where the loop stops and whether it broke out. -/
def findNode [DecidableEq α] (s : CDLL α) (x : α) : Nat → Nat → Except Err (Nat × Bool)
  | 0, t => .ok (t, false)
  | n + 1, t => if s.data t = some x then .ok (t, true) else do findNode s x n (← attr (s.next t))

/-- `remove(data)` (cdll.py:192-209). -/
def remove [DecidableEq α] (s : CDLL α) (x : α) : Except Err (CDLL α) := do
  let h ← attr s.head
  let (t, found) ← findNode s x s.count h
  let s1 ← (if found then do
      let s' ← (if t = h then do
          let hn ← attr (s.next h)
          pure { s with head := some hn }
        else pure s)
      let s2 ← unlink s' t
      pure { s2 with count := s2.count - 1 }
    else pure s)
  let _ ← attr (s1.next t)
  let _ ← attr (s1.prev t)
  .ok { s1 with next := upd s1.next t none, prev := upd s1.prev t none }

/-- `index(data)` (cdll.py:211-216); `none` is the Python value `None`. -/
def indexLoop [DecidableEq α] (s : CDLL α) (x : α) : Nat → Nat → Nat → Except Err (Option Nat)
  | 0, _, _ => .ok none
  | n + 1, i, t => if s.data t = some x then .ok (some i) else do indexLoop s x n (i + 1) (← attr (s.next t))

def index [DecidableEq α] (s : CDLL α) (x : α) : Except Err (Option Nat) :=
  match s.count, s.head with
  | 0, _ => .ok none
  | _ + 1, none => .error .attribute
  | n + 1, some h => indexLoop s x (n + 1) 0 h

/-- `get(index)` (cdll.py:218-227). -/
def get (s : CDLL α) (index : Int) : Except Err (Option α) :=
  let index' := if index < 0 then s.count + index else index
  if ¬ index < 0 ∧ index ≥ s.count then .error .value
  else do
    let h ← attr s.head
    let t ← walk s index'.toNat h
    .ok (s.data t)

/-- `self[key] = value` (cdll.py:104-105 with `get_node`, 235-242). -/
def setItem (s : CDLL α) (index : Int) (v : α) : Except Err (CDLL α) :=
  if index ≥ s.count ∨ index < 0 then .error .value
  else do
    let h ← attr s.head
    let t ← walk s index.toNat h
    .ok { s with data := upd s.data t (some v) }

/-- `replace_node(index, Node(data))` (cdll.py:244-267).  The writes to `node.prev` go to an attribute nothing reads. -/
def replaceNode (s : CDLL α) (index : Int) (d : α) : Except Err (CDLL α) :=
  if index ≥ s.count ∨ index < 0 then .error .value
  else
    let node := s.fresh
    let s := alloc s d
    if s.count = 1 then .ok { s with head := some node }
    else do
      let h ← attr s.head
      let target ← walk s index.toNat h
      let s1 ← (if target = h then do
          let hn ← attr (s.next h)
          let hp ← attr (s.prev h)
          let next1 := upd s.next node (some hn)
          let next2 := upd next1 hp (some node)
          let hn2 ← attr (next2 h)
          pure { s with next := next2, prev := upd s.prev hn2 (some node), head := some node }
        else pure s)
      let tn ← attr (s1.next target)
      let next3 := upd s1.next node (some tn)
      let tp ← attr (s1.prev target)
      let next4 := upd next3 tp (some node)
      let tn2 ← attr (next4 target)
      .ok { s1 with next := next4, prev := upd s1.prev tn2 (some node) }

/-- The `while temp != self.head` loop of `__iter__` (cdll.py:115-118); `none` on a deleted link or when `fuel` turns
were not enough. -/
def iterLoop (s : CDLL α) (h : Nat) : Nat → Nat → Option (List (Option α))
  | 0, _ => none
  | f + 1, t =>
    if t = h then some []
    else do
      let tn ← s.next t
      let rest ← iterLoop s h f tn
      some (s.data t :: rest)

/-- `list(self)` (cdll.py:110-120).  Python's `None` is yielded for an empty list (`else: yield`). -/
def toList (s : CDLL α) (fuel : Nat) : Option (List (Option α)) :=
  match s.head with
  | none => some [none]
  | some h => do
    let hn ← s.next h
    let rest ← iterLoop s h fuel hn
    some (s.data h :: rest)

/-- Method calls on a list. -/
inductive Op (α : Type) where
  | append (d : α)
  | appendNode (d : α)
  | insert (d : α) (i : Int)
  | removeByIndex (i : Int)
  | remove (d : α)
  | setItem (i : Int) (d : α)
  | replaceNode (i : Int) (d : α)
  deriving Repr

def call [DecidableEq α] (s : CDLL α) : Op α → Except Err (CDLL α)
  | .append d => append s d
  | .appendNode d => appendNode s d
  | .insert d i => insert s d i
  | .removeByIndex i => removeByIndex s i
  | .remove d => remove s d
  | .setItem i d => setItem s i d
  | .replaceNode i d => replaceNode s i d

/-- A caller that catches exceptions. -/
def step [DecidableEq α] (s : CDLL α) (o : Op α) : CDLL α :=
  match call s o with
  | .ok s' => s'
  | .error _ => s

def run [DecidableEq α] (s : CDLL α) (ops : List (Op α)) : CDLL α := ops.foldl step s

end Verif.Cdll
