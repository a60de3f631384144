import Mathlib.Order.Defs.LinearOrder
import Mathlib.Data.Int.Order.Basic

/-!
# Model of `mmcore/ds/tree/avl.py` (class `AVL`, lines 109-378)

An `AVL` Python object is a *wrapper* with fields `node`, `height`, `balance`; `node` is `None` or an
`AVLNode` with `key`, `data` and two further wrappers `left`, `right`.  The model keeps the cached `height` and
`balance` of every wrapper because the code reads the cached values.  Keys come from a linear order, data are
arbitrary.  `none` stands for an exception (`AttributeError` on `None`) or a `while` loop that has not ended after
`fuel` turns.  Every wrapper is owned by exactly one parent, so state passing is faithful.
-/

namespace Verif.Avl

/-- `AVL` object: `nil h b` has `node = None`; `node h b l k d r` has a node with key `k`, data `d`. -/
inductive Tree (K D : Type) where
  | nil (h b : Int)
  | node (h b : Int) (left : Tree K D) (key : K) (data : D) (right : Tree K D)
  deriving Repr, DecidableEq

variable {K D : Type}

namespace Tree

/-- `self.height`. -/
def height : Tree K D → Int
  | nil h _ => h
  | node h _ _ _ _ _ => h

/-- `self.balance`. -/
def balance : Tree K D → Int
  | nil _ b => b
  | node _ b _ _ _ _ => b

/-- `AVL()` (avl.py:114-122). -/
def empty : Tree K D := nil (-1) 0

/-- Assigning `self.node = other.node`: the wrapper's cached fields stay, the content is replaced. -/
def rewrap (h b : Int) : Tree K D → Tree K D
  | nil _ _ => nil h b
  | node _ _ l k d r => node h b l k d r

/-- `update_heights(recursive=False)` (avl.py:227, 234-236). -/
def updateHeight : Tree K D → Tree K D
  | nil _ b => nil (-1) b
  | node _ b l k d r => node (1 + max l.height r.height) b l k d r

/-- `update_heights()` (avl.py:221-236). -/
def updateHeights : Tree K D → Tree K D
  | nil _ b => nil (-1) b
  | node _ b l k d r =>
    let l' := updateHeights l
    let r' := updateHeights r
    node (1 + max l'.height r'.height) b l' k d r'

/-- `update_balances(False)` (avl.py:245, 252-254). -/
def updateBalance : Tree K D → Tree K D
  | nil h _ => nil h 0
  | node h _ l k d r => node h (l.height - r.height) l k d r

/-- `update_balances()` (avl.py:238-254). -/
def updateBalances : Tree K D → Tree K D
  | nil h _ => nil h 0
  | node h _ l k d r =>
    let l' := updateBalances l
    let r' := updateBalances r
    node h (l'.height - r'.height) l' k d r'

/-- `rotate_right` (avl.py:256-267).  `old_root.left` keeps its cached fields and receives `new_root.right.node`;
`new_root.right` keeps its cached fields and receives `old_root`. -/
def rotateRight : Tree K D → Option (Tree K D)
  | node h b (node hl bl a kl dl c) k d r =>
    some (node h b a kl dl (node c.height c.balance (rewrap hl bl c) k d r))
  | _ => none

/-- `rotate_left` (avl.py:269-280). -/
def rotateLeft : Tree K D → Option (Tree K D)
  | node h b l k d (node hr br c kr dr e) =>
    some (node h b (node c.height c.balance l k d (rewrap hr br c)) kr dr e)
  | _ => none

/-- `self.update_heights(); self.update_balances()`. -/
def refresh (t : Tree K D) : Tree K D := updateBalances (updateHeights t)

/-- Branch `self.balance > 1` of the loop (avl.py:166-191). -/
def fixLeft : Tree K D → Option (Tree K D)
  | node h b l k d r =>
    if l.balance < 0 then
      match rotateLeft l with
      | none => none
      | some l' => (rotateRight (refresh (node h b l' k d r))).map refresh
    else (rotateRight (node h b l k d r)).map refresh
  | nil _ _ => none

/-- Branch `self.balance < -1` of the loop (avl.py:194-219). -/
def fixRight : Tree K D → Option (Tree K D)
  | node h b l k d r =>
    if r.balance > 0 then
      match rotateRight r with
      | none => none
      | some r' => (rotateLeft (refresh (node h b l k d r'))).map refresh
    else (rotateLeft (node h b l k d r)).map refresh
  | nil _ _ => none

/-- The `while` loop of `rebalance` (avl.py:164-219). -/
def loop : Nat → Tree K D → Option (Tree K D)
  | 0, _ => none
  | fuel + 1, t =>
    if t.balance < -1 ∨ t.balance > 1 then
      match (if t.balance > 1 then fixLeft t else some t) with
      | none => none
      | some t1 =>
        match (if t1.balance < -1 then fixRight t1 else some t1) with
        | none => none
        | some t2 => loop fuel t2
    else some t

/-- `rebalance` (avl.py:150-219). -/
def rebalance (fuel : Nat) (t : Tree K D) : Option (Tree K D) :=
  loop fuel (updateBalance (updateHeight t))

variable [LinearOrder K]

/-- `insert` (avl.py:125-145).  An existing key falls through to `rebalance`. -/
def insert (fuel : Nat) (key : K) (data : D) : Tree K D → Option (Tree K D)
  | nil h b => rebalance fuel (node h b empty key data empty)
  | node h b l k d r =>
    if key < k then
      match insert fuel key data l with
      | none => none
      | some l' => rebalance fuel (node h b l' k d r)
    else if key > k then
      match insert fuel key data r with
      | none => none
      | some r' => rebalance fuel (node h b l k d r')
    else rebalance fuel (node h b l k d r)

/-- Walk to the leftmost key: the `while successor and successor.left.node` loop (avl.py:330-332). -/
def leftmost : K → Tree K D → K
  | k, nil _ _ => k
  | _, node _ _ l k _ _ => leftmost k l

/-- `not t.node`. -/
def isNil : Tree K D → Bool
  | nil _ _ => true
  | node _ _ _ _ _ _ => false

/-- `delete` (avl.py:294-347). -/
def delete (fuel : Nat) (key : K) : Tree K D → Option (Tree K D)
  | nil h b => some (nil h b)
  | node h b l k d r =>
    if k = key then
      if l.isNil && r.isNil then rebalance fuel (nil h b)
      else if l.isNil then rebalance fuel (rewrap h b r)
      else if r.isNil then rebalance fuel (rewrap h b l)
      else
        let succ := leftmost k r
        match delete fuel succ r with
        | none => none
        | some r' => rebalance fuel (node h b l succ d r')
    else if key < k then
      match delete fuel key l with
      | none => none
      | some l' => rebalance fuel (node h b l' k d r)
    else
      match delete fuel key r with
      | none => none
      | some r' => rebalance fuel (node h b l k d r')

/-- `search(key)` returning `.data` (avl.py:282-292, 371-372); `none` when the Python result is `None`. -/
def search (key : K) : Tree K D → Option D
  | nil _ _ => none
  | node _ _ l k d r => if key < k then search key l else if key > k then search key r else some d

/-- Number of loop turns of `search` (one per visited node). -/
def searchSteps (key : K) : Tree K D → Nat
  | nil _ _ => 0
  | node _ _ l k _ r =>
    if key < k then searchSteps key l + 1 else if key > k then searchSteps key r + 1 else 1

/-- `inorder_traverse` (avl.py:349-363), as (key, data) pairs. -/
def inorder : Tree K D → List (K × D)
  | nil _ _ => []
  | node _ _ l k d r => inorder l ++ (k, d) :: inorder r

end Tree

/-- `append` (avl.py:147-148) for integer keys: `insert(self.height + 1, data)`. -/
def append (fuel : Nat) (data : D) (t : Tree Int D) : Option (Tree Int D) :=
  t.insert fuel (t.height + 1) data

/-- A user call on the tree. -/
inductive Op (K D : Type) where
  | insert (k : K) (d : D)   -- also `t[k] = d` (avl.py:374-375)
  | delete (k : K)           -- also `del t[k]` (avl.py:377-378)

/-- One call. -/
def step [LinearOrder K] (fuel : Nat) (t : Tree K D) : Op K D → Option (Tree K D)
  | .insert k d => t.insert fuel k d
  | .delete k => t.delete fuel k

/-- A history of calls. -/
def run [LinearOrder K] (fuel : Nat) (t : Tree K D) : List (Op K D) → Option (Tree K D)
  | [] => some t
  | o :: os =>
    match step fuel t o with
    | none => none
    | some t' => run fuel t' os

end Verif.Avl
