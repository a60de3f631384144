import Mathlib.Order.Basic
import Mathlib.Data.Nat.Notation

/-! # Skip lists: `mmcore/numeric/algorithms/sweep_line/skiplist.py` and `sortseq.py`

A `SkipList` object is a heap of nodes.  A node is a number: `head` is 0, `tail` is 1, the others are given in the order of
creation.  The lists `succ` and `prev` of a node are functions of the level with a length each; an access outside the length
raises IndexError (`none`).  Keys are elements of a linear order; `NIL` of the tail is greater than all keys and the key `None` of the
head is equal to none. -/

namespace Verif.Skip

variable {K V : Type} [LinearOrder K]

/-- `SkipList` (skiplist.py:45-56) with its nodes (35-43). -/
structure S (K V : Type) where
  /-- keys and data of the nodes other than head and tail -/
  key : ℕ → K
  data : ℕ → V
  /-- `node.succ[level]` and `len(node.succ)` -/
  succ : ℕ → ℕ → ℕ
  hs : ℕ → ℕ
  /-- `node.prev[level]` and `len(node.prev)` -/
  prev : ℕ → ℕ → ℕ
  hp : ℕ → ℕ
  /-- the number of the next new node -/
  next : ℕ
  size : Int

abbrev head : ℕ := 0
abbrev tail : ℕ := 1

/-- `SkipList()` (skiplist.py:47-53); `k` and `v` are without meaning. -/
def empty (k : K) (v : V) : S K V where
  key _ := k
  data _ := v
  succ _ _ := tail
  hs a := if a = head then 1 else 0
  prev _ _ := head
  hp a := if a = tail then 1 else 0
  next := 2
  size := 0

/-- `node.succ[level]`. -/
def getSucc (s : S K V) (l a : ℕ) : Option ℕ := if l < s.hs a then some (s.succ l a) else none

/-- `node.prev[level]`. -/
def getPrev (s : S K V) (l a : ℕ) : Option ℕ := if l < s.hp a then some (s.prev l a) else none

/-- `node.key <= key` for a node after another one. -/
def le (s : S K V) (a : ℕ) (k : K) : Prop := a ≠ tail ∧ s.key a ≤ k

instance (s : S K V) (a : ℕ) (k : K) : Decidable (le s a k) := inferInstanceAs (Decidable (_ ∧ _))

/-- `next(dropwhile(..., self._level(node, level)))` (skiplist.py:69-73, 81-86); `none`: StopIteration, or out of fuel. -/
def walk (s : S K V) (k : K) (l : ℕ) : ℕ → ℕ → Option ℕ
  | 0, _ => none
  | fuel + 1, a =>
    if a = tail then none
    else
      match getSucc s l a with
      | none => none
      | some b => if le s b k then walk s k l fuel b else some a

/-- One level of `_scan` (skiplist.py:81-86): the head comes first. -/
def scanLevel (s : S K V) (k : K) (l a : ℕ) : Option ℕ :=
  match getSucc s l head with
  | none => none
  | some b => if le s b k then walk s k l s.next a else some head

/-- `node.key == key` (skiplist.py:87). -/
def isKey (s : S K V) (a : ℕ) (k : K) : Prop := a ≠ head ∧ a ≠ tail ∧ s.key a = k

instance (s : S K V) (a : ℕ) (k : K) : Decidable (isKey s a k) := inferInstanceAs (Decidable (_ ∧ _))

/-- The loop of `_scan` over the levels below `n` (skiplist.py:80-90), from the node `a`. -/
def scanLoop (s : S K V) (k : K) : ℕ → ℕ → Option ℕ × (ℕ → ℕ) → Option (Option ℕ × (ℕ → ℕ))
  | 0, _, r => some r
  | l + 1, a, r =>
    match scanLevel s k l a with
    | none => none
    | some b =>
      scanLoop s k l b (if isKey s b k then (some b, r.2) else (r.1, fun m => if m = l then b else r.2 m))

/-- `_scan` (skiplist.py:75-92): the node with the key, and `prevs` (of length `len(head.succ)`). -/
def scan (s : S K V) (k : K) : Option (Option ℕ × (ℕ → ℕ)) :=
  match getSucc s (s.hs head - 1) head with
  | none => none
  | some a => scanLoop s k (s.hs head) a (none, fun _ => head)

/-- `SkipNode(key, data, succ, prev)` (skiplist.py:36-43) for the lists `sl`, `pl` of the lengths `ns`, `np`. -/
def newNode (s : S K V) (k : K) (v : V) (sl pl : ℕ → ℕ) (ns np : ℕ) : Option (S K V) :=
  if np ≤ ns ∧ ∀ l < np, l < s.hs (pl l) ∧ l < s.hp (sl l) then
    some { s with
      key := fun a => if a = s.next then k else s.key a
      data := fun a => if a = s.next then v else s.data a
      succ := fun l a => if l < np ∧ a = pl l then s.next else if a = s.next then sl l else s.succ l a
      hs := fun a => if a = s.next then ns else s.hs a
      prev := fun l a => if l < np ∧ a = sl l then s.next else if a = s.next then pl l else s.prev l a
      hp := fun a => if a = s.next then np else s.hp a
      next := s.next + 1 }
  else none

/-- `self.head.succ.extend` and `self.tail.prev.extend` (skiplist.py:111-113) for a node of height `h`. -/
def grow (s : S K V) (h : ℕ) : S K V :=
  { s with
    succ := fun l a => if a = head ∧ s.hs head ≤ l then tail else s.succ l a
    hs := fun a => if a = head then max (s.hs head) h else s.hs a
    prev := fun l a => if a = tail ∧ s.hp tail ≤ l then head else s.prev l a
    hp := fun a => if a = tail then s.hp tail + (h - s.hs head) else s.hp a }

/-- `_insert` (skiplist.py:94-117) with the height `r + 1`; the result has the node. -/
def insert (s : S K V) (k : K) (v : V) (r : ℕ) : Option (S K V × ℕ) :=
  match scan s k with
  | none => none
  | some (some n, _) => some ({ s with data := fun a => if a = n then v else s.data a }, n)
  | some (none, upd) =>
    let g := grow s (r + 1)
    let upd := fun l => if l < s.hs head then upd l else head
    if ∀ l < r + 1, l < g.hs (upd l) then
      match newNode g k v (fun l => g.succ l (upd l)) upd (r + 1) (r + 1) with
      | none => none
      | some s' => some ({ s' with size := s.size + 1 }, s.next)
    else none

/-- The number of pointers of the head after trimming (skiplist.py:130-135). -/
def trimmed (s : S K V) : ℕ → ℕ
  | 0 => 0
  | n + 1 => if s.succ n head ≠ tail then n + 1 else if 0 < n then trimmed s n else 1

/-- The trimming. -/
def trim (s : S K V) : S K V := { s with hs := fun a => if a = head then trimmed s (s.hs head) else s.hs a }

/-- `_remove` (skiplist.py:119-138). -/
def remove (s : S K V) (k : K) : Option (S K V) :=
  match scan s k with
  | none => none
  | some (none, _) => some s
  | some (some n, upd) =>
    if s.hs n ≤ s.hs head ∧ ∀ l < s.hs n, l < s.hs (upd l) then
      let s' := trim { s with succ := fun l a => if l < s.hs n ∧ a = upd l then s.succ l n else s.succ l a }
      some { s' with size := s.size - 1 }
    else none

/-- `list(self._level())`: the nodes at level 0 (skiplist.py:69-73). -/
def nodes (s : S K V) : ℕ → ℕ → Option (List ℕ)
  | 0, _ => none
  | fuel + 1, a =>
    if a = tail then some []
    else
      match getSucc s 0 a with
      | none => none
      | some b => (nodes s fuel b).map (a :: ·)

/-- `list(self._level())` from the head. -/
def level0 (s : S K V) : Option (List ℕ) :=
  match getSucc s 0 head with
  | none => none
  | some a => nodes s (s.next + 1) a

/-- `list(iteritems())` (skiplist.py:165-166). -/
def items (s : S K V) : Option (List (K × V)) := (level0 s).map fun l => l.map fun n => (s.key n, s.data n)

/-- `__getitem__` (skiplist.py:148-153). -/
def getItem (s : S K V) (k : K) : Option (Option V) := (scan s k).map fun r => r.1.map s.data

/-! ## `SortSeq` -/

/-- `lookup` (sortseq.py:49-54). -/
def lookup (s : S K V) (k : K) : Option (Option ℕ) := (scan s k).map fun r => r.1

/-- `insert` (sortseq.py:5-18). -/
def seqInsert (s : S K V) (k : K) (v : V) (r : ℕ) : Option (S K V × ℕ) :=
  match scan s k with
  | none => none
  | some (some n, _) => some ({ s with data := fun a => if a = n then v else s.data a }, n)
  | some (none, _) => insert s k v r

/-- `succ` (sortseq.py:20-29). -/
def seqSucc (s : S K V) (a : ℕ) : Option (Option ℕ) := (getSucc s 0 a).map fun b => if b = tail then none else some b

/-- `pred` (sortseq.py:31-40). -/
def seqPred (s : S K V) (a : ℕ) : Option (Option ℕ) := (getPrev s 0 a).map fun b => if b = head then none else some b

/-- `min` (sortseq.py:90-94). -/
def seqMin (s : S K V) : Option (Option ℕ) := if s.size = 0 then some none else (getSucc s 0 head).map some

/-- `locate` (sortseq.py:56-62). -/
def locate (s : S K V) (k : K) : Option ℕ :=
  match scan s k with
  | none => none
  | some (_, upd) => getSucc s 0 (upd 0)

/-- `insertAt` (sortseq.py:101-121). -/
def insertAt (s : S K V) (a : ℕ) (k : K) (v : V) : Option (S K V × ℕ) :=
  if k = s.key a then some ({ s with data := fun b => if b = a then v else s.data b }, a)
  else
    match (if k > s.key a then some a else getPrev s 0 a) with
    | none => none
    | some p =>
      match getSucc s 0 p with
      | none => none
      | some q =>
        let ns := ((List.range (s.hs p)).filter fun l => s.succ l p = q).length
        let np := ((List.range (s.hp q)).filter fun l => s.prev l q = p).length
        match newNode s k v (fun _ => q) (fun _ => p) ns np with
        | none => none
        | some s' => some ({ s' with size := s.size + 1 }, s.next)

/-- `delItem` (sortseq.py:123-139). -/
def delItem (s : S K V) (a : ℕ) : Option (S K V) :=
  if s.hs a ≤ s.hp a ∧ ∀ l < s.hs a, l < s.hs (s.prev l a) ∧ l < s.hp (s.succ l a) then
    let s' := trim { s with
      succ := fun l b => if l < s.hs a ∧ b = s.prev l a then s.succ l a else s.succ l b
      prev := fun l b => if l < s.hs a ∧ b = s.succ l a then s.prev l a else s.prev l b }
    some { s' with size := s.size - 1 }
  else none

/-- Inserting `c` after `b` (sortseq.py:152-159). -/
def relink (s : S K V) (c b : ℕ) : Option (S K V) :=
  match getSucc s 0 b with
  | none => none
  | some q =>
    let ns := ((List.range (s.hs b)).filter fun l => s.succ l b = q).length
    let np := ((List.range (s.hp q)).filter fun l => s.prev l q = b).length
    if np ≤ ns ∧ ∀ l < np, l < s.hs b ∧ l < s.hp q then
      some { s with
        succ := fun l a => if l < np ∧ a = b then c else if a = c then q else s.succ l a
        hs := fun a => if a = c then ns else s.hs a
        prev := fun l a => if l < np ∧ a = q then c else if a = c then b else s.prev l a
        hp := fun a => if a = c then np else s.hp a
        size := s.size + 1 }
    else none

/-- `reverseItems` (sortseq.py:141-159). -/
def reverseItems : ℕ → S K V → ℕ → ℕ → Option (S K V)
  | 0, _, _, _ => none
  | fuel + 1, s, a, b =>
    if a = b then some s
    else
      match getSucc s 0 a with
      | none => none
      | some a' =>
        match delItem s a with
        | none => none
        | some s1 =>
          match relink s1 a b with
          | none => none
          | some s2 => reverseItems fuel s2 a' b

end Verif.Skip
