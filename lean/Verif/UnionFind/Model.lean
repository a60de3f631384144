import Mathlib.Logic.Function.Basic

/-!
# Model of `mmcore/ds/union_find.py`

`UnionFind` (lines 1-22).  The Python lists `parent` and `rank` of length `n` are functions `Nat → Nat`
of which only the indices `< n` are ever read or written; an index `≥ n` is an `IndexError`, modelled by
`none`.  (Negative Python indices are not modelled.)  `find` is recursive in Python; the first argument of
`UF.find` is the number of nested Python calls allowed, `none` standing for `RecursionError`.
-/

namespace Verif.UnionFind

/-- `UnionFind` object: `self.parent`, `self.rank` (union_find.py:1-4). -/
structure UF where
  n : Nat
  parent : Nat → Nat
  rank : Nat → Nat

/-- `UnionFind.__init__` (union_find.py:2-4): `parent = list(range(n))`, `rank = [0] * n`. -/
def UF.init (n : Nat) : UF := ⟨n, fun i => i, fun _ => 0⟩

/-- `self.parent[i] = v`. -/
def UF.setParent (s : UF) (i v : Nat) : UF := { s with parent := Function.update s.parent i v }

/-- `self.rank[i] += 1`. -/
def UF.incRank (s : UF) (i : Nat) : UF := { s with rank := Function.update s.rank i (s.rank i + 1) }

/-- `UnionFind.find` (union_find.py:6-9), with at most `depth` nested calls. -/
def UF.find : (depth : Nat) → UF → Nat → Option (Nat × UF)
  | 0, _, _ => none
  | depth + 1, s, x =>
    if x < s.n then
      if s.parent x ≠ x then
        match UF.find depth s (s.parent x) with
        | none => none
        | some (r, s') =>
          let s'' := s'.setParent x r
          some (s''.parent x, s'')
      else some (s.parent x, s)
    else none

/-- `UnionFind.union` (union_find.py:11-22). -/
def UF.union (depth : Nat) (s : UF) (x y : Nat) : Option UF :=
  match UF.find depth s x with
  | none => none
  | some (rootX, s1) =>
    match UF.find depth s1 y with
    | none => none
    | some (rootY, s2) =>
      if rootX ≠ rootY then
        if s2.rank rootX < s2.rank rootY then some (s2.setParent rootX rootY)
        else if s2.rank rootX > s2.rank rootY then some (s2.setParent rootY rootX)
        else some ((s2.setParent rootY rootX).incRank rootX)
      else some s2

/-- One call made by the user of the class. -/
inductive Op where
  | union (x y : Nat)
  | find (x : Nat)
  deriving DecidableEq

/-- Execute one user call. -/
def step (depth : Nat) (s : UF) : Op → Option UF
  | .union x y => s.union depth x y
  | .find x => (s.find depth x).map Prod.snd

/-- Execute a history of user calls. -/
def run (depth : Nat) (s : UF) : List Op → Option UF
  | [] => some s
  | o :: os =>
    match step depth s o with
    | none => none
    | some s' => run depth s' os

/-! ## `group_tuples` (union_find.py:25-61) -/

/-- Insertion-ordered dict update `d[k].append(v)`, creating `[]` first when the key is new
(union_find.py:40-42 and the `defaultdict(list)` of line 55-58). -/
def dictAppend {α β : Type} [DecidableEq α] (d : List (α × List β)) (k : α) (v : β) : List (α × List β) :=
  match d with
  | [] => [(k, [v])]
  | (k', vs) :: rest => if k' = k then (k', vs ++ [v]) :: rest else (k', vs) :: dictAppend rest k v

/-- Step 1, inner loop (union_find.py:39-42): record index `i` under every digit of `tup`. -/
def addTuple (d : List (Int × List Nat)) (i : Nat) (tup : List Int) : List (Int × List Nat) :=
  tup.foldl (fun d num => dictAppend d num i) d

/-- Step 1 (union_find.py:38-42), `enumerate` starting at `i`. -/
def buildMap (d : List (Int × List Nat)) : Nat → List (List Int) → List (Int × List Nat)
  | _, [] => d
  | i, tup :: rest => buildMap (addTuple d i tup) (i + 1) rest

/-- Step 2, inner loop (union_find.py:48-49). -/
def unionAll (depth : Nat) (s : UF) (first : Nat) : List Nat → Option UF
  | [] => some s
  | j :: js =>
    match s.union depth first j with
    | none => none
    | some s' => unionAll depth s' first js

/-- Step 2 (union_find.py:45-49); `indices[0]` of an empty list would be an `IndexError`. -/
def unionDigits (depth : Nat) (s : UF) : List (Int × List Nat) → Option UF
  | [] => some s
  | (_, []) :: _ => none
  | (_, first :: others) :: rest =>
    match unionAll depth s first others with
    | none => none
    | some s' => unionDigits depth s' rest

/-- Step 3 (union_find.py:55-58). -/
def gather (depth : Nat) (s : UF) (g : List (Nat × List (List Int))) :
    Nat → List (List Int) → Option (List (Nat × List (List Int)))
  | _, [] => some g
  | i, tup :: rest =>
    match s.find depth i with
    | none => none
    | some (root, s') => gather depth s' (dictAppend g root tup) (i + 1) rest

/-- `group_tuples` (union_find.py:25-61). -/
def groupTuples (depth : Nat) (tuples : List (List Int)) : Option (List (List (List Int))) :=
  match unionDigits depth (UF.init tuples.length) (buildMap [] 0 tuples) with
  | none => none
  | some s =>
    match gather depth s [] 0 tuples with
    | none => none
    | some g => some (g.map Prod.snd)

end Verif.UnionFind
