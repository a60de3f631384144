import Mathlib.Algebra.Order.Field.Rat
import Mathlib.Algebra.Order.Group.Abs

/-! # Base classes of the API and the matrix of the bounded method

`Base.from_data`, `BaseType` and `ObjectCollection` of `mmcore/api/_base.py`, `_Matrix` of `mmcore/numeric/newton/bounded.py`.  Python values are
elements of a type; exceptions are `none`. -/

namespace Verif.Acl

/-! ## Classes of collections -/

/-- A class as seen by `ObjectCollection[...]`: `uid` is the identity of the class object. -/
structure Item where
  name : String
  uid : Nat
deriving DecidableEq

/-- A class made by `__class_getitem__`: its name, its identity (the number of classes made before) and `item_type`. -/
structure Made where
  name : String
  uid : Nat
  item : Item
deriving DecidableEq

/-- `ObjectCollection[item]` (_base.py:101-109) on the state of `__collection_classes__`. -/
def classGetItem (reg : List Made) (cname : String) (item : Item) : List Made × Made :=
  let name := cname ++ ("[" ++ (item.name ++ "]"))
  match reg.find? fun m => decide (m.name = name) with
  | some m => (reg, m)
  | none => (reg ++ [⟨name, reg.length, item⟩], ⟨name, reg.length, item⟩)

/-- The state after a program has used `ObjectCollection[...]` for the items in order. -/
def runGet (cname : String) (reg : List Made) : List Item → List Made
  | [] => reg
  | i :: l => runGet cname (classGetItem reg cname i).1 l

/-! ## Methods of collections -/

/-- The documented calls that change a collection. -/
inductive Op (V : Type)
  | add (v : V)
  | remove (v : V)
  | delete (i : Int)
  | clear

/-- `add`, `remove`, `__delitem__`, `clear` (_base.py:136-185) return `bool()` and do nothing. -/
def apply {V : Type} (c : List V) : Op V → List V × Bool
  | .add _ => (c, false)
  | .remove _ => (c, false)
  | .delete _ => (c, false)
  | .clear => (c, false)

/-- A program of such calls: the contents after it and the answers. -/
def runOps {V : Type} (c : List V) : List (Op V) → List V × List Bool
  | [] => (c, [])
  | o :: l => let r := apply c o; let s := runOps r.1 l; (s.1, r.2 :: s.2)

/-- `find` (_base.py:162-169). -/
def find {V : Type} (_ : List V) (_ : V) (_ : Int) : Int := 0
/-- `__contains__` (_base.py:171-177). -/
def contains {V : Type} (_ : List V) (_ : V) : Bool := false
/-- `count` (_base.py:187-192). -/
def count {V : Type} (_ : List V) : Int := 0
/-- `__getitem__` (_base.py:128-134): a new object of class `Base`, made by `fresh`. -/
def getItem {V : Type} (fresh : V) (_ : List V) (_ : Int) : V := fresh
/-- `cast` (_base.py:114-116): the items are cast in order; the inherited constructor of lists keeps them. -/
def cast {A V : Type} (itemCast : A → Option V) (arg : List A) : Option (List V) := arg.mapM itemCast
/-- The inherited `list.append` and `len`, which are not overridden. -/
def append {V : Type} (c : List V) (v : V) : List V := c ++ [v]

/-! ## `from_data` -/

/-- A `create` method: its parameters after `cls` with their defaults, and whether it takes `**kwargs`. -/
structure Create (V : Type) where
  params : List (String × Option V)
  varkw : Bool

/-- The value of one parameter. -/
def argOf {V : Type} (kw : List (String × V)) (p : String × Option V) : Option V := match kw.lookup p.1 with | some v => some v | none => p.2

/-- A call with keyword arguments: the values of the parameters, and the extra keywords; `none` is the `TypeError` for an unknown keyword or a
missing value. -/
def call {V : Type} (f : Create V) (kw : List (String × V)) : Option (List V × List (String × V)) :=
  if (!f.varkw && kw.any fun k => decide (k.1 ∉ f.params.map Prod.fst)) then none
  else (f.params.mapM (argOf kw)).map fun vs =>
    (vs, kw.filter fun k => decide (k.1 ∉ f.params.map Prod.fst))

/-- A class as the chain of the `create` methods in its method resolution order: `none` where a class does not define one. -/
abbrev Mro (V : Type) := List (Option (Create V))

/-- The method found by `cls.create`. -/
def resolve {V : Type} : Mro V → Option (Create V)
  | [] => none
  | some c :: _ => some c
  | none :: l => resolve l

/-- `__create_accept_args__` as set by `BaseType.__new__` (_base.py:14-27): from the class's own `create`, else from the `lambda` that takes
`**kwargs`. -/
def accept {V : Type} : Mro V → List String × Bool
  | some c :: _ => (c.params.map Prod.fst, c.varkw)
  | _ => ([], true)

/-- `from_data` (_base.py:41-47); `pyNone` is `None`, `data` the mapping. -/
def fromData {V : Type} (pyNone : V) (m : Mro V) (data : List (String × V)) : Option (List V × List (String × V)) :=
  match resolve m with
  | none => none
  | some c =>
    if (accept m).2 then call c data
    else call c ((accept m).1.map fun k => (k, (data.lookup k).getD pyNone))

/-! ## `_Matrix` -/

section
variable {K : Type} [Field K] [LinearOrder K]

/-- A matrix as its list of rows; entries outside are not used. -/
abbrev Mat (K : Type) := List (List K)

/-- An entry. -/
def ent (A : Mat K) (i j : Nat) : K := (A.getD i []).getD j 0

/-- The loop of `back_solve` (bounded.py:80-90) from row `i - 1` to row `0`, with the values `x` of the later rows in order; `none` is the
return of zeros for a pivot too small. -/
def backLoop (small : K) (A : Mat K) (b : List K) : Nat → List K → Option (List K)
  | 0, x => some x
  | i + 1, x =>
    if |ent A i i| < small then none
    else backLoop small A b i (((List.range x.length).foldl (fun s k => s - ent A i (i + 1 + k) * x.getD k 0) (b.getD i 0) / ent A i i) :: x)

/-- `back_solve` (bounded.py:70-90). -/
def backSolve (small : K) (A : Mat K) (b : List K) : List K := (backLoop small A b b.length []).getD (List.replicate b.length 0)

/-- The pivot row of column `i` among the rows `r, r+1, …, r+k-1` (bounded.py:44-48). -/
def pivotRow (A : Mat K) (i : Nat) : Nat → Nat → Nat → Nat
  | 0, _, best => best
  | k + 1, r, best => pivotRow A i k (r + 1) (if |ent A r i| > |ent A best i| then r else best)

/-- The exchange of rows (bounded.py:51-52). -/
def swapRows (A : Mat K) (i j : Nat) : Mat K := (A.set i (A.getD j [])).set j (A.getD i [])

/-- Elimination below the pivot (bounded.py:62-65): in row `r` the columns from `i` on. -/
def elim (A : Mat K) (i : Nat) : Mat K :=
  A.mapIdx fun r row => if i < r then
    let f := row.getD i 0 / ent A i i
    row.mapIdx fun c a => if i ≤ c then a - f * ent A i c else a
  else row

/-- One step of `row_reduce` (bounded.py:42-65). -/
def reduceStep (small reg : K) (n : Nat) (A : Mat K) (i : Nat) : Mat K :=
  let p := pivotRow A i (n - (i + 1)) (i + 1) i
  let A := if p ≠ i then swapRows A i p else A
  let A := if |ent A i i| < small then A.set i ((A.getD i []).set i reg) else A
  elim A i

/-- `row_reduce` (bounded.py:35-67). -/
def rowReduce (small reg : K) (A : Mat K) : Mat K := (List.range A.length).foldl (reduceStep small reg A.length) A

/-- `form_reduced_hessian` (bounded.py:24-33): the rows and columns whose entry of `active_set` is 0. -/
def reducedHessian (active : List Nat) (h : Mat K) : Mat K :=
  let idx := (active.zipIdx.filter fun a => decide (a.1 = 0)).map Prod.snd
  idx.map fun i => idx.map fun j => ent h i j

end

end Verif.Acl
