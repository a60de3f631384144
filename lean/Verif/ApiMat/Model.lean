import Mathlib.Algebra.BigOperators.Group.Finset.Basic
import Mathlib.Algebra.Field.Basic
import Mathlib.Algebra.Order.Field.Basic

/-!
# Model of mmcore/api/_base_vectors.py and mmcore/api/vectors.py

Numbers are elements of a field.  A vector of dimension `d` is a function of an index, a matrix of
dimension `d` (an array of shape `(d + 1, d + 1)`) a function of two indices; `d` is 2 or 3.  Products of numpy are
sums.  `np.isclose`, `np.allclose`, trigonometric functions and rotation matrices of scipy are parameters.
-/

namespace Verif.ApiMat

open Finset

variable {K : Type} [Field K]

abbrev Vec (K : Type) := Nat → K

abbrev Mat (K : Type) := Nat → Nat → K

/-- `set_to_identity` (_base_vectors.py:247-253). -/
def ident : Mat K := fun i j => if i = j then 1 else 0

/-- What `Matrix2D(arg)` and `Matrix3D(arg)` are called with. -/
inductive Arg (K : Type)
  | none
  | cells (m : Mat K)
  | ndarray (m : Mat K)

/-- `Matrix2D.__init__`, `Matrix3D.__init__` (vectors.py:343-350, 477-484): `not arr` raises `ValueError` for
an array of several elements; in the other cases the new array is overwritten by the identity. -/
def newMatrix : Arg K → Option (Mat K)
  | .none => some ident
  | .cells _ => some ident
  | .ndarray _ => none

/-- `_construct_affine2d`, `_construct_affine3d` (vectors.py:301-333): axes and origin are rows. -/
def constructAffine (d : Nat) (origin : Vec K) (axes : Nat → Vec K) : Mat K := fun i j =>
  if i < d then (if j < d then axes i j else 0) else (if j < d then origin j else 1)

/-- `set_with_coordinate_system` (vectors.py:375-388, 520-536). -/
def setSystem (d : Nat) (_m : Mat K) (origin : Vec K) (axes : Nat → Vec K) : Mat K :=
  constructAffine d origin axes

/-- `get_as_coordinate_system` (vectors.py:431-448, 499-518): columns. -/
def getOrigin (d : Nat) (m : Mat K) : Vec K := fun i => m i d

def getAxis (m : Mat K) (k : Nat) : Vec K := fun i => m i k

/-- `translation` (vectors.py:450-464, 594-608). -/
def translation (d : Nat) (m : Mat K) : Vec K := fun i => m i d

def setTranslation (d : Nat) (m : Mat K) (v : Vec K) : Mat K := fun i j =>
  if i < d ∧ j = d then v i else m i j

/-- `matrix @ vector` (_base_vectors.py:264-268): the product with `(v, 1)`, of which `cast` keeps the first
`d` entries (vectors.py:44-49, 170-175). -/
def apply (d : Nat) (m : Mat K) (v : Vec K) : Vec K := fun i =>
  ∑ j ∈ range d, m i j * v j + m i d * 1

/-- `transform` (_base_vectors.py:255-262) and `matrix @ matrix` (_base_vectors.py:269-272). -/
def matmul (d : Nat) (a b : Mat K) : Mat K := fun i j => ∑ k ∈ range (d + 1), a i k * b k j

/-- `Matrix2D.set_to_rotation` (vectors.py:418-429) with the cosine and sine of the angle. -/
def setRotation2 (c s : K) (origin : Option (Vec K)) (m : Mat K) : Mat K :=
  let m1 : Mat K := fun i j =>
    if i = 0 ∧ j = 0 then c else if i = 0 ∧ j = 1 then -s
    else if i = 1 ∧ j = 0 then s else if i = 1 ∧ j = 1 then c else m i j
  match origin with
  | none => m1
  | some o => fun i j => if i < 2 ∧ j = 2 then o i - ∑ k ∈ range 2, o k * m1 k i else m1 i j

/-- `Matrix2D.set_to_rotate_to` (vectors.py:408-416); `cosA`, `sinA` are cosine and sine of
`np.arctan2(det, dot)`. -/
def setRotateTo2 (cosA sinA : K → K → K) (a b : Vec K) (m : Mat K) : Mat K :=
  let dot := a 0 * b 0 + a 1 * b 1
  let det := a 0 * b 1 - a 1 * b 0
  setRotation2 (cosA det dot) (sinA det dot) (some fun _ => 0) m

/-- `Matrix3D.set_to_rotation` (vectors.py:580-592): `r` is the matrix of scipy. -/
def setRotation3 (r : Mat K) (origin : Vec K) (m : Mat K) : Mat K := fun i j =>
  if i < 3 ∧ j < 3 then r i j else if i < 3 ∧ j = 3 then origin i else m i j

def cross (a b : Vec K) : Vec K := fun i =>
  a ((i + 1) % 3) * b ((i + 2) % 3) - a ((i + 2) % 3) * b ((i + 1) % 3)

def dot (d : Nat) (a b : Vec K) : K := ∑ i ∈ range d, a i * b i

/-- `Matrix3D.set_to_rotate_to` (vectors.py:560-578); `close0` is `np.allclose(rotvec, 0)`, `lt` the order,
`rot rotvec x` the matrix of `from_rotvec(arccos(clip x) * rotvec)`.  The returned value and the matrix. -/
def setRotateTo3 (close0 : Vec K → Bool) (neg : K → Bool) (rot : Vec K → K → Mat K) (a b : Vec K)
    (axis : Option (Vec K)) (m : Mat K) : Bool × Mat K :=
  let rv := cross a b
  if close0 rv then
    let rv' := match axis with
      | some x => if neg (dot 3 a b) then x else rv
      | none => rv
    (true, fun i j => if i < 3 ∧ j < 3 then rot rv' (dot 3 a b) i j else m i j)
  else (false, m)

/-- `set_to_align_coordinate_systems` (vectors.py:390-406, 538-558): the values `from_` and `to_` are `True`, and
`np.linalg.inv(True)` raises; the matrix has been set twice.  Whether it returns, and the matrix. -/
def setAlign (d : Nat) (m : Mat K) (fromO : Vec K) (fromA : Nat → Vec K) (toO : Vec K)
    (toA : Nat → Vec K) : Bool × Mat K :=
  (false, setSystem d (setSystem d m fromO fromA) toO toA)

/-- `invert` (_base_vectors.py:177-183); `inv` is `np.linalg.inv`. -/
def invert (inv : Nat → Mat K → Mat K) (d : Nat) (m : Mat K) : Mat K := inv (d + 1) m

/-- `BaseVector.is_parallel` (_base_vectors.py:132-138); `close` is `np.isclose`. -/
def isParallel (close : K → K → Bool) (abs : K → K) (d : Nat) (a b : Vec K) : Bool :=
  close (abs (dot d a b)) 1

/-- `Vector2D.is_parallel` (vectors.py:58-64). -/
def isParallel2 (close : K → K → Bool) (a b : Vec K) : Bool := close (dot 2 a b) 1

/-- `is_perpendicular` (_base_vectors.py:140-146, vectors.py:66-72). -/
def isPerpendicular (close : K → K → Bool) (d : Nat) (a b : Vec K) : Bool := close (dot d a b) 0

/-- `Vector2D.cast` of a sequence (vectors.py:44-49) with the depth of recursion left; `none` is
`RecursionError`. -/
def cast2 : Nat → List K → Option (List K)
  | 0, _ => none
  | n + 1, l => if l.length = 2 then some l else cast2 n (l.take 2)

/-- `Vector3D.cast` of a sequence (vectors.py:170-175). -/
def cast3 : Nat → List K → Option (List K)
  | 0, _ => none
  | n + 1, l => if l.length = 3 then some l else cast3 n ((l ++ [0, 0, 0]).take 3)

/-! ## Variables and objects -/

/-- Vectors by identity, and variables of the caller (`none` is `None`). -/
structure Env (K : Type) where
  obj : Nat → Vec K
  var : Nat → Option Nat

/-- What an in-place operator does to the array. -/
inductive Op
  | add
  | mul
  | sub

def Op.run {K : Type} [Field K] : Op → K → K → K
  | .add, a, b => a + b
  | .mul, a, b => a * b
  | .sub, a, b => a - b

/-- The statement `x += y` (`*=`, `-=`): `__iadd__` (_base_vectors.py:30-58) changes the object and returns `None`,
which Python assigns to the variable.  `none`: an operand is `None` (`TypeError`). -/
def inplace (op : Op) (x y : Nat) (e : Env K) : Option (Env K) :=
  match e.var x, e.var y with
  | some a, some b => some
      ⟨fun o => if o = a then fun i => op.run (e.obj a i) (e.obj b i) else e.obj o,
       fun v => if v = x then none else e.var v⟩
  | _, _ => none

/-- The method `subtract` (_base_vectors.py:157-164): the object changes, variables stay. -/
def subtract (x y : Nat) (e : Env K) : Option (Env K) :=
  match e.var x, e.var y with
  | some a, some b => some { e with
      obj := fun o => if o = a then fun i => e.obj a i - e.obj b i else e.obj o }
  | _, _ => none

/-- `dist(a, b)` of geom/vec/__init__.py:107 called with a list of positional arguments; `none` is `TypeError`. -/
def callDist (sqrt : K → K) (d : Nat) : List (Vec K) → Option K
  | [a, b] => some (sqrt (∑ i ∈ range d, (a i - b i) * (a i - b i)))
  | _ => none

/-- `Vector3D.length` (vectors.py:239-244). -/
def length3 (sqrt : K → K) (v : Vec K) : Option K := callDist sqrt 3 [v]

/-- `BaseVector.length` (_base_vectors.py:75-80), the one of `Vector2D`. -/
def length2 (sqrt : K → K) (v : Vec K) : Option K := some (sqrt (dot 2 v v))

/-- `angle_to` (_base_vectors.py:82-88) with `angle` of geom/vec/__init__.py:44-64; `none` is `ValueError`. -/
def angleTo [LinearOrder K] (arccos : K → K) (d : Nat) (a b : Vec K) : Option K :=
  if dot d a b < -1 ∨ dot d a b > 1 then none else some (arccos (dot d a b))

/-- `array.dot(vector)` of numpy for shapes `(r, c)` and `(n,)`; `none` is `ValueError`. -/
def npDot (r c n : Nat) (m : Mat K) (v : Vec K) : Option (List K) :=
  if c = n then some ((List.range r).map fun i => ∑ j ∈ range c, m i j * v j) else none

/-- `Vector2D.transform` (vectors.py:103-111): the new entries. -/
def transform2 (m : Mat K) (v : Vec K) : Option (List K) := npDot 3 3 2 m v

end Verif.ApiMat
