/-!
# Model of `serialize`, `deserialize` and pickling of NURBSCurve (mmcore/geom/nurbs.pyx)

Bytes are numbers below 256.  A `double` is an abstract value with an encoding in eight bytes
(`Codec`); copying memory copies encodings.  Little-endian machine, `sizeof(char*) = 8`,
`sizeof(int) = sizeof(bint) = 4`.
-/

namespace Verif.Serial

abbrev Bytes := List Nat

/-- Encoding of doubles. -/
structure Codec (D : Type) where
  enc : D → Bytes
  dec : Bytes → D
  size : ∀ d, (enc d).length = 8
  inv : ∀ d, dec (enc d) = d

variable {D : Type}

/-- A memory view of two dimensions: the memory from its first element on, and the strides. -/
structure View (D : Type) where
  mem : Nat → D
  rows : Nat
  dim : Nat
  rowStride : Nat
  colStride : Nat

/-- Elements of a view, as Python sees them. -/
def View.rowsOf (v : View D) : List (List D) :=
  (List.range v.rows).map fun i =>
    (List.range v.dim).map fun j => v.mem (i * v.rowStride + j * v.colStride)

/-- A memory view of one dimension. -/
structure View1 (D : Type) where
  mem : Nat → D
  size : Nat
  stride : Nat

def View1.items (v : View1 D) : List D := (List.range v.size).map fun i => v.mem (i * v.stride)

/-- The fields of a curve that are written. -/
structure Curve (D : Type) where
  degree : Int
  periodic : Bool
  ctrl : View D
  knots : View1 D

/-- The values of a curve that Python code can observe. -/
structure Val (D : Type) where
  degree : Int
  periodic : Bool
  ctrl : List (List D)
  knots : List D

def Curve.val (c : Curve D) : Val D := ⟨c.degree, c.periodic, c.ctrl.rowsOf, c.knots.items⟩

/-- Four bytes of a `uint32_t`. -/
def le32 (n : Nat) : Bytes := [n % 256, n / 256 % 256, n / 65536 % 256, n / 16777216 % 256]

/-- Conversion of an `int` to `uint32_t` and back. -/
def toU32 (z : Int) : Nat := (z % 4294967296).toNat

def toI32 (n : Nat) : Int := if n < 2147483648 then (n : Int) else (n : Int) - 4294967296

/-- `"NRBC"` (nurbs.pyx:1115). -/
def magic : Bytes := [78, 82, 66, 67]

/-- nurbs.pyx:1116. -/
def version : Nat := 1

/-- `memcpy` from the first element of a view: consecutive memory, whatever the strides. -/
def rawBytes (k : Codec D) (mem : Nat → D) (n : Nat) : Bytes :=
  (List.range n).flatMap fun i => k.enc (mem i)

/-- `cserialize` (nurbs.pyx:1801-1859).  `total_size` counts `sizeof(MAGIC_BYTES)`, the size of a
pointer, but four bytes are written: the last four bytes `tail` of the result are the memory that
`malloc` returned. -/
def serialize (k : Codec D) (tail : Bytes) (c : Curve D) : Bytes :=
  magic ++ (le32 version ++ (le32 (toU32 c.degree) ++ (le32 (if c.periodic then 1 else 0) ++
    (le32 c.ctrl.rows ++ (le32 c.knots.size ++
      (rawBytes k c.ctrl.mem (c.ctrl.rows * c.ctrl.dim) ++
        (rawBytes k c.knots.mem c.knots.size ++ tail)))))))

inductive Err
  | magic
  | version
  /-- memory outside the data is read -/
  | outside

/-- Read four bytes. -/
def readU32 : Bytes → Except Err (Nat × Bytes)
  | a :: b :: c :: d :: r => .ok (a + 256 * b + 65536 * c + 16777216 * d, r)
  | _ => .error .outside

/-- Read `n` doubles. -/
def readDoubles (k : Codec D) : Nat → Bytes → Except Err (List D × Bytes)
  | 0, b => .ok ([], b)
  | n + 1, b =>
    if b.length < 8 then .error .outside
    else match readDoubles k n (b.drop 8) with
      | .error e => .error e
      | .ok (l, r) => .ok (k.dec (b.take 8) :: l, r)

/-- Rows of four of a list of `4 n` elements. -/
def rows4 : Nat → List D → List (List D)
  | 0, _ => []
  | n + 1, l => l.take 4 :: rows4 n (l.drop 4)

/-- The part of `cdeserialize` after the header (nurbs.pyx:1906-1948).  Negative numbers of points
or knots and products beyond `int` ask `memcpy` for a size outside the data. -/
def readBody (k : Codec D) (b : Bytes) : Except Err (Val D) := do
  let (deg, b) ← readU32 b
  let (per, b) ← readU32 b
  let (n, b) ← readU32 b
  let (m, b) ← readU32 b
  if 536870912 ≤ n then .error .outside
  else if 2147483648 ≤ m then .error .outside
  else do
    let (pts, b) ← readDoubles k (n * 4) b
    let (kn, _) ← readDoubles k m b
    .ok ⟨toI32 deg, per ≠ 0, rows4 n pts, kn⟩

/-- `cdeserialize` (nurbs.pyx:1893-1948). -/
def deserialize (k : Codec D) (b : Bytes) : Except Err (Val D) :=
  if b.length < 4 then .error .outside
  else if b.take 4 ≠ magic then .error .magic
  else do
    let (v, b) ← readU32 (b.drop 4)
    if v ≠ version then .error .version
    else readBody k b

/-! ## Pickling -/

/-- `is_periodic` (nurbs.pyx:1221-1238): each row overwrites the result of the row before, and part 2
is the last `degree` rows (`[-0:]` is everything).  `eq` is `==` of doubles. -/
def rowEq (eq : D → D → Bool) (a b : List D) : Bool := (a.zip b).all fun p => eq p.1 p.2

def isPeriodic (eq : D → D → Bool) (degree : Nat) (pts : List (List D)) : Bool :=
  let part1 := pts.take degree
  let part2 := if degree = 0 then pts else pts.drop (pts.length - degree)
  (part1.zip part2).foldl (fun _ p => rowEq eq p.1 p.2) true

/-- `generate_knots_periodic` (nurbs.pyx:1359-1369); `ofInt` makes a double. -/
def periodicKnots (ofInt : Int → D) (degree n : Nat) : List D :=
  (List.range (n + degree + 1)).map fun i : Nat => ofInt ((i : Int) - degree)

/-- Values with a natural degree (`degree ≤ number of points` in every curve that evaluates). -/
structure PVal (D : Type) where
  degree : Nat
  periodic : Bool
  ctrl : List (List D)
  knots : List D

/-- `make_periodic` (nurbs.pyx:1383-1406). -/
def makePeriodic (eq : D → D → Bool) (ofInt : Int → D) (v : PVal D) : PVal D :=
  if isPeriodic eq v.degree v.ctrl then v
  else
    let pts := v.ctrl ++ v.ctrl.take v.degree
    ⟨v.degree, true, pts, periodicKnots ofInt v.degree pts.length⟩

/-- `__init__` with knots given (nurbs.pyx:1151-1171): rows of three get the weight one. -/
def init (eq : D → D → Bool) (ofInt : Int → D) (pts : List (List D)) (degree : Nat) (knots : List D)
    (periodic : Bool) : PVal D :=
  let pts4 := pts.map fun r => if r.length = 4 then r else r ++ [ofInt 1]
  let v : PVal D := ⟨degree, periodic, pts4, knots⟩
  if periodic then makePeriodic eq ofInt v else v

/-- `pickle.loads(pickle.dumps(curve))` with `__reduce__` (nurbs.pyx:1149-1150): the constructor is
called with the stored fields. -/
def pickle (eq : D → D → Bool) (ofInt : Int → D) (v : PVal D) : PVal D :=
  init eq ofInt v.ctrl v.degree v.knots v.periodic

/-- The setter of `control_points` (nurbs.pyx:1280-1296). -/
def setCtrl (ofInt : Int → D) (v : PVal D) (pts : List (List D)) : Option (PVal D) :=
  if pts.length < v.degree + 1 then none
  else if pts.length ≠ v.ctrl.length then none
  else some { v with ctrl := pts.map fun r => if r.length = 4 then r else r ++ [ofInt 1] }

end Verif.Serial
