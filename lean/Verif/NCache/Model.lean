/-!
# Model of the evaluation cache of NURBSCurve (mmcore/geom/nurbs.pyx)

Arrays are objects of a heap: control points (`C`), knot vectors (`K`) and results (`V`), because
the constructor and the setters keep references to arrays of the caller and the getters and
`evaluate` hand out references.  `ev` is the evaluation of `(degree, control points, knots, periodic)`
at a parameter.
-/

namespace Verif.NCache

/-- The data of a curve. -/
structure Dat (C K : Type) where
  degree : Nat
  ctrl : C
  knots : K
  periodic : Bool

/-- A `NURBSCurve`: locations of its arrays, the curve whose `_evaluate` is wrapped by its
`lru_cache`, and the entries of that cache (parameter and location of the result). -/
structure Obj (T : Type) where
  cp : Nat
  kn : Nat
  degree : Nat
  periodic : Bool
  owner : Nat
  cache : List (T × Nat)

/-- Heap and curves; the numbers are the first free locations. -/
structure St (C K T V : Type) where
  ctrl : Nat → C
  nc : Nat
  kn : Nat → K
  nk : Nat
  res : Nat → V
  nr : Nat
  obj : Nat → Obj T
  no : Nat

/-- Change a function at one place. -/
def upd {α : Type} (f : Nat → α) (i : Nat) (a : α) : Nat → α := fun j => if j = i then a else f j

variable {C K T V : Type}

/-- The current data of a curve. -/
def St.data (s : St C K T V) (o : Nat) : Dat C K :=
  ⟨(s.obj o).degree, s.ctrl (s.obj o).cp, s.kn (s.obj o).kn, (s.obj o).periodic⟩

/-- Allocate control points. -/
def St.newCtrl (s : St C K T V) (c : C) : St C K T V := { s with ctrl := upd s.ctrl s.nc c, nc := s.nc + 1 }

/-- Allocate knots. -/
def St.newKnots (s : St C K T V) (k : K) : St C K T V := { s with kn := upd s.kn s.nk k, nk := s.nk + 1 }

/-- Replace a curve. -/
def St.setObj (s : St C K T V) (o : Nat) (x : Obj T) : St C K T V := { s with obj := upd s.obj o x }

/-- A new curve. -/
def St.newObj (s : St C K T V) (x : Obj T) : St C K T V :=
  { s with obj := upd s.obj s.no x, no := s.no + 1 }

/-- Operations of user code. -/
inductive Call (C K T V : Type)
  /-- an array of control points or knots of the user -/
  | array (c : C)
  | knotArray (k : K)
  /-- `NURBSCurve(points, degree, knots, periodic)` with the user's arrays -/
  | create (lc lk : Nat) (degree : Nat) (periodic : Bool)
  /-- `curve.evaluate(t)` -/
  | eval (o : Nat) (t : T)
  /-- `curve.control_points = …` -/
  | setCtrl (o : Nat) (c : C)
  /-- `curve.weights = …`: writes into the array -/
  | setWeights (o : Nat) (f : C → C)
  /-- `curve.knots = array` -/
  | setKnots (o lk : Nat)
  /-- `curve.set(points, knots)` -/
  | set (o lc lk : Nat)
  /-- `curve.degree = d` -/
  | setDegree (o d : Nat)
  /-- `curve.normalize_knots()`: writes into the array -/
  | normalize (o : Nat) (f : K → K)
  /-- `insert_knot`, `make_periodic`, `make_open`: new arrays -/
  | rebuild (o : Nat) (c : C) (k : K) (periodic : Bool)
  /-- `curve.copy()` -/
  | copy (o : Nat)
  /-- `copy.deepcopy(curve)` -/
  | deepcopy (o : Nat)
  /-- writing through a view, the knot array or a result -/
  | writeCtrl (l : Nat) (f : C → C)
  | writeKnots (l : Nat) (f : K → K)
  | writeRes (l : Nat) (f : V → V)

/-- The cached value of a parameter. -/
def find [DecidableEq T] (t : T) : List (T × Nat) → Option Nat
  | [] => none
  | e :: l => if e.1 = t then some e.2 else find t l

/-- `evaluate` (nurbs.pyx:1533-1544): the result array, from the cache or a new one computed by the
wrapped method. -/
def evaluate [DecidableEq T] (ev : Dat C K → T → V) (s : St C K T V) (o : Nat) (t : T) :
    Nat × St C K T V :=
  match find t (s.obj o).cache with
  | some l => (l, s)
  | none =>
    (s.nr, { s with
      res := upd s.res s.nr (ev (s.data (s.obj o).owner) t)
      nr := s.nr + 1
      obj := upd s.obj o { s.obj o with cache := (t, s.nr) :: (s.obj o).cache } })

/-- `ccopy` (nurbs.pyx:1753-1789): new arrays; `__cinit__` (1143-1144) wraps the method of the given
curve. -/
def copyWith (s : St C K T V) (o owner : Nat) : St C K T V :=
  ((s.newCtrl (s.ctrl (s.obj o).cp)).newKnots (s.kn (s.obj o).kn)).newObj
    ⟨s.nc, s.nk, (s.obj o).degree, (s.obj o).periodic, owner, []⟩

/-- One operation; the location of the result of `evaluate`. -/
def exec [DecidableEq T] (ev : Dat C K → T → V) (s : St C K T V) :
    Call C K T V → Option Nat × St C K T V
  | .array c => (none, s.newCtrl c)
  | .knotArray k => (none, s.newKnots k)
  -- nurbs.pyx:1143-1172: control points are copied, knots are kept
  | .create lc lk d p => (none, (s.newCtrl (s.ctrl lc)).newObj ⟨s.nc, lk, d, p, s.no, []⟩)
  | .eval o t => let r := evaluate ev s o t; (some r.1, r.2)
  -- nurbs.pyx:1280-1296
  | .setCtrl o c => (none, (s.newCtrl c).setObj o { s.obj o with cp := s.nc, cache := [] })
  -- nurbs.pyx:1314-1317
  | .setWeights o f => (none,
      { s with ctrl := upd s.ctrl (s.obj o).cp (f (s.ctrl (s.obj o).cp)) }.setObj o
        { s.obj o with cache := [] })
  -- nurbs.pyx:1304-1309
  | .setKnots o lk => (none, s.setObj o { s.obj o with kn := lk, cache := [] })
  -- nurbs.pyx:1499-1502
  | .set o lc lk => (none, s.setObj o { s.obj o with cp := lc, kn := lk, cache := [] })
  -- nurbs.pyx:1207-1219
  | .setDegree o d => (none, s.setObj o { s.obj o with degree := d })
  -- nurbs.pyx:1872-1887
  | .normalize o f => (none,
      { s with kn := upd s.kn (s.obj o).kn (f (s.kn (s.obj o).kn)) }.setObj o
        { s.obj o with cache := [] })
  -- nurbs.pyx:1383-1423, 1716-1748
  | .rebuild o c k p => (none, ((s.newCtrl c).newKnots k).setObj o
      { s.obj o with cp := s.nc, kn := s.nk, periodic := p, cache := [] })
  -- nurbs.pyx:1792-1796: the method of the original
  | .copy o => (none, copyWith s o o)
  -- nurbs.pyx:1199-1206: `weights` is assigned to itself
  | .deepcopy o => (none, copyWith s o s.no)
  | .writeCtrl l f => (none, { s with ctrl := upd s.ctrl l (f (s.ctrl l)) })
  | .writeKnots l f => (none, { s with kn := upd s.kn l (f (s.kn l)) })
  | .writeRes l f => (none, { s with res := upd s.res l (f (s.res l)) })

/-- A history. -/
def run [DecidableEq T] (ev : Dat C K → T → V) (s : St C K T V) (cs : List (Call C K T V)) :
    St C K T V :=
  cs.foldl (fun s c => (exec ev s c).2) s

/-- Locations and curves mentioned by a call exist. -/
def Valid (s : St C K T V) : Call C K T V → Prop
  | .array _ => True
  | .knotArray _ => True
  | .create lc lk _ _ => lc < s.nc ∧ lk < s.nk
  | .eval o _ => o < s.no
  | .setCtrl o _ => o < s.no
  | .setWeights o _ => o < s.no
  | .setKnots o lk => o < s.no ∧ lk < s.nk
  | .set o lc lk => o < s.no ∧ lc < s.nc ∧ lk < s.nk
  | .setDegree o _ => o < s.no
  | .normalize o _ => o < s.no
  | .rebuild o _ _ _ => o < s.no
  | .copy o => o < s.no
  | .deepcopy o => o < s.no
  | .writeCtrl l _ => l < s.nc
  | .writeKnots l _ => l < s.nk
  | .writeRes l _ => l < s.nr

/-- Nothing exists yet. -/
def empty (c : C) (k : K) (v : V) : St C K T V :=
  ⟨fun _ => c, 0, fun _ => k, 0, fun _ => v, 0, fun _ => ⟨0, 0, 0, false, 0, []⟩, 0⟩

end Verif.NCache
