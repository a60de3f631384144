import Verif.Nurbs.Model
import Verif.Nurbs.SurfModel

/-!
# Model of the derived data of NURBSCurve and NURBSSurface (mmcore/geom/nurbs.pyx)

Next to control points, degree and knots a curve keeps its interval and its Greville abscissae, and a
surface keeps its interval.  Knot vectors are numpy arrays that the constructors and setters keep by
reference, so they live on a heap.  Control points have any type.  A knot vector is not empty (the
code reads its first and last entry without a check).
-/

namespace Verif.Nst

/-- Change a function at one place. -/
def upd {α : Type} (f : Nat → α) (i : Nat) (a : α) : Nat → α := fun j => if j = i then a else f j

/-- Entry of an array. -/
def at' {K : Type} [Zero K] (l : List K) (i : Nat) : K := l.getD i 0

section
variable {K P : Type} [Field K] [LinearOrder K]

/-- `_update_interval` (nurbs.pyx:1371-1373): first and last knot. -/
def ends (k : List K) : K × K := (at' k 0, at' k (k.length - 1))

/-- `greville_abscissae` (nurbs.pyx:2073-2085). -/
def grev (k : List K) (d : Nat) : List K :=
  (List.range (k.length - d - 1)).map (Nurbs.greville (at' k) d)

/-- `generate_knots` (nurbs.pyx:1324-1349). -/
def openKnots (n d : Nat) : List K :=
  (List.range (n + d + 1)).map (Nurbs.generateKnots n d)

/-- `generate_knots_periodic` (nurbs.pyx:1359-1369). -/
def periodicKnots (n d : Nat) : List K :=
  (List.range (n + d + 1)).map fun i : Nat => (i : K) - (d : K)

/-- `knot_insertion_kv` (nurbs.pyx:554-568). -/
def insKnots (k : List K) (t : K) (span c : Nat) : List K :=
  (List.range (k.length + c)).map (Nurbs.knotInsertionKv (at' k) t span c)

/-- `cnormalize_knots` of a curve (nurbs.pyx:1872-1879). -/
def normCurve (k : List K) : List K :=
  let start := k.foldl min (at' k 0)
  let stop := k.foldl max (at' k 0)
  let d := 1 / (stop - start)
  k.map fun x => (x - start) * d

/-- `cnormalize_knots_u`, `cnormalize_knots_v` of a surface (nurbs.pyx:2527-2549). -/
def normSurf (k : List K) : List K :=
  let mn := at' k 0
  let mx := at' k (k.length - 1)
  k.map fun x => (x - mn) / (mx - mn)

/-! ## Curves -/

/-- The fields of a `NURBSCurve` (nurbs.pxd:435-441) apart from the cache; `kn` is the location of the
knots. -/
structure Crv (K P : Type) where
  cp : List P
  degree : Nat
  kn : Nat
  iv : K × K
  gre : List K
  periodic : Bool

/-- Knot arrays and curves. -/
structure St (K P : Type) where
  heap : Nat → List K
  nk : Nat
  obj : Nat → Crv K P
  no : Nat

/-- What is taken over from other models: `is_periodic` (nurbs.pyx:1221-1238), the span of a parameter
(`find_span_inline`) and the control points after an insertion. -/
structure Env (K P : Type) where
  isPer : Nat → List P → Bool
  span : List P → Nat → List K → K → Nat
  ins : List P → Nat → List K → K → Nat → List P

/-- Calls of user code. -/
inductive Op (K P : Type)
  /-- an array of the user -/
  | array (k : List K)
  /-- the user writes into an array (their own, or the one that the getter `knots` hands out) -/
  | write (l : Nat) (k : List K)
  /-- `NURBSCurve(points, degree, knots, periodic)` -/
  | create (cp : List P) (d : Nat) (l : Option Nat) (per : Bool)
  | setDegree (o d : Nat)
  | setKnots (o l : Nat)
  | setCtrl (o : Nat) (cp : List P)
  /-- `curve.set(points, knots)` -/
  | set (o : Nat) (cp : List P) (l : Nat)
  | insert (o : Nat) (t : K) (c : Nat)
  | normalize (o : Nat)
  | makePeriodic (o : Nat)
  /-- `copy` and `deepcopy` -/
  | copy (o : Nat)
  /-- `NURBSCurve.deserialize(curve.serialize())` -/
  | reload (o : Nat)

/-- `knots_update_hook` (nurbs.pyx:1353-1356) for the array at `l`. -/
def hook (s : St K P) (c : Crv K P) : Crv K P :=
  { c with iv := ends (s.heap c.kn), gre := grev (s.heap c.kn) c.degree }

/-- A new array. -/
def St.alloc (s : St K P) (k : List K) : St K P := { s with heap := upd s.heap s.nk k, nk := s.nk + 1 }

/-- Replace a curve. -/
def St.put (s : St K P) (o : Nat) (c : Crv K P) : St K P := { s with obj := upd s.obj o c }

/-- `make_periodic` (nurbs.pyx:1383-1406). -/
def mkPeriodic (e : Env K P) (s : St K P) (o : Nat) : St K P :=
  let c := s.obj o
  if e.isPer c.degree c.cp then s
  else
    let cp := c.cp ++ c.cp.take c.degree
    let s' := s.alloc (periodicKnots cp.length c.degree)
    s'.put o (hook s' { c with cp := cp, kn := s.nk, periodic := true })

/-- The constructor (nurbs.pyx:1151-1171) without its last step. -/
def mkBase (s : St K P) (cp : List P) (d : Nat) (l : Option Nat) (per : Bool) : St K P :=
  match l with
  | none =>
    let s' := s.alloc (openKnots cp.length d)
    { s' with obj := upd s'.obj s.no (hook s' ⟨cp, d, s.nk, (0, 0), [], per⟩), no := s.no + 1 }
  | some l => { s with obj := upd s.obj s.no (hook s ⟨cp, d, l, (0, 0), [], per⟩), no := s.no + 1 }

/-- One call. -/
def step (e : Env K P) (s : St K P) : Op K P → St K P
  | .array k => s.alloc k
  | .write l k => { s with heap := upd s.heap l k }
  -- nurbs.pyx:1151-1171
  | .create cp d l per =>
    let s' := mkBase s cp d l per
    if per then mkPeriodic e s' s.no else s'
  -- nurbs.pyx:1207-1219
  | .setDegree o d => s.put o { s.obj o with degree := d }
  -- nurbs.pyx:1303-1308
  | .setKnots o l => s.put o (hook s { s.obj o with kn := l })
  -- nurbs.pyx:1279-1295
  | .setCtrl o cp => s.put o { s.obj o with cp := cp }
  -- nurbs.pyx:1499-1502
  | .set o cp l => s.put o { s.obj o with cp := cp, kn := l }
  -- nurbs.pyx:1716-1748: the interval is updated, the abscissae are not
  | .insert o t c =>
    let x := s.obj o
    let k := s.heap x.kn
    let s' := s.alloc (insKnots k t (e.span x.cp x.degree k t) c)
    s'.put o { x with cp := e.ins x.cp x.degree k t c, kn := s.nk, iv := ends (s'.heap s.nk) }
  -- nurbs.pyx:1872-1885: in place
  | .normalize o =>
    let x := s.obj o
    let s' := { s with heap := upd s.heap x.kn (normCurve (s.heap x.kn)) }
    s'.put o (hook s' x)
  | .makePeriodic o => mkPeriodic e s o
  -- nurbs.pyx:1753-1789 (1199-1206 and 1792-1796 add nothing here)
  | .copy o =>
    let x := s.obj o
    let s' := s.alloc (s.heap x.kn)
    { s' with obj := upd s'.obj s.no { x with kn := s.nk }, no := s.no + 1 }
  -- nurbs.pyx:1893-1948
  | .reload o =>
    let x := s.obj o
    let s' := s.alloc (s.heap x.kn)
    { s' with obj := upd s'.obj s.no (hook s' { x with kn := s.nk }), no := s.no + 1 }

/-- A history. -/
def run (e : Env K P) (s : St K P) (ops : List (Op K P)) : St K P := ops.foldl (step e) s

/-- Nothing exists yet. -/
def empty : St K P := ⟨fun _ => [], 0, fun _ => ⟨[], 0, 0, (0, 0), [], false⟩, 0⟩

/-- `geometry_hash(check_interval=True)` (nurbs.pyx:1177-1195): degree, bytes of the knots and of the
control points and the interval; `bytes` is injective on lists of doubles of one length, so that lists stand
for their bytes; `h` is `hash` of tuples. -/
def geometryHash (h : Nat × List K × List P × K × K → Int) (s : St K P) (o : Nat) : Int :=
  let x := s.obj o
  h (x.degree, s.heap x.kn, x.cp, x.iv.1, x.iv.2)

/-- `__eq__` (nurbs.pyx:1196-1197) for two curves. -/
def eqCrv (h : Nat × List K × List P × K × K → Int) (s : St K P) (a b : Nat) : Bool :=
  geometryHash h s a == geometryHash h s b

/-- `__eq__` for another object, whose `__hash__()` is given. -/
def eqObj (h : Nat × List K × List P × K × K → Int) (s : St K P) (a : Nat) (hash : Int) : Bool :=
  geometryHash h s a == hash

/-! ## Surfaces -/

/-- The fields of a `NURBSSurface` (nurbs.pxd:499-510) and `_interval`; control points are left out but for
their numbers. -/
structure Srf (K : Type) where
  size : Nat × Nat
  degree : Nat × Nat
  ku : Nat
  kv : Nat
  iu : K × K
  iv : K × K

structure SSt (K : Type) where
  heap : Nat → List K
  nk : Nat
  obj : Nat → Srf K
  no : Nat

/-- Calls of user code. -/
inductive SOp (K : Type)
  | array (k : List K)
  | write (l : Nat) (k : List K)
  | create (size degree : Nat × Nat) (lu lv : Option Nat)
  | setU (o l : Nat)
  | setV (o l : Nat)
  | setDegree (o : Nat) (d : Nat × Nat)
  | insertU (o : Nat) (t : K) (c : Nat)
  | insertV (o : Nat) (t : K) (c : Nat)
  | normalize (o : Nat)
  | copy (o : Nat)

/-- `_update_interval` (nurbs.pyx:2395-2399). -/
def upInterval (heap : Nat → List K) (x : Srf K) : Srf K :=
  { x with iu := ends (heap x.ku), iv := ends (heap x.kv) }

def SSt.alloc (s : SSt K) (k : List K) : SSt K := { s with heap := upd s.heap s.nk k, nk := s.nk + 1 }

def SSt.put (s : SSt K) (o : Nat) (x : Srf K) : SSt K := { s with obj := upd s.obj o x }

/-- The user's array, or a new one with the default knots (nurbs.pyx:2403-2460). -/
def orDefault (s : SSt K) (l : Option Nat) (n d : Nat) : SSt K × Nat :=
  match l with
  | some l => (s, l)
  | none => (s.alloc (openKnots n d), s.nk)

/-- One call; `span` is the span of the parameter for the insertions. -/
def sstep (span : Nat → Nat → List K → K → Nat) (s : SSt K) : SOp K → SSt K
  | .array k => s.alloc k
  | .write l k => { s with heap := upd s.heap l k }
  -- nurbs.pyx:2291-2325
  | .create size degree lu lv =>
    let a := orDefault s lu size.1 degree.1
    let b := orDefault a.1 lv size.2 degree.2
    { b.1 with
      obj := upd b.1.obj s.no (upInterval b.1.heap ⟨size, degree, a.2, b.2, (0, 0), (0, 0)⟩)
      no := s.no + 1 }
  -- nurbs.pyx:2329-2332
  | .setU o l => s.put o (upInterval s.heap { s.obj o with ku := l })
  -- nurbs.pyx:2377-2380
  | .setV o l => s.put o (upInterval s.heap { s.obj o with kv := l })
  -- nurbs.pyx:2385-2390: default knots, the interval stays
  | .setDegree o d =>
    let x := s.obj o
    let a := s.alloc (openKnots x.size.1 d.1)
    let b := a.alloc (openKnots x.size.2 d.2)
    b.put o { x with degree := d, ku := s.nk, kv := a.nk }
  -- nurbs.pyx:2598-2637
  | .insertU o t c =>
    let x := s.obj o
    let k := s.heap x.ku
    let s' := s.alloc (insKnots k t (span x.size.1 x.degree.1 k t) c)
    s'.put o (upInterval s'.heap { x with size := (x.size.1 + c, x.size.2), ku := s.nk })
  -- nurbs.pyx:2658-2694
  | .insertV o t c =>
    let x := s.obj o
    let k := s.heap x.kv
    let s' := s.alloc (insKnots k t (span x.size.2 x.degree.2 k t) c)
    s'.put o (upInterval s'.heap { x with size := (x.size.1, x.size.2 + c), kv := s.nk })
  -- nurbs.pyx:2527-2561: in place, first u and then v
  | .normalize o =>
    let x := s.obj o
    let h1 := upd s.heap x.ku (normSurf (s.heap x.ku))
    let h2 := upd h1 x.kv (normSurf (h1 x.kv))
    { s with heap := h2, obj := upd s.obj o (upInterval h2 x) }
  -- nurbs.pyx:2475-2513
  | .copy o =>
    let x := s.obj o
    let a := s.alloc (s.heap x.ku)
    let b := a.alloc (s.heap x.kv)
    { b with obj := upd b.obj s.no { x with ku := s.nk, kv := a.nk }, no := s.no + 1 }

def srun (span : Nat → Nat → List K → K → Nat) (s : SSt K) (ops : List (SOp K)) : SSt K :=
  ops.foldl (sstep span) s

def sempty : SSt K := ⟨fun _ => [], 0, fun _ => ⟨(0, 0), (0, 0), 0, 0, (0, 0), (0, 0)⟩, 0⟩
end

/-! ## Attributes of a surface -/

/-- Attributes that `NURBSSurface` objects have: fields of the class and its base (nurbs.pxd:499-510,
parametric.pxd:30), and the properties (nurbs.pyx:2326-2390) that matter here.  Instances of a `cdef class`
have no `__dict__`. -/
def surfaceAttributes : List String :=
  ["_interval", "_control_points_arr", "_knots_u", "_knots_v", "_size", "_degree", "control_points_view",
   "control_points_flat_view", "knots_u", "knots_v", "control_points", "control_points_flat",
   "control_points_flat_w", "shape", "control_points_w", "degree"]

/-- The attributes that `geometry_hash` of a surface reads, in this order (nurbs.pyx:2565-2572). -/
def hashReads : List String :=
  ["_knots_u", "_knots_v", "_control_points", "_interval"]

/-- `geometry_hash` of a surface (nurbs.pyx:2565-2578): an attribute that is not there is an
`AttributeError`; otherwise some hash. -/
def surfaceHash (hash : Int) : Except String Int :=
  match hashReads.find? (fun a => !surfaceAttributes.contains a) with
  | some a => .error a
  | none => .ok hash

/-- `__eq__` of two surfaces (nurbs.pyx:2582-2583), which may be one object. -/
def surfaceEq (h1 h2 : Int) : Except String Bool := do
  let a ← surfaceHash h1
  let b ← surfaceHash h2
  return a == b

/-! ## The buffer of control points of a surface -/

/-- Blocks of memory that are allocated, surfaces with their block (none: collected), and views that were handed
out with the block they point to. -/
structure Mem where
  live : List Nat
  next : Nat
  surf : Nat → Option Nat
  ns : Nat
  views : List Nat

inductive MOp
  /-- a new surface (constructor or copy) -/
  | create
  /-- `control_points_w` or `control_points_flat_w` -/
  | view (o : Nat)
  /-- `control_points` or `control_points_flat`: a new array -/
  | points (o : Nat)
  /-- `insert_knot_u`, `insert_knot_v` -/
  | insert (o : Nat)
  /-- the last reference to the surface goes -/
  | collect (o : Nat)

/-- One call.  After `realloc` (nurbs.pyx:2614, 2673) the old pointer must not be used. -/
def mstep (m : Mem) : MOp → Mem
  | .create => { m with live := m.next :: m.live, next := m.next + 1, surf := upd m.surf m.ns (some m.next), ns := m.ns + 1 }
  -- nurbs.pyx:2366-2375: the field itself, which points into the buffer and does not own it
  | .view o => match m.surf o with
    | some b => { m with views := m.views ++ [b] }
    | none => m
  -- nurbs.pyx:2337-2365: a copy
  | .points o => match m.surf o with
    | some _ => { m with live := m.next :: m.live, next := m.next + 1, views := m.views ++ [m.next] }
    | none => m
  | .insert o => match m.surf o with
    | some b => { m with live := m.next :: m.live.filter (· ≠ b), next := m.next + 1, surf := upd m.surf o (some m.next) }
    | none => m
  -- `__dealloc__` (nurbs.pyx:2696-2698)
  | .collect o => match m.surf o with
    | some b => { m with live := m.live.filter (· ≠ b), surf := upd m.surf o none }
    | none => m

def mrun (m : Mem) (ops : List MOp) : Mem := ops.foldl mstep m

def mempty : Mem := ⟨[], 0, fun _ => none, 0, []⟩

end Verif.Nst
